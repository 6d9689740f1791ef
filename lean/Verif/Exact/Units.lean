import Verif.Spec.Units
import Mathlib.Tactic.FieldSimp
import Mathlib.Tactic.Positivity
/-!
# The modeler in other units

Every function of the model commutes with a change of the units (`Spec/Units.lean`), on all values including infinities
and NaN.
-/
namespace Ink
namespace XR
noncomputable section
open Scalar Arith

/-! ### Numbers -/

theorem sub_def (x y : XR) : x - y = x + -y := rfl

section Numbers
variable {k : ℝ} (hk : 0 < k)
include hk

theorem scale_inf (b : Bool) : fin k * inf b = inf b := by
  show XR.mul _ _ = _
  simp [XR.mul, hk.ne', not_lt.2 hk.le]

omit hk in
theorem scale_nan : fin k * nan = nan := rfl

theorem scale_add (x y : XR) : fin k * (x + y) = fin k * x + fin k * y := by
  cases x <;> cases y <;> simp only [scale_inf hk, scale_nan, fin_mul, fin_add, mul_add]
  all_goals first | rfl | exact scale_inf hk _ | skip
  rename_i a b
  show fin k * XR.add (inf a) (inf b) = XR.add (inf a) (inf b)
  simp only [XR.add]
  split
  · exact scale_inf hk _
  · rfl

theorem scale_neg (x : XR) : fin k * (-x) = -(fin k * x) := by
  cases x with
  | nan => rfl
  | inf b => rw [scale_inf hk]; exact scale_inf hk _
  | fin r => simp

theorem scale_sub (x y : XR) : fin k * (x - y) = fin k * x - fin k * y := by
  rw [sub_def, scale_add hk, scale_neg hk, ← sub_def]

theorem scale_lt (x y : XR) : (fin k * x <ᵇ fin k * y) = (x <ᵇ y) := by
  cases x <;> cases y <;> simp only [scale_inf hk, scale_nan, fin_mul, fin_lt]
  all_goals first | rfl | skip
  simp [hk]

theorem scale_le (x y : XR) : (fin k * x ≤ᵇ fin k * y) = (x ≤ᵇ y) := by
  cases x <;> cases y <;> simp only [scale_inf hk, scale_nan, fin_mul, fin_le]
  all_goals first | rfl | skip
  simp [hk]

theorem scale_eq (x y : XR) : (fin k * x =ᵇ fin k * y) = (x =ᵇ y) := by
  cases x <;> cases y <;> simp only [scale_inf hk, scale_nan, fin_mul, fin_eq]
  all_goals first | rfl | skip
  simp [hk.ne']

theorem scale_isNaN (x : XR) : isNaN (fin k * x) = isNaN x := by
  cases x with
  | nan => rfl
  | inf b => rw [scale_inf hk]
  | fin r => rfl

theorem scale_isInf (x : XR) : isInf (fin k * x) = isInf x := by
  cases x with
  | nan => rfl
  | inf b => rw [scale_inf hk]
  | fin r => rfl

theorem scale_abs (x : XR) : abs (fin k * x) = fin k * abs x := by
  cases x with
  | nan => rfl
  | inf b => rw [scale_inf hk]; exact (scale_inf hk _).symm
  | fin r => simp [abs_mul, abs_of_pos hk]

theorem scale_hypot (x y : XR) : hypot (fin k * x) (fin k * y) = fin k * hypot x y := by
  cases x <;> cases y <;> simp only [scale_inf hk, scale_nan, fin_mul]
  all_goals first | rfl | exact (scale_inf hk _).symm | skip
  rename_i a b
  simp only [fin_hypot, fin_mul, fin_inj]
  rw [show (⟨k * a, k * b⟩ : ℂ) = (k : ℂ) * ⟨a, b⟩ by simp [Complex.ext_iff], norm_mul, Complex.norm_real, Real.norm_of_nonneg hk.le]

theorem mul_scale (x y : XR) : x * (fin k * y) = fin k * (x * y) := by
  cases x <;> cases y <;> simp only [scale_inf hk, scale_nan, fin_mul]
  all_goals first | rfl | exact (scale_inf hk _).symm | skip
  · rename_i a b
    show XR.mul (inf a) (fin (k * b)) = fin k * XR.mul (inf a) (fin b)
    have hn : k * b < 0 ↔ b < 0 := by
      constructor <;> intro h
      · by_contra hb; push Not at hb; exact absurd h (not_lt.2 (mul_nonneg hk.le hb))
      · exact mul_neg_of_pos_of_neg hk h
    simp only [XR.mul, mul_eq_zero, hk.ne', false_or, hn]
    split
    · rfl
    · exact (scale_inf hk _).symm
  · rename_i a b
    show XR.mul (fin a) (inf b) = fin k * XR.mul (fin a) (inf b)
    simp only [XR.mul]
    split
    · rfl
    · exact (scale_inf hk _).symm
  · rename_i a b
    rw [mul_left_comm]

theorem scale_mul (x y : XR) : (fin k * x) * y = fin k * (x * y) := by
  cases x <;> cases y <;> simp only [scale_inf hk, scale_nan, fin_mul]
  all_goals first | rfl | exact (scale_inf hk _).symm | skip
  · rename_i a b
    show XR.mul (inf a) (fin b) = fin k * XR.mul (inf a) (fin b)
    simp only [XR.mul]
    split
    · rfl
    · exact (scale_inf hk _).symm
  · rename_i a b
    show XR.mul (fin (k * a)) (inf b) = fin k * XR.mul (fin a) (inf b)
    have hn : k * a < 0 ↔ a < 0 := by
      constructor <;> intro h
      · by_contra hb; push Not at hb; exact absurd h (not_lt.2 (mul_nonneg hk.le hb))
      · exact mul_neg_of_pos_of_neg hk h
    simp only [XR.mul, mul_eq_zero, hk.ne', false_or, hn]
    split
    · rfl
    · exact (scale_inf hk _).symm
  · rename_i a b
    rw [mul_assoc]

theorem scale_div (x y : XR) : (fin k * x) / y = fin k * (x / y) := by
  cases x <;> cases y <;> simp only [scale_inf hk, scale_nan, fin_mul]
  all_goals first | rfl | exact (scale_inf hk _).symm | skip
  · show fin 0 = fin k * fin 0
    simp
  · rename_i a b
    have hn : k * a < 0 ↔ a < 0 := by
      constructor <;> intro h
      · by_contra hb; push Not at hb; exact absurd h (not_lt.2 (mul_nonneg hk.le hb))
      · exact mul_neg_of_pos_of_neg hk h
    simp only [fin_div', mul_eq_zero, hk.ne', false_or, hn]
    split
    · split
      · rfl
      · exact (scale_inf hk _).symm
    · simp [mul_div_assoc]

theorem div_scale (x y : XR) : x / (fin k * y) = fin k⁻¹ * (x / y) := by
  have hk' : 0 < k⁻¹ := inv_pos.2 hk
  cases x <;> cases y <;> simp only [scale_inf hk, scale_nan, fin_mul]
  all_goals first | rfl | exact (scale_inf hk' _).symm | skip
  · rename_i a b
    show XR.div (inf a) (fin (k * b)) = fin k⁻¹ * XR.div (inf a) (fin b)
    have hn : k * b < 0 ↔ b < 0 := by
      constructor <;> intro h
      · by_contra hb; push Not at hb; exact absurd h (not_lt.2 (mul_nonneg hk.le hb))
      · exact mul_neg_of_pos_of_neg hk h
    simp only [XR.div, hn]
    exact (scale_inf hk' _).symm
  · show fin 0 = fin k⁻¹ * fin 0
    simp
  · rename_i a b
    simp only [fin_div', mul_eq_zero, hk.ne', false_or]
    split
    · split
      · rfl
      · exact (scale_inf hk' _).symm
    · simp only [fin_mul, fin_inj]; field_simp

theorem scale_scale {j : ℝ} (hj : 0 < j) (x : XR) : fin j * (fin k * x) = fin (j * k) * x := by
  cases x with
  | nan => rfl
  | inf b => simp only [scale_inf hk, scale_inf hj, scale_inf (mul_pos hj hk)]
  | fin r => simp [mul_assoc]

theorem scale_stdMin (x y : XR) : stdMin (fin k * x) (fin k * y) = fin k * stdMin x y := by
  simp only [stdMin, scale_lt hk]; split <;> rfl
theorem scale_stdMax (x y : XR) : stdMax (fin k * x) (fin k * y) = fin k * stdMax x y := by
  simp only [stdMax, scale_lt hk]; split <;> rfl

end Numbers

/-! ### Offsets -/

section Offsets
variable (b b' : ℝ)

theorem scale_one (x : XR) : fin 1 * x = x := by
  cases x with
  | nan => rfl
  | inf b => exact scale_inf one_pos b
  | fin r => simp

theorem off_sub_off (x y : XR) : (x + fin b) - (y + fin b) = x - y := by
  rw [sub_def, sub_def]
  cases x <;> cases y
  all_goals first | rfl | skip
  simp

theorem off_add (x y : XR) : (x + fin b) + y = (x + y) + fin b := by
  cases x <;> cases y
  all_goals first | rfl | skip
  · rename_i a b
    show XR.add (inf a) (inf b) = XR.add (XR.add (inf a) (inf b)) _
    simp only [XR.add]
    split <;> rfl
  · simp [add_right_comm]

theorem off_add_off (x y : XR) : (x + fin b) + (y + fin b') = (x + y) + fin (b + b') := by
  cases x <;> cases y
  all_goals first | rfl | skip
  · rename_i a b
    show XR.add (inf a) (inf b) = XR.add (XR.add (inf a) (inf b)) _
    simp only [XR.add]
    split <;> rfl
  · simp only [fin_add, fin_inj]; ring

theorem off_lt (x y : XR) : (x + fin b <ᵇ y + fin b) = (x <ᵇ y) := by
  cases x <;> cases y
  all_goals first | rfl | skip
  simp
theorem off_le (x y : XR) : (x + fin b ≤ᵇ y + fin b) = (x ≤ᵇ y) := by
  cases x <;> cases y
  all_goals first | rfl | skip
  simp
theorem off_eq (x y : XR) : (x + fin b =ᵇ y + fin b) = (x =ᵇ y) := by
  cases x <;> cases y
  all_goals first | rfl | skip
  simp
theorem off_isNaN (x : XR) : isNaN (x + fin b) = isNaN x := by cases x <;> rfl
theorem off_isInf (x : XR) : isInf (x + fin b) = isInf x := by cases x <;> rfl
theorem off_zero (x : XR) : x + fin 0 = x := by
  cases x <;> first | rfl | simp

end Offsets

/-! ### Quantities -/

namespace Units
variable (U : Units) (i j k l : ℤ)

theorem factor_pos : 0 < U.c ^ i * U.τ ^ j := mul_pos (zpow_pos U.c_pos _) (zpow_pos U.τ_pos _)

theorem q_fin (r : ℝ) : U.q i j (fin r) = fin (U.c ^ i * U.τ ^ j * r) := rfl
@[simp] theorem q_inf (b : Bool) : U.q i j (inf b) = inf b := scale_inf (U.factor_pos i j) b
@[simp] theorem q_nan : U.q i j nan = nan := rfl
@[simp] theorem q_zero : U.q i j (fin 0) = fin 0 := by simp [q_fin]
@[simp] theorem q_one (x : XR) : U.q 0 0 x = x := by simp only [q, zpow_zero, mul_one, scale_one]
theorem q_add (x y : XR) : U.q i j x + U.q i j y = U.q i j (x + y) := (scale_add (U.factor_pos i j) x y).symm
theorem q_sub (x y : XR) : U.q i j x - U.q i j y = U.q i j (x - y) := (scale_sub (U.factor_pos i j) x y).symm
theorem q_neg (x : XR) : -U.q i j x = U.q i j (-x) := (scale_neg (U.factor_pos i j) x).symm
theorem q_q (x : XR) : U.q i j (U.q k l x) = U.q (i + k) (j + l) x := by
  rw [q, q, scale_scale (U.factor_pos k l) (U.factor_pos i j), q]
  rw [zpow_add₀ U.c_pos.ne', zpow_add₀ U.τ_pos.ne']
  congr 2; ring
theorem mul_q (x y : XR) : x * U.q i j y = U.q i j (x * y) := mul_scale (U.factor_pos i j) x y
theorem q_mul (x y : XR) : U.q i j x * y = U.q i j (x * y) := scale_mul (U.factor_pos i j) x y
theorem q_div (x y : XR) : U.q i j x / y = U.q i j (x / y) := scale_div (U.factor_pos i j) x y
theorem div_q (x y : XR) : x / U.q i j y = U.q (-i) (-j) (x / y) := by
  rw [q, div_scale (U.factor_pos i j), q, mul_inv, zpow_neg, zpow_neg]
@[simp] theorem q_lt (x y : XR) : (U.q i j x <ᵇ U.q i j y) = (x <ᵇ y) := scale_lt (U.factor_pos i j) x y
@[simp] theorem q_le (x y : XR) : (U.q i j x ≤ᵇ U.q i j y) = (x ≤ᵇ y) := scale_le (U.factor_pos i j) x y
@[simp] theorem q_eq (x y : XR) : (U.q i j x =ᵇ U.q i j y) = (x =ᵇ y) := scale_eq (U.factor_pos i j) x y
@[simp] theorem q_lt_zero (x : XR) : (U.q i j x <ᵇ fin 0) = (x <ᵇ fin 0) := by
  conv_lhs => rw [← U.q_zero i j]
  exact U.q_lt i j _ _
@[simp] theorem zero_lt_q (x : XR) : (fin 0 <ᵇ U.q i j x) = (fin 0 <ᵇ x) := by
  conv_lhs => rw [← U.q_zero i j]
  exact U.q_lt i j _ _
@[simp] theorem q_le_zero (x : XR) : (U.q i j x ≤ᵇ fin 0) = (x ≤ᵇ fin 0) := by
  conv_lhs => rw [← U.q_zero i j]
  exact U.q_le i j _ _
@[simp] theorem q_eq_zero (x : XR) : (U.q i j x =ᵇ fin 0) = (x =ᵇ fin 0) := by
  conv_lhs => rw [← U.q_zero i j]
  exact U.q_eq i j _ _
@[simp] theorem q_isNaN (x : XR) : isNaN (U.q i j x) = isNaN x := scale_isNaN (U.factor_pos i j) x
@[simp] theorem q_isInf (x : XR) : isInf (U.q i j x) = isInf x := scale_isInf (U.factor_pos i j) x
@[simp] theorem q_isFinite (x : XR) : isFinite (U.q i j x) = isFinite x := by simp [isFinite]
theorem q_abs (x : XR) : abs (U.q i j x) = U.q i j (abs x) := scale_abs (U.factor_pos i j) x
theorem q_hypot (x y : XR) : hypot (U.q i j x) (U.q i j y) = U.q i j (hypot x y) := scale_hypot (U.factor_pos i j) x y
theorem q_stdMin (x y : XR) : stdMin (U.q i j x) (U.q i j y) = U.q i j (stdMin x y) := scale_stdMin (U.factor_pos i j) x y
theorem q_stdMax (x y : XR) : stdMax (U.q i j x) (U.q i j y) = U.q i j (stdMax x y) := scale_stdMax (U.factor_pos i j) x y

/-! ### Vectors and times -/

theorem qv_add (x y : Vec2 XR) : U.qv i j x + U.qv i j y = U.qv i j (x + y) := by
  show Vec2.mk _ _ = Vec2.mk _ _
  simp only [qv, q_add]; rfl
theorem qv_sub (x y : Vec2 XR) : U.qv i j x - U.qv i j y = U.qv i j (x - y) := by
  show Vec2.mk _ _ = Vec2.mk _ _
  simp only [qv, q_sub]; rfl
theorem smul_qv (x : XR) (y : Vec2 XR) : x •ᵥ U.qv i j y = U.qv i j (x •ᵥ y) := by
  simp only [qv, Vec2.smul, mul_q]
theorem q_smul (x : XR) (y : Vec2 XR) : U.q i j x •ᵥ y = U.qv i j (x •ᵥ y) := by
  simp only [qv, Vec2.smul, q_mul]
theorem qv_sdiv (x : Vec2 XR) (y : XR) : U.qv i j x /ᵥ y = U.qv i j (x /ᵥ y) := by
  simp only [qv, Vec2.sdiv, q_div]
theorem sdiv_q (x : Vec2 XR) (y : XR) : x /ᵥ U.q i j y = U.qv (-i) (-j) (x /ᵥ y) := by
  simp only [qv, Vec2.sdiv, div_q]
theorem qv_qv (x : Vec2 XR) : U.qv i j (U.qv k l x) = U.qv (i + k) (j + l) x := by simp only [qv, q_q]
@[simp] theorem qv_one (x : Vec2 XR) : U.qv 0 0 x = x := by simp [qv]
@[simp] theorem qv_magnitude (x : Vec2 XR) : (U.qv i j x).magnitude = U.q i j x.magnitude := U.q_hypot i j _ _
theorem qv_dot (x y : Vec2 XR) : Vec2.dot (U.qv i j x) (U.qv k l y) = U.q (i + k) (j + l) (Vec2.dot x y) := by
  simp only [Vec2.dot, qv, q_mul, mul_q, q_q, q_add, add_comm k, add_comm l]
theorem qv_cross (x y : Vec2 XR) : Ink.cross (U.qv i j x) (U.qv k l y) = U.q (i + k) (j + l) (Ink.cross x y) := by
  simp only [Ink.cross, qv, q_mul, mul_q, q_q, q_sub, add_comm k, add_comm l]
@[simp] theorem qv_isFinite (x : Vec2 XR) : (U.qv i j x).isFinite = x.isFinite := by simp [Vec2.isFinite, qv]
theorem qv_orthogonal (x : Vec2 XR) : orthogonal (U.qv i j x) = U.qv i j (orthogonal x) := by
  simp only [orthogonal, qv, q_neg]
@[simp] theorem qv_zero : U.qv i j (Vec2.zero) = Vec2.zero := by simp [qv, Vec2.zero]

@[simp] theorem pos_sub (x y : Vec2 XR) : U.pos x - U.pos y = U.qv 1 0 (x - y) := by
  rw [← qv_sub]
  show Vec2.mk _ _ = Vec2.mk _ _
  simp only [pos]
  congr 1 <;> exact off_sub_off _ _ _
theorem pos_add (x y : Vec2 XR) : U.pos x + U.qv 1 0 y = U.pos (x + y) := by
  simp only [pos]
  rw [← qv_add]
  show Vec2.mk _ _ = Vec2.mk _ _
  congr 1 <;> exact off_add _ _ _
@[simp] theorem pos_eq (x y : Vec2 XR) : Vec2.eq (U.pos x) (U.pos y) = Vec2.eq x y := by
  have h1 := off_eq U.v.re (U.q 1 0 x.x) (U.q 1 0 y.x)
  have h2 := off_eq U.v.im (U.q 1 0 x.y) (U.q 1 0 y.y)
  rw [q_eq] at h1 h2
  simp only [Vec2.eq, ← h1, ← h2]
  rfl
theorem pos_isNaN_x (x : Vec2 XR) : isNaN (U.pos x).x = isNaN x.x := (off_isNaN _ _).trans (U.q_isNaN _ _ _)
theorem pos_isNaN_y (x : Vec2 XR) : isNaN (U.pos x).y = isNaN x.y := (off_isNaN _ _).trans (U.q_isNaN _ _ _)
theorem pos_isInf_x (x : Vec2 XR) : isInf (U.pos x).x = isInf x.x := (off_isInf _ _).trans (U.q_isInf _ _ _)
theorem pos_isInf_y (x : Vec2 XR) : isInf (U.pos x).y = isInf x.y := (off_isInf _ _).trans (U.q_isInf _ _ _)

@[simp] theorem time_sub (x y : XR) : U.time x - U.time y = U.q 0 1 (x - y) := by
  rw [← q_sub]; exact off_sub_off _ _ _
theorem time_add (x y : XR) : U.time x + U.q 0 1 y = U.time (x + y) := by
  simp only [time]; rw [← q_add]; exact off_add _ _ _
theorem time_sub_q (x y : XR) : U.time x - U.q 0 1 y = U.time (x - y) := by
  rw [sub_def, q_neg, time_add, sub_def]
@[simp] theorem time_lt (x y : XR) : (U.time x <ᵇ U.time y) = (x <ᵇ y) := (off_lt _ _ _).trans (U.q_lt _ _ _ _)
@[simp] theorem time_eq (x y : XR) : (U.time x =ᵇ U.time y) = (x =ᵇ y) := (off_eq _ _ _).trans (U.q_eq _ _ _ _)
@[simp] theorem time_isNaN (x : XR) : isNaN (U.time x) = isNaN x := (off_isNaN _ _).trans (U.q_isNaN _ _ _)
@[simp] theorem time_isInf (x : XR) : isInf (U.time x) = isInf x := (off_isInf _ _).trans (U.q_isInf _ _ _)

/-! ### Utilities -/

@[simp] theorem distance_pos (x y : Vec2 XR) : distance (U.pos x) (U.pos y) = U.q 1 0 (distance x y) := by
  simp only [distance, pos_sub, qv_magnitude]
theorem interpVec_pos (x y : Vec2 XR) (t : XR) : interpVec (U.pos x) (U.pos y) t = U.pos (interpVec x y t) := by
  simp only [interpVec, pos_sub, smul_qv, pos_add]
theorem interpVec_qv (x y : Vec2 XR) (t : XR) : interpVec (U.qv i j x) (U.qv i j y) t = U.qv i j (interpVec x y t) := by
  simp only [interpVec, qv_sub, smul_qv, qv_add]
theorem interpTime_time (x y t : XR) : (interpTime (U.time x) (U.time y) t : XR) = U.time (interpTime x y t) := by
  simp only [interpTime, time_sub, widen_eq, q_mul, time_add]
theorem normalize01_q (x y t : XR) : normalize01 (U.q i j x) (U.q i j y) (U.q i j t) = normalize01 x y t := by
  simp only [normalize01, q_eq, q_lt, q_sub, q_div, div_q, q_q, neg_add_cancel, q_one]
theorem inverseLerp_q (x y t : XR) : inverseLerp (U.q i j x) (U.q i j y) (U.q i j t) = inverseLerp x y t := by
  simp only [inverseLerp, lit0, q_eq_zero, q_sub, q_div, div_q, q_q, neg_add_cancel, q_one]
@[simp] theorem nearestPoint_pos (x y p : Vec2 XR) :
    nearestPointOnSegment (U.pos x) (U.pos y) (U.pos p) = nearestPointOnSegment x y p := by
  simp only [nearestPointOnSegment, pos_eq, pos_sub, qv_dot, q_div, div_q, q_q, neg_add_cancel, q_one]
@[simp] theorem absoluteAngleTo_qv (x y : Vec2 XR) :
    (U.qv i j x).absoluteAngleTo (U.qv i j y) = (x.absoluteAngleTo y : Option XR) := by
  simp only [Vec2.absoluteAngleTo, qv_isFinite, qv_magnitude, lit0, q_eq_zero, qv_sdiv, sdiv_q, qv_qv, neg_add_cancel, qv_one]

/-! ### The position modeler -/

def tip (t : TipState XR XR) : TipState XR XR :=
  { position := U.pos t.position, velocity := U.qv 1 (-1) t.velocity, acceleration := U.qv 1 (-2) t.acceleration
    time := U.time t.time }

@[simp] theorem stepState_tip (p : PositionModelerParams XR XR) (st : TipState XR XR) (a : Vec2 XR) (t : XR) :
    PositionModeler.stepState (U.position p) (U.tip st) (U.pos a) (U.time t) = U.tip (PositionModeler.stepState p st a t) := by
  simp only [PositionModeler.stepState, position, tip, time_sub, narrow_eq, pos_sub, qv_sdiv, sdiv_q, q_smul, smul_qv, qv_qv,
    Int.reduceNeg, Int.reduceAdd, neg_zero, zero_add, add_zero, qv_sub, qv_add, pos_add]

@[simp] theorem input_time (i : Input XR XR) : (U.input i).time = U.time i.time := rfl
@[simp] theorem input_position (i : Input XR XR) : (U.input i).position = U.pos i.position := rfl
@[simp] theorem input_eventType (i : Input XR XR) : (U.input i).eventType = i.eventType := rfl

@[simp] theorem stepsForAngle_sampling (p : SamplingParams XR XR) (a : XR) (n : ℤ) :
    stepsForAngle (U.sampling p) a n = stepsForAngle p a n := rfl

@[simp] theorem numberOfSteps_tip (st : TipState XR XR) (a b : Input XR XR) (sp : SamplingParams XR XR)
    (p : PositionModelerParams XR XR) :
    numberOfStepsBetweenInputs (U.tip st) (U.input a) (U.input b) (U.sampling sp) (U.position p) =
      numberOfStepsBetweenInputs st a b sp p := by
  simp only [numberOfStepsBetweenInputs, input_time, input_position, tip, time_sub, narrow_eq, widen_eq, pos_sub, position,
    sampling, q_mul, mul_q, q_q, qv_sdiv, sdiv_q, q_smul, smul_qv, qv_qv, Int.reduceNeg, Int.reduceAdd,
    neg_zero, zero_add, add_zero, q_one, qv_add, absoluteAngleTo_qv]
  rfl

theorem pathPoint_pos (a : Vec2 XR) (s : XR) (b : Vec2 XR) (t : XR) (n i : ℤ) :
    PositionModeler.pathPoint (U.pos a) (U.time s) (U.pos b) (U.time t) n i =
      ((U.pos (PositionModeler.pathPoint a s b t n i).1), (U.time (PositionModeler.pathPoint a s b t n i).2)) := by
  simp only [PositionModeler.pathPoint, interpVec_pos, interpTime_time]

theorem alongPathGo_tip (p : PositionModelerParams XR XR) (a : Vec2 XR) (s : XR) (b : Vec2 XR) (t : XR) (n : ℤ) (k : ℕ) :
    ∀ (i : ℤ) (st : TipState XR XR),
      PositionModeler.alongPathGo (U.position p) (U.pos a) (U.time s) (U.pos b) (U.time t) n k i (U.tip st) =
        (U.tip (PositionModeler.alongPathGo p a s b t n k i st).1, (PositionModeler.alongPathGo p a s b t n k i st).2.map U.tip) := by
  induction k with
  | zero => intro i st; rfl
  | succ k ih =>
    intro i st
    simp only [PositionModeler.alongPathGo, pathPoint_pos, stepState_tip, ih, List.map_cons]

theorem endOfStrokeGo_tip (p : PositionModelerParams XR XR) (a : Vec2 XR) (sd : XR) (k : ℕ) :
    ∀ (dt : XR) (st : TipState XR XR),
      PositionModeler.endOfStrokeGo (U.position p) (U.pos a) (U.q 1 0 sd) k (U.q 0 1 dt) (U.tip st) =
        (U.tip (PositionModeler.endOfStrokeGo p a sd k dt st).1, (PositionModeler.endOfStrokeGo p a sd k dt st).2.map U.tip) := by
  induction k with
  | zero => intro dt st; rfl
  | succ k ih =>
    intro dt st
    have ht : (U.tip st).time = U.time st.time := rfl
    have hp : ∀ st, (U.tip st).position = U.pos st.position := fun _ => rfl
    simp only [PositionModeler.endOfStrokeGo, ht, time_add, stepState_tip, hp, distance_pos, q_lt, nearestPoint_pos, q_mul, ih]
    split
    · rfl
    · split
      · rfl
      · split <;> rfl

/-- The position modeler. -/
def posModeler (m : PositionModeler XR XR) : PositionModeler XR XR :=
  { params := U.position m.params, state := U.tip m.state, savedState := m.savedState.map U.tip }

theorem updateAlongLinearPath_tip (m : PositionModeler XR XR) (a : Vec2 XR) (s : XR) (b : Vec2 XR) (t : XR) (n : ℤ) :
    (U.posModeler m).updateAlongLinearPath (U.pos a) (U.time s) (U.pos b) (U.time t) n =
      (U.posModeler (m.updateAlongLinearPath a s b t n).1, (m.updateAlongLinearPath a s b t n).2.map U.tip) := by
  simp only [PositionModeler.updateAlongLinearPath, posModeler, alongPathGo_tip]

theorem modelEndOfStroke_tip (m : PositionModeler XR XR) (a : Vec2 XR) (dt : XR) (n : ℤ) (sd : XR) :
    (U.posModeler m).modelEndOfStroke (U.pos a) (U.q 0 1 dt) n (U.q 1 0 sd) =
      (U.posModeler (m.modelEndOfStroke a dt n sd).1, (m.modelEndOfStroke a dt n sd).2.map U.tip) := by
  simp only [PositionModeler.modelEndOfStroke, posModeler, endOfStrokeGo_tip]

theorem one_div_rate (x : XR) : (1 : XR) / U.q 0 (-1) x = U.q 0 1 (1 / x) := by
  rw [div_q]; rfl

/-! ### The loop contraction mitigation -/

def speedSample (s : SpeedSample XR XR) : SpeedSample XR XR := { speed := U.q 1 (-1) s.speed, time := U.time s.time }

theorem speedSum_q (l : List (SpeedSample XR XR)) :
    LoopModeler.speedSum (l.map U.speedSample) = U.q 1 (-1) (LoopModeler.speedSum l) := by
  have : ∀ (l : List (SpeedSample XR XR)) (x : XR), (l.map U.speedSample).foldl (fun s y => s + y.speed) (U.q 1 (-1) x) =
      U.q 1 (-1) (l.foldl (fun s y => s + y.speed) x) := by
    intro l
    induction l with
    | nil => intro x; rfl
    | cons a l ih => intro x; simp only [List.map_cons, List.foldl_cons, speedSample, q_add]; exact ih _
  have h := this l (fin 0)
  rw [q_zero] at h
  simp only [LoopModeler.speedSum, lit0]
  exact h

theorem evict_loop (p : LoopParams XR XR) (t : XR) (l : List (SpeedSample XR XR)) :
    LoopModeler.evict (U.loop p) (U.time t) (l.map U.speedSample) = (LoopModeler.evict p t l).map U.speedSample := by
  induction l with
  | nil => rfl
  | cons a l ih =>
    simp only [List.map_cons, LoopModeler.evict, List.length_cons, List.length_map]
    rw [show (U.speedSample a).time = U.time a.time from rfl, time_sub,
      show (U.loop p).minSpeedSamplingWindow = U.q 0 1 p.minSpeedSamplingWindow from rfl, q_lt,
      show (U.loop p).minDiscreteSpeedSamples = p.minDiscreteSpeedSamples from rfl]
    split
    · exact ih
    · rfl

def loopModeler (m : LoopModeler XR XR) : LoopModeler XR XR :=
  { m with samples := m.samples.map U.speedSample, savedSamples := m.savedSamples.map U.speedSample, params := U.loop m.params }

theorem getInterpolationValue_loop (m : LoopModeler XR XR) :
    (U.loopModeler m).getInterpolationValue = m.getInterpolationValue := by
  simp only [LoopModeler.getInterpolationValue, loopModeler, List.isEmpty_map, List.length_map, speedSum_q, loop, q_div,
    inverseLerp_q]

theorem update_loop (m : LoopModeler XR XR) (v : Vec2 XR) (t : XR) :
    (U.loopModeler m).update (U.qv 1 (-1) v) (U.time t) = (U.loopModeler (m.update v t).1, (m.update v t).2) := by
  have he : (U.loopModeler m).params.isEnabled = m.params.isEnabled := rfl
  simp only [LoopModeler.update, he]
  split
  · rfl
  · have h1 : LoopModeler.evict (U.loopModeler m).params (U.time t)
        ((U.loopModeler m).samples ++ [{ speed := (U.qv 1 (-1) v).magnitude, time := U.time t }]) =
        (LoopModeler.evict m.params t (m.samples ++ [{ speed := v.magnitude, time := t }])).map U.speedSample := by
      rw [← evict_loop, List.map_append, qv_magnitude]; rfl
    rw [h1]
    refine Prod.ext rfl ?_
    exact getInterpolationValue_loop U { m with samples := LoopModeler.evict m.params t (m.samples ++ [{ speed := v.magnitude, time := t }]) }

/-! ### The stylus state modeler -/

theorem interpResult_result (a b : Result XR XR) (t : XR) :
    interpResult (U.result a) (U.result b) t = U.result <$> interpResult a b t := by
  simp only [interpResult, result, interpVec_pos, interpVec_qv, interpTime_time]
  split
  · rfl
  · cases interpAngle a.orientation b.orientation t <;> rfl

theorem rawResult_pos (o : Option (Result XR XR)) (p : Vec2 XR) (t : XR) (s : StylusState XR) :
    StylusModeler.rawResult (o.map U.result) (U.pos p) (U.time t) s = U.result (StylusModeler.rawResult o p t s) := by
  cases o with
  | none => simp only [StylusModeler.rawResult, Option.map_none, result, qv_zero]
  | some r =>
    have h1 : (U.result r).time = U.time r.time := rfl
    have h2 : (U.result r).position = U.pos r.position := rfl
    have h3 : (U.result r).velocity = U.qv 1 (-1) r.velocity := rfl
    simp only [StylusModeler.rawResult, Option.map_some, h1, h2, h3, time_eq, time_sub, narrow_eq, pos_sub, qv_sdiv, sdiv_q, qv_qv,
      Int.reduceNeg, Int.reduceAdd, neg_zero, zero_add, add_zero, qv_sub]
    cases (t =ᵇ r.time)
    · simp only [Bool.not_false, if_true, result]
    · simp only [Bool.not_true, Bool.false_eq_true, if_false, result, qv_zero]

theorem shouldDrop_stylus (p : StylusParams XR) (t : XR) (l : List (Result XR XR)) :
    shouldDropOldestInput (U.stylus p) (U.time t) (l.map U.result) = shouldDropOldestInput p t l := by
  have h1 : (U.stylus p).useStrokeNormalProjection = p.useStrokeNormalProjection := rfl
  have h2 : (U.stylus p).minInputSamples = p.minInputSamples := rfl
  have h3 : (U.stylus p).maxInputSamples = p.maxInputSamples := rfl
  have h4 : (U.stylus p).minSampleDuration = U.q 0 1 p.minSampleDuration := rfl
  have h5 : ∀ r, (U.result r).time = U.time r.time := fun _ => rfl
  simp only [shouldDropOldestInput, h1, h2, h3, h4, List.length_map]
  split
  · split
    · match l with
      | [] => rfl
      | [a] => rfl
      | a :: b :: l => simp only [List.map_cons, h5, time_sub, q_lt]
    · rfl
  · rfl

theorem dropOldInputs_stylus (p : StylusParams XR) (t : XR) (l : List (Result XR XR)) :
    dropOldInputs (U.stylus p) (U.time t) (l.map U.result) = (List.map U.result) <$> dropOldInputs p t l := by
  induction l with
  | nil =>
    simp only [List.map_nil, dropOldInputs]
    have := U.shouldDrop_stylus p t []
    rw [List.map_nil] at this
    rw [this]
    cases shouldDropOldestInput p t ([] : List (Result XR XR)) with
    | ok b => cases b <;> rfl
    | ub w => rfl
    | diverge => rfl
  | cons a l ih =>
    have := U.shouldDrop_stylus p t (a :: l)
    rw [List.map_cons] at this
    simp only [List.map_cons, dropOldInputs, this]
    cases shouldDropOldestInput p t (a :: l) with
    | ok b => cases b <;> first | rfl | exact ih
    | ub w => rfl
    | diverge => rfl

def stylusState (s : StylusModelerState XR XR) : StylusModelerState XR XR := { s with inputs := s.inputs.map U.result }

def stylusModeler (m : StylusModeler XR XR) : StylusModeler XR XR :=
  { m with state := U.stylusState m.state, savedState := U.stylusState m.savedState, params := U.stylus m.params }

theorem update_stylus (m : StylusModeler XR XR) (p : Vec2 XR) (t : XR) (s : StylusState XR) :
    (U.stylusModeler m).update (U.pos p) (U.time t) s = U.stylusModeler <$> m.update p t s := by
  have h1 : (U.stylusModeler m).params.useStrokeNormalProjection = m.params.useStrokeNormalProjection := rfl
  have h2 : StylusModeler.flags (U.stylusModeler m).state s = U.stylusState (StylusModeler.flags m.state s) := rfl
  simp only [StylusModeler.update, h1, h2]
  have h3 : ∀ st, (U.stylusState st).unknownPressure = st.unknownPressure := fun _ => rfl
  have h4 : ∀ st, (U.stylusState st).unknownTilt = st.unknownTilt := fun _ => rfl
  have h5 : ∀ st, (U.stylusState st).unknownOrientation = st.unknownOrientation := fun _ => rfl
  rw [h3, h4, h5]
  split
  · rfl
  · have h6 : (U.stylusState (StylusModeler.flags m.state s)).inputs = (StylusModeler.flags m.state s).inputs.map U.result := rfl
    rw [h6, List.getLast?_map, rawResult_pos]
    have h7 : List.map U.result (StylusModeler.flags m.state s).inputs ++
        [U.result (StylusModeler.rawResult (StylusModeler.flags m.state s).inputs.getLast? p t s)] =
        ((StylusModeler.flags m.state s).inputs ++ [StylusModeler.rawResult (StylusModeler.flags m.state s).inputs.getLast? p t s]).map U.result := by
      rw [List.map_append]; rfl
    rw [h7, show (U.stylusModeler m).params = U.stylus m.params from rfl, dropOldInputs_stylus]
    cases dropOldInputs m.params t ((StylusModeler.flags m.state s).inputs ++
      [StylusModeler.rawResult (StylusModeler.flags m.state s).inputs.getLast? p t s]) <;> rfl

theorem projectToSegment_pos (a b p n : Vec2 XR) :
    projectToSegmentAlongNormal (U.pos a) (U.pos b) (U.pos p) (U.qv i j n) = projectToSegmentAlongNormal a b p n := by
  simp only [projectToSegmentAlongNormal, pos_sub, qv_cross, lit0, q_eq_zero, q_div, div_q, q_q]
  have hi : -(i + 1) + (1 + i) = 0 := by ring
  have hj : -(j + 0) + (0 + j) = 0 := by ring
  rw [hi, hj, q_one]

def normalBest (b : StylusModeler.NormalBest XR) : StylusModeler.NormalBest XR :=
  { b with distLeft := U.q 1 0 b.distLeft, distRight := U.q 1 0 b.distRight }

theorem normalRound_pos (p n a b : Vec2 XR) (m : ℕ) (best : StylusModeler.NormalBest XR) :
    StylusModeler.normalRound (U.pos p) (U.qv i j n) (U.pos a) (U.pos b) m (U.normalBest best) =
      U.normalBest (StylusModeler.normalRound p n a b m best) := by
  simp only [StylusModeler.normalRound, projectToSegment_pos]
  cases projectToSegmentAlongNormal a b p n with
  | none => rfl
  | some r =>
    have h1 : (U.normalBest best).distLeft = U.q 1 0 best.distLeft := rfl
    have h2 : (U.normalBest best).distRight = U.q 1 0 best.distRight := rfl
    simp only [interpVec_pos, distance_pos, pos_sub, qv_dot, lit0, q_lt_zero, h1, h2, q_lt]
    split
    · split <;> rfl
    · split <;> rfl

theorem normalLoop_pos (p n : Vec2 XR) : ∀ (l : List (Result XR XR)) (m : ℕ) (best : StylusModeler.NormalBest XR),
    StylusModeler.normalLoop (U.pos p) (U.qv i j n) (l.map U.result) m (U.normalBest best) =
      U.normalBest (StylusModeler.normalLoop p n l m best)
  | [], m, best => rfl
  | [a], m, best => rfl
  | a :: b :: l, m, best => by
    simp only [List.map_cons, StylusModeler.normalLoop]
    rw [show (U.result a).position = U.pos a.position from rfl, show (U.result b).position = U.pos b.position from rfl,
      normalRound_pos]
    exact normalLoop_pos p n (b :: l) _ _

theorem projectAlong_pos (p a n : Vec2 XR) (l : List (Result XR XR)) :
    StylusModeler.projectAlongStrokeNormal (U.pos p) (U.qv 1 (-2) a) (U.qv i j n) (l.map U.result) =
      StylusModeler.projectAlongStrokeNormal p a n l := by
  have h0 : ({ left := none, right := none, distLeft := Arith.inf, distRight := Arith.inf } : StylusModeler.NormalBest XR) =
      U.normalBest { left := none, right := none, distLeft := Arith.inf, distRight := Arith.inf } := by
    simp [normalBest]
  simp only [StylusModeler.projectAlongStrokeNormal, List.isEmpty_map]
  split
  · rfl
  · rw [h0, normalLoop_pos, ← h0]
    have h1 : ∀ b, (U.normalBest b).left = b.left := fun _ => rfl
    have h2 : ∀ b, (U.normalBest b).right = b.right := fun _ => rfl
    simp only [h1, h2, qv_dot, lit0, zero_lt_q]

theorem closestLoop_pos (p : Vec2 XR) : ∀ (l : List (Result XR XR)) (m : ℕ) (best : Option (RawInputProjection XR)) (d : XR),
    StylusModeler.closestLoop (U.pos p) (l.map U.result) m best (U.q 1 0 d) = StylusModeler.closestLoop p l m best d
  | [], m, best, d => rfl
  | [a], m, best, d => rfl
  | a :: b :: l, m, best, d => by
    simp only [List.map_cons, StylusModeler.closestLoop]
    rw [show (U.result a).position = U.pos a.position from rfl, show (U.result b).position = U.pos b.position from rfl,
      nearestPoint_pos, interpVec_pos, distance_pos, q_le]
    split
    · exact closestLoop_pos p (b :: l) _ _ _
    · exact closestLoop_pos p (b :: l) _ _ _

theorem projectToClosest_pos (p : Vec2 XR) (l : List (Result XR XR)) :
    StylusModeler.projectToClosestPoint (U.pos p) (l.map U.result) = StylusModeler.projectToClosestPoint p l := by
  simp only [StylusModeler.projectToClosestPoint, List.isEmpty_map]
  have := U.closestLoop_pos p l 0 none Arith.inf
  rw [show U.q 1 0 Arith.inf = Arith.inf from U.q_inf 1 0 false] at this
  rw [this]

theorem projectedResult_result (l : List (Result XR XR)) (t : TipState XR XR) (o : Option (RawInputProjection XR)) :
    StylusModeler.projectedResult (l.map U.result) (U.tip t) o = U.result <$> StylusModeler.projectedResult l t o := by
  cases o with
  | none =>
    simp only [StylusModeler.projectedResult, List.head?_map, List.getLast?_map]
    cases l.head? <;> cases l.getLast? <;> simp only [Option.map_none, Option.map_some, Outcome.map_ub, Outcome.map_ok]
    have h1 : ∀ r, (U.result r).position = U.pos r.position := fun _ => rfl
    have h2 : ∀ r, (U.tip r).position = U.pos r.position := fun _ => rfl
    simp only [h1, h2, distance_pos, q_lt]
    split <;> rfl
  | some o =>
    simp only [StylusModeler.projectedResult, List.getElem?_map]
    cases l[o.segmentIndex]? <;> cases l[o.segmentIndex + 1]? <;>
      simp only [Option.map_none, Option.map_some, Outcome.map_ub, interpResult_result]

theorem query_stylus (m : StylusModeler XR XR) (t : TipState XR XR) (n : Option (Vec2 XR)) (h : m.state.inputs ≠ []) :
    (U.stylusModeler m).query (U.tip t) (n.map (U.qv i j)) = U.result <$> m.query t n := by
  have h1 : (U.stylusModeler m).state.inputs = m.state.inputs.map U.result := rfl
  have h2 : (U.stylusModeler m).params.useStrokeNormalProjection = m.params.useStrokeNormalProjection := rfl
  have h3 : (U.tip t).position = U.pos t.position := rfl
  have h4 : (U.tip t).acceleration = U.qv 1 (-2) t.acceleration := rfl
  have hs : ∀ r, StylusModeler.strip (U.stylusModeler m).state (U.tip t) (U.result r) = U.result (StylusModeler.strip m.state t r) :=
    fun _ => rfl
  have he : m.state.inputs.isEmpty = false := by simpa using h
  simp only [StylusModeler.query, h1, h2, h3, h4, List.isEmpty_map, he, Bool.false_eq_true, if_false]
  have key : ∀ o : Outcome (Option (RawInputProjection XR)),
      (o >>= fun projection => StylusModeler.projectedResult (m.state.inputs.map U.result) (U.tip t) projection >>= fun r =>
        pure (StylusModeler.strip (U.stylusModeler m).state (U.tip t) r)) =
      U.result <$> (o >>= fun projection => StylusModeler.projectedResult m.state.inputs t projection >>= fun r =>
        pure (StylusModeler.strip m.state t r)) := by
    intro o
    cases o with
    | ub w => rfl
    | diverge => rfl
    | ok o =>
      simp only [Outcome.ok_bind, projectedResult_result]
      cases StylusModeler.projectedResult m.state.inputs t o with
      | ub w => rfl
      | diverge => rfl
      | ok r => simp only [Outcome.map_ok, Outcome.ok_bind, hs, Outcome.pure_eq]
  cases hu : m.params.useStrokeNormalProjection <;> cases n <;>
    simp only [Option.map_none, Option.map_some, projectToClosest_pos, projectAlong_pos] <;> exact key _

/-! ### The stroke normal -/

theorem getStrokeNormal_tip (t : TipState XR XR) (s : XR) :
    ∃ i j, getStrokeNormal (U.tip t) (U.time s) = (getStrokeNormal t s).map (U.qv i j) := by
  have h1 : (U.tip t).velocity = U.qv 1 (-1) t.velocity := rfl
  have h2 : (U.tip t).acceleration = U.qv 1 (-2) t.acceleration := rfl
  have h3 : (U.tip t).time = U.time t.time := rfl
  simp only [getStrokeNormal, h1, h2, h3, qv_magnitude, lit0, q_eq_zero, qv_dot, q_abs, mul_q, q_mul, q_q, Int.reduceNeg,
    Int.reduceAdd, q_lt, qv_orthogonal, time_sub, narrow_eq, q_smul, smul_qv, qv_qv, add_zero, qv_add, unitVec, qv_sdiv,
    sdiv_q, neg_neg, qv_one]
  split
  · exact ⟨0, 0, rfl⟩
  · split
    · exact ⟨1, -2, rfl⟩
    · split
      · exact ⟨1, -1, rfl⟩
      · split
        · exact ⟨1, -1, rfl⟩
        · exact ⟨0, 0, by simp⟩

end Units
end
end XR
end Ink
