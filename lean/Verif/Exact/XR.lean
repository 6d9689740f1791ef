import Mathlib.Analysis.Complex.Basic
import Mathlib.Analysis.SpecialFunctions.Trigonometric.Inverse
import Verif.Model.Session
/-!
# Exact arithmetic

`float` and `double` are both the real numbers extended by two infinities and NaN, with IEEE's rules for those
(so a division by zero does not silently give zero). There is one zero, taken to be positive. There is no rounding and no
largest finite number, so `std::numeric_limits<float>::max()` is infinity here.
-/
namespace Ink

/-- Exact numbers. -/
inductive XR where
  | nan
  | inf (neg : Bool)
  | fin (r : ℝ)

namespace XR
noncomputable section
open Classical

@[simp] theorem fin_inj {a b : ℝ} : fin a = fin b ↔ a = b := ⟨fun h => by cases h; rfl, fun h => h ▸ rfl⟩

protected def neg : XR → XR
  | nan => nan
  | inf a => inf (!a)
  | fin a => fin (-a)

protected def add : XR → XR → XR
  | fin a, fin b => fin (a + b)
  | nan, _ => nan
  | _, nan => nan
  | inf a, inf b => if a = b then inf a else nan
  | inf a, fin _ => inf a
  | fin _, inf b => inf b

protected def mul : XR → XR → XR
  | fin a, fin b => fin (a * b)
  | nan, _ => nan
  | _, nan => nan
  | inf a, inf b => inf (a ^^ b)
  | inf a, fin b => if b = 0 then nan else inf (a ^^ decide (b < 0))
  | fin a, inf b => if a = 0 then nan else inf (b ^^ decide (a < 0))

protected def div : XR → XR → XR
  | fin a, fin b => if b = 0 then (if a = 0 then nan else inf (decide (a < 0))) else fin (a / b)
  | nan, _ => nan
  | _, nan => nan
  | inf _, inf _ => nan
  | inf a, fin b => inf (a ^^ decide (b < 0))
  | fin _, inf _ => fin 0

protected def lt : XR → XR → Bool
  | fin a, fin b => decide (a < b)
  | nan, _ => false
  | _, nan => false
  | inf a, inf b => a && !b
  | inf a, fin _ => a
  | fin _, inf b => !b

protected def le : XR → XR → Bool
  | fin a, fin b => decide (a ≤ b)
  | nan, _ => false
  | _, nan => false
  | inf a, inf b => a || !b
  | inf a, fin _ => a
  | fin _, inf b => !b

protected def eq : XR → XR → Bool
  | fin a, fin b => decide (a = b)
  | inf a, inf b => a == b
  | _, _ => false

instance : Scalar XR where
  add := XR.add
  sub a b := XR.add a (XR.neg b)
  mul := XR.mul
  div := XR.div
  neg := XR.neg
  lt := XR.lt
  le := XR.le
  eq := XR.eq
  isNaN
    | nan => true
    | _ => false
  isInf
    | inf _ => true
    | _ => false
  ofInt n := fin n
  ofRatio n d := fin (n / d)
  ceil
    | fin a => fin ⌈a⌉
    | x => x
  abs
    | fin a => fin |a|
    | nan => nan
    | inf _ => inf false
  trunc?
    | fin a => some (if 0 ≤ a then ⌊a⌋ else ⌈a⌉)
    | _ => none

/-- `std::hypot`: infinite if an argument is. -/
protected def hypot : XR → XR → XR
  | fin a, fin b => fin ‖(⟨a, b⟩ : ℂ)‖
  | inf _, _ => inf false
  | _, inf _ => inf false
  | _, _ => nan

/-- `std::acos`: NaN outside of [-1, 1]. -/
protected def acos : XR → XR
  | fin a => if -1 ≤ a ∧ a ≤ 1 then fin (Real.arccos a) else nan
  | _ => nan

instance : Arith XR XR where
  widen x := x
  narrow x := x
  hypot := XR.hypot
  acos := XR.acos
  inf := inf false
  maxFinite := inf false
  pi := fin Real.pi

open Scalar Arith

section Lemmas
variable (a b : ℝ)

@[simp] theorem fin_add : fin a + fin b = fin (a + b) := rfl
@[simp] theorem fin_sub : fin a - fin b = fin (a - b) := by
  rw [sub_eq_add_neg]; rfl
@[simp] theorem fin_mul : fin a * fin b = fin (a * b) := rfl
@[simp] theorem fin_neg : -fin a = fin (-a) := rfl
theorem fin_div' : fin a / fin b = if b = 0 then (if a = 0 then nan else inf (decide (a < 0))) else fin (a / b) := rfl
theorem fin_div {b : ℝ} (hb : b ≠ 0) : fin a / fin b = fin (a / b) := by rw [fin_div', if_neg hb]
@[simp] theorem fin_lt : (fin a <ᵇ fin b) = decide (a < b) := rfl
@[simp] theorem fin_le : (fin a ≤ᵇ fin b) = decide (a ≤ b) := rfl
@[simp] theorem fin_eq : (fin a =ᵇ fin b) = decide (a = b) := rfl
@[simp] theorem fin_isNaN : isNaN (fin a) = false := rfl
@[simp] theorem fin_isInf : isInf (fin a) = false := rfl
@[simp] theorem fin_ceil : ceil (fin a) = fin ⌈a⌉ := rfl
@[simp] theorem fin_abs : abs (fin a) = fin |a| := rfl
@[simp] theorem fin_hypot : hypot (fin a) (fin b) = fin ‖(⟨a, b⟩ : ℂ)‖ := rfl
@[simp] theorem ofInt_eq (n : ℤ) : (ofInt n : XR) = fin n := rfl
@[simp] theorem ofRatio_eq (n : ℤ) (d : ℕ) : (ofRatio n d : XR) = fin (n / d) := rfl
@[simp] theorem widen_eq (x : XR) : (widen x : XR) = x := rfl
@[simp] theorem narrow_eq (x : XR) : (narrow x : XR) = x := rfl
@[simp] theorem pi_eq : (Arith.pi XR : XR) = fin Real.pi := rfl
@[simp] theorem inf_eq : (Arith.inf : XR) = inf false := rfl
@[simp] theorem maxFinite_eq : (Arith.maxFinite : XR) = inf false := rfl
theorem fin_acos {a : ℝ} (h : -1 ≤ a) (h' : a ≤ 1) : acos (fin a) = fin (Real.arccos a) := if_pos ⟨h, h'⟩
@[simp] theorem lit0 : (0 : XR) = fin 0 := by show fin _ = _; norm_num
@[simp] theorem lit1 : (1 : XR) = fin 1 := by show fin _ = _; norm_num
@[simp] theorem lit2 : (2 : XR) = fin 2 := by show fin _ = _; norm_num
@[simp] theorem lit3 : (3 : XR) = fin 3 := by show fin _ = _; norm_num
@[simp] theorem lit6 : (6 : XR) = fin 6 := by show fin _ = _; norm_num
@[simp] theorem fin_lt_inf : (fin a <ᵇ inf false) = true := rfl
@[simp] theorem fin_le_inf : (fin a ≤ᵇ inf false) = true := rfl
@[simp] theorem inf_lt_fin : (inf false <ᵇ fin a) = false := rfl
@[simp] theorem isFinite_fin : isFinite (fin a) = true := rfl

theorem isFinite_iff {x : XR} : isFinite x = true ↔ ∃ r, x = fin r := by
  cases x <;> simp [isFinite, isNaN, isInf]

@[simp] theorem stdMin_fin : stdMin (fin a) (fin b) = fin (min a b) := by
  simp only [stdMin, fin_lt, decide_eq_true_eq]; split <;> simp_all [le_of_lt]
@[simp] theorem stdMax_fin : stdMax (fin a) (fin b) = fin (max a b) := by
  simp only [stdMax, fin_lt, decide_eq_true_eq]; split <;> simp_all [le_of_lt]
@[simp] theorem stdMin_inf : stdMin (fin a) (inf false) = fin a := rfl

/-- Clamping to [0, 1]. -/
def clamp (x : ℝ) : ℝ := max 0 (min x 1)

@[simp] theorem clamp01_fin : clamp01 (fin a) = fin (clamp a) := by
  simp only [clamp01, stdClamp, lit0, lit1, fin_lt, decide_eq_true_eq, clamp]
  split
  · rw [fin_inj, max_eq_left]; rw [min_eq_left] <;> linarith
  · split
    · rw [fin_inj, min_eq_right, max_eq_right] <;> linarith
    · rw [fin_inj, min_eq_left, max_eq_right] <;> linarith

theorem clamp_nonneg : 0 ≤ clamp a := le_max_left _ _
theorem clamp_le_one : clamp a ≤ 1 := max_le (by norm_num) (min_le_right _ _)
theorem clamp_of_mem {a : ℝ} (h : 0 ≤ a) (h' : a ≤ 1) : clamp a = a := by
  rw [clamp, min_eq_left h', max_eq_right h]
theorem clamp_of_nonpos {a : ℝ} (h : a ≤ 0) : clamp a = 0 := by
  rw [clamp, min_eq_left (by linarith), max_eq_left h]
theorem clamp_of_one_le {a : ℝ} (h : 1 ≤ a) : clamp a = 1 := by
  rw [clamp, min_eq_right h, max_eq_right (by norm_num)]
theorem clamp_mono {a b : ℝ} (h : a ≤ b) : clamp a ≤ clamp b := max_le_max_left _ (min_le_min_right _ h)

@[simp] theorem interp_fin (c : ℝ) : interp (fin a) (fin b) (fin c) = fin (a + (b - a) * clamp c) := by
  simp [interp]
@[simp] theorem interpTime_fin (c : ℝ) : (interpTime (fin a) (fin b) (fin c) : XR) = fin (a + (b - a) * clamp c) := by
  simp [interpTime]

@[simp] theorem twoPi_eq : (twoPi XR : XR) = fin (2 * Real.pi) := by simp [twoPi]

theorem toInt_fin {a : ℝ} (h0 : 0 ≤ a) (h1 : a < 2147483648) : toInt (fin a) = .ok ⌊a⌋ := by
  have hf : ⌊a⌋ < 2147483648 := by rw [Int.floor_lt]; exact_mod_cast h1
  have h2 : 0 ≤ ⌊a⌋ := Int.floor_nonneg.2 h0
  have hm : ⌊a⌋ ≤ intMax := by unfold intMax; omega
  simp only [toInt, trunc?, h0, ↓reduceIte]
  rw [if_pos ⟨by omega, hm⟩]

theorem toInt_int {n : ℤ} (h0 : 0 ≤ n) (h1 : n ≤ 2147483647) : toInt (fin (n : ℝ)) = .ok n := by
  rw [toInt_fin (by exact_mod_cast h0) (by exact_mod_cast (by omega : n < 2147483648))]
  simp

end Lemmas

/-! ### Vectors -/

/-- A vector of the plane. -/
def V (z : ℂ) : Vec2 XR := ⟨fin z.re, fin z.im⟩

@[simp] theorem V_inj {a b : ℂ} : V a = V b ↔ a = b := by
  simp [V, Complex.ext_iff]

theorem V_add (a b : ℂ) : V a + V b = V (a + b) := rfl
theorem V_sub (a b : ℂ) : V a - V b = V (a - b) := by
  show Vec2.mk _ _ = Vec2.mk _ _
  simp [V]
theorem V_smul (s : ℝ) (a : ℂ) : fin s •ᵥ V a = V (s • a) := by
  simp [V, Vec2.smul]
theorem V_sdiv {s : ℝ} (hs : s ≠ 0) (a : ℂ) : V a /ᵥ fin s = V (s⁻¹ • a) := by
  simp only [V, Vec2.sdiv, fin_div _ hs, div_eq_inv_mul, Complex.smul_re, Complex.smul_im, smul_eq_mul]
@[simp] theorem V_zero : (Vec2.zero : Vec2 XR) = V 0 := by simp [Vec2.zero, V]
@[simp] theorem V_isFinite (a : ℂ) : (V a).isFinite = true := rfl
theorem isFinite_V {v : Vec2 XR} : v.isFinite = true ↔ ∃ z, v = V z := by
  constructor
  · intro h
    simp only [Vec2.isFinite, Bool.and_eq_true, isFinite_iff] at h
    obtain ⟨⟨x, hx⟩, y, hy⟩ := h
    exact ⟨⟨x, y⟩, by cases v; simp_all [V]⟩
  · rintro ⟨z, rfl⟩; rfl
@[simp] theorem V_magnitude (a : ℂ) : (V a).magnitude = fin ‖a‖ := rfl
@[simp] theorem V_distance (a b : ℂ) : distance (V a) (V b) = fin ‖b - a‖ := by
  simp [distance, V_sub]
@[simp] theorem V_interp (a b : ℂ) (t : ℝ) : interpVec (V a) (V b) (fin t) = V (a + clamp t • (b - a)) := by
  simp [interpVec, V_sub, V_smul, V_add]
@[simp] theorem V_eq (a b : ℂ) : Vec2.eq (V a) (V b) = decide (a = b) := by
  simp [Vec2.eq, V, Complex.ext_iff]
/-- The dot product of the plane. -/
def dot (a b : ℂ) : ℝ := a.re * b.re + a.im * b.im
@[simp] theorem V_dot (a b : ℂ) : Vec2.dot (V a) (V b) = fin (dot a b) := by simp [Vec2.dot, V, dot]
/-- The cross product of the plane. -/
def cross (a b : ℂ) : ℝ := a.re * b.im - a.im * b.re
@[simp] theorem V_cross (a b : ℂ) : Ink.cross (V a) (V b) = fin (cross a b) := by simp [Ink.cross, V, cross]

theorem dot_self (a : ℂ) : dot a a = ‖a‖ ^ 2 := by rw [Complex.sq_norm, Complex.normSq_apply]; rfl

end
end XR
end Ink
