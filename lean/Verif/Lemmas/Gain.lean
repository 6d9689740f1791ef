import Verif.Lemmas.Hold
import Verif.Model.Kalman
/-!
# The gains of the Kalman filter on doubles

They do not depend on the measurements. `Plan` follows them together with what the filter can reach (`Hold`), until both repeat.
-/
namespace Ink
open Scalar Fl
noncomputable section

section Generic
variable {D : Type} [Scalar D]

/-- The covariance before the correction. -/
def priorCov (f : KalmanFilter D) (p : Matrix4 D) : Matrix4 D :=
  ((f.stateTransition.mul p).mul f.stateTransition.transpose).add f.processNoiseCovariance

def gainOf (f : KalmanFilter D) (p : Matrix4 D) : Vec4 D :=
  (Matrix4.vecMul f.measurementVector p).divs (Vec4.dot (Matrix4.vecMul f.measurementVector p) f.measurementVector + f.measurementNoiseVariance)

def posteriorCov (f : KalmanFilter D) (p : Matrix4 D) (gain : Vec4 D) : Matrix4 D :=
  (((Matrix4.one.sub (Matrix4.outer gain f.measurementVector)).mul p).mul (Matrix4.one.sub (Matrix4.outer gain f.measurementVector)).transpose).add
    ((Matrix4.outer gain gain).scale f.measurementNoiseVariance)

theorem correct_cov (f : KalmanFilter D) (z : D) : (f.predict.correct z).errorCovariance =
    posteriorCov f (priorCov f f.errorCovariance) (gainOf f (priorCov f f.errorCovariance)) := rfl

theorem correct_state (f : KalmanFilter D) (z : D) : (f.predict.correct z).stateEstimation =
    (f.stateTransition.mulVec f.stateEstimation).add ((gainOf f (priorCov f f.errorCovariance)).scale
      (z - Vec4.dot f.measurementVector (f.stateTransition.mulVec f.stateEstimation))) := rfl

theorem correct_trans (f : KalmanFilter D) (z : D) : (f.predict.correct z).stateTransition = f.stateTransition := rfl
theorem correct_noise (f : KalmanFilter D) (z : D) : (f.predict.correct z).processNoiseCovariance = f.processNoiseCovariance := rfl
theorem correct_meas (f : KalmanFilter D) (z : D) : (f.predict.correct z).measurementVector = f.measurementVector := rfl
theorem correct_var (f : KalmanFilter D) (z : D) : (f.predict.correct z).measurementNoiseVariance = f.measurementNoiseVariance := rfl

theorem first_update (q r z : D) (n : ℤ) : (makeKalmanFilter q r n).update z =
    .ok { makeKalmanFilter q r n with stateEstimation := ⟨z, 0, 0, 0⟩, iterNum := 1 } := rfl

end Generic

/-! ## The same numbers -/
open Dy

structure IsV (v : Vec4 (Fl f64)) (w : Vec4 Dy) : Prop where
  e0 : Is v.e0 w.e0
  e1 : Is v.e1 w.e1
  e2 : Is v.e2 w.e2
  e3 : Is v.e3 w.e3

structure IsM (v : Matrix4 (Fl f64)) (w : Matrix4 Dy) : Prop where
  r0 : IsV v.r0 w.r0
  r1 : IsV v.r1 w.r1
  r2 : IsV v.r2 w.r2
  r3 : IsV v.r3 w.r3

section
variable {a b : Vec4 (Fl f64)} {a' b' : Vec4 Dy} {m n : Matrix4 (Fl f64)} {m' n' : Matrix4 Dy} {x : Fl f64} {x' : Dy}

theorem is_zero' : Is (0 : Fl f64) (0 : Dy) := is_ofInt
theorem is_one' : Is (1 : Fl f64) (1 : Dy) := is_ofInt

theorem IsV.dot (ha : IsV a a') (hb : IsV b b') : Is (Vec4.dot a b) (Vec4.dot a' b') :=
  ((((is_zero'.add (ha.e0.mul hb.e0)).add (ha.e1.mul hb.e1)).add (ha.e2.mul hb.e2)).add (ha.e3.mul hb.e3))
theorem IsV.add (ha : IsV a a') (hb : IsV b b') : IsV (a.add b) (a'.add b') :=
  ⟨ha.e0.add hb.e0, ha.e1.add hb.e1, ha.e2.add hb.e2, ha.e3.add hb.e3⟩
theorem IsV.sub (ha : IsV a a') (hb : IsV b b') : IsV (a.sub b) (a'.sub b') :=
  ⟨ha.e0.sub hb.e0, ha.e1.sub hb.e1, ha.e2.sub hb.e2, ha.e3.sub hb.e3⟩
theorem IsV.scale (ha : IsV a a') (hx : Is x x') : IsV (a.scale x) (a'.scale x') :=
  ⟨ha.e0.mul hx, ha.e1.mul hx, ha.e2.mul hx, ha.e3.mul hx⟩
theorem IsV.divs (ha : IsV a a') (hx : Is x x') : IsV (a.divs x) (a'.divs x') :=
  ⟨ha.e0.div hx, ha.e1.div hx, ha.e2.div hx, ha.e3.div hx⟩

theorem isM_one : IsM (Matrix4.one : Matrix4 (Fl f64)) (Matrix4.one : Matrix4 Dy) :=
  ⟨⟨is_one', is_zero', is_zero', is_zero'⟩, ⟨is_zero', is_one', is_zero', is_zero'⟩, ⟨is_zero', is_zero', is_one', is_zero'⟩,
   ⟨is_zero', is_zero', is_zero', is_one'⟩⟩
theorem IsM.transpose (h : IsM m m') : IsM m.transpose m'.transpose :=
  ⟨⟨h.r0.e0, h.r1.e0, h.r2.e0, h.r3.e0⟩, ⟨h.r0.e1, h.r1.e1, h.r2.e1, h.r3.e1⟩, ⟨h.r0.e2, h.r1.e2, h.r2.e2, h.r3.e2⟩,
   ⟨h.r0.e3, h.r1.e3, h.r2.e3, h.r3.e3⟩⟩
theorem isM_outer (ha : IsV a a') (hb : IsV b b') : IsM (Matrix4.outer a b) (Matrix4.outer a' b') :=
  ⟨⟨ha.e0.mul hb.e0, ha.e0.mul hb.e1, ha.e0.mul hb.e2, ha.e0.mul hb.e3⟩, ⟨ha.e1.mul hb.e0, ha.e1.mul hb.e1, ha.e1.mul hb.e2, ha.e1.mul hb.e3⟩,
   ⟨ha.e2.mul hb.e0, ha.e2.mul hb.e1, ha.e2.mul hb.e2, ha.e2.mul hb.e3⟩, ⟨ha.e3.mul hb.e0, ha.e3.mul hb.e1, ha.e3.mul hb.e2, ha.e3.mul hb.e3⟩⟩
theorem IsM.mul (h : IsM m m') (k : IsM n n') : IsM (m.mul n) (m'.mul n') := by
  have t := k.transpose
  have row : ∀ {a : Vec4 (Fl f64)} {a' : Vec4 Dy}, IsV a a' →
      IsV ⟨Vec4.dot a n.c0, Vec4.dot a n.c1, Vec4.dot a n.c2, Vec4.dot a n.c3⟩ ⟨Vec4.dot a' n'.c0, Vec4.dot a' n'.c1, Vec4.dot a' n'.c2, Vec4.dot a' n'.c3⟩ :=
    fun ha => ⟨ha.dot t.r0, ha.dot t.r1, ha.dot t.r2, ha.dot t.r3⟩
  exact ⟨row h.r0, row h.r1, row h.r2, row h.r3⟩
theorem IsM.add (h : IsM m m') (k : IsM n n') : IsM (m.add n) (m'.add n') := ⟨h.r0.add k.r0, h.r1.add k.r1, h.r2.add k.r2, h.r3.add k.r3⟩
theorem IsM.sub (h : IsM m m') (k : IsM n n') : IsM (m.sub n) (m'.sub n') := ⟨h.r0.sub k.r0, h.r1.sub k.r1, h.r2.sub k.r2, h.r3.sub k.r3⟩
theorem IsM.scale (h : IsM m m') (k : Is x x') : IsM (m.scale x) (m'.scale x') := ⟨h.r0.scale k, h.r1.scale k, h.r2.scale k, h.r3.scale k⟩
theorem isV_vecMul (ha : IsV a a') (h : IsM m m') : IsV (Matrix4.vecMul a m) (Matrix4.vecMul a' m') := by
  have t := h.transpose
  exact ⟨ha.dot t.r0, ha.dot t.r1, ha.dot t.r2, ha.dot t.r3⟩

end

/-- The constants of two filters are the same numbers. -/
structure IsF (f : KalmanFilter (Fl f64)) (g : KalmanFilter Dy) : Prop where
  trans : IsM f.stateTransition g.stateTransition
  noise : IsM f.processNoiseCovariance g.processNoiseCovariance
  meas : IsV f.measurementVector g.measurementVector
  var : Is f.measurementNoiseVariance g.measurementNoiseVariance

section
variable {f : KalmanFilter (Fl f64)} {g : KalmanFilter Dy} {p : Matrix4 (Fl f64)} {p' : Matrix4 Dy} (h : IsF f g)
include h

theorem IsF.prior (hp : IsM p p') : IsM (priorCov f p) (priorCov g p') := ((h.trans.mul hp).mul h.trans.transpose).add h.noise

theorem IsF.gain (hp : IsM p p') : IsV (gainOf f p) (gainOf g p') :=
  (isV_vecMul h.meas hp).divs (((isV_vecMul h.meas hp).dot h.meas).add h.var)

theorem IsF.posterior (hp : IsM p p') {k : Vec4 (Fl f64)} {k' : Vec4 Dy} (hk : IsV k k') : IsM (posteriorCov f p k) (posteriorCov g p' k') :=
  (((isM_one.sub (isM_outer hk h.meas)).mul hp).mul (isM_one.sub (isM_outer hk h.meas)).transpose).add ((isM_outer hk hk).scale h.var)
end

theorem is_half : Is (Scalar.ofRatio 1 2 : Fl f64) (Scalar.ofRatio 1 2 : Dy) := by
  have h : (Scalar.ofRatio 1 2 : Fl f64) = Scalar.ofInt 1 / Scalar.ofInt 2 := by decide +kernel
  rw [h]
  exact is_ofInt.div is_ofInt

theorem isF_make {q r : Fl f64} {q' r' : Dy} (hq : Is q q') (hr : Is r r') (n : ℤ) : IsF (makeKalmanFilter q r n) (makeKalmanFilter q' r' n) := by
  have h1 := is_one'
  have h0 := is_zero'
  have hh := is_half
  have h6 : Is (6 : Fl f64) (6 : Dy) := is_ofInt
  have k1 : Is (kDt : Fl f64) (kDt : Dy) := h1
  have k2 : Is (kDtSquared : Fl f64) (kDtSquared : Dy) := h1.mul h1
  have k3 : Is (kDtCubed : Fl f64) (kDtCubed : Dy) := (h1.mul h1).mul h1
  have hs := (h1.div h6).mul k3
  have hh2 := hh.mul k2
  have hn : IsV ⟨1 / 6 * kDtCubed, Scalar.ofRatio 1 2 * kDtSquared, kDt, 1⟩ ⟨1 / 6 * kDtCubed, Scalar.ofRatio 1 2 * kDtSquared, kDt, 1⟩ := ⟨hs, hh2, k1, h1⟩
  constructor
  · exact ⟨⟨h1, k1, hh2, hs⟩, ⟨h0, h1, k1, hh2⟩, ⟨h0, h0, h1, k1⟩, ⟨h0, h0, h0, h1⟩⟩
  · have := (isM_outer hn hn).scale hq
    simp only [makeKalmanFilter, KalmanFilter.mk']
    exact this
  · exact ⟨h1, h0, h0, h0⟩
  · exact hr

/-! ## Evaluation -/

def forceV {α : Type} (v : Vec4 Dy) (f : Vec4 Dy → α) : α :=
  v.e0.force fun a => v.e1.force fun b => v.e2.force fun c => v.e3.force fun d => f ⟨a, b, c, d⟩
def forceM {α : Type} (v : Matrix4 Dy) (f : Matrix4 Dy → α) : α :=
  forceV v.r0 fun a => forceV v.r1 fun b => forceV v.r2 fun c => forceV v.r3 fun d => f ⟨a, b, c, d⟩

@[simp] theorem forceV_eq {α : Type} (v : Vec4 Dy) (f : Vec4 Dy → α) : forceV v f = f v := by simp [forceV]
@[simp] theorem forceM_eq {α : Type} (v : Matrix4 Dy) (f : Matrix4 Dy → α) : forceM v f = f v := by simp [forceM]

/-- The next gain and covariance. -/
def withGain {α : Type} (f : KalmanFilter Dy) (p : Matrix4 Dy) (cont : Vec4 Dy → Matrix4 Dy → α) : α :=
  forceM (f.stateTransition.mul p) fun a =>
  forceM ((a.mul f.stateTransition.transpose).add f.processNoiseCovariance) fun p =>
  forceV (Matrix4.vecMul f.measurementVector p) fun hp =>
  forceV (hp.divs (Vec4.dot hp f.measurementVector + f.measurementNoiseVariance)) fun gain =>
  forceM (Matrix4.one.sub (Matrix4.outer gain f.measurementVector)) fun iKH =>
  forceM (iKH.mul p) fun b =>
  forceM ((b.mul iKH.transpose).add ((Matrix4.outer gain gain).scale f.measurementNoiseVariance)) fun p' => cont gain p'

theorem withGain_eq {α : Type} (f : KalmanFilter Dy) (p : Matrix4 Dy) (cont : Vec4 Dy → Matrix4 Dy → α) :
    withGain f p cont = cont (gainOf f (priorCov f p)) (posteriorCov f (priorCov f p) (gainOf f (priorCov f p))) := by
  simp only [withGain, forceM_eq, forceV_eq]
  rfl

/-- `f g`, with the constants of `g` evaluated first. -/
def forceF {α : Type} (g : KalmanFilter Dy) (f : KalmanFilter Dy → α) : α :=
  forceM g.stateTransition fun a => forceM g.processNoiseCovariance fun b => forceV g.measurementVector fun c => g.measurementNoiseVariance.force fun r =>
    f { g with stateTransition := a, processNoiseCovariance := b, measurementVector := c, measurementNoiseVariance := r }

theorem forceF_eq {α : Type} (g : KalmanFilter Dy) (f : KalmanFilter Dy → α) : forceF g f = f g := by simp [forceF]

/-- A gain in units, rounded. -/
def toUnits : Dy → ℤ
  | bad => 0
  | .num a m e => forceNat (Nat.div m (Nat.pow 2 (Nat.sub 1042 e))) fun n => cond a (Int.neg (Int.ofNat n)) (Int.ofNat n)

def unitsOk : Dy → Bool
  | bad => false
  | .num _ m e => Nat.ble e 1042 && Nat.ble (Nat.div m (Nat.pow 2 (Nat.sub 1042 e))) (2 * Hold.unit)

theorem units_near {x : Fl f64} {d : Dy} (h : Is x d) (hd : unitsOk d = true) :
    Finite x ∧ |num x - toUnits d / Hold.unit| ≤ 1 / Hold.unit ∧ |num x| ≤ 3 := by
  cases d with
  | bad => simp [unitsOk] at hd
  | num a m e =>
    simp only [unitsOk, Bool.and_eq_true] at hd
    have he := Nat.le_of_ble_eq_true hd.1
    have hm := Nat.le_of_ble_eq_true hd.2
    refine ⟨h.1, ?_⟩
    simp only [toUnits, forceNat_eq]
    have hk := h.2
    change m / 2 ^ (1042 - e) ≤ _ at hm
    have hn : Nat.div m (Nat.pow 2 (Nat.sub 1042 e)) = m / 2 ^ (1042 - e) := rfl
    rw [hn]
    have d1 := Nat.div_mul_le_self m (2 ^ (1042 - e))
    have d2 := Nat.lt_mul_div_succ m (Nat.two_pow_pos (1042 - e))
    generalize m / 2 ^ (1042 - e) = n at *
    have d1 : (n : ℝ) * 2 ^ (1042 - e) ≤ m := by exact_mod_cast d1
    have d2 : (m : ℝ) < 2 ^ (1042 - e) * (n + 1) := by exact_mod_cast d2
    have hm : (n : ℝ) ≤ 2 * (Hold.unit : ℕ) := by exact_mod_cast hm
    have hv : (m : ℝ) * 2 ^ e / 2 ^ 1074 = m / 2 ^ (1042 - e) / (Hold.unit : ℕ) := by
      have e1 : (2 : ℝ) ^ 1074 = 2 ^ (1042 - e) * 2 ^ e * 2 ^ 32 := by rw [← pow_add, ← pow_add]; congr 1; omega
      have e2 : ((Hold.unit : ℕ) : ℝ) = 2 ^ 32 := by norm_num
      rw [e1, e2]
      have : (2 : ℝ) ^ e ≠ 0 := by positivity
      field_simp
    have hU : (0 : ℝ) < (Hold.unit : ℕ) := by norm_num
    have hU1 : (1 : ℝ) ≤ (Hold.unit : ℕ) := by norm_num
    generalize hvv : (m : ℝ) * 2 ^ e / 2 ^ 1074 = v at *
    have hp : (0 : ℝ) < 2 ^ (1042 - e) := by positivity
    have v1 : (n : ℝ) / (Hold.unit : ℕ) ≤ v := by
      rw [hv]; gcongr; rw [le_div_iff₀ hp]; exact d1
    have v2 : v ≤ (n + 1 : ℝ) / (Hold.unit : ℕ) := by
      rw [hv]; gcongr; rw [div_le_iff₀ hp]; linarith
    have hnum : Fl.num x = if a then -v else v := by
      unfold Fl.num
      rw [hk, key_sg, show f64.q = 1074 from rfl, ← hvv]
      push_cast
      generalize (2 : ℝ) ^ 1074 = z
      cases a <;> simp [sg, neg_div]
    rw [hnum]
    have v3 : (n + 1 : ℝ) / (Hold.unit : ℕ) = n / (Hold.unit : ℕ) + 1 / (Hold.unit : ℕ) := by ring
    have v4 : (n + 1 : ℝ) / (Hold.unit : ℕ) ≤ 3 := by rw [div_le_iff₀ hU]; linarith
    have v0 : (0 : ℝ) ≤ n / (Hold.unit : ℕ) := by positivity
    generalize hw : (n : ℝ) / (Hold.unit : ℕ) = w at *
    have h1u : (0 : ℝ) ≤ 1 / (Hold.unit : ℕ) := by positivity
    cases a
    · simp only [cond_false, Bool.false_eq_true, if_false]
      have : ((Int.ofNat n : ℤ) : ℝ) / (Hold.unit : ℕ) = w := by rw [← hw]; simp
      rw [this, abs_le, abs_le]
      exact ⟨⟨by linarith, by linarith⟩, by linarith, by linarith⟩
    · simp only [cond_true, if_true]
      have : ((Int.neg (Int.ofNat n) : ℤ) : ℝ) / (Hold.unit : ℕ) = -w := by
        rw [← hw]
        change ((-(n : ℤ) : ℤ) : ℝ) / _ = _
        push_cast; ring
      rw [this, abs_le, abs_le]
      exact ⟨⟨by linarith, by linarith⟩, by linarith, by linarith⟩

end
end Ink
