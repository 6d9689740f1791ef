import Verif.Exact.Kin
import Verif.Spec.Forecast
import Verif.Lemmas.Forecast
import Mathlib.Algebra.Order.Star.Real
/-!
# The Kalman filter on exact numbers is the textbook one
-/
namespace Ink
open Scalar Arith XR
noncomputable section
open Classical Matrix

namespace XR

/-- A vector of real numbers. -/
def L (v : Fin 4 → ℝ) : Vec4 XR := ⟨fin (v 0), fin (v 1), fin (v 2), fin (v 3)⟩

/-- A matrix of real numbers. -/
def M (a : Matrix (Fin 4) (Fin 4) ℝ) : Matrix4 XR := ⟨L (a 0), L (a 1), L (a 2), L (a 3)⟩

theorem L_inj {v w : Fin 4 → ℝ} : L v = L w ↔ v = w := by
  constructor
  · intro h
    simp only [L, Vec4.mk.injEq, fin_inj] at h
    ext i
    fin_cases i
    exacts [h.1, h.2.1, h.2.2.1, h.2.2.2]
  · rintro rfl; rfl

theorem M_inj {a b : Matrix (Fin 4) (Fin 4) ℝ} : M a = M b ↔ a = b := by
  constructor
  · intro h
    simp only [M, Matrix4.mk.injEq, L_inj] at h
    ext i j
    fin_cases i
    exacts [congrFun h.1 j, congrFun h.2.1 j, congrFun h.2.2.1 j, congrFun h.2.2.2 j]
  · rintro rfl; rfl

variable (a b : Matrix (Fin 4) (Fin 4) ℝ) (v w : Fin 4 → ℝ) (k : ℝ)

theorem L_zero : (Vec4.zero : Vec4 XR) = L 0 := by simp [Vec4.zero, L]
theorem L_dot : Vec4.dot (L v) (L w) = fin (v ⬝ᵥ w) := by
  simp [Vec4.dot, L, dotProduct, Fin.sum_univ_four]
theorem L_add : (L v).add (L w) = L (v + w) := rfl
theorem L_scale : (L v).scale (fin k) = L (k • v) := by simp [Vec4.scale, L, mul_comm]
theorem L_divs (hk : k ≠ 0) : (L v).divs (fin k) = L (k⁻¹ • v) := by
  simp only [Vec4.divs, L, fin_div _ hk, Pi.smul_apply, smul_eq_mul, div_eq_inv_mul]
theorem L_sub : (L v).sub (L w) = L (v - w) := by simp [Vec4.sub, L]

theorem M_one : (Matrix4.one : Matrix4 XR) = M 1 := by simp [Matrix4.one, M, L]
theorem M_c0 : (M a).c0 = L (aᵀ 0) := rfl
theorem M_c1 : (M a).c1 = L (aᵀ 1) := rfl
theorem M_c2 : (M a).c2 = L (aᵀ 2) := rfl
theorem M_c3 : (M a).c3 = L (aᵀ 3) := rfl
theorem M_transpose : (M a).transpose = M aᵀ := rfl
theorem M_outer : Matrix4.outer (L v) (L w) = M (vecMulVec v w) := rfl
theorem M_mul : (M a).mul (M b) = M (a * b) := by
  simp only [Matrix4.mul, M_c0, M_c1, M_c2, M_c3]
  simp only [M, L_dot, Matrix4.mk.injEq]
  exact ⟨rfl, rfl, rfl, rfl⟩
theorem M_add : (M a).add (M b) = M (a + b) := rfl
theorem M_sub : (M a).sub (M b) = M (a - b) := by
  simp only [Matrix4.sub, M, L_sub]
  rfl
theorem M_scale : (M a).scale (fin k) = M (k • a) := by
  simp only [Matrix4.scale, M, L_scale]
  rfl
theorem M_mulVec : (M a).mulVec (L v) = L (a *ᵥ v) := by
  simp only [Matrix4.mulVec, M, L_dot]
  simp only [L, mulVec, dotProduct_comm v]
theorem M_vecMul : Matrix4.vecMul (L v) (M a) = L (v ᵥ* a) := by
  simp only [Matrix4.vecMul, M_c0, M_c1, M_c2, M_c3, L_dot]
  rfl

end XR

namespace Ref

/-! ## The textbook filter -/

theorem jolt_eq : jolt = ![1 / 6, 1 / 2, 1, 1] := by
  ext i; fin_cases i <;> simp [jolt, Nat.factorial]

theorem transition_eq : transition = !![1, 1, 1 / 2, 1 / 6; 0, 1, 1, 1 / 2; 0, 0, 1, 1; 0, 0, 0, 1] := by
  ext i j; fin_cases i <;> fin_cases j <;> simp [transition, Nat.factorial]

theorem watch_mulVec (P : Matrix (Fin 4) (Fin 4) ℝ) : P *ᵥ watch = fun i => P i 0 := by
  ext i; simp [mulVec, dotProduct, watch]

theorem watch_dot (v : Fin 4 → ℝ) : watch ⬝ᵥ v = v 0 := by
  simp [dotProduct, watch]

theorem Belief.innovation_eq (r : ℝ) (b : Belief) : b.innovation r = b.cov 0 0 + r := by
  rw [Belief.innovation, watch_mulVec, watch_dot]

theorem posSemidef_diag {P : Matrix (Fin 4) (Fin 4) ℝ} (h : P.PosSemidef) (i : Fin 4) : 0 ≤ P i i := h.diag_nonneg

theorem symm_of {P : Matrix (Fin 4) (Fin 4) ℝ} (h : P.PosSemidef) : Pᵀ = P := by
  have := h.1
  rwa [IsHermitian, conjTranspose_eq_transpose_of_trivial] at this

theorem Belief.predict_psd {q : ℝ} (hq : 0 ≤ q) {b : Belief} (h : b.cov.PosSemidef) : (b.predict q).cov.PosSemidef := by
  refine PosSemidef.add ?_ (PosSemidef.smul ?_ hq)
  · have := h.mul_mul_conjTranspose_same transition
    rwa [conjTranspose_eq_transpose_of_trivial] at this
  · have := posSemidef_vecMulVec_self_star jolt
    rwa [star_trivial] at this

theorem Belief.innovation_pos {r : ℝ} (hr : 0 < r) {b : Belief} (h : b.cov.PosSemidef) : r ≤ b.innovation r ∧ 0 < b.innovation r := by
  rw [b.innovation_eq]
  have := posSemidef_diag h 0
  constructor <;> linarith

/-- The covariance after a measurement is also given by Joseph's formula. -/
theorem Belief.joseph {r : ℝ} (hr : 0 < r) {b : Belief} (h : b.cov.PosSemidef) (z : ℝ) :
    (1 - vecMulVec (b.gain r) watch) * b.cov * (1 - vecMulVec (b.gain r) watch)ᵀ + r • vecMulVec (b.gain r) (b.gain r) =
      (b.correct r z).cov := by
  have hs := (b.innovation_pos hr h).2
  have hsym : ∀ i, b.cov 0 i = b.cov i 0 := fun i => congrFun (congrFun (symm_of h) i) 0
  have hg : b.cov *ᵥ watch = b.innovation r • b.gain r := by
    rw [Belief.gain, smul_smul, mul_inv_cancel₀ hs.ne', one_smul]
  have hw : watch ᵥ* b.cov = b.cov *ᵥ watch := by
    rw [← mulVec_transpose, symm_of h]
  have hi : watch ⬝ᵥ (b.cov *ᵥ watch) = b.innovation r - r := by simp [Belief.innovation]
  have h1 : vecMulVec (b.gain r) watch * b.cov = b.innovation r • vecMulVec (b.gain r) (b.gain r) := by
    rw [vecMulVec_mul, hw, hg, vecMulVec_smul]
  have h2 : b.cov * (vecMulVec (b.gain r) watch)ᵀ = b.innovation r • vecMulVec (b.gain r) (b.gain r) := by
    rw [transpose_vecMulVec, mul_vecMulVec, hg, smul_vecMulVec]
  have h3 : vecMulVec (b.gain r) (b.gain r) * (vecMulVec (b.gain r) watch)ᵀ =
      (b.gain r ⬝ᵥ watch) • vecMulVec (b.gain r) (b.gain r) := by
    rw [transpose_vecMulVec, vecMulVec_mul_vecMulVec]
    simp [vecMulVec_smul]
  have h4 : b.innovation r * (b.gain r ⬝ᵥ watch) = b.innovation r - r := by
    rw [← hi, hg, dotProduct_smul, smul_eq_mul, dotProduct_comm]
  show _ = (1 - vecMulVec (b.gain r) watch) * b.cov
  rw [transpose_sub, transpose_one, mul_sub, mul_one, sub_mul, one_mul, h1, sub_mul, h2, smul_mul, h3, smul_smul, h4, sub_smul]
  abel

theorem Belief.correct_psd {r : ℝ} (hr : 0 < r) {b : Belief} (h : b.cov.PosSemidef) (z : ℝ) : (b.correct r z).cov.PosSemidef := by
  rw [← b.joseph hr h z]
  refine PosSemidef.add ?_ (PosSemidef.smul ?_ hr.le)
  · have := h.mul_mul_conjTranspose_same (1 - vecMulVec (b.gain r) watch)
    rwa [conjTranspose_eq_transpose_of_trivial] at this
  · have := posSemidef_vecMulVec_self_star (b.gain r)
    rwa [star_trivial] at this

/-- After a measurement the position is at least as certain as the measurement, and as it was. -/
theorem Belief.correct_variance {r : ℝ} (hr : 0 < r) {b : Belief} (h : b.cov.PosSemidef) (z : ℝ) :
    (b.correct r z).cov 0 0 = b.cov 0 0 * r / (b.cov 0 0 + r) := by
  have hp := posSemidef_diag h 0
  have hs := (b.innovation_pos hr h).2
  rw [b.innovation_eq] at hs
  have e : (b.correct r z).cov 0 0 = b.cov 0 0 - b.gain r 0 * b.cov 0 0 := by
    show ((1 - vecMulVec (b.gain r) watch) * b.cov) 0 0 = _
    rw [sub_mul, one_mul, vecMulVec_mul]
    simp [vecMulVec_apply, vecMul, watch_dot]
  rw [e, Belief.gain, b.innovation_eq, watch_mulVec]
  simp only [Pi.smul_apply, smul_eq_mul]
  field_simp
  ring

theorem believe_snoc (q r : ℝ) {zs : List ℝ} (h : zs ≠ []) (z : ℝ) :
    believe q r (zs ++ [z]) = ((believe q r zs).predict q).correct r z := by
  cases zs with
  | nil => exact absurd rfl h
  | cons a zs => simp [believe]

theorem believe_psd {q r : ℝ} (hq : 0 ≤ q) (hr : 0 < r) (zs : List ℝ) : (believe q r zs).cov.PosSemidef := by
  induction zs using List.reverseRecOn with
  | nil => exact PosSemidef.one
  | append_singleton zs z ih =>
    rcases eq_or_ne zs [] with rfl | h
    · exact PosSemidef.one
    · rw [believe_snoc q r h]
      exact Belief.correct_psd hr (Belief.predict_psd hq ih) z

theorem believe_variance {q r : ℝ} (hq : 0 ≤ q) (hr : 0 < r) {zs : List ℝ} (h : 2 ≤ zs.length) : (believe q r zs).cov 0 0 ≤ r := by
  induction zs using List.reverseRecOn with
  | nil => simp at h
  | append_singleton zs z _ =>
    have hne : zs ≠ [] := by rintro rfl; simp at h
    have hp := Belief.predict_psd hq (believe_psd hq hr zs)
    rw [believe_snoc q r hne, Belief.correct_variance hr hp]
    have h0 := posSemidef_diag hp 0
    rw [div_le_iff₀ (by linarith)]
    nlinarith

/-- Measurements of a resting point are believed as they are. -/
theorem believe_rest (q r z : ℝ) (n : ℕ) : (believe q r (List.replicate (n + 1) z)).mean = fun i => if i = 0 then z else 0 := by
  induction n with
  | zero => rfl
  | succ n ih =>
    rw [List.replicate_succ', believe_snoc q r (by simp)]
    have hp : ((believe q r (List.replicate (n + 1) z)).predict q).mean = fun i => if i = 0 then z else 0 := by
      show transition *ᵥ (believe q r (List.replicate (n + 1) z)).mean = _
      rw [ih]
      ext i
      fin_cases i <;> simp [transition_eq, mulVec, dotProduct]
    show _ + (z - _) • _ = _
    rw [hp, watch_dot]
    simp

end Ref

namespace XR
open Ref

/-! ## The code -/

/-- The filter holds the belief. -/
structure Believes (q r : ℝ) (f : KalmanFilter XR) (b : Belief) : Prop where
  mean : f.stateEstimation = L b.mean
  cov : f.errorCovariance = M b.cov
  transition : f.stateTransition = M Ref.transition
  process : f.processNoiseCovariance = M (q • vecMulVec jolt jolt)
  watch : f.measurementVector = L Ref.watch
  noise : f.measurementNoiseVariance = fin r

theorem make_believes (q r : ℝ) (n : ℤ) : Believes q r (makeKalmanFilter (fin q) (fin r) n) .initial where
  mean := L_zero
  cov := M_one
  transition := by
    simp only [makeKalmanFilter, KalmanFilter.mk', kDt, kDtSquared, kDtCubed, Ref.transition_eq]
    simp [M, L, fin_div]
  process := by
    have : (⟨1 / 6 * kDtCubed, ofRatio 1 2 * kDtSquared, kDt, 1⟩ : Vec4 XR) = L jolt := by
      simp [kDt, kDtSquared, kDtCubed, jolt_eq, L, fin_div]
    simp only [makeKalmanFilter, KalmanFilter.mk']
    rw [this, M_outer, M_scale]
  watch := by simp [makeKalmanFilter, KalmanFilter.mk', L, Ref.watch]
  noise := rfl

theorem Believes.predict {q r : ℝ} {f : KalmanFilter XR} {b : Belief} (h : Believes q r f b) :
    Believes q r f.predict (b.predict q) where
  mean := by simp only [KalmanFilter.predict, h.transition, h.mean, M_mulVec]; rfl
  cov := by
    simp only [KalmanFilter.predict, h.transition, h.cov, h.process, M_mul, M_transpose, M_add]; rfl
  transition := h.transition
  process := h.process
  watch := h.watch
  noise := h.noise

theorem Believes.correct {q r : ℝ} {f : KalmanFilter XR} {b : Belief} (h : Believes q r f b) (hr : 0 < r)
    (hp : b.cov.PosSemidef) (z : ℝ) : Believes q r (f.correct (fin z)) (b.correct r z) := by
  have hs := (b.innovation_pos hr hp).2
  have hw : Ref.watch ᵥ* b.cov = b.cov *ᵥ Ref.watch := by
    rw [← mulVec_transpose, symm_of hp]
  have hS : Vec4.dot (Matrix4.vecMul f.measurementVector f.errorCovariance) f.measurementVector + f.measurementNoiseVariance =
      fin (b.innovation r) := by
    rw [h.watch, h.cov, h.noise, M_vecMul, L_dot, fin_add, hw, dotProduct_comm]; rfl
  have hg : (Matrix4.vecMul f.measurementVector f.errorCovariance).divs
      (Vec4.dot (Matrix4.vecMul f.measurementVector f.errorCovariance) f.measurementVector + f.measurementNoiseVariance) =
      L (b.gain r) := by
    rw [hS, h.watch, h.cov, M_vecMul, L_divs _ _ hs.ne', hw]; rfl
  refine ⟨?_, ?_, h.transition, h.process, h.watch, h.noise⟩
  · simp only [KalmanFilter.correct, hg]
    rw [h.mean, h.watch, L_dot, fin_sub, L_scale, L_add]
    rfl
  · simp only [KalmanFilter.correct, hg]
    rw [h.cov, h.watch, h.noise, M_one, M_outer, M_outer, M_sub, M_transpose, M_mul, M_mul, M_scale, M_add, b.joseph hr hp z]

theorem Believes.update {q r : ℝ} (hq : 0 ≤ q) (hr : 0 < r) {f f' : KalmanFilter XR} {zs : List ℝ} (h : Believes q r f (believe q r zs))
    (hn : f.iterNum = zs.length) {z : ℝ} (hu : f.update (fin z) = .ok f') : Believes q r f' (believe q r (zs ++ [z])) := by
  unfold KalmanFilter.update at hu
  split at hu
  · simp at hu
  · dsimp only at hu
    split at hu
    · rename_i h0
      have : zs = [] := by rw [hn] at h0; simpa using h0
      subst this
      simp only [Outcome.ok.injEq] at hu
      rw [← hu]
      refine ⟨?_, h.cov, h.transition, h.process, h.watch, h.noise⟩
      simp only [h.mean]
      simp [L, believe, Belief.initial, Belief.first]
    · rename_i h0
      have hne : zs ≠ [] := by rintro rfl; exact h0 (by simpa using hn)
      simp only [Outcome.ok.injEq] at hu
      rw [← hu, believe_snoc q r hne]
      have h' : Believes q r { f with iterNum := f.iterNum + 1 } (believe q r zs) :=
        ⟨h.mean, h.cov, h.transition, h.process, h.watch, h.noise⟩
      exact h'.predict.correct hr (Belief.predict_psd hq (believe_psd hq hr zs)) z

theorem measure_believes {q r : ℝ} (hq : 0 ≤ q) (hr : 0 < r) {n : ℤ} {zs : List ℝ} {f : KalmanFilter XR}
    (h : measure (makeKalmanFilter (fin q) (fin r) n) (zs.map fin) = .ok f) :
    Believes q r f (believe q r zs) ∧ f.iterNum = zs.length := by
  induction zs using List.reverseRecOn generalizing f with
  | nil =>
    simp only [measure, List.map_nil, List.foldlM_nil] at h
    obtain rfl := Outcome.ok.inj h
    exact ⟨make_believes q r n, rfl⟩
  | append_singleton zs z ih =>
    simp only [measure, List.map_append, List.map_singleton, List.foldlM_append, List.foldlM_cons, List.foldlM_nil] at h
    obtain ⟨f₁, h1, h⟩ := Outcome.bind_eq_ok.1 h
    obtain ⟨f₂, h2, h⟩ := Outcome.bind_eq_ok.1 h
    simp only [Outcome.pure_eq, Outcome.ok.injEq] at h
    subst h
    obtain ⟨i1, i2⟩ := ih h1
    refine ⟨i1.update hq hr i2 h2, ?_⟩
    rw [(filter_update h2).1, i2]
    simp

end XR
end
end Ink
