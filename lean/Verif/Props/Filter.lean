import Verif.Examples.Kalman
/-!
# The Kalman filter: C46, C49
-/
namespace Ink
open Scalar Arith XR Matrix
noncomputable section
open Classical

/-- C49, on exact numbers: the operations of matrix.h are those of linear algebra. `M` and `L` write a real matrix or vector in the
form of the code, without loss. -/
theorem C49_linear_algebra_exact (a b : Matrix (Fin 4) (Fin 4) ℝ) (v w : Fin 4 → ℝ) (s : ℝ) :
    (M a).mul (M b) = M (a * b) ∧ (M a).add (M b) = M (a + b) ∧ (M a).sub (M b) = M (a - b) ∧ (M a).transpose = M aᵀ ∧
    (M a).scale (fin s) = M (s • a) ∧ (Matrix4.one : Matrix4 XR) = M 1 ∧ Matrix4.outer (L v) (L w) = M (vecMulVec v w) ∧
    (M a).mulVec (L v) = L (a *ᵥ v) ∧ Matrix4.vecMul (L v) (M a) = L (v ᵥ* a) ∧
    Vec4.dot (L v) (L w) = fin (v ⬝ᵥ w) ∧ (L v).add (L w) = L (v + w) ∧ (L v).sub (L w) = L (v - w) ∧
    (L v).scale (fin s) = L (s • v) ∧ (s ≠ 0 → (L v).divs (fin s) = L (s⁻¹ • v)) ∧
    (M a = M b ↔ a = b) ∧ (L v = L w ↔ v = w) :=
  ⟨M_mul a b, M_add a b, M_sub a b, M_transpose a, M_scale a s, M_one, M_outer v w, M_mulVec a v, M_vecMul a v, L_dot v w, L_add v w,
    L_sub v w, L_scale v s, L_divs v s, M_inj, L_inj⟩

/-- C46, on exact numbers: after any observations the filter holds what the textbook filter believes. The covariance is symmetric
and positive semidefinite; the variance of the next innovation, by which the filter divides, is at least the measurement noise; and
from the second observation on the variance of the position is at most the measurement noise. -/
theorem C46_filter_exact {q r : ℝ} (hq : 0 < q) (hr : 0 < r) {n : ℤ} {zs : List ℝ} {f : KalmanFilter XR}
    (h : measure (makeKalmanFilter (fin q) (fin r) n) (zs.map fin) = .ok f) :
    f.stateEstimation = L (Ref.believe q r zs).mean ∧ f.errorCovariance = M (Ref.believe q r zs).cov ∧
    (Ref.believe q r zs).covᵀ = (Ref.believe q r zs).cov ∧ (Ref.believe q r zs).cov.PosSemidef ∧
    (∃ s, Vec4.dot (Matrix4.vecMul f.predict.measurementVector f.predict.errorCovariance) f.predict.measurementVector +
      f.predict.measurementNoiseVariance = fin s ∧ r ≤ s) ∧
    (2 ≤ zs.length → ∃ v, f.errorCovariance.r0.e0 = fin v ∧ 0 ≤ v ∧ v ≤ r) := by
  obtain ⟨hb, -⟩ := measure_believes hq.le hr h
  have hpsd := Ref.believe_psd hq.le hr zs
  refine ⟨hb.mean, hb.cov, Ref.symm_of hpsd, hpsd, ?_, fun h2 => ?_⟩
  · have hp := hb.predict
    have hpp := Ref.Belief.predict_psd hq.le hpsd
    refine ⟨((Ref.believe q r zs).predict q).innovation r, ?_, (Ref.Belief.innovation_pos hr hpp).1⟩
    rw [hp.watch, hp.cov, hp.noise, M_vecMul, L_dot, fin_add, ← mulVec_transpose, Ref.symm_of hpp, dotProduct_comm]
    rfl
  · rw [hb.cov]
    exact ⟨_, rfl, Ref.posSemidef_diag hpsd 0, Ref.believe_variance hq.le hr h2⟩

theorem measure_returns (zs : List XR) : ∀ (f : KalmanFilter XR) (k : ℕ), 0 ≤ f.iterNum ∧ f.iterNum ≤ k →
    ((k + zs.length : ℕ) : ℤ) ≤ intMax → ∃ f', measure f zs = .ok f' := by
  induction zs with
  | nil => exact fun f _ _ _ => ⟨f, rfl⟩
  | cons z zs ih =>
    intro f k hf hk
    rw [List.length_cons] at hk
    obtain ⟨f₁, h1, h2⟩ := kalman_update_returns hf (by omega) z
    obtain ⟨f', h3⟩ := ih f₁ (k + 1) h2 (by omega)
    exact ⟨f', by simp only [measure, List.foldlM_cons, h1, Outcome.ok_bind]; exact h3⟩

/-- the filter takes any fewer than 2^31 observations -/
example {q r : ℝ} (zs : List ℝ) (h : zs.length ≤ 2147483647) : ∃ f, measure (makeKalmanFilter (fin q) (fin r) 4) (zs.map fin) = .ok f :=
  measure_returns _ _ 0 ⟨le_refl _, le_refl _⟩ (by simp [intMax]; omega)

/-- C46, on exact numbers, for the filters of a stroke. -/
theorem C46_stroke_exact {ops : List (Op XR XR)} {rs : List (Response XR XR)} {m : StrokeModeler XR XR} {p : StrokeModelParams XR XR}
    (h : Session ops rs m) (hr : Regular ops rs) (hp : (known ops rs).params = some p) {k : KalmanParams XR XR}
    (hk : p.prediction = .kalman k) (hi : (known ops rs).prev ≠ none) :
    ∃ (q r : ℝ) (xs : List ℂ) (kp : KalmanPredictor XR XR), k.processNoise = fin q ∧ 0 < q ∧ k.measurementNoise = fin r ∧ 0 < r ∧
      m.predictor = some (.kalman kp) ∧ xs.length = (acceptedOf (strokeOf ops rs)).length ∧
      (p.wobble.isEnabled = false → xs.map V = (acceptedOf (strokeOf ops rs)).map (·.position)) ∧
      measure (makeKalmanFilter (fin q) (fin r) k.minStableIteration) (xs.map fun z => fin z.re) = .ok kp.xPredictor ∧
      measure (makeKalmanFilter (fin q) (fin r) k.minStableIteration) (xs.map fun z => fin z.im) = .ok kp.yPredictor := by
  obtain ⟨P, K, e, rest, w⟩ := h.watched hr hp hk hi
  obtain ⟨kp, hkp, hq⟩ := w.kalman
  refine ⟨K.process, K.noise, (news P e rest).map Prod.fst, kp, w.foresees.process, w.validK.process, w.foresees.noise,
    w.validK.noise, hkp, ?_, ?_, ?_, ?_⟩
  · have := congrArg List.length w.times
    simpa using this
  · intro ho
    rw [← w.positions ho, List.map_map]
    rfl
  · have := hq.x
    rw [axisFilter, w.foresees.process, w.foresees.noise] at this
    rw [given, List.map_map] at this
    rw [List.map_map]
    exact this
  · have := hq.y
    rw [axisFilter, w.foresees.process, w.foresees.noise] at this
    rw [given, List.map_map] at this
    rw [List.map_map]
    exact this

/-- the hypotheses are met by a stroke of two inputs -/
example : ∃ rs m, Session (calls (Ex.xpredict Ex.xkalman) (Ex.xtwo 1)) rs m ∧ Regular (calls (Ex.xpredict Ex.xkalman) (Ex.xtwo 1)) rs ∧
    (known (calls (Ex.xpredict Ex.xkalman) (Ex.xtwo 1)) rs).params = some (Ex.xpredict Ex.xkalman) ∧
    (known (calls (Ex.xpredict Ex.xkalman) (Ex.xtwo 1)) rs).prev ≠ none := by
  obtain ⟨rs, m, m', r, h1, h2, h3, h4, -⟩ := Ex.xtwo_predict Ex.xkalman_valid rfl rfl (c := 0.02) rfl (by norm_num) (x := 1) (by norm_num) le_rfl
  exact ⟨rs, m, h1, h2, h3, h4⟩

end
end Ink
