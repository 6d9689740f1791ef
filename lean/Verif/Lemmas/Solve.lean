import Verif.Lemmas.Motion
import Mathlib.Analysis.SpecialFunctions.Exponential
import Mathlib.MeasureTheory.Integral.IntervalIntegral.FundThmCalculus
/-!
# The equation of motion has a solution
-/
namespace Ink.Ref
noncomputable section
open Set MeasureTheory

/-- The pen left to itself, the anchor being at the origin. -/
def free (M d : ℝ) : ℂ × ℂ →L[ℝ] ℂ × ℂ :=
  (ContinuousLinearMap.snd ℝ ℂ ℂ).prod (-(M⁻¹ • ContinuousLinearMap.fst ℝ ℂ ℂ) - d • ContinuousLinearMap.snd ℝ ℂ ℂ)

theorem exists_flow {𝔸 : Type} [NormedRing 𝔸] [NormedAlgebra ℝ 𝔸] [CompleteSpace 𝔸] (A : 𝔸) :
    ∃ U : ℝ → 𝔸, U 0 = 1 ∧ (∀ t, U t * U (-t) = 1) ∧ ∀ t, HasDerivAt U (A * U t) t := by
  let _ := NormedAlgebra.restrictScalars ℚ ℝ 𝔸
  refine ⟨fun t => NormedSpace.exp (t • A), by simp, fun t => ?_, hasDerivAt_exp_smul_const' A⟩
  rw [← NormedSpace.exp_add_of_commute (by rw [neg_smul]; exact (Commute.refl _).neg_right), neg_smul, add_neg_cancel, NormedSpace.exp_zero]

/-- For a continuous path of the anchor. -/
theorem solution_continuous (M d : ℝ) {Φ : ℝ → ℂ} (hΦ : Continuous Φ) (t₀ : ℝ) (x₀ v₀ : ℂ) : ∃ x v : ℝ → ℂ, x t₀ = x₀ ∧ v t₀ = v₀ ∧
    (∀ t, HasDerivAt x (v t) t) ∧ ∀ t, HasDerivAt v (M⁻¹ • (Φ t - x t) - d • v t) t := by
  set A := free M d with hA
  obtain ⟨U, hU0, hUn, hU⟩ := exists_flow A
  have hUc : Continuous U := continuous_iff_continuousAt.2 fun t => (hU t).continuousAt
  let g : ℝ → ℂ × ℂ := fun t => U (-(t - t₀)) (0, M⁻¹ • Φ t)
  have hg : Continuous g := (hUc.comp (by fun_prop)).clm_apply (by fun_prop)
  let y : ℝ → ℂ × ℂ := fun t => U (t - t₀) ((x₀, v₀) + ∫ s in t₀..t, g s)
  have hy : ∀ t, HasDerivAt y (A (y t) + (0, M⁻¹ • Φ t)) t := by
    intro t
    have h1 : HasDerivAt (fun t => U (t - t₀)) (A * U (t - t₀)) t := by
      have := (hU (t - t₀)).scomp t ((hasDerivAt_id t).sub_const t₀)
      rwa [one_smul] at this
    have h2 : HasDerivAt (fun t => (x₀, v₀) + ∫ s in t₀..t, g s) (g t) t :=
      (intervalIntegral.integral_hasDerivAt_right (hg.intervalIntegrable _ _) (hg.stronglyMeasurableAtFilter _ _) hg.continuousAt).const_add _
    refine (h1.clm_apply h2).congr_deriv ?_
    have h3 : U (t - t₀) (g t) = (0, M⁻¹ • Φ t) := by
      exact congrArg (fun f : ℂ × ℂ →L[ℝ] ℂ × ℂ => f (0, M⁻¹ • Φ t)) (hUn (t - t₀))
    rw [h3]; rfl
  refine ⟨fun t => (y t).1, fun t => (y t).2, ?_, ?_, ?_, ?_⟩
  · simp only [y, sub_self, intervalIntegral.integral_same, add_zero, hU0]
    rfl
  · simp only [y, sub_self, intervalIntegral.integral_same, add_zero, hU0]
    rfl
  · intro t
    refine (((ContinuousLinearMap.fst ℝ ℂ ℂ).hasFDerivAt.comp_hasDerivAt t (hy t)) :).congr_deriv ?_
    simp [hA, free]
  · intro t
    refine (((ContinuousLinearMap.snd ℝ ℂ ℂ).hasFDerivAt.comp_hasDerivAt t (hy t)) :).congr_deriv ?_
    simp only [hA, free, map_add, ContinuousLinearMap.coe_snd', ContinuousLinearMap.prod_apply, sub_apply,
      neg_apply, smul_apply, ContinuousLinearMap.coe_fst', smul_sub]
    abel

/-- Motions along the path of an anchor exist, for any duration. -/
theorem motion_exists (M d : ℝ) {S : ℝ} (hS : 0 ≤ S) {a : ℂ × ℝ} {l : List (ℂ × ℝ)} (hs : Slow S a l) (T : ℝ) :
    ∃ x v : ℝ → ℂ, x a.2 = a.1 ∧ v a.2 = 0 ∧ Obeys M d (anchorAt a l) a.2 T x v := by
  have hc : Continuous fun t => anchorAt a l (max a.2 t) := by
    refine (LipschitzWith.of_dist_le_mul (K := ⟨S, hS⟩) ?_).continuous
    have key : ∀ s t : ℝ, s ≤ t → ‖anchorAt a l (max a.2 t) - anchorAt a l (max a.2 s)‖ ≤ S * (t - s) := by
      intro s t hst
      refine (anchorAt_lipschitz hs hS (le_max_left _ _) (max_le_max_left _ hst)).trans (mul_le_mul_of_nonneg_left ?_ hS)
      rcases le_total a.2 s with h | h
      · rw [max_eq_right h, max_eq_right (h.trans hst)]
      · rw [max_eq_left h]
        rcases le_total a.2 t with h' | h'
        · rw [max_eq_right h']; linarith
        · rw [max_eq_left h']; linarith
    intro s t
    rw [dist_eq_norm, Real.dist_eq]
    show _ ≤ S * |s - t|
    rcases le_total s t with h | h
    · rw [norm_sub_rev, abs_sub_comm, abs_of_nonneg (sub_nonneg.2 h)]; exact key s t h
    · rw [abs_of_nonneg (sub_nonneg.2 h)]; exact key t s h
  obtain ⟨x, v, h1, h2, h3, h4⟩ := solution_continuous M d hc a.2 a.1 0
  refine ⟨x, v, h1, h2, fun t _ => (h3 t).hasDerivWithinAt, fun t ht => ?_⟩
  have := (h4 t).hasDerivWithinAt (s := Icc a.2 T)
  rwa [max_eq_right ht.1] at this

end
end Ink.Ref
