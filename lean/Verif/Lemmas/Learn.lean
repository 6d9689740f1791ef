import Verif.Exact.Filter
import Mathlib.Algebra.QuadraticDiscriminant
import Mathlib.Topology.Order.MonotoneConvergence
import Mathlib.Topology.Algebra.Order.Field
import Mathlib.Topology.MetricSpace.Pseudo.Lemmas
/-!
# The filter learns motions with constant jerk

The error of the estimate, measured by the inverse of the covariance, decreases with each measurement by the square of the
innovation over its variance. The covariance is bounded, by that of an observer that forgets within four steps; so the innovations
tend to zero. The error is a combination of four consecutive innovations.
-/
namespace Ink.Ref
noncomputable section
open Matrix Filter Topology

/-! ## Quadratic forms -/

/-- The bilinear misfit of a matrix. -/
def misfit (P : Matrix (Fin 4) (Fin 4) ℝ) (x y : Fin 4 → ℝ) : ℝ := x ⬝ᵥ (P *ᵥ y)

variable {P : Matrix (Fin 4) (Fin 4) ℝ}

theorem misfit_comm (h : P.PosSemidef) (x y : Fin 4 → ℝ) : misfit P x y = misfit P y x := by
  unfold misfit
  rw [dotProduct_mulVec, ← mulVec_transpose, symm_of h, dotProduct_comm]

theorem misfit_nonneg (h : P.PosSemidef) (x : Fin 4 → ℝ) : 0 ≤ misfit P x x := by
  have := h.dotProduct_mulVec_nonneg x
  rwa [star_trivial] at this

theorem misfit_line (h : P.PosSemidef) (x y : Fin 4 → ℝ) (t : ℝ) :
    misfit P (x + t • y) (x + t • y) = misfit P x x + 2 * t * misfit P x y + t ^ 2 * misfit P y y := by
  have h1 := misfit_comm h y x
  unfold misfit at *
  rw [mulVec_add, mulVec_smul, add_dotProduct, dotProduct_add, dotProduct_add, smul_dotProduct, smul_dotProduct, dotProduct_smul,
    dotProduct_smul, h1]
  simp only [smul_eq_mul]
  ring

/-- The inequality of Cauchy and Schwarz. -/
theorem misfit_sq_le (h : P.PosSemidef) (x y : Fin 4 → ℝ) : misfit P x y ^ 2 ≤ misfit P x x * misfit P y y := by
  have := discrim_le_zero (a := misfit P y y) (b := 2 * misfit P x y) (c := misfit P x x) fun t => by
    have := misfit_nonneg h (x + t • y)
    rw [misfit_line h] at this
    linarith
  unfold discrim at this
  linarith

/-! ## One step -/

theorem misfit_predict (q : ℝ) (b : Belief) (x : Fin 4 → ℝ) :
    misfit (b.predict q).cov x x = misfit b.cov (transitionᵀ *ᵥ x) (transitionᵀ *ᵥ x) + q * (x ⬝ᵥ jolt) ^ 2 := by
  unfold misfit
  show x ⬝ᵥ ((transition * b.cov * transitionᵀ + q • vecMulVec jolt jolt) *ᵥ x) = _
  rw [add_mulVec, dotProduct_add, smul_mulVec, dotProduct_smul, vecMulVec_mulVec, ← mulVec_mulVec, ← mulVec_mulVec, dotProduct_mulVec x,
    ← mulVec_transpose]
  simp only [dotProduct_comm jolt x, op_smul_eq_smul, dotProduct_smul, smul_eq_mul]
  ring

theorem misfit_correct {r : ℝ} (hr : 0 < r) {b : Belief} (h : b.cov.PosSemidef) (z : ℝ) (x : Fin 4 → ℝ) :
    misfit (b.correct r z).cov x x = misfit b.cov x x - misfit b.cov x watch ^ 2 / b.innovation r := by
  have hs := (b.innovation_pos hr h).2
  unfold misfit
  show x ⬝ᵥ (((1 - vecMulVec (b.gain r) watch) * b.cov) *ᵥ x) = _
  have h1 : watch ⬝ᵥ (b.cov *ᵥ x) = x ⬝ᵥ (b.cov *ᵥ watch) := misfit_comm h watch x
  rw [← mulVec_mulVec, sub_mulVec, one_mulVec, dotProduct_sub, vecMulVec_mulVec, h1, Belief.gain]
  simp
  field_simp

theorem transition_inj {x : Fin 4 → ℝ} (h : transitionᵀ *ᵥ x = 0) : x = 0 := by
  rw [transition_eq] at h
  have h0 := congrFun h 0
  have h1 := congrFun h 1
  have h2 := congrFun h 2
  have h3 := congrFun h 3
  simp [mulVec, dotProduct, Fin.sum_univ_four] at h0 h1 h2 h3
  ext i
  fin_cases i <;> simp <;> linarith

theorem misfit_pos (h : P.PosDef) {x : Fin 4 → ℝ} (hx : x ≠ 0) : 0 < misfit P x x := by
  have := h.dotProduct_mulVec_pos hx
  rwa [star_trivial] at this

theorem posDef_of_form (h : P.PosSemidef) (hx : ∀ x, x ≠ 0 → 0 < misfit P x x) : P.PosDef :=
  PosDef.of_dotProduct_mulVec_pos h.isHermitian fun x hx' => by rw [star_trivial]; exact hx x hx'

theorem Belief.predict_pos {q : ℝ} (hq : 0 ≤ q) {b : Belief} (h : b.cov.PosDef) : (b.predict q).cov.PosDef := by
  refine posDef_of_form (Belief.predict_psd hq h.posSemidef) fun x hx => ?_
  rw [misfit_predict]
  have := misfit_pos h (x := transitionᵀ *ᵥ x) fun hc => hx (transition_inj hc)
  positivity

theorem Belief.correct_pos {r : ℝ} (hr : 0 < r) {b : Belief} (h : b.cov.PosDef) (z : ℝ) : (b.correct r z).cov.PosDef := by
  refine posDef_of_form (Belief.correct_psd hr h.posSemidef z) fun x hx => ?_
  rw [misfit_correct hr h.posSemidef]
  have hs := (b.innovation_pos hr h.posSemidef).2
  have h1 := misfit_sq_le h.posSemidef x watch
  have h2 := misfit_pos h hx
  have h3 : misfit b.cov watch watch = b.innovation r - r := by simp [misfit, Belief.innovation]
  rw [h3] at h1
  rw [sub_pos, div_lt_iff₀ hs]
  nlinarith

/-! ## The covariance is bounded -/

/-- The gain of an observer that forgets its error within four steps. -/
def quick : Fin 4 → ℝ := ![1, 11 / 6, 2, 1]

/-- Its step, backwards. -/
def recall (x : Fin 4 → ℝ) : Fin 4 → ℝ := transitionᵀ *ᵥ (x - (quick ⬝ᵥ x) • watch)

theorem recall_four (x : Fin 4 → ℝ) : recall^[4] x = 0 := by
  have e : ∀ x : Fin 4 → ℝ, recall x = ![-(11 / 6) * x 1 - 2 * x 2 - x 3, -(5 / 6) * x 1 - 2 * x 2 - x 3, x 1 / 12 - x 3 / 2,
      7 / 36 * x 1 + 2 / 3 * x 2 + 5 / 6 * x 3] := by
    intro x
    unfold recall quick watch
    rw [transition_eq]
    ext i
    fin_cases i <;> simp [mulVec, dotProduct, Fin.sum_univ_four] <;> ring
  simp only [Function.iterate_succ, Function.iterate_zero, Function.comp_apply, id_eq, e]
  ext i
  fin_cases i <;> simp <;> ring

/-- What noise adds to its variance. -/
def noise (q r : ℝ) (x : Fin 4 → ℝ) : ℝ := q * ((x - (quick ⬝ᵥ x) • watch) ⬝ᵥ jolt) ^ 2 + r * (quick ⬝ᵥ x) ^ 2

theorem noise_nonneg {q r : ℝ} (hq : 0 ≤ q) (hr : 0 < r) (x : Fin 4 → ℝ) : 0 ≤ noise q r x := by unfold noise; positivity

theorem misfit_step {q r : ℝ} (hq : 0 ≤ q) (hr : 0 < r) {b : Belief} (h : b.cov.PosSemidef) (z : ℝ) (x : Fin 4 → ℝ) :
    misfit ((b.predict q).correct r z).cov x x ≤ misfit b.cov (recall x) (recall x) + noise q r x := by
  have hp := Belief.predict_psd hq h
  have hs := ((b.predict q).innovation_pos hr hp).2
  have h1 := misfit_line hp x watch (-(quick ⬝ᵥ x))
  rw [neg_smul, ← sub_eq_add_neg, misfit_predict] at h1
  have h3 : misfit (b.predict q).cov watch watch = (b.predict q).innovation r - r := by simp [misfit, Belief.innovation]
  rw [misfit_correct hr hp]
  have h4 : misfit b.cov (recall x) (recall x) + noise q r x = misfit (b.predict q).cov x x + 2 * -(quick ⬝ᵥ x) * misfit (b.predict q).cov x watch +
      (-(quick ⬝ᵥ x)) ^ 2 * (b.predict q).innovation r := by
    unfold recall noise
    rw [h3] at h1
    linarith
  rw [h4]
  generalize misfit (b.predict q).cov x watch = u at *
  generalize (b.predict q).innovation r = S at *
  have h5 : -u ^ 2 / S ≤ 2 * -(quick ⬝ᵥ x) * u + (-(quick ⬝ᵥ x)) ^ 2 * S := by
    rw [div_le_iff₀ hs]
    nlinarith [sq_nonneg ((quick ⬝ᵥ x) * S - u)]
  rw [neg_div] at h5
  linarith

/-- The belief after measurements `z 0`, ..., `z n`. -/
def learn (q r : ℝ) (z : ℕ → ℝ) : ℕ → Belief
  | 0 => .first (z 0)
  | n + 1 => ((learn q r z n).predict q).correct r (z (n + 1))

theorem believe_range (q r : ℝ) (z : ℕ → ℝ) (n : ℕ) : believe q r ((List.range (n + 1)).map z) = learn q r z n := by
  induction n with
  | zero => simp [believe, learn]
  | succ n ih =>
    rw [List.range_succ, List.map_append, List.map_singleton, believe_snoc q r (by simp), ih]
    rfl

variable {q r : ℝ} {z : ℕ → ℝ}

theorem learn_pos (hq : 0 ≤ q) (hr : 0 < r) (n : ℕ) : (learn q r z n).cov.PosDef := by
  induction n with
  | zero => exact PosDef.one
  | succ n ih => exact Belief.correct_pos hr (Belief.predict_pos hq ih) _

theorem misfit_learn (hq : 0 ≤ q) (hr : 0 < r) (n : ℕ) : ∀ x, misfit (learn q r z n).cov x x ≤
    recall^[n] x ⬝ᵥ recall^[n] x + ∑ i ∈ Finset.range n, noise q r (recall^[i] x) := by
  induction n with
  | zero => intro x; simp [learn, Belief.first, misfit]
  | succ n ih =>
    intro x
    have h1 := misfit_step hq hr (learn_pos (z := z) hq hr n).posSemidef (z (n + 1)) x
    have h2 := ih (recall x)
    rw [Finset.sum_range_succ']
    simp only [Function.iterate_succ, Function.comp_apply, Function.iterate_zero, id_eq]
    show misfit (((learn q r z n).predict q).correct r (z (n + 1))).cov x x ≤ _
    linarith

/-- A bound on the variances, for all times. -/
def wide (q r : ℝ) (x : Fin 4 → ℝ) : ℝ := ∑ i ∈ Finset.range 4, (recall^[i] x ⬝ᵥ recall^[i] x + noise q r (recall^[i] x))

theorem recall_late (x : Fin 4 → ℝ) (n : ℕ) : recall^[n + 4] x = 0 := by
  rw [Function.iterate_add_apply, recall_four]
  induction n with
  | zero => rfl
  | succ n ih =>
    rw [Function.iterate_succ_apply', ih]
    simp [recall]

theorem misfit_wide (hq : 0 ≤ q) (hr : 0 < r) (n : ℕ) (x : Fin 4 → ℝ) : misfit (learn q r z n).cov x x ≤ wide q r x := by
  refine (misfit_learn hq hr n x).trans ?_
  unfold wide
  rw [Finset.sum_add_distrib]
  have hsq : ∀ v : Fin 4 → ℝ, 0 ≤ v ⬝ᵥ v := fun v => by simpa [dotProduct] using Finset.sum_nonneg fun i _ => mul_self_nonneg (v i)
  refine add_le_add ?_ ?_
  · rcases lt_or_ge n 4 with h | h
    · exact Finset.single_le_sum (f := fun i => recall^[i] x ⬝ᵥ recall^[i] x) (fun i _ => hsq _) (Finset.mem_range.2 h)
    · obtain ⟨k, rfl⟩ := Nat.exists_eq_add_of_le' h
      rw [recall_late]
      simpa using Finset.sum_nonneg fun i (_ : i ∈ Finset.range 4) => hsq (recall^[i] x)
  · rcases le_total n 4 with h | h
    · exact Finset.sum_le_sum_of_subset_of_nonneg (Finset.range_subset_range.2 h) fun i _ _ => noise_nonneg hq hr _
    · obtain ⟨k, rfl⟩ := Nat.exists_eq_add_of_le' h
      clear h
      induction k with
      | zero => simp
      | succ k ih =>
        rw [show k + 1 + 4 = k + 4 + 1 by ring, Finset.sum_range_succ, recall_late]
        simpa [noise] using ih

/-- The variances before a measurement. -/
theorem misfit_ahead (hq : 0 ≤ q) (hr : 0 < r) (n : ℕ) (x : Fin 4 → ℝ) :
    misfit ((learn q r z n).predict q).cov x x ≤ wide q r (transitionᵀ *ᵥ x) + q * (x ⬝ᵥ jolt) ^ 2 := by
  rw [misfit_predict]
  linarith [misfit_wide (z := z) hq hr n (transitionᵀ *ᵥ x)]

/-- Gains are bounded. -/
theorem gain_bounded (hq : 0 ≤ q) (hr : 0 < r) (i : Fin 4) : ∃ c, ∀ n, |((learn q r z n).predict q).gain r i| ≤ c := by
  let up (x : Fin 4 → ℝ) : ℝ := wide q r (transitionᵀ *ᵥ x) + q * (x ⬝ᵥ jolt) ^ 2
  refine ⟨Real.sqrt (up (Pi.single i 1) * up watch) / r, fun n => ?_⟩
  have hp := Belief.predict_psd hq (learn_pos (z := z) hq hr n).posSemidef
  obtain ⟨h1, h2⟩ := ((learn q r z n).predict q).innovation_pos hr hp
  have h3 : ((learn q r z n).predict q).gain r i =
      misfit ((learn q r z n).predict q).cov (Pi.single i 1) watch / ((learn q r z n).predict q).innovation r := by
    simp [Belief.gain, misfit]
    ring
  rw [h3, abs_div, abs_of_pos h2]
  have h4 := misfit_sq_le hp (Pi.single i 1) watch
  have h5 := misfit_nonneg hp watch
  have h6 := misfit_nonneg hp (Pi.single i 1)
  have h7 : |misfit ((learn q r z n).predict q).cov (Pi.single i 1) watch| ≤ Real.sqrt (up (Pi.single i 1) * up watch) := by
    refine Real.abs_le_sqrt (h4.trans (mul_le_mul (misfit_ahead hq hr n _) (misfit_ahead hq hr n _) h5 (h6.trans (misfit_ahead hq hr n _))))
  exact div_le_div₀ (Real.sqrt_nonneg _) h7 hr h1

/-! ## The error -/

/-- A motion with constant jerk, step by step. -/
def Steady (y : ℕ → Fin 4 → ℝ) : Prop := ∀ n, y (n + 1) = transition *ᵥ y n

variable {y : ℕ → Fin 4 → ℝ}

/-- The error after `n + 1` measurements. -/
def off (q r : ℝ) (y : ℕ → Fin 4 → ℝ) (n : ℕ) : Fin 4 → ℝ := (learn q r (fun n => y n 0) n).mean - y n

/-- The surprise at the next one. -/
def surprise (q r : ℝ) (y : ℕ → Fin 4 → ℝ) (n : ℕ) : ℝ := watch ⬝ᵥ (transition *ᵥ off q r y n)

/-- The error in the measure of the covariance. -/
def doubt (q r : ℝ) (y : ℕ → Fin 4 → ℝ) (n : ℕ) : ℝ :=
  misfit (learn q r (fun n => y n 0) n).cov ((learn q r (fun n => y n 0) n).cov⁻¹ *ᵥ off q r y n)
    ((learn q r (fun n => y n 0) n).cov⁻¹ *ᵥ off q r y n)

theorem off_succ (hy : Steady y) (n : ℕ) : off q r y (n + 1) = transition *ᵥ off q r y n -
    surprise q r y n • ((learn q r (fun n => y n 0) n).predict q).gain r := by
  unfold surprise off
  show (transition *ᵥ (learn q r (fun n => y n 0) n).mean + (y (n + 1) 0 - watch ⬝ᵥ (transition *ᵥ (learn q r (fun n => y n 0) n).mean)) •
    ((learn q r (fun n => y n 0) n).predict q).gain r) - y (n + 1) = _
  have h : y (n + 1) 0 = watch ⬝ᵥ (transition *ᵥ y n) := by rw [watch_dot, hy n]
  rw [h, hy n, mulVec_sub, dotProduct_sub]
  module

theorem mulVec_inv (h : P.PosDef) (x : Fin 4 → ℝ) : P *ᵥ (P⁻¹ *ᵥ x) = x := by
  rw [mulVec_mulVec, mul_nonsing_inv _ ((isUnit_iff_isUnit_det _).1 h.isUnit), one_mulVec]

theorem inv_mulVec (h : P.PosDef) (x : Fin 4 → ℝ) : P⁻¹ *ᵥ (P *ᵥ x) = x := by
  rw [mulVec_mulVec, nonsing_inv_mul _ ((isUnit_iff_isUnit_det _).1 h.isUnit), one_mulVec]

theorem doubt_step (hq : 0 ≤ q) (hr : 0 < r) (hy : Steady y) (n : ℕ) : doubt q r y (n + 1) ≤ doubt q r y n -
    surprise q r y n ^ 2 / ((learn q r (fun n => y n 0) n).predict q).innovation r := by
  have hb := learn_pos (z := fun n => y n 0) hq hr n
  have hb' : (((learn q r (fun n => y n 0) n).predict q).correct r (y (n + 1) 0)).cov.PosDef :=
    learn_pos (z := fun n => y n 0) hq hr (n + 1)
  have he := off_succ (q := q) (r := r) hy n
  have hd : doubt q r y (n + 1) = misfit (((learn q r (fun n => y n 0) n).predict q).correct r (y (n + 1) 0)).cov
      ((((learn q r (fun n => y n 0) n).predict q).correct r (y (n + 1) 0)).cov⁻¹ *ᵥ off q r y (n + 1))
      ((((learn q r (fun n => y n 0) n).predict q).correct r (y (n + 1) 0)).cov⁻¹ *ᵥ off q r y (n + 1)) := rfl
  have hs : surprise q r y n = watch ⬝ᵥ (transition *ᵥ off q r y n) := rfl
  rw [hd]
  unfold doubt
  generalize learn q r (fun n => y n 0) n = b at *
  generalize off q r y n = e at *
  generalize off q r y (n + 1) = e' at *
  generalize surprise q r y n = ν at *
  have hp := Belief.predict_pos hq hb
  have hpp := hp.posSemidef
  obtain ⟨w, hw⟩ : ∃ w, w = (b.predict q).cov⁻¹ *ᵥ (transition *ᵥ e) := ⟨_, rfl⟩
  have h1 : (b.predict q).cov *ᵥ w = transition *ᵥ e := by rw [hw, mulVec_inv hp]
  have h2 : ((b.predict q).correct r (y (n + 1) 0)).cov *ᵥ w = e' := by
    show ((1 - vecMulVec ((b.predict q).gain r) watch) * (b.predict q).cov) *ᵥ w = _
    rw [← mulVec_mulVec, h1, sub_mulVec, one_mulVec, vecMulVec_mulVec, he, hs, op_smul_eq_smul]
  rw [← h2, inv_mulVec hb', misfit_correct hr hpp]
  have h3 : misfit (b.predict q).cov w watch = ν := by rw [misfit_comm hpp, misfit, h1, hs]
  rw [h3]
  refine sub_le_sub_right ?_ _
  obtain ⟨u, hu⟩ : ∃ u, u = b.cov⁻¹ *ᵥ e := ⟨_, rfl⟩
  have h4 : b.cov *ᵥ u = e := by rw [hu, mulVec_inv hb]
  rw [← hu]
  have h5 : misfit (b.predict q).cov w w = misfit b.cov (transitionᵀ *ᵥ w) u := by
    rw [misfit, h1, misfit, h4, dotProduct_mulVec, mulVec_transpose]
  have h6 := misfit_sq_le hb.posSemidef (transitionᵀ *ᵥ w) u
  have h7 := misfit_predict q b w
  have h8 := misfit_nonneg hpp w
  have h9 := misfit_nonneg hb.posSemidef u
  rw [← h5] at h6
  by_contra hc
  rw [not_le] at hc
  have : misfit b.cov (transitionᵀ *ᵥ w) (transitionᵀ *ᵥ w) ≤ misfit (b.predict q).cov w w := by
    rw [h7]
    nlinarith [mul_nonneg hq (sq_nonneg (w ⬝ᵥ jolt))]
  nlinarith [mul_le_mul_of_nonneg_right this h9]

theorem doubt_nonneg (hq : 0 ≤ q) (hr : 0 < r) (n : ℕ) : 0 ≤ doubt q r y n := misfit_nonneg (learn_pos hq hr n).posSemidef _

/-- Surprises fade. -/
theorem surprise_tendsto (hq : 0 ≤ q) (hr : 0 < r) (hy : Steady y) : Tendsto (surprise q r y) atTop (𝓝 0) := by
  have hs : ∀ n, 0 < ((learn q r (fun n => y n 0) n).predict q).innovation r := fun n =>
    (Belief.innovation_pos hr (Belief.predict_psd hq (learn_pos hq hr n).posSemidef)).2
  have hanti : Antitone (doubt q r y) := antitone_nat_of_succ_le fun n => by
    have := doubt_step hq hr hy n
    have := div_nonneg (sq_nonneg (surprise q r y n)) (hs n).le
    linarith
  obtain ⟨V, hV⟩ : ∃ V, Tendsto (doubt q r y) atTop (𝓝 V) :=
    ⟨_, tendsto_atTop_ciInf hanti ⟨0, by rintro _ ⟨n, rfl⟩; exact doubt_nonneg hq hr n⟩⟩
  have hdiff : Tendsto (fun n => doubt q r y n - doubt q r y (n + 1)) atTop (𝓝 0) := by
    simpa using hV.sub (hV.comp (tendsto_add_atTop_nat 1))
  obtain ⟨S, hS⟩ : ∃ S, ∀ n, ((learn q r (fun n => y n 0) n).predict q).innovation r ≤ S :=
    ⟨wide q r (transitionᵀ *ᵥ watch) + q * (watch ⬝ᵥ jolt) ^ 2 + r, fun n => by
      have := misfit_ahead (z := fun n => y n 0) hq hr n watch
      unfold misfit at this
      unfold Belief.innovation
      linarith⟩
  have hsq : Tendsto (fun n => surprise q r y n ^ 2) atTop (𝓝 0) := by
    refine squeeze_zero (fun n => sq_nonneg _) (fun n => ?_) (by simpa using hdiff.const_mul S)
    have h1 := doubt_step hq hr hy n
    have h2 : surprise q r y n ^ 2 / ((learn q r (fun n => y n 0) n).predict q).innovation r ≤ doubt q r y n - doubt q r y (n + 1) := by
      linarith
    rw [div_le_iff₀ (hs n)] at h2
    have h3 : 0 ≤ doubt q r y n - doubt q r y (n + 1) := sub_nonneg.2 (hanti n.le_succ)
    nlinarith [hS n]
  have := hsq.sqrt
  simp only [Real.sqrt_sq_eq_abs, Real.sqrt_zero] at this
  exact (tendsto_zero_iff_abs_tendsto_zero _).2 this

/-- So does their effect. -/
theorem effect_tendsto (hq : 0 ≤ q) (hr : 0 < r) (hy : Steady y) :
    Tendsto (fun n => surprise q r y n • ((learn q r (fun n => y n 0) n).predict q).gain r) atTop (𝓝 0) := by
  rw [tendsto_pi_nhds]
  intro i
  obtain ⟨c, hc⟩ := gain_bounded (z := fun n => y n 0) hq hr i
  have hν := (surprise_tendsto hq hr hy).abs
  rw [abs_zero] at hν
  rw [Pi.zero_apply, tendsto_zero_iff_abs_tendsto_zero]
  refine squeeze_zero (fun n => abs_nonneg _) (fun n => ?_) (by simpa using hν.mul_const c)
  simp only [Function.comp, Pi.smul_apply, smul_eq_mul, abs_mul]
  exact mul_le_mul_of_nonneg_left (hc n) (abs_nonneg _)

theorem views_tendsto (hq : 0 ≤ q) (hr : 0 < r) (hy : Steady y) (j : ℕ) :
    Tendsto (fun n => watch ⬝ᵥ (transition ^ (j + 1) *ᵥ off q r y n)) atTop (𝓝 0) := by
  induction j with
  | zero =>
    simp only [zero_add, pow_one]
    exact surprise_tendsto hq hr hy
  | succ j ih =>
    have h1 := ih.comp (tendsto_add_atTop_nat 1)
    have hc : Continuous fun v : Fin 4 → ℝ => watch ⬝ᵥ (transition ^ (j + 1) *ᵥ v) := by
      unfold dotProduct mulVec dotProduct
      fun_prop
    have h2 := (hc.tendsto 0).comp (effect_tendsto hq hr hy)
    simp only [mulVec_zero, dotProduct_zero] at h2
    have h3 := h1.add h2
    rw [add_zero] at h3
    refine h3.congr fun n => ?_
    simp only [Function.comp]
    rw [off_succ hy n, ← dotProduct_add, ← mulVec_add, sub_add_cancel, mulVec_mulVec, ← pow_succ]

/-- The filter learns every motion with constant jerk: its error tends to zero. -/
theorem off_tendsto (hq : 0 ≤ q) (hr : 0 < r) (hy : Steady y) : Tendsto (off q r y) atTop (𝓝 0) := by
  have h0 := views_tendsto hq hr hy 0
  have h1 := views_tendsto hq hr hy 1
  have h2 := views_tendsto hq hr hy 2
  have h3 := views_tendsto hq hr hy 3
  have e1 : ∀ v : Fin 4 → ℝ, watch ⬝ᵥ (transition ^ (0 + 1) *ᵥ v) = v 0 + v 1 + v 2 / 2 + v 3 / 6 := by
    intro v
    rw [watch_dot, transition_eq]
    simp [mulVec, dotProduct, Fin.sum_univ_four]
    ring
  have e2 : ∀ v : Fin 4 → ℝ, watch ⬝ᵥ (transition ^ (1 + 1) *ᵥ v) = v 0 + 2 * v 1 + 2 * v 2 + 4 / 3 * v 3 := by
    intro v
    rw [watch_dot, transition_eq, pow_succ, pow_one]
    simp [mulVec, dotProduct, Fin.sum_univ_four]
    ring
  have e3 : ∀ v : Fin 4 → ℝ, watch ⬝ᵥ (transition ^ (2 + 1) *ᵥ v) = v 0 + 3 * v 1 + 9 / 2 * v 2 + 9 / 2 * v 3 := by
    intro v
    rw [watch_dot, transition_eq, pow_succ, pow_succ, pow_one]
    simp [mulVec, dotProduct, Fin.sum_univ_four]
    ring
  have e4 : ∀ v : Fin 4 → ℝ, watch ⬝ᵥ (transition ^ (3 + 1) *ᵥ v) = v 0 + 4 * v 1 + 8 * v 2 + 32 / 3 * v 3 := by
    intro v
    rw [watch_dot, transition_eq, pow_succ, pow_succ, pow_succ, pow_one]
    simp [mulVec, dotProduct, Fin.sum_univ_four]
    ring
  simp only [e1, e2, e3, e4] at h0 h1 h2 h3
  have key : ∀ a b c d : ℝ, Tendsto (fun n => a * (off q r y n 0 + off q r y n 1 + off q r y n 2 / 2 + off q r y n 3 / 6) +
      b * (off q r y n 0 + 2 * off q r y n 1 + 2 * off q r y n 2 + 4 / 3 * off q r y n 3) +
      c * (off q r y n 0 + 3 * off q r y n 1 + 9 / 2 * off q r y n 2 + 9 / 2 * off q r y n 3) +
      d * (off q r y n 0 + 4 * off q r y n 1 + 8 * off q r y n 2 + 32 / 3 * off q r y n 3)) atTop (𝓝 0) := by
    intro a b c d
    simpa using (((h0.const_mul a).add (h1.const_mul b)).add (h2.const_mul c)).add (h3.const_mul d)
  rw [tendsto_pi_nhds]
  intro i
  fin_cases i
  · exact (key 4 (-6) 4 (-1)).congr fun n => by simp; ring
  · exact (key (-13 / 3) (19 / 2) (-7) (11 / 6)).congr fun n => by simp; ring
  · exact (key 3 (-8) 7 (-2)).congr fun n => by simp; ring
  · exact (key (-1) 3 (-3) 1).congr fun n => by simp; ring

/-! ## How fast -/

/-- Covariances do not depend on what is measured. -/
theorem learn_cov (z z' : ℕ → ℝ) (n : ℕ) : (learn q r z n).cov = (learn q r z' n).cov := by
  induction n with
  | zero => rfl
  | succ n ih =>
    show (1 - vecMulVec (((learn q r z n).predict q).gain r) watch) * ((learn q r z n).predict q).cov =
      (1 - vecMulVec (((learn q r z' n).predict q).gain r) watch) * ((learn q r z' n).predict q).cov
    simp only [Belief.gain, Belief.innovation, Belief.predict, ih]

theorem learn_gain (z z' : ℕ → ℝ) (n : ℕ) : ((learn q r z n).predict q).gain r = ((learn q r z' n).predict q).gain r := by
  simp only [Belief.gain, Belief.innovation, Belief.predict, learn_cov z z' n]

/-- What remains of an error after `n` measurements. -/
def fade (q r : ℝ) : ℕ → Matrix (Fin 4) (Fin 4) ℝ
  | 0 => 1
  | n + 1 => (1 - vecMulVec (((learn q r 0 n).predict q).gain r) watch) * transition * fade q r n

theorem off_fade (hy : Steady y) (n : ℕ) : off q r y n = fade q r n *ᵥ off q r y 0 := by
  induction n with
  | zero => simp [fade]
  | succ n ih =>
    rw [off_succ hy, surprise, ih, learn_gain _ 0, fade, ← mulVec_mulVec, ← mulVec_mulVec, sub_mulVec, one_mulVec, vecMulVec_mulVec,
      op_smul_eq_smul]

/-- The most that remains. -/
def rest (q r : ℝ) (n : ℕ) : ℝ := ∑ i, ∑ k : Fin 3, |fade q r n i k.succ|

theorem rest_nonneg (q r : ℝ) (n : ℕ) : 0 ≤ rest q r n := Finset.sum_nonneg fun _ _ => Finset.sum_nonneg fun _ _ => abs_nonneg _

/-- A motion whose initial error is a unit vector. -/
def trial (k : Fin 3) (n : ℕ) : Fin 4 → ℝ := -(transition ^ n *ᵥ Pi.single k.succ 1)

theorem trial_steady (k : Fin 3) : Steady (trial k) := fun n => by
  simp only [trial]
  rw [pow_succ', ← mulVec_mulVec, mulVec_neg]

theorem trial_off (k : Fin 3) : off q r (trial k) 0 = Pi.single k.succ 1 := by
  ext i
  fin_cases k <;> fin_cases i <;> simp [off, learn, Belief.first, trial]

theorem fade_eq (n : ℕ) (i : Fin 4) (k : Fin 3) : fade q r n i k.succ = off q r (trial k) n i := by
  rw [off_fade (trial_steady k), trial_off]
  simp

/-- Nothing remains in the end. -/
theorem rest_tendsto (hq : 0 ≤ q) (hr : 0 < r) : Tendsto (rest q r) atTop (𝓝 0) := by
  have : ∀ i k, Tendsto (fun n => |fade q r n i (Fin.succ k)|) atTop (𝓝 0) := by
    intro i k
    have h := (tendsto_pi_nhds.1 (off_tendsto hq hr (trial_steady k)) i).abs
    simp only [Pi.zero_apply, abs_zero] at h
    exact h.congr fun n => by rw [fade_eq]
  have h := tendsto_finsetSum Finset.univ fun i (_ : i ∈ Finset.univ) =>
    tendsto_finsetSum Finset.univ fun k (_ : k ∈ Finset.univ) => this i k
  simp only [Finset.sum_const_zero] at h
  exact h

theorem doubt_le (hq : 0 ≤ q) (hr : 0 < r) (hy : Steady y) (n : ℕ) : doubt q r y n ≤ off q r y 0 ⬝ᵥ off q r y 0 := by
  induction n with
  | zero => simp [doubt, misfit, learn, Belief.first]
  | succ n ih =>
    have h1 := doubt_step hq hr hy n
    have hs := (Belief.innovation_pos hr (Belief.predict_psd hq (learn_pos (z := fun n => y n 0) hq hr n).posSemidef)).2
    have := div_nonneg (sq_nonneg (surprise q r y n)) hs.le
    linarith

theorem noise_sum (x : Fin 4 → ℝ) (n : ℕ) :
    ∑ i ∈ Finset.range (n + 4), noise q r (recall^[i] x) = ∑ i ∈ Finset.range 4, noise q r (recall^[i] x) := by
  induction n with
  | zero => simp
  | succ n ih =>
    rw [show n + 1 + 4 = n + 4 + 1 by ring, Finset.sum_range_succ, recall_late]
    simpa [noise] using ih

/-- After five measurements the error is small if the noise is. -/
theorem view_le (hq : 0 ≤ q) (hr : 0 < r) (hy : Steady y) (n : ℕ) (x : Fin 4 → ℝ) : (x ⬝ᵥ off q r y (n + 4)) ^ 2 ≤
    (∑ i ∈ Finset.range 4, noise q r (recall^[i] x)) * (off q r y 0 ⬝ᵥ off q r y 0) := by
  have hb := learn_pos (z := fun n => y n 0) hq hr (n + 4)
  have h1 := misfit_sq_le hb.posSemidef x ((learn q r (fun n => y n 0) (n + 4)).cov⁻¹ *ᵥ off q r y (n + 4))
  have h2 : misfit (learn q r (fun n => y n 0) (n + 4)).cov x ((learn q r (fun n => y n 0) (n + 4)).cov⁻¹ *ᵥ off q r y (n + 4)) =
      x ⬝ᵥ off q r y (n + 4) := by rw [misfit, mulVec_inv hb]
  rw [h2] at h1
  have h3 := misfit_learn (z := fun n => y n 0) hq hr (n + 4) x
  rw [recall_late, noise_sum] at h3
  simp only [dotProduct_zero, zero_add] at h3
  exact h1.trans (mul_le_mul h3 (doubt_le hq hr hy (n + 4)) (doubt_nonneg hq hr (n + 4)) ((misfit_nonneg hb.posSemidef x).trans h3))

theorem noise_total (hq : 0 ≤ q) (hr : 0 < r) (i : Fin 4) :
    ∑ j ∈ Finset.range 4, noise q r (recall^[j] (Pi.single i 1)) ≤ (![1, 15, 46, 20] i) * (q + r) := by
  have e : ∀ x : Fin 4 → ℝ, recall x = ![-(11 / 6) * x 1 - 2 * x 2 - x 3, -(5 / 6) * x 1 - 2 * x 2 - x 3, x 1 / 12 - x 3 / 2,
      7 / 36 * x 1 + 2 / 3 * x 2 + 5 / 6 * x 3] := by
    intro x
    unfold recall quick watch
    rw [transition_eq]
    ext i
    fin_cases i <;> simp [mulVec, dotProduct, Fin.sum_univ_four] <;> ring
  have e' : ∀ x : Fin 4 → ℝ, noise q r x = q * (7 / 36 * x 1 + 2 / 3 * x 2 + 5 / 6 * x 3) ^ 2 +
      r * (x 0 + 11 / 6 * x 1 + 2 * x 2 + x 3) ^ 2 := by
    intro x
    unfold noise quick watch
    rw [jolt_eq]
    simp only [dotProduct, Fin.sum_univ_four]
    simp
    left
    ring
  simp only [Finset.sum_range_succ, Finset.sum_range_zero, Function.iterate_succ, Function.iterate_zero, Function.comp_apply, id_eq, e, e']
  fin_cases i <;> simp <;> nlinarith

theorem rest_le (hq : 0 ≤ q) (hr : 0 < r) {n : ℕ} (hn : 4 ≤ n) : rest q r n ≤ 49 * Real.sqrt (q + r) := by
  obtain ⟨n, rfl⟩ := Nat.exists_eq_add_of_le' hn
  have h : ∀ i (k : Fin 3) (c : ℝ), 0 ≤ c → ![1, 15, 46, 20] i ≤ c ^ 2 → |fade q r (n + 4) i k.succ| ≤ c * Real.sqrt (q + r) := by
    intro i k c hc h
    have h1 := view_le hq hr (trial_steady k) n (Pi.single i 1)
    rw [trial_off] at h1
    simp only [single_dotProduct, one_mul, Pi.single_eq_same, mul_one] at h1
    rw [fade_eq]
    have h2 : c * Real.sqrt (q + r) = Real.sqrt (c ^ 2 * (q + r)) := by
      rw [Real.sqrt_mul (sq_nonneg c), Real.sqrt_sq hc]
    rw [h2]
    refine Real.abs_le_sqrt (h1.trans ((noise_total hq hr i).trans (mul_le_mul_of_nonneg_right h (by linarith))))
  have h0 := fun k => h 0 k 1 (by norm_num) (by simp)
  have h1 := fun k => h 1 k 3.9 (by norm_num) (by simp; norm_num)
  have h2 := fun k => h 2 k 6.8 (by norm_num) (by simp; norm_num)
  have h3 := fun k => h 3 k 4.5 (by norm_num) (by simp; norm_num)
  have hs := Real.sqrt_nonneg (q + r)
  unfold rest
  rw [Fin.sum_univ_four, Fin.sum_univ_three, Fin.sum_univ_three, Fin.sum_univ_three, Fin.sum_univ_three]
  linarith [h0 0, h0 1, h0 2, h1 0, h1 1, h1 2, h2 0, h2 1, h2 2, h3 0, h3 1, h3 2]

end
end Ink.Ref
