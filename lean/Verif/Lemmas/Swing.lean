import Verif.Lemmas.Ref
import Mathlib.Analysis.SpecificLimits.Basic
/-!
# The spring after a jump of the anchor

The spring with mass `M` and drag `d` is at distance 1 from its anchor and at rest, and takes steps of length `h`.
-/
namespace Ink
open Filter Topology

/-- The way from the anchor and the velocity after the given number of steps. -/
noncomputable def swing (M d h : ℝ) : ℕ → ℝ × ℝ
  | 0 => (1, 0)
  | k + 1 =>
    let q := swing M d h k
    let v := q.2 + h * (-q.1 / M - d * q.2)
    (q.1 + h * v, v)

section
variable {M d h : ℝ}

/-- Two steps in a row. -/
theorem swing_two (k : ℕ) : (swing M d h (k + 2)).1 =
    (2 - h * d - h ^ 2 / M) * (swing M d h (k + 1)).1 - (1 - h * d) * (swing M d h k).1 := by
  simp only [swing]; ring

theorem swing_one : (swing M d h 1).1 = 1 - h ^ 2 / M := by
  simp only [swing]; ring

/-- A recursion of second order with roots in the unit disk tends to 0. -/
theorem recursion_tendsto {y : ℕ → ℝ} {τ δ : ℝ} (hy : ∀ k, y (k + 2) = τ * y (k + 1) - δ * y k) (h1 : δ < 1) (h2 : |τ| < 1 + δ) :
    Tendsto y atTop (𝓝 0) := by
  obtain ⟨ha, hb⟩ := abs_lt.1 h2
  let V : ℕ → ℝ := fun k => (1 + δ) * (y (k + 1) ^ 2 + y k ^ 2) - 2 * τ * (y (k + 1) * y k)
  have hV : ∀ k, V (k + 1) = V k - (1 - δ) * (y (k + 2) - y k) ^ 2 := by
    intro k
    simp only [V, hy]
    ring
  have hV0 : ∀ k, 0 ≤ V k := by
    intro k
    have : V k = (1 + δ + τ) / 2 * (y (k + 1) - y k) ^ 2 + (1 + δ - τ) / 2 * (y (k + 1) + y k) ^ 2 := by simp only [V]; ring
    rw [this]
    have := sq_nonneg (y (k + 1) - y k)
    have := sq_nonneg (y (k + 1) + y k)
    have : 0 ≤ (1 + δ + τ) / 2 := by linarith
    have : 0 ≤ (1 + δ - τ) / 2 := by linarith
    positivity
  have hanti : Antitone V := antitone_nat_of_succ_le fun k => by
    rw [hV]
    have : 0 ≤ (1 - δ) * (y (k + 2) - y k) ^ 2 := mul_nonneg (by linarith) (sq_nonneg _)
    linarith
  have hlim : Tendsto V atTop (𝓝 (⨅ k, V k)) := tendsto_atTop_ciInf hanti ⟨0, by rintro _ ⟨k, rfl⟩; exact hV0 k⟩
  have hd : Tendsto (fun k => (y (k + 2) - y k) ^ 2) atTop (𝓝 0) := by
    have := (hlim.sub ((tendsto_add_atTop_iff_nat 1).2 hlim)).const_mul (1 / (1 - δ))
    rw [sub_self, mul_zero] at this
    refine this.congr fun k => ?_
    rw [hV]
    have : 1 - δ ≠ 0 := by linarith
    field_simp
    ring
  have hd : Tendsto (fun k => y (k + 2) - y k) atTop (𝓝 0) := by
    have := hd.sqrt
    simp only [Real.sqrt_sq_eq_abs, Real.sqrt_zero] at this
    exact (tendsto_zero_iff_abs_tendsto_zero _).2 this
  have hd' := (tendsto_add_atTop_iff_nat 1).2 hd
  have key := ((hd.const_mul (τ ^ 2 - (1 + δ))).sub (hd'.const_mul τ)).const_mul (1 / ((1 + δ) ^ 2 - τ ^ 2))
  simp only [mul_zero, sub_zero] at key
  refine key.congr fun k => ?_
  have hne : (1 + δ) ^ 2 - τ ^ 2 ≠ 0 := by
    have : (1 + δ) ^ 2 - τ ^ 2 = (1 + δ - τ) * (1 + δ + τ) := by ring
    rw [this]
    exact (mul_pos (by linarith) (by linarith)).ne'
  rw [one_div, inv_mul_eq_iff_eq_mul₀ hne]
  rw [show k + 1 + 2 = (k + 1) + 2 from rfl, hy (k + 1), show k + 1 + 1 = k + 2 from rfl, hy k]
  ring

/-- The swinging ends if and only if the steps are short enough. -/
theorem swing_tendsto (hM : 0 < M) (hd : 0 < d) (hh : 0 < h) :
    Tendsto (fun k => (swing M d h k).1) atTop (𝓝 0) ↔ 2 * d * h + h ^ 2 / M < 4 := by
  have hpos : 0 < h ^ 2 / M := by positivity
  have hdh : 0 < h * d := by positivity
  constructor
  · intro hy
    by_contra hc
    rw [not_lt] at hc
    set τ := 2 - h * d - h ^ 2 / M with hτ
    set δ := 1 - h * d with hδ
    -- a root that is at most -1
    have hroot : ∃ r ≤ (-1 : ℝ), r ^ 2 - τ * r + δ = 0 := by
      have hD : 0 ≤ τ ^ 2 - 4 * δ := by nlinarith [sq_nonneg (τ + 2)]
      refine ⟨(τ - √(τ ^ 2 - 4 * δ)) / 2, ?_, ?_⟩
      · have : τ + 2 ≤ √(τ ^ 2 - 4 * δ) := Real.le_sqrt_of_sq_le (by nlinarith)
        linarith
      · nlinarith [Real.sq_sqrt hD]
    obtain ⟨r, hr1, hr⟩ := hroot
    let w : ℕ → ℝ := fun k => (swing M d h (k + 1)).1 - (τ - r) * (swing M d h k).1
    have hw : ∀ k, w k = r ^ k * w 0 := by
      intro k
      induction k with
      | zero => simp
      | succ k ih =>
        rw [pow_succ', mul_assoc, ← ih]
        simp only [w]
        rw [show k + 1 + 1 = k + 2 from rfl, swing_two]
        linear_combination (-(swing M d h k).1) * hr
    have hw0 : w 0 ≠ 0 := by
      have e : w 0 = 1 - h ^ 2 / M - (τ - r) := by simp only [w, zero_add, swing_one]; simp [swing]
      intro h0
      rw [e] at h0
      -- then the other root is where the first step goes to
      have h1 : δ * (h ^ 2 / M) = 0 := by
        have : r = τ - (1 - h ^ 2 / M) := by linarith
        rw [this] at hr
        rw [← hr, hτ, hδ]
        ring
      have h2 : δ = 0 := by
        rcases mul_eq_zero.1 h1 with h1 | h1
        · exact h1
        · exact absurd h1 hpos.ne'
      have : r = 0 := by
        rw [hδ] at h2
        rw [hτ] at h0
        linarith
      linarith
    have hlim : Tendsto w atTop (𝓝 0) := by
      have := ((tendsto_add_atTop_iff_nat 1).2 hy).sub (hy.const_mul (τ - r))
      simpa using this
    have hge : ∀ k, |w 0| ≤ |w k| := by
      intro k
      rw [hw k, abs_mul, abs_pow]
      have : 1 ≤ |r| := by rw [abs_of_nonpos (by linarith)]; linarith
      exact le_mul_of_one_le_left (abs_nonneg _) (one_le_pow₀ this)
    have := ge_of_tendsto hlim.abs (Eventually.of_forall hge)
    rw [abs_zero] at this
    exact hw0 (abs_eq_zero.1 (le_antisymm this (abs_nonneg _)))
  · intro hc
    refine recursion_tendsto swing_two (by linarith) (abs_lt.2 ⟨?_, ?_⟩) <;> linarith

end
end Ink
