import Verif.Lemmas.Total
import Verif.Exact.Kin
/-!
# Orientations on exact numbers: the normalisation loops end
-/
namespace Ink
namespace XR
open Scalar Arith

/-- `b` is the angle `a` moved into [0, 2π] by full turns. -/
structure Turned (a b : ℝ) : Prop where
  nonneg : 0 ≤ b
  le : b ≤ 2 * Real.pi
  turns : ∃ n : ℤ, b = a + n * (2 * Real.pi)

theorem normalizeUp_fin (a : ℝ) : ∃ b, normalizeUp (fin a) = .ok (fin b) ∧ 0 ≤ b ∧ (0 ≤ a → b = a) ∧ (a < 0 → b < 2 * Real.pi) ∧
    ∃ n : ℤ, b = a + n * (2 * Real.pi) := by
  have hpi := Real.two_pi_pos
  have key : ∀ (k : ℕ) (a : ℝ), -(k : ℝ) * (2 * Real.pi) ≤ a → ∃ b, normalizeUp (fin a) = .ok (fin b) ∧ 0 ≤ b ∧ (0 ≤ a → b = a) ∧
      (a < 0 → b < 2 * Real.pi) ∧ ∃ n : ℤ, b = a + n * (2 * Real.pi) := by
    intro k
    induction k with
    | zero =>
      intro a h
      have h : 0 ≤ a := by simpa using h
      rw [normalizeUp]
      simp only [lit0, fin_lt, decide_eq_true_eq, not_lt.2 h, ↓reduceIte]
      exact ⟨a, rfl, h, fun _ => rfl, fun h' => h'.elim, 0, by simp⟩
    | succ k ih =>
      intro a h
      rw [normalizeUp]
      simp only [lit0, fin_lt, decide_eq_true_eq]
      by_cases h0 : a < 0
      · obtain ⟨b, hb, h1, h2, h3, n, hn⟩ := ih (a + 2 * Real.pi) (by push_cast at h; linarith)
        refine ⟨b, ?_, h1, fun h' => absurd h0 (not_lt.2 h'), fun _ => ?_, n + 1, by rw [hn]; push_cast; ring⟩
        · simpa [h0, addTwoPi] using hb
        · rcases le_or_gt 0 (a + 2 * Real.pi) with h' | h'
          · rw [h2 h']; linarith
          · exact h3 h'
      · simp only [h0, ↓reduceIte]
        exact ⟨a, rfl, not_lt.1 h0, fun _ => rfl, fun h' => h'.elim, 0, by simp⟩
  obtain ⟨k, hk⟩ := exists_nat_ge (-a / (2 * Real.pi))
  exact key k a (by rw [div_le_iff₀ hpi] at hk; linarith)

theorem normalizeDown_fin (a : ℝ) (h0 : 0 ≤ a) : ∃ b, normalizeDown (fin a) = .ok (fin b) ∧ Turned a b ∧ (a ≤ 2 * Real.pi → b = a) := by
  have hpi := Real.two_pi_pos
  have key : ∀ (k : ℕ) (a : ℝ), 0 ≤ a → a ≤ (k + 1 : ℝ) * (2 * Real.pi) → ∃ b, normalizeDown (fin a) = .ok (fin b) ∧ Turned a b ∧
      (a ≤ 2 * Real.pi → b = a) := by
    intro k
    induction k with
    | zero =>
      intro a h0 h
      have h : a ≤ 2 * Real.pi := by simpa using h
      rw [normalizeDown]
      simp only [twoPi_eq, widen_eq, fin_lt, decide_eq_true_eq, not_lt.2 h, ↓reduceIte]
      exact ⟨a, rfl, ⟨h0, h, 0, by simp⟩, fun _ => rfl⟩
    | succ k ih =>
      intro a h0 h
      rw [normalizeDown]
      simp only [twoPi_eq, widen_eq, fin_lt, decide_eq_true_eq]
      by_cases hlt : 2 * Real.pi < a
      · obtain ⟨b, hb, ⟨h1, h2, n, hn⟩, _⟩ := ih (a - 2 * Real.pi) (by linarith) (by push_cast at h; linarith)
        refine ⟨b, ?_, ⟨h1, h2, n - 1, by rw [hn]; push_cast; ring⟩, fun h' => absurd hlt (not_lt.2 h')⟩
        simpa [hlt, subTwoPi] using hb
      · simp only [hlt, ↓reduceIte]
        exact ⟨a, rfl, ⟨h0, not_lt.1 hlt, 0, by simp⟩, fun _ => rfl⟩
  obtain ⟨k, hk⟩ := exists_nat_ge (a / (2 * Real.pi))
  exact key k a h0 (by rw [div_le_iff₀ hpi] at hk; nlinarith)

theorem normalizeAngle_fin (a : ℝ) : ∃ b, normalizeAngle (fin a) = .ok (fin b) ∧ Turned a b ∧
    (0 ≤ a → a ≤ 2 * Real.pi → b = a) := by
  obtain ⟨b, hb, h1, h2, _, n, hn⟩ := normalizeUp_fin a
  obtain ⟨c, hc, ⟨h3, h4, k, hk⟩, h5⟩ := normalizeDown_fin b h1
  refine ⟨c, by simp [normalizeAngle, hb, hc], ⟨h3, h4, n + k, by rw [hk, hn]; push_cast; ring⟩, fun h h' => ?_⟩
  rw [h2 h] at h5
  exact h5 h'

@[simp] theorem nan_lt (x : XR) : (nan <ᵇ x) = false := by cases x <;> rfl
@[simp] theorem lt_nan (x : XR) : (x <ᵇ nan) = false := by cases x <;> rfl
@[simp] theorem nan_add (x : XR) : nan + x = nan := by cases x <;> rfl
@[simp] theorem add_nan (x : XR) : x + nan = nan := by cases x <;> rfl
@[simp] theorem nan_sub (x : XR) : nan - x = nan := by cases x <;> rfl
@[simp] theorem sub_nan (x : XR) : x - nan = nan := by cases x <;> rfl
@[simp] theorem nan_mul (x : XR) : nan * x = nan := by cases x <;> rfl
@[simp] theorem mul_nan (x : XR) : x * nan = nan := by cases x <;> rfl

theorem normalizeAngle_nan : normalizeAngle nan = .ok nan := by
  unfold normalizeAngle
  rw [normalizeUp]
  simp only [nan_lt, Bool.false_eq_true, ↓reduceIte, Outcome.ok_bind]
  rw [normalizeDown]
  simp

/-- A clamped number is NaN or a fraction. -/
theorem clamp01_cases (c : XR) : clamp01 c = nan ∨ ∃ r, clamp01 c = fin r ∧ 0 ≤ r ∧ r ≤ 1 := by
  cases c with
  | nan => left; simp [clamp01, stdClamp]
  | inf a =>
    right
    cases a
    · exact ⟨1, by simp [clamp01, stdClamp, Scalar.lt, XR.lt], by norm_num, le_rfl⟩
    · exact ⟨0, by simp [clamp01, stdClamp, Scalar.lt, XR.lt], le_rfl, by norm_num⟩
  | fin r => exact .inr ⟨_, clamp01_fin r, clamp_nonneg r, clamp_le_one r⟩

/-- The end of the shorter arc from `a` to `b`. -/
noncomputable def arcEnd (a b : ℝ) : ℝ :=
  if b - a < -Real.pi then b + 2 * Real.pi else if Real.pi < b - a then b - 2 * Real.pi else b

/-- Orientations on which the loops end: all but +∞. -/
def Good (x : XR) : Prop := x ≠ inf false

theorem interpAngle_returns {a b : XR} (c : XR) (ha : Good a) (hb : Good b) (ha0 : (a <ᵇ 0) = false) (hb0 : (b <ᵇ 0) = false) :
    ∃ z, interpAngle a b c = .ok z ∧ Good z := by
  have norm : ∀ x : XR, Good x → (x <ᵇ 0) = false → ∃ y, normalizeAngle x = .ok y ∧ (y = nan ∨ ∃ r, y = fin r) := by
    intro x hx hx0
    cases x with
    | nan => exact ⟨nan, normalizeAngle_nan, .inl rfl⟩
    | inf s => cases s <;> simp [Good, Scalar.lt, XR.lt] at hx hx0
    | fin r =>
      obtain ⟨y, hy, _⟩ := normalizeAngle_fin r
      exact ⟨_, hy, .inr ⟨y, rfl⟩⟩
  obtain ⟨a', ha', ha1⟩ := norm a ha ha0
  obtain ⟨b', hb', hb1⟩ := norm b hb hb0
  unfold interpAngle
  simp only [ha', hb', Outcome.ok_bind, widen_eq, pi_eq, addTwoPi, subTwoPi, narrow_eq, twoPi_eq, fin_neg]
  have fin_case : ∀ x : XR, (x = nan ∨ ∃ r, x = fin r) → ∃ z, normalizeAngle x = .ok z ∧ Good z := by
    rintro x (rfl | ⟨r, rfl⟩)
    · exact ⟨nan, normalizeAngle_nan, by simp [Good]⟩
    · obtain ⟨y, hy, _⟩ := normalizeAngle_fin r
      exact ⟨_, hy, by simp [Good]⟩
  apply fin_case
  unfold interp
  rcases clamp01_cases c with hc | ⟨r, hc, _⟩ <;> rw [hc]
  · left; simp
  · rcases ha1 with rfl | ⟨x, rfl⟩
    · left; simp
    · rcases hb1 with rfl | ⟨y, rfl⟩
      · left; simp
      · right
        simp only [fin_sub, fin_lt]
        split
        · exact ⟨_, rfl⟩
        · split
          · exact ⟨_, by simp; rfl⟩
          · exact ⟨_, by simp; rfl⟩

/-- Interpolation goes along the shorter arc. -/
theorem interpAngle_fin (a b c : ℝ) : ∃ x y z, Turned a x ∧ Turned b y ∧ interpAngle (fin a) (fin b) (fin c) = .ok (fin z) ∧
    Turned (x + (arcEnd x y - x) * clamp c) z := by
  obtain ⟨x, hx, hx1, _⟩ := normalizeAngle_fin a
  obtain ⟨y, hy, hy1, _⟩ := normalizeAngle_fin b
  obtain ⟨z, hz, hz1, _⟩ := normalizeAngle_fin (x + (arcEnd x y - x) * clamp c)
  refine ⟨x, y, z, hx1, hy1, ?_, hz1⟩
  unfold interpAngle
  simp only [hx, hy, Outcome.ok_bind, widen_eq, pi_eq, addTwoPi, subTwoPi, narrow_eq, twoPi_eq, fin_neg, fin_sub, fin_lt, fin_add,
    decide_eq_true_eq]
  rw [← hz]
  unfold arcEnd
  split
  · simp
  · split <;> simp

theorem steps_return {p : StrokeModelParams XR XR} (q : TipState XR XR) {last i : Input XR XR}
    (hv : validateStrokeModelParams p = .ok) (hl : FiniteInput last) (hi : Fits last i) :
    ∃ r, numberOfStepsBetweenInputs q last i p.sampling p.position = .ok r := by
  obtain ⟨P, hr, hP⟩ := realizes_of_valid hv
  obtain ⟨t₀, ht₀⟩ := isFinite_iff.1 hl.time
  obtain ⟨t, ht⟩ := isFinite_iff.1 hi.time
  have hle : t₀ ≤ t := by have := hi.later; rw [ht₀, ht] at this; simpa using this
  have h0 : 0 ≤ (t - t₀) * P.rate := mul_nonneg (by linarith) hP.rate.le
  unfold numberOfStepsBetweenInputs
  simp only [ht, ht₀, fin_sub, narrow_eq, widen_eq, hr.rate, fin_mul, fin_ceil]
  rw [toInt_min (Int.ceil_nonneg h0)]
  simp only [Outcome.ok_bind]
  generalize hw : q.velocity + _ = w
  by_cases hfin : q.velocity.isFinite = true ∧ w.isFinite = true
  · obtain ⟨a, ha⟩ := isFinite_V.1 hfin.1
    obtain ⟨b, hb⟩ := isFinite_V.1 hfin.2
    rw [ha, hb, absoluteAngleTo_eq]
    simp only
    have : ∃ k, stepsForAngle p.sampling (fin (Ref.turn a b)) (min 2147483647 ⌈(t - t₀) * P.rate⌉) = .ok k := by
      unfold stepsForAngle
      split
      · rename_i hpos
        rcases validSamplingParts (validParts hv).2.2.2.1 with ⟨_, _, _, _, ha⟩
        have hang : ∃ s, p.sampling.maxEstimatedAngle = fin s ∧ 0 < s := by
          rcases ha with ha | ha
          · exfalso
            cases hm : p.sampling.maxEstimatedAngle with
            | nan => rw [hm] at hpos; simp at hpos
            | inf s => rw [hm] at ha; simp [Scalar.eq, XR.eq] at ha
            | fin s =>
              rw [hm] at ha hpos
              simp at ha hpos
              linarith
          · exact pos_of ⟨ha.1, ha.2.1⟩
        obtain ⟨s, hs, hs0⟩ := hang
        rw [hs, widen_eq, fin_div _ hs0.ne', fin_ceil, toInt_min (Int.ceil_nonneg (div_nonneg (turn_nonneg _ _) hs0.le))]
        exact ⟨_, rfl⟩
      · exact ⟨_, rfl⟩
    obtain ⟨k, hk⟩ := this
    rw [hk, Outcome.ok_bind]
    split
    · exact ⟨_, rfl⟩
    · exact ⟨_, rfl⟩
  · have hnone : q.velocity.absoluteAngleTo w = none := by
      unfold Vec2.absoluteAngleTo
      rw [if_pos]
      simp only [Bool.or_eq_true, Bool.not_eq_eq_eq_not, Bool.not_true]
      by_contra hcon
      simp only [not_or, Bool.not_eq_false] at hcon
      exact hfin hcon
    rw [hnone]
    exact ⟨_, rfl⟩

theorem tame : Tame XR XR Good where
  unknown := by simp [Good]
  angle c ha hb ha0 hb0 := interpAngle_returns c ha hb ha0 hb0
  evict ht hd h := by
    obtain ⟨t, rfl⟩ := isFinite_iff.1 ht
    obtain ⟨d, rfl⟩ := isFinite_iff.1 hd
    simp at h ⊢
    exact h
  steps q _ _ hv hl hi := steps_return q hv hl hi

end XR
end Ink
