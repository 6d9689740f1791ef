import Verif.IEEE.Times
/-!
# How much rounding changes a number
-/
namespace Ink
open Scalar

section rd
variable {f : Fmt}

/-- Rounding changes a number by at most half a unit in its last place, or by half the smallest number. -/
theorem rd_err_rel {r : ℝ} {j : ℕ} (h : |r| < 2 ^ j) (hj : j + f.q < f.p + f.top) :
    |rd f r - r| ≤ |r| / 2 ^ f.p + 1 / 2 ^ (f.q + 1) := by
  wlog h0 : 0 ≤ r generalizing r
  · have := this (r := -r) (by rwa [abs_neg]) (by linarith)
    rw [rd_neg, abs_neg] at this
    rw [abs_sub_comm]
    convert this using 2
    ring
  rw [abs_of_nonneg h0] at h ⊢
  have hx : 0 ≤ r * 2 ^ f.q := by positivity
  have hmax : f.roundR (r * 2 ^ f.q) ≤ f.maxMag + 1 := by
    have h1 : f.roundR (r * 2 ^ f.q) ≤ f.roundR (((2 ^ (j + f.q) : ℕ) : ℝ)) := by
      apply Fmt.roundR_mono hx
      push_cast; rw [pow_add]; gcongr
    rw [(Fmt.rep_two_pow hj).roundR] at h1
    have := (Fmt.rep_two_pow (f := f) hj).1
    have : ((2 ^ (j + f.q) : ℕ) : ℤ) ≤ f.maxMag := by exact_mod_cast this
    omega
  have herr := Fmt.abs_roundR_sub_le (f := f) (r * 2 ^ f.q)
  have hulp : (2 : ℝ) ^ f.ulpExp ⌊r * 2 ^ f.q⌋₊ / 2 ≤ r * 2 ^ f.q / 2 ^ f.p + 1 / 2 := by
    rcases Nat.eq_zero_or_pos (f.ulpExp ⌊r * 2 ^ f.q⌋₊) with hz | hpos
    · rw [hz, pow_zero]
      have : 0 ≤ r * 2 ^ f.q / 2 ^ f.p := by positivity
      linarith
    · have h2 := Fmt.two_pow_ulpExp_le hpos
      have h3 : ((2 ^ (f.p - 1 + f.ulpExp ⌊r * 2 ^ f.q⌋₊) : ℕ) : ℝ) ≤ r * 2 ^ f.q :=
        (Nat.cast_le.2 h2).trans (Nat.floor_le hx)
      push_cast at h3
      have h4 : (2 : ℝ) ^ f.ulpExp ⌊r * 2 ^ f.q⌋₊ / 2 ≤ r * 2 ^ f.q / 2 ^ f.p := by
        rw [div_le_div_iff₀ (by norm_num) (by positivity)]
        calc (2 : ℝ) ^ f.ulpExp ⌊r * 2 ^ f.q⌋₊ * 2 ^ f.p
            = 2 ^ (f.p - 1 + f.ulpExp ⌊r * 2 ^ f.q⌋₊) * 2 := by
              rw [← pow_add, ← pow_succ]
              congr 1
              have := f.hp
              omega
          _ ≤ _ := by gcongr
      linarith
  unfold rd
  rw [RK_of_nonneg hx, min_eq_left hmax]
  have e : (f.roundR (r * 2 ^ f.q) : ℝ) / 2 ^ f.q - r = ((f.roundR (r * 2 ^ f.q) : ℝ) - r * 2 ^ f.q) / 2 ^ f.q := by
    field_simp
  rw [e, abs_div, abs_of_pos (by positivity : (0 : ℝ) < 2 ^ f.q), div_le_iff₀ (by positivity)]
  calc _ ≤ _ := herr.trans hulp
    _ = (r / 2 ^ f.p + 1 / 2 ^ (f.q + 1)) * 2 ^ f.q := by
      rw [pow_succ]; field_simp

end rd

/-- A bound on the relative error of an operation in single precision, a little more than 2^-24. -/
noncomputable def eps : ℝ := 1 / 16000000

/-- A bound that is neither too small nor too large. -/
structure Usual (B : ℝ) : Prop where
  lower : 1 / 2 ^ 100 ≤ B
  upper : B ≤ 2 ^ 125

theorem Usual.pos {B : ℝ} (h : Usual B) : 0 < B := lt_of_lt_of_le (by positivity) h.lower

theorem rd32_err {r B : ℝ} (hB : Usual B) (h : |r| ≤ B) : |rd f32 r - r| ≤ eps * B := by
  have h1 : |r| < 2 ^ 126 := lt_of_le_of_lt (h.trans hB.upper) (by norm_num)
  have h2 := rd_err_rel (f := f32) h1 (by decide)
  have e1 : f32.p = 24 := rfl
  have e2 : f32.q = 149 := rfl
  rw [e1, e2] at h2
  have h3 := hB.lower
  have h4 : (1 : ℝ) / 2 ^ (149 + 1) ≤ 1 / 2 ^ 50 * B := by
    have : (1 : ℝ) / 2 ^ (149 + 1) = 1 / 2 ^ 50 * (1 / 2 ^ 100) := by norm_num
    rw [this]; gcongr
  have h5 := div_le_div_of_nonneg_right h (by positivity : (0 : ℝ) ≤ 2 ^ 24)
  have h6 := hB.pos
  unfold eps
  have h7 : B / 2 ^ 24 + 1 / 2 ^ 50 * B ≤ 1 / 16000000 * B := by
    have : B / 2 ^ 24 + 1 / 2 ^ 50 * B = (1 / 2 ^ 24 + 1 / 2 ^ 50) * B := by ring
    rw [this]
    exact mul_le_mul_of_nonneg_right (by norm_num) h6.le
  linarith

theorem rd32_small {r B : ℝ} (hB : Usual B) (h : |r| ≤ B) : |rd f32 r| ≤ 2 ^ 126 := by
  rw [abs_rd, ← rd_two_pow (f := f32) (j := 126) (by decide)]
  exact rd_mono ((h.trans hB.upper).trans (by norm_num))

namespace Fl

theorem add_near {x y : Fl f32} (hx : Finite x) (hy : Finite y) {B : ℝ} (hB : Usual B) (h : |num x + num y| ≤ B) :
    Finite (x + y) ∧ |num (x + y) - (num x + num y)| ≤ eps * B := by
  have e := num_add hx hy
  exact ⟨finite_of_num_le (j := 126) (add_not_nan hx hy) (by decide) (by rw [e]; exact rd32_small hB h), by rw [e]; exact rd32_err hB h⟩

theorem sub_near {x y : Fl f32} (hx : Finite x) (hy : Finite y) {B : ℝ} (hB : Usual B) (h : |num x - num y| ≤ B) :
    Finite (x - y) ∧ |num (x - y) - (num x - num y)| ≤ eps * B := by
  have e := num_sub hx hy
  exact ⟨finite_of_num_le (j := 126) (sub_not_nan hx hy) (by decide) (by rw [e]; exact rd32_small hB h), by rw [e]; exact rd32_err hB h⟩

theorem mul_near {x y : Fl f32} (hx : Finite x) (hy : Finite y) {B : ℝ} (hB : Usual B) (h : |num x * num y| ≤ B) :
    Finite (x * y) ∧ |num (x * y) - num x * num y| ≤ eps * B := by
  have e := num_mul hx hy
  exact ⟨finite_of_num_le (j := 126) (mul_not_nan hx hy) (by decide) (by rw [e]; exact rd32_small hB h), by rw [e]; exact rd32_err hB h⟩

theorem div_near {x y : Fl f32} (hx : Finite x) (hy : Finite y) (h0 : num y ≠ 0) {B : ℝ} (hB : Usual B) (h : |num x / num y| ≤ B) :
    Finite (x / y) ∧ |num (x / y) - num x / num y| ≤ eps * B := by
  have e := num_div hx hy h0
  have hk : key y ≠ 0 := by rintro hk; apply h0; simp [num, hk]
  exact ⟨finite_of_num_le (j := 126) (div_not_nan hx hy hk) (by decide) (by rw [e]; exact rd32_small hB h), by rw [e]; exact rd32_err hB h⟩

/-- The length of a step, as the code rounds it. -/
theorem narrow_near [Libm] {s t : Fl f64} (hs : Finite s) (ht : Finite t) (h : |num t - num s| ≤ 2 ^ 60) :
    Finite (Arith.narrow (t - s) : Fl f32) ∧
      |num (Arith.narrow (t - s) : Fl f32) - (num t - num s)| ≤ eps * |num t - num s| + 1 / 2 ^ 140 := by
  have e1 := num_sub ht hs
  have h1 : |num t - num s| < 2 ^ 61 := lt_of_le_of_lt h (by norm_num)
  have h2 := rd_err_rel (f := f64) h1 (by decide)
  have q1 : f64.p = 53 := rfl
  have q2 : f64.q = 1074 := rfl
  rw [← e1, q1, q2] at h2
  have h6 : (1 : ℝ) / 2 ^ (1074 + 1) ≤ 1 / 2 ^ 150 :=
    one_div_le_one_div_of_le (by positivity) (pow_le_pow_right₀ (by norm_num) (by norm_num))
  generalize (1 : ℝ) / 2 ^ (1074 + 1) = τ at h2 h6
  have h2' : |num (t - s)| ≤ 2 ^ 60 := by
    rw [e1, abs_rd, ← rd_two_pow (f := f64) (j := 60) (by decide)]
    exact rd_mono h
  have hf : Finite (t - s) := finite_of_num_le (j := 60) (sub_not_nan ht hs) (by decide) h2'
  change Finite (convert f32 (t - s)) ∧ |num (convert f32 (t - s)) - _| ≤ _
  have e2 : num (convert f32 (t - s)) = rd f32 (num (t - s)) := num_convert hf
  have h3 := rd_err_rel (f := f32) (r := num (t - s)) (j := 61) (lt_of_le_of_lt h2' (by norm_num)) (by decide)
  have q3 : f32.p = 24 := rfl
  have q4 : f32.q = 149 := rfl
  rw [← e2, q3, q4] at h3
  refine ⟨finite_of_num_le (j := 60) (by rw [convert_isNaN]; exact sub_not_nan ht hs) (by decide) ?_, ?_⟩
  · rw [e2, abs_rd, ← rd_two_pow (f := f32) (j := 60) (by decide)]
    exact rd_mono h2'
  · have h4 : |num (t - s)| ≤ |num t - num s| + (|num t - num s| / 2 ^ 53 + τ) := by
      have := abs_add_le (num t - num s) (num (t - s) - (num t - num s))
      rw [add_sub_cancel] at this
      linarith
    have h5 : |num (convert f32 (t - s)) - (num t - num s)| ≤
        |num (convert f32 (t - s)) - num (t - s)| + |num (t - s) - (num t - num s)| := abs_sub_le _ _ _
    have h7 := abs_nonneg (num t - num s)
    generalize |num t - num s| = a at *
    unfold eps
    have h8 : |num (t - s)| / 2 ^ 24 ≤ (a + (a / 2 ^ 53 + τ)) / 2 ^ 24 := by gcongr
    have h9 : (a + (a / 2 ^ 53 + τ)) / 2 ^ 24 + 1 / 2 ^ (149 + 1) + (a / 2 ^ 53 + τ) ≤ 1 / 16000000 * a + 1 / 2 ^ 140 := by
      norm_num at h6 ⊢
      linarith
    linarith

end Fl
end Ink
