import Verif.IEEE.Angle
/-!
# Interpolation stays in range on floats
-/
namespace Ink
open Scalar Arith
namespace Fl

/-- A number between 0 and `m`. -/
structure Within (m : ℝ) (x : Fl f32) : Prop where
  finite : Finite x
  low : 0 ≤ num x
  high : num x ≤ m

theorem rd_top_one {x : ℝ} (h : x ≤ 1 + 1 / 2 ^ 25) : rd f32 x ≤ 1 := by
  have h1 : Finite (1 : Fl f32) := finite_lit one_lt_two_pow
  have hy : Finite (fin false (2 ^ 124) (by decide +kernel) : Fl f32) := ⟨rfl, rfl⟩
  have hs : (1 : Fl f32) + fin false (2 ^ 124) (by decide +kernel) = 1 := by decide +kernel
  have hn := num_add h1 hy
  rw [hs, num_one] at hn
  have he : num (fin false (2 ^ 124) (by decide +kernel) : Fl f32) = 1 / 2 ^ 25 := by
    unfold num
    have : key (fin false (2 ^ 124) (by decide +kernel) : Fl f32) = 2 ^ 124 := rfl
    rw [this]
    have hq : f32.q = 149 := rfl
    rw [hq]
    norm_num
  rw [he] at hn
  rw [hn]
  exact rd_mono h

theorem rd_top_two {x : ℝ} (h : x ≤ 2 + 1 / 2 ^ 24) : rd f32 x ≤ 2 := by
  have h1 : Finite (2 : Fl f32) := finite_lit (by decide)
  have hy : Finite (fin false (2 ^ 125) (by decide +kernel) : Fl f32) := ⟨rfl, rfl⟩
  have hs : (2 : Fl f32) + fin false (2 ^ 125) (by decide +kernel) = 2 := by decide +kernel
  have hn := num_add h1 hy
  have h2 : num (2 : Fl f32) = 2 := by simpa using num_lit (f := f32) (n := 2) (by decide)
  rw [hs, h2] at hn
  have he : num (fin false (2 ^ 125) (by decide +kernel) : Fl f32) = 1 / 2 ^ 24 := by
    unfold num
    have : key (fin false (2 ^ 125) (by decide +kernel) : Fl f32) = 2 ^ 125 := rfl
    rw [this]
    have hq : f32.q = 149 := rfl
    rw [hq]
    norm_num
  rw [he] at hn
  rw [hn]
  exact rd_mono h

theorem interp_within {j : ℕ} (hj : j = 0 ∨ j = 1) {a b c : Fl f32} (ha : Within (2 ^ j) a) (hb : Within (2 ^ j) b)
    (hc : isNaN c = false) : Within (2 ^ j) (interp a b c) := by
  obtain ⟨c1, c2⟩ := (clamp01_spec c).2 hc
  obtain ⟨a1, a2, a3⟩ := ha
  obtain ⟨b1, b2, b3⟩ := hb
  have t0 : 0 ≤ num (clamp01 c) := by rw [c2]; exact le_max_left _ _
  have t1 : num (clamp01 c) ≤ 1 := by rw [c2]; exact max_le zero_le_one (min_le_left _ _)
  have h2 : (2 : ℝ) ^ j ≤ 2 := by rcases hj with rfl | rfl <;> norm_num
  have hsub : num (b - a) = rd f32 (num b - num a) := num_sub b1 a1
  have habs : |num b - num a| ≤ 2 ^ 1 := by rw [abs_le]; constructor <;> norm_num <;> linarith
  have dle : |num (b - a)| ≤ 2 ^ 1 := by
    rw [hsub]; exact rd32_le (by norm_num) habs
  have df : Finite (b - a) := finite_of_num_le (sub_not_nan b1 a1) (j := 1) (by decide) dle
  have hmul : num ((b - a) * clamp01 c) = rd f32 (num (b - a) * num (clamp01 c)) := num_mul df c1
  have mle : |num ((b - a) * clamp01 c)| ≤ 2 ^ 1 := by
    rw [hmul]
    refine rd32_le (by norm_num) ?_
    rw [abs_mul, abs_of_nonneg t0]
    calc |num (b - a)| * num (clamp01 c) ≤ |num (b - a)| * 1 := by gcongr
      _ ≤ 2 ^ 1 := by rw [mul_one]; exact dle
  have mf : Finite ((b - a) * clamp01 c) := finite_of_num_le (mul_not_nan df c1) (j := 1) (by decide) mle
  have hadd : num (interp a b c) = rd f32 (num a + num ((b - a) * clamp01 c)) := num_add a1 mf
  have hn : isNaN (interp a b c) = false := add_not_nan a1 mf
  have key : 0 ≤ num (interp a b c) ∧ num (interp a b c) ≤ 2 ^ j := by
    rcases le_total (num a) (num b) with hab | hab
    · have d0 : 0 ≤ num (b - a) := by rw [hsub]; exact rd_nonneg (by linarith)
      have m0 : 0 ≤ num ((b - a) * clamp01 c) := by rw [hmul]; exact rd_nonneg (mul_nonneg d0 t0)
      have m1 : num ((b - a) * clamp01 c) ≤ num (b - a) := by
        rw [hmul, ← rd_num df]
        exact rd_mono (by rw [rd_num df]; exact mul_le_of_le_one_right d0 t1)
      refine ⟨by rw [hadd]; exact rd_nonneg (by linarith), ?_⟩
      rw [hadd]
      rcases a2.eq_or_lt with ha0 | ha0
      · have : rd f32 (num a + num ((b - a) * clamp01 c)) ≤ rd f32 (num b) := by
          apply rd_mono
          rw [← ha0, zero_add]
          refine m1.trans ?_
          rw [hsub, ← ha0, sub_zero, rd_num b1]
        rw [rd_num b1] at this
        exact this.trans b3
      · have hlt : |num b - num a| < 2 ^ j := by rw [abs_of_nonneg (by linarith)]; linarith
        have herr := rd_err (f := f32) hlt (by rcases hj with rfl | rfl <;> decide)
        rw [← hsub, abs_le] at herr
        have hp : f32.p = 24 := rfl
        rw [hp] at herr
        rcases hj with rfl | rfl
        · refine (rd_top_one ?_).trans (by norm_num)
          norm_num at herr b3 ⊢
          linarith
        · refine (rd_top_two ?_).trans (by norm_num)
          norm_num at herr b3 ⊢
          linarith
    · have d0 : num (b - a) ≤ 0 := by
        rw [hsub, ← rd_zero (f := f32)]; exact rd_mono (by linarith)
      have m0 : num ((b - a) * clamp01 c) ≤ 0 := by
        rw [hmul, ← rd_zero (f := f32)]; exact rd_mono (mul_nonpos_of_nonpos_of_nonneg d0 t0)
      have dl : -num a ≤ num (b - a) := by
        rw [hsub, ← rd_num a1, ← rd_neg]
        exact rd_mono (by rw [rd_num a1]; linarith)
      have m1 : num (b - a) ≤ num ((b - a) * clamp01 c) := by
        rw [hmul, ← rd_num df]
        exact rd_mono (by rw [rd_num df]; nlinarith)
      refine ⟨by rw [hadd]; exact rd_nonneg (by linarith), ?_⟩
      rw [hadd]
      have : rd f32 (num a + num ((b - a) * clamp01 c)) ≤ rd f32 (num a) := rd_mono (by linarith)
      rw [rd_num a1] at this
      exact this.trans a3
  refine ⟨finite_of_num_le hn (j := 1) (by decide) ?_, key.1, key.2⟩
  rw [abs_of_nonneg key.1]
  norm_num
  exact key.2.trans h2

end Fl
end Ink
