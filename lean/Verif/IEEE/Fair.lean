import Verif.IEEE.Spring
import Verif.IEEE.Reference
/-!
# Sums, averages and distances on floats
-/
namespace Ink
open Scalar Arith

/-- What is further assumed of the C math library: far from overflow, the hypotenuse is not grossly too long. -/
class LibmFair [Libm] : Prop where
  hypot_le (x y : Fl f32) : x.Finite → y.Finite → |Fl.num x| ≤ 2 ^ 100 → |Fl.num y| ≤ 2 ^ 100 →
    Fl.num (Libm.hypot x y) ≤ 2 * (|Fl.num x| + |Fl.num y|)

/-- A size that is usual or zero. -/
def Ample (B : ℝ) : Prop := B = 0 ∨ Usual B

theorem Ample.nonneg {B : ℝ} (h : Ample B) : 0 ≤ B := by
  rcases h with rfl | h
  · exact le_rfl
  · exact h.pos.le

theorem rd32_mild {r B : ℝ} (hB : Ample B) (h : |r| ≤ B) : |rd f32 r - r| ≤ eps * B ∧ |rd f32 r| ≤ 2 ^ 126 := by
  rcases hB with rfl | hB
  · have : r = 0 := abs_nonpos_iff.1 h
    subst this
    rw [rd_zero]
    norm_num
  · exact ⟨rd32_err hB h, rd32_small hB h⟩

namespace Fl

theorem add_mild {x y : Fl f32} (hx : Finite x) (hy : Finite y) {B : ℝ} (hB : Ample B) (h : |num x + num y| ≤ B) :
    Finite (x + y) ∧ |num (x + y) - (num x + num y)| ≤ eps * B := by
  have e := num_add hx hy
  obtain ⟨h1, h2⟩ := rd32_mild hB h
  exact ⟨finite_of_num_le (j := 126) (add_not_nan hx hy) (by decide) (by rw [e]; exact h2), by rw [e]; exact h1⟩

theorem sub_mild {x y : Fl f32} (hx : Finite x) (hy : Finite y) {B : ℝ} (hB : Ample B) (h : |num x - num y| ≤ B) :
    Finite (x - y) ∧ |num (x - y) - (num x - num y)| ≤ eps * B := by
  have e := num_sub hx hy
  obtain ⟨h1, h2⟩ := rd32_mild hB h
  exact ⟨finite_of_num_le (j := 126) (sub_not_nan hx hy) (by decide) (by rw [e]; exact h2), by rw [e]; exact h1⟩

theorem mul_mild {x y : Fl f32} (hx : Finite x) (hy : Finite y) {B : ℝ} (hB : Ample B) (h : |num x * num y| ≤ B) :
    Finite (x * y) ∧ |num (x * y) - num x * num y| ≤ eps * B := by
  have e := num_mul hx hy
  obtain ⟨h1, h2⟩ := rd32_mild hB h
  exact ⟨finite_of_num_le (j := 126) (mul_not_nan hx hy) (by decide) (by rw [e]; exact h2), by rw [e]; exact h1⟩

/-- Rounding to double and then to single precision. -/
theorem rd_twice {r B : ℝ} (hB : Ample B) (h : |r| ≤ B) : |rd f32 (rd f64 r) - r| ≤ 2 * eps * B ∧ |rd f32 (rd f64 r)| ≤ 2 ^ 126 ∧
    |rd f64 r| ≤ 2 ^ 126 := by
  rcases hB with rfl | hB
  · have : r = 0 := abs_nonpos_iff.1 h
    subst this
    rw [rd_zero, rd_zero]
    norm_num
  · have h0 := hB.pos
    have h1 : |r| < 2 ^ 126 := lt_of_le_of_lt (h.trans hB.upper) (by norm_num)
    have h2 := rd_err_rel (f := f64) h1 (by decide)
    have q1 : f64.p = 53 := rfl
    have q2 : f64.q = 1074 := rfl
    rw [q1, q2] at h2
    have h3 : (1 : ℝ) / 2 ^ (1074 + 1) ≤ 1 / 2 ^ 150 :=
      one_div_le_one_div_of_le (by positivity) (pow_le_pow_right₀ (by norm_num) (by norm_num))
    generalize (1 : ℝ) / 2 ^ (1074 + 1) = τ at h2 h3
    have h4 : (1 : ℝ) / 2 ^ 150 ≤ 1 / 2 ^ 50 * B := by
      have : (1 : ℝ) / 2 ^ 150 = 1 / 2 ^ 50 * (1 / 2 ^ 100) := by norm_num
      rw [this]; have := hB.lower; gcongr
    have h5 : |r| / 2 ^ 53 ≤ B / 2 ^ 53 := by gcongr
    have h6 : |rd f64 r - r| ≤ B / 2 ^ 49 := by
      calc _ ≤ B / 2 ^ 53 + 1 / 2 ^ 50 * B := by linarith
        _ ≤ B / 2 ^ 49 := by
          have : B / 2 ^ 53 + 1 / 2 ^ 50 * B = (1 / 2 ^ 53 + 1 / 2 ^ 50) * B := by ring
          rw [this, show B / 2 ^ 49 = 1 / 2 ^ 49 * B by ring]
          exact mul_le_mul_of_nonneg_right (by norm_num) h0.le
    have h7 : |rd f64 r| ≤ 2 ^ 125 := by
      rw [abs_rd, ← rd_two_pow (f := f64) (j := 125) (by decide)]
      exact rd_mono (h.trans hB.upper)
    have h8 : |rd f64 r| ≤ B + B / 2 ^ 49 := abs_of_near h6 h
    have h9 : |rd f32 (rd f64 r) - rd f64 r| ≤ 101 / 100 * eps * B := by
      have h10 := rd_err_rel (f := f32) (r := rd f64 r) (j := 126) (lt_of_le_of_lt h7 (by norm_num)) (by decide)
      have q3 : f32.p = 24 := rfl
      have q4 : f32.q = 149 := rfl
      rw [q3, q4] at h10
      have h11 : |rd f64 r| / 2 ^ 24 ≤ (B + B / 2 ^ 49) / 2 ^ 24 := by gcongr
      have h12 : (1 : ℝ) / 2 ^ (149 + 1) ≤ 1 / 2 ^ 50 * B := h4
      refine h10.trans ?_
      have : (B + B / 2 ^ 49) / 2 ^ 24 + 1 / 2 ^ 50 * B ≤ 101 / 100 * eps * B := by
        have e : (B + B / 2 ^ 49) / 2 ^ 24 + 1 / 2 ^ 50 * B = ((1 + 1 / 2 ^ 49) / 2 ^ 24 + 1 / 2 ^ 50) * B := by ring
        rw [e]
        exact mul_le_mul_of_nonneg_right (by unfold eps; norm_num) h0.le
      linarith
    refine ⟨?_, ?_, h7.trans (by norm_num)⟩
    · have := abs_sub_le (rd f32 (rd f64 r)) (rd f64 r) r
      have h13 : B / 2 ^ 49 ≤ 1 / 100 * eps * B := by
        rw [div_eq_inv_mul]
        exact mul_le_mul_of_nonneg_right (by unfold eps; norm_num) h0.le
      have h14 : 0 ≤ eps * B := mul_nonneg (by norm_num [eps]) h0.le
      linarith
    · rw [abs_rd, ← rd_two_pow (f := f32) (j := 126) (by decide)]
      exact rd_mono (h7.trans (by norm_num))

/-- A point on the way from one number to another. -/
theorem lerp_reach {a b c : Fl f32} (ha : Finite a) (hb : Finite b) {B : ℝ} (hB : 1 / 2 ^ 80 ≤ B ∧ B ≤ 2 ^ 110) (hxa : |num a| ≤ B)
    (hxb : |num b| ≤ B) (hc : isNaN c = false) : Finite (a + clamp01 c * (b - a)) ∧ |num (a + clamp01 c * (b - a))| ≤ 101 / 100 * B := by
  have B0 : 0 < B := lt_of_lt_of_le (by positivity) hB.1
  have heps : eps = 1 / 16000000 := rfl
  obtain ⟨c1, c2⟩ := (clamp01_spec c).2 hc
  have t0 : 0 ≤ num (clamp01 c) := by rw [c2]; exact le_max_left _ _
  have t1 : num (clamp01 c) ≤ 1 := by rw [c2]; exact max_le zero_le_one (min_le_left _ _)
  generalize clamp01 c = c at *
  have hr1 : |num b - num a| ≤ 2 * B := (abs_sub _ _).trans (by linarith)
  obtain ⟨f1, e1⟩ := sub_near hb ha (usual_of (k := 2) hB rfl (by norm_num) (by norm_num)) hr1
  have b1 : |num (b - a)| ≤ 201 / 100 * B := (abs_of_near e1 hr1).trans (by rw [heps]; linarith)
  have hr2 : |num c * num (b - a)| ≤ 201 / 100 * B := by
    rw [abs_mul, abs_of_nonneg t0]
    exact (mul_le_of_le_one_left (abs_nonneg _) t1).trans b1
  obtain ⟨f2, e2⟩ := mul_near c1 f1 (usual_of (k := 201 / 100) hB rfl (by norm_num) (by norm_num)) hr2
  have e3 : |num a + num (c * (b - a)) - (num a + num c * (num b - num a))| ≤ eps * (5 * B) := by
    have e : num a + num (c * (b - a)) - (num a + num c * (num b - num a)) =
        (num (c * (b - a)) - num c * num (b - a)) + num c * (num (b - a) - (num b - num a)) := by ring
    rw [e]
    refine (abs_add_le _ _).trans ?_
    have : |num c * (num (b - a) - (num b - num a))| ≤ eps * (2 * B) := by
      rw [abs_mul, abs_of_nonneg t0]
      exact (mul_le_of_le_one_left (abs_nonneg _) t1).trans e1
    rw [heps] at *
    linarith
  have e4 : |num a + num c * (num b - num a)| ≤ B := by
    rw [abs_le] at *
    constructor <;> nlinarith
  have e5 : |num a + num (c * (b - a))| ≤ 1001 / 1000 * B := (abs_of_near e3 e4).trans (by rw [heps]; linarith)
  obtain ⟨f3, e6⟩ := add_near ha f2 (usual_of (k := 1001 / 1000) hB rfl (by norm_num) (by norm_num)) e5
  exact ⟨f3, (abs_of_near e6 e5).trans (by rw [heps]; linarith)⟩

/-- The hypotenuse. -/
theorem hypot_reach [Libm] [LibmFair] {x y : Fl f32} (hx : Finite x) (hy : Finite y) {B : ℝ} (hB : B ≤ 2 ^ 100) (h1 : |num x| ≤ B)
    (h2 : |num y| ≤ B) : Finite (hypot x y) ∧ 0 ≤ num (hypot x y) ∧ num (hypot x y) ≤ 4 * B := by
  have h0 : 0 ≤ B := (abs_nonneg _).trans h1
  obtain ⟨g1, -⟩ := Fl.hypot_ge x y hx hy
  have g2 := (le_iff.1 g1).2.1
  have g3 : |num x| ≤ num (hypot x y) := by
    have := (le_iff.1 g1).2.2
    rw [← num_le, num_abs] at this
    exact this
  have g4 : num (hypot x y) ≤ 4 * B := by
    obtain ⟨a, k, hk, rfl⟩ := finite_iff.1 hx
    obtain ⟨b, l, hl, rfl⟩ := finite_iff.1 hy
    have e : ∀ (a : Bool) (k : ℕ) (hk : f32.Rep k), num (fin false k hk : Fl f32) = |num (fin a k hk : Fl f32)| := by
      intro a k hk
      rw [← num_abs]; rfl
    simp only [hypot]
    split
    · rw [e a]; linarith
    · split
      · rw [e b]; linarith
      · have := LibmFair.hypot_le _ _ hx hy (h1.trans hB) (h2.trans hB)
        linarith
  have g0 : 0 ≤ num (hypot x y) := (abs_nonneg _).trans g3
  refine ⟨finite_of_num_le (j := 102) g2 (by decide) ?_, g0, g4⟩
  rw [abs_of_nonneg g0]
  exact g4.trans (by linarith)

end Fl

theorem Libm.reference_fair : @LibmFair Libm.reference := by
  let _ : Libm := Libm.reference
  refine { hypot_le := ?_ }
  intro x y hx hy h1 h2
  obtain ⟨a, k, hk, rfl⟩ := Fl.finite_iff.1 hx
  obtain ⟨b, l, hl, rfl⟩ := Fl.finite_iff.1 hy
  have e : ∀ (a : Bool) (k : ℕ) (hk : f32.Rep k), |Fl.num (Fl.fin a k hk : Fl f32)| = (k : ℝ) / 2 ^ f32.q := by
    intro a k hk
    rw [← Fl.num_abs]
    simp [Fl.num, Fl.abs, Fl.key, Fl.sgn]
  have hle : Fl.num (Libm.hypot (Fl.fin a k hk) (Fl.fin b l hl)) ≤ rd f32 (|Fl.num (Fl.fin a k hk : Fl f32)| + |Fl.num (Fl.fin b l hl : Fl f32)|) := by
    change Fl.num (Fl.mk' f32 false (2 * isqrt (16 * (k * k + l * l)) +
      (if isqrt (16 * (k * k + l * l)) * isqrt (16 * (k * k + l * l)) = 16 * (k * k + l * l) then 0 else 1)) 8) ≤ _
    rw [e, e, Fl.num, Fl.key_mk' _ _ _ (by norm_num), rd]
    simp only [Bool.false_eq_true, ↓reduceIte]
    gcongr
    apply RK_mono
    have e2 : ((k : ℝ) / 2 ^ f32.q + (l : ℝ) / 2 ^ f32.q) * 2 ^ f32.q = ((k + l : ℕ) : ℝ) := by push_cast; field_simp
    rw [e2, div_le_iff₀ (by norm_num)]
    obtain ⟨s1, s2⟩ := isqrt_spec (16 * (k * k + l * l))
    generalize isqrt (16 * (k * k + l * l)) = s at *
    have h3 : s ≤ 4 * (k + l) := by
      by_contra hc
      push Not at hc
      have := Nat.mul_le_mul hc.le hc.le
      nlinarith
    have h4 : 2 * s + (if s * s = 16 * (k * k + l * l) then 0 else 1) ≤ (k + l) * 8 := by
      split
      · omega
      · rename_i hne
        rcases h3.eq_or_lt with h5 | h5
        · exfalso
          apply hne
          subst h5
          nlinarith
        · omega
    exact_mod_cast h4
  refine hle.trans ?_
  generalize hs : |Fl.num (Fl.fin a k hk : Fl f32)| + |Fl.num (Fl.fin b l hl : Fl f32)| = s at *
  have hs' : s = ((k + l : ℕ) : ℝ) / 2 ^ f32.q := by rw [← hs, e, e]; push_cast; ring
  rcases Nat.eq_zero_or_pos (k + l) with h0 | h0
  · rw [h0] at hs'
    rw [hs']
    simp [rd_zero]
  · have h3 : 1 / 2 ^ f32.q ≤ s := by
      rw [hs']
      gcongr
      exact_mod_cast h0
    have hs0 : 0 ≤ s := le_trans (by positivity) h3
    have h4 : |s| < 2 ^ 102 := by rw [abs_of_nonneg hs0]; linarith
    have h5 := rd_err_rel (f := f32) h4 (by decide)
    rw [abs_of_nonneg hs0] at h5
    have h6 := (abs_le.1 h5).2
    have h7 : s / 2 ^ f32.p ≤ s / 2 := by
      apply div_le_div_of_nonneg_left hs0 (by norm_num)
      have : f32.p = 24 := rfl
      rw [this]; norm_num
    have h8 : (1 : ℝ) / 2 ^ (f32.q + 1) ≤ s / 2 := by
      rw [pow_succ, ← div_div]; linarith
    linarith

end Ink
