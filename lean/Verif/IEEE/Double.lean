import Verif.IEEE.Dyadic
import Verif.IEEE.Error
/-!
# Errors of sums and products of doubles of a size
-/
namespace Ink
open Scalar Fl
noncomputable section

/-- `x` is `r`, up to `e A`; `r` is at most `b A`. -/
structure Ap (A : ℝ) (x : Fl f64) (r b e : ℝ) : Prop where
  fin : Finite x
  size : |r| ≤ b * A
  near : |Fl.num x - r| ≤ e * A

/-- Neither tiny nor huge. -/
structure Decent (A : ℝ) : Prop where
  low : 1 / 2 ^ 100 ≤ A
  high : A ≤ 2 ^ 200

theorem Decent.pos {A : ℝ} (h : Decent A) : 0 < A := lt_of_lt_of_le (by positivity) h.low

theorem rdA {A r : ℝ} (hA : Decent A) (h : |r| ≤ 256 * A) : |rd f64 r - r| ≤ 1 / 2 ^ 44 * A := by
  have h2 : (256 : ℝ) * 2 ^ 200 < 2 ^ 209 := by norm_num
  have hlt : |r| < 2 ^ 209 := by have := hA.high; linarith
  have e := rd_err_rel (f := f64) hlt (by decide)
  have t1 : (1 : ℝ) / 2 ^ (f64.q + 1) ≤ 1 / 2 ^ 200 := one_div_pow_le_one_div_pow_of_le (by norm_num) (by decide)
  have t2 : (1 : ℝ) / 2 ^ 200 = 1 / 2 ^ 100 * (1 / 2 ^ 100) := by norm_num
  have t3 : (1 : ℝ) / 2 ^ 100 * (1 / 2 ^ 100) ≤ 1 / 2 ^ 100 * A := mul_le_mul_of_nonneg_left hA.low (by positivity)
  have t4 : |r| / 2 ^ f64.p ≤ 256 * A / 2 ^ 53 := div_le_div_of_nonneg_right h (by positivity)
  have t5 : 256 * A / 2 ^ 53 + 1 / 2 ^ 100 * A ≤ 1 / 2 ^ 44 * A := by
    have := hA.pos
    rw [show 256 * A / 2 ^ 53 + 1 / 2 ^ 100 * A = (256 / 2 ^ 53 + 1 / 2 ^ 100) * A by ring]
    exact mul_le_mul_of_nonneg_right (by norm_num) this.le
  generalize (1 : ℝ) / 2 ^ (f64.q + 1) = τ at *
  linarith

theorem fin_of {A : ℝ} {x : Fl f64} (hA : Decent A) (hn : x.isNaN = false) (h : |Fl.num x| ≤ 257 * A) : Finite x := by
  refine finite_of_num_le (j := 209) hn (by decide) (h.trans ?_)
  have h2 : (257 : ℝ) * 2 ^ 200 < 2 ^ 209 := by norm_num
  have := hA.high
  linarith

namespace Ap
variable {A : ℝ} {x y : Fl f64} {r s b c e d : ℝ}

theorem of_rd (hA : Decent A) (hn : x.isNaN = false) {t : ℝ} (hx : Fl.num x = rd f64 t) (hr : |r| ≤ b * A) (ht : |t - r| ≤ e * A) (hb : b + e ≤ 256) :
    Ap A x r b (e + 1 / 2 ^ 44) := by
  have hp := hA.pos
  have h1 : |t| ≤ (b + e) * A := by
    rw [abs_le] at *
    constructor <;> linarith
  have h1' : |t| ≤ 256 * A := h1.trans (mul_le_mul_of_nonneg_right hb hp.le)
  have h2 := rdA hA h1'
  have h3 : |Fl.num x - r| ≤ (e + 1 / 2 ^ 44) * A := by
    rw [hx, add_mul]
    rw [abs_le] at *
    constructor <;> linarith [h2.1, h2.2, ht.1, ht.2]
  refine ⟨fin_of hA hn ?_, hr, h3⟩
  rw [hx]
  have : (1 : ℝ) / 2 ^ 44 * A ≤ 1 * A := mul_le_mul_of_nonneg_right (by norm_num) hp.le
  rw [abs_le] at *
  constructor <;> linarith [h2.1, h2.2, h1'.1, h1'.2]

theorem add (hA : Decent A) (hx : Ap A x r b e) (hy : Ap A y s c d) (h : b + c + (e + d) ≤ 256) : Ap A (x + y) (r + s) (b + c) (e + d + 1 / 2 ^ 44) := by
  refine of_rd hA (add_not_nan hx.fin hy.fin) (num_add hx.fin hy.fin) ?_ ?_ h
  · rw [add_mul]; exact (abs_add_le _ _).trans (add_le_add hx.size hy.size)
  · rw [add_mul, show Fl.num x + Fl.num y - (r + s) = (Fl.num x - r) + (Fl.num y - s) by ring]
    exact (abs_add_le _ _).trans (add_le_add hx.near hy.near)

theorem sub (hA : Decent A) (hx : Ap A x r b e) (hy : Ap A y s c d) (h : b + c + (e + d) ≤ 256) : Ap A (x - y) (r - s) (b + c) (e + d + 1 / 2 ^ 44) := by
  refine of_rd hA (sub_not_nan hx.fin hy.fin) (num_sub hx.fin hy.fin) ?_ ?_ h
  · rw [add_mul]; exact (abs_sub _ _).trans (add_le_add hx.size hy.size)
  · rw [add_mul, show Fl.num x - Fl.num y - (r - s) = (Fl.num x - r) - (Fl.num y - s) by ring]
    exact (abs_sub _ _).trans (add_le_add hx.near hy.near)

theorem mul_bounds (hx : Ap A x r b e) {k κ : ℝ} (hk : |k| ≤ κ) : |r * k| ≤ b * κ * A ∧ |Fl.num x * k - r * k| ≤ e * κ * A := by
  constructor
  · rw [abs_mul]
    calc |r| * |k| ≤ b * A * κ := mul_le_mul hx.size hk (abs_nonneg _) ((abs_nonneg _).trans hx.size)
      _ = b * κ * A := by ring
  · rw [← sub_mul, abs_mul]
    calc |Fl.num x - r| * |k| ≤ e * A * κ := mul_le_mul hx.near hk (abs_nonneg _) ((abs_nonneg _).trans hx.near)
      _ = e * κ * A := by ring

theorem mulc (hA : Decent A) (hx : Ap A x r b e) (hy : Finite y) {κ : ℝ} (hk : |Fl.num y| ≤ κ) (h : b * κ + e * κ ≤ 256) :
    Ap A (x * y) (r * Fl.num y) (b * κ) (e * κ + 1 / 2 ^ 44) :=
  of_rd hA (mul_not_nan hx.fin hy) (num_mul hx.fin hy) (hx.mul_bounds hk).1 (hx.mul_bounds hk).2 h

theorem cmul (hA : Decent A) (hx : Ap A x r b e) (hy : Finite y) {κ : ℝ} (hk : |Fl.num y| ≤ κ) (h : b * κ + e * κ ≤ 256) :
    Ap A (y * x) (r * Fl.num y) (b * κ) (e * κ + 1 / 2 ^ 44) :=
  of_rd hA (mul_not_nan hy hx.fin) (by rw [num_mul hy hx.fin, mul_comm]) (hx.mul_bounds hk).1 (hx.mul_bounds hk).2 h

theorem exact (hx : Finite x) (h : |Fl.num x| ≤ b * A) : Ap A x (Fl.num x) b 0 := ⟨hx, h, by simp⟩

theorem mono (hA : Decent A) (hx : Ap A x r b e) (hb : b ≤ c) (he : e ≤ d) : Ap A x r c d :=
  ⟨hx.fin, hx.size.trans (mul_le_mul_of_nonneg_right hb hA.pos.le), hx.near.trans (mul_le_mul_of_nonneg_right he hA.pos.le)⟩

end Ap

theorem num_of_is {x : Fl f64} {a : Bool} {m e : ℕ} (h : Dy.Is x (.num a m e)) : Fl.num x = Dy.sg a (m * 2 ^ e / 2 ^ 1074) := by
  unfold Fl.num
  rw [h.2, Dy.key_sg, show f64.q = 1074 from rfl]
  push_cast
  generalize (2 : ℝ) ^ 1074 = z
  cases a <;> simp [Dy.sg, neg_div]

end
end Ink
