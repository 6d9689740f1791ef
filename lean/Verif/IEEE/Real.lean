import Verif.IEEE.Value
/-!
# Float operations as rounded real operations

`num x` is the real number a finite float stands for (infinities are given the next magnitude after the largest one), `rd f r` is
the real number `r` rounded to the format.
-/
namespace Ink
open Scalar

/-- The real number rounded to the format; saturated at the magnitude that follows the largest one. -/
noncomputable def rd (f : Fmt) (r : ℝ) : ℝ := RK f (r * 2 ^ f.q) / 2 ^ f.q

namespace Fmt

/-- The magnitude from which on a number counts as infinite. -/
noncomputable def huge (f : Fmt) : ℝ := (f.maxMag + 1 : ℝ) / 2 ^ f.q

end Fmt

section rd
variable {f : Fmt}

theorem rd_mono {r s : ℝ} (h : r ≤ s) : rd f r ≤ rd f s := by
  unfold rd
  have : RK f (r * 2 ^ f.q) ≤ RK f (s * 2 ^ f.q) := RK_mono (by gcongr)
  have : (RK f (r * 2 ^ f.q) : ℝ) ≤ RK f (s * 2 ^ f.q) := by exact_mod_cast this
  gcongr

theorem rd_zero : rd f 0 = 0 := by simp [rd, RK_zero]

theorem rd_neg (r : ℝ) : rd f (-r) = -rd f r := by
  unfold rd
  rw [neg_mul, RK_neg]; push_cast; ring

theorem rd_nonneg {r : ℝ} (h : 0 ≤ r) : 0 ≤ rd f r := by
  have := rd_mono (f := f) h
  rwa [rd_zero] at this

theorem rd_le_huge (r : ℝ) : rd f r ≤ f.huge := by
  unfold rd Fmt.huge
  have h := RK_le_max (f := f) (r * 2 ^ f.q)
  have : (RK f (r * 2 ^ f.q) : ℝ) ≤ f.maxMag + 1 := by exact_mod_cast h
  gcongr

theorem abs_rd (r : ℝ) : |rd f r| = rd f |r| := by
  rcases le_total 0 r with h | h
  · rw [abs_of_nonneg h, abs_of_nonneg (rd_nonneg h)]
  · have := rd_nonneg (f := f) (r := -r) (by linarith)
    rw [abs_of_nonpos h, rd_neg, abs_of_nonpos]
    rw [rd_neg] at this; linarith

/-- A rounded number is a multiple of every power of two that its format can resolve at that magnitude. -/
theorem rd_natCast_two_pow {k e : ℕ} (hk : k < 2 ^ f.p) (he : e + f.q ≤ f.top) : rd f (k * 2 ^ e) = k * 2 ^ e := by
  unfold rd
  have h : (k : ℝ) * 2 ^ e * 2 ^ f.q = ((k * 2 ^ (e + f.q) : ℕ) : ℝ) := by push_cast; rw [pow_add]; ring
  rw [h, RK_natCast (Fmt.rep_small hk he)]
  push_cast
  rw [pow_add]; field_simp

theorem rd_nat {k : ℕ} (hk : k < 2 ^ f.p) : rd f k = k := by
  have := rd_natCast_two_pow (f := f) (e := 0) hk (by have := f.hq; omega)
  simpa using this

theorem rd_two_pow {j : ℕ} (hj : j + f.q < f.p + f.top) : rd f (2 ^ j) = 2 ^ j := by
  unfold rd
  have h : (2 : ℝ) ^ j * 2 ^ f.q = ((2 ^ (j + f.q) : ℕ) : ℝ) := by push_cast; rw [pow_add]
  rw [h, RK_natCast (Fmt.rep_two_pow hj)]
  push_cast
  rw [pow_add]; field_simp

theorem two_pow_lt_huge {j : ℕ} (hj : j + f.q < f.p + f.top) : (2 : ℝ) ^ j < f.huge := by
  have h := (Fmt.rep_two_pow (f := f) hj).1
  unfold Fmt.huge
  rw [lt_div_iff₀ (by positivity), ← pow_add]
  have : ((2 ^ (j + f.q) : ℕ) : ℝ) ≤ f.maxMag := by exact_mod_cast h
  push_cast at this
  linarith

/-- Rounding a number below `2^j` changes it by at most half a unit in the last place of that binade. -/
theorem rd_err {r : ℝ} {j : ℕ} (h : |r| < 2 ^ j) (hj : j + f.q < f.p + f.top) : |rd f r - r| ≤ 2 ^ j / 2 ^ (f.p + 1) := by
  wlog h0 : 0 ≤ r generalizing r
  · have := this (r := -r) (by rwa [abs_neg]) (by linarith)
    rw [rd_neg] at this
    rw [abs_sub_comm]
    convert this using 2
    ring
  rw [abs_of_nonneg h0] at h
  have hx : 0 ≤ r * 2 ^ f.q := by positivity
  have hfl : ⌊r * 2 ^ f.q⌋₊ < 2 ^ (j + f.q) := by
    rw [Nat.floor_lt hx]
    push_cast
    rw [pow_add]
    gcongr
  have hpq := f.hpq
  have hexp : f.ulpExp ⌊r * 2 ^ f.q⌋₊ ≤ j + f.q - f.p := by
    unfold Fmt.ulpExp
    rcases Nat.eq_zero_or_pos ⌊r * 2 ^ f.q⌋₊ with h0 | hpos
    · rw [h0]
      have := f.hp
      simp
      omega
    · have := (Nat.log2_lt (by omega)).2 hfl
      omega
  have hmax : f.roundR (r * 2 ^ f.q) ≤ f.maxMag + 1 := by
    have h1 : f.roundR (r * 2 ^ f.q) ≤ f.roundR (((2 ^ (j + f.q) : ℕ) : ℝ)) := by
      apply Fmt.roundR_mono hx
      push_cast; rw [pow_add]; gcongr
    rw [(Fmt.rep_two_pow hj).roundR] at h1
    have := (Fmt.rep_two_pow (f := f) hj).1
    have : ((2 ^ (j + f.q) : ℕ) : ℤ) ≤ f.maxMag := by exact_mod_cast this
    omega
  have herr := Fmt.abs_roundR_sub_le (f := f) (r * 2 ^ f.q)
  unfold rd
  rw [RK_of_nonneg hx, min_eq_left hmax]
  have e : (f.roundR (r * 2 ^ f.q) : ℝ) / 2 ^ f.q - r = ((f.roundR (r * 2 ^ f.q) : ℝ) - r * 2 ^ f.q) / 2 ^ f.q := by
    field_simp
  rw [e, abs_div, abs_of_pos (by positivity : (0 : ℝ) < 2 ^ f.q), div_le_div_iff₀ (by positivity) (by positivity)]
  have h2 : (2 : ℝ) ^ f.ulpExp ⌊r * 2 ^ f.q⌋₊ ≤ 2 ^ (j + f.q - f.p) := pow_le_pow_right₀ (by norm_num) hexp
  calc _ ≤ (2 : ℝ) ^ (j + f.q - f.p) / 2 * 2 ^ (f.p + 1) := by
        gcongr; linarith
    _ = 2 ^ (j + f.q - f.p + f.p) := by rw [pow_succ, pow_add]; ring
    _ = 2 ^ (j + f.q) := by congr 1; omega
    _ = _ := by rw [pow_add]

end rd

namespace Fl
variable {f g : Fmt}

/-- The real number a finite float stands for. -/
noncomputable def num (x : Fl f) : ℝ := key x / 2 ^ f.q

theorem val_num {x : Fl f} (h : Finite x) : val x = some ((num x : ℝ) : EReal) := val_fin_key h

theorem num_lt {x y : Fl f} : num x < num y ↔ key x < key y := by
  unfold num
  rw [div_lt_div_iff_of_pos_right (by positivity)]
  exact_mod_cast Iff.rfl

theorem num_le {x y : Fl f} : num x ≤ num y ↔ key x ≤ key y := by
  unfold num
  rw [div_le_div_iff_of_pos_right (by positivity)]
  exact_mod_cast Iff.rfl

theorem num_inj {x y : Fl f} : num x = num y ↔ key x = key y := by
  rw [le_antisymm_iff, le_antisymm_iff, num_le, num_le]

theorem lt_num {x y : Fl f} (hx : isNaN x = false) (hy : isNaN y = false) : (x <ᵇ y) = decide (num x < num y) := by
  rw [Bool.eq_iff_iff, decide_eq_true_eq, num_lt]
  change lt x y = true ↔ _
  rw [lt_iff]; simp [hx, hy]

theorem le_num {x y : Fl f} (hx : isNaN x = false) (hy : isNaN y = false) : (x ≤ᵇ y) = decide (num x ≤ num y) := by
  rw [Bool.eq_iff_iff, decide_eq_true_eq, num_le]
  change le x y = true ↔ _
  rw [le_iff]; simp [hx, hy]

theorem eq_num {x y : Fl f} (hx : isNaN x = false) (hy : isNaN y = false) : (x =ᵇ y) = decide (num x = num y) := by
  rw [Bool.eq_iff_iff, decide_eq_true_eq, num_inj]
  change eq x y = true ↔ _
  rw [eq_iff]; simp [hx, hy]

theorem lt_nan_left {x y : Fl f} (h : isNaN x = true) : (x <ᵇ y) = false := by
  change lt x y = false
  simp [lt, h]

theorem lt_nan_right {x y : Fl f} (h : isNaN y = true) : (x <ᵇ y) = false := by
  change lt x y = false
  simp [lt, h]

theorem finite_of_num {x : Fl f} (hn : isNaN x = false) (h : |num x| < f.huge) : Finite x := by
  apply finite_of_key hn
  unfold num Fmt.huge at h
  rw [abs_div, abs_of_pos (by positivity : (0 : ℝ) < 2 ^ f.q), div_lt_div_iff_of_pos_right (by positivity)] at h
  have : |key x| < f.maxMag + 1 := by exact_mod_cast h
  omega

theorem finite_of_num_le {x : Fl f} (hn : isNaN x = false) {j : ℕ} (hj : j + f.q < f.p + f.top) (h : |num x| ≤ 2 ^ j) : Finite x :=
  finite_of_num hn (h.trans_lt (two_pow_lt_huge hj))

theorem abs_num_lt {x : Fl f} (h : Finite x) : |num x| < f.huge := by
  have := abs_key_le_of_finite h
  unfold num Fmt.huge
  rw [abs_div, abs_of_pos (by positivity : (0 : ℝ) < 2 ^ f.q), div_lt_div_iff_of_pos_right (by positivity)]
  have : (|key x| : ℝ) ≤ f.maxMag := by exact_mod_cast this
  linarith

theorem rd_num {x : Fl f} (h : Finite x) : rd f (num x) = num x := by
  unfold rd num
  rw [div_mul_cancel₀ _ (by positivity), RK_key x h]

theorem num_neg (x : Fl f) : num (-x) = -num x := by unfold num; rw [key_neg]; push_cast; ring

theorem num_add {x y : Fl f} (hx : Finite x) (hy : Finite y) : num (x + y) = rd f (num x + num y) := by
  unfold num rd
  rw [key_add hx hy]
  congr 3; field_simp

theorem num_sub {x y : Fl f} (hx : Finite x) (hy : Finite y) : num (x - y) = rd f (num x - num y) := by
  unfold num rd
  rw [key_sub hx hy]
  congr 3; field_simp

theorem num_mul {x y : Fl f} (hx : Finite x) (hy : Finite y) : num (x * y) = rd f (num x * num y) := by
  unfold num rd
  rw [key_mul hx hy]
  congr 3; field_simp

theorem num_div {x y : Fl f} (hx : Finite x) (hy : Finite y) (h0 : num y ≠ 0) : num (x / y) = rd f (num x / num y) := by
  have hk : key y ≠ 0 := by rintro h; apply h0; simp [num, h]
  have hk' : (key y : ℝ) ≠ 0 := by exact_mod_cast hk
  unfold num rd
  rw [key_div hx hy hk]
  congr 3; field_simp

theorem num_convert {x : Fl f} (hx : Finite x) : num (convert g x) = rd g (num x) := by
  unfold num rd
  rw [key_convert hx]
  congr 3; field_simp

theorem num_abs (x : Fl f) : num (abs x) = |num x| := by
  unfold num; rw [key_abs, abs_div, abs_of_pos (by positivity : (0 : ℝ) < 2 ^ f.q)]; push_cast; rfl

theorem num_lit {n : ℕ} (h : n < 2 ^ f.p) : num (OfNat.ofNat n : Fl f) = n := by
  have h1 := val_lit (f := f) n h
  have hf : Finite (OfNat.ofNat n : Fl f) := by
    have h2 : IsReal (OfNat.ofNat n : Fl f) := ⟨n, h1⟩
    have : (!isNaN (OfNat.ofNat n : Fl f) && !isInf (OfNat.ofNat n : Fl f)) = true := isFinite_val.2 h2
    simpa [Finite] using this
  rw [val_num hf] at h1
  exact_mod_cast Option.some.inj h1

theorem finite_lit {n : ℕ} (h : n < 2 ^ f.p) : Finite (OfNat.ofNat n : Fl f) := by
  have h2 : IsReal (OfNat.ofNat n : Fl f) := ⟨n, val_lit (f := f) n h⟩
  have : (!isNaN (OfNat.ofNat n : Fl f) && !isInf (OfNat.ofNat n : Fl f)) = true := isFinite_val.2 h2
  simpa [Finite] using this

theorem zero_lt_two_pow : 0 < 2 ^ f.p := by positivity

theorem num_zero : num (0 : Fl f) = 0 := by simpa using num_lit (f := f) (n := 0) (by positivity)
theorem num_one : num (1 : Fl f) = 1 := by simpa using num_lit (f := f) (n := 1) one_lt_two_pow
theorem finite_zero : Finite (0 : Fl f) := finite_lit (by positivity)

/-- Two numbers, not both zero, are the same if they stand for the same number. -/
theorem ext_num {x y : Fl f} (hx : Finite x) (hy : Finite y) (h : num x = num y) (h0 : num x ≠ 0) : x = y := by
  obtain ⟨a, k, hk, rfl⟩ := finite_iff.1 hx
  obtain ⟨b, l, hl, rfl⟩ := finite_iff.1 hy
  rw [num_inj] at h
  have h0' : key (fin a k hk) ≠ 0 := by rintro h; apply h0; simp [num, h]
  have : a = b ∧ k = l := by
    cases a <;> cases b <;> simp [key, sgn] at h h0' ⊢ <;> omega
  obtain ⟨rfl, rfl⟩ := this
  rfl

end Fl
end Ink
