import Verif.IEEE.Libm
import Mathlib.Algebra.Order.Archimedean.Real.Basic
import Mathlib.Algebra.Order.Floor.Semifield
import Mathlib.Tactic.Linarith
import Mathlib.Tactic.Ring
import Mathlib.Tactic.FieldSimp
import Mathlib.Tactic.Positivity
import Mathlib.Tactic.NormNum
/-!
# Rounding as a function on the reals

`RK f x` is the signed number of units nearest to `x` units (ties to even), saturated just above the largest finite
magnitude. All arithmetic operations of the model on finite operands are the exact operation followed by `RK`.
-/
namespace Ink

/-- Nearest integer, ties to even. -/
noncomputable def rne (x : ℝ) : ℤ :=
  if 1 / 2 < Int.fract x ∨ (Int.fract x = 1 / 2 ∧ ⌊x⌋ % 2 = 1) then ⌊x⌋ + 1 else ⌊x⌋

theorem floor_le_rne (x : ℝ) : ⌊x⌋ ≤ rne x := by unfold rne; split <;> omega
theorem rne_le_floor_add_one (x : ℝ) : rne x ≤ ⌊x⌋ + 1 := by unfold rne; split <;> omega

theorem le_rne {k : ℤ} {x : ℝ} (h : (k : ℝ) ≤ x) : k ≤ rne x :=
  (Int.le_floor.2 h).trans (floor_le_rne x)

theorem rne_intCast (k : ℤ) : rne (k : ℝ) = k := by
  unfold rne
  simp [Int.fract_intCast]

theorem rne_mono {x y : ℝ} (h : x ≤ y) : rne x ≤ rne y := by
  rcases lt_or_eq_of_le (Int.floor_le_floor h) with h1 | h1
  · have := rne_le_floor_add_one x
    have := floor_le_rne y
    omega
  · have hf : Int.fract x ≤ Int.fract y := by
      have hx := Int.self_sub_floor x
      have hy := Int.self_sub_floor y
      rw [← hx, ← hy, h1]; linarith
    unfold rne
    rw [h1]
    split
    · rename_i hc
      rw [if_pos]
      rcases hc with hc | ⟨hc, hc'⟩
      · left; linarith
      · rcases lt_or_eq_of_le hf with h2 | h2
        · left; linarith
        · right; exact ⟨by linarith, hc'⟩
    · split <;> omega

theorem rne_le {k : ℤ} {x : ℝ} (h : x ≤ k) : rne x ≤ k := by
  have := rne_mono h
  rwa [rne_intCast] at this

theorem abs_rne_sub_le (x : ℝ) : |(rne x : ℝ) - x| ≤ 1 / 2 := by
  have h1 := Int.self_sub_floor x
  have h2 := Int.fract_lt_one x
  have h3 := Int.fract_nonneg x
  rw [abs_le]
  unfold rne
  split
  · rename_i hc
    push_cast
    rcases hc with hc | ⟨hc, _⟩ <;> constructor <;> linarith
  · rename_i hc
    simp only [not_or, not_lt] at hc
    constructor <;> linarith [hc.1]

theorem rne_neg (x : ℝ) : rne (-x) = -rne x := by
  by_cases h0 : Int.fract x = 0
  · have hx : x = (⌊x⌋ : ℝ) := by have := Int.self_sub_floor x; linarith
    rw [hx, ← Int.cast_neg, rne_intCast, rne_intCast]
  · have hf := Int.fract_neg h0
    have hfl : ⌊-x⌋ = -⌊x⌋ - 1 := by
      have h1 := Int.self_sub_floor x
      have h2 := Int.self_sub_floor (-x)
      rw [hf] at h2
      have : (⌊-x⌋ : ℝ) = ((-⌊x⌋ - 1 : ℤ) : ℝ) := by push_cast; linarith
      exact_mod_cast this
    unfold rne
    rw [hf, hfl]
    have e1 : (1 / 2 < 1 - Int.fract x) ↔ Int.fract x < 1 / 2 := by constructor <;> intro <;> linarith
    have e2 : (1 - Int.fract x = 1 / 2) ↔ Int.fract x = 1 / 2 := by constructor <;> intro <;> linarith
    simp only [e1, e2]
    rcases lt_trichotomy (Int.fract x) (1 / 2) with h | h | h
    · have h' : ¬ (1 / 2 < Int.fract x) := by linarith
      have h'' : Int.fract x ≠ 1 / 2 := by linarith
      rw [if_pos (Or.inl h), if_neg (by simp only [h', h'', false_and, or_self, not_false_eq_true])]
      ring
    · simp only [h, lt_irrefl, true_and, false_or]
      split <;> split <;> omega
    · have h' : ¬ (Int.fract x < 1 / 2) := by linarith
      have h'' : Int.fract x ≠ 1 / 2 := by linarith
      rw [if_pos (Or.inl h), if_neg (by simp only [h', h'', false_and, or_self, not_false_eq_true])]
      ring

theorem rne_natDiv (num den : ℕ) (hd : 0 < den) : rne ((num : ℝ) / den) = (Fmt.roundDiv num den : ℤ) := by
  have hd' : (0 : ℝ) < den := by exact_mod_cast hd
  have hfl : ⌊(num : ℝ) / den⌋ = ((num / den : ℕ) : ℤ) := by
    rw [← Nat.floor_div_eq_div (K := ℝ), Int.natCast_floor_eq_floor (by positivity)]
  have hdm : (den : ℝ) * ((num / den : ℕ) : ℝ) + ((num % den : ℕ) : ℝ) = num := by
    exact_mod_cast Nat.div_add_mod num den
  have hfr : Int.fract ((num : ℝ) / den) = ((num % den : ℕ) : ℝ) / den := by
    rw [← Int.self_sub_floor, hfl, Int.cast_natCast]
    field_simp
    linarith
  unfold rne Fmt.roundDiv
  rw [hfl, hfr]
  have e1 : (1 / 2 < ((num % den : ℕ) : ℝ) / den) ↔ den < 2 * (num % den) := by
    rw [lt_div_iff₀ hd']
    constructor
    · intro h; have : (den : ℝ) < 2 * ((num % den : ℕ) : ℝ) := by linarith
      exact_mod_cast this
    · intro h; have : (den : ℝ) < 2 * ((num % den : ℕ) : ℝ) := by exact_mod_cast h
      linarith
  have e2 : (((num % den : ℕ) : ℝ) / den = 1 / 2) ↔ 2 * (num % den) = den := by
    rw [div_eq_iff hd'.ne']
    constructor
    · intro h; have : 2 * ((num % den : ℕ) : ℝ) = den := by linarith
      exact_mod_cast this
    · intro h; have : 2 * ((num % den : ℕ) : ℝ) = den := by exact_mod_cast h
      linarith
  have e3 : (((num / den : ℕ) : ℤ) % 2 = 1) ↔ num / den % 2 = 1 := by omega
  simp only [e1, e2, e3]
  split <;> simp

namespace Fmt
variable (f : Fmt)

/-- The nonnegative `x` units rounded to the precision of the format, ignoring overflow. -/
noncomputable def roundR (x : ℝ) : ℤ := rne (x / 2 ^ f.ulpExp ⌊x⌋₊) * 2 ^ f.ulpExp ⌊x⌋₊

theorem roundMag_eq (num den : ℕ) (hd : 0 < den) : (f.roundMag num den : ℤ) = f.roundR ((num : ℝ) / den) := by
  unfold roundR roundMag
  rw [Nat.floor_div_eq_div (K := ℝ)]
  have : (num : ℝ) / den / 2 ^ f.ulpExp (num / den) = (num : ℝ) / ((den * 2 ^ f.ulpExp (num / den) : ℕ) : ℝ) := by
    push_cast; rw [div_div]
  rw [this, rne_natDiv _ _ (by positivity)]
  push_cast; rfl

variable {f}

theorem ulpExp_mono {m n : ℕ} (h : m ≤ n) : f.ulpExp m ≤ f.ulpExp n := by
  unfold ulpExp
  have : m.log2 ≤ n.log2 := by
    rcases Nat.eq_zero_or_pos m with rfl | hm
    · simp
    · have hn : n ≠ 0 := by omega
      rw [Nat.le_log2 hn]
      exact (Nat.log2_self_le (by omega)).trans h
  omega

theorem lt_two_pow_ulpExp (n : ℕ) : n < 2 ^ (f.p + f.ulpExp n) := by
  refine Nat.lt_of_lt_of_le (log2_lt_pow n) (Nat.pow_le_pow_right (by decide) ?_)
  unfold ulpExp; omega

theorem lt_two_pow_ulpExp_real {x : ℝ} : x < 2 ^ (f.p + f.ulpExp ⌊x⌋₊) := by
  have h1 := Nat.lt_floor_add_one x
  have h2 := lt_two_pow_ulpExp (f := f) ⌊x⌋₊
  have h3 : ((⌊x⌋₊ + 1 : ℕ) : ℝ) ≤ ((2 ^ (f.p + f.ulpExp ⌊x⌋₊) : ℕ) : ℝ) := by exact_mod_cast h2
  push_cast at h3
  linarith

theorem two_pow_ulpExp_le {n : ℕ} (h : 0 < f.ulpExp n) : 2 ^ (f.p - 1 + f.ulpExp n) ≤ n := by
  unfold ulpExp at h ⊢
  have hn : n ≠ 0 := by
    rintro rfl
    have := f.hp
    simp at h
    omega
  have : f.p - 1 + (n.log2 + 1 - f.p) = n.log2 := by have := f.hp; omega
  rw [this]
  exact Nat.log2_self_le hn

theorem roundR_mono {x y : ℝ} (hx : 0 ≤ x) (h : x ≤ y) : f.roundR x ≤ f.roundR y := by
  have hfl : ⌊x⌋₊ ≤ ⌊y⌋₊ := Nat.floor_le_floor h
  rcases Nat.eq_or_lt_of_le (ulpExp_mono (f := f) hfl) with he | he
  · unfold roundR
    rw [he]
    have : rne (x / 2 ^ f.ulpExp ⌊y⌋₊) ≤ rne (y / 2 ^ f.ulpExp ⌊y⌋₊) := rne_mono (by gcongr)
    gcongr
  · have h1 : f.roundR x ≤ 2 ^ (f.p + f.ulpExp ⌊x⌋₊) := by
      unfold roundR
      rw [pow_add]
      gcongr
      apply rne_le
      push_cast
      rw [div_le_iff₀ (by positivity), ← pow_add]
      exact lt_two_pow_ulpExp_real.le
    have h2 : (2 : ℤ) ^ (f.p - 1 + f.ulpExp ⌊y⌋₊) ≤ f.roundR y := by
      unfold roundR
      rw [pow_add]
      gcongr
      apply le_rne
      push_cast
      rw [le_div_iff₀ (by positivity), ← pow_add]
      have := two_pow_ulpExp_le (f := f) (n := ⌊y⌋₊) (by omega)
      have h' : ((2 ^ (f.p - 1 + f.ulpExp ⌊y⌋₊) : ℕ) : ℝ) ≤ (⌊y⌋₊ : ℝ) := by exact_mod_cast this
      push_cast at h'
      exact h'.trans (Nat.floor_le (hx.trans h))
    refine h1.trans (le_trans ?_ h2)
    apply pow_le_pow_right₀ (by norm_num)
    have := f.hp
    omega

theorem roundR_of_rep {k : ℕ} (h : 2 ^ f.ulpExp k ∣ k) : f.roundR (k : ℝ) = k := by
  unfold roundR
  rw [Nat.floor_natCast]
  obtain ⟨c, hc⟩ := h
  generalize f.ulpExp k = e at hc
  have : (k : ℝ) / 2 ^ e = ((c : ℤ) : ℝ) := by
    rw [hc]; push_cast; field_simp
  rw [this, rne_intCast, hc]
  push_cast; ring

theorem roundR_zero : f.roundR 0 = 0 := by
  have := roundR_of_rep (f := f) (k := 0) (by simp)
  simpa using this

theorem roundR_nonneg {x : ℝ} (h : 0 ≤ x) : 0 ≤ f.roundR x := by
  have := roundR_mono (f := f) le_rfl h
  rwa [roundR_zero] at this

/-- The rounding error is at most half a unit in the last place. -/
theorem abs_roundR_sub_le (x : ℝ) : |(f.roundR x : ℝ) - x| ≤ 2 ^ f.ulpExp ⌊x⌋₊ / 2 := by
  unfold roundR
  generalize f.ulpExp ⌊x⌋₊ = e
  have h := abs_rne_sub_le (x / 2 ^ e)
  have h2 : ((rne (x / 2 ^ e) * 2 ^ e : ℤ) : ℝ) - x = ((rne (x / 2 ^ e) : ℝ) - x / 2 ^ e) * 2 ^ e := by
    push_cast; field_simp
  rw [h2, abs_mul, abs_of_pos (by positivity : (0 : ℝ) < 2 ^ e)]
  have : (0 : ℝ) < 2 ^ e := by positivity
  nlinarith

theorem rep_zero : f.Rep 0 := by simp [Rep]

theorem Rep.roundR {k : ℕ} (h : f.Rep k) : f.roundR (k : ℝ) = k := roundR_of_rep h.2

/-- Powers of two in range are representable. -/
theorem rep_two_pow {n : ℕ} (h : n < f.p + f.top) : f.Rep (2 ^ n) := by
  refine ⟨?_, ?_⟩
  · unfold maxMag
    have h1 : 2 ^ n ≤ 2 ^ (f.p - 1 + f.top) := Nat.pow_le_pow_right (by decide) (by have := f.hp; omega)
    rw [pow_add] at h1
    refine h1.trans (Nat.mul_le_mul_right _ ?_)
    have : 2 ^ f.p = 2 * 2 ^ (f.p - 1) := by
      rw [← pow_succ']; congr 1; have := f.hp; omega
    have := Nat.two_pow_pos (f.p - 1)
    omega
  · unfold ulpExp
    rw [Nat.log2_two_pow]
    exact Nat.pow_dvd_pow 2 (by have := f.hp; omega)

/-- Magnitudes below `2^p` are representable. -/
theorem rep_small {k e : ℕ} (hk : k < 2 ^ f.p) (he : e ≤ f.top) : f.Rep (k * 2 ^ e) := by
  refine ⟨?_, ?_⟩
  · unfold maxMag
    exact Nat.mul_le_mul (by omega) (Nat.pow_le_pow_right (by decide) he)
  · refine Nat.dvd_trans (Nat.pow_dvd_pow 2 ?_) (Nat.dvd_mul_left _ _)
    unfold ulpExp
    rcases Nat.eq_zero_or_pos k with rfl | hpos
    · simp; have := f.hp; omega
    · have hne : k * 2 ^ e ≠ 0 := (Nat.mul_pos hpos (Nat.two_pow_pos e)).ne'
      have : k * 2 ^ e < 2 ^ (f.p + e) := by
        rw [Nat.pow_add]
        exact Nat.mul_lt_mul_of_pos_right hk (Nat.two_pow_pos e)
      have := (Nat.log2_lt hne).2 this
      omega

end Fmt

/-- The nearest signed number of units, saturated at `± (maxMag + 1)`. -/
noncomputable def RK (f : Fmt) (x : ℝ) : ℤ :=
  if x < 0 then -min (f.roundR (-x)) (f.maxMag + 1) else min (f.roundR x) (f.maxMag + 1)

section RK
variable {f : Fmt}

theorem RK_of_nonneg {x : ℝ} (h : 0 ≤ x) : RK f x = min (f.roundR x) (f.maxMag + 1) := if_neg (not_lt.2 h)

theorem RK_zero : RK f 0 = 0 := by
  rw [RK_of_nonneg le_rfl, Fmt.roundR_zero]
  have : (0 : ℤ) ≤ f.maxMag := by positivity
  omega

theorem RK_neg (x : ℝ) : RK f (-x) = -RK f x := by
  rcases lt_trichotomy x 0 with h | h | h
  · rw [RK_of_nonneg (by linarith), RK, if_pos h, neg_neg]
  · rw [h, neg_zero, RK_zero, neg_zero]
  · rw [RK_of_nonneg h.le, RK, if_pos (by linarith), neg_neg]

theorem RK_nonneg {x : ℝ} (h : 0 ≤ x) : 0 ≤ RK f x := by
  rw [RK_of_nonneg h]
  have := Fmt.roundR_nonneg (f := f) h
  have : (0 : ℤ) ≤ f.maxMag := by positivity
  omega

theorem RK_nonpos {x : ℝ} (h : x ≤ 0) : RK f x ≤ 0 := by
  have := RK_nonneg (f := f) (x := -x) (by linarith)
  rw [RK_neg] at this
  omega

theorem RK_mono {x y : ℝ} (h : x ≤ y) : RK f x ≤ RK f y := by
  rcases le_or_gt 0 x with hx | hx
  · rw [RK_of_nonneg hx, RK_of_nonneg (hx.trans h)]
    have := Fmt.roundR_mono (f := f) hx h
    omega
  · rcases le_or_gt 0 y with hy | hy
    · exact (RK_nonpos hx.le).trans (RK_nonneg hy)
    · rw [← neg_le_neg_iff, ← RK_neg, ← RK_neg, RK_of_nonneg (by linarith), RK_of_nonneg (by linarith)]
      have := Fmt.roundR_mono (f := f) (x := -y) (y := -x) (by linarith) (by linarith)
      omega

theorem RK_le_max (x : ℝ) : RK f x ≤ f.maxMag + 1 := by
  unfold RK
  split
  · rename_i h
    have := Fmt.roundR_nonneg (f := f) (x := -x) (by linarith)
    have : (0 : ℤ) ≤ f.maxMag := by positivity
    omega
  · omega

theorem RK_ge_min (x : ℝ) : -(f.maxMag + 1 : ℤ) ≤ RK f x := by
  have := RK_le_max (f := f) (-x)
  rw [RK_neg] at this
  omega

theorem RK_natCast {k : ℕ} (h : f.Rep k) : RK f (k : ℝ) = k := by
  rw [RK_of_nonneg (by positivity), h.roundR]
  have := h.1
  omega

end RK

namespace Fl
variable {f g : Fmt}

theorem key_mk' (neg : Bool) (num den : ℕ) (hd : 0 < den) :
    key (mk' f neg num den) = RK f (if neg then -((num : ℝ) / den) else (num : ℝ) / den) := by
  have h0 : (0 : ℝ) ≤ (num : ℝ) / den := by positivity
  have hmain : key (mk' f neg num den) = sgn neg (min (f.roundMag num den) (f.maxMag + 1)) := by
    unfold mk'
    split
    · rename_i h
      simp only [key]
      rw [Nat.min_eq_left (by omega)]
    · rename_i h
      simp only [key]
      rw [Nat.min_eq_right (by omega)]
  have hm := Fmt.roundMag_eq f num den hd
  rw [hmain]
  cases neg
  · simp only [sgn, Bool.false_eq_true, ↓reduceIte]
    rw [RK_of_nonneg h0, ← hm]
    push_cast; rfl
  · simp only [sgn, ↓reduceIte]
    rw [RK_neg, RK_of_nonneg h0, ← hm]
    push_cast; rfl

theorem mk'_not_nan (neg : Bool) (num den : ℕ) : isNaN (mk' f neg num den) = false := by
  unfold mk'; split <;> rfl

theorem ofUnits_not_nan (zn : Bool) (z : ℤ) (den : ℕ) : isNaN (ofUnits f zn z den) = false := mk'_not_nan _ _ _

theorem key_ofUnits (zn : Bool) (z : ℤ) (den : ℕ) (hd : 0 < den) :
    key (ofUnits f zn z den) = RK f ((z : ℝ) / den) := by
  unfold ofUnits
  rw [key_mk' _ _ _ hd]
  rcases lt_trichotomy z 0 with h | h | h
  · have e : ((z.natAbs : ℕ) : ℝ) = -(z : ℝ) := by
      have : ((z.natAbs : ℕ) : ℤ) = -z := by omega
      rw [← Int.cast_natCast, this, Int.cast_neg]
    simp only [h.ne, ↓reduceIte, h, decide_true]
    rw [e]; congr 1; ring
  · subst h; simp
  · have e : ((z.natAbs : ℕ) : ℝ) = (z : ℝ) := by
      have : ((z.natAbs : ℕ) : ℤ) = z := by omega
      rw [← Int.cast_natCast, this]
    have h' : ¬ (z < 0) := by omega
    simp [h.ne', h', e]

/-- The value of a number in units; only meaningful for finite numbers. -/
noncomputable abbrev rkey (x : Fl f) : ℝ := (key x : ℝ)

theorem key_fin_real (neg : Bool) (k : ℕ) (h : f.Rep k) :
    ((key (fin neg k h) : ℤ) : ℝ) = if neg then -(k : ℝ) else (k : ℝ) := by
  cases neg <;> simp [key, sgn]

theorem finite_fin (neg : Bool) (k : ℕ) (h : f.Rep k) : Finite (fin neg k h) := ⟨rfl, rfl⟩

theorem finite_iff {x : Fl f} : Finite x ↔ ∃ neg k h, x = fin neg k h := by
  cases x with
  | fin a k h => simp [Finite, isNaN, isInf, h]
  | _ => simp [Finite, isNaN, isInf]

theorem abs_key_le_of_finite {x : Fl f} (h : Finite x) : |key x| ≤ f.maxMag := by
  obtain ⟨neg, k, hk, rfl⟩ := finite_iff.1 h
  have := hk.1
  cases neg <;> simp [key, sgn] <;> omega

theorem finite_of_key {x : Fl f} (hn : isNaN x = false) (h : |key x| ≤ f.maxMag) : Finite x := by
  cases x with
  | nan => simp [isNaN] at hn
  | inf a => cases a <;> simp [key, sgn, abs_le] at h
  | fin neg k hk => exact ⟨rfl, rfl⟩

theorem RK_key (x : Fl f) (h : Finite x) : RK f (key x : ℝ) = key x := by
  obtain ⟨neg, k, hk, rfl⟩ := finite_iff.1 h
  rw [key_fin_real]
  cases neg
  · simp [key, sgn, RK_natCast hk]
  · simp [key, sgn, RK_neg, RK_natCast hk]

theorem key_add {x y : Fl f} (hx : Finite x) (hy : Finite y) : key (x + y) = RK f (key x + key y : ℝ) := by
  obtain ⟨a, k, hk, rfl⟩ := finite_iff.1 hx
  obtain ⟨b, l, hl, rfl⟩ := finite_iff.1 hy
  change key (ofUnits f (a && b) (sgn a k + sgn b l) 1) = _
  rw [key_ofUnits _ _ _ one_pos]
  simp [key]

theorem add_not_nan {x y : Fl f} (hx : Finite x) (hy : Finite y) : isNaN (x + y) = false := by
  obtain ⟨a, k, hk, rfl⟩ := finite_iff.1 hx
  obtain ⟨b, l, hl, rfl⟩ := finite_iff.1 hy
  exact ofUnits_not_nan _ _ _

theorem key_neg (x : Fl f) : key (-x) = -key x := by
  cases x with
  | nan => rfl
  | inf a => change sgn (!a) _ = - sgn a _; cases a <;> simp [sgn]
  | fin a k h => change sgn (!a) _ = - sgn a _; cases a <;> simp [sgn]

theorem neg_isNaN (x : Fl f) : isNaN (-x) = isNaN x := by cases x <;> rfl
theorem neg_isInf (x : Fl f) : isInf (-x) = isInf x := by cases x <;> rfl

theorem Finite.neg {x : Fl f} (h : Finite x) : Finite (-x) := by
  unfold Finite at *
  rwa [neg_isNaN, neg_isInf]

theorem sub_eq (x y : Fl f) : x - y = x + -y := rfl

theorem key_sub {x y : Fl f} (hx : Finite x) (hy : Finite y) : key (x - y) = RK f (key x - key y : ℝ) := by
  rw [sub_eq, key_add hx hy.neg, key_neg]
  push_cast; rw [← sub_eq_add_neg]

theorem sub_not_nan {x y : Fl f} (hx : Finite x) (hy : Finite y) : isNaN (x - y) = false :=
  add_not_nan hx hy.neg

theorem key_mul {x y : Fl f} (hx : Finite x) (hy : Finite y) :
    key (x * y) = RK f (key x * key y / 2 ^ f.q : ℝ) := by
  obtain ⟨a, k, hk, rfl⟩ := finite_iff.1 hx
  obtain ⟨b, l, hl, rfl⟩ := finite_iff.1 hy
  change key (mk' f (a != b) (k * l) (2 ^ f.q)) = _
  rw [key_mk' _ _ _ (by positivity), key_fin_real, key_fin_real]
  congr 1
  cases a <;> cases b <;> push_cast <;> simp <;> ring

theorem mul_not_nan {x y : Fl f} (hx : Finite x) (hy : Finite y) : isNaN (x * y) = false := by
  obtain ⟨a, k, hk, rfl⟩ := finite_iff.1 hx
  obtain ⟨b, l, hl, rfl⟩ := finite_iff.1 hy
  exact mk'_not_nan _ _ _

theorem key_div {x y : Fl f} (hx : Finite x) (hy : Finite y) (h0 : key y ≠ 0) :
    key (x / y) = RK f (key x * 2 ^ f.q / key y : ℝ) := by
  obtain ⟨a, k, hk, rfl⟩ := finite_iff.1 hx
  obtain ⟨b, l, hl, rfl⟩ := finite_iff.1 hy
  have hl0 : l ≠ 0 := by
    rintro rfl
    cases b <;> simp [key, sgn] at h0
  change key (if l = 0 then (if k = 0 then nan else inf (a != b)) else mk' f (a != b) (k * 2 ^ f.q) l) = _
  rw [if_neg hl0, key_mk' _ _ _ (by omega), key_fin_real, key_fin_real]
  congr 1
  cases a <;> cases b <;> push_cast <;> simp [div_neg] <;> ring

theorem div_not_nan {x y : Fl f} (hx : Finite x) (hy : Finite y) (h0 : key y ≠ 0) : isNaN (x / y) = false := by
  obtain ⟨a, k, hk, rfl⟩ := finite_iff.1 hx
  obtain ⟨b, l, hl, rfl⟩ := finite_iff.1 hy
  have hl0 : l ≠ 0 := by
    rintro rfl
    cases b <;> simp [key, sgn] at h0
  change isNaN (if l = 0 then (if k = 0 then nan else inf (a != b)) else mk' f (a != b) (k * 2 ^ f.q) l) = _
  rw [if_neg hl0]
  exact mk'_not_nan _ _ _

theorem key_convert {x : Fl f} (hx : Finite x) :
    key (convert g x) = RK g (key x * 2 ^ g.q / 2 ^ f.q : ℝ) := by
  obtain ⟨a, k, hk, rfl⟩ := finite_iff.1 hx
  change key (mk' g a (k * 2 ^ g.q) (2 ^ f.q)) = _
  rw [key_mk' _ _ _ (by positivity), key_fin_real]
  congr 1
  cases a <;> push_cast <;> simp; ring

theorem convert_isNaN (x : Fl f) : isNaN (convert g x) = isNaN x := by
  cases x with
  | fin a k h => exact mk'_not_nan _ _ _
  | _ => rfl

theorem key_abs (x : Fl f) : key (abs x) = |key x| := by
  cases x with
  | nan => rfl
  | inf a =>
    have : (0 : ℤ) ≤ f.maxMag + 1 := by omega
    cases a
    · simp only [abs, key, sgn]
      push_cast
      rw [abs_of_nonneg this]
    · simp only [abs, key, sgn]
      push_cast
      rw [abs_neg, abs_of_nonneg this]
  | fin a k h => cases a <;> simp [key, sgn, abs]

theorem abs_isNaN (x : Fl f) : isNaN (abs x) = isNaN x := by cases x <;> rfl

theorem Finite.abs {x : Fl f} (h : Finite x) : Finite (abs x) := by
  obtain ⟨neg, k, hk, rfl⟩ := finite_iff.1 h
  exact finite_fin _ _ _

theorem le_iff {x y : Fl f} : le x y = true ↔ isNaN x = false ∧ isNaN y = false ∧ key x ≤ key y := by
  simp [le, and_assoc]
theorem lt_iff {x y : Fl f} : lt x y = true ↔ isNaN x = false ∧ isNaN y = false ∧ key x < key y := by
  simp [lt, and_assoc]
theorem eq_iff {x y : Fl f} : eq x y = true ↔ isNaN x = false ∧ isNaN y = false ∧ key x = key y := by
  simp [eq, and_assoc]

/-- Every number's key is representable in magnitude or the overflow marker. -/
theorem key_bounds (x : Fl f) : -(f.maxMag + 1 : ℤ) ≤ key x ∧ key x ≤ f.maxMag + 1 := by
  cases x with
  | nan => simp [key]; omega
  | inf a => cases a <;> simp [key, sgn] <;> omega
  | fin a k h => have := h.1; cases a <;> simp [key, sgn] <;> omega

end Fl
end Ink
