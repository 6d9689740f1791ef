import Verif.IEEE.Round
import Mathlib.Data.EReal.Basic
/-!
# The numbers floats stand for

`Fl.val` reads a float as an extended real number; NaN stands for none. Comparisons are those of the extended reals.
-/
namespace Ink
open Scalar

namespace Fl
variable {f : Fmt}

/-- The extended real number a float stands for, if it is not NaN. -/
noncomputable def val : Fl f → Option EReal
  | nan => none
  | inf neg => some (if neg then ⊥ else ⊤)
  | fin neg k _ => some (((sgn neg k : ℝ) / 2 ^ f.q : ℝ) : EReal)

/-- Both stand for a number, that of `x` being the smaller one. -/
def Less (x y : Fl f) : Prop := ∃ a b, val x = some a ∧ val y = some b ∧ a < b

/-- Both stand for a number, that of `x` being at most that of `y`. -/
def AtMost (x y : Fl f) : Prop := ∃ a b, val x = some a ∧ val y = some b ∧ a ≤ b

/-- Both stand for the same number. -/
def Same (x y : Fl f) : Prop := ∃ a, val x = some a ∧ val y = some a

/-- It stands for a real number. -/
def IsReal (x : Fl f) : Prop := ∃ r : ℝ, val x = some (r : EReal)

/-- It stands for a positive real number. -/
def IsPos (x : Fl f) : Prop := ∃ r : ℝ, val x = some (r : EReal) ∧ 0 < r

/-- It stands for a real number that is not negative. -/
def IsNonneg (x : Fl f) : Prop := ∃ r : ℝ, val x = some (r : EReal) ∧ 0 ≤ r

theorem val_isNaN (x : Fl f) : val x = none ↔ isNaN x = true := by cases x <;> simp [val, isNaN]

/-- The order of the keys is that of the numbers. -/
theorem val_lt {x y : Fl f} {a b : EReal} (hx : val x = some a) (hy : val y = some b) : a < b ↔ key x < key y := by
  have hq : (0 : ℝ) < 2 ^ f.q := by positivity
  have hb : ∀ (c : Bool) (k : ℕ), f.Rep k → -(f.maxMag : ℤ) ≤ sgn c k ∧ sgn c k ≤ f.maxMag := by
    intro c k hk
    have := hk.1
    cases c <;> simp [sgn] <;> omega
  cases x with
  | nan => simp [val] at hx
  | inf c =>
    cases y with
    | nan => simp [val] at hy
    | inf d =>
      simp only [val, Option.some.injEq] at hx hy
      subst hx hy
      cases c <;> cases d <;> simp [key, sgn] <;> omega
    | fin d l hl =>
      simp only [val, Option.some.injEq] at hx hy
      subst hx hy
      have := hb d l hl
      cases c <;> simp [key, sgn] at this ⊢ <;> omega
  | fin c k hk =>
    cases y with
    | nan => simp [val] at hy
    | inf d =>
      simp only [val, Option.some.injEq] at hx hy
      subst hx hy
      have := hb c k hk
      cases d <;> simp [key, sgn] at this ⊢ <;> omega
    | fin d l hl =>
      simp only [val, Option.some.injEq] at hx hy
      subst hx hy
      rw [EReal.coe_lt_coe_iff, div_lt_div_iff_of_pos_right hq]
      simp [key]

theorem val_inj {x y : Fl f} {a b : EReal} (hx : val x = some a) (hy : val y = some b) : a = b ↔ key x = key y := by
  have h1 := val_lt hx hy
  have h2 := val_lt hy hx
  rw [eq_iff_le_not_lt, ← not_lt, h1, h2]
  omega

private theorem val_some {x : Fl f} (h : isNaN x = false) : ∃ a, val x = some a := by
  cases x <;> simp [val, isNaN] at h ⊢

private theorem val_not_nan {x : Fl f} {a : EReal} (h : val x = some a) : isNaN x = false := by
  cases x <;> simp [val, isNaN] at h ⊢

theorem lt_val {x y : Fl f} : (x <ᵇ y) = true ↔ Less x y := by
  change lt x y = true ↔ _
  rw [lt_iff]
  constructor
  · rintro ⟨h1, h2, h3⟩
    obtain ⟨a, ha⟩ := val_some h1
    obtain ⟨b, hb⟩ := val_some h2
    exact ⟨a, b, ha, hb, (val_lt ha hb).2 h3⟩
  · rintro ⟨a, b, ha, hb, h⟩
    exact ⟨val_not_nan ha, val_not_nan hb, (val_lt ha hb).1 h⟩

theorem le_val {x y : Fl f} : (x ≤ᵇ y) = true ↔ AtMost x y := by
  change le x y = true ↔ _
  rw [le_iff]
  constructor
  · rintro ⟨h1, h2, h3⟩
    obtain ⟨a, ha⟩ := val_some h1
    obtain ⟨b, hb⟩ := val_some h2
    refine ⟨a, b, ha, hb, ?_⟩
    rw [← not_lt, val_lt hb ha]
    omega
  · rintro ⟨a, b, ha, hb, h⟩
    rw [← not_lt, val_lt hb ha] at h
    exact ⟨val_not_nan ha, val_not_nan hb, by omega⟩

theorem eq_val {x y : Fl f} : (x =ᵇ y) = true ↔ Same x y := by
  change eq x y = true ↔ _
  rw [eq_iff]
  constructor
  · rintro ⟨h1, h2, h3⟩
    obtain ⟨a, ha⟩ := val_some h1
    obtain ⟨b, hb⟩ := val_some h2
    obtain rfl := (val_inj ha hb).2 h3
    exact ⟨a, ha, hb⟩
  · rintro ⟨a, ha, hb⟩
    exact ⟨val_not_nan ha, val_not_nan hb, (val_inj ha hb).1 rfl⟩

theorem isFinite_val {x : Fl f} : isFinite x = true ↔ IsReal x := by
  have : isFinite x = (!isNaN x && !isInf x) := rfl
  rw [this]
  cases x with
  | nan => simp [val, IsReal, isNaN]
  | inf c => cases c <;> simp [val, IsReal, isInf]
  | fin c k hk => simp [val, IsReal, isNaN, isInf]

theorem val_fin_key {x : Fl f} (h : Finite x) : val x = some (((key x : ℝ) / 2 ^ f.q : ℝ) : EReal) := by
  obtain ⟨c, k, hk, rfl⟩ := finite_iff.1 h
  simp [val, key]

/-- Integers of fewer than `p` bits are represented exactly. -/
theorem val_ofInt {n : ℤ} (h : n.natAbs < 2 ^ f.p) : val (ofInt n : Fl f) = some ((n : ℝ) : EReal) := by
  have hr : f.Rep (n.natAbs * 2 ^ f.q) := Fmt.rep_small h f.hq
  have hk : key (ofInt n : Fl f) = n * 2 ^ f.q := by
    change key (ofUnits f false (n * (2 ^ f.q : ℕ)) 1) = _
    rw [key_ofUnits _ _ _ one_pos]
    rcases le_total 0 n with h0 | h0
    · have : ((n * (2 ^ f.q : ℕ) : ℤ) : ℝ) / (1 : ℕ) = ((n.natAbs * 2 ^ f.q : ℕ) : ℝ) := by
        have : (n : ℝ) = (n.natAbs : ℝ) := by
          rw [← Int.cast_natCast, Int.natAbs_of_nonneg h0]
        push_cast
        rw [this]; simp
      rw [this, RK_natCast hr]
      push_cast
      rw [abs_of_nonneg h0]
    · have : ((n * (2 ^ f.q : ℕ) : ℤ) : ℝ) / (1 : ℕ) = -((n.natAbs * 2 ^ f.q : ℕ) : ℝ) := by
        have : (n : ℝ) = -(n.natAbs : ℝ) := by
          have : ((n.natAbs : ℕ) : ℤ) = -n := by omega
          rw [← Int.cast_natCast, this]; simp
        push_cast
        rw [this]; simp
      rw [this, RK_neg, RK_natCast hr]
      push_cast
      rw [abs_of_nonpos h0]
      ring
  have hf : Finite (ofInt n : Fl f) := by
    refine finite_of_key (ofUnits_not_nan _ _ _) ?_
    rw [hk, abs_mul, abs_of_nonneg (a := (2 ^ f.q : ℤ)) (by positivity)]
    have := hr.1
    have h' : ((n.natAbs * 2 ^ f.q : ℕ) : ℤ) ≤ f.maxMag := by exact_mod_cast this
    push_cast at h'
    exact h'
  rw [val_fin_key hf, hk]
  congr 2
  push_cast
  field_simp

theorem val_lit (n : ℕ) (h : n < 2 ^ f.p) : val (OfNat.ofNat n : Fl f) = some ((n : ℝ) : EReal) := by
  have := val_ofInt (f := f) (n := n) (by simpa using h)
  rw [Int.cast_natCast] at this
  exact this

theorem val_zero : val (0 : Fl f) = some 0 := by
  have := val_lit (f := f) 0 (by positivity)
  simpa using this

theorem one_lt_two_pow : 1 < 2 ^ f.p := Nat.one_lt_two_pow (by have := f.hp; omega)

theorem val_one : val (1 : Fl f) = some 1 := by
  have := val_lit (f := f) 1 one_lt_two_pow
  simpa using this

theorem isPos_iff {x : Fl f} : IsPos x ↔ isFinite x = true ∧ (x ≤ᵇ 0) = false := by
  rw [isFinite_val, Bool.eq_false_iff, ne_eq, le_val]
  constructor
  · rintro ⟨r, hr, h0⟩
    refine ⟨⟨r, hr⟩, ?_⟩
    rintro ⟨a, b, ha, hb, h⟩
    rw [hr] at ha; rw [val_zero] at hb
    cases ha; cases hb
    exact absurd (EReal.coe_le_coe_iff.1 h) (not_le.2 h0)
  · rintro ⟨⟨r, hr⟩, h⟩
    refine ⟨r, hr, ?_⟩
    by_contra hc
    exact h ⟨r, 0, hr, val_zero, by exact_mod_cast not_lt.1 hc⟩

theorem isNonneg_iff {x : Fl f} : IsNonneg x ↔ isFinite x = true ∧ (x <ᵇ 0) = false := by
  rw [isFinite_val, Bool.eq_false_iff, ne_eq, lt_val]
  constructor
  · rintro ⟨r, hr, h0⟩
    refine ⟨⟨r, hr⟩, ?_⟩
    rintro ⟨a, b, ha, hb, h⟩
    rw [hr] at ha; rw [val_zero] at hb
    cases ha; cases hb
    exact absurd (EReal.coe_lt_coe_iff.1 h) (not_lt.2 h0)
  · rintro ⟨⟨r, hr⟩, h⟩
    refine ⟨r, hr, ?_⟩
    by_contra hc
    exact h ⟨r, 0, hr, val_zero, by exact_mod_cast not_le.1 hc⟩

/-- Unless one of them is NaN, one is less or the other at most it. -/
theorem not_less {x y : Fl f} (hx : x ≠ nan) (hy : y ≠ nan) : ¬ Less x y ↔ AtMost y x := by
  obtain ⟨a, ha⟩ := val_some (x := x) (by cases x <;> simp [isNaN] at hx ⊢)
  obtain ⟨b, hb⟩ := val_some (x := y) (by cases y <;> simp [isNaN] at hy ⊢)
  simp [Less, AtMost, ha, hb]

theorem AtMost.not_less {x y : Fl f} (h : AtMost x y) : ¬ Less y x := by
  rintro ⟨a, b, ha, hb, hab⟩
  obtain ⟨c, d, hc, hd, hcd⟩ := h
  rw [ha] at hd; rw [hb] at hc
  cases hd; cases hc
  exact absurd hab (not_lt.2 hcd)

theorem AtMost.ne_nan {x y : Fl f} (h : AtMost x y) : x ≠ nan ∧ y ≠ nan := by
  obtain ⟨c, d, hc, hd, hcd⟩ := h
  constructor <;> (rintro rfl; simp [val] at *)

end Fl
end Ink
