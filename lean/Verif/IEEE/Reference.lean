import Verif.IEEE.Round
/-!
# A math library that meets the record `Libm`

`hypot` is correctly rounded; `acos` is a straight line kept within range. It shows that `Libm` can be met and is the
arithmetic in which the concrete examples are evaluated.
-/
namespace Ink
open Scalar

/-- Digit-by-digit square root: `r` so far, `b` bits to go. -/
def isqrtGo (n : Nat) : Nat → Nat → Nat
  | 0, r => r
  | b + 1, r => if (r + 2 ^ b) * (r + 2 ^ b) ≤ n then isqrtGo n b (r + 2 ^ b) else isqrtGo n b r

/-- The integer square root. -/
def isqrt (n : Nat) : Nat := isqrtGo n (n.log2 / 2 + 1) 0

theorem isqrtGo_spec (n b r : Nat) (h₁ : r * r ≤ n) (h₂ : n < (r + 2 ^ b) * (r + 2 ^ b)) :
    isqrtGo n b r * isqrtGo n b r ≤ n ∧ n < (isqrtGo n b r + 1) * (isqrtGo n b r + 1) := by
  induction b generalizing r with
  | zero => simpa [isqrtGo] using ⟨h₁, h₂⟩
  | succ b ih =>
    unfold isqrtGo
    split
    · rename_i h
      exact ih _ h (by rw [pow_succ] at h₂; convert h₂ using 2 <;> ring)
    · rename_i h
      exact ih _ h₁ (by omega)

theorem isqrt_spec (n : Nat) : isqrt n * isqrt n ≤ n ∧ n < (isqrt n + 1) * (isqrt n + 1) := by
  apply isqrtGo_spec
  · simp
  · have h := Fmt.log2_lt_pow n
    have : n.log2 + 1 ≤ (n.log2 / 2 + 1) + (n.log2 / 2 + 1) := by omega
    rw [Nat.zero_add, ← pow_add]
    exact lt_of_lt_of_le h (Nat.pow_le_pow_right (by decide) this)

theorem le_isqrt {k n : Nat} (h : k * k ≤ n) : k ≤ isqrt n := by
  by_contra hc
  have h2 := (isqrt_spec n).2
  have : (isqrt n + 1) * (isqrt n + 1) ≤ k * k := Nat.mul_le_mul (by omega) (by omega)
  omega

theorem isqrt_sq (k : Nat) : isqrt (k * k) = k := by
  have h1 := le_isqrt (le_refl (k * k))
  have h2 := (isqrt_spec (k * k)).1
  by_contra hc
  have : (k + 1) * (k + 1) ≤ isqrt (k * k) * isqrt (k * k) := Nat.mul_le_mul (by omega) (by omega)
  have : k * k < (k + 1) * (k + 1) := Nat.mul_lt_mul_of_lt_of_lt (by omega) (by omega)
  omega

namespace Fl
variable {f : Fmt}

theorem mk'_exact (neg : Bool) {k num den : Nat} (hk : f.Rep k) (hd : 0 < den) (h : num = k * den) :
    mk' f neg num den = fin neg k hk := by
  have hm : f.roundMag num den = k := by
    have h1 := Fmt.roundMag_eq f num den hd
    have h2 : (num : ℝ) / den = k := by
      rw [h]; push_cast; field_simp
    rw [h2, hk.roundR] at h1
    exact_mod_cast h1
  unfold mk'
  have h' := hk.1
  simp only [hm, h', ↓reduceDIte]

/-- The magnitude of the hypotenuse is the square root rounded down to two binary digits below the unit, with a third
digit telling whether anything was cut off, then rounded once. -/
def hypotRef : Fl f32 → Fl f32 → Fl f32
  | inf _, _ => inf false
  | _, inf _ => inf false
  | nan, _ => nan
  | _, nan => nan
  | fin _ k _, fin _ l _ =>
    let n := 16 * (k * k + l * l)
    mk' f32 false (2 * isqrt n + (if isqrt n * isqrt n = n then 0 else 1)) 8

/-- A straight line from `acos 1 = 0` to `acos (-1) = π`, kept within [0, π]. -/
def acosRef (x : Fl f32) : Fl f32 :=
  let r := (1 - x) * ofRatio 13176795 8388608
  if le 0 r && le r (ofRatio 13176795 4194304) then r else 0

theorem hypotRef_ge (x y : Fl f32) (hx : x.Finite) (hy : y.Finite) :
    le (abs x) (hypotRef x y) = true ∧ le (abs y) (hypotRef x y) = true := by
  obtain ⟨a, k, hk, rfl⟩ := finite_iff.1 hx
  obtain ⟨b, l, hl, rfl⟩ := finite_iff.1 hy
  have key_ge : ∀ j : Nat, f32.Rep j → j * j ≤ k * k + l * l →
      (j : Int) ≤ key (hypotRef (fin a k hk) (fin b l hl)) := by
    intro j hj hle
    simp only [hypotRef]
    rw [key_mk' _ _ _ (by norm_num)]
    simp only [Bool.false_eq_true, ↓reduceIte]
    rw [← RK_natCast hj]
    apply RK_mono
    rw [le_div_iff₀ (by norm_num)]
    have h1 : 4 * j ≤ isqrt (16 * (k * k + l * l)) := le_isqrt (by nlinarith)
    have h2 : j * 8 ≤ 2 * isqrt (16 * (k * k + l * l)) +
        (if isqrt (16 * (k * k + l * l)) * isqrt (16 * (k * k + l * l)) = 16 * (k * k + l * l) then 0 else 1) := by
      omega
    exact_mod_cast h2
  have hn : isNaN (hypotRef (fin a k hk) (fin b l hl)) = false := mk'_not_nan _ _ _
  constructor
  · exact le_iff.2 ⟨rfl, hn, by simpa [abs, key, sgn] using key_ge k hk (by omega)⟩
  · exact le_iff.2 ⟨rfl, hn, by simpa [abs, key, sgn] using key_ge l hl (by omega)⟩

/-- With any library, the hypotenuse of finite sides is at least the longer side. -/
theorem hypot_ge [L : Libm] (x y : Fl f32) (hx : x.Finite) (hy : y.Finite) :
    le (abs x) (hypot x y) = true ∧ le (abs y) (hypot x y) = true := by
  have h0 := L.hypot_ge x y hx hy
  obtain ⟨a, k, hk, rfl⟩ := finite_iff.1 hx
  obtain ⟨b, l, hl, rfl⟩ := finite_iff.1 hy
  simp only [hypot]
  split
  · simp [le, abs, isNaN, key, sgn, *]
  · split
    · simp [le, abs, isNaN, key, sgn, *]
    · exact h0

end Fl

/-- The reference math library. -/
@[instance_reducible] def Libm.reference : Libm where
  hypot := Fl.hypotRef
  acos := Fl.acosRef
  hypot_ge := Fl.hypotRef_ge
  acos_range := by
    intro x _ _
    unfold Fl.acosRef
    dsimp only
    split
    · rename_i h
      exact Bool.and_eq_true_iff.1 h
    · exact ⟨by decide +kernel, by decide +kernel⟩

end Ink
