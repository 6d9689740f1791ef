import Verif.Scalar
/-!
# IEEE-754 binary32 and binary64

A computable model: round to nearest, ties to even, gradual underflow, signed zero, infinities, one NaN.
A finite number is a sign and a magnitude counted in units of the least positive subnormal number `2^-q`,
so that all arithmetic is on natural numbers.
-/
namespace Ink

/-- A binary format: `p` bits of precision, unit `2^-q`, largest finite magnitude `(2^p - 1) * 2^top` units. -/
structure Fmt where
  p : Nat
  q : Nat
  top : Nat
  hp : 2 ≤ p
  /-- integers up to `2^p` are representable -/
  hq : q ≤ top
  hpq : p ≤ q

/-- binary32 -/
def f32 : Fmt := ⟨24, 149, 253, by decide, by decide, by decide⟩
/-- binary64 -/
def f64 : Fmt := ⟨53, 1074, 2045, by decide, by decide, by decide⟩

namespace Fmt

/-- The largest finite magnitude, in units. -/
def maxMag (f : Fmt) : Nat := (2 ^ f.p - 1) * 2 ^ f.top

/-- The exponent (in units) of the last place of a magnitude of `n` units. -/
def ulpExp (f : Fmt) (n : Nat) : Nat := n.log2 + 1 - f.p

/-- `k` units is the magnitude of a number of the format. -/
def Rep (f : Fmt) (k : Nat) : Prop := k ≤ f.maxMag ∧ 2 ^ f.ulpExp k ∣ k

instance (f : Fmt) (k : Nat) : Decidable (f.Rep k) := inferInstanceAs (Decidable (_ ∧ _))

/-- `num / den` rounded to the nearest integer, ties to even. -/
def roundDiv (num den : Nat) : Nat :=
  let m := num / den
  let r := num % den
  if den < 2 * r ∨ (2 * r = den ∧ m % 2 = 1) then m + 1 else m

/-- The magnitude of precision `p` nearest to `num / den` units, ties to even, ignoring overflow. -/
def roundMag (f : Fmt) (num den : Nat) : Nat :=
  let e := f.ulpExp (num / den)
  roundDiv num (den * 2 ^ e) * 2 ^ e

theorem log2_lt_pow (n : Nat) : n < 2 ^ (n.log2 + 1) := Nat.lt_log2_self

theorem roundDiv_le {num den b : Nat} (hd : 0 < den) (h : num ≤ b * den) : roundDiv num den ≤ b := by
  unfold roundDiv
  have hle : num / den ≤ b := Nat.div_le_of_le_mul (by rwa [Nat.mul_comm])
  have hdm := Nat.div_add_mod num den
  simp only []
  split
  · rename_i hc
    rcases Nat.lt_or_ge (num / den) b with h1 | h1
    · omega
    · exfalso
      have : num / den = b := by omega
      have h2 : den * (num / den) = b * den := by rw [this, Nat.mul_comm]
      omega
  · exact hle

theorem le_roundDiv (num den : Nat) : num / den ≤ roundDiv num den := by
  unfold roundDiv
  simp only []
  split <;> omega

theorem roundMag_rep (f : Fmt) {num den : Nat} (hk : f.roundMag num den ≤ f.maxMag) :
    f.Rep (f.roundMag num den) := by
  refine ⟨hk, ?_⟩
  have hp := f.hp
  -- the quotient in the last place
  generalize hqdef : num / den = q
  have hval : f.roundMag num den = roundDiv num (den * 2 ^ f.ulpExp q) * 2 ^ f.ulpExp q := by
    simp only [roundMag, hqdef]
  generalize he : f.ulpExp q = e at hval
  have hm : num / (den * 2 ^ e) = q / 2 ^ e := by rw [← hqdef, Nat.div_div_eq_div_mul]
  have hlt : q < 2 ^ (f.p + e) := by
    have h1 := log2_lt_pow q
    refine Nat.lt_of_lt_of_le h1 (Nat.pow_le_pow_right (by decide) ?_)
    simp only [ulpExp] at he
    omega
  have hmlt : q / 2 ^ e < 2 ^ f.p := by
    rw [Nat.div_lt_iff_lt_mul (Nat.two_pow_pos e), ← Nat.pow_add]
    exact hlt
  have hrle : roundDiv num (den * 2 ^ e) ≤ 2 ^ f.p := by
    have : roundDiv num (den * 2 ^ e) ≤ num / (den * 2 ^ e) + 1 := by
      unfold roundDiv; simp only []; split <;> omega
    omega
  rw [hval]
  generalize hr : roundDiv num (den * 2 ^ e) = r at hrle
  rcases Nat.eq_or_lt_of_le hrle with h | h
  · -- carried into the next binade: a power of two
    rw [h, ← Nat.pow_add]
    simp only [ulpExp, Nat.log2_two_pow]
    exact Nat.pow_dvd_pow 2 (by omega)
  · refine Nat.dvd_trans (Nat.pow_dvd_pow 2 ?_) (Nat.dvd_mul_left _ _)
    rcases Nat.eq_zero_or_pos r with hr0 | hrpos
    · simp [hr0, ulpExp]; omega
    · have hne : r * 2 ^ e ≠ 0 := by
        have := Nat.two_pow_pos e
        have := Nat.mul_pos hrpos this
        omega
      have hlt2 : r * 2 ^ e < 2 ^ (f.p + e) := by
        rw [Nat.pow_add]
        exact Nat.mul_lt_mul_of_pos_right h (Nat.two_pow_pos e)
      have := (Nat.log2_lt hne).2 hlt2
      simp only [ulpExp]
      omega

end Fmt

/-- A floating-point number of format `f`. -/
inductive Fl (f : Fmt) where
  | nan
  | inf (neg : Bool)
  | fin (neg : Bool) (k : Nat) (h : f.Rep k)

namespace Fl
variable {f : Fmt}

instance : DecidableEq (Fl f)
  | nan, nan => isTrue rfl
  | inf a, inf b => if h : a = b then isTrue (by rw [h]) else isFalse (by simp [h])
  | fin a k _, fin b l _ =>
    if h : a = b ∧ k = l then isTrue (by obtain ⟨rfl, rfl⟩ := h; rfl)
    else isFalse (by intro e; cases e; exact h ⟨rfl, rfl⟩)
  | nan, inf _ => isFalse nofun
  | nan, fin _ _ _ => isFalse nofun
  | inf _, nan => isFalse nofun
  | inf _, fin _ _ _ => isFalse nofun
  | fin _ _ _, nan => isFalse nofun
  | fin _ _ _, inf _ => isFalse nofun

/-- The number of sign `neg` nearest to `num / den` units; infinity on overflow. Only used with `den > 0`. -/
def mk' (f : Fmt) (neg : Bool) (num den : Nat) : Fl f :=
  if h : f.roundMag num den ≤ f.maxMag then fin neg (f.roundMag num den) (f.roundMag_rep h) else inf neg

/-- The signed magnitude of a finite number as an integer number of units. -/
def sgn (neg : Bool) (k : Nat) : Int := if neg then -(k : Int) else k

/-- The number nearest to `z / den` units; `z = 0` gives a zero of the sign `zneg`. -/
def ofUnits (f : Fmt) (zneg : Bool) (z : Int) (den : Nat) : Fl f :=
  mk' f (if z = 0 then zneg else decide (z < 0)) z.natAbs den

def add : Fl f → Fl f → Fl f
  | nan, _ => nan
  | _, nan => nan
  | inf a, inf b => if a = b then inf a else nan
  | inf a, fin _ _ _ => inf a
  | fin _ _ _, inf b => inf b
  | fin a k _, fin b l _ => ofUnits f (a && b) (sgn a k + sgn b l) 1

def neg : Fl f → Fl f
  | nan => nan
  | inf a => inf (!a)
  | fin a k h => fin (!a) k h

def sub (x y : Fl f) : Fl f := add x (neg y)

def mul : Fl f → Fl f → Fl f
  | nan, _ => nan
  | _, nan => nan
  | inf a, inf b => inf (a != b)
  | inf a, fin b k _ => if k = 0 then nan else inf (a != b)
  | fin a k _, inf b => if k = 0 then nan else inf (a != b)
  | fin a k _, fin b l _ => mk' f (a != b) (k * l) (2 ^ f.q)

def div : Fl f → Fl f → Fl f
  | nan, _ => nan
  | _, nan => nan
  | inf _, inf _ => nan
  | inf a, fin b _ _ => inf (a != b)
  | fin a _ _, inf b => fin (a != b) 0 (by simp [Fmt.Rep])
  | fin a k _, fin b l _ =>
    if l = 0 then (if k = 0 then nan else inf (a != b))
    else mk' f (a != b) (k * 2 ^ f.q) l

/-- A key ordering the numbers other than NaN: infinities lie beyond all finite magnitudes. -/
def key : Fl f → Int
  | nan => 0
  | inf a => sgn a (f.maxMag + 1)
  | fin a k _ => sgn a k

def isNaN : Fl f → Bool
  | nan => true
  | _ => false

def isInf : Fl f → Bool
  | inf _ => true
  | _ => false

def lt (x y : Fl f) : Bool := !isNaN x && !isNaN y && decide (key x < key y)
def le (x y : Fl f) : Bool := !isNaN x && !isNaN y && decide (key x ≤ key y)
def eq (x y : Fl f) : Bool := !isNaN x && !isNaN y && decide (key x = key y)

def ofInt (n : Int) : Fl f := ofUnits f false (n * (2 ^ f.q : Nat)) 1

/-- The number nearest to `n / d` (`d = 0` does not occur in the source; it would give NaN). -/
def ofRatio (n : Int) (d : Nat) : Fl f :=
  if d = 0 then nan else ofUnits f false (n * (2 ^ f.q : Nat)) d

def abs : Fl f → Fl f
  | nan => nan
  | inf _ => inf false
  | fin _ k h => fin false k h

def ceil : Fl f → Fl f
  | nan => nan
  | inf a => inf a
  | fin true k _ => mk' f true (k / 2 ^ f.q * 2 ^ f.q) 1
  | fin false k _ => mk' f false ((k + (2 ^ f.q - 1)) / 2 ^ f.q * 2 ^ f.q) 1

def trunc? : Fl f → Option Int
  | nan => none
  | inf _ => none
  | fin a k _ => some (sgn a (k / 2 ^ f.q))

instance : Scalar (Fl f) where
  add := add
  sub := sub
  mul := mul
  div := div
  neg := neg
  lt := lt
  le := le
  eq := eq
  isNaN := isNaN
  isInf := isInf
  ofInt := ofInt
  ofRatio := ofRatio
  ceil := ceil
  abs := abs
  trunc? := trunc?

/-- The conversion between formats: round to nearest, overflow to infinity. -/
def convert (g : Fmt) : Fl f → Fl g
  | nan => nan
  | inf a => inf a
  | fin a k _ => mk' g a (k * 2 ^ g.q) (2 ^ f.q)

end Fl

/-- `float` -/
abbrev Float32' := Fl f32
/-- `double` -/
abbrev Float64' := Fl f64

end Ink
