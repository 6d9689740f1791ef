import Verif.IEEE.Basic
/-!
# The C math library, and the arithmetic of the code on IEEE floats

`std::hypot(float, float)` and `std::acos(float)` are not specified bit by bit by C or IEEE. `Libm` records what the
theorems on IEEE floats rely on; they hold for every `Libm`. `Libm.reference` is one that meets the record: its
`hypot` is correctly rounded, its `acos` is a straight line through the right end points and only serves to show that
the record can be met.
-/
namespace Ink
open Scalar

namespace Fl
variable {f : Fmt}

/-- neither NaN nor infinite -/
def Finite (x : Fl f) : Prop := isNaN x = false ∧ isInf x = false

instance (x : Fl f) : Decidable (Finite x) := inferInstanceAs (Decidable (_ ∧ _))

end Fl

/-- What is assumed of the C math library on floats. -/
class Libm where
  hypot : Fl f32 → Fl f32 → Fl f32
  acos : Fl f32 → Fl f32
  /-- on finite arguments the result is at least the larger magnitude, in particular not NaN -/
  hypot_ge : ∀ x y, x.Finite → y.Finite →
    Fl.le (Fl.abs x) (hypot x y) = true ∧ Fl.le (Fl.abs y) (hypot x y) = true
  /-- the arc cosine of a number in [-1, 1] lies in [0, π] where π is rounded to float -/
  acos_range : ∀ x, Fl.le (-(1 : Fl f32)) x = true → Fl.le x 1 = true →
    Fl.le 0 (acos x) = true ∧ Fl.le (acos x) (ofRatio 13176795 4194304) = true

/-- `std::hypot(float, float)`: the special cases are those of C (ISO/IEC 9899 F.10.4.3), "hypot(x, ±0) is equivalent
to fabs(x); hypot(±∞, y) returns +∞, even if y is a NaN"; otherwise the library decides. -/
def Fl.hypot [Libm] : Fl f32 → Fl f32 → Fl f32
  | inf _, _ => inf false
  | _, inf _ => inf false
  | nan, _ => nan
  | _, nan => nan
  | fin a k hk, fin b l hl =>
    if l = 0 then fin false k hk
    else if k = 0 then fin false l hl
    else Libm.hypot (fin a k hk) (fin b l hl)

instance [Libm] : Arith (Fl f32) (Fl f64) where
  widen := Fl.convert f64
  narrow := Fl.convert f32
  hypot := Fl.hypot
  acos := Libm.acos
  inf := .inf false
  maxFinite := .fin false f32.maxMag (by decide +kernel)
  pi := ofRatio 884279719003555 281474976710656

end Ink
