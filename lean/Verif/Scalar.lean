import Verif.Outcome
/-!
# The arithmetic the code is written in

The transcription of the C++ code is generic in the number types: `F` stands for `float`, `D` for `double`.
`Scalar` lists the operations the code performs on one of them and `Arith` those connecting the two.
No laws are assumed here. There are two instances: IEEE-754 (`Verif/IEEE`) and exact extended reals
(`Verif/Exact`).
-/
namespace Ink

class Scalar (α : Type) extends Add α, Sub α, Mul α, Div α, Neg α where
  /-- C++ `<` (false when an operand is NaN) -/
  lt : α → α → Bool
  /-- C++ `<=` -/
  le : α → α → Bool
  /-- C++ `==` (so `NaN == NaN` is false and `-0 == 0` is true) -/
  eq : α → α → Bool
  isNaN : α → Bool
  isInf : α → Bool
  /-- conversion of an integer (literal, `int`, `size_t`), rounded to nearest -/
  ofInt : Int → α
  /-- the number nearest to `n / d`: used for decimal literals -/
  ofRatio : Int → Nat → α
  ceil : α → α
  abs : α → α
  /-- truncation towards zero of a finite value, `none` for NaN and infinities -/
  trunc? : α → Option Int

/-- `F` is `float`, `D` is `double`. -/
class Arith (F : Type) (D : outParam Type) where
  /-- implicit conversion `float → double` -/
  widen : F → D
  /-- conversion `double → float` -/
  narrow : D → F
  /-- `std::hypot(float, float)` -/
  hypot : F → F → F
  /-- `std::acos(float)` -/
  acos : F → F
  /-- `std::numeric_limits<float>::infinity()` -/
  inf : F
  /-- `std::numeric_limits<float>::max()` -/
  maxFinite : F
  /-- `kPi` (numbers.h:33-35), a double -/
  pi : D

@[inherit_doc] infix:50 " <ᵇ " => Scalar.lt
@[inherit_doc] infix:50 " ≤ᵇ " => Scalar.le
@[inherit_doc] infix:50 " =ᵇ " => Scalar.eq

namespace Scalar
variable {α : Type} [Scalar α]

/-- Numeric literals of the C++ source. -/
scoped instance (priority := low) instOfNat (n : Nat) : OfNat α n := ⟨Scalar.ofInt n⟩

/-- `std::isfinite` -/
def isFinite (x : α) : Bool := !isNaN x && !isInf x

/-- `std::min(a, b)` returns `b < a ? b : a`. -/
def stdMin (a b : α) : α := if b <ᵇ a then b else a

/-- `std::max(a, b)` returns `a < b ? b : a`. -/
def stdMax (a b : α) : α := if a <ᵇ b then b else a

/-- `std::clamp(v, lo, hi)` returns `v < lo ? lo : hi < v ? hi : v`. -/
def stdClamp (v lo hi : α) : α := if v <ᵇ lo then lo else if hi <ᵇ v then hi else v

/-- `std::fmax`: the larger argument, and the other argument if one is NaN. -/
def fmax (a b : α) : α :=
  if isNaN a then b else if isNaN b then a else if a <ᵇ b then b else a

/-- `std::numeric_limits<int>::max()` -/
def intMax : Int := 2147483647

/-- Floating to `int` conversion: undefined if the truncated value does not fit. -/
def toInt (x : α) : Outcome Int :=
  match trunc? x with
  | none => .ub "float to int conversion of a non-finite value"
  | some n =>
    if -2147483648 ≤ n ∧ n ≤ intMax then .ok n
    else .ub "float to int conversion out of range"

end Scalar
end Ink
