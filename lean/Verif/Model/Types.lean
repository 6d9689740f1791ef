import Verif.Scalar
/-!
# types.h / types.cc / internal_types.h / absl status

`Time` and `Duration` wrap one `double` with the obvious operators (types.h:74-137, 279-370); they are
represented by `D` itself. `operator<<`, `ToFormattedString` and `AbslStringify` are not modelled.
-/
namespace Ink
open Scalar

/-- The absl status codes the library returns. -/
inductive Code where
  | invalidArgument
  | failedPrecondition
deriving Repr, DecidableEq

/-- `absl::Status`. The message is the fixed part of the message in the source (substituted values are not
modelled). -/
inductive Status where
  | ok
  | err (code : Code) (msg : String)
deriving Repr, DecidableEq

namespace Status

/-- `RETURN_IF_ERROR(a); return b;` (types.cc:15-18, params.cc:28-31). -/
def andThen : Status → Status → Status
  | ok, b => b
  | err c m, _ => err c m

/-- `status.ok()` -/
def isOk : Status → Bool
  | ok => true
  | err _ _ => false

end Status

/-- Vec2, types.h:31-46. -/
structure Vec2 (F : Type) where
  x : F
  y : F
deriving Repr, DecidableEq

namespace Vec2
variable {F D : Type} [Scalar F]

/-- types.h:240-242 -/
instance : Add (Vec2 F) := ⟨fun l r => ⟨l.x + r.x, l.y + r.y⟩⟩
/-- types.h:243-245 -/
instance : Sub (Vec2 F) := ⟨fun l r => ⟨l.x - r.x, l.y - r.y⟩⟩
/-- `float * Vec2` (types.h:246-248) and `Vec2 * float` (types.h:249). -/
def smul (s : F) (v : Vec2 F) : Vec2 F := ⟨s * v.x, s * v.y⟩
/-- `Vec2 / float`, types.h:250-252 -/
def sdiv (v : Vec2 F) (s : F) : Vec2 F := ⟨v.x / s, v.y / s⟩
/-- operator==, types.h:235-237 -/
def eq (l r : Vec2 F) : Bool := (l.x =ᵇ r.x) && (l.y =ᵇ r.y)
/-- `Vec2{0, 0}` -/
def zero : Vec2 F := ⟨0, 0⟩
/-- Vec2::IsFinite, types.h:45 -/
def isFinite (v : Vec2 F) : Bool := Scalar.isFinite v.x && Scalar.isFinite v.y
/-- Vec2::DotProduct, types.cc:23 -/
def dot (a b : Vec2 F) : F := a.x * b.x + a.y * b.y
/-- Vec2::Magnitude, types.h:36 -/
def magnitude [Arith F D] (v : Vec2 F) : F := Arith.hypot v.x v.y

/-- Vec2::AbsoluteAngleTo, types.cc:25-38. `none` stands for the error status. -/
def absoluteAngleTo [Arith F D] (a b : Vec2 F) : Option F :=
  if !a.isFinite || !b.isFinite then none
  else
    let m := a.magnitude
    let m' := b.magnitude
    if m =ᵇ 0 || m' =ᵇ 0 then some 0
    else
      let u := a.sdiv m
      let u' := b.sdiv m'
      some (Arith.acos (stdClamp (dot u u') (-1) 1))

end Vec2

@[inherit_doc Vec2.smul] infixr:73 " •ᵥ " => Vec2.smul
@[inherit_doc Vec2.sdiv] infixl:70 " /ᵥ " => Vec2.sdiv

/-- Input::EventType, types.h:153; `unknown` is any other value forced into the enum (types.cc:51-52). -/
inductive EventType where
  | down
  | move
  | up
  | unknown (n : Int)
deriving Repr, DecidableEq

/-- Input, types.h:149-177 -/
structure Input (F D : Type) where
  eventType : EventType
  position : Vec2 F
  time : D
  pressure : F
  tilt : F
  orientation : F
deriving Repr, DecidableEq

/-- operator==(Input, Input), types.h:376-380 -/
def Input.eq {F D : Type} [Scalar F] [Scalar D] (l r : Input F D) : Bool :=
  decide (l.eventType = r.eventType) && Vec2.eq l.position r.position && (l.time =ᵇ r.time) &&
    (l.pressure =ᵇ r.pressure) && (l.tilt =ᵇ r.tilt) && (l.orientation =ᵇ r.orientation)

/-- Result, types.h:203-217 -/
structure Result (F D : Type) where
  position : Vec2 F
  velocity : Vec2 F
  acceleration : Vec2 F
  time : D
  pressure : F
  tilt : F
  orientation : F
deriving Repr, DecidableEq

/-- TipState, internal_types.h:29-34 -/
structure TipState (F D : Type) where
  position : Vec2 F
  velocity : Vec2 F
  acceleration : Vec2 F
  time : D
deriving Repr, DecidableEq

/-- A default-constructed TipState, internal_types.h:29-34. -/
def TipState.default {F D : Type} [Scalar F] [Scalar D] : TipState F D :=
  { position := Vec2.zero, velocity := Vec2.zero, acceleration := Vec2.zero, time := 0 }

/-- StylusState, internal_types.h:45-49 -/
structure StylusState (F : Type) where
  pressure : F
  tilt : F
  orientation : F
deriving Repr, DecidableEq

section Validation
variable {α : Type} [Scalar α]

/-- ValidateIsFiniteNumber for floating point types, validation.h:8-22 -/
def validateIsFiniteNumber (v : α) (label : String) : Status :=
  if isNaN v then .err .invalidArgument (label ++ " is NaN")
  else if isInf v then .err .invalidArgument (label ++ " is infinite")
  else .ok

/-- ValidateGreaterThanZero for floating point types, validation.h:24-37 -/
def validateGreaterThanZero (v : α) (label : String) : Status :=
  (validateIsFiniteNumber v label).andThen
    (if v ≤ᵇ 0 then .err .invalidArgument (label ++ " must be greater than zero") else .ok)

/-- ValidateGreaterThanZero for `int`, validation.h:24-37 -/
def validateGreaterThanZeroInt (v : Int) (label : String) : Status :=
  if v ≤ 0 then .err .invalidArgument (label ++ " must be greater than zero") else .ok

/-- ValidateGreaterThanOrEqualToZero for floating point types, validation.h:39-52 -/
def validateGreaterThanOrEqualToZero (v : α) (label : String) : Status :=
  (validateIsFiniteNumber v label).andThen
    (if v <ᵇ 0 then .err .invalidArgument (label ++ " must be greater than or equal to zero") else .ok)

end Validation

/-- ValidateInput, types.cc:45-61 -/
def validateInput {F D : Type} [Scalar F] [Scalar D] (i : Input F D) : Status :=
  match i.eventType with
  | .unknown _ => .err .invalidArgument "Unknown Input.event_type."
  | _ =>
    (validateIsFiniteNumber i.position.x "Input.position.x").andThen <|
    (validateIsFiniteNumber i.position.y "Input.position.y").andThen <|
    validateIsFiniteNumber i.time "Input.time"

end Ink
