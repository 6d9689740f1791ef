import Verif.Model.Session
import Mathlib.Data.List.Forall2
/-!
# Turning and mirroring the coordinate system

The two symmetries from which all symmetries of the coordinate axes are composed, and what they do to the calls and results of a client.
Numbers are compared up to the sign of zero: turning a vector negates a coordinate, and `0 - 0` is `+0` for the turned vector as well.
-/
namespace Ink
open Scalar

/-- The same number, except perhaps for the sign of a zero. -/
def Alike {α : Type} [Scalar α] (a b : α) : Prop := a = b ∨ ((a =ᵇ 0) = true ∧ (b =ᵇ 0) = true)

@[inherit_doc] infix:50 " ≋ " => Alike

/-- A quarter turn, `(x, y) ↦ (-y, x)`, or the mirror image in the x-axis, `(x, y) ↦ (x, -y)`. -/
inductive Symmetry where
  | turn
  | mirror
deriving Repr, DecidableEq

namespace Symmetry
variable {α F D : Type} [Scalar α] [Scalar F] [Scalar D]

/-- The image of a vector. -/
def vec : Symmetry → Vec2 α → Vec2 α
  | turn, v => ⟨-v.y, v.x⟩
  | mirror, v => ⟨v.x, -v.y⟩

/-- The image of an input. Pressure, tilt and orientation belong to the pen and stay as they are (the modeler does not relate the
orientation to the positions). -/
def input (g : Symmetry) (i : Input F D) : Input F D := { i with position := g.vec i.position }

/-- The image of a result. -/
def result (g : Symmetry) (r : Result F D) : Result F D :=
  { r with position := g.vec r.position, velocity := g.vec r.velocity, acceleration := g.vec r.acceleration }

/-- The image of a call. -/
def op (g : Symmetry) : Op F D → Op F D
  | .update i v => .update (g.input i) (v.map g.result)
  | .predict v => .predict (v.map g.result)
  | .resetParams p => .resetParams p
  | .reset => .reset
  | .save => .save
  | .restore => .restore

/-- A vector that is the image of another one, up to signs of zeros. -/
structure Vec (g : Symmetry) (v w : Vec2 α) : Prop where
  x : (g.vec v).x ≋ w.x
  y : (g.vec v).y ≋ w.y

/-- A result that is the image of another one, up to signs of zeros. -/
structure Res (g : Symmetry) (r s : Result F D) : Prop where
  position : g.Vec r.position s.position
  velocity : g.Vec r.velocity s.velocity
  acceleration : g.Vec r.acceleration s.acceleration
  time : r.time = s.time
  pressure : r.pressure ≋ s.pressure
  tilt : r.tilt ≋ s.tilt
  orientation : r.orientation ≋ s.orientation

/-- The same status code. (The message of a rejected input may name the other coordinate.) -/
def SameCode : Status → Status → Prop
  | .ok, .ok => True
  | .err c _, .err c' _ => c = c'
  | _, _ => False

/-- The responses to a call and to its image: the same status code, and results that are the images of each other; or both calls do not
return, in the same way. -/
def Answer (g : Symmetry) : Outcome (Response F D) → Outcome (Response F D) → Prop
  | .ok r, .ok s => SameCode r.status s.status ∧ List.Forall₂ g.Res r.results s.results
  | .ub w, .ub w' => w = w'
  | .diverge, .diverge => True
  | _, _ => False

end Symmetry
end Ink
