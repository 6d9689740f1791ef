import Verif.Model.StrokeModeler
/-!
# The public API as a state machine

One `Op` is one call of a public member function of StrokeModeler (stroke_modeler.h:55-106); the caller's
vector is part of the call. The `Response` is all the caller can see: the status and the vector afterwards.
-/
namespace Ink
open Scalar Arith

/-- A call of the API. -/
inductive Op (F D : Type) where
  /-- `Reset(params)` -/
  | resetParams (p : StrokeModelParams F D)
  /-- `Reset()` -/
  | reset
  /-- `Update(input, results)` -/
  | update (i : Input F D) (results : List (Result F D))
  /-- `Predict(results)` -/
  | predict (results : List (Result F D))
  /-- `Save()` -/
  | save
  /-- `Restore()` -/
  | restore
deriving Repr, DecidableEq

/-- What the caller observes. `Save` and `Restore` return `void`: they report `ok` and no results; the vector of a
call without one is `[]`. -/
structure Response (F D : Type) where
  status : Status
  results : List (Result F D)
deriving Repr, DecidableEq

variable {F D : Type} [Scalar F] [Scalar D] [Arith F D]

/-- One API call. -/
def step (m : StrokeModeler F D) : Op F D → Outcome (StrokeModeler F D × Response F D)
  | .resetParams p => let (m, s) := m.resetParams p; .ok (m, ⟨s, []⟩)
  | .reset => let (m, s) := m.reset; .ok (m, ⟨s, []⟩)
  | .update i results => do let (m, s, r) ← m.update i results; return (m, ⟨s, r⟩)
  | .predict results => do let (m, s, r) ← m.predict results; return (m, ⟨s, r⟩)
  | .save => .ok (m.save, ⟨.ok, []⟩)
  | .restore => .ok (m.restore, ⟨.ok, []⟩)

/-- A sequence of API calls: the final state and the responses in order. Undefined behaviour or divergence of
any call makes it the outcome of the whole sequence. -/
def run (m : StrokeModeler F D) : List (Op F D) → Outcome (StrokeModeler F D × List (Response F D))
  | [] => .ok (m, [])
  | op :: ops => do
    let (m, r) ← step m op
    let (m, rs) ← run m ops
    return (m, r :: rs)

/-- What a client sees of a session that starts in state `m`: the responses in order, up to and including the
first call with undefined behaviour or that does not return (after which nothing more can be said). -/
def observe (m : StrokeModeler F D) : List (Op F D) → List (Outcome (Response F D))
  | [] => []
  | op :: ops =>
    match step m op with
    | .ok (m, r) => .ok r :: observe m ops
    | .ub w => [.ub w]
    | .diverge => [.diverge]

/-- Two modelers that no client can tell apart. -/
def Indist (m m' : StrokeModeler F D) : Prop := ∀ ops, observe m ops = observe m' ops

end Ink
