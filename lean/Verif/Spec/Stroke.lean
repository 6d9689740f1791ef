import Verif.Spec.History
import Mathlib.Data.List.Forall2
/-!
# The stroke as the client sees it

From the calls made and the responses received: the inputs of the current stroke with the results they gave. Restore goes
back to the stroke as it was at the save point.
-/
namespace Ink
open Scalar

variable {F D : Type}

/-- An input that took part in a stroke, with the results appended for it. `none` marks a Move that was found to be too
far from its predecessor: it produces an error but is absorbed by the smoothers (see C05). -/
structure Event (F D : Type) where
  input : Input F D
  results : Option (List (Result F D))

/-- What a client knows about the stroke. -/
structure StrokeView (F D : Type) where
  known : Known F D
  /-- the current stroke from its Down on; it remains visible after its Up; `[]` if there was none since the last Reset -/
  events : List (Event F D)
  /-- the stroke at the save point, if one was made since the Down -/
  saved : Option (List (Event F D))
  /-- the save point was made in an earlier stroke -/
  stale : Bool

/-- Before the first call. -/
def StrokeView.initial : StrokeView F D := ⟨.initial, [], none, false⟩

variable [Scalar F] [Scalar D]

/-- The effect of one call with its response. -/
def StrokeView.after (k : StrokeView F D) (op : Op F D) (r : Response F D) : StrokeView F D :=
  let known := k.known.after op r
  match op with
  | .resetParams _ => if r.status = .ok then ⟨known, [], none, false⟩ else k
  | .reset => if r.status = .ok then ⟨known, [], none, false⟩ else k
  | .update i v =>
    if refusal k.known i = none then
      if r.status = .ok then
        let e : Event F D := ⟨i, some (r.results.drop v.length)⟩
        if i.eventType = .down then ⟨known, [e], none, k.stale || k.saved.isSome⟩
        else { k with known, events := k.events ++ [e] }
      else if i.eventType = .move then { k with known, events := k.events ++ [⟨i, none⟩] }
      else k
    else k
  | .predict _ => k
  | .save => { k with known, saved := some k.events, stale := false }
  | .restore => { k with known, events := k.saved.getD k.events }

/-- All calls so far with their responses. -/
def viewFrom (k : StrokeView F D) : List (Op F D) → List (Response F D) → StrokeView F D
  | op :: ops, r :: rs => viewFrom (k.after op r) ops rs
  | _, _ => k

@[inherit_doc viewFrom] def view (ops : List (Op F D)) (rs : List (Response F D)) : StrokeView F D :=
  viewFrom .initial ops rs

/-- The current stroke (or the last one, if no stroke is in progress) since the last Reset. -/
def strokeOf (ops : List (Op F D)) (rs : List (Response F D)) : List (Event F D) := (view ops rs).events

/-- No Restore goes back to a save point that was made in an earlier stroke. (Such a Restore mixes the two strokes, see
C08_refuted.) -/
def NoStaleRestore (ops : List (Op F D)) (rs : List (Response F D)) : Prop :=
  ∀ n, ops[n]? = some .restore → (view (ops.take n) (rs.take n)).stale = false

/-- The histories in which a stroke is what its own inputs make it: no Restore into an earlier stroke, and no Reset(params)
that disables prediction after a Save (see C12_refuted). -/
structure Regular (ops : List (Op F D)) (rs : List (Response F D)) : Prop where
  noStale : NoStaleRestore ops rs
  noDisable : NoDisableAfterSave ops

/-- All results of a stroke in order. -/
def resultsOf (es : List (Event F D)) : List (Result F D) := es.flatMap fun e => e.results.getD []

/-- The accepted inputs of a stroke in order. -/
def acceptedOf (es : List (Event F D)) : List (Input F D) :=
  (es.filter fun e => e.results.isSome).map Event.input

/-- A stroke modeled without detours: `Reset(p)` on a new modeler followed by the inputs of the stroke, the first being
its Down. -/
def replay (p : StrokeModelParams F D) (es : List (Event F D)) : List (Op F D) :=
  .resetParams p :: es.map fun e => .update e.input []

/-- The calls of `replay` succeed and give exactly the results recorded in the stroke (an error where `none` is
recorded), and leave the modeler in state `m`. -/
def Replays [Arith F D] (p : StrokeModelParams F D) (es : List (Event F D)) (m : StrokeModeler F D) : Prop :=
  ∃ rs, Session (replay p es) rs m ∧
    List.Forall₂ (fun e r => match e.results with
      | some out => r = ⟨.ok, out⟩
      | none => ∃ msg, r = ⟨.err .invalidArgument msg, []⟩) es rs.tail

end Ink
