import Verif.Spec.History
/-!
# Quantities of the stroke in progress

A quantity that is determined by the accepted inputs of a stroke (how many there are, whether one of them lacks
pressure, ...) as a client can follow it through any history, including Save and Restore.
-/
namespace Ink
open Scalar

variable {F D α : Type}

/-- The current value of a quantity, and its value at the save point. -/
structure Tracked (α : Type) where
  cur : α
  saved : Option α

/-- A quantity of the stroke in progress: its value after an accepted Down, and how another accepted input changes
it. -/
structure Quantity (F D α : Type) where
  onDown : Input F D → α
  onInput : α → Input F D → α

/-- The effect of one call. `perStroke` tells whether a save point is good for the stroke it was made in only. -/
def Tracked.after (q : Quantity F D α) (perStroke : Bool) (k : Tracked α) : Op F D → Response F D → Tracked α
  | .resetParams _, r => if r.status = .ok then { k with saved := none } else k
  | .reset, r => if r.status = .ok then { k with saved := none } else k
  | .update i _, r =>
    if r.status = .ok then
      if i.eventType = .down then ⟨q.onDown i, if perStroke then none else k.saved⟩
      else { k with cur := q.onInput k.cur i }
    else k
  | .predict _, _ => k
  | .save, _ => { k with saved := some k.cur }
  | .restore, _ => match k.saved with
    | some c => { k with cur := c }
    | none => k

/-- All calls so far with their responses. -/
def trackFrom (q : Quantity F D α) (perStroke : Bool) (k : Tracked α) :
    List (Op F D) → List (Response F D) → Tracked α
  | op :: ops, r :: rs => trackFrom q perStroke (k.after q perStroke op r) ops rs
  | _, _ => k

/-- The value of the quantity after all calls so far; `init` before the first stroke. -/
def track (q : Quantity F D α) (perStroke : Bool) (init : α) (ops : List (Op F D)) (rs : List (Response F D)) : α :=
  (trackFrom q perStroke ⟨init, none⟩ ops rs).cur

end Ink
