import Verif.Model.Session
/-!
# What a client of the API knows

The vocabulary in which the session properties are stated: it refers to the calls made and the responses
received only, never to the modeler's fields.
-/
namespace Ink
open Scalar

variable {F D : Type}

/-- What follows from the calls and responses so far, by the documentation (stroke_modeler.h:36-106). -/
structure Known (F D : Type) where
  /-- the argument of the last successful `Reset(params)` -/
  params : Option (StrokeModelParams F D)
  /-- the last accepted input of the stroke in progress; `none` if no stroke is in progress -/
  prev : Option (Input F D)
  /-- `prev` at the time of the save point, if there is one -/
  saved : Option (Option (Input F D))

/-- Before the first call. -/
def Known.initial : Known F D := ⟨none, none, none⟩

/-- The effect of one call with its response. -/
def Known.after (k : Known F D) : Op F D → Response F D → Known F D
  | .resetParams p, r => if r.status = .ok then ⟨some p, none, none⟩ else k
  | .reset, r => if r.status = .ok then { k with prev := none, saved := none } else k
  | .update i _, r =>
    if r.status = .ok then { k with prev := if i.eventType = .up then none else some i } else k
  | .predict _, _ => k
  | .save, _ => { k with saved := some k.prev }
  | .restore, _ => match k.saved with
    | some prev => { k with prev }
    | none => k

/-- All calls so far with their responses. -/
def knownFrom (k : Known F D) : List (Op F D) → List (Response F D) → Known F D
  | op :: ops, r :: rs => knownFrom (k.after op r) ops rs
  | _, _ => k

@[inherit_doc knownFrom] def known (ops : List (Op F D)) (rs : List (Response F D)) : Known F D :=
  knownFrom .initial ops rs

variable [Scalar F] [Scalar D]

/-- kDown, kMove or kUp -/
def EventType.isKnown (e : EventType) : Prop := e = .down ∨ e = .move ∨ e = .up

instance (e : EventType) : Decidable e.isKnown := inferInstanceAs (Decidable (_ ∨ _))

/-- The documented reasons (stroke_modeler.h:60-73) for which `Update(i)` fails before anything is modeled, in the
order in which they are checked; `none` if there is none. -/
def refusal (k : Known F D) (i : Input F D) : Option Code :=
  if k.params = none then some .failedPrecondition
  else if ¬ (i.eventType.isKnown ∧ isFinite i.position.x ∧ isFinite i.position.y ∧ isFinite i.time) then
    some .invalidArgument
  else match k.prev with
    | none => if i.eventType = .down then none else some .failedPrecondition
    | some prev =>
      if Input.eq prev i then some .invalidArgument
      else if i.time <ᵇ prev.time then some .invalidArgument
      else if i.eventType = .down then some .failedPrecondition
      else none

/-- The calls `ops` on a newly constructed modeler all return, with responses `rs`, and leave it in state `m`. -/
def Session [Arith F D] (ops : List (Op F D)) (rs : List (Response F D)) (m : StrokeModeler F D) : Prop :=
  run .default ops = .ok (m, rs)

/-- No `Reset(params)` that disables prediction comes after a `Save`. -/
def NoDisableAfterSave (ops : List (Op F D)) : Prop :=
  ∀ a p b, ops = a ++ .resetParams p :: b → p.prediction = .disabled → .save ∉ a

/-- The status is an error with code `c`. -/
def Status.HasCode (s : Status) (c : Code) : Prop := ∃ msg, s = .err c msg

end Ink
