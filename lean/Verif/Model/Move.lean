import Verif.Model.Session
/-!
# Moving a StrokeModeler

The class declares no constructors or assignments (stroke_modeler.h:50-139), so the implicit ones apply: it cannot be copied, because of
its `std::unique_ptr` members, and moving it moves each member. No member refers to another one, so the target of a move has the state
that the source had.
-/
namespace Ink

/-- `m'` is a state that a modeler in state `m` may be in after it has been moved from: pointers are null (stroke_modeler.h:117, 136),
standard containers are "valid but unspecified" (the standard, [lib.types.movedfrom]), everything else is unchanged; in particular
optionals still have their values. -/
structure MovedFrom {F D : Type} (m m' : StrokeModeler F D) : Prop where
  predictor : m'.predictor = none
  savedPredictor : m'.savedPredictor = none
  params : m'.params = m.params
  wobble : ∃ s s', m'.wobble = { m.wobble with
    state := { m.wobble.state with samples := s }, savedState := { m.wobble.savedState with samples := s' } }
  position : m'.position = m.position
  stylus : ∃ s s', m'.stylus = { m.stylus with
    state := { m.stylus.state with inputs := s }, savedState := { m.stylus.savedState with inputs := s' } }
  loop : ∃ s s', m'.loop = { m.loop with samples := s, savedSamples := s' }
  lastInput : m'.lastInput = m.lastInput
  savedLastInput : m'.savedLastInput = m.savedLastInput
  saveActive : m'.saveActive = m.saveActive

end Ink
