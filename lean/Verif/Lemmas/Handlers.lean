import Verif.Lemmas.Session
/-!
# What the event handlers do when they return
-/
namespace Ink
open Scalar Arith

variable {F D : Type} [Scalar F] [Scalar D] [Arith F D]

theorem numberOfSteps_error {tip : TipState F D} {a b : Input F D} {sp : SamplingParams F D}
    {pp : PositionModelerParams F D} {s : Status} (h : numberOfStepsBetweenInputs tip a b sp pp = .ok (.error s)) :
    ∃ msg, s = .err .invalidArgument msg := by
  unfold numberOfStepsBetweenInputs at h
  obtain ⟨n, _, h⟩ := Outcome.bind_eq_ok.1 h
  dsimp only at h
  split at h
  · simp only [Outcome.pure_eq, Outcome.ok.injEq, Except.error.injEq] at h
    exact ⟨_, h.symm⟩
  · obtain ⟨n', _, h⟩ := Outcome.bind_eq_ok.1 h
    split at h
    · simp only [Outcome.pure_eq, Outcome.ok.injEq, Except.error.injEq] at h
      exact ⟨_, h.symm⟩
    · simp at h

/-- The step count never exceeds `max_outputs_per_call`. -/
theorem numberOfSteps_le {tip : TipState F D} {a b : Input F D} {sp : SamplingParams F D}
    {pp : PositionModelerParams F D} {n : Int} (h : numberOfStepsBetweenInputs tip a b sp pp = .ok (.ok n)) :
    n ≤ sp.maxOutputsPerCall := by
  unfold numberOfStepsBetweenInputs at h
  obtain ⟨n, _, h⟩ := Outcome.bind_eq_ok.1 h
  dsimp only at h
  split at h
  · simp at h
  · obtain ⟨n', _, h⟩ := Outcome.bind_eq_ok.1 h
    split at h
    · simp at h
    · simp only [Outcome.pure_eq, Outcome.ok.injEq, Except.ok.injEq] at h
      omega

namespace StrokeModeler

/-- The result a Down produces. -/
def downResult (i : Input F D) : Result F D :=
  { position := i.position, velocity := Vec2.zero, acceleration := Vec2.zero, time := i.time
    pressure := i.pressure, tilt := i.tilt, orientation := i.orientation }

/-- The state after an accepted Down, given what the stylus modeler and the predictor became. -/
def afterDown (m : StrokeModeler F D) (p : StrokeModelParams F D) (i : Input F D) (stylus : StylusModeler F D)
    (predictor : Option (Predictor F D)) : StrokeModeler F D :=
  { m with
    wobble := m.wobble.reset p.wobble i.position i.time
    position := PositionModeler.reset (startState i) p.position
    stylus, loop := m.loop.reset p.position.loop, predictor
    lastInput := some { input := i, correctedPosition := i.position } }

theorem processDown_ok {m m' : StrokeModeler F D} {p : StrokeModelParams F D} {i : Input F D}
    {v v' : List (Result F D)} {s : Status} (hl : m.lastInput = none)
    (h : m.processDown p i v = .ok (m', s, v')) :
    ∃ stylus predictor,
      (m.stylus.reset p.stylus).update i.position i.time (stylusStateOf i) = .ok stylus ∧
      updatePredictor (m.predictor.map Predictor.reset) i.position i.time = .ok predictor ∧
      s = .ok ∧ m' = m.afterDown p i stylus predictor ∧ v' = v ++ [downResult i] := by
  unfold processDown at h
  simp only [hl] at h
  obtain ⟨stylus, h₁, h⟩ := Outcome.bind_eq_ok.1 h
  obtain ⟨predictor, h₂, h⟩ := Outcome.bind_eq_ok.1 h
  simp only [Outcome.pure_eq, Outcome.ok.injEq, Prod.mk.injEq] at h
  exact ⟨stylus, predictor, h₁, h₂, h.2.1.symm, h.1.symm, h.2.2.symm⟩

/-- The tip states of a Move and the position modeler after it. -/
def moveTips (m : StrokeModeler F D) (last : LastInput F D) (i : Input F D) (corrected : Vec2 F) (n : Int) :
    PositionModeler F D × List (TipState F D) :=
  m.position.updateAlongLinearPath last.correctedPosition last.input.time corrected i.time n

theorem processMove_ok {m m' : StrokeModeler F D} {p : StrokeModelParams F D} {i : Input F D}
    {v v' : List (Result F D)} {s : Status} {last : LastInput F D} (hl : m.lastInput = some last)
    (h : m.processMove p i v = .ok (m', s, v')) :
    ∃ wobble corrected stylus,
      m.wobble.update i.position i.time = .ok (wobble, corrected) ∧
      m.stylus.update corrected i.time (stylusStateOf i) = .ok stylus ∧
      ((numberOfStepsBetweenInputs m.position.state last.input i p.sampling p.position = .ok (.error s) ∧
          m' = { m with wobble, stylus } ∧ v' = v) ∨
       (∃ n predictor loop out,
          numberOfStepsBetweenInputs m.position.state last.input i p.sampling p.position = .ok (.ok n) ∧
          updatePredictor m.predictor corrected i.time = .ok predictor ∧
          modelStylus (m.moveTips last i corrected n).2 stylus m.loop i.time = .ok (loop, out) ∧
          s = .ok ∧
          m' = { m with
            wobble, stylus, predictor, loop
            position := (m.moveTips last i corrected n).1
            tipBuffer := (m.moveTips last i corrected n).2
            lastInput := some { input := i, correctedPosition := corrected } } ∧
          v' = v ++ out)) := by
  unfold processMove at h
  simp only [hl] at h
  obtain ⟨⟨wobble, corrected⟩, h₁, h⟩ := Outcome.bind_eq_ok.1 h
  obtain ⟨stylus, h₂, h⟩ := Outcome.bind_eq_ok.1 h
  obtain ⟨x, h₃, h⟩ := Outcome.bind_eq_ok.1 h
  refine ⟨wobble, corrected, stylus, h₁, h₂, ?_⟩
  cases x with
  | error s' =>
    simp only [Outcome.pure_eq, Outcome.ok.injEq, Prod.mk.injEq] at h
    obtain ⟨rfl, rfl, rfl⟩ := h
    exact .inl ⟨h₃, by rw [hl], rfl⟩
  | ok n =>
    obtain ⟨predictor, h₄, h⟩ := Outcome.bind_eq_ok.1 h
    obtain ⟨⟨loop, out⟩, h₅, h⟩ := Outcome.bind_eq_ok.1 h
    simp only [Outcome.pure_eq, Outcome.ok.injEq, Prod.mk.injEq] at h
    obtain ⟨rfl, rfl, rfl⟩ := h
    exact .inr ⟨n, predictor, loop, out, h₃, h₄, h₅, rfl, rfl, rfl⟩

/-- The position modeler after an Up and the tip states of the Up. -/
def upTips (m : StrokeModeler F D) (p : StrokeModelParams F D) (last : LastInput F D) (i : Input F D) (n : Int) :
    PositionModeler F D × List (TipState F D) :=
  let a := m.position.updateAlongLinearPath last.correctedPosition last.input.time i.position i.time n
  let b := a.1.modelEndOfStroke i.position (1 / p.sampling.minOutputRate)
    p.sampling.endOfStrokeMaxIterations p.sampling.endOfStrokeStoppingDistance
  (b.1, if (a.2 ++ b.2).isEmpty then [b.1.state] else a.2 ++ b.2)

theorem processUp_ok {m m' : StrokeModeler F D} {p : StrokeModelParams F D} {i : Input F D}
    {v v' : List (Result F D)} {s : Status} {last : LastInput F D} (hl : m.lastInput = some last)
    (h : m.processUp p i v = .ok (m', s, v')) :
    (numberOfStepsBetweenInputs m.position.state last.input i p.sampling p.position = .ok (.error s) ∧
      m' = m ∧ v' = v) ∨
    (∃ n stylus loop out,
      numberOfStepsBetweenInputs m.position.state last.input i p.sampling p.position = .ok (.ok n) ∧
      m.stylus.update i.position i.time (stylusStateOf i) = .ok stylus ∧
      modelStylus (m.upTips p last i n).2 stylus m.loop last.input.time = .ok (loop, out) ∧
      s = .ok ∧
      m' = { m with
        stylus, loop
        position := (m.upTips p last i n).1
        tipBuffer := (m.upTips p last i n).2
        lastInput := none } ∧
      v' = v ++ out) := by
  unfold processUp at h
  simp only [hl] at h
  obtain ⟨x, h₁, h⟩ := Outcome.bind_eq_ok.1 h
  cases x with
  | error s' =>
    simp only [Outcome.pure_eq, Outcome.ok.injEq, Prod.mk.injEq] at h
    obtain ⟨rfl, rfl, rfl⟩ := h
    exact .inl ⟨h₁, rfl, rfl⟩
  | ok n =>
    obtain ⟨stylus, h₂, h⟩ := Outcome.bind_eq_ok.1 h
    obtain ⟨⟨loop, out⟩, h₃, h⟩ := Outcome.bind_eq_ok.1 h
    simp only [Outcome.pure_eq, Outcome.ok.injEq, Prod.mk.injEq] at h
    obtain ⟨rfl, rfl, rfl⟩ := h
    exact .inr ⟨n, stylus, loop, out, h₁, h₂, h₃, rfl, rfl, rfl⟩

end StrokeModeler

/-- An Update that returns: it is refused and changes nothing, or one of the handlers ran. -/
theorem update_ok {m m' : StrokeModeler F D} {i : Input F D} {v v' : List (Result F D)} {s : Status}
    (h : m.update i v = .ok (m', s, v')) :
    (∃ c msg, refusal m.known i = some c ∧ s = .err c msg ∧ m' = m ∧ v' = v) ∨
    (refusal m.known i = none ∧ ∃ p, m.params = some p ∧
      ((i.eventType = .down ∧ m.lastInput = none ∧ m.processDown p i v = .ok (m', s, v')) ∨
       (∃ last, i.eventType = .move ∧ m.lastInput = some last ∧ m.processMove p i v = .ok (m', s, v')) ∨
       (∃ last, i.eventType = .up ∧ m.lastInput = some last ∧ m.processUp p i v = .ok (m', s, v')))) := by
  cases hr : refusal m.known i with
  | some c =>
    obtain ⟨msg, h'⟩ := update_refused m i v hr
    rw [h'] at h
    simp only [Outcome.ok.injEq, Prod.mk.injEq] at h
    exact .inl ⟨c, msg, rfl, h.2.1.symm, h.1.symm, h.2.2.symm⟩
  | none =>
    obtain ⟨p, hp, hc⟩ := update_not_refused m i hr
    refine .inr ⟨rfl, p, hp, ?_⟩
    rcases hc with ⟨he, hl, hc⟩ | ⟨he, ⟨last, hl⟩, hc⟩ | ⟨he, ⟨last, hl⟩, hc⟩
    · exact .inl ⟨he, hl, by rw [← hc, h]⟩
    · exact .inr (.inl ⟨last, he, hl, by rw [← hc, h]⟩)
    · exact .inr (.inr ⟨last, he, hl, by rw [← hc, h]⟩)

theorem predict_ok {m m' : StrokeModeler F D} {v v' : List (Result F D)} {s : Status}
    (h : m.predict v = .ok (m', s, v')) :
    (∃ msg, s = .err .failedPrecondition msg ∧ m' = m ∧ v' = [] ∧
      (m.params = none ∨ m.predictor = none ∨ m.lastInput = none)) ∨
    (∃ p pr last tips loop out, m.params = some p ∧ m.predictor = some pr ∧ m.lastInput = some last ∧
      pr.constructPrediction m.position.state = .ok tips ∧
      modelStylus tips m.stylus m.loop last.input.time = .ok (loop, out) ∧
      s = .ok ∧ m' = { m with tipBuffer := tips } ∧ v' = out) := by
  unfold StrokeModeler.predict at h
  cases hp : m.params with
  | none => simp [hp] at h; simp [← h.1, ← h.2.1, h.2.2]
  | some p =>
    cases hpr : m.predictor with
    | none => simp [hp, hpr] at h; simp [← h.1, ← h.2.1, h.2.2]
    | some pr =>
      cases hl : m.lastInput with
      | none => simp [hp, hpr, hl] at h; simp [← h.1, ← h.2.1, h.2.2]
      | some last =>
        simp only [hp, hpr, hl] at h
        obtain ⟨tips, h₁, h⟩ := Outcome.bind_eq_ok.1 h
        obtain ⟨⟨loop, out⟩, h₂, h⟩ := Outcome.bind_eq_ok.1 h
        simp only [Outcome.pure_eq, Outcome.ok.injEq, Prod.mk.injEq] at h
        exact .inr ⟨p, pr, last, tips, loop, out, rfl, rfl, rfl, h₁, h₂, h.2.1.symm, h.1.symm, h.2.2.symm⟩

theorem step_resetParams (m : StrokeModeler F D) (p : StrokeModelParams F D) :
    step m (.resetParams p) = .ok ((m.resetParams p).1, ⟨(m.resetParams p).2, []⟩) := rfl

theorem resetParams_cases (m : StrokeModeler F D) (p : StrokeModelParams F D) :
    (∃ c msg, validateStrokeModelParams p = .err c msg ∧ m.resetParams p = (m, .err c msg)) ∨
    (validateStrokeModelParams p = .ok ∧ m.resetParams p =
      ({ m with
        params := some p, lastInput := none, saveActive := false
        predictor := StrokeModeler.makePredictor p, loop := m.loop.reset p.position.loop }, .ok)) := by
  unfold StrokeModeler.resetParams StrokeModeler.resetInternal
  cases validateStrokeModelParams p <;> simp

omit [Scalar F] [Scalar D] [Arith F D] in
theorem reset_cases (m : StrokeModeler F D) :
    (m.params = none ∧ ∃ msg, m.reset = (m, .err .failedPrecondition msg)) ∨
    ((∃ p, m.params = some p) ∧ m.reset = ({ m with lastInput := none, saveActive := false }, .ok)) := by
  unfold StrokeModeler.reset StrokeModeler.resetInternal
  cases m.params <;> simp

/-- The client's knowledge is the modeler's. -/
theorem step_known {m m' : StrokeModeler F D} {op : Op F D} {r : Response F D} (h : step m op = .ok (m', r)) :
    m'.known = m.known.after op r := by
  cases op with
  | resetParams p =>
    rcases resetParams_cases m p with ⟨c, msg, _, hr⟩ | ⟨_, hr⟩ <;>
      simp only [step, hr, Outcome.ok.injEq, Prod.mk.injEq] at h <;>
      simp [← h.1, ← h.2, Known.after, StrokeModeler.known]
  | reset =>
    rcases reset_cases m with ⟨_, msg, hr⟩ | ⟨⟨p, hp⟩, hr⟩ <;>
      simp only [step, hr, Outcome.ok.injEq, Prod.mk.injEq] at h <;>
      simp [← h.1, ← h.2, Known.after, StrokeModeler.known]
  | update i v =>
    simp only [step] at h
    obtain ⟨⟨m₁, s, v'⟩, hu, h⟩ := Outcome.bind_eq_ok.1 h
    simp only [Outcome.pure_eq, Outcome.ok.injEq, Prod.mk.injEq] at h
    obtain ⟨rfl, rfl⟩ := h
    rcases update_ok hu with ⟨c, msg, _, rfl, rfl, _⟩ | ⟨_, p, hp, ⟨he, hl, h⟩ | ⟨last, he, hl, h⟩ | ⟨last, he, hl, h⟩⟩
    · simp [Known.after]
    · obtain ⟨_, _, _, _, rfl, rfl, _⟩ := StrokeModeler.processDown_ok hl h
      simp [Known.after, StrokeModeler.known, StrokeModeler.afterDown, he]
      rfl
    · obtain ⟨_, _, _, _, _, ⟨hn, rfl, _⟩ | ⟨_, _, _, _, _, _, _, rfl, rfl, _⟩⟩ := StrokeModeler.processMove_ok hl h
      · obtain ⟨msg, rfl⟩ := numberOfSteps_error hn
        simp [Known.after, StrokeModeler.known]
      · simp [Known.after, StrokeModeler.known, he]
    · rcases StrokeModeler.processUp_ok hl h with ⟨hn, rfl, _⟩ | ⟨_, _, _, _, _, _, _, rfl, rfl, _⟩
      · obtain ⟨msg, rfl⟩ := numberOfSteps_error hn
        simp [Known.after]
      · simp [Known.after, StrokeModeler.known, he]
  | predict v =>
    simp only [step] at h
    obtain ⟨⟨m₁, s, v'⟩, hu, h⟩ := Outcome.bind_eq_ok.1 h
    simp only [Outcome.pure_eq, Outcome.ok.injEq, Prod.mk.injEq] at h
    obtain ⟨rfl, rfl⟩ := h
    rcases predict_ok hu with ⟨_, _, rfl, _⟩ | ⟨_, _, _, _, _, _, _, _, _, _, _, _, rfl, _⟩ <;>
      simp [Known.after, StrokeModeler.known]
  | save =>
    simp only [step, Outcome.ok.injEq, Prod.mk.injEq] at h
    simp [← h.1, StrokeModeler.known, StrokeModeler.save, Known.after]
  | restore =>
    simp only [step, Outcome.ok.injEq, Prod.mk.injEq] at h
    rw [← h.1]
    unfold StrokeModeler.restore
    cases hs : m.saveActive <;> simp [StrokeModeler.known, Known.after, hs]

theorem run_known {m m' : StrokeModeler F D} {ops : List (Op F D)} {rs : List (Response F D)}
    (h : run m ops = .ok (m', rs)) : m'.known = knownFrom m.known ops rs := by
  induction ops generalizing m rs with
  | nil =>
    simp only [run, Outcome.ok.injEq, Prod.mk.injEq] at h
    simp [← h.1, knownFrom]
  | cons op ops ih =>
    obtain ⟨m₁, r, rs', h₁, h₂, rfl⟩ := run_cons_ok h
    rw [ih h₂, step_known h₁]
    rfl

theorem Session.known {m : StrokeModeler F D} {ops : List (Op F D)} {rs : List (Response F D)}
    (h : Session ops rs m) : m.known = Ink.known ops rs := run_known h

end Ink
