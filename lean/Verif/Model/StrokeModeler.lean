import Verif.Model.Wobble
import Verif.Model.Stylus
import Verif.Model.Loop
import Verif.Model.Predictor
/-!
# stroke_modeler.h, stroke_modeler.cc
-/
namespace Ink
open Scalar Arith

/-- StrokeModeler::InputAndCorrectedPosition, stroke_modeler.h:130-133 -/
structure LastInput (F D : Type) where
  input : Input F D
  correctedPosition : Vec2 F
deriving Repr, DecidableEq

/-- StrokeModeler, stroke_modeler.h:117-138 -/
structure StrokeModeler (F D : Type) where
  predictor : Option (Predictor F D)
  params : Option (StrokeModelParams F D)
  wobble : WobbleSmoother F D
  position : PositionModeler F D
  stylus : StylusModeler F D
  loop : LoopModeler F D
  tipBuffer : List (TipState F D)
  lastInput : Option (LastInput F D)
  savedPredictor : Option (Predictor F D)
  savedLastInput : Option (LastInput F D)
  saveActive : Bool
deriving Repr, DecidableEq

variable {F D : Type} [Scalar F] [Scalar D] [Arith F D]

/-- MakeResultFromTipState, stroke_modeler.cc:42-53 -/
def makeResultFromTipState (tip : TipState F D) (stylus : Result F D) : Result F D :=
  { position := tip.position, velocity := tip.velocity, acceleration := tip.acceleration, time := tip.time
    pressure := stylus.pressure, tilt := stylus.tilt, orientation := stylus.orientation }

/-- The loop of ModelStylus, stroke_modeler.cc:64-74: the final mitigation modeler and the appended results. -/
def modelStylusGo (stylus : StylusModeler F D) :
    List (TipState F D) → LoopModeler F D → F → D → Outcome (LoopModeler F D × List (Result F D))
  | [], loop, _, _ => .ok (loop, [])
  | tip :: rest, loop, interpValue, prevTime => do
    let normal := getStrokeNormal tip prevTime
    let projected ← stylus.query tip normal
    let modeled := makeResultFromTipState tip projected
    let r ← interpResult projected modeled interpValue
    let (loop, interpValue) := loop.update r.velocity tip.time
    let (loop, out) ← modelStylusGo stylus rest loop interpValue tip.time
    return (loop, r :: out)

/-- ModelStylus, stroke_modeler.cc:55-75 -/
def modelStylus (tips : List (TipState F D)) (stylus : StylusModeler F D) (loop : LoopModeler F D)
    (prevTime : D) : Outcome (LoopModeler F D × List (Result F D)) :=
  modelStylusGo stylus tips loop loop.getInterpolationValue prevTime

/-- The StylusState passed to the stylus modeler, e.g. stroke_modeler.cc:209-211. -/
def stylusStateOf (i : Input F D) : StylusState F :=
  { pressure := i.pressure, tilt := i.tilt, orientation := i.orientation }

/-- `if (predictor_ != nullptr) predictor_->Update(...)`, stroke_modeler.cc:216, 310-312 -/
def updatePredictor (p : Option (Predictor F D)) (position : Vec2 F) (time : D) :
    Outcome (Option (Predictor F D)) :=
  match p with
  | none => .ok none
  | some p => some <$> p.update position time

namespace StrokeModeler

/-- A default-constructed StrokeModeler. -/
def default : StrokeModeler F D :=
  { predictor := none, params := none, wobble := .default, position := .default, stylus := .default
    loop := .default, tipBuffer := [], lastInput := none, savedPredictor := none, savedLastInput := none
    saveActive := false }

/-- The predictor created by Reset, stroke_modeler.cc:92-107. -/
def makePredictor (p : StrokeModelParams F D) : Option (Predictor F D) :=
  match p.prediction with
  | .kalman k => some (.kalman (KalmanPredictor.make k p.sampling))
  | .strokeEnd => some (.strokeEnd { position := p.position, sampling := p.sampling, lastPosition := none })
  | .disabled => none

/-- StrokeModeler::ResetInternal, stroke_modeler.cc:123-126 -/
def resetInternal (m : StrokeModeler F D) : StrokeModeler F D :=
  { m with lastInput := none, saveActive := false }

/-- StrokeModeler::Reset(params), stroke_modeler.cc:79-112 -/
def resetParams (m : StrokeModeler F D) (p : StrokeModelParams F D) : StrokeModeler F D × Status :=
  match validateStrokeModelParams p with
  | .err c msg => (m, .err c msg)
  | .ok =>
    let m := { m with params := some p }.resetInternal
    ({ m with predictor := makePredictor p, loop := m.loop.reset p.position.loop }, .ok)

/-- StrokeModeler::Reset(), stroke_modeler.cc:114-121 -/
def reset (m : StrokeModeler F D) : StrokeModeler F D × Status :=
  match m.params with
  | none => (m, .err .failedPrecondition "Initial call to Reset must pass StrokeModelParams.")
  | some _ => (m.resetInternal, .ok)

/-- The TipState with which a stroke starts, stroke_modeler.cc:200: velocity and acceleration default to zero. -/
def startState (i : Input F D) : TipState F D :=
  { position := i.position, velocity := Vec2.zero, acceleration := Vec2.zero, time := i.time }

/-- StrokeModeler::ProcessDownEvent, stroke_modeler.cc:188-230 -/
def processDown (m : StrokeModeler F D) (p : StrokeModelParams F D) (i : Input F D)
    (results : List (Result F D)) : Outcome (StrokeModeler F D × Status × List (Result F D)) :=
  match m.lastInput with
  | some _ => .ok (m, .err .failedPrecondition "Received down event while stroke is in-progress", results)
  | none => do
    let wobble := m.wobble.reset p.wobble i.position i.time
    let position := PositionModeler.reset (startState i) p.position
    let stylus := m.stylus.reset p.stylus
    let loop := m.loop.reset p.position.loop
    let stylus ← stylus.update i.position i.time (stylusStateOf i)
    let tip := position.state
    let predictor ← updatePredictor (m.predictor.map Predictor.reset) i.position i.time
    let m := { m with
      wobble, position, stylus, loop, predictor
      lastInput := some { input := i, correctedPosition := i.position } }
    let r : Result F D :=
      { position := tip.position, velocity := tip.velocity, acceleration := tip.acceleration, time := tip.time
        pressure := i.pressure, tilt := i.tilt, orientation := i.orientation }
    return (m, .ok, results ++ [r])

/-- StrokeModeler::ProcessUpEvent, stroke_modeler.cc:232-279 -/
def processUp (m : StrokeModeler F D) (p : StrokeModelParams F D) (i : Input F D)
    (results : List (Result F D)) : Outcome (StrokeModeler F D × Status × List (Result F D)) :=
  match m.lastInput with
  | none => .ok (m, .err .failedPrecondition "Received up event while no stroke is in-progress", results)
  | some last => do
    match ← numberOfStepsBetweenInputs m.position.state last.input i p.sampling p.position with
    | .error s => return (m, s, results)
    | .ok n =>
      let (position, tips) :=
        m.position.updateAlongLinearPath last.correctedPosition last.input.time i.position i.time n
      let (position, endTips) :=
        position.modelEndOfStroke i.position (1 / p.sampling.minOutputRate)
          p.sampling.endOfStrokeMaxIterations p.sampling.endOfStrokeStoppingDistance
      let tips := tips ++ endTips
      let tips := if tips.isEmpty then [position.state] else tips
      let stylus ← m.stylus.update i.position i.time (stylusStateOf i)
      let (loop, out) ← modelStylus tips stylus m.loop last.input.time
      return ({ m with position, stylus, loop, tipBuffer := tips, lastInput := none }, .ok, results ++ out)

/-- StrokeModeler::ProcessMoveEvent, stroke_modeler.cc:281-318. The wobble smoother and the stylus modeler are
updated before the number of steps is checked; `last_input_` is overwritten before ModelStylus reads its time. -/
def processMove (m : StrokeModeler F D) (p : StrokeModelParams F D) (i : Input F D)
    (results : List (Result F D)) : Outcome (StrokeModeler F D × Status × List (Result F D)) :=
  match m.lastInput with
  | none => .ok (m, .err .failedPrecondition "Received move event while no stroke is in-progress", results)
  | some last => do
    let (wobble, corrected) ← m.wobble.update i.position i.time
    let stylus ← m.stylus.update corrected i.time (stylusStateOf i)
    let m := { m with wobble, stylus }
    match ← numberOfStepsBetweenInputs m.position.state last.input i p.sampling p.position with
    | .error s => return (m, s, results)
    | .ok n =>
      let (position, tips) :=
        m.position.updateAlongLinearPath last.correctedPosition last.input.time corrected i.time n
      let predictor ← updatePredictor m.predictor corrected i.time
      let (loop, out) ← modelStylus tips stylus m.loop i.time
      return ({ m with
        position, predictor, loop, tipBuffer := tips
        lastInput := some { input := i, correctedPosition := corrected } }, .ok, results ++ out)

/-- StrokeModeler::Update, stroke_modeler.cc:128-158: the new modeler, the status and the results vector. -/
def update (m : StrokeModeler F D) (i : Input F D) (results : List (Result F D)) :
    Outcome (StrokeModeler F D × Status × List (Result F D)) :=
  match m.params with
  | none => .ok (m, .err .failedPrecondition "Stroke model has not yet been initialized", results)
  | some p =>
    match validateInput i with
    | .err c msg => .ok (m, .err c msg, results)
    | .ok =>
      let check : Status :=
        match m.lastInput with
        | none => .ok
        | some last =>
          if Input.eq last.input i then .err .invalidArgument "Received duplicate input"
          else if i.time <ᵇ last.input.time then .err .invalidArgument "Inputs travel backwards in time"
          else .ok
      match check with
      | .err c msg => .ok (m, .err c msg, results)
      | .ok =>
        match i.eventType with
        | .down => m.processDown p i results
        | .move => m.processMove p i results
        | .up => m.processUp p i results
        | .unknown _ => .ok (m, .err .invalidArgument "Invalid EventType.", results)

/-- StrokeModeler::Predict, stroke_modeler.cc:160-186. The previous contents of the results vector are cleared
first. Only the scratch buffer `tip_state_buffer_` changes. -/
def predict (m : StrokeModeler F D) (_results : List (Result F D)) :
    Outcome (StrokeModeler F D × Status × List (Result F D)) :=
  match m.params with
  | none => .ok (m, .err .failedPrecondition "Stroke model has not yet been initialized", [])
  | some _ =>
    match m.predictor with
    | none => .ok (m, .err .failedPrecondition "Prediction has been disabled by StrokeModelParams.", [])
    | some pr =>
      match m.lastInput with
      | none =>
        .ok (m, .err .failedPrecondition "Cannot construct prediction when no stroke is in-progress", [])
      | some last => do
        let tips ← pr.constructPrediction m.position.state
        let (_, out) ← modelStylus tips m.stylus m.loop last.input.time
        return ({ m with tipBuffer := tips }, .ok, out)

/-- StrokeModeler::Save, stroke_modeler.cc:320-330 -/
def save (m : StrokeModeler F D) : StrokeModeler F D :=
  { m with
    wobble := m.wobble.save, position := m.position.save, stylus := m.stylus.save, loop := m.loop.save
    savedLastInput := m.lastInput
    savedPredictor := match m.predictor with
      | some p => some p
      | none => m.savedPredictor
    saveActive := true }

/-- StrokeModeler::Restore, stroke_modeler.cc:332-343 -/
def restore (m : StrokeModeler F D) : StrokeModeler F D :=
  if !m.saveActive then m
  else
    { m with
      wobble := m.wobble.restore, position := m.position.restore, stylus := m.stylus.restore
      loop := m.loop.restore
      lastInput := m.savedLastInput
      predictor := match m.savedPredictor with
        | some p => some p
        | none => m.predictor }

end StrokeModeler
end Ink
