import Verif.Model.Utils
import Verif.Model.Params
/-!
# internal/position_modeler.h, internal/position_modeler.cc
-/
namespace Ink
open Scalar Arith

variable {F D : Type} [Scalar F] [Scalar D] [Arith F D]

/-- `static_cast<double>(std::numeric_limits<int>::max())`, position_modeler.cc:25,42 -/
def intMaxD : D := ofInt intMax

/-- The steps demanded by the angle, position_modeler.cc:38-46: `n` is the count so far. -/
def stepsForAngle (sampling : SamplingParams F D) (angle : F) (n : Int) : Outcome Int :=
  if 0 <ᵇ sampling.maxEstimatedAngle then do
    let k ← toInt (stdMin (ceil (widen angle / sampling.maxEstimatedAngle)) intMaxD)
    return if k > n then k else n
  else .ok n

/-- NumberOfStepsBetweenInputs, position_modeler.cc:17-53. `float * double` and `float / double` are computed
in double. -/
def numberOfStepsBetweenInputs (tip : TipState F D) (start end_ : Input F D)
    (sampling : SamplingParams F D) (pos : PositionModelerParams F D) : Outcome (Except Status Int) := do
  let deltaT := end_.time - start.time
  let floatDelta : F := narrow deltaT
  let nSteps ← toInt (stdMin (ceil (widen floatDelta * sampling.minOutputRate)) intMaxD)
  let estimatedDeltaV := floatDelta •ᵥ ((end_.position - tip.position) /ᵥ pos.springMassConstant)
  let estimatedEndV := tip.velocity + estimatedDeltaV
  match tip.velocity.absoluteAngleTo estimatedEndV with
  | none => return .error (.err .invalidArgument "Non-finite or enormous inputs.")
  | some angle =>
    let nSteps ← stepsForAngle sampling angle nSteps
    if nSteps > sampling.maxOutputsPerCall then
      return .error (.err .invalidArgument "Input events are too far apart")
    else return .ok nSteps

/-- PositionModeler, position_modeler.h:41-144 -/
structure PositionModeler (F D : Type) where
  params : PositionModelerParams F D
  state : TipState F D
  savedState : Option (TipState F D)
deriving Repr, DecidableEq

namespace PositionModeler

/-- A default-constructed PositionModeler, position_modeler.h:141-143. -/
def default : PositionModeler F D :=
  { params := .default, state := .default, savedState := none }

/-- PositionModeler::Reset, position_modeler.h:43-47 (all members are overwritten). -/
def reset (state : TipState F D) (params : PositionModelerParams F D) : PositionModeler F D :=
  { params, state, savedState := none }

/-- The computation of PositionModeler::Update, position_modeler.cc:55-65; `double * Vec2` converts the double
to float. -/
def stepState (params : PositionModelerParams F D) (st : TipState F D) (anchor : Vec2 F) (time : D) :
    TipState F D :=
  let deltaTime : F := narrow (time - st.time)
  let acceleration :=
    ((anchor - st.position) /ᵥ params.springMassConstant) - (params.dragConstant •ᵥ st.velocity)
  let velocity := st.velocity + (deltaTime •ᵥ acceleration)
  let position := st.position + (deltaTime •ᵥ velocity)
  { position, velocity, acceleration, time }

/-- One anchor position and time of the loop in UpdateAlongLinearPath, position_modeler.h:74-77. -/
def pathPoint (startPos : Vec2 F) (startTime : D) (endPos : Vec2 F) (endTime : D) (n i : Int) :
    Vec2 F × D :=
  let t : F := (ofInt i : F) / (ofInt n : F)
  (interpVec startPos endPos t, interpTime startTime endTime t)

/-- The loop of UpdateAlongLinearPath, position_modeler.h:73-79, from index `i` with `k` rounds left: the final
state and the outputs in order. -/
def alongPathGo (params : PositionModelerParams F D) (startPos : Vec2 F) (startTime : D) (endPos : Vec2 F)
    (endTime : D) (n : Int) : Nat → Int → TipState F D → TipState F D × List (TipState F D)
  | 0, _, st => (st, [])
  | k + 1, i, st =>
    let (p, t) := pathPoint startPos startTime endPos endTime n i
    let st' := stepState params st p t
    let (fin, out) := alongPathGo params startPos startTime endPos endTime n k (i + 1) st'
    (fin, st' :: out)

/-- PositionModeler::UpdateAlongLinearPath, position_modeler.h:69-80 -/
def updateAlongLinearPath (m : PositionModeler F D) (startPos : Vec2 F) (startTime : D) (endPos : Vec2 F)
    (endTime : D) (n : Int) : PositionModeler F D × List (TipState F D) :=
  let (st, out) := alongPathGo m.params startPos startTime endPos endTime n n.toNat 1 m.state
  ({ m with state := st }, out)

/-- The loop of ModelEndOfStroke, position_modeler.h:100-127, with `k` rounds left. -/
def endOfStrokeGo (params : PositionModelerParams F D) (anchor : Vec2 F) (stopDistance : F) :
    Nat → D → TipState F D → TipState F D × List (TipState F D)
  | 0, _, st => (st, [])
  | k + 1, deltaTime, prev =>
    let candidate := stepState params prev anchor (prev.time + deltaTime)
    if distance prev.position candidate.position <ᵇ stopDistance then (candidate, [])
    else
      let closestT := nearestPointOnSegment prev.position candidate.position anchor
      if closestT <ᵇ 1 then
        endOfStrokeGo params anchor stopDistance k (deltaTime * ofRatio 1 2) prev
      else if distance candidate.position anchor <ᵇ stopDistance then (candidate, [candidate])
      else
        let (fin, out) := endOfStrokeGo params anchor stopDistance k deltaTime candidate
        (fin, candidate :: out)

/-- PositionModeler::ModelEndOfStroke, position_modeler.h:96-128 -/
def modelEndOfStroke (m : PositionModeler F D) (anchor : Vec2 F) (deltaTime : D) (maxIterations : Int)
    (stopDistance : F) : PositionModeler F D × List (TipState F D) :=
  let (st, out) := endOfStrokeGo m.params anchor stopDistance maxIterations.toNat deltaTime m.state
  ({ m with state := st }, out)

/-- PositionModeler::Save, position_modeler.h:132 -/
def save (m : PositionModeler F D) : PositionModeler F D := { m with savedState := some m.state }

/-- PositionModeler::Restore, position_modeler.h:136-138 -/
def restore (m : PositionModeler F D) : PositionModeler F D :=
  match m.savedState with
  | some s => { m with state := s }
  | none => m

end PositionModeler
end Ink
