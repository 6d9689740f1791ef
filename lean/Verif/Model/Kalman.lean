import Verif.Model.Utils
import Verif.Model.Params
import Verif.Model.Matrix
/-!
# internal/prediction/kalman_filter/kalman_filter.*, axis_predictor.*, internal/prediction/kalman_predictor.*
-/
namespace Ink
open Scalar Arith

/-- KalmanFilter, kalman_filter.h:27-91 -/
structure KalmanFilter (D : Type) where
  stateEstimation : Vec4 D
  errorCovariance : Matrix4 D
  stateTransition : Matrix4 D
  processNoiseCovariance : Matrix4 D
  measurementVector : Vec4 D
  measurementNoiseVariance : D
  minStableIteration : Int
  iterNum : Int
deriving Repr, DecidableEq

namespace KalmanFilter
variable {D : Type} [Scalar D]

/-- KalmanFilter::KalmanFilter, kalman_filter.cc:22-32; the state starts as Vec4() and the covariance as
Matrix4(). -/
def mk' (stateTransition processNoiseCovariance : Matrix4 D) (measurementVector : Vec4 D)
    (measurementNoiseVariance : D) (minStableIteration : Int) : KalmanFilter D :=
  { stateEstimation := Vec4.zero, errorCovariance := Matrix4.one, stateTransition, processNoiseCovariance
    measurementVector, measurementNoiseVariance, minStableIteration, iterNum := 0 }

/-- KalmanFilter::Stable, kalman_filter.h:39 -/
def stable (f : KalmanFilter D) : Bool := decide (f.iterNum ≥ f.minStableIteration)

/-- KalmanFilter::Predict, kalman_filter.cc:34-42 -/
def predict (f : KalmanFilter D) : KalmanFilter D :=
  { f with
    stateEstimation := f.stateTransition.mulVec f.stateEstimation
    errorCovariance :=
      ((f.stateTransition.mul f.errorCovariance).mul f.stateTransition.transpose).add
        f.processNoiseCovariance }

/-- The correction step of KalmanFilter::Update, kalman_filter.cc:51-69. -/
def correct (f : KalmanFilter D) (observation : D) : KalmanFilter D :=
  let y := observation - Vec4.dot f.measurementVector f.stateEstimation
  let s := Vec4.dot (Matrix4.vecMul f.measurementVector f.errorCovariance) f.measurementVector +
    f.measurementNoiseVariance
  let gain := (Matrix4.vecMul f.measurementVector f.errorCovariance).divs s
  let iKH := Matrix4.one.sub (Matrix4.outer gain f.measurementVector)
  { f with
    stateEstimation := f.stateEstimation.add (gain.scale y)
    errorCovariance :=
      ((iKH.mul f.errorCovariance).mul iKH.transpose).add
        ((Matrix4.outer gain gain).scale f.measurementNoiseVariance) }

/-- KalmanFilter::Update, kalman_filter.cc:44-70. `iter_num_++` overflows at INT_MAX. -/
def update (f : KalmanFilter D) (observation : D) : Outcome (KalmanFilter D) :=
  if f.iterNum = intMax then .ub "int overflow in iter_num_++"
  else
    let f' := { f with iterNum := f.iterNum + 1 }
    if f.iterNum = 0 then
      .ok { f' with stateEstimation := { f'.stateEstimation with e0 := observation } }
    else .ok (f'.predict.correct observation)

/-- KalmanFilter::Reset, kalman_filter.cc:72-76 -/
def reset (f : KalmanFilter D) : KalmanFilter D :=
  { f with stateEstimation := Vec4.zero, errorCovariance := Matrix4.one, iterNum := 0 }

end KalmanFilter

section Axis
variable {D : Type} [Scalar D]

/-- kDt, kDtSquared, kDtCubed, axis_predictor.cc:29-31 -/
def kDt : D := 1
@[inherit_doc kDt] def kDtSquared : D := kDt * kDt
@[inherit_doc kDt] def kDtCubed : D := kDt * kDt * kDt

/-- MakeKalmanFilter, axis_predictor.cc:33-56; an AxisPredictor (axis_predictor.h:31-57) is this filter. -/
def makeKalmanFilter (processNoise measurementNoise : D) (minStableIteration : Int) : KalmanFilter D :=
  let half : D := ofRatio 1 2
  let stateTransition : Matrix4 D :=
    ⟨⟨1, kDt, half * kDtSquared, 1 / 6 * kDtCubed⟩,
     ⟨0, 1, kDt, half * kDtSquared⟩,
     ⟨0, 0, 1, kDt⟩,
     ⟨0, 0, 0, 1⟩⟩
  let noise : Vec4 D := ⟨1 / 6 * kDtCubed, half * kDtSquared, kDt, 1⟩
  let processNoiseCovariance := (Matrix4.outer noise noise).scale processNoise
  let measurementVector : Vec4 D := ⟨1, 0, 0, 0⟩
  KalmanFilter.mk' stateTransition processNoiseCovariance measurementVector measurementNoise
    minStableIteration

end Axis

/-- KalmanPredictor::State, kalman_predictor.h:64-69 -/
structure KalmanState (F : Type) where
  position : Vec2 F
  velocity : Vec2 F
  acceleration : Vec2 F
  jerk : Vec2 F
deriving Repr, DecidableEq

/-- KalmanPredictor, kalman_predictor.h:43-104 -/
structure KalmanPredictor (F D : Type) where
  params : KalmanParams F D
  sampling : SamplingParams F D
  lastPositionReceived : Option (Vec2 F)
  sampleTimes : List D
  xPredictor : KalmanFilter D
  yPredictor : KalmanFilter D
deriving Repr, DecidableEq

variable {F D : Type} [Scalar F] [Scalar D] [Arith F D]

/-- EvaluateCubic, kalman_predictor.cc:33-49 -/
def evaluateCubic (s : KalmanState F) (deltaTime : D) : KalmanState F :=
  let dt : F := narrow deltaTime
  let dt2 := dt * dt
  let dt3 := dt2 * dt
  { position := s.position + (dt •ᵥ s.velocity) + ((dt2 •ᵥ s.acceleration) /ᵥ 2) + ((dt3 •ᵥ s.jerk) /ᵥ 6)
    velocity := s.velocity + (dt •ᵥ s.acceleration) + ((dt2 •ᵥ s.jerk) /ᵥ 2)
    acceleration := s.acceleration + (dt •ᵥ s.jerk)
    jerk := s.jerk }

namespace KalmanPredictor

/-- KalmanPredictor::KalmanPredictor, kalman_predictor.h:45-54 -/
def make (params : KalmanParams F D) (sampling : SamplingParams F D) : KalmanPredictor F D :=
  let axis := makeKalmanFilter params.processNoise params.measurementNoise params.minStableIteration
  { params, sampling, lastPositionReceived := none, sampleTimes := [], xPredictor := axis, yPredictor := axis }

/-- KalmanPredictor::Reset, kalman_predictor.cc:53-58 -/
def reset (p : KalmanPredictor F D) : KalmanPredictor F D :=
  { p with
    xPredictor := p.xPredictor.reset, yPredictor := p.yPredictor.reset
    sampleTimes := [], lastPositionReceived := none }

/-- KalmanPredictor::Update, kalman_predictor.cc:60-71 -/
def update (p : KalmanPredictor F D) (position : Vec2 F) (time : D) : Outcome (KalmanPredictor F D) := do
  let times := p.sampleTimes ++ [time]
  let times :=
    if p.params.maxTimeSamples < 0 ∨ (times.length : Int) > p.params.maxTimeSamples then times.tail else times
  let x ← p.xPredictor.update (widen position.x)
  let y ← p.yPredictor.update (widen position.y)
  return { p with lastPositionReceived := some position, sampleTimes := times, xPredictor := x, yPredictor := y }

/-- KalmanPredictor::IsStable, kalman_predictor.h:77-79 -/
def isStable (p : KalmanPredictor F D) : Bool := p.xPredictor.stable && p.yPredictor.stable

/-- The `dt` of GetEstimatedState, kalman_predictor.cc:92-94: float divided by `size_t`. -/
def averageDt (front back : D) (size : Nat) : F := narrow (back - front) / ofInt (size : Int)

/-- The state computed by GetEstimatedState once stable, kalman_predictor.cc:77-106. -/
def estimate (p : KalmanPredictor F D) (dt : F) : KalmanState F :=
  let dt2 := dt * dt
  let dt3 := dt2 * dt
  let x := p.xPredictor.stateEstimation
  let y := p.yPredictor.stateEstimation
  { position := ⟨narrow x.e0, narrow y.e0⟩
    velocity := ⟨narrow x.e1, narrow y.e1⟩ /ᵥ dt
    acceleration := p.params.accelerationWeight •ᵥ (⟨narrow x.e2, narrow y.e2⟩ /ᵥ dt2)
    jerk := p.params.jerkWeight •ᵥ (⟨narrow x.e3, narrow y.e3⟩ /ᵥ dt3) }

/-- KalmanPredictor::GetEstimatedState, kalman_predictor.cc:73-107 -/
def getEstimatedState (p : KalmanPredictor F D) : Option (KalmanState F) :=
  if !p.isStable then none
  else
    match p.sampleTimes.head?, p.sampleTimes.getLast? with
    | some front, some back => some (p.estimate (averageDt front back p.sampleTimes.length))
    | _, _ => none

/-- The loop of ConstructCubicPrediction, kalman_predictor.cc:132-144, with `k` rounds left. -/
def cubicPrediction (sampleDt : D) : Nat → KalmanState F → D → List (TipState F D)
  | 0, _, _ => []
  | k + 1, current, time =>
    let next := evaluateCubic current sampleDt
    let time := time + sampleDt
    { position := next.position, velocity := next.velocity, acceleration := next.acceleration, time } ::
      cubicPrediction sampleDt k next time

/-- `n_points` of ConstructCubicConnector, kalman_predictor.cc:154-167 -/
def connectorPoints (last : TipState F D) (est : KalmanState F) (params : KalmanParams F D) (sampleDt : D) :
    Outcome Int :=
  let distanceTraveled := stdMin (distance last.position est.position) maxFinite
  let maxVelocityAtEnds := stdMax last.velocity.magnitude est.velocity.magnitude
  let targetDuration : D := widen (distanceTraveled / stdMax maxVelocityAtEnds params.minCatchupVelocity)
  toInt (fmax (ceil (narrow (targetDuration / sampleDt) : F)) 1)

/-- The cubic through the last tip state and the estimate, kalman_predictor.cc:202-210: `a`, `b`, `c`, `d`. -/
structure Cubic (F : Type) where
  a : Vec2 F
  b : Vec2 F
  c : Vec2 F
  d : Vec2 F

@[inherit_doc Cubic] def connectorCubic (last : TipState F D) (est : KalmanState F) (fd : F) : Cubic F :=
  { a := (2 •ᵥ last.position) - (2 •ᵥ est.position) + (fd •ᵥ (last.velocity + est.velocity))
    b := ((-3) •ᵥ last.position) + (3 •ᵥ est.position) - (fd •ᵥ ((2 •ᵥ last.velocity) + est.velocity))
    c := fd •ᵥ last.velocity
    d := last.position }

/-- One output of the loop of ConstructCubicConnector, kalman_predictor.cc:214-226. -/
def connectorPoint (cu : Cubic F) (lastTime : D) (duration : D) (fd : F) (n i : Int) : TipState F D :=
  let t : F := (ofInt i : F) / (ofInt n : F)
  let t2 := t * t
  let t3 := t2 * t
  let position := (t3 •ᵥ cu.a) + (t2 •ᵥ cu.b) + (t •ᵥ cu.c) + cu.d
  let velocity := (t2 •ᵥ (3 •ᵥ cu.a)) + (t •ᵥ (2 •ᵥ cu.b)) + cu.c
  let acceleration := (t •ᵥ (6 •ᵥ cu.a)) + (2 •ᵥ cu.b)
  { position
    velocity := velocity /ᵥ fd
    acceleration := acceleration /ᵥ (fd * fd)
    time := lastTime + duration * widen t }

/-- The loop of ConstructCubicConnector, kalman_predictor.cc:213-227, from index `i` with `k` rounds left. -/
def connectorGo (cu : Cubic F) (lastTime duration : D) (fd : F) (n : Int) : Nat → Int → List (TipState F D)
  | 0, _ => []
  | k + 1, i => connectorPoint cu lastTime duration fd n i :: connectorGo cu lastTime duration fd n k (i + 1)

/-- KalmanPredictor::ConstructCubicConnector, kalman_predictor.cc:147-228 -/
def cubicConnector (last : TipState F D) (est : KalmanState F) (params : KalmanParams F D) (sampleDt : D) :
    Outcome (List (TipState F D)) := do
  let n ← connectorPoints last est params sampleDt
  let duration : D := ofInt n * sampleDt
  let fd : F := narrow duration
  return connectorGo (connectorCubic last est fd) last.time duration fd n n.toNat 1

/-- The four confidence factors of NumberOfPointsToPredict, kalman_predictor.cc:239-278. -/
structure Confidence (F : Type) where
  sampleRatio : F
  normalizedError : F
  normalizedDistance : F
  linearity : F

@[inherit_doc Confidence] def confidence (p : KalmanPredictor F D) (lastReceived : Vec2 F)
    (est : KalmanState F) : Confidence F :=
  let c := p.params.confidence
  let interval : F := narrow p.params.predictionInterval
  let estimatedError := distance lastReceived est.position
  let endState := evaluateCubic est p.params.predictionInterval
  let travelSpeed := distance est.position endState.position / interval
  let deviation := distance endState.position (est.position + (interval •ᵥ est.velocity))
  { sampleRatio := stdMin 1 ((ofInt p.xPredictor.iterNum : F) / ofInt c.desiredNumberOfSamples)
    normalizedError := 1 - normalize01 0 c.maxEstimationDistance estimatedError
    normalizedDistance := normalize01 c.minTravelSpeed c.maxTravelSpeed travelSpeed
    linearity := interp c.baselineLinearityConfidence 1 (1 - normalize01 0 c.maxLinearDeviation deviation) }

/-- KalmanPredictor::NumberOfPointsToPredict, kalman_predictor.cc:230-283 -/
def numberOfPointsToPredict (p : KalmanPredictor F D) (est : KalmanState F) : Outcome Int :=
  match p.lastPositionReceived with
  | none => .ub "dereference of an empty optional"
  | some lastReceived =>
    let targetNumber : F := narrow (p.params.predictionInterval * p.sampling.minOutputRate)
    let c := p.confidence lastReceived est
    let conf := c.sampleRatio * c.normalizedError * c.normalizedDistance * c.linearity
    toInt (fmax 0 (ceil (targetNumber * conf)))

/-- KalmanPredictor::ConstructPrediction, kalman_predictor.cc:109-126. The arguments of
ConstructCubicPrediction are evaluated after the connector. -/
def constructPrediction (p : KalmanPredictor F D) (last : TipState F D) : Outcome (List (TipState F D)) :=
  match p.getEstimatedState, p.lastPositionReceived with
  | some est, some _ => do
    let sampleDt : D := 1 / p.sampling.minOutputRate
    let connector ← cubicConnector last est p.params sampleDt
    let startTime := match connector.getLast? with
      | some s => s.time
      | none => last.time
    let n ← p.numberOfPointsToPredict est
    return connector ++ cubicPrediction sampleDt n.toNat est startTime
  | _, _ => .ok []

end KalmanPredictor
end Ink
