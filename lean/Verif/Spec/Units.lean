import Verif.Exact.XR
/-!
# Changing the units

What it means to describe the same calls in another coordinate system: positions are multiplied by a positive factor and
translated, times are multiplied by a positive factor and shifted, and every parameter of the library is converted
according to its dimension as documented in params.h. Nothing here refers to the modeler.
-/
namespace Ink
namespace XR
noncomputable section
open Scalar

/-- A change of the coordinate system: `c` new units of distance per old one, `τ` new units of time per old one, and the
new coordinates `v` and `s` of the old origins. -/
structure Units where
  c : ℝ
  τ : ℝ
  v : ℂ
  s : ℝ
  c_pos : 0 < c
  τ_pos : 0 < τ

namespace Units
variable (U : Units)

/-- A quantity of dimension `distance ^ i * time ^ j`. -/
def q (i j : ℤ) (x : XR) : XR := fin (U.c ^ i * U.τ ^ j) * x
/-- A vector of dimension `distance ^ i * time ^ j`. -/
def qv (i j : ℤ) (x : Vec2 XR) : Vec2 XR := ⟨U.q i j x.x, U.q i j x.y⟩
/-- A position. -/
def pos (p : Vec2 XR) : Vec2 XR := U.qv 1 0 p + V U.v
/-- A point in time. -/
def time (t : XR) : XR := U.q 0 1 t + fin U.s

/-- Stylus data have no dimension. -/
def input (i : Input XR XR) : Input XR XR := { i with position := U.pos i.position, time := U.time i.time }

def result (r : Result XR XR) : Result XR XR :=
  { r with
    position := U.pos r.position, velocity := U.qv 1 (-1) r.velocity
    acceleration := U.qv 1 (-2) r.acceleration, time := U.time r.time }

/-- Speeds (params.h:68-88) and a duration (params.h:96). -/
def loop (p : LoopParams XR XR) : LoopParams XR XR :=
  { p with
    speedLowerBound := U.q 1 (-1) p.speedLowerBound, speedUpperBound := U.q 1 (-1) p.speedUpperBound
    minSpeedSamplingWindow := U.q 0 1 p.minSpeedSamplingWindow }

/-- The mass of a weight divided by the constant of a spring is the square of a time, the drag constant divided by the mass
is a frequency (params.h:47-54, README "Position Modeling"). -/
def position (p : PositionModelerParams XR XR) : PositionModelerParams XR XR :=
  { springMassConstant := U.q 0 2 p.springMassConstant, dragConstant := U.q 0 (-1) p.dragConstant, loop := U.loop p.loop }

/-- A frequency and a distance (params.h:115-145). -/
def sampling (p : SamplingParams XR XR) : SamplingParams XR XR :=
  { p with
    minOutputRate := U.q 0 (-1) p.minOutputRate
    endOfStrokeStoppingDistance := U.q 1 0 p.endOfStrokeStoppingDistance }

/-- A duration (params.h:181-188). -/
def stylus (p : StylusParams XR) : StylusParams XR := { p with minSampleDuration := U.q 0 1 p.minSampleDuration }

/-- A duration and speeds (params.h:193-213). -/
def wobble (p : WobbleParams XR XR) : WobbleParams XR XR :=
  { p with
    timeout := U.q 0 1 p.timeout, speedFloor := U.q 1 (-1) p.speedFloor, speedCeiling := U.q 1 (-1) p.speedCeiling }

/-- Distances and speeds (params.h:273-306). -/
def confidence (p : ConfidenceParams XR) : ConfidenceParams XR :=
  { p with
    maxEstimationDistance := U.q 1 0 p.maxEstimationDistance
    minTravelSpeed := U.q 1 (-1) p.minTravelSpeed, maxTravelSpeed := U.q 1 (-1) p.maxTravelSpeed
    maxLinearDeviation := U.q 1 0 p.maxLinearDeviation }

/-- A speed and a duration (params.h:230-308). The two noise parameters are kept: what matters is their size relative to the
initial covariance of the filter, which is fixed. -/
def kalman (p : KalmanParams XR XR) : KalmanParams XR XR :=
  { p with
    minCatchupVelocity := U.q 1 (-1) p.minCatchupVelocity, predictionInterval := U.q 0 1 p.predictionInterval
    confidence := U.confidence p.confidence }

def prediction : PredictionParams XR XR → PredictionParams XR XR
  | .strokeEnd => .strokeEnd
  | .kalman p => .kalman (U.kalman p)
  | .disabled => .disabled

def params (p : StrokeModelParams XR XR) : StrokeModelParams XR XR :=
  { wobble := U.wobble p.wobble, position := U.position p.position, sampling := U.sampling p.sampling
    stylus := U.stylus p.stylus, prediction := U.prediction p.prediction }

/-- A call in the new units. -/
def op : Op XR XR → Op XR XR
  | .resetParams p => .resetParams (U.params p)
  | .reset => .reset
  | .update i results => .update (U.input i) (results.map U.result)
  | .predict results => .predict (results.map U.result)
  | .save => .save
  | .restore => .restore

/-- What the caller sees in the new units. -/
def response (r : Response XR XR) : Response XR XR := { r with results := r.results.map U.result }

/-- Another origin. -/
def ofOrigin (z : ℂ) : Units := ⟨1, 1, z, 0, one_pos, one_pos⟩
/-- Another origin of time. -/
def ofClock (s : ℝ) : Units := ⟨1, 1, 0, s, one_pos, one_pos⟩
/-- Another unit of distance. -/
def ofDistance (c : ℝ) (hc : 0 < c) : Units := ⟨c, 1, 0, 0, hc, one_pos⟩
/-- Another unit of time. -/
def ofTime (τ : ℝ) (hτ : 0 < τ) : Units := ⟨1, τ, 0, 0, one_pos, hτ⟩

/-- The Kalman parameters with the two noises converted as what they are documented to be, variances of positions
(params.h:231-236). -/
def variances (p : KalmanParams XR XR) : KalmanParams XR XR :=
  { U.kalman p with processNoise := U.q 2 0 p.processNoise, measurementNoise := U.q 2 0 p.measurementNoise }

/-- A call in the new units if the noises are converted, too. -/
def opVariances : Op XR XR → Op XR XR
  | .resetParams p => .resetParams
      { U.params p with
        prediction := match p.prediction with
          | .kalman k => .kalman (U.variances k)
          | q => U.prediction q }
  | op => U.op op

end Units

/-- A call in a coordinate system with another origin. -/
def translateResult (z : ℂ) (r : Result XR XR) : Result XR XR := { r with position := r.position + V z }
@[inherit_doc translateResult] def translate (z : ℂ) : Op XR XR → Op XR XR
  | .update i results => .update { i with position := i.position + V z } (results.map (translateResult z))
  | .predict results => .predict (results.map (translateResult z))
  | op => op

/-- A call on a clock with another origin. -/
def delayResult (s : ℝ) (r : Result XR XR) : Result XR XR := { r with time := r.time + fin s }
@[inherit_doc delayResult] def delay (s : ℝ) : Op XR XR → Op XR XR
  | .update i results => .update { i with time := i.time + fin s } (results.map (delayResult s))
  | .predict results => .predict (results.map (delayResult s))
  | op => op

end
end XR
end Ink
