import Verif.Model.Types
/-!
# params.h / params.cc
-/
namespace Ink
open Scalar

/-- PositionModelerParams::LoopContractionMitigationParameters, params.h:60-109 -/
structure LoopParams (F D : Type) where
  isEnabled : Bool
  speedLowerBound : F
  speedUpperBound : F
  strengthAtLower : F
  strengthAtUpper : F
  minSpeedSamplingWindow : D
  minDiscreteSpeedSamples : Int
deriving Repr, DecidableEq

/-- PositionModelerParams, params.h:47-112 -/
structure PositionModelerParams (F D : Type) where
  springMassConstant : F
  dragConstant : F
  loop : LoopParams F D
deriving Repr, DecidableEq

/-- SamplingParams, params.h:115-145 -/
structure SamplingParams (F D : Type) where
  minOutputRate : D
  endOfStrokeStoppingDistance : F
  endOfStrokeMaxIterations : Int
  maxOutputsPerCall : Int
  maxEstimatedAngle : D
deriving Repr, DecidableEq

/-- StylusStateModelerParams, params.h:155-189 -/
structure StylusParams (D : Type) where
  maxInputSamples : Int
  useStrokeNormalProjection : Bool
  minInputSamples : Int
  minSampleDuration : D
deriving Repr, DecidableEq

/-- WobbleSmootherParams, params.h:193-213 -/
structure WobbleParams (F D : Type) where
  isEnabled : Bool
  timeout : D
  speedFloor : F
  speedCeiling : F
deriving Repr, DecidableEq

/-- KalmanPredictorParams::ConfidenceParams, params.h:273-306 -/
structure ConfidenceParams (F : Type) where
  desiredNumberOfSamples : Int
  maxEstimationDistance : F
  minTravelSpeed : F
  maxTravelSpeed : F
  maxLinearDeviation : F
  baselineLinearityConfidence : F
deriving Repr, DecidableEq

/-- KalmanPredictorParams, params.h:230-308 -/
structure KalmanParams (F D : Type) where
  processNoise : D
  measurementNoise : D
  minStableIteration : Int
  maxTimeSamples : Int
  minCatchupVelocity : F
  accelerationWeight : F
  jerkWeight : F
  predictionInterval : D
  confidence : ConfidenceParams F
deriving Repr, DecidableEq

/-- PredictionParams, params.h:222, 312-316 -/
inductive PredictionParams (F D : Type) where
  | strokeEnd
  | kalman (p : KalmanParams F D)
  | disabled
deriving Repr, DecidableEq

/-- StrokeModelParams, params.h:324-331 (ExperimentalParams is empty). -/
structure StrokeModelParams (F D : Type) where
  wobble : WobbleParams F D
  position : PositionModelerParams F D
  sampling : SamplingParams F D
  stylus : StylusParams D
  prediction : PredictionParams F D
deriving Repr, DecidableEq

section Defaults
variable {F D : Type} [Scalar F] [Scalar D]

/-- Default member values, params.h:68-108. -/
def LoopParams.default : LoopParams F D :=
  { isEnabled := false, speedLowerBound := -1, speedUpperBound := -1, strengthAtLower := -1,
    strengthAtUpper := -1, minSpeedSamplingWindow := -1, minDiscreteSpeedSamples := -1 }

/-- Default member values, params.h:50-54: `11.f / 32400` is a float division. -/
def PositionModelerParams.default : PositionModelerParams F D :=
  { springMassConstant := 11 / 32400, dragConstant := 72, loop := .default }

/-- Default member values, params.h:162-188. -/
def StylusParams.default : StylusParams D :=
  { maxInputSamples := 10, useStrokeNormalProjection := false, minInputSamples := -1,
    minSampleDuration := -1 }

/-- Default member values, params.h:197-212. -/
def WobbleParams.default : WobbleParams F D :=
  { isEnabled := true, timeout := -1, speedFloor := -1, speedCeiling := -1 }

/-- kMaxEndOfStrokeMaxIterations, params.cc:40 -/
def kMaxEndOfStrokeMaxIterations : Int := 1000
/-- kMaxDiscreteSamples, params.cc:43 -/
def kMaxDiscreteSamples : Int := 10000
/-- kMaxSamplingWindow, params.cc:44 -/
def kMaxSamplingWindow : D := 10000

/-- ValidateLoopContractionMitigationParameters, params.cc:48-94 -/
def validateLoopParams (p : LoopParams F D) : Status :=
  if !p.isEnabled then .ok
  else if p.speedUpperBound <ᵇ p.speedLowerBound || p.speedLowerBound <ᵇ 0 then
    .err .invalidArgument "speed_lower_bound must be smaller or equal to speed_upper_bound and >= 0"
  else if p.strengthAtLower <ᵇ p.strengthAtUpper || 1 <ᵇ p.strengthAtLower || p.strengthAtUpper <ᵇ 0 then
    .err .invalidArgument "interpolation_strength_at_speed_lower_bound must be >= upper and in [0, 1]"
  else if p.minDiscreteSpeedSamples < 1 ∨ kMaxDiscreteSamples < p.minDiscreteSpeedSamples then
    .err .invalidArgument "min_discrete_speed_samples must be in the interval"
  else if p.minSpeedSamplingWindow ≤ᵇ 0 || kMaxSamplingWindow <ᵇ p.minSpeedSamplingWindow then
    .err .invalidArgument "min_speed_sampling_window must be in the interval"
  else .ok

/-- ValidatePositionModelerParams, params.cc:96-105 -/
def validatePositionModelerParams (p : PositionModelerParams F D) : Status :=
  (validateLoopParams p.loop).andThen <|
  (validateGreaterThanZero p.springMassConstant "PositionModelerParams::spring_mass_constant").andThen <|
  validateGreaterThanZero p.dragConstant "PositionModelerParams::drag_ratio"

/-- ValidateSamplingParams, params.cc:107-136 -/
def validateSamplingParams [Arith F D] (p : SamplingParams F D) : Status :=
  (validateGreaterThanZero p.minOutputRate "SamplingParams::min_output_rate").andThen <|
  (validateGreaterThanZero p.endOfStrokeStoppingDistance
    "SamplingParams::end_of_stroke_stopping_distance").andThen <|
  (validateGreaterThanZeroInt p.endOfStrokeMaxIterations
    "SamplingParams::end_of_stroke_max_iterations").andThen <|
  if kMaxEndOfStrokeMaxIterations < p.endOfStrokeMaxIterations then
    .err .invalidArgument "SamplingParams::end_of_stroke_max_iterations must be at most"
  else
  (validateGreaterThanZeroInt p.maxOutputsPerCall "SamplingParams::max_outputs_per_call").andThen <|
  if !(p.maxEstimatedAngle =ᵇ -1) then
    (validateGreaterThanZero p.maxEstimatedAngle
      "SamplingParams::max_estimated_angle_to_traverse_per_input").andThen <|
    if Arith.pi F ≤ᵇ p.maxEstimatedAngle then
      .err .invalidArgument "SamplingParams::max_estimated_angle_to_traverse_per_input must be less than kPi"
    else .ok
  else .ok

/-- ValidateStylusStateModelerParams, params.cc:138-152 -/
def validateStylusParams (p : StylusParams D) : Status :=
  if p.useStrokeNormalProjection then
    (validateGreaterThanZeroInt p.minInputSamples "StylusStateModelerParams::min_input_samples").andThen <|
    validateGreaterThanZero p.minSampleDuration "StylusStateModelerParams::min_sample_duration"
  else
    validateGreaterThanZeroInt p.maxInputSamples "StylusStateModelerParams::max_input_samples"

/-- ValidateWobbleSmootherParams, params.cc:154-171 -/
def validateWobbleParams (p : WobbleParams F D) : Status :=
  if !p.isEnabled then .ok
  else
    (validateGreaterThanOrEqualToZero p.timeout "WobbleSmootherParams::timeout").andThen <|
    (validateGreaterThanOrEqualToZero p.speedFloor "WobbleSmootherParams::speed_floor").andThen <|
    (validateIsFiniteNumber p.speedCeiling "WobbleSmootherParams::speed_ceiling").andThen <|
    if p.speedCeiling <ᵇ p.speedFloor then
      .err .invalidArgument "WobbleSmootherParams::speed_ceiling must be >= speed_floor"
    else .ok

/-- ValidateKalmanPredictorParams, params.cc:175-234 -/
def validateKalmanParams (p : KalmanParams F D) : Status :=
  (validateGreaterThanZero p.processNoise "KalmanPredictorParams::process_noise").andThen <|
  (validateGreaterThanZero p.measurementNoise "KalmanPredictorParams::measurement_noise").andThen <|
  (validateGreaterThanZeroInt p.minStableIteration "KalmanPredictorParams::min_stable_iteration").andThen <|
  (validateGreaterThanZeroInt p.maxTimeSamples "KalmanPredictorParams::max_time_samples").andThen <|
  (validateGreaterThanZero p.minCatchupVelocity "KalmanPredictorParams::min_catchup_velocity").andThen <|
  (validateIsFiniteNumber p.accelerationWeight "KalmanPredictorParams::acceleration_weight").andThen <|
  (validateIsFiniteNumber p.jerkWeight "KalmanPredictorParams::jerk_weight").andThen <|
  -- the label really is "jerk_weight" in the source
  (validateGreaterThanZero p.predictionInterval "KalmanPredictorParams::jerk_weight").andThen <|
  (validateGreaterThanZeroInt p.confidence.desiredNumberOfSamples
    "ConfidenceParams::desired_number_of_samples").andThen <|
  (validateGreaterThanZero p.confidence.maxEstimationDistance
    "ConfidenceParams::max_estimation_distance").andThen <|
  (validateGreaterThanOrEqualToZero p.confidence.minTravelSpeed
    "ConfidenceParams::min_travel_speed").andThen <|
  (validateIsFiniteNumber p.confidence.maxTravelSpeed "ConfidenceParams::max_travel_speed").andThen <|
  if p.confidence.maxTravelSpeed <ᵇ p.confidence.minTravelSpeed then
    .err .invalidArgument "max_travel_speed must be >= min_travel_speed"
  else
  (validateGreaterThanZero p.confidence.maxLinearDeviation
    "ConfidenceParams::max_linear_deviation").andThen <|
  if p.confidence.baselineLinearityConfidence <ᵇ 0 || 1 <ᵇ p.confidence.baselineLinearityConfidence then
    .err .invalidArgument "baseline_linearity_confidence must lie in the interval [0, 1]"
  else .ok

/-- ValidatePredictionParams, params.cc:238-246 -/
def validatePredictionParams : PredictionParams F D → Status
  | .kalman p => validateKalmanParams p
  | .strokeEnd => .ok
  | .disabled => .ok

/-- ValidateStrokeModelParams, params.cc:248-265 -/
def validateStrokeModelParams [Arith F D] (p : StrokeModelParams F D) : Status :=
  if p.position.loop.isEnabled && !p.stylus.useStrokeNormalProjection then
    .err .invalidArgument "project_to_segment_along_normal_is_enabled must be true"
  else
    (validateWobbleParams p.wobble).andThen <|
    (validatePositionModelerParams p.position).andThen <|
    (validateSamplingParams p.sampling).andThen <|
    (validateStylusParams p.stylus).andThen <|
    validatePredictionParams p.prediction

end Defaults
end Ink
