import Verif.Model.Utils
import Verif.Model.Params
/-!
# internal/loop_contraction_mitigation_modeler.h, .cc

`static_cast<int>(speed_samples_.size())` is taken to be exact (fewer than 2^31 elements).
-/
namespace Ink
open Scalar Arith

/-- SpeedSample, loop_contraction_mitigation_modeler.h:35-38 -/
structure SpeedSample (F D : Type) where
  speed : F
  time : D
deriving Repr, DecidableEq

/-- LoopContractionMitigationModeler, loop_contraction_mitigation_modeler.h:34-48 -/
structure LoopModeler (F D : Type) where
  samples : List (SpeedSample F D)
  savedSamples : List (SpeedSample F D)
  saveActive : Bool
  params : LoopParams F D
deriving Repr, DecidableEq

namespace LoopModeler
variable {F D : Type} [Scalar F] [Scalar D]

/-- A default-constructed modeler. -/
def default : LoopModeler F D :=
  { samples := [], savedSamples := [], saveActive := false, params := .default }

/-- Reset, loop_contraction_mitigation_modeler.cc:10-17 -/
def reset (m : LoopModeler F D) (params : LoopParams F D) : LoopModeler F D :=
  { m with samples := [], saveActive := false, params }

variable [Arith F D]

/-- `sum` over the samples in order, loop_contraction_mitigation_modeler.cc:22-25 -/
def speedSum (samples : List (SpeedSample F D)) : F := samples.foldl (fun s x => s + x.speed) 0

/-- GetInterpolationValue, loop_contraction_mitigation_modeler.cc:19-33 -/
def getInterpolationValue (m : LoopModeler F D) : F :=
  if m.samples.isEmpty || !m.params.isEnabled then 1
  else
    let averageSpeed : F := speedSum m.samples / ofInt (m.samples.length : Int)
    let sourceRatio := clamp01 (inverseLerp m.params.speedLowerBound m.params.speedUpperBound averageSpeed)
    interp m.params.strengthAtLower m.params.strengthAtUpper sourceRatio

/-- The eviction loop, loop_contraction_mitigation_modeler.cc:40-46; `newest` is `back().time`, which the loop
does not change. -/
def evict (params : LoopParams F D) (newest : D) : List (SpeedSample F D) → List (SpeedSample F D)
  | [] => []
  | s :: rest =>
    if params.minSpeedSamplingWindow <ᵇ newest - s.time &&
        decide (((s :: rest).length : Int) > params.minDiscreteSpeedSamples) then
      evict params newest rest
    else s :: rest

/-- Update, loop_contraction_mitigation_modeler.cc:35-48 -/
def update (m : LoopModeler F D) (velocity : Vec2 F) (time : D) : LoopModeler F D × F :=
  if !m.params.isEnabled then (m, 1)
  else
    let samples := evict m.params time (m.samples ++ [{ speed := velocity.magnitude, time }])
    let m := { m with samples }
    (m, m.getInterpolationValue)

/-- Save, loop_contraction_mitigation_modeler.cc:50-53 -/
def save (m : LoopModeler F D) : LoopModeler F D :=
  { m with savedSamples := m.samples, saveActive := true }

/-- Restore, loop_contraction_mitigation_modeler.cc:55-57 -/
def restore (m : LoopModeler F D) : LoopModeler F D :=
  if m.saveActive then { m with samples := m.savedSamples } else m

end LoopModeler
end Ink
