import Verif.Model.Utils
import Verif.Model.Params
/-!
# internal/wobble_smoother.h, internal/wobble_smoother.cc

Deques are lists, front first.
-/
namespace Ink
open Scalar Arith

/-- WobbleSmoother::Sample, wobble_smoother.h:50-56 -/
structure WobbleSample (F D : Type) where
  position : Vec2 F
  weightedPosition : Vec2 F
  distance : F
  duration : D
  time : D
deriving Repr, DecidableEq

/-- WobbleSmoother::State, wobble_smoother.h:58-63 -/
structure WobbleState (F D : Type) where
  samples : List (WobbleSample F D)
  weightedPositionSum : Vec2 F
  distanceSum : F
  durationSum : F
deriving Repr, DecidableEq

/-- WobbleSmoother, wobble_smoother.h:34-75 -/
structure WobbleSmoother (F D : Type) where
  state : WobbleState F D
  savedState : WobbleState F D
  saveActive : Bool
  params : WobbleParams F D
deriving Repr, DecidableEq

variable {F D : Type} [Scalar F] [Scalar D]

/-- A default-constructed `State`, wobble_smoother.h:58-63. -/
def WobbleState.default : WobbleState F D :=
  { samples := [], weightedPositionSum := Vec2.zero, distanceSum := 0, durationSum := 0 }

namespace WobbleSmoother

/-- A default-constructed WobbleSmoother, wobble_smoother.h:65-74. -/
def default : WobbleSmoother F D :=
  { state := .default, savedState := .default, saveActive := false, params := .default }

/-- WobbleSmoother::Reset, wobble_smoother.cc:24-35 -/
def reset (w : WobbleSmoother F D) (params : WobbleParams F D) (position : Vec2 F) (time : D) :
    WobbleSmoother F D :=
  { w with
    state :=
      { samples := [{ position, weightedPosition := Vec2.zero, distance := 0, duration := 0, time }]
        weightedPositionSum := Vec2.zero, distanceSum := 0, durationSum := 0 }
    saveActive := false
    params }

variable [Arith F D]

/-- `sum += d` resp. `sum -= d` with a float `sum` and a double `d` (wobble_smoother.cc:54, 58): computed in
double, then converted. -/
def addDouble (sum : F) (d : D) : F := narrow (widen sum + d)
@[inherit_doc addDouble] def subDouble (sum : F) (d : D) : F := narrow (widen sum - d)

/-- The eviction loop, wobble_smoother.cc:55-60. `front()` of an empty deque is undefined. -/
def evict (limit : D) : List (WobbleSample F D) → Vec2 F → F → F → Outcome (WobbleState F D)
  | [], _, _, _ => .ub "front() of an empty deque"
  | s :: rest, wps, dist, dur =>
    if s.time <ᵇ limit then
      evict limit rest (wps - s.weightedPosition) (dist - s.distance) (subDouble dur s.duration)
    else .ok { samples := s :: rest, weightedPositionSum := wps, distanceSum := dist, durationSum := dur }

/-- The part of Update that appends the new sample, wobble_smoother.cc:45-54. -/
def push (st : WobbleState F D) (last : WobbleSample F D) (position : Vec2 F) (time : D) :
    WobbleState F D :=
  let deltaTime := time - last.time
  let s : WobbleSample F D :=
    { position, weightedPosition := (narrow deltaTime : F) •ᵥ position
      distance := distance position last.position, duration := deltaTime, time }
  { samples := st.samples ++ [s]
    weightedPositionSum := st.weightedPositionSum + s.weightedPosition
    distanceSum := st.distanceSum + s.distance
    durationSum := addDouble st.durationSum s.duration }

/-- The smoothed position computed from the window, wobble_smoother.cc:62-76. -/
def smoothed (params : WobbleParams F D) (st : WobbleState F D) (position : Vec2 F) : Vec2 F :=
  if st.durationSum =ᵇ 0 then position
  else
    let avgPosition := st.weightedPositionSum /ᵥ st.durationSum
    let avgSpeed := st.distanceSum / st.durationSum
    interpVec avgPosition position (normalize01 params.speedFloor params.speedCeiling avgSpeed)

/-- WobbleSmoother::Update, wobble_smoother.cc:37-77 -/
def update (w : WobbleSmoother F D) (position : Vec2 F) (time : D) :
    Outcome (WobbleSmoother F D × Vec2 F) :=
  if !w.params.isEnabled then .ok (w, position)
  else
    match w.state.samples.getLast? with
    | none => .ub "back() of an empty deque"
    | some last => do
      let st := push w.state last position time
      let st ← evict (time - w.params.timeout) st.samples st.weightedPositionSum st.distanceSum st.durationSum
      return ({ w with state := st }, smoothed w.params st position)

/-- WobbleSmoother::Save, wobble_smoother.cc:79-82 -/
def save (w : WobbleSmoother F D) : WobbleSmoother F D :=
  { w with savedState := w.state, saveActive := true }

/-- WobbleSmoother::Restore, wobble_smoother.cc:84-86 -/
def restore (w : WobbleSmoother F D) : WobbleSmoother F D :=
  if w.saveActive then { w with state := w.savedState } else w

end WobbleSmoother
end Ink
