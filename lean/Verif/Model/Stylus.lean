import Verif.Model.Utils
import Verif.Model.Params
/-!
# internal/stylus_state_modeler.h, internal/stylus_state_modeler.cc

Simplification: indices into the deque are natural numbers; `static_cast<int>(i)` (lines 153, 195) is taken to be
exact, i.e. the deque is assumed to hold fewer than 2^31 elements.
-/
namespace Ink
open Scalar Arith

/-- StylusStateModeler::ModelerState, stylus_state_modeler.h:90-98 -/
structure StylusModelerState (F D : Type) where
  unknownPressure : Bool
  unknownTilt : Bool
  unknownOrientation : Bool
  inputs : List (Result F D)
deriving Repr, DecidableEq

/-- StylusStateModeler, stylus_state_modeler.h:48-111 -/
structure StylusModeler (F D : Type) where
  state : StylusModelerState F D
  savedState : StylusModelerState F D
  saveActive : Bool
  params : StylusParams D
deriving Repr, DecidableEq

/-- RawInputProjection, stylus_state_modeler.cc:111-114 -/
structure RawInputProjection (F : Type) where
  segmentIndex : Nat
  ratio : F
deriving Repr, DecidableEq

variable {F D : Type} [Scalar F] [Scalar D]

/-- A default-constructed ModelerState. -/
def StylusModelerState.default : StylusModelerState F D :=
  { unknownPressure := false, unknownTilt := false, unknownOrientation := false, inputs := [] }

/-- `size_t > int`: the int is converted to an unsigned 64-bit number, so a negative one becomes huge. -/
def sizeGtInt (n : Nat) (i : Int) : Bool := decide ((n : Int) > if i < 0 then i + 18446744073709551616 else i)

/-- ShouldDropOldestInput, stylus_state_modeler.cc:31-47; `newest` is `back().time`. -/
def shouldDropOldestInput (params : StylusParams D) (newest : D) (inputs : List (Result F D)) :
    Outcome Bool :=
  if params.useStrokeNormalProjection then
    if sizeGtInt inputs.length params.minInputSamples then
      match inputs with
      | _ :: second :: _ => .ok (params.minSampleDuration <ᵇ newest - second.time)
      | _ => .ub "deque index 1 out of range"
    else .ok false
  else .ok (sizeGtInt inputs.length params.maxInputSamples)

/-- `while (ShouldDropOldestInput(...)) pop_front();` stylus_state_modeler.cc:94-96 -/
def dropOldInputs (params : StylusParams D) (newest : D) :
    List (Result F D) → Outcome (List (Result F D))
  | [] => do
    if ← shouldDropOldestInput params newest ([] : List (Result F D)) then .ub "pop_front() of an empty deque"
    else .ok []
  | r :: rest => do
    if ← shouldDropOldestInput params newest (r :: rest) then dropOldInputs params newest rest
    else .ok (r :: rest)

/-- `field < 0 || std::isnan(field)`, stylus_state_modeler.cc:55-63 -/
def isUnknown (v : F) : Bool := v <ᵇ 0 || isNaN v

namespace StylusModeler

/-- A default-constructed StylusStateModeler. -/
def default : StylusModeler F D :=
  { state := .default, savedState := .default, saveActive := false, params := .default }

/-- StylusStateModeler::Reset, stylus_state_modeler.cc:99-106 -/
def reset (m : StylusModeler F D) (params : StylusParams D) : StylusModeler F D :=
  { m with state := .default, saveActive := false, params }

variable [Arith F D]

/-- The Result stored for a raw input, stylus_state_modeler.cc:73-92: finite differences of position and
velocity; `Vec2 / double` converts the double to float. -/
def rawResult (last? : Option (Result F D)) (position : Vec2 F) (time : D) (s : StylusState F) :
    Result F D :=
  let (velocity, acceleration) : Vec2 F × Vec2 F :=
    match last? with
    | none => (Vec2.zero, Vec2.zero)
    | some last =>
      if !(time =ᵇ last.time) then
        let dt : F := narrow (time - last.time)
        let v := (position - last.position) /ᵥ dt
        (v, (v - last.velocity) /ᵥ dt)
      else (Vec2.zero, Vec2.zero)
  { position, velocity, acceleration, time
    pressure := s.pressure, tilt := s.tilt, orientation := s.orientation }

/-- The flags after an update, stylus_state_modeler.cc:55-63. -/
def flags (st : StylusModelerState F D) (s : StylusState F) : StylusModelerState F D :=
  { st with
    unknownPressure := st.unknownPressure || isUnknown s.pressure
    unknownTilt := st.unknownTilt || isUnknown s.tilt
    unknownOrientation := st.unknownOrientation || isUnknown s.orientation }

/-- StylusStateModeler::Update, stylus_state_modeler.cc:51-97 -/
def update (m : StylusModeler F D) (position : Vec2 F) (time : D) (s : StylusState F) :
    Outcome (StylusModeler F D) :=
  let st := flags m.state s
  if !m.params.useStrokeNormalProjection && st.unknownPressure && st.unknownTilt && st.unknownOrientation then
    .ok { m with state := { st with inputs := [] } }
  else do
    let r := rawResult st.inputs.getLast? position time s
    let inputs ← dropOldInputs m.params time (st.inputs ++ [r])
    return { m with state := { st with inputs } }

/-- The best candidates of ProjectAlongStrokeNormal, stylus_state_modeler.cc:121-124. -/
structure NormalBest (F : Type) where
  left : Option (RawInputProjection F)
  right : Option (RawInputProjection F)
  distLeft : F
  distRight : F
deriving Repr, DecidableEq

/-- One round of the loop of ProjectAlongStrokeNormal, stylus_state_modeler.cc:139-161. -/
def normalRound (position strokeNormal : Vec2 F) (segStart segEnd : Vec2 F) (i : Nat) (b : NormalBest F) :
    NormalBest F :=
  match projectToSegmentAlongNormal segStart segEnd position strokeNormal with
  | none => b
  | some ratio =>
    let projection := interpVec segStart segEnd ratio
    let dist := distance position projection
    let cand : RawInputProjection F := { segmentIndex := i, ratio }
    if Vec2.dot (projection - position) strokeNormal <ᵇ 0 then
      if dist <ᵇ b.distRight then { b with right := some cand, distRight := dist } else b
    else
      if dist <ᵇ b.distLeft then { b with left := some cand, distLeft := dist } else b

/-- The loop of ProjectAlongStrokeNormal over the segments from index `i` on, stylus_state_modeler.cc:137-162. -/
def normalLoop (position strokeNormal : Vec2 F) :
    List (Result F D) → Nat → NormalBest F → NormalBest F
  | a :: b :: rest, i, best =>
    normalLoop position strokeNormal (b :: rest) (i + 1)
      (normalRound position strokeNormal a.position b.position i best)
  | _, _, best => best

/-- ProjectAlongStrokeNormal, stylus_state_modeler.cc:116-179 (the parameter `time` is unused). For an empty
polyline `size() - 1` wraps around and the first access is out of range. -/
def projectAlongStrokeNormal (position acceleration strokeNormal : Vec2 F) (polyline : List (Result F D)) :
    Outcome (Option (RawInputProjection F)) :=
  if polyline.isEmpty then .ub "index into an empty polyline"
  else
    let best := normalLoop position strokeNormal polyline 0
      { left := none, right := none, distLeft := inf, distRight := inf }
    .ok <|
      if best.left.isSome && best.right.isSome then
        if 0 <ᵇ Vec2.dot strokeNormal acceleration then best.right else best.left
      else if best.right.isSome then best.right else best.left

/-- The loop of ProjectToClosestPoint, stylus_state_modeler.cc:185-199. -/
def closestLoop (position : Vec2 F) :
    List (Result F D) → Nat → Option (RawInputProjection F) → F → Option (RawInputProjection F)
  | a :: b :: rest, i, best, minDistance =>
    let ratio := nearestPointOnSegment a.position b.position position
    let dist := distance position (interpVec a.position b.position ratio)
    if dist ≤ᵇ minDistance then
      closestLoop position (b :: rest) (i + 1) (some { segmentIndex := i, ratio }) dist
    else closestLoop position (b :: rest) (i + 1) best minDistance
  | _, _, best, _ => best

/-- ProjectToClosestPoint, stylus_state_modeler.cc:181-201 -/
def projectToClosestPoint (position : Vec2 F) (polyline : List (Result F D)) :
    Outcome (Option (RawInputProjection F)) :=
  if polyline.isEmpty then .ub "index into an empty polyline"
  else .ok (closestLoop position polyline 0 none inf)

/-- The Result for a found or missing projection, stylus_state_modeler.cc:226-242. -/
def projectedResult (inputs : List (Result F D)) (tip : TipState F D)
    (projection : Option (RawInputProjection F)) : Outcome (Result F D) :=
  match projection with
  | some p =>
    match inputs[p.segmentIndex]?, inputs[p.segmentIndex + 1]? with
    | some a, some b => interpResult a b p.ratio
    | _, _ => .ub "deque index out of range"
  | none =>
    match inputs.head?, inputs.getLast? with
    | some front, some back =>
      .ok (if distance front.position tip.position <ᵇ distance back.position tip.position then front else back)
    | _, _ => .ub "front() of an empty deque"

/-- Correcting the time and stripping missing fields, stylus_state_modeler.cc:245-256. -/
def strip (st : StylusModelerState F D) (tip : TipState F D) (r : Result F D) : Result F D :=
  { r with
    time := tip.time
    pressure := if st.unknownPressure then -1 else r.pressure
    tilt := if st.unknownTilt then -1 else r.tilt
    orientation := if st.unknownOrientation then -1 else r.orientation }

/-- The answer when there are no samples, stylus_state_modeler.cc:207-216. -/
def emptyResult : Result F D :=
  { position := Vec2.zero, velocity := Vec2.zero, acceleration := Vec2.zero, time := 0
    pressure := -1, tilt := -1, orientation := -1 }

/-- StylusStateModeler::Query, stylus_state_modeler.cc:205-257 -/
def query (m : StylusModeler F D) (tip : TipState F D) (strokeNormal : Option (Vec2 F)) :
    Outcome (Result F D) :=
  if m.state.inputs.isEmpty then .ok emptyResult
  else do
    let projection ←
      match m.params.useStrokeNormalProjection, strokeNormal with
      | true, some n => projectAlongStrokeNormal tip.position tip.acceleration n m.state.inputs
      | _, _ => projectToClosestPoint tip.position m.state.inputs
    let r ← projectedResult m.state.inputs tip projection
    return strip m.state tip r

/-- StylusStateModeler::Save, stylus_state_modeler.cc:259-262 -/
def save (m : StylusModeler F D) : StylusModeler F D :=
  { m with savedState := m.state, saveActive := true }

/-- StylusStateModeler::Restore, stylus_state_modeler.cc:264-268 -/
def restore (m : StylusModeler F D) : StylusModeler F D :=
  if m.saveActive then { m with state := m.savedState } else m

end StylusModeler
end Ink
