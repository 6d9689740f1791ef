import Mathlib.Analysis.Complex.Basic
import Mathlib.Analysis.Convex.Segment
import Mathlib.Geometry.Euclidean.Angle.Unoriented.Basic
/-!
# The model as the README describes it

Algorithms 1-4 of README.md on real numbers, the plane being ℂ. Where the README and the code disagree the code is
followed and the place marked. Nothing here refers to the transcription of the code.
-/
namespace Ink.Ref
noncomputable section
open Classical

/-- A tip state (README.md:340-343), with the acceleration that the code also reports. -/
structure Tip where
  pos : ℂ
  vel : ℂ
  acc : ℂ
  time : ℝ

/-- Linear interpolation `L` (README.md:355-356). -/
def lerp {E : Type} [AddCommGroup E] [Module ℝ E] (a b : E) (c : ℝ) : E := a + c • (b - a)

/-- The clamp function `C` for the bounds 0 and 1 (README.md:361-362). -/
def clamp (x : ℝ) : ℝ := max 0 (min x 1)

/-- The parameters that matter for the position of the modeled tip. -/
structure Params where
  /-- the "shape mass" constant `M` -/
  mass : ℝ
  /-- the drag constant `k_d` -/
  drag : ℝ
  /-- `min_output_rate` -/
  rate : ℝ
  /-- `end_of_stroke_stopping_distance` -/
  stop : ℝ
  /-- `end_of_stroke_max_iterations` -/
  maxIter : ℕ
  /-- `max_outputs_per_call` -/
  maxOut : ℤ
  /-- `max_estimated_angle_to_traverse_per_input`, if set -/
  maxAngle : Option ℝ
  /-- `timeout`, `speed_floor`, `speed_ceiling` if the wobble smoother is enabled -/
  wobble : Option (ℝ × ℝ × ℝ)

/-- What validation guarantees. -/
structure Params.Valid (P : Params) : Prop where
  mass : 0 < P.mass
  drag : 0 < P.drag
  rate : 0 < P.rate
  stop : 0 < P.stop
  maxIter : 0 < P.maxIter
  maxOut : 0 < P.maxOut
  maxAngle : ∀ a, P.maxAngle = some a → 0 < a ∧ a < Real.pi
  wobble : ∀ t lo hi, P.wobble = some (t, lo, hi) → 0 ≤ t ∧ 0 ≤ lo ∧ lo ≤ hi

/-! ## Algorithm 1: wobble smoothing -/

/-- An input in the averaging window: its position, its distance in time and space from the input before it, its
time. -/
structure Sample where
  pos : ℂ
  dur : ℝ
  dist : ℝ
  time : ℝ

/-- The sample of an input that follows `last`. -/
def sample (last : Sample) (pos : ℂ) (time : ℝ) : Sample := ⟨pos, time - last.time, ‖pos - last.pos‖, time⟩

/-- The window after a new input: the samples of the last `timeout` (README.md:391-394). -/
def slide (timeout : ℝ) (window : List Sample) (s : Sample) : List Sample :=
  (window ++ [s]).dropWhile fun x => decide (timeout < s.time - x.time)

/-- The total duration, the weighted sum of positions, and the total distance of a window. -/
def totalDur (window : List Sample) : ℝ := (window.map Sample.dur).sum
@[inherit_doc totalDur] def totalPos (window : List Sample) : ℂ := (window.map fun s => s.dur • s.pos).sum
@[inherit_doc totalDur] def totalDist (window : List Sample) : ℝ := (window.map Sample.dist).sum

/-- `λ` (README.md:420-425) -/
def speedRatio (lo hi v : ℝ) : ℝ := if lo = hi then (if lo < v then 1 else 0) else clamp ((v - lo) / (hi - lo))

/-- The smoothed position of a Move at `pos` (README.md:396-427). The code weights the positions by the time elapsed since
the input before, and takes the total distance by the total duration as the average speed; the README takes plain means. -/
def smoothed (lo hi : ℝ) (window : List Sample) (pos : ℂ) : ℂ :=
  if totalDur window = 0 then pos
  else lerp ((totalDur window)⁻¹ • totalPos window) pos (speedRatio lo hi (totalDist window / totalDur window))

/-! ## Algorithm 2: resampling -/

/-- The points `k / n`, `k = 1 … n`, of the way from one input to the next (README.md:450-453). -/
def upsample (a b : ℂ × ℝ) (n : ℕ) : List (ℂ × ℝ) :=
  (List.range n).map fun k : ℕ => (lerp a.1 b.1 ((k + 1 : ℝ) / n), lerp a.2 b.2 ((k + 1 : ℝ) / n))

/-- The angle between two velocities; a resting pen does not turn. -/
def turn (v w : ℂ) : ℝ := if v = 0 ∨ w = 0 then 0 else InnerProductGeometry.angle v w

/-- The velocity the tip would gain on its way to an input, estimated as one step without drag (params.h:134-144). -/
def velocityGain (P : Params) (q : Tip) (pos : ℂ) (dt : ℝ) : ℂ := (dt / P.mass) • (pos - q.pos)

/-- The number of steps for the next input: enough for the rate (README.md:446-448) and, if required, for the turning angle;
the code caps it at the largest `int`. -/
def steps (P : Params) (q : Tip) (pos : ℂ) (dt : ℝ) : ℤ :=
  min 2147483647 (max ⌈dt * P.rate⌉ (match P.maxAngle with
    | none => 0
    | some a => ⌈turn q.vel (q.vel + velocityGain P q pos dt) / a⌉))

/-! ## Algorithm 3: position modeling -/

/-- One step (README.md:534-541). -/
def spring (P : Params) (q : Tip) (i : ℂ × ℝ) : Tip :=
  let dt := i.2 - q.time
  let acc := P.mass⁻¹ • (i.1 - q.pos) - P.drag • q.vel
  let vel := q.vel + dt • acc
  ⟨q.pos + dt • vel, vel, acc, i.2⟩

/-- The tip states for a sequence of anchors. -/
def follow (P : Params) (q : Tip) : List (ℂ × ℝ) → List Tip
  | [] => []
  | i :: is => spring P q i :: follow P (spring P q i) is

/-! ## Algorithm 4: the end of the stroke -/

/-- The way from `a` to `b` comes closer to `w` than its end is (README.md:579-581). -/
def Overshoots (w a b : ℂ) : Prop := ∃ z ∈ segment ℝ a b, ‖w - z‖ < ‖w - b‖

/-- The end-of-stroke tip states with at most `k` iterations, the next step being `dt` long (README.md:565-594); and the
last candidate, if it was discarded for being too close, otherwise the last state. -/
def settle (P : Params) (w : ℂ) : ℕ → ℝ → Tip → Tip × List Tip
  | 0, _, q => (q, [])
  | k + 1, dt, q =>
    let c := spring P q (w, q.time + dt)
    if ‖c.pos - q.pos‖ < P.stop then (c, [])
    else if Overshoots w q.pos c.pos then settle P w k (dt / 2) q
    else if ‖w - c.pos‖ < P.stop then (c, [c])
    else ((settle P w k dt c).1, c :: (settle P w k dt c).2)

/-! ## The stroke -/

/-- The state of a stroke. -/
structure State where
  tip : Tip
  window : List Sample
  /-- the smoothed position and the time of the last input -/
  anchor : ℂ × ℝ

/-- The stroke starts at rest (README.md:509-510). -/
def start (pos : ℂ) (time : ℝ) : State := ⟨⟨pos, 0, 0, time⟩, [⟨pos, 0, 0, time⟩], (pos, time)⟩

/-- The window after a Move, and the smoothed position. -/
def smooth (P : Params) (s : State) (pos : ℂ) (time : ℝ) : List Sample × ℂ :=
  match P.wobble, s.window.getLast? with
  | some (timeout, lo, hi), some last =>
    let w := slide timeout s.window (sample last pos time)
    (w, smoothed lo hi w pos)
  | _, _ => (s.window, pos)

/-- A Move: the tip states, none if it is too far from the last input. Even then it takes part in the smoothing of later
ones (the code's doing, not the README's). -/
def move (P : Params) (s : State) (pos : ℂ) (time : ℝ) : State × Option (List Tip) :=
  let (window, anchor) := smooth P s pos time
  let n := steps P s.tip pos (time - s.anchor.2)
  if n ≤ P.maxOut then
    let tips := follow P s.tip (upsample s.anchor (anchor, time) n.toNat)
    (⟨tips.getLastD s.tip, window, (anchor, time)⟩, some tips)
  else ({ s with window }, none)

/-- An Up: the tip states if it is not too far from the last input. The position is not smoothed (README.md:401). There is
always at least one tip state: if nothing else it is the last candidate (the code's doing). -/
def up (P : Params) (s : State) (pos : ℂ) (time : ℝ) : Option (List Tip) :=
  let n := steps P s.tip pos (time - s.anchor.2)
  if n ≤ P.maxOut then
    let tips := follow P s.tip (upsample s.anchor (pos, time) n.toNat)
    let fin := settle P pos P.maxIter (1 / P.rate) (tips.getLastD s.tip)
    some (if tips ++ fin.2 = [] then [fin.1] else tips ++ fin.2)
  else none

/-- An input after the Down. -/
inductive Touch where
  | move (pos : ℂ) (time : ℝ)
  | up (pos : ℂ) (time : ℝ)

/-- Its time. -/
def Touch.time : Touch → ℝ
  | .move _ t => t
  | .up _ t => t

/-- One input. -/
def advance (P : Params) (s : State) : Touch → State × Option (List Tip)
  | .move pos time => move P s pos time
  | .up pos time => (s, up P s pos time)

/-- The state of a stroke after the inputs that follow its Down. -/
def after (P : Params) (s : State) (is : List Touch) : State := is.foldl (fun s i => (advance P s i).1) s

/-- The tip states for each of the inputs; none for an input that is too far from the last one. -/
def answers (P : Params) : State → List Touch → List (Option (List Tip))
  | _, [] => []
  | s, i :: is => (advance P s i).2 :: answers P (advance P s i).1 is

/-- A stroke: what its Down at `pos` and the inputs after it give. -/
def stroke (P : Params) (pos : ℂ) (time : ℝ) (is : List Touch) : List (Option (List Tip)) :=
  some [(start pos time).tip] :: answers P (start pos time) is

/-! ## The raw inputs

What the stylus modeler keeps of the inputs: position, and velocity and acceleration by difference quotients. -/

/-- The sample of a raw input that follows `last`. -/
def raw (last : Option Tip) (i : ℂ × ℝ) : Tip :=
  match last with
  | none => ⟨i.1, 0, 0, i.2⟩
  | some l =>
    if i.2 = l.time then ⟨i.1, 0, 0, i.2⟩
    else
      let vel := (i.2 - l.time)⁻¹ • (i.1 - l.pos)
      ⟨i.1, vel, (i.2 - l.time)⁻¹ • (vel - l.vel), i.2⟩

/-- The samples of a sequence of inputs. -/
def raws (l : List (ℂ × ℝ)) : List Tip := l.foldl (fun acc i => acc ++ [raw acc.getLast? i]) []

/-- Where an input is taken to be: Moves are smoothed. -/
def place (P : Params) (s : State) : Touch → ℂ × ℝ
  | .move pos time => ((smooth P s pos time).2, time)
  | .up pos time => (pos, time)

/-- Where the inputs after the Down are taken to be. -/
def places (P : Params) : State → List Touch → List (ℂ × ℝ)
  | _, [] => []
  | s, i :: is => place P s i :: places P (advance P s i).1 is

/-- The samples of a stroke. -/
def polyline (P : Params) (pos : ℂ) (time : ℝ) (is : List Touch) : List Tip :=
  raws ((pos, time) :: places P (start pos time) is)

theorem raws_append (l : List (ℂ × ℝ)) (i : ℂ × ℝ) : raws (l ++ [i]) = raws l ++ [raw (raws l).getLast? i] := by
  simp [raws]

theorem places_append (P : Params) (s : State) (is : List Touch) (i : Touch) :
    places P s (is ++ [i]) = places P s is ++ [place P (after P s is) i] := by
  induction is generalizing s with
  | nil => rfl
  | cons j is ih => simp [places, ih, after]

theorem polyline_append (P : Params) (pos : ℂ) (time : ℝ) (is : List Touch) (i : Touch) :
    polyline P pos time (is ++ [i]) = polyline P pos time is ++
      [raw (polyline P pos time is).getLast? (place P (after P (start pos time) is) i)] := by
  simp only [polyline, places_append, ← List.cons_append, raws_append]

theorem answers_append (P : Params) (s : State) (is : List Touch) (i : Touch) :
    answers P s (is ++ [i]) = answers P s is ++ [(advance P (after P s is) i).2] := by
  induction is generalizing s with
  | nil => rfl
  | cons j is ih => simp [answers, ih, after]

theorem after_append (P : Params) (s : State) (is : List Touch) (i : Touch) :
    after P s (is ++ [i]) = (advance P (after P s is) i).1 := by simp [after]

end
end Ink.Ref
