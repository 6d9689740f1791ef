import Verif.Spec.Ref
import Mathlib.Data.Nat.Factorial.Basic
import Mathlib.LinearAlgebra.Matrix.PosDef
/-!
# Kalman prediction

The textbook Kalman filter for a point on a line that moves with constant jerk, and the prediction that the header of the Kalman
predictor describes (kalman_predictor.h:27-43, kalman_predictor.cc:147-152). Nothing here refers to the transcription of the code.
-/
namespace Ink.Ref
noncomputable section
open Classical Matrix

/-! ## The filter -/

/-- Position, velocity, acceleration and jerk in units of one time step, and how uncertain they are. -/
structure Belief where
  mean : Fin 4 → ℝ
  cov : Matrix (Fin 4) (Fin 4) ℝ

/-- One time step of a motion with constant jerk: Taylor's formula. -/
def transition : Matrix (Fin 4) (Fin 4) ℝ := Matrix.of fun i j => if i ≤ j then 1 / ((j - i : ℕ).factorial : ℝ) else 0

/-- The effect of an impulse of jerk during one time step. -/
def jolt : Fin 4 → ℝ := fun i => 1 / ((3 - i : ℕ).factorial : ℝ)

/-- Only the position is measured. -/
def watch : Fin 4 → ℝ := fun i => if i = 0 then 1 else 0

/-- Before anything has been measured. -/
def Belief.initial : Belief := ⟨0, 1⟩

/-- The first measurement is taken as it is. -/
def Belief.first (z : ℝ) : Belief := ⟨fun i => if i = 0 then z else 0, 1⟩

/-- One time step without a measurement, the variance of the jerk being `q`. -/
def Belief.predict (q : ℝ) (b : Belief) : Belief :=
  ⟨transition *ᵥ b.mean, transition * b.cov * transitionᵀ + q • vecMulVec jolt jolt⟩

/-- The variance of a measurement, given the variance `r` of the noise. -/
def Belief.innovation (r : ℝ) (b : Belief) : ℝ := watch ⬝ᵥ (b.cov *ᵥ watch) + r

/-- The optimal gain. -/
def Belief.gain (r : ℝ) (b : Belief) : Fin 4 → ℝ := (b.innovation r)⁻¹ • (b.cov *ᵥ watch)

/-- A measurement. -/
def Belief.correct (r : ℝ) (b : Belief) (z : ℝ) : Belief :=
  ⟨b.mean + (z - watch ⬝ᵥ b.mean) • b.gain r, (1 - vecMulVec (b.gain r) watch) * b.cov⟩

/-- The belief after a sequence of measurements. -/
def believe (q r : ℝ) : List ℝ → Belief
  | [] => .initial
  | z :: zs => zs.foldl (fun b z => (b.predict q).correct r z) (.first z)

/-! ## The forecast -/

/-- The parameters of the Kalman predictor. -/
structure Foresight where
  process : ℝ
  noise : ℝ
  /-- `min_stable_iteration` -/
  stable : ℤ
  /-- `max_time_samples` -/
  times : ℕ
  /-- `min_catchup_velocity` -/
  catchup : ℝ
  accWeight : ℝ
  jerkWeight : ℝ
  /-- `prediction_interval` -/
  interval : ℝ
  /-- `desired_number_of_samples` -/
  samples : ℤ
  maxError : ℝ
  minSpeed : ℝ
  maxSpeed : ℝ
  maxDeviation : ℝ
  /-- `baseline_linearity_confidence`, none if it is NaN -/
  baseline : Option ℝ

/-- What validation guarantees. -/
structure Foresight.Valid (K : Foresight) : Prop where
  process : 0 < K.process
  noise : 0 < K.noise
  stable : 0 < K.stable
  times : 0 < K.times
  catchup : 0 < K.catchup
  interval : 0 < K.interval
  samples : 0 < K.samples
  maxError : 0 < K.maxError
  minSpeed : 0 ≤ K.minSpeed
  maxSpeed : K.minSpeed ≤ K.maxSpeed
  maxDeviation : 0 < K.maxDeviation
  baseline : ∀ b, K.baseline = some b → 0 ≤ b ∧ b ≤ 1

/-- A motion with constant jerk. -/
structure Motion where
  pos : ℂ
  vel : ℂ
  acc : ℂ
  jerk : ℂ

/-- The motion some time later: Taylor's formula. -/
def Motion.later (m : Motion) (t : ℝ) : Motion :=
  ⟨m.pos + t • m.vel + (t ^ 2 / 2) • m.acc + (t ^ 3 / 6) • m.jerk, m.vel + t • m.acc + (t ^ 2 / 2) • m.jerk, m.acc + t • m.jerk,
    m.jerk⟩

/-- The length of a time step: the time between the first and the last of the inputs by their number (not by the number of steps
between them, which is one less; the code's doing). -/
def pace (times : List ℝ) : ℝ := (times.getLastD 0 - times.headD 0) / times.length

/-- The motion believed in, with one time step `dt` long. -/
def estimate (K : Foresight) (x y : Belief) (dt : ℝ) : Motion :=
  let c (i : Fin 4) : ℂ := ⟨x.mean i, y.mean i⟩
  ⟨c 0, dt⁻¹ • c 1, K.accWeight • (dt ^ 2)⁻¹ • c 2, K.jerkWeight • (dt ^ 3)⁻¹ • c 3⟩

/-- The cubic from one motion to another one that takes the time `T`, at time `s`: Hermite's formula. -/
def bridge (p₀ v₀ p₁ v₁ : ℂ) (T s : ℝ) : ℂ × ℂ × ℂ :=
  let u := s / T
  ((2 * u ^ 3 - 3 * u ^ 2 + 1) • p₀ + (u ^ 3 - 2 * u ^ 2 + u) • T • v₀ + (-2 * u ^ 3 + 3 * u ^ 2) • p₁ + (u ^ 3 - u ^ 2) • T • v₁,
   T⁻¹ • ((6 * u ^ 2 - 6 * u) • p₀ + (3 * u ^ 2 - 4 * u + 1) • T • v₀ + (-6 * u ^ 2 + 6 * u) • p₁ + (3 * u ^ 2 - 2 * u) • T • v₁),
   (T ^ 2)⁻¹ • ((12 * u - 6) • p₀ + (6 * u - 4) • T • v₀ + (-12 * u + 6) • p₁ + (6 * u - 2) • T • v₁))

/-- The number of time steps to catch up with the estimate. -/
def catchUp (K : Foresight) (rate : ℝ) (q : Tip) (m : Motion) : ℤ :=
  max 1 ⌈‖m.pos - q.pos‖ / max (max ‖q.vel‖ ‖m.vel‖) K.catchup * rate⌉

/-- The tip states on the way to the estimate. -/
def connect (K : Foresight) (rate : ℝ) (q : Tip) (m : Motion) : List Tip :=
  let n := (catchUp K rate q m).toNat
  (List.range n).map fun i : ℕ =>
    let s := (i + 1 : ℝ) / rate
    let c := bridge q.pos q.vel m.pos m.vel (n / rate) s
    ⟨c.1, c.2.1, c.2.2, q.time + s⟩

/-- How much the estimate is trusted, by the number of inputs, the distance between the estimate and the last input, the speed,
and how straight the predicted motion is. It is not trusted at all if the baseline is NaN (validation accepts that). -/
def trustSamples (K : Foresight) (n : ℕ) : ℝ := min 1 (n / K.samples)
@[inherit_doc trustSamples] def trustError (K : Foresight) (x : ℂ) (m : Motion) : ℝ := 1 - speedRatio 0 K.maxError ‖m.pos - x‖
@[inherit_doc trustSamples] def trustSpeed (K : Foresight) (m : Motion) : ℝ :=
  speedRatio K.minSpeed K.maxSpeed (‖(m.later K.interval).pos - m.pos‖ / K.interval)
@[inherit_doc trustSamples] def trustLine (K : Foresight) (m : Motion) : ℝ :=
  match K.baseline with
  | none => 0
  | some b => lerp b 1 (1 - speedRatio 0 K.maxDeviation ‖m.pos + K.interval • m.vel - (m.later K.interval).pos‖)
@[inherit_doc trustSamples] def trust (K : Foresight) (n : ℕ) (x : ℂ) (m : Motion) : ℝ :=
  trustSamples K n * trustError K x m * trustSpeed K m * trustLine K m

/-- The number of time steps to predict beyond the estimate. -/
def horizon (K : Foresight) (rate : ℝ) (n : ℕ) (x : ℂ) (m : Motion) : ℤ := ⌈K.interval * rate * trust K n x m⌉

/-- The tip states beyond the estimate at time `t`. -/
def extrapolate (rate : ℝ) (m : Motion) (t : ℝ) (n : ℕ) : List Tip :=
  (List.range n).map fun i : ℕ =>
    let s := (i + 1 : ℝ) / rate
    ⟨(m.later s).pos, (m.later s).vel, (m.later s).acc, t + s⟩

/-- The times among the last inputs from which the length of a time step is taken. -/
def latest (K : Foresight) (ins : List (ℂ × ℝ)) : List ℝ := (ins.map Prod.snd).drop (ins.length - K.times)

/-- The motion believed in after inputs at the given places and times. -/
def sight (K : Foresight) (ins : List (ℂ × ℝ)) : Motion :=
  estimate K (believe K.process K.noise (ins.map fun i => i.1.re)) (believe K.process K.noise (ins.map fun i => i.1.im))
    (pace (latest K ins))

/-- The number of time steps to predict beyond it. -/
def beyond (K : Foresight) (rate : ℝ) (ins : List (ℂ × ℝ)) : ℤ :=
  horizon K rate ins.length ((ins.map Prod.fst).getLastD 0) (sight K ins)

/-- The prediction from the tip state `q`. -/
def forecast (K : Foresight) (rate : ℝ) (q : Tip) (ins : List (ℂ × ℝ)) : List Tip :=
  if (ins.length : ℤ) < K.stable then []
  else connect K rate q (sight K ins) ++
    extrapolate rate (sight K ins) (q.time + (catchUp K rate q (sight K ins)).toNat / rate) (beyond K rate ins).toNat

/-- What the predictor is given of an input: where an accepted Move is taken to be. -/
def hears (P : Params) (s : State) (i : Touch) : List (ℂ × ℝ) :=
  match i, (advance P s i).2 with
  | .move _ _, some _ => [(advance P s i).1.anchor]
  | _, _ => []

/-- What the predictor is given of the inputs after the Down. -/
def heard (P : Params) : State → List Touch → List (ℂ × ℝ)
  | _, [] => []
  | s, i :: is => hears P s i ++ heard P (advance P s i).1 is

/-- What the predictor is given of a stroke. -/
def known (P : Params) (pos : ℂ) (time : ℝ) (is : List Touch) : List (ℂ × ℝ) := (pos, time) :: heard P (start pos time) is

theorem heard_append (P : Params) (s : State) (is : List Touch) (i : Touch) :
    heard P s (is ++ [i]) = heard P s is ++ hears P (after P s is) i := by
  induction is generalizing s with
  | nil => simp [heard, after]
  | cons j is ih => simp [heard, ih, after]

end
end Ink.Ref
