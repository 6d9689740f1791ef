import Verif.Lemmas.Tips
import Verif.Examples.Base
/-!
# How many results a call produces: C15, C16
-/
namespace Ink
open Scalar Arith

variable {F D : Type} [Scalar F] [Scalar D] [Arith F D]

/-- The results a successful Update appends, by event type. -/
theorem update_count {m m' : StrokeModeler F D} {i : Input F D} {v : List (Result F D)} {r : Response F D}
    (h : step m (.update i v) = .ok (m', r)) (hr : r.status = .ok) :
    ∃ p out, m.params = some p ∧ r.results = v ++ out ∧
      ((i.eventType = .down ∧ out.length = 1) ∨
       (∃ last n, i.eventType = .move ∧ m.lastInput = some last ∧
        numberOfStepsBetweenInputs m.position.state last.input i p.sampling p.position = .ok (.ok n) ∧
        out.length = n.toNat) ∨
       (∃ last n, i.eventType = .up ∧ m.lastInput = some last ∧
        numberOfStepsBetweenInputs m.position.state last.input i p.sampling p.position = .ok (.ok n) ∧
        0 < out.length ∧ out.length ≤ max 1 (n.toNat + p.sampling.endOfStrokeMaxIterations.toNat))) := by
  simp only [step] at h
  obtain ⟨⟨m₁, s, v'⟩, hu, h⟩ := Outcome.bind_eq_ok.1 h
  simp only [Outcome.pure_eq, Outcome.ok.injEq, Prod.mk.injEq] at h
  obtain ⟨rfl, rfl⟩ := h
  obtain rfl : s = .ok := hr
  rcases update_ok hu with ⟨c, msg, hc, hs, _⟩ | ⟨hn, p, hp, ⟨he, hl, hh⟩ | ⟨last, he, hl, hh⟩ | ⟨last, he, hl, hh⟩⟩
  · simp at hs
  · obtain ⟨_, _, _, _, _, _, rfl⟩ := StrokeModeler.processDown_ok hl hh
    exact ⟨p, _, hp, rfl, .inl ⟨he, rfl⟩⟩
  · obtain ⟨_, _, _, _, _, ⟨hn, _⟩ | ⟨n, _, _, out, hn, _, hms, _, _, rfl⟩⟩ := StrokeModeler.processMove_ok hl hh
    · obtain ⟨_, hc⟩ := numberOfSteps_error hn
      simp at hc
    · refine ⟨p, out, hp, rfl, .inr (.inl ⟨last, n, he, hl, hn, ?_⟩)⟩
      rw [modelStylus_length hms]
      exact PositionModeler.updateAlongLinearPath_length ..
  · rcases StrokeModeler.processUp_ok hl hh with ⟨hn, _⟩ | ⟨n, _, _, out, hn, _, hms, _, _, rfl⟩
    · obtain ⟨_, hc⟩ := numberOfSteps_error hn
      simp at hc
    · refine ⟨p, out, hp, rfl, .inr (.inr ⟨last, n, he, hl, hn, ?_⟩)⟩
      rw [modelStylus_length hms]
      exact upTips_length m p last i n

/-! ## C15 -/

/-- C15 (partial): a Down or Up that succeeds appends at least one result.
Full statement: also every Move that succeeds. That is false for a Move with the time of its predecessor, see
`C15_refuted`; for Moves with a later time see `C15_move_partial`. -/
theorem C15_at_least_one_partial {m m' : StrokeModeler F D} {i : Input F D} {v : List (Result F D)} {r : Response F D}
    (h : step m (.update i v) = .ok (m', r)) (hr : r.status = .ok) (he : i.eventType ≠ .move) :
    ∃ out, r.results = v ++ out ∧ out ≠ [] := by
  obtain ⟨p, out, _, ho, ⟨_, hl⟩ | ⟨_, _, hm, _⟩ | ⟨_, _, _, _, _, hl, _⟩⟩ := update_count h hr
  · exact ⟨out, ho, by intro hc; simp [hc] at hl⟩
  · exact absurd hm he
  · exact ⟨out, ho, by intro hc; simp [hc] at hl⟩

section Examples
open Ex
example : ∃ rs m, Session (stroke1 ++ [.update (inp .up 4 4 (d 1 30)) []]) rs m ∧
    decide (∀ r ∈ rs.getLast?, r.status = .ok ∧ 2 ≤ r.results.length) = true := exists_session (by kernel_rfl)

/-- The full C15 is false: a Move with the time of the previous input succeeds and appends nothing. -/
theorem C15_refuted [Libm] : ∃ (ops : List (Op F32 F64)) (rs : List (Response F32 F64)) (m m' : StrokeModeler F32 F64)
    (i : Input F32 F64) (r : Response F32 F64), Session ops rs m ∧ step m (.update i []) = .ok (m', r) ∧
    r.status = .ok ∧ r.results = [] := by
  let ops : List (Op F32 F64) := [.resetParams params, .update (inp .down 0 0 0) []]
  let i : Input F32 F64 := inp .move 1 0 0
  obtain ⟨rs, m, h, hP⟩ := exists_session (ops := ops)
    (P := fun _ m => match step m (.update i []) with
      | .ok (_, r) => decide (r.status = .ok ∧ r.results = [])
      | _ => false) (by kernel_rfl)
  cases hs : step m (.update i []) with
  | ok x =>
    rw [hs] at hP
    obtain ⟨h1, h2⟩ := of_decide_eq_true hP
    exact ⟨ops, rs, m, x.1, i, x.2, h, hs, h1, h2⟩
  | ub w => simp [hs] at hP
  | diverge => simp [hs] at hP
end Examples

/-! ## C16 -/

/-- C16 (partial): a Down or Move that succeeds appends at most `max_outputs_per_call` results, an Up at most
`end_of_stroke_max_iterations` more.
Full statement: an Up also respects `max_outputs_per_call`, and so does `Predict`. Both are false, see
`C16_up_refuted` and `C16_predict_refuted`. -/
theorem C16_update_limit_partial {ops : List (Op F D)} {rs : List (Response F D)} {m m' : StrokeModeler F D}
    (hS : Session ops rs m) {p : StrokeModelParams F D} (hp : (known ops rs).params = some p)
    {i : Input F D} {v : List (Result F D)} {r : Response F D} (h : step m (.update i v) = .ok (m', r))
    (hr : r.status = .ok) :
    ∃ out, r.results = v ++ out ∧
      (out.length : Int) ≤ p.sampling.maxOutputsPerCall +
        if i.eventType = .up then p.sampling.endOfStrokeMaxIterations else 0 := by
  have hval := hS.validInv
  rw [← hS.known] at hp
  have hp : m.params = some p := hp
  obtain ⟨_, _, ⟨he, _⟩, hm, _⟩ := validSamplingParts (validParts (hval p hp)).2.2.2.1
  obtain ⟨p', out, hp', ho, h⟩ := update_count h hr
  obtain rfl : p = p' := by simpa [hp] using hp'
  refine ⟨out, ho, ?_⟩
  rcases h with ⟨he, hl⟩ | ⟨_, n, he, _, hn, hl⟩ | ⟨_, n, he, _, hn, _, hl⟩
  · simp [he]; omega
  · have := numberOfSteps_le hn
    simp [he]; omega
  · have := numberOfSteps_le hn
    simp only [he, ↓reduceIte]; omega

/-- C16: a prediction of the stroke-end predictor has at most `end_of_stroke_max_iterations` results. -/
theorem C16_stroke_end_prediction_limit {ops : List (Op F D)} {rs : List (Response F D)} {m m' : StrokeModeler F D}
    (hS : Session ops rs m) (hn : NoDisableAfterSave ops) {p : StrokeModelParams F D}
    (hp : (known ops rs).params = some p) (hpr : p.prediction = .strokeEnd)
    {v : List (Result F D)} {r : Response F D} (h : step m (.predict v) = .ok (m', r)) :
    (r.results.length : Int) ≤ p.sampling.endOfStrokeMaxIterations := by
  have hinv := hS.predInv hn
  have hval := hS.validInv
  rw [← hS.known] at hp
  have hp : m.params = some p := hp
  obtain ⟨_, _, ⟨he, _⟩, _⟩ := validSamplingParts (validParts (hval p hp)).2.2.2.1
  simp only [step] at h
  obtain ⟨⟨m₁, s, v'⟩, hu, h⟩ := Outcome.bind_eq_ok.1 h
  simp only [Outcome.pure_eq, Outcome.ok.injEq, Prod.mk.injEq] at h
  obtain ⟨rfl, rfl⟩ := h
  rcases predict_ok hu with ⟨_, _, _, rfl, _⟩ | ⟨_, pr, last, tips, _, out, _, hpred, _, hc, hms, _, _, rfl⟩
  · simp; omega
  · have hlive := hinv.live p hp
    rw [hpred] at hlive
    simp only [Option.map_some, StrokeModeler.makePredictor, hpr, Option.some.injEq] at hlive
    cases pr with
    | kalman k => simp [Predictor.reset] at hlive
    | strokeEnd e =>
      simp only [Predictor.reset, Predictor.strokeEnd.injEq, StrokeEndPredictor.mk.injEq] at hlive
      simp only [Predictor.constructPrediction, Outcome.ok.injEq] at hc
      rw [modelStylus_length hms, ← hc]
      unfold StrokeEndPredictor.constructPrediction
      split
      · simp; omega
      · rw [hlive.2.1]
        have := PositionModeler.modelEndOfStroke_length (PositionModeler.reset m.position.state e.position)
          (by assumption) (1 / p.sampling.minOutputRate) p.sampling.endOfStrokeMaxIterations
          p.sampling.endOfStrokeStoppingDistance
        omega

namespace Ex

/-- Kalman parameters (in the spirit of kalman_predictor_test.cc:38-54). -/
def kalman : KalmanParams F32 F64 :=
  { processNoise := d 1 100, measurementNoise := d 1 10, minStableIteration := 2, maxTimeSamples := 20
    minCatchupVelocity := fl 1 100, accelerationWeight := fl 1 2, jerkWeight := fl 1 10
    predictionInterval := d 1 10
    confidence :=
      { desiredNumberOfSamples := 20, maxEstimationDistance := fl 4 100, minTravelSpeed := 3, maxTravelSpeed := 15
        maxLinearDeviation := fl 2 10, baselineLinearityConfidence := fl 4 10 } }

/-- One output per call is allowed. -/
def params1 : StrokeModelParams F32 F64 := { params with sampling := { params.sampling with maxOutputsPerCall := 1 } }

end Ex

section Examples
open Ex
example : ∃ rs m, Session stroke1 rs m ∧ decide ((known stroke1 rs).params = some params ∧
    params.prediction = .strokeEnd ∧ m.lastInput ≠ none) = true := exists_session (by kernel_rfl)

/-- The full C16 is false for Up: it appends more than `max_outputs_per_call` results. -/
theorem C16_up_refuted [Libm] : ∃ (ops : List (Op F32 F64)) (rs : List (Response F32 F64)) (m m' : StrokeModeler F32 F64)
    (p : StrokeModelParams F32 F64) (i : Input F32 F64) (r : Response F32 F64), Session ops rs m ∧
    (known ops rs).params = some p ∧ step m (.update i []) = .ok (m', r) ∧ r.status = .ok ∧
    (r.results.length : Int) > p.sampling.maxOutputsPerCall := by
  let ops : List (Op F32 F64) := [.resetParams params1, .update (inp .down 0 0 0) []]
  let i : Input F32 F64 := inp .up 1 0 (d 1 200)
  obtain ⟨rs, m, h, hP⟩ := exists_session (ops := ops)
    (P := fun rs m => match step m (.update i []) with
      | .ok (_, r) => decide ((known ops rs).params = some params1 ∧ r.status = .ok ∧
          (r.results.length : Int) > params1.sampling.maxOutputsPerCall)
      | _ => false) (by kernel_rfl)
  cases hs : step m (.update i []) with
  | ok x =>
    rw [hs] at hP
    obtain ⟨h0, h1, h2⟩ := of_decide_eq_true hP
    exact ⟨ops, rs, m, x.1, params1, i, x.2, h, h0, hs, h1, h2⟩
  | ub w => simp [hs] at hP
  | diverge => simp [hs] at hP

/-- The full C16 is false for `Predict`: the Kalman predictor ignores `max_outputs_per_call`. -/
theorem C16_predict_refuted [Libm] : ∃ (ops : List (Op F32 F64)) (rs : List (Response F32 F64))
    (m m' : StrokeModeler F32 F64) (p : StrokeModelParams F32 F64) (r : Response F32 F64), Session ops rs m ∧
    (known ops rs).params = some p ∧ step m (.predict []) = .ok (m', r) ∧ r.status = .ok ∧
    (r.results.length : Int) > p.sampling.maxOutputsPerCall := by
  let p := { params1 with prediction := .kalman kalman }
  let ops : List (Op F32 F64) := [.resetParams p, .update (inp .down 0 0 0) [],
    .update (inp .move (fl 1 50) 0 (d 1 200)) [], .update (inp .move (fl 2 50) 0 (d 2 200)) []]
  obtain ⟨rs, m, h, hP⟩ := exists_session (ops := ops)
    (P := fun rs m => match step m (.predict []) with
      | .ok (_, r) => decide ((known ops rs).params = some p ∧ r.status = .ok ∧
          (r.results.length : Int) > p.sampling.maxOutputsPerCall)
      | _ => false) (by kernel_rfl)
  cases hs : step m (.predict []) with
  | ok x =>
    rw [hs] at hP
    obtain ⟨h0, h1, h2⟩ := of_decide_eq_true hP
    exact ⟨ops, rs, m, x.1, p, x.2, h, h0, hs, h1, h2⟩
  | ub w => simp [hs] at hP
  | diverge => simp [hs] at hP
end Examples

end Ink
