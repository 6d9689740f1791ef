import Verif.Lemmas.Tips
import Verif.Examples.Base
/-!
# The call protocol: C01, C02, C03, C04, C05, C13, C14

For any arithmetic. `Session ops rs m`: the calls `ops` on a new modeler returned `rs` and left it in state `m`.
-/
namespace Ink
open Scalar Arith

variable {F D : Type} [Scalar F] [Scalar D] [Arith F D]

/-! ## C01 -/

omit [Scalar F] [Scalar D] [Arith F D] in
theorem knownFrom_params_none {ops : List (Op F D)} {rs : List (Response F D)} {k : Known F D} (hk : k.params = none)
    (h : ∀ p r, (Op.resetParams p, r) ∈ ops.zip rs → r.status ≠ .ok) : (knownFrom k ops rs).params = none := by
  induction ops generalizing k rs with
  | nil => cases rs <;> simpa [knownFrom]
  | cons op ops ih =>
    cases rs with
    | nil => simpa [knownFrom]
    | cons r rs =>
      refine ih ?_ (fun p r' hm => h p r' (by simp [hm]))
      cases op with
      | resetParams p =>
        have := h p r (by simp)
        simp [Known.after, this, hk]
      | reset => simp only [Known.after]; split <;> exact hk
      | update i v => simp only [Known.after]; split <;> exact hk
      | predict v => exact hk
      | save => exact hk
      | restore => simp only [Known.after]; split <;> exact hk

/-- C01: as long as no `Reset(params)` has succeeded, `Update`, `Predict` and `Reset()` fail with
FailedPrecondition; `Update` leaves the caller's vector as it was, `Predict` leaves it empty. -/
theorem C01_uninitialised_refuses {ops : List (Op F D)} {rs : List (Response F D)} {m : StrokeModeler F D}
    (h : Session ops rs m) (hno : ∀ p r, (Op.resetParams p, r) ∈ ops.zip rs → r.status ≠ .ok) :
    (∀ i v, ∃ m' msg, step m (.update i v) = .ok (m', ⟨.err .failedPrecondition msg, v⟩)) ∧
    (∀ v, ∃ m' msg, step m (.predict v) = .ok (m', ⟨.err .failedPrecondition msg, []⟩)) ∧
    (∃ m' msg, step m .reset = .ok (m', ⟨.err .failedPrecondition msg, []⟩)) := by
  have hp : m.params = none := by
    have : m.known.params = none := by
      rw [h.known]
      exact knownFrom_params_none rfl hno
    exact this
  refine ⟨fun i v => ?_, fun v => ?_, ?_⟩
  · simp [step, StrokeModeler.update, hp]
  · simp [step, StrokeModeler.predict, hp]
  · simp [step, StrokeModeler.reset, hp]

section Examples
open Ex
/-- failing resets, saves and restores before the first successful `Reset(params)` -/
example : ∃ rs m, Session [.resetParams badParams, .save, .restore, .predict [], .reset] rs m ∧
    decide (rs.map (·.status.isOk) = [false, true, true, false, false]) = true := exists_session (by kernel_rfl)
end Examples

/-! ## C02 -/

/-- C02: a failing `Reset(params)` changes nothing a client could notice later. -/
theorem C02_failed_reset_no_effect {m m' : StrokeModeler F D} {p : StrokeModelParams F D} {r : Response F D}
    (h : step m (.resetParams p) = .ok (m', r)) (hr : r.status ≠ .ok) : Indist m' m := by
  rcases resetParams_cases m p with ⟨c, msg, _, h'⟩ | ⟨_, h'⟩ <;>
    simp only [step, h', Outcome.ok.injEq, Prod.mk.injEq] at h
  · rw [← h.1]; exact .refl m
  · rw [← h.2] at hr; simp at hr

section Examples
open Ex
/-- a `Reset` with invalid parameters in mid-stroke -/
example : ∃ rs m, Session (stroke1 ++ [.resetParams badParams]) rs m ∧
    decide (rs.map (·.status.isOk) = [true, true, true, true, true, false] ∧ m.lastInput ≠ none) = true :=
  exists_session (by kernel_rfl)
end Examples

/-! ## C03 -/

/-- C03: what `Update` answers. If one of the documented reasons applies (`refusal`, computed from the calls and
responses so far) it answers with the documented code. Otherwise it succeeds, except that a Move or Up may still be
answered with InvalidArgument (too far apart, or values too large to model). -/
theorem C03_acceptance {ops : List (Op F D)} {rs : List (Response F D)} {m : StrokeModeler F D}
    (h : Session ops rs m) (i : Input F D) (v : List (Result F D)) :
    (∀ c, refusal (known ops rs) i = some c → ∃ m' msg, step m (.update i v) = .ok (m', ⟨.err c msg, v⟩)) ∧
    (refusal (known ops rs) i = none → ∀ m' r, step m (.update i v) = .ok (m', r) →
      r.status = .ok ∨ (i.eventType ≠ .down ∧ r.status.HasCode .invalidArgument)) := by
  rw [← h.known]
  constructor
  · intro c hc
    obtain ⟨msg, hu⟩ := update_refused m i v hc
    exact ⟨m, msg, by simp [step, hu]⟩
  · intro hn m' r hs
    simp only [step] at hs
    obtain ⟨⟨m₁, s, v'⟩, hu, hs⟩ := Outcome.bind_eq_ok.1 hs
    simp only [Outcome.pure_eq, Outcome.ok.injEq, Prod.mk.injEq] at hs
    obtain ⟨rfl, rfl⟩ := hs
    rcases update_ok hu with ⟨c, msg, hc, _⟩ | ⟨_, p, hp, ⟨he, hl, hh⟩ | ⟨last, he, hl, hh⟩ | ⟨last, he, hl, hh⟩⟩
    · rw [hn] at hc; simp at hc
    · obtain ⟨_, _, _, _, rfl, _⟩ := StrokeModeler.processDown_ok hl hh
      exact .inl rfl
    · obtain ⟨_, _, _, _, _, ⟨hn, _⟩ | ⟨_, _, _, _, _, _, _, rfl, _⟩⟩ := StrokeModeler.processMove_ok hl hh
      · exact .inr ⟨by simp [he], numberOfSteps_error hn⟩
      · exact .inl rfl
    · rcases StrokeModeler.processUp_ok hl hh with ⟨hn, _⟩ | ⟨_, _, _, _, _, _, _, rfl, _⟩
      · exact .inr ⟨by simp [he], numberOfSteps_error hn⟩
      · exact .inl rfl

section Examples
open Ex
/-- all the outcomes occur: an accepted input, one of each documented reason, and a Move that is too far in time -/
example : ∃ rs m, Session stroke1 rs m ∧ decide (
      refusal (known stroke1 rs) (inp .move 4 4 (d 2 30)) = none ∧
      refusal (known stroke1 rs) (inp .move (fl 32 10) (fl 42 10) (d 1 30)) = some .invalidArgument ∧
      refusal (known stroke1 rs) (inp .move 4 4 0) = some .invalidArgument ∧
      refusal (known stroke1 rs) (inp .down 4 4 1) = some .failedPrecondition ∧
      refusal (known stroke1 rs) (inp .move 4 .nan 1) = some .invalidArgument ∧
      refusal (known stroke1 rs) (inp .move 4 4 100) = none ∧
      (observe m [.update (inp .move 4 4 (d 2 30)) [], .update (inp .move 4 4 100) []]).map
        (fun | .ok r => r.status.isOk | _ => false) = [true, false]) = true :=
  exists_session (by kernel_rfl)
end Examples

/-! ## C04 -/

/-- C04: `Update` either fails and leaves the caller's vector alone, or appends to it; which of the two, the status,
the new state and the appended results do not depend on the vector. -/
theorem C04_append_or_leave_alone (m : StrokeModeler F D) (i : Input F D) :
    (∃ m' c msg, ∀ v, step m (.update i v) = .ok (m', ⟨.err c msg, v⟩)) ∨
    (∃ m' out, ∀ v, step m (.update i v) = .ok (m', ⟨.ok, v ++ out⟩)) ∨
    (∃ w, ∀ v, step m (.update i v) = .ub w) ∨
    (∀ v, step m (.update i v) = .diverge) := by
  simp only [step]
  cases hr : refusal m.known i with
  | some c =>
    obtain ⟨msg, hm⟩ := update_refused_of_known _ i hr
    exact .inl ⟨m, c, msg, fun v => by simp [hm m v ⟨rfl, rfl⟩]⟩
  | none =>
    obtain ⟨p, hp, ⟨he, hl, hu⟩ | ⟨he, ⟨last, hl⟩, hu⟩ | ⟨he, ⟨last, hl⟩, hu⟩⟩ := update_not_refused m i hr
    · simp only [hu, StrokeModeler.processDown, hl]
      cases (m.stylus.reset p.stylus).update i.position i.time (stylusStateOf i) with
      | ok stylus =>
        cases updatePredictor (m.predictor.map Predictor.reset) i.position i.time with
        | ok pr => exact .inr (.inl ⟨_, _, fun v => rfl⟩)
        | ub w => exact .inr (.inr (.inl ⟨w, fun v => rfl⟩))
        | diverge => exact .inr (.inr (.inr fun v => rfl))
      | ub w => exact .inr (.inr (.inl ⟨w, fun v => rfl⟩))
      | diverge => exact .inr (.inr (.inr fun v => rfl))
    · simp only [hu, StrokeModeler.processMove, hl]
      cases m.wobble.update i.position i.time with
      | ub w => exact .inr (.inr (.inl ⟨w, fun v => rfl⟩))
      | diverge => exact .inr (.inr (.inr fun v => rfl))
      | ok x =>
      simp only [Outcome.ok_bind]
      cases m.stylus.update x.2 i.time (stylusStateOf i) with
      | ub w => exact .inr (.inr (.inl ⟨w, fun v => rfl⟩))
      | diverge => exact .inr (.inr (.inr fun v => rfl))
      | ok stylus =>
      simp only [Outcome.ok_bind]
      cases hn : numberOfStepsBetweenInputs m.position.state last.input i p.sampling p.position with
      | ub w => exact .inr (.inr (.inl ⟨w, fun v => rfl⟩))
      | diverge => exact .inr (.inr (.inr fun v => rfl))
      | ok n =>
      cases n with
      | error s =>
        obtain ⟨msg, rfl⟩ := numberOfSteps_error hn
        exact .inl ⟨_, _, _, fun v => rfl⟩
      | ok n =>
      simp only [Outcome.ok_bind]
      cases updatePredictor m.predictor x.2 i.time with
      | ub w => exact .inr (.inr (.inl ⟨w, fun v => rfl⟩))
      | diverge => exact .inr (.inr (.inr fun v => rfl))
      | ok pr =>
      simp only [Outcome.ok_bind]
      cases modelStylus _ stylus m.loop i.time with
      | ub w => exact .inr (.inr (.inl ⟨w, fun v => rfl⟩))
      | diverge => exact .inr (.inr (.inr fun v => rfl))
      | ok y => exact .inr (.inl ⟨_, _, fun v => rfl⟩)
    · simp only [hu, StrokeModeler.processUp, hl]
      cases hn : numberOfStepsBetweenInputs m.position.state last.input i p.sampling p.position with
      | ub w => exact .inr (.inr (.inl ⟨w, fun v => rfl⟩))
      | diverge => exact .inr (.inr (.inr fun v => rfl))
      | ok n =>
      cases n with
      | error s =>
        obtain ⟨msg, rfl⟩ := numberOfSteps_error hn
        exact .inl ⟨_, _, _, fun v => rfl⟩
      | ok n =>
      simp only [Outcome.ok_bind]
      cases m.stylus.update i.position i.time (stylusStateOf i) with
      | ub w => exact .inr (.inr (.inl ⟨w, fun v => rfl⟩))
      | diverge => exact .inr (.inr (.inr fun v => rfl))
      | ok stylus =>
      simp only [Outcome.ok_bind]
      cases modelStylus _ stylus m.loop last.input.time with
      | ub w => exact .inr (.inr (.inl ⟨w, fun v => rfl⟩))
      | diverge => exact .inr (.inr (.inr fun v => rfl))
      | ok y => exact .inr (.inl ⟨_, _, fun v => rfl⟩)

/-! ## C05 -/

/-- C05 (partial): a rejected input has no effect on anything that follows, provided it is not a Move that passes
the documented checks of the input stream.
Full statement: the same without the last hypothesis; it is false, see `C05_refuted`. -/
theorem C05_rejected_no_effect_partial {ops : List (Op F D)} {rs : List (Response F D)} {m m' : StrokeModeler F D}
    (h : Session ops rs m) {i : Input F D} {v : List (Result F D)} {r : Response F D}
    (hs : step m (.update i v) = .ok (m', r)) (hr : r.status ≠ .ok)
    (hi : i.eventType ≠ .move ∨ refusal (known ops rs) i ≠ none) : Indist m' m := by
  rw [← h.known] at hi
  simp only [step] at hs
  obtain ⟨⟨m₁, s, v'⟩, hu, hs⟩ := Outcome.bind_eq_ok.1 hs
  simp only [Outcome.pure_eq, Outcome.ok.injEq, Prod.mk.injEq] at hs
  obtain ⟨rfl, rfl⟩ := hs
  rcases update_ok hu with ⟨c, msg, hc, _, rfl, _⟩ | ⟨hn, p, hp, ⟨he, hl, hh⟩ | ⟨last, he, hl, hh⟩ | ⟨last, he, hl, hh⟩⟩
  · exact .refl _
  · obtain ⟨_, _, _, _, rfl, _⟩ := StrokeModeler.processDown_ok hl hh
    simp at hr
  · simp [he, hn] at hi
  · rcases StrokeModeler.processUp_ok hl hh with ⟨_, rfl, _⟩ | ⟨_, _, _, _, _, _, _, rfl, _⟩
    · exact .refl _
    · simp at hr

section Examples
open Ex
/-- an Up that is too far in time is rejected although the documented checks pass -/
example : ∃ rs m, Session (stroke1 ++ [.update (inp .up 4 4 100) []]) rs m ∧
    decide (rs.map (·.status.isOk) = [true, true, true, true, true, false]) = true := exists_session (by kernel_rfl)

/-- The full C05 is false: a Move that is rejected because it is too far in time still influences the next one. -/
theorem C05_refuted [Libm] : ∃ (ops : List (Op F32 F64)) (rs : List (Response F32 F64)) (m m' : StrokeModeler F32 F64)
    (i : Input F32 F64) (r : Response F32 F64), Session ops rs m ∧ step m (.update i []) = .ok (m', r) ∧
    r.status ≠ .ok ∧ ¬ Indist m' m := by
  let ops : List (Op F32 F64) := [.resetParams params, .update (inp .down 0 0 0) []]
  let i : Input F32 F64 := inp .move 5 0 1
  let probe : List (Op F32 F64) := [.update (inp .move (fl 1 100) 0 (d 1 60)) []]
  obtain ⟨rs, m, h, hP⟩ := exists_session (ops := ops)
    (P := fun _ m => match step m (.update i []) with
      | .ok (m', r) => decide (r.status ≠ .ok ∧ observe m' probe ≠ observe m probe)
      | _ => false) (by kernel_rfl)
  cases hs : step m (.update i []) with
  | ok x =>
    rw [hs] at hP
    obtain ⟨h1, h2⟩ := of_decide_eq_true hP
    exact ⟨ops, rs, m, x.1, i, x.2, h, hs, h1, fun hc => h2 (hc probe)⟩
  | ub w => simp [hs] at hP
  | diverge => simp [hs] at hP
end Examples

/-! ## C13 -/

/-- C13: when `Predict` succeeds. In every case the answer is independent of the previous contents of the caller's
vector. (For histories in which no `Reset(params)` disabling prediction follows a `Save`; without this
`C12_refuted` applies.) -/
theorem C13_predict_discipline {ops : List (Op F D)} {rs : List (Response F D)} {m : StrokeModeler F D}
    (h : Session ops rs m) (hn : NoDisableAfterSave ops) :
    (((known ops rs).prev = none ∨ (∀ p, (known ops rs).params = some p → p.prediction = .disabled)) →
      ∃ m' msg, ∀ v, step m (.predict v) = .ok (m', ⟨.err .failedPrecondition msg, []⟩)) ∧
    (∀ p, (known ops rs).params = some p → p.prediction ≠ .disabled → (known ops rs).prev ≠ none →
      (∃ m' out, ∀ v, step m (.predict v) = .ok (m', ⟨.ok, out⟩)) ∨
      (∃ w, ∀ v, step m (.predict v) = .ub w) ∨ (∀ v, step m (.predict v) = .diverge)) := by
  have hinv := h.predInv hn
  rw [← h.known]
  simp only [StrokeModeler.known, ne_eq, Option.map_eq_none_iff, step, StrokeModeler.predict]
  constructor
  · intro hc
    cases hp : m.params with
    | none => exact ⟨_, _, fun v => rfl⟩
    | some p =>
      cases hpr : m.predictor with
      | none => exact ⟨_, _, fun v => rfl⟩
      | some pr =>
        cases hl : m.lastInput with
        | none => exact ⟨_, _, fun v => rfl⟩
        | some last =>
          exfalso
          have := hc.resolve_left (by simp [hl]) p hp
          have h2 := hinv.live p hp
          rw [(makePredictor_eq_none p).2 this, hpr] at h2
          simp at h2
  · intro p hp hd hl
    obtain ⟨last, hl⟩ := Option.ne_none_iff_exists'.1 hl
    have h2 := hinv.live p hp
    cases hpr : m.predictor with
    | none =>
      rw [hpr, Option.map_none, eq_comm, makePredictor_eq_none] at h2
      exact absurd h2 hd
    | some pr =>
      simp only [hp, hl]
      cases pr.constructPrediction m.position.state with
      | ub w => exact .inr (.inl ⟨w, fun v => rfl⟩)
      | diverge => exact .inr (.inr fun v => rfl)
      | ok tips =>
        simp only [Outcome.ok_bind]
        cases modelStylus tips m.stylus m.loop last.input.time with
        | ub w => exact .inr (.inl ⟨w, fun v => rfl⟩)
        | diverge => exact .inr (.inr fun v => rfl)
        | ok x => exact .inl ⟨_, _, fun v => rfl⟩

section Examples
open Ex
example : ∃ rs m, Session stroke1 rs m ∧
    decide ((known stroke1 rs).params = some params ∧ (known stroke1 rs).prev ≠ none ∧
      m.known.prev = (known stroke1 rs).prev ∧ params.prediction ≠ .disabled) = true := exists_session (by kernel_rfl)
end Examples

/-! ## C14 -/

/-- C14: an accepted Down appends exactly one result, which echoes the input with zero velocity and acceleration. -/
theorem C14_down_echo {ops : List (Op F D)} {rs : List (Response F D)} {m : StrokeModeler F D}
    (h : Session ops rs m) {i : Input F D} (hi : refusal (known ops rs) i = none) (he : i.eventType = .down)
    (v : List (Result F D)) :
    ∃ m', step m (.update i v) = .ok (m', ⟨.ok, v ++
      [{ position := i.position, velocity := ⟨0, 0⟩, acceleration := ⟨0, 0⟩, time := i.time
         pressure := i.pressure, tilt := i.tilt, orientation := i.orientation }]⟩) := by
  have hv := h.validInv
  rw [← h.known] at hi
  obtain ⟨p, hp, hc⟩ := update_not_refused m i hi
  simp only [he, reduceCtorEq, false_and, or_false, true_and] at hc
  obtain ⟨hl, hc⟩ := hc
  obtain ⟨hn, hc'⟩ := validStylus (hv p hp)
  simp only [step, hc, StrokeModeler.processDown, hl]
  have hst : Outcome.Returns ((m.stylus.reset p.stylus).update i.position i.time (stylusStateOf i)) := by
    unfold StylusModeler.update
    dsimp only
    split
    · exact ⟨_, rfl⟩
    · simp only [StylusModeler.reset, StylusModeler.flags, StylusModelerState.default, List.nil_append, dropOldInputs,
        shouldDropOldestInput]
      cases hu : p.stylus.useStrokeNormalProjection with
      | true =>
        have := hn hu
        have : sizeGtInt 1 p.stylus.minInputSamples = false := by
          unfold sizeGtInt; simp; omega
        simp [this, Outcome.Returns]
      | false =>
        have := hc' hu
        have : sizeGtInt 1 p.stylus.maxInputSamples = false := by
          unfold sizeGtInt; simp; omega
        simp [this, Outcome.Returns]
  have hpr : ∃ q, updatePredictor (m.predictor.map Predictor.reset) i.position i.time = .ok q := by
    cases m.predictor with
    | none => exact ⟨_, rfl⟩
    | some q =>
      cases q with
      | strokeEnd q => exact ⟨_, rfl⟩
      | kalman q => exact ⟨_, rfl⟩
  obtain ⟨s, hs⟩ := hst
  obtain ⟨q, hq⟩ := hpr
  rw [hs, hq]
  exact ⟨_, rfl⟩

section Examples
open Ex
example : ∃ rs m, Session [.resetParams params] rs m ∧ decide (m.known.params = some params ∧
    refusal (known [.resetParams params] rs) ⟨.down, ⟨3, 4⟩, 1, .nan, fl 1 2, .inf false⟩ = none) = true :=
  exists_session (by kernel_rfl)
end Examples

end Ink
