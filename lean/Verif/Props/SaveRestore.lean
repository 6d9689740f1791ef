import Verif.Lemmas.Buffer
import Verif.Examples.Base
/-!
# Predict, Save, Restore, Reset and the independence of strokes: C06 - C12

The positive theorems hold for any arithmetic; the refutations are on IEEE floats with any math library.
-/
namespace Ink
open Scalar Arith

variable {F D : Type} [Scalar F] [Scalar D] [Arith F D]

/-! ## C06 -/

/-- `t` is the history `s` (calls and their responses) with some of its `Predict` calls left out. -/
inductive LeavesOutPredicts : List (Op F D × Response F D) → List (Op F D × Response F D) → Prop
  | nil : LeavesOutPredicts [] []
  | keep (c) {s t} : LeavesOutPredicts s t → LeavesOutPredicts (c :: s) (c :: t)
  | drop (v r) {s t} : LeavesOutPredicts s t → LeavesOutPredicts ((.predict v, r) :: s) t

/-- C06: leaving out any `Predict` calls changes neither the responses to the other calls nor any later response. -/
theorem C06_predict_no_influence {m m' : StrokeModeler F D} {ops : List (Op F D)} {rs : List (Response F D)}
    (h : run m ops = .ok (m', rs)) {t : List (Op F D × Response F D)} (ht : LeavesOutPredicts (ops.zip rs) t) :
    ∃ m'', run m (t.map Prod.fst) = .ok (m'', t.map Prod.snd) ∧ Indist m'' m' := by
  suffices ∃ m'', run m (t.map Prod.fst) = .ok (m'', t.map Prod.snd) ∧ BufOnly m'' m' by
    obtain ⟨m'', h1, h2⟩ := this
    exact ⟨m'', h1, h2.indist⟩
  generalize hz : ops.zip rs = s at ht
  induction ht generalizing ops rs m with
  | nil =>
    have hlen := run_length h
    have : ops = [] := by
      have := congrArg List.length hz
      simp only [List.length_zip, List.length_nil] at this
      exact List.eq_nil_of_length_eq_zero (by omega)
    subst this
    simp only [run, Outcome.ok.injEq, Prod.mk.injEq] at h
    exact ⟨m, rfl, h.1 ▸ .refl _⟩
  | keep c hst ih =>
    cases ops with
    | nil => simp at hz
    | cons op ops =>
      obtain ⟨m₁, r, rs', h₁, h₂, rfl⟩ := run_cons_ok h
      simp only [List.zip_cons_cons, List.cons.injEq] at hz
      obtain ⟨m'', hr, hb⟩ := ih h₂ hz.2
      refine ⟨m'', ?_, hb⟩
      rw [← hz.1]
      simp [run, h₁, hr]
  | drop v r hst ih =>
    cases ops with
    | nil => simp at hz
    | cons op ops =>
      obtain ⟨m₁, r', rs', h₁, h₂, rfl⟩ := run_cons_ok h
      simp only [List.zip_cons_cons, List.cons.injEq, Prod.mk.injEq] at hz
      obtain ⟨⟨rfl, rfl⟩, hz⟩ := hz
      obtain ⟨m'', hr, hb⟩ := ih h₂ hz
      obtain ⟨m₃, hr', hb'⟩ := (step_predict_bufOnly h₁).symm.run hr
      exact ⟨m₃, hr', hb'.symm.trans hb⟩

/-- C06: `Predict` twice in a row gives the same answer. -/
theorem C06_predict_twice {m m' : StrokeModeler F D} {v : List (Result F D)} {r : Response F D}
    (h : step m (.predict v) = .ok (m', r)) (w : List (Result F D)) :
    ∃ m'', step m' (.predict w) = .ok (m'', r) := by
  have h0 : step m (.predict w) = .ok (m', r) := by
    simpa [step, StrokeModeler.predict] using h
  have := (step_predict_bufOnly h).step (.predict w)
  rw [h0] at this
  cases hb : step m' (.predict w) with
  | ok y => rw [hb] at this; exact ⟨y.1, by rw [this.2]⟩
  | ub w' => simp [hb, SameStep] at this
  | diverge => simp [hb, SameStep] at this

section Examples
open Ex
/-- leaving out both `Predict` calls of a session -/
example : ∃ rs m, Session stroke1 rs m ∧ rs.length = 5 ∧ ∃ t, LeavesOutPredicts (stroke1.zip rs) t ∧ t.length = 3 := by
  obtain ⟨rs, m, h, hl⟩ := exists_session (ops := stroke1) (P := fun rs _ => rs.length = 5) (by kernel_rfl)
  have hl : rs.length = 5 := by simpa using hl
  match rs, hl with
  | [a, b, c, d, e], _ => exact ⟨_, m, h, rfl, _, .keep _ (.keep _ (.drop _ _ (.keep _ (.drop _ _ .nil)))), rfl⟩
end Examples

/-! ## C07, C09 -/

/-- The call neither resets nor saves, and starts no stroke. -/
def StaysInStroke : Op F D → Response F D → Prop
  | .update i _, r => i.eventType = .down → r.status ≠ .ok
  | .predict _, _ => True
  | .restore, _ => True
  | _, _ => False

/-- Each call of the history stays in the stroke. -/
def AllStayInStroke (ops : List (Op F D)) (rs : List (Response F D)) : Prop :=
  ∀ op r, (op, r) ∈ ops.zip rs → StaysInStroke op r

theorem step_predictor_none {m m' : StrokeModeler F D} {op : Op F D} {r : Response F D} (h : step m op = .ok (m', r))
    (hop : StaysInStroke op r) (hp : m.predictor = none) (hs : m.savedPredictor = none) : m'.predictor = none := by
  rcases step_pred h with ⟨p, rfl, _⟩ | ⟨rfl, _⟩ | ⟨rfl, rfl⟩ | ⟨_, hpr, _⟩
  · simp [StaysInStroke] at hop
  · simp [StaysInStroke] at hop
  · unfold StrokeModeler.restore
    split
    · exact hp
    · simp [hs, hp]
  · simpa [hp] using hpr

/-- All that Restore needs is untouched by calls that stay in the stroke. -/
theorem run_stays {m m' : StrokeModeler F D} {ops : List (Op F D)} {rs : List (Response F D)}
    (h : run m ops = .ok (m', rs)) (hops : AllStayInStroke ops rs) :
    Frozen m' m ∧ (m.predictor = none → m.savedPredictor = none → m'.predictor = none) := by
  induction ops generalizing m rs with
  | nil =>
    simp only [run, Outcome.ok.injEq, Prod.mk.injEq] at h
    rw [← h.1]
    exact ⟨.refl _, fun h _ => h⟩
  | cons op ops ih =>
    obtain ⟨m₁, r, rs', h₁, h₂, rfl⟩ := run_cons_ok h
    have hop := hops op r (by simp)
    obtain ⟨hf, hn⟩ := ih h₂ (fun o r ho => hops o r (by simp [ho]))
    have hf' : Frozen m₁ m := step_frozen h₁ (by cases op <;> simp_all [StaysInStroke])
    exact ⟨hf.trans hf', fun hp hs => hn (step_predictor_none h₁ hop hp hs) (by rw [hf'.savedPredictor, hs])⟩

omit [Scalar F] [Scalar D] [Arith F D] in
theorem restore_save {m x : StrokeModeler F D} (hf : Frozen x m.save)
    (hn : m.predictor = none → m.savedPredictor = none ∧ x.predictor = none) : BufOnly x.restore m.save := by
  have hact : x.saveActive = true := hf.saveActive
  have hw : x.wobble.saveActive = true := hf.wobbleA
  have hs : x.stylus.saveActive = true := hf.stylusA
  have hl : x.loop.saveActive = true := hf.loopA
  have hp : x.position.savedState = some m.position.state := hf.positionS
  unfold StrokeModeler.restore WobbleSmoother.restore StylusModeler.restore LoopModeler.restore PositionModeler.restore
  simp only [hact, hw, hs, hl, hp]
  refine .of ⟨?_, hf.wobbleS, hf.wobbleP, rfl, hf.positionP, hf.stylusS, hf.stylusP, hf.loopS, hf.loopP⟩
    hf.savedLastInput ⟨hf.params, hf.wobbleP, hf.wobbleS, hf.wobbleA.symm ▸ hw.symm ▸ rfl, hf.positionP, ?_, hf.stylusP,
      hf.stylusS, ?_, hf.loopP, hf.loopS, ?_, hf.savedPredictor, hf.savedLastInput, ?_⟩
  · have := hf.savedPredictor
    simp only [StrokeModeler.save] at this ⊢
    simp only [Bool.not_true, Bool.false_eq_true, ↓reduceIte]
    rw [this]
    cases hm : m.predictor with
    | some p => rfl
    | none => simp [hn hm]
  · rfl
  · rfl
  · rfl
  · rfl

/-- C07 (partial): after `Save`, whatever is done within the stroke, `Restore` gives back a modeler that no client can
tell from the one right after `Save`.
Full statement: the same for every session; missing are sessions in which a `Reset(params)` that disables prediction
follows a `Save`, for which it is false, see `C07_refuted`. -/
theorem C07_restore_undoes_partial {ops₀ : List (Op F D)} {rs₀ : List (Response F D)} {m : StrokeModeler F D}
    (h₀ : Session ops₀ rs₀ m) (hn : NoDisableAfterSave ops₀)
    {m₁ m₂ m₃ : StrokeModeler F D} {r₁ r₃ : Response F D} {ops : List (Op F D)} {rs : List (Response F D)}
    (h₁ : step m .save = .ok (m₁, r₁)) (h₂ : run m₁ ops = .ok (m₂, rs)) (hops : AllStayInStroke ops rs)
    (h₃ : step m₂ .restore = .ok (m₃, r₃)) : Indist m₃ m₁ := by
  simp only [step, Outcome.ok.injEq, Prod.mk.injEq] at h₁ h₃
  rw [← h₁.1, ← h₃.1]
  rw [← h₁.1] at h₂
  obtain ⟨hf, hp⟩ := run_stays h₂ hops
  refine (restore_save hf fun hm => ?_).indist
  have hinv := h₀.predInv hn
  have hs : m.savedPredictor = none := by
    cases hpar : m.params with
    | none => exact (hinv.uninit hpar).2
    | some p =>
      have := hinv.live p hpar
      rw [hm] at this
      exact hinv.stale p hpar ((makePredictor_eq_none p).1 this.symm)
  exact ⟨hs, hp hm (by simp [StrokeModeler.save, hm, hs])⟩

section Examples
open Ex
/-- a `Save` in mid-stroke, followed by inputs, a prediction, a rejected input and the end of the stroke -/
example : ∃ rs m, Session (stroke1 ++ [.save, .update (inp .move 4 4 (d 2 30)) [], .predict [],
      .update (inp .down 4 4 (d 2 30)) [], .update (inp .up 4 5 (d 3 30)) [], .restore]) rs m ∧
    decide (rs.map (·.status.isOk) = [true, true, true, true, true, true, true, true, false, true, true] ∧
      m.lastInput = some ⟨inp .move (fl 32 10) (fl 42 10) (d 1 30), ⟨fl 32 10, fl 42 10⟩⟩) = true :=
  exists_session (by kernel_rfl)

/-- The full C07 is false: this session disables prediction after a `Save`; a second `Save` in the stroke keeps the old
saved predictor, and `Restore` makes it current. -/
theorem C07_refuted [Libm] : ∃ (ops₀ : List (Op F32 F64)) (rs₀ : List (Response F32 F64)) (m m₁ m₃ : StrokeModeler F32 F64)
    (r₁ r₃ : Response F32 F64), Session ops₀ rs₀ m ∧ step m .save = .ok (m₁, r₁) ∧ step m₁ .restore = .ok (m₃, r₃) ∧
    ¬ Indist m₃ m₁ := by
  obtain ⟨rs, m, h, hP⟩ := exists_session (ops := staleOps)
    (P := fun _ m => decide (observe m.save.restore [.predict []] ≠ observe m.save [.predict []])) (by kernel_rfl)
  refine ⟨staleOps, rs, m, m.save, m.save.restore, _, _, h, rfl, rfl, fun hc => ?_⟩
  exact (of_decide_eq_true hP) (hc [.predict []])
end Examples

/-- C09: `Restore` can be repeated. Twice is the same as once, in any state. -/
theorem C09_restore_idempotent {m m₁ m₂ : StrokeModeler F D} {r₁ r₂ : Response F D}
    (h₁ : step m .restore = .ok (m₁, r₁)) (h₂ : step m₁ .restore = .ok (m₂, r₂)) : Indist m₂ m₁ := by
  simp only [step, Outcome.ok.injEq, Prod.mk.injEq] at h₁ h₂
  rw [← h₂.1, ← h₁.1]
  suffices m.restore.restore = m.restore by rw [this]; exact .refl _
  unfold StrokeModeler.restore
  cases ha : m.saveActive with
  | false => simp [ha]
  | true =>
    simp only [Bool.not_true, Bool.false_eq_true, ↓reduceIte]
    have hw : ∀ w : WobbleSmoother F D, w.restore.restore = w.restore := by
      intro w; unfold WobbleSmoother.restore; split <;> simp_all
    have hs : ∀ w : StylusModeler F D, w.restore.restore = w.restore := by
      intro w; unfold StylusModeler.restore; split <;> simp_all
    have hl : ∀ w : LoopModeler F D, w.restore.restore = w.restore := by
      intro w; unfold LoopModeler.restore; split <;> simp_all
    have hp : ∀ w : PositionModeler F D, w.restore.restore = w.restore := by
      intro w; unfold PositionModeler.restore; cases hw : w.savedState <;> simp [hw]
    simp only [hw, hs, hl, hp, StrokeModeler.mk.injEq, and_true]
    cases m.savedPredictor <;> rfl

/-- C09: after a `Restore`, more calls within the stroke and another `Restore`, the modeler again behaves as right after
the `Save`; the first `Restore` has not used up the save point. -/
theorem C09_restore_again {ops₀ : List (Op F D)} {rs₀ : List (Response F D)} {m : StrokeModeler F D}
    (h₀ : Session ops₀ rs₀ m) (hn : NoDisableAfterSave ops₀)
    {m₁ m₂ m₃ m₄ m₅ : StrokeModeler F D} {r₁ r₃ r₅ : Response F D}
    {ops ops' : List (Op F D)} {rs rs' : List (Response F D)}
    (h₁ : step m .save = .ok (m₁, r₁))
    (h₂ : run m₁ ops = .ok (m₂, rs)) (hops : AllStayInStroke ops rs) (h₃ : step m₂ .restore = .ok (m₃, r₃))
    (h₄ : run m₃ ops' = .ok (m₄, rs')) (hops' : AllStayInStroke ops' rs') (h₅ : step m₄ .restore = .ok (m₅, r₅)) :
    Indist m₅ m₁ := by
  have hlen : ops.length = rs.length := (run_length h₂).symm
  refine C07_restore_undoes_partial h₀ hn h₁ (ops := ops ++ .restore :: ops') (rs := rs ++ r₃ :: rs')
    (run_append_eq h₂ (by simp [run, h₃, h₄])) ?_ h₅
  intro op r hm
  rw [List.zip_append hlen] at hm
  simp only [List.zip_cons_cons, List.mem_append, List.mem_cons, Prod.mk.injEq] at hm
  rcases hm with hm | ⟨rfl, rfl⟩ | hm
  · exact hops op r hm
  · trivial
  · exact hops' op r hm

/-! ## C08 -/

/-- C08 (partial): without a save point - that is, without a `Save` since the last successful `Reset` - `Restore` has no
effect.
Full statement: also when the last `Save` was made before the Down that began the current stroke. That is false, see
`C08_refuted`. -/
theorem C08_restore_without_save_partial {ops : List (Op F D)} {rs : List (Response F D)} {m m' : StrokeModeler F D}
    {r : Response F D} (h : Session ops rs m) (hs : (known ops rs).saved = none)
    (hr : step m .restore = .ok (m', r)) : Indist m' m := by
  rw [← h.known] at hs
  have : m.saveActive = false := by
    cases ha : m.saveActive <;> simp [StrokeModeler.known, ha] at hs ⊢
  simp only [step, StrokeModeler.restore, this, Outcome.ok.injEq, Prod.mk.injEq] at hr
  rw [← hr.1]
  exact .refl _

section Examples
open Ex
example : ∃ rs m, Session (stroke1 ++ [.save, .reset, .update (inp .down 1 1 9) []]) rs m ∧
    decide ((known (stroke1 ++ [.save, .reset, .update (inp .down 1 1 9) []]) rs).saved = none ∧
      m.lastInput ≠ none) = true := exists_session (by kernel_rfl)

/-- The full C08 is false: a `Save` in one stroke, then another stroke is begun; `Restore` changes the modeler although
`Save` has not been called since the Down that began the current stroke. -/
theorem C08_refuted [Libm] : ∃ (a : List (Op F32 F64)) (i : Input F32 F64) (v : List (Result F32 F64)) (rs : List (Response F32 F64))
    (m m' : StrokeModeler F32 F64) (r : Response F32 F64),
    Session (a ++ [.update i v]) rs m ∧ i.eventType = .down ∧ (rs.getLast?.map (·.status)) = some .ok ∧
    step m .restore = .ok (m', r) ∧ ¬ Indist m' m := by
  let a : List (Op F32 F64) :=
    [.resetParams params, .update (inp .down 0 0 0) [], .save, .update (inp .up 1 0 (d 1 30)) []]
  let probe : List (Op F32 F64) := [.update (inp .move 9 0 (d 1 60)) []]
  obtain ⟨rs, m, h, hP⟩ := exists_session (ops := a ++ [.update (inp .down 8 0 1) []])
    (P := fun rs m => decide ((rs.getLast?.map (·.status)) = some .ok ∧ observe m.restore probe ≠ observe m probe))
    (by kernel_rfl)
  obtain ⟨h1, h2⟩ := of_decide_eq_true hP
  exact ⟨a, _, _, rs, m, m.restore, _, h, rfl, h1, rfl, fun hc => h2 (hc probe)⟩
end Examples

/-! ## C10, C11 -/

theorem Session.snoc {ops : List (Op F D)} {rs : List (Response F D)} {m m' : StrokeModeler F D} {op : Op F D}
    {r : Response F D} (h : Session ops rs m) (hs : step m op = .ok (m', r)) : Session (ops ++ [op]) (rs ++ [r]) m' :=
  run_append_eq h (by simp [run, hs])

/-- A modeler between strokes is equivalent to one that has just been initialised with the same parameters. -/
theorem equiv_fresh {ops : List (Op F D)} {rs : List (Response F D)} {m m₀ : StrokeModeler F D} {r₀ : Response F D}
    (h : Session ops rs m) (hn : NoDisableAfterSave ops) {p : StrokeModelParams F D}
    (hp : (known ops rs).params = some p) (hprev : (known ops rs).prev = none)
    (hf : step .default (.resetParams p) = .ok (m₀, r₀)) {live : Prop} (hl : live → (known ops rs).saved = none) :
    Equiv live (.save ∈ ops) m m₀ := by
  have hinv := h.predInv hn
  have hval := h.validInv
  rw [← h.known] at hp hprev hl
  have hp : m.params = some p := hp
  have hprev : m.lastInput = none := by simpa [StrokeModeler.known] using hprev
  have hl : live → m.saveActive = false := fun hh => by
    have := hl hh
    cases ha : m.saveActive <;> simp [StrokeModeler.known, ha] at this ⊢
  rcases resetParams_cases .default p with ⟨_, _, hv, _⟩ | ⟨_, hr⟩
  · rw [hval p hp] at hv; simp at hv
  simp only [step, hr, Outcome.ok.injEq, Prod.mk.injEq] at hf
  rw [← hf.1]
  refine ⟨hp, hprev, hl, ?_, ?_, ?_, ?_, ?_, ?_, ?_⟩
  · rw [hinv.live p hp, makePredictor_reset]
  · rintro (hc | ⟨hlive, hc, _⟩)
    · exact absurd hprev hc
    · simp [hl hlive] at hc
  · intro hlive hc; simp [hl hlive] at hc
  · intro hlive hc; simp [hl hlive] at hc
  · intro hlive hc; simp [hl hlive] at hc
  · intro hc
    have := hinv.live p hp
    rw [hc] at this
    exact ⟨hinv.stale p hp ((makePredictor_eq_none p).1 this.symm), rfl⟩
  · exact fun hc => ⟨hinv.fresh hc, rfl⟩

/-- C10 (partial): after a successful `Reset(params)` the modeler behaves as a new one on which only that call was made.
Full statement: the same for all `ops` and `later`; it is false when a `Reset(params)` that disables prediction comes
after a `Save`, see `C10_refuted`. -/
theorem C10_reset_params_fresh_partial {ops : List (Op F D)} {rs : List (Response F D)} {m m' m₀ : StrokeModeler F D}
    {p : StrokeModelParams F D} {r r₀ : Response F D} (h : Session ops rs m)
    (hs : step m (.resetParams p) = .ok (m', r)) (hr : r.status = .ok)
    (hf : step .default (.resetParams p) = .ok (m₀, r₀))
    {later : List (Op F D)} (hn : NoDisableAfterSave (ops ++ .resetParams p :: later)) :
    observe m' later = observe m₀ later := by
  have h' := h.snoc hs
  have hn' : NoDisableAfterSave ((ops ++ [.resetParams p]) ++ later) := by simpa using hn
  have hk : known (ops ++ [.resetParams p]) (rs ++ [r]) = ⟨some p, none, none⟩ := by
    rw [← h'.known, step_known hs]; simp [Known.after, hr]
  refine (equiv_fresh (live := True) h' hn'.prefix (by rw [hk]) (by rw [hk]) hf (by simp [hk])).observe later ?_ ?_
    (.inl trivial)
  · exact fun x q y hxy hd hm => hn' (ops ++ [.resetParams p] ++ x) q y (by simp [hxy]) hd (by simp [hm])
  · intro hsv q hq hd
    obtain ⟨u, w, rfl⟩ := List.append_of_mem hq
    exact hn' (ops ++ [.resetParams p] ++ u) q w (by simp) hd (by simp at hsv ⊢; exact .inl hsv)

/-- C10 (partial): `Reset()` after a successful `Reset(params)` likewise. -/
theorem C10_reset_fresh_partial {ops : List (Op F D)} {rs : List (Response F D)} {m m' m₀ : StrokeModeler F D}
    {p : StrokeModelParams F D} {r r₀ : Response F D} (h : Session ops rs m)
    (hp : (known ops rs).params = some p) (hs : step m .reset = .ok (m', r))
    (hf : step .default (.resetParams p) = .ok (m₀, r₀))
    {later : List (Op F D)} (hn : NoDisableAfterSave (ops ++ later)) :
    r.status = .ok ∧ observe m' later = observe m₀ later := by
  have hr : r.status = .ok := by
    have hp : m.params = some p := by rw [← h.known] at hp; exact hp
    simp only [step, StrokeModeler.reset, hp, Outcome.ok.injEq, Prod.mk.injEq] at hs
    simp [← hs.2]
  have h' := h.snoc hs
  have hn' : NoDisableAfterSave ((ops ++ [.reset]) ++ later) := by
    intro x q y hxy hd hm
    rcases List.append_eq_append_iff.1 hxy with ⟨t, h1, h2⟩ | ⟨t, h1, h2⟩
    · refine hn (ops ++ t) q y (by simp [h2]) hd ?_
      rw [h1] at hm; simpa using hm
    · rcases List.eq_nil_or_concat t with rfl | ⟨t, o, rfl⟩
      · refine hn (ops ++ []) q y (by simpa using h2.symm) hd ?_
        have : x = ops ++ [.reset] := by simpa using h1.symm
        rw [this] at hm; simpa using hm
      · cases t with
        | nil =>
          simp only [List.concat_eq_append, List.nil_append, List.cons_append, List.cons.injEq] at h1 h2
          have := List.append_inj_right' h1 rfl
          simp only [List.cons.injEq, and_true] at this
          rw [← this] at h2; simp at h2
        | cons o' t =>
          simp only [List.concat_eq_append, List.cons_append, List.cons.injEq] at h1 h2
          have h1' : ops = x ++ .resetParams q :: t ∧ o = .reset := by
            have : ops ++ [.reset] = (x ++ .resetParams q :: t) ++ [o] := by rw [h1, h2.1]; simp
            have := List.append_inj' this rfl
            simp at this
            exact ⟨this.1, this.2.symm⟩
          exact hn x q (t ++ later) (by simp [h1'.1]) hd hm
  have hk : known (ops ++ [.reset]) (rs ++ [r]) = ⟨some p, none, none⟩ := by
    rw [← h'.known, step_known hs]
    have : m.known.params = some p := by rw [h.known, hp]
    simp [Known.after, hr, this]
  refine ⟨hr, (equiv_fresh (live := True) h' hn'.prefix (by rw [hk]) (by rw [hk]) hf (by simp [hk])).observe later ?_ ?_
    (.inl trivial)⟩
  · exact fun x q y hxy hd hm => hn' (ops ++ [.reset] ++ x) q y (by simp [hxy]) hd (by simp [hm])
  · intro hsv q hq hd
    obtain ⟨u, w, rfl⟩ := List.append_of_mem hq
    exact hn' (ops ++ [.reset] ++ u) q w (by simp) hd (by simp at hsv ⊢; exact .inl hsv)

/-- C11 (partial): between strokes the modeler behaves as a new one initialised with the same parameters, whatever
happened before; the calls after `ops` may not reach back with a `Restore`.
Full statement: without `NoDisableAfterSave`; it is false, see `C11_refuted`. -/
theorem C11_strokes_independent_partial {ops : List (Op F D)} {rs : List (Response F D)} {m m₀ : StrokeModeler F D}
    {p : StrokeModelParams F D} {r₀ : Response F D} (h : Session ops rs m)
    (hp : (known ops rs).params = some p) (hprev : (known ops rs).prev = none)
    (hf : step .default (.resetParams p) = .ok (m₀, r₀))
    {later : List (Op F D)} (hres : ∀ x y, later = x ++ .restore :: y → .save ∈ x)
    (hn : NoDisableAfterSave (ops ++ later)) : observe m later = observe m₀ later := by
  refine (equiv_fresh (live := False) h hn.prefix hp hprev hf (by simp)).observe later ?_ ?_ (.inr hres)
  · exact fun x q y hxy hd hm => hn (ops ++ x) q y (by simp [hxy]) hd (by simp [hm])
  · intro hsv q hq hd
    obtain ⟨u, w, rfl⟩ := List.append_of_mem hq
    exact hn (ops ++ u) q w (by simp) hd (by simp [hsv])

section Examples
open Ex
/-- a session between strokes, with a save point -/
example : ∃ rs m, Session (stroke1 ++ [.save, .update (inp .up 4 4 (d 2 30)) []]) rs m ∧
    decide ((known (stroke1 ++ [.save, .update (inp .up 4 4 (d 2 30)) []]) rs).params = some params ∧
      (known (stroke1 ++ [.save, .update (inp .up 4 4 (d 2 30)) []]) rs).prev = none ∧
      m.position.state.position ≠ ⟨0, 0⟩) = true := exists_session (by kernel_rfl)
/-- it has no `Reset(params)` that disables prediction -/
example : NoDisableAfterSave (stroke1 ++ [.save, .update (inp .up 4 4 (d 2 30)) []] ++ stroke2) := by
  intro a p b h hd
  have hm : Op.resetParams p ∈ stroke1 ++ [.save, .update (inp .up 4 4 (d 2 30)) []] ++ stroke2 := by simp [h]
  simp [stroke1, stroke2] at hm
  simp [hm, params] at hd

/-- The full C10 is false: after `Reset` with parameters that disable prediction, Down, `Save`, `Restore`, `Predict`
succeeds if a `Save` was made before the `Reset`, and fails on a fresh modeler. -/
theorem C10_refuted [Libm] : ∃ (ops : List (Op F32 F64)) (rs : List (Response F32 F64)) (m m' m₀ : StrokeModeler F32 F64)
    (p : StrokeModelParams F32 F64) (r r₀ : Response F32 F64) (later : List (Op F32 F64)), Session ops rs m ∧
    step m (.resetParams p) = .ok (m', r) ∧ r.status = .ok ∧ step .default (.resetParams p) = .ok (m₀, r₀) ∧
    observe m' later ≠ observe m₀ later := by
  let later : List (Op F32 F64) := [.update (inp .down 0 0 0) [], .save, .restore, .predict []]
  obtain ⟨rs, m, h, hP⟩ := exists_session (ops := ([.resetParams params, .save] : List (Op F32 F64)))
    (P := fun _ m => decide ((m.resetParams disabled).2 = .ok ∧
      observe (m.resetParams disabled).1 later ≠ observe (StrokeModeler.default.resetParams disabled).1 later))
    (by kernel_rfl)
  obtain ⟨h1, h2⟩ := of_decide_eq_true hP
  exact ⟨_, rs, m, (m.resetParams disabled).1, (StrokeModeler.default.resetParams disabled).1, disabled,
    ⟨(m.resetParams disabled).2, []⟩, ⟨(StrokeModeler.default.resetParams disabled).2, []⟩, later, h,
    step_resetParams m _, (by dsimp only; exact h1), step_resetParams _ _, h2⟩

/-- The full C11 is false: between strokes, with parameters that disable prediction, Down, `Save`, `Restore`, `Predict` succeeds
if a `Save` was made under earlier parameters, and fails on a fresh modeler. -/
theorem C11_refuted [Libm] : ∃ (ops : List (Op F32 F64)) (rs : List (Response F32 F64)) (m m₀ : StrokeModeler F32 F64)
    (p : StrokeModelParams F32 F64) (r₀ : Response F32 F64) (later : List (Op F32 F64)), Session ops rs m ∧
    (known ops rs).params = some p ∧ (known ops rs).prev = none ∧ step .default (.resetParams p) = .ok (m₀, r₀) ∧
    (∀ x y, later = x ++ .restore :: y → .save ∈ x) ∧ observe m later ≠ observe m₀ later := by
  let ops : List (Op F32 F64) := [.resetParams params, .save, .resetParams disabled]
  let later : List (Op F32 F64) := [.update (inp .down 0 0 0) [], .save, .restore, .predict []]
  obtain ⟨rs, m, h, hP⟩ := exists_session (ops := ops)
    (P := fun rs m => decide ((known ops rs).params = some disabled ∧ (known ops rs).prev = none ∧
      observe m later ≠ observe (StrokeModeler.default.resetParams disabled).1 later))
    (by kernel_rfl)
  obtain ⟨h1, h2, h3⟩ := of_decide_eq_true hP
  refine ⟨ops, rs, m, (StrokeModeler.default.resetParams disabled).1, disabled,
    ⟨(StrokeModeler.default.resetParams disabled).2, []⟩, later, h, h1, h2, step_resetParams _ _, ?_, h3⟩
  intro x y hxy
  rcases x with _ | ⟨a, _ | ⟨b, x⟩⟩
  · simp [later] at hxy
  · simp [later] at hxy
  · simp only [later, List.cons_append, List.cons.injEq] at hxy
    simp [← hxy.2.1]
end Examples

/-! ## C12 -/

/-- C12 (partial): while the parameters in force disable prediction, `Predict` fails.
Full statement: for every session; it is false if a `Save` was made under earlier parameters, see `C12_refuted`. -/
theorem C12_disabled_partial {ops : List (Op F D)} {rs : List (Response F D)} {m : StrokeModeler F D}
    (h : Session ops rs m) (hn : NoDisableAfterSave ops) {p : StrokeModelParams F D}
    (hp : (known ops rs).params = some p) (hd : p.prediction = .disabled) (v : List (Result F D)) :
    ∃ m' msg, step m (.predict v) = .ok (m', ⟨.err .failedPrecondition msg, []⟩) := by
  have hinv := h.predInv hn
  rw [← h.known] at hp
  have hp : m.params = some p := hp
  have h2 := hinv.live p hp
  rw [(makePredictor_eq_none p).2 hd, Option.map_eq_none_iff] at h2
  simp [step, StrokeModeler.predict, hp, h2]

section Examples
open Ex
example : ∃ rs m, Session [.resetParams disabled, .update (inp .down 1 1 9) [], .save, .restore] rs m ∧
    decide ((known [.resetParams disabled, .update (inp .down 1 1 9) [], .save, .restore] rs).params = some disabled ∧
      m.lastInput ≠ none) = true := exists_session (by kernel_rfl)

/-- The full C12 is false: `Predict` succeeds although the parameters of the last successful `Reset` disable
prediction. -/
theorem C12_refuted [Libm] : ∃ (ops : List (Op F32 F64)) (rs : List (Response F32 F64)) (m m' : StrokeModeler F32 F64)
    (p : StrokeModelParams F32 F64) (r : Response F32 F64), Session ops rs m ∧ (known ops rs).params = some p ∧
    p.prediction = .disabled ∧ step m (.predict []) = .ok (m', r) ∧ r.status = .ok := by
  obtain ⟨rs, m, h, hP⟩ := exists_session (ops := staleOps ++ [.save, .restore])
    (P := fun rs m => decide ((known (staleOps ++ [.save, .restore]) rs).params = some disabled) &&
      match step m (.predict []) with
      | .ok (_, r) => decide (r.status = .ok)
      | _ => false) (by kernel_rfl)
  rw [Bool.and_eq_true] at hP
  obtain ⟨h1, h2⟩ := hP
  cases hs : step m (.predict []) with
  | ok x =>
    rw [hs] at h2
    exact ⟨_, rs, m, x.1, disabled, x.2, h, of_decide_eq_true h1, rfl, hs, of_decide_eq_true h2⟩
  | ub w => simp [hs] at h2
  | diverge => simp [hs] at h2
end Examples

end Ink
