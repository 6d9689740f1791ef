import Verif.Lemmas.Stroke
import Verif.Lemmas.Query
/-!
# A stroke step by step

`Course` is `Straight` with the handlers opened up: what each component of the modeler did for each input.
-/
namespace Ink
open Scalar Arith

variable {F D : Type} [Scalar F] [Scalar D] [Arith F D]

/-- The input has finite position and time. -/
structure FiniteInput (i : Input F D) : Prop where
  x : isFinite i.position.x = true
  y : isFinite i.position.y = true
  time : isFinite i.time = true

/-- The input may follow `prev` in a stroke. -/
structure Fits (prev i : Input F D) : Prop extends FiniteInput i where
  later : (i.time <ᵇ prev.time) = false
  new : Input.eq prev i = false

omit [Arith F D] in
theorem refusal_none_finite {k : Known F D} {i : Input F D} (h : refusal k i = none) : FiniteInput i := by
  unfold refusal at h
  split at h
  · simp at h
  · split at h
    · simp at h
    · rename_i hc
      simp only [not_not] at hc
      exact ⟨hc.2.1, hc.2.2.1, hc.2.2.2⟩

omit [Arith F D] in
theorem refusal_none_fits {k : Known F D} {i prev : Input F D} (h : refusal k i = none) (hk : k.prev = some prev) :
    Fits prev i := by
  refine ⟨refusal_none_finite h, ?_, ?_⟩
  all_goals
    unfold refusal at h
    simp only [hk] at h
    split at h
    · simp at h
    · split at h
      · simp at h
      · split at h
        · simp at h
        · split at h
          · simp at h
          · simp_all

/-- A stroke without detours, step by step. -/
inductive Course (p : StrokeModelParams F D) : List (Event F D) → StrokeModeler F D → Prop
  | down {i : Input F D} {stylus : StylusModeler F D} {predictor : Option (Predictor F D)}
      (hv : validateStrokeModelParams p = .ok) (he : i.eventType = .down) (hf : FiniteInput i)
      (hs : (StylusModeler.default.reset p.stylus).update i.position i.time (stylusStateOf i) = .ok stylus)
      (hp : updatePredictor (StrokeModeler.makePredictor p) i.position i.time = .ok predictor) :
      Course p [⟨i, some [StrokeModeler.downResult i]⟩]
        { predictor, params := some p
          wobble := WobbleSmoother.default.reset p.wobble i.position i.time
          position := PositionModeler.reset (StrokeModeler.startState i) p.position
          stylus, loop := (LoopModeler.default.reset p.position.loop).reset p.position.loop, tipBuffer := []
          lastInput := some { input := i, correctedPosition := i.position }
          savedPredictor := none, savedLastInput := none, saveActive := false }
  | move {es : List (Event F D)} {m : StrokeModeler F D} {last : LastInput F D} {i : Input F D}
      {wobble : WobbleSmoother F D} {corrected : Vec2 F} {stylus : StylusModeler F D} {n : Int}
      {predictor : Option (Predictor F D)} {loop : LoopModeler F D} {out : List (Result F D)}
      (hm : Course p es m) (hl : m.lastInput = some last) (he : i.eventType = .move) (hf : Fits last.input i)
      (hw : m.wobble.update i.position i.time = .ok (wobble, corrected))
      (hs : m.stylus.update corrected i.time (stylusStateOf i) = .ok stylus)
      (hn : numberOfStepsBetweenInputs m.position.state last.input i p.sampling p.position = .ok (.ok n))
      (hp : updatePredictor m.predictor corrected i.time = .ok predictor)
      (hq : modelStylus (m.moveTips last i corrected n).2 stylus m.loop i.time = .ok (loop, out)) :
      Course p (es ++ [⟨i, some out⟩])
        { m with
          wobble, stylus, predictor, loop
          position := (m.moveTips last i corrected n).1
          tipBuffer := (m.moveTips last i corrected n).2
          lastInput := some { input := i, correctedPosition := corrected } }
  | late {es : List (Event F D)} {m : StrokeModeler F D} {last : LastInput F D} {i : Input F D}
      {wobble : WobbleSmoother F D} {corrected : Vec2 F} {stylus : StylusModeler F D} {s : Status}
      (hm : Course p es m) (hl : m.lastInput = some last) (he : i.eventType = .move) (hf : Fits last.input i)
      (hw : m.wobble.update i.position i.time = .ok (wobble, corrected))
      (hs : m.stylus.update corrected i.time (stylusStateOf i) = .ok stylus)
      (hn : numberOfStepsBetweenInputs m.position.state last.input i p.sampling p.position = .ok (.error s)) :
      Course p (es ++ [⟨i, none⟩]) { m with wobble, stylus }
  | up {es : List (Event F D)} {m : StrokeModeler F D} {last : LastInput F D} {i : Input F D}
      {stylus : StylusModeler F D} {n : Int} {loop : LoopModeler F D} {out : List (Result F D)}
      (hm : Course p es m) (hl : m.lastInput = some last) (he : i.eventType = .up) (hf : Fits last.input i)
      (hs : m.stylus.update i.position i.time (stylusStateOf i) = .ok stylus)
      (hn : numberOfStepsBetweenInputs m.position.state last.input i p.sampling p.position = .ok (.ok n))
      (hq : modelStylus (m.upTips p last i n).2 stylus m.loop last.input.time = .ok (loop, out)) :
      Course p (es ++ [⟨i, some out⟩])
        { m with
          stylus, loop
          position := (m.upTips p last i n).1
          tipBuffer := (m.upTips p last i n).2
          lastInput := none }

theorem Straight.course {p : StrokeModelParams F D} {es : List (Event F D)} {m : StrokeModeler F D}
    (h : Straight p es m) : Course p es m := by
  induction h with
  | @down i m out hv he h =>
    rw [resetParams_of_valid _ hv] at h
    rcases update_ok h with ⟨_, _, _, hc, _⟩ | ⟨hr, p', hp, ⟨_, hl, h⟩ | ⟨last, he', hl, h⟩ | ⟨last, he', hl, h⟩⟩
    · simp at hc
    · simp only [Option.some.injEq] at hp
      subst hp
      obtain ⟨sty, pr, hs, hpr, _, rfl, rfl⟩ := StrokeModeler.processDown_ok hl h
      rw [makePredictor_reset] at hpr
      exact .down hv he (refusal_none_finite hr) hs hpr
    · simp [he] at he'
    · simp [he] at he'
  | @input es m m' i out hm he h ih =>
    have hpar := hm.params
    rcases update_ok h with ⟨_, _, _, hc, _⟩ | ⟨hr, p', hp, ⟨he', hl, h⟩ | ⟨last, he', hl, h⟩ | ⟨last, he', hl, h⟩⟩
    · simp at hc
    · exact absurd he' he
    · rw [hpar, Option.some.injEq] at hp
      subst hp
      have hf : Fits last.input i := refusal_none_fits hr (by simp [StrokeModeler.known, hl])
      obtain ⟨w, c, sty, h1, h2, ⟨h3, _⟩ | ⟨n, pr, loop, out', h3, h4, h5, _, rfl, rfl⟩⟩ :=
        StrokeModeler.processMove_ok hl h
      · obtain ⟨_, hc⟩ := numberOfSteps_error h3; simp at hc
      · exact .move ih hl he' hf h1 h2 h3 h4 h5
    · rw [hpar, Option.some.injEq] at hp
      subst hp
      have hf : Fits last.input i := refusal_none_fits hr (by simp [StrokeModeler.known, hl])
      rcases StrokeModeler.processUp_ok hl h with ⟨h3, _⟩ | ⟨n, sty, loop, out', h3, h4, h5, _, rfl, rfl⟩
      · obtain ⟨_, hc⟩ := numberOfSteps_error h3; simp at hc
      · exact .up ih hl he' hf h4 h3 h5
  | @late es m m' i c msg out hm hr he h ih =>
    have hpar := hm.params
    rcases update_ok h with ⟨_, _, hr', _⟩ | ⟨_, p', hp, ⟨he', hl, h⟩ | ⟨last, he', hl, h⟩ | ⟨last, he', hl, h⟩⟩
    · simp [hr] at hr'
    · simp [he] at he'
    · rw [hpar, Option.some.injEq] at hp
      subst hp
      have hf : Fits last.input i := refusal_none_fits hr (by simp [StrokeModeler.known, hl])
      obtain ⟨w, c, sty, h1, h2, ⟨h3, rfl, _⟩ | ⟨n, pr, loop, out', h3, h4, h5, hc, _⟩⟩ :=
        StrokeModeler.processMove_ok hl h
      · exact .late ih hl he' hf h1 h2 h3
      · simp at hc
    · simp [he] at he'

theorem wobble_update_params {w w' : WobbleSmoother F D} {x c : Vec2 F} {t : D}
    (h : w.update x t = .ok (w', c)) : w'.params = w.params := by
  unfold WobbleSmoother.update at h
  split at h
  · simp only [Outcome.ok.injEq, Prod.mk.injEq] at h; rw [← h.1]
  · split at h
    · simp at h
    · obtain ⟨st, _, h⟩ := Outcome.bind_eq_ok.1 h
      simp only [Outcome.pure_eq, Outcome.ok.injEq, Prod.mk.injEq] at h; rw [← h.1]

theorem stylus_update_params {s s' : StylusModeler F D} {x : Vec2 F} {t : D} {st : StylusState F}
    (h : s.update x t st = .ok s') : s'.params = s.params := by
  unfold StylusModeler.update at h
  dsimp only at h
  split at h
  · simp only [Outcome.ok.injEq] at h; rw [← h]
  · obtain ⟨st, _, h⟩ := Outcome.bind_eq_ok.1 h
    simp only [Outcome.pure_eq, Outcome.ok.injEq] at h; rw [← h]

theorem loop_update_params (l : LoopModeler F D) (v : Vec2 F) (t : D) : (l.update v t).1.params = l.params := by
  unfold LoopModeler.update; split <;> rfl

theorem modelStylusGo_loop_params {s : StylusModeler F D} {tips : List (TipState F D)} {l l' : LoopModeler F D} {c : F}
    {t : D} {out : List (Result F D)} (h : modelStylusGo s tips l c t = .ok (l', out)) : l'.params = l.params := by
  induction tips generalizing l l' c t out with
  | nil => simp only [modelStylusGo, Outcome.ok.injEq, Prod.mk.injEq] at h; simp [← h.1]
  | cons tip tips ih =>
    simp only [modelStylusGo] at h
    obtain ⟨q, hq, h⟩ := Outcome.bind_eq_ok.1 h
    obtain ⟨r, hr, h⟩ := Outcome.bind_eq_ok.1 h
    obtain ⟨⟨l₁, out'⟩, h₁, h⟩ := Outcome.bind_eq_ok.1 h
    simp only [Outcome.pure_eq, Outcome.ok.injEq, Prod.mk.injEq] at h
    rw [← h.1, ih h₁, loop_update_params]

/-- The parameters of the components are those given to Reset. -/
structure ParamsOf (p : StrokeModelParams F D) (m : StrokeModeler F D) : Prop where
  all : m.params = some p
  wobble : m.wobble.params = p.wobble
  position : m.position.params = p.position
  stylus : m.stylus.params = p.stylus
  loop : m.loop.params = p.position.loop

theorem Course.valid {p : StrokeModelParams F D} {es : List (Event F D)} {m : StrokeModeler F D}
    (h : Course p es m) : validateStrokeModelParams p = .ok := by
  induction h <;> assumption

theorem Course.paramsOf {p : StrokeModelParams F D} {es : List (Event F D)} {m : StrokeModeler F D}
    (h : Course p es m) : ParamsOf p m := by
  induction h with
  | down hv he hf hs hp =>
    exact ⟨rfl, rfl, rfl, stylus_update_params hs, rfl⟩
  | move hm hl he hf hw hs hn hp hq ih =>
    exact ⟨ih.all, by rw [← ih.wobble]; exact wobble_update_params hw, ih.position,
      by rw [← ih.stylus]; exact stylus_update_params hs, by rw [← ih.loop]; exact modelStylusGo_loop_params hq⟩
  | late hm hl he hf hw hs hn ih =>
    exact ⟨ih.all, by rw [← ih.wobble]; exact wobble_update_params hw, ih.position,
      by rw [← ih.stylus]; exact stylus_update_params hs, ih.loop⟩
  | up hm hl he hf hs hn hq ih =>
    exact ⟨ih.all, ih.wobble, ih.position,
      by rw [← ih.stylus]; exact stylus_update_params hs, by rw [← ih.loop]; exact modelStylusGo_loop_params hq⟩

theorem Course.init {p : StrokeModelParams F D} {es : List (Event F D)} {m : StrokeModeler F D} (h : Course p es m)
    {l : List (Event F D)} {e : Event F D} (he : es = l ++ [e]) (hl : l ≠ []) : ∃ m', Course p l m' := by
  cases h with
  | down =>
    cases l with
    | nil => exact absurd rfl hl
    | cons a l => simp at he
  | move hm => rw [← (List.append_inj' he rfl).1]; exact ⟨_, hm⟩
  | late hm => rw [← (List.append_inj' he rfl).1]; exact ⟨_, hm⟩
  | up hm => rw [← (List.append_inj' he rfl).1]; exact ⟨_, hm⟩

/-- The beginning of a stroke is a stroke. -/
theorem Course.take {p : StrokeModelParams F D} {a b : List (Event F D)} {m : StrokeModeler F D} (h : Course p (a ++ b) m)
    (ha : a ≠ []) : ∃ m', Course p a m' := by
  induction b using List.reverseRecOn generalizing m with
  | nil => exact ⟨m, by simpa using h⟩
  | append_singleton b e ih =>
    obtain ⟨m', h'⟩ := h.init (List.append_assoc _ _ _).symm (by simp [ha])
    exact ih h'

/-- Every regular history comes down to its current stroke. -/
theorem Session.course {ops : List (Op F D)} {rs : List (Response F D)} {m : StrokeModeler F D}
    (h : Session ops rs m) (hr : Regular ops rs) (hne : strokeOf ops rs ≠ []) :
    ∃ p m₀, (Ink.known ops rs).params = some p ∧ Course p (strokeOf ops rs) m₀ ∧ SameLive m m₀ := by
  obtain ⟨p, m₀, hp, h1, h2⟩ := h.straight hr hne
  exact ⟨p, m₀, hp, h1.course, h2⟩

end Ink
