import Verif.Spec.Stroke
import Verif.Lemmas.Track
import Verif.Props.Protocol
/-!
# Every regular history comes down to one stroke on a new modeler
-/
namespace Ink
open Scalar Arith

variable {F D : Type} [Scalar F] [Scalar D] [Arith F D]

/-- A stroke without detours. -/
inductive Straight (p : StrokeModelParams F D) : List (Event F D) → StrokeModeler F D → Prop
  | down {i : Input F D} {m : StrokeModeler F D} {out : List (Result F D)}
      (hv : validateStrokeModelParams p = .ok) (he : i.eventType = .down)
      (h : (StrokeModeler.default.resetParams p).1.update i [] = .ok (m, .ok, out)) : Straight p [⟨i, some out⟩] m
  | input {es : List (Event F D)} {m m' : StrokeModeler F D} {i : Input F D} {out : List (Result F D)}
      (hm : Straight p es m) (he : i.eventType ≠ .down) (h : m.update i [] = .ok (m', .ok, out)) :
      Straight p (es ++ [⟨i, some out⟩]) m'
  | late {es : List (Event F D)} {m m' : StrokeModeler F D} {i : Input F D} {c : Code} {msg : String}
      {out : List (Result F D)} (hm : Straight p es m) (hr : refusal m.known i = none) (he : i.eventType = .move)
      (h : m.update i [] = .ok (m', .err c msg, out)) : Straight p (es ++ [⟨i, none⟩]) m'

/-- Everything a stroke consists of is the same; only the saved copies and the scratch buffer may differ. -/
structure SameLive (a b : StrokeModeler F D) : Prop where
  live : LiveEq a b
  params : a.params = b.params
  last : a.lastInput = b.lastInput

omit [Scalar F] [Scalar D] [Arith F D] in
theorem SameLive.refl (a : StrokeModeler F D) : SameLive a a := ⟨.refl a, rfl, rfl⟩

theorem Straight.ne_nil {p : StrokeModelParams F D} {es : List (Event F D)} {m : StrokeModeler F D}
    (h : Straight p es m) : es ≠ [] := by cases h <;> simp

theorem Straight.valid {p : StrokeModelParams F D} {es : List (Event F D)} {m : StrokeModeler F D}
    (h : Straight p es m) : validateStrokeModelParams p = .ok := by
  induction h with
  | down hv => exact hv
  | input _ _ _ ih => exact ih
  | late _ _ _ _ ih => exact ih

theorem update_vec {m m' : StrokeModeler F D} {i : Input F D} {v v' : List (Result F D)} {s : Status}
    (h : m.update i v = .ok (m', s, v')) : m.update i [] = .ok (m', s, v'.drop v.length) := by
  have hs : ∀ v m' s v', step m (.update i v) = .ok (m', ⟨s, v'⟩) ↔ m.update i v = .ok (m', s, v') := by
    intro v m' s v'
    simp only [step]
    cases m.update i v <;> simp [Prod.ext_iff]
  have h' := (hs _ _ _ _).2 h
  rcases C04_append_or_leave_alone m i with ⟨m₁, c, msg, h₁⟩ | ⟨m₁, out, h₁⟩ | ⟨w, h₁⟩ | h₁
  · rw [h₁] at h'
    simp only [Outcome.ok.injEq, Prod.mk.injEq, Response.mk.injEq] at h'
    obtain ⟨rfl, rfl, rfl⟩ := h'
    rw [← hs, h₁]; simp
  · rw [h₁] at h'
    simp only [Outcome.ok.injEq, Prod.mk.injEq, Response.mk.injEq] at h'
    obtain ⟨rfl, rfl, rfl⟩ := h'
    rw [← hs, h₁]; simp
  · simp [h₁] at h'
  · simp [h₁] at h'

theorem update_params {m m' : StrokeModeler F D} {i : Input F D} {v v' : List (Result F D)} {s : Status}
    (h : m.update i v = .ok (m', s, v')) : m'.params = m.params := by
  rcases update_ok h with ⟨_, _, _, _, rfl, _⟩ | ⟨_, p, hp, ⟨_, hl, h⟩ | ⟨last, _, hl, h⟩ | ⟨last, _, hl, h⟩⟩
  · rfl
  · obtain ⟨_, _, _, _, _, rfl, _⟩ := StrokeModeler.processDown_ok hl h
    rfl
  · obtain ⟨_, _, _, _, _, ⟨_, rfl, _⟩ | ⟨_, _, _, _, _, _, _, _, rfl, _⟩⟩ := StrokeModeler.processMove_ok hl h <;> rfl
  · rcases StrokeModeler.processUp_ok hl h with ⟨_, rfl, _⟩ | ⟨_, _, _, _, _, _, _, _, rfl, _⟩ <;> rfl

theorem resetParams_of_valid (m : StrokeModeler F D) {p : StrokeModelParams F D} (hv : validateStrokeModelParams p = .ok) :
    m.resetParams p = ({ m with
        params := some p, lastInput := none, saveActive := false
        predictor := StrokeModeler.makePredictor p, loop := m.loop.reset p.position.loop }, .ok) := by
  rcases resetParams_cases m p with ⟨_, _, h, _⟩ | ⟨_, h⟩
  · simp [hv] at h
  · exact h

theorem Straight.params {p : StrokeModelParams F D} {es : List (Event F D)} {m : StrokeModeler F D}
    (h : Straight p es m) : m.params = some p := by
  induction h with
  | down hv he h => rw [update_params h, resetParams_of_valid _ hv]
  | input _ _ h ih => rw [update_params h, ih]
  | late _ _ _ h ih => rw [update_params h, ih]

/-- Modelers that agree on the stroke respond alike to an Update and still agree after it. -/
theorem SameLive.update {a b : StrokeModeler F D} (h : SameLive a b) (i : Input F D) (v : List (Result F D)) :
    OutRel (fun x y => SameLive x.1 y.1 ∧ x.2 = y.2) (a.update i v) (b.update i v) := by
  have hk : a.known.params = b.known.params := h.params
  have hk' : a.known.prev = b.known.prev := by simp [StrokeModeler.known, h.last]
  cases hr : refusal a.known i with
  | some c =>
    obtain ⟨msg, hm⟩ := update_refused_of_known _ i hr
    rw [hm a v ⟨rfl, rfl⟩, hm b v ⟨hk.symm, hk'.symm⟩]
    exact ⟨h, rfl⟩
  | none =>
    obtain ⟨p', hp', hc⟩ := update_not_refused a i hr
    obtain ⟨p, hp, hc'⟩ := update_not_refused b i (by rw [← hr]; exact (refusal_congr hk hk' i).symm)
    rw [h.params, hp, Option.some.injEq] at hp'
    subst hp'
    have hpar : OutRel (fun x y => x.1.params = y.1.params) (a.update i v) (b.update i v) →
        OutRel (fun x y => (LiveEq x.1 y.1 ∧ x.1.lastInput = y.1.lastInput) ∧ x.2 = y.2) (a.update i v) (b.update i v) →
        OutRel (fun x y => SameLive x.1 y.1 ∧ x.2 = y.2) (a.update i v) (b.update i v) := by
      cases a.update i v <;> cases b.update i v <;> simp only [OutRel, imp_self, implies_true]
      rintro h1 ⟨⟨h2, h3⟩, h4⟩
      exact ⟨⟨h2, h1, h3⟩, h4⟩
    rcases hc with ⟨he, hl, hc⟩ | ⟨he, hl, hc⟩ | ⟨he, hl, hc⟩ <;>
      rcases hc' with ⟨he', hl', hc'⟩ | ⟨he', hl', hc'⟩ | ⟨he', hl', hc'⟩ <;>
      first
      | (rw [he] at he'; simp at he'; done)
      | skip
    · rw [hc, hc']
      refine (processDown_rel h.last (by rw [h.live.predictor]) p i v).mono ?_
      rintro x y ⟨h2, ⟨h3, _⟩ | ⟨hlive, pr, sa, sb, hx, hy, hpr, hsa, hsb⟩⟩
      · exact absurd hl h3
      · refine ⟨⟨hlive, ?_, ?_⟩, h2⟩
        · rw [hx, hy]; exact h.params
        · rw [hx, hy]; rfl
    · have := processMove_rel h.live h.last p i v
      rw [← hc, ← hc'] at this
      refine hpar ?_ (this.mono fun x y hxy => ⟨⟨hxy.1, hxy.2.1⟩, hxy.2.2.2.2⟩)
      exact this.mono fun x y hxy => by rw [hxy.2.2.1.params, hxy.2.2.2.1.params, h.params]
    · have := processUp_rel h.live h.last p i v
      rw [← hc, ← hc'] at this
      refine hpar ?_ (this.mono fun x y hxy => ⟨⟨hxy.1, hxy.2.1⟩, hxy.2.2.2.2⟩)
      exact this.mono fun x y hxy => by rw [hxy.2.2.1.params, hxy.2.2.2.1.params, h.params]

theorem SameLive.update_ok {a b a' : StrokeModeler F D} (h : SameLive a b) {i : Input F D} {v v' : List (Result F D)}
    {s : Status} (hu : a.update i v = .ok (a', s, v')) :
    ∃ b', b.update i v = .ok (b', s, v') ∧ SameLive a' b' := by
  have := h.update i v
  rw [hu] at this
  cases hb : b.update i v with
  | ok y =>
    rw [hb] at this
    obtain ⟨h1, h2⟩ := this
    obtain ⟨y1, y2⟩ := y
    exact ⟨y1, by rw [show y2 = (s, v') from h2.symm], h1⟩
  | ub w => simp [hb, OutRel] at this
  | diverge => simp [hb, OutRel] at this

omit [Scalar F] [Scalar D] [Arith F D] in
theorem BufOnly.sameLive {a x : StrokeModeler F D} (h : BufOnly a x) : SameLive x a := by
  obtain ⟨t, rfl⟩ := h
  exact ⟨⟨rfl, rfl, rfl, rfl, rfl, rfl, rfl, rfl, rfl⟩, rfl, rfl⟩

omit [Scalar F] [Scalar D] [Arith F D] in
theorem SameLive.symm {a b : StrokeModeler F D} (h : SameLive a b) : SameLive b a :=
  ⟨h.live.symm, h.params.symm, h.last.symm⟩

omit [Scalar F] [Scalar D] [Arith F D] in
theorem SameLive.trans {a b c : StrokeModeler F D} (h : SameLive a b) (h' : SameLive b c) : SameLive a c :=
  ⟨⟨h.live.predictor.trans h'.live.predictor, h.live.wobble.trans h'.live.wobble, h.live.wobbleP.trans h'.live.wobbleP,
    h.live.position.trans h'.live.position, h.live.positionP.trans h'.live.positionP,
    h.live.stylus.trans h'.live.stylus, h.live.stylusP.trans h'.live.stylusP, h.live.loop.trans h'.live.loop,
    h.live.loopP.trans h'.live.loopP⟩, h.params.trans h'.params, h.last.trans h'.last⟩

/-- ... and to a Predict. -/
theorem SameLive.predict {a b : StrokeModeler F D} (h : SameLive a b) (v : List (Result F D)) :
    OutRel (fun x y => SameLive x.1 y.1 ∧ x.2 = y.2) (a.predict v) (b.predict v) :=
  (predict_rel h.params h.last (by rw [h.live.predictor]) (fun _ => h.live) v).mono fun _ _ hxy =>
    ⟨(hxy.1.sameLive.trans h).trans hxy.2.1.sameLive.symm, hxy.2.2⟩

theorem SameLive.predict_ok {a b a' : StrokeModeler F D} (h : SameLive a b) {v v' : List (Result F D)}
    {s : Status} (hu : a.predict v = .ok (a', s, v')) :
    ∃ b', b.predict v = .ok (b', s, v') ∧ SameLive a' b' := by
  have := h.predict v
  rw [hu] at this
  cases hb : b.predict v with
  | ok y =>
    rw [hb] at this
    obtain ⟨h1, h2⟩ := this
    obtain ⟨y1, y2⟩ := y
    exact ⟨y1, by rw [show y2 = (s, v') from h2.symm], h1⟩
  | ub w => simp [hb, OutRel] at this
  | diverge => simp [hb, OutRel] at this

/-! ## the invariant -/

/-- The stroke `es` is what the modeler `m` holds. -/
def Holds (m : StrokeModeler F D) (es : List (Event F D)) : Prop :=
  (es = [] → m.lastInput = none) ∧ (es ≠ [] → ∃ p m₀, m.params = some p ∧ Straight p es m₀ ∧ SameLive m m₀)

theorem Holds.congr {m m' : StrokeModeler F D} {es : List (Event F D)} (h : Holds m es) (hs : SameLive m' m) :
    Holds m' es := by
  refine ⟨fun he => by rw [hs.last, h.1 he], fun he => ?_⟩
  obtain ⟨p, m₀, hp, h1, h2⟩ := h.2 he
  exact ⟨p, m₀, by rw [hs.params, hp], h1, hs.trans h2⟩

/-- The client's view of the stroke is what the modeler holds. -/
structure ViewInv (m : StrokeModeler F D) (k : StrokeView F D) : Prop where
  known : m.known = k.known
  cur : Holds m k.events
  saved : ∀ e, k.saved = some e → m.saveActive = true ∧ Flags true m ∧ Holds m.restore e ∧
    (m.savedPredictor = none → m.predictor = none)
  unsaved : k.saved = none → k.stale = false → m.saveActive = false

omit [Scalar F] [Scalar D] [Arith F D] in
/-- The live part after a Restore is frozen. -/
theorem Frozen.restore_sameLive {a b : StrokeModeler F D} (h : Frozen a b) (hb : Flags true b) (hs : b.saveActive = true)
    (hp : b.savedPredictor = none → a.predictor = none ∧ b.predictor = none) : SameLive a.restore b.restore := by
  have hsub := h.restore_sub hb hs
  simp only [StrokeModeler.sub, Sub.mk.injEq] at hsub
  obtain ⟨h1, h2, h3, h4, h5, h6, h7, h8⟩ := hsub
  refine ⟨⟨?_, h1, h2, h3, h4, h5, h6, h7, h8⟩, ?_, ?_⟩
  · simp only [StrokeModeler.restore, h.saveActive, hs, Bool.not_true, Bool.false_eq_true, ↓reduceIte, h.savedPredictor]
    cases hsp : b.savedPredictor with
    | none => simp [hp hsp]
    | some q => rfl
  · simp [restore_params, h.params]
  · simp [StrokeModeler.restore, h.saveActive, hs, h.savedLastInput]

theorem ViewInv.frozen {m m' : StrokeModeler F D} {k k' : StrokeView F D} (h : ViewInv m k) (hf : Frozen m' m)
    (hk : m'.known = k'.known) (hc : Holds m' k'.events) (hs : k'.saved = k.saved) (hst : k'.stale = k.stale)
    (hp : m'.predictor.map Predictor.reset = m.predictor.map Predictor.reset ∨ m'.predictor = m.savedPredictor) :
    ViewInv m' k' := by
  refine ⟨hk, hc, fun e he => ?_, fun h1 h2 => ?_⟩
  · obtain ⟨h1, h2, h3, h4⟩ := h.saved e (by rw [← hs, he])
    have hpn : m.savedPredictor = none → m'.predictor = none := by
      intro hn
      rcases hp with hp | hp
      · rw [h4 hn, Option.map_none, Option.map_eq_none_iff] at hp; exact hp
      · rw [hp, hn]
    exact ⟨by rw [hf.saveActive, h1], hf.flags h2,
      h3.congr (hf.restore_sameLive h2 h1 fun hn => ⟨hpn hn, h4 hn⟩), fun hn => hpn (by rw [← hf.savedPredictor, hn])⟩
  · rw [hf.saveActive]; exact h.unsaved (by rw [← hs, h1]) (by rw [← hst, h2])

omit [Scalar F] [Scalar D] [Arith F D] in
theorem SameLive.known {a b : StrokeModeler F D} (h : SameLive a b) :
    a.known.params = b.known.params ∧ a.known.prev = b.known.prev :=
  ⟨h.params, by simp [StrokeModeler.known, h.last]⟩

theorem ViewInv.step {m m' : StrokeModeler F D} {k : StrokeView F D} (h : ViewInv m k) (hval : ValidInv m)
    {sv : Prop} (hpi : PredInv m sv) {op : Op F D} {r : Response F D} (hs : step m op = .ok (m', r))
    (hstale : op = .restore → k.stale = false) : ViewInv m' (k.after op r) := by
  have hkn : m'.known = k.known.after op r := by rw [step_known hs, h.known]
  cases op with
  | resetParams p =>
    rw [step_resetParams] at hs
    rcases resetParams_cases m p with ⟨c, msg, _, hr⟩ | ⟨_, hr⟩ <;>
      simp only [hr, Outcome.ok.injEq, Prod.mk.injEq] at hs <;> obtain ⟨rfl, rfl⟩ := hs
    · simpa [StrokeView.after] using h
    · simp only [StrokeView.after, ↓reduceIte]
      exact ⟨hkn, ⟨fun _ => rfl, by simp⟩, by simp, fun _ _ => rfl⟩
  | reset =>
    rcases reset_cases m with ⟨_, msg, hr⟩ | ⟨⟨p, hp⟩, hr⟩ <;>
      simp only [Ink.step, hr, Outcome.ok.injEq, Prod.mk.injEq] at hs <;> obtain ⟨rfl, rfl⟩ := hs
    · simpa [StrokeView.after] using h
    · simp only [StrokeView.after, ↓reduceIte]
      exact ⟨hkn, ⟨fun _ => rfl, by simp⟩, by simp, fun _ _ => rfl⟩
  | predict v =>
    have hb := step_predict_bufOnly hs
    have hb' := h.cur.congr hb.sameLive
    obtain ⟨b, rfl⟩ := hb
    exact h.frozen (by constructor <;> rfl) hkn hb' rfl rfl (.inl rfl)
  | save =>
    simp only [Ink.step, Outcome.ok.injEq, Prod.mk.injEq] at hs
    obtain ⟨rfl, rfl⟩ := hs
    have hl : SameLive m.save m := ⟨⟨rfl, rfl, rfl, rfl, rfl, rfl, rfl, rfl, rfl⟩, rfl, rfl⟩
    have hpn : m.predictor = none → m.save.savedPredictor = none := by
      intro hn
      simp only [StrokeModeler.save, hn]
      rcases Option.eq_none_or_eq_some m.params with hp | ⟨p, hp⟩
      · exact (hpi.uninit hp).2
      · refine hpi.stale p hp ?_
        rw [← makePredictor_eq_none, ← hpi.live p hp, hn]
        rfl
    have hsub := save_restore_sub m
    simp only [StrokeModeler.sub, Sub.mk.injEq] at hsub
    obtain ⟨h1, h2, h3, h4, h5, h6, h7, h8⟩ := hsub
    have hl' : SameLive m.save.restore m := by
      refine ⟨⟨?_, h1, h2, h3, h4, h5, h6, h7, h8⟩, ?_, ?_⟩
      · cases hp : m.predictor with
        | none =>
          have := hpn hp
          simp only [StrokeModeler.restore, this]
          simp [StrokeModeler.save, hp]
        | some q => simp [StrokeModeler.restore, StrokeModeler.save, hp]
      · rw [restore_params]; rfl
      · simp [StrokeModeler.restore, StrokeModeler.save]
    refine ⟨hkn, h.cur.congr hl, fun e he => ?_, by simp [StrokeView.after]⟩
    simp only [StrokeView.after, Option.some.injEq] at he
    subst he
    refine ⟨rfl, ⟨rfl, rfl, rfl, rfl⟩, h.cur.congr hl', fun hn => ?_⟩
    cases hp : m.predictor with
    | none => exact hp
    | some q => simp [StrokeModeler.save, hp] at hn
  | restore =>
    have hf := step_frozen hs trivial
    simp only [Ink.step, Outcome.ok.injEq, Prod.mk.injEq] at hs
    obtain ⟨rfl, rfl⟩ := hs
    have hst := hstale rfl
    cases hsv : k.saved with
    | none =>
      have hact := h.unsaved hsv hst
      have hm : m.restore = m := by simp [StrokeModeler.restore, hact]
      refine h.frozen hf hkn ?_ rfl rfl (.inl (by rw [hm]))
      rw [hm]
      simpa [StrokeView.after, hsv] using h.cur
    | some e =>
      obtain ⟨h1, h2, h3, h4⟩ := h.saved e hsv
      refine h.frozen hf hkn ?_ rfl rfl ?_
      · simpa [StrokeView.after, hsv] using h3
      · simp only [StrokeModeler.restore, h1, Bool.not_true, Bool.false_eq_true, ↓reduceIte]
        cases hsp : m.savedPredictor with
        | none => left; rfl
        | some q => right; rfl
  | update i v =>
    have hs₀ := hs
    simp only [Ink.step] at hs
    obtain ⟨⟨m₁, s, v'⟩, hu, hs⟩ := Outcome.bind_eq_ok.1 hs
    simp only [Outcome.pure_eq, Outcome.ok.injEq, Prod.mk.injEq] at hs
    obtain ⟨rfl, rfl⟩ := hs
    have hu' := update_vec hu
    have hpr := update_pred hu
    rcases update_ok hu with ⟨c, msg, hn, rfl, rfl, _⟩ | ⟨hn, p, hp, hh⟩
    · rw [h.known] at hn
      simpa [StrokeView.after, hn] using h
    have hn' : refusal k.known i = none := by rw [← h.known]; exact hn
    by_cases he : i.eventType = .down
    · rcases hh with ⟨_, hl, hh⟩ | ⟨_, he', _⟩ | ⟨_, he', _⟩
      · obtain ⟨sty, pr, hst, hpre, rfl, rfl, rfl⟩ := StrokeModeler.processDown_ok hl hh
        simp only [StrokeView.after, hn', ↓reduceIte, he]
        refine ⟨hkn, ⟨by simp, fun _ => ?_⟩, by simp, ?_⟩
        · have hv := hval p hp
          have hr0 := resetParams_of_valid (StrokeModeler.default : StrokeModeler F D) hv
          have hrel := processDown_rel (a := m) (b := (StrokeModeler.default.resetParams p).1)
            (by rw [hl, hr0]) (by rw [hr0, hpi.live p hp, makePredictor_reset]) p i []
          obtain ⟨p', hp', hc⟩ := update_not_refused (StrokeModeler.default.resetParams p).1 i (by
            rw [← hn]; exact refusal_congr (by simp [StrokeModeler.known, hp, hr0])
              (by simp [StrokeModeler.known, hl, hr0]) i)
          have hpp : p' = p := by rw [hr0] at hp'; simpa using hp'.symm
          subst hpp
          obtain ⟨p'', hp'', hc''⟩ := update_not_refused m i hn
          rw [hp, Option.some.injEq] at hp''
          subst hp''
          rcases hc with ⟨_, _, hc⟩ | ⟨he', _⟩ | ⟨he', _⟩ <;> try (rw [he] at he'; simp at he')
          rcases hc'' with ⟨_, _, hc''⟩ | ⟨he', _⟩ | ⟨he', _⟩ <;> try (rw [he] at he'; simp at he')
          rw [← hc, ← hc'', hu'] at hrel
          cases hb : (StrokeModeler.default.resetParams p').1.update i [] with
          | ub w => simp [hb, OutRel] at hrel
          | diverge => simp [hb, OutRel] at hrel
          | ok y =>
            obtain ⟨b, sb, out⟩ := y
            rw [hb] at hrel
            obtain ⟨h2, ⟨h3, _⟩ | ⟨hlive, pr', sa', sb', hx, hy, _⟩⟩ := hrel
            · exact absurd hl h3
            · simp only [Prod.mk.injEq] at h2
              obtain ⟨rfl, h2⟩ := h2
              refine ⟨p', b, hp, ?_, hlive, ?_, ?_⟩
              · have := Straight.down hv he hb
                rwa [← h2] at this
              · dsimp only at hy
                rw [hy, hr0]; exact hp
              · dsimp only at hy
                rw [hy]; rfl
        · intro _ hst
          simp only [Bool.or_eq_false_iff] at hst
          exact h.unsaved (by simpa using hst.2) hst.1
      · simp [he] at he'
      · simp [he] at he'
    · have hf := step_frozen hs₀ (fun hc => absurd hc he)
      have hne : k.events ≠ [] := by
        intro hc
        have := h.cur.1 hc
        rcases hh with ⟨he', _⟩ | ⟨_, _, hl, _⟩ | ⟨_, _, hl, _⟩
        · exact he he'
        · simp [hl] at this
        · simp [hl] at this
      obtain ⟨p', m₀, hp', hst, hsl⟩ := h.cur.2 hne
      obtain ⟨b', hb', hsl'⟩ := hsl.update_ok hu'
      have hn₀ : refusal m₀.known i = none := by
        rw [← hn]; exact refusal_congr hsl.known.1.symm hsl.known.2.symm i
      cases s with
      | ok =>
        simp only [StrokeView.after, hn', ↓reduceIte, he]
        refine h.frozen hf hkn ⟨by simp, fun _ => ?_⟩ rfl rfl (.inl hpr)
        exact ⟨p', b', by rw [update_params hu, hp'], hst.input he hb', hsl'⟩
      | err c msg =>
        by_cases hm : i.eventType = .move
        · simp only [StrokeView.after, hn', ↓reduceIte, hm, reduceCtorEq]
          refine h.frozen hf hkn ⟨by simp, fun _ => ?_⟩ rfl rfl (.inl hpr)
          exact ⟨p', b', by rw [update_params hu, hp'], hst.late hn₀ hm hb', hsl'⟩
        · rcases hh with ⟨he', _⟩ | ⟨_, he', _⟩ | ⟨_, _, hl, hh⟩
          · exact absurd he' he
          · exact absurd he' hm
          · rcases StrokeModeler.processUp_ok hl hh with ⟨_, rfl, _⟩ | ⟨_, _, _, _, _, _, _, hc, _⟩
            · simpa [StrokeView.after, hn', hm] using h
            · simp at hc

omit [Arith F D] in
theorem viewFrom_append (k : StrokeView F D) {a b : List (Op F D)} {ra rb : List (Response F D)}
    (h : a.length = ra.length) : viewFrom k (a ++ b) (ra ++ rb) = viewFrom (viewFrom k a ra) b rb := by
  induction a generalizing k ra with
  | nil => cases ra <;> simp_all [viewFrom]
  | cons op a ih =>
    cases ra with
    | nil => simp at h
    | cons r ra => simpa [viewFrom] using ih _ (by simpa using h)

theorem Session.viewInv {ops : List (Op F D)} {rs : List (Response F D)} {m : StrokeModeler F D}
    (h : Session ops rs m) (hr : Regular ops rs) : ViewInv m (view ops rs) := by
  induction ops using List.reverseRecOn generalizing rs m with
  | nil =>
    simp only [Session, run, Outcome.ok.injEq, Prod.mk.injEq] at h
    rw [← h.1]
    exact ⟨rfl, ⟨fun _ => rfl, by simp [view, viewFrom, StrokeView.initial]⟩, by simp [view, viewFrom, StrokeView.initial],
      fun _ _ => rfl⟩
  | append_singleton ops op ih =>
    obtain ⟨m₁, rs₁, rs₂, h₁, h₂, rfl⟩ := h.append
    obtain ⟨m₂, r, rs', h₃, h₄, rfl⟩ := run_cons_ok h₂
    simp only [run, Outcome.ok.injEq, Prod.mk.injEq] at h₄
    obtain ⟨rfl, rfl⟩ := h₄
    have hlen : ops.length = rs₁.length := (run_length h₁).symm
    have hview : view (ops ++ [op]) (rs₁ ++ [r]) = (view ops rs₁).after op r := by
      unfold view
      rw [viewFrom_append _ hlen]; rfl
    have hr₁ : Regular ops rs₁ := by
      refine ⟨fun n hn => ?_, hr.noDisable.prefix⟩
      have hlt : n < ops.length := by
        by_contra hc
        rw [List.getElem?_eq_none (by omega)] at hn
        simp at hn
      have := hr.noStale n (by rw [List.getElem?_append_left hlt]; exact hn)
      rwa [List.take_append_of_le_length (by omega), List.take_append_of_le_length (by omega)] at this
    rw [hview]
    refine (ih h₁ hr₁).step h₁.validInv (h₁.predInv hr₁.noDisable) h₃ ?_
    rintro rfl
    have := hr.noStale ops.length (by simp)
    rwa [List.take_left' rfl, List.take_left' hlen.symm] at this

/-- Every regular history comes down to its current stroke, modeled without detours. -/
theorem Session.straight {ops : List (Op F D)} {rs : List (Response F D)} {m : StrokeModeler F D}
    (h : Session ops rs m) (hr : Regular ops rs) (hne : strokeOf ops rs ≠ []) :
    ∃ p m₀, (Ink.known ops rs).params = some p ∧ Straight p (strokeOf ops rs) m₀ ∧ SameLive m m₀ := by
  obtain ⟨p, m₀, hp, h1, h2⟩ := (h.viewInv hr).cur.2 hne
  exact ⟨p, m₀, by rw [← h.known]; exact hp, h1, h2⟩

theorem Session.in_progress {ops : List (Op F D)} {rs : List (Response F D)} {m : StrokeModeler F D}
    (h : Session ops rs m) (hr : Regular ops rs) (hl : m.lastInput ≠ none) : strokeOf ops rs ≠ [] :=
  fun hc => hl ((h.viewInv hr).cur.1 hc)

end Ink
