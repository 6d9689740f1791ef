import Verif.Spec.Track
import Verif.Lemmas.Tips
/-!
# Following a quantity through the modeler's state
-/
namespace Ink
open Scalar Arith

variable {F D α : Type} [Scalar F] [Scalar D] [Arith F D]

/-- A state that some history leads to. -/
def Reachable (m : StrokeModeler F D) : Prop := ∃ ops rs, Session ops rs m

theorem Reachable.step {m m' : StrokeModeler F D} {op : Op F D} {r : Response F D} (hm : Reachable m)
    (h : step m op = .ok (m', r)) : Reachable m' := by
  obtain ⟨ops, rs, hs⟩ := hm
  refine ⟨ops ++ [op], rs ++ [r], ?_⟩
  exact run_append_eq hs (by simp [run, h])

/-- The live parts of the sub-modelers, without the predictor. -/
structure Sub (F D : Type) where
  wobble : WobbleState F D
  wobbleP : WobbleParams F D
  position : TipState F D
  positionP : PositionModelerParams F D
  stylus : StylusModelerState F D
  stylusP : StylusParams D
  loop : List (SpeedSample F D)
  loopP : LoopParams F D

omit [Scalar F] [Scalar D] [Arith F D] in
/-- The live parts of the sub-modelers of `m`. -/
def StrokeModeler.sub (m : StrokeModeler F D) : Sub F D :=
  ⟨m.wobble.state, m.wobble.params, m.position.state, m.position.params, m.stylus.state, m.stylus.params,
    m.loop.samples, m.loop.params⟩

/-- All sub-modelers agree whether they hold a saved copy. -/
def Flags (b : Bool) (m : StrokeModeler F D) : Prop :=
  m.wobble.saveActive = b ∧ m.position.savedState.isSome = b ∧ m.stylus.saveActive = b ∧ m.loop.saveActive = b

omit [Scalar F] [Scalar D] [Arith F D] in
theorem Frozen.flags {a b : StrokeModeler F D} (h : Frozen a b) {x : Bool} (hb : Flags x b) : Flags x a := by
  obtain ⟨h1, h2, h3, h4⟩ := hb
  exact ⟨by rw [h.wobbleA, h1], by rw [h.positionS, h2], by rw [h.stylusA, h3], by rw [h.loopA, h4]⟩

omit [Scalar F] [Scalar D] [Arith F D] in
theorem restore_sub_of_flags {m : StrokeModeler F D} (h : Flags false m) : m.restore.sub = m.sub := by
  obtain ⟨h1, h2, h3, h4⟩ := h
  have h2 : m.position.savedState = none := by simpa using h2
  unfold StrokeModeler.restore
  split
  · rfl
  · simp [StrokeModeler.sub, WobbleSmoother.restore, PositionModeler.restore, StylusModeler.restore,
      LoopModeler.restore, h1, h2, h3, h4]

omit [Scalar F] [Scalar D] [Arith F D] in
/-- Restoring gives the same sub-modelers before and after a call that leaves the saved copies alone. -/
theorem Frozen.restore_sub {a b : StrokeModeler F D} (h : Frozen a b) (hb : Flags true b) (hs : b.saveActive = true) :
    a.restore.sub = b.restore.sub := by
  obtain ⟨h1, h2, h3, h4⟩ := hb
  obtain ⟨s, hs'⟩ := Option.isSome_iff_exists.1 h2
  unfold StrokeModeler.restore
  rw [h.saveActive, hs]
  simp [StrokeModeler.sub, WobbleSmoother.restore, PositionModeler.restore, StylusModeler.restore,
    LoopModeler.restore, h1, h3, h4, h.wobbleP, h.wobbleS, h.wobbleA, h.positionP, h.positionS, h.stylusP, h.stylusS,
    h.stylusA, h.loopP, h.loopS, h.loopA, hs']

omit [Scalar F] [Scalar D] [Arith F D] in
theorem save_restore_sub (m : StrokeModeler F D) : m.save.restore.sub = m.sub := by
  simp [StrokeModeler.save, StrokeModeler.restore, StrokeModeler.sub, WobbleSmoother.restore, PositionModeler.restore,
    StylusModeler.restore, LoopModeler.restore, WobbleSmoother.save, PositionModeler.save, StylusModeler.save,
    LoopModeler.save]

omit [Scalar F] [Scalar D] [Arith F D] in
theorem restore_restore_sub (m : StrokeModeler F D) : m.restore.restore.sub = m.restore.sub := by
  cases h : m.saveActive
  · simp [StrokeModeler.restore, h]
  · cases h1 : m.wobble.saveActive <;> cases h2 : m.position.savedState <;> cases h3 : m.stylus.saveActive <;>
      cases h4 : m.loop.saveActive <;>
      simp [StrokeModeler.restore, StrokeModeler.sub, WobbleSmoother.restore, PositionModeler.restore,
        StylusModeler.restore, LoopModeler.restore, h, h1, h2, h3, h4]

/-- What has to be shown to follow a quantity through the sub-modelers. -/
structure Follows (q : Quantity F D α) (R : α → Sub F D → Prop) : Prop where
  /-- `Reset(params)` only touches the mitigation modeler -/
  loopReset : ∀ a s l, R a s → R a { s with loop := [], loopP := l }
  /-- an accepted Down -/
  down : ∀ m m' i v v', Reachable m → refusal m.known i = none → i.eventType = .down →
    m.update i v = .ok (m', .ok, v') → R (q.onDown i) m'.sub
  /-- another accepted input -/
  input : ∀ m m' i v v' a, Reachable m → refusal m.known i = none → i.eventType ≠ .down →
    m.update i v = .ok (m', .ok, v') → R a m.sub → R (q.onInput a i) m'.sub
  /-- an input found to be too far from its predecessor -/
  late : ∀ m m' i v v' c msg a, Reachable m → refusal m.known i = none → i.eventType ≠ .down →
    m.update i v = .ok (m', .err c msg, v') → R a m.sub → R a m'.sub

/-- The invariant by which a quantity is followed. -/
def TrackInv (R : α → Sub F D → Prop) (m : StrokeModeler F D) (t : Tracked α) : Prop :=
  R t.cur m.sub ∧ (∀ c, t.saved = some c → m.saveActive = true ∧ Flags true m ∧ R c m.restore.sub) ∧
    (t.saved = none → m.saveActive = false ∨ Flags false m)

omit [Scalar F] [Scalar D] [Arith F D] in
theorem TrackInv.frozen {R : α → Sub F D → Prop} {m m' : StrokeModeler F D} {t : Tracked α} {a : α}
    (h : TrackInv R m t) (hf : Frozen m' m) (hc : R a m'.sub) : TrackInv R m' { t with cur := a } := by
  refine ⟨hc, fun c hs => ?_, fun hs => ?_⟩
  · obtain ⟨h1, h2, h3⟩ := h.2.1 c hs
    exact ⟨by rw [hf.saveActive, h1], hf.flags h2, by rw [hf.restore_sub h2 h1]; exact h3⟩
  · rcases h.2.2 hs with h1 | h1
    · exact .inl (by rw [hf.saveActive, h1])
    · exact .inr (hf.flags h1)

theorem TrackInv.step {q : Quantity F D α} {R : α → Sub F D → Prop} (hq : Follows q R) {m m' : StrokeModeler F D}
    {t : Tracked α} (hm : Reachable m) (h : TrackInv R m t) {op : Op F D} {r : Response F D}
    (hs : step m op = .ok (m', r)) : TrackInv R m' (t.after q true op r) := by
  cases op with
  | resetParams p =>
    rw [step_resetParams] at hs
    rcases resetParams_cases m p with ⟨c, msg, _, hr⟩ | ⟨_, hr⟩ <;>
      simp only [hr, Outcome.ok.injEq, Prod.mk.injEq] at hs <;> obtain ⟨rfl, rfl⟩ := hs
    · simpa [Tracked.after] using h
    · simp only [Tracked.after, ↓reduceIte]
      exact ⟨hq.loopReset _ _ _ h.1, by simp, by simp⟩
  | reset =>
    rcases reset_cases m with ⟨_, msg, hr⟩ | ⟨⟨p, hp⟩, hr⟩ <;>
      simp only [Ink.step, hr, Outcome.ok.injEq, Prod.mk.injEq] at hs <;> obtain ⟨rfl, rfl⟩ := hs
    · simpa [Tracked.after] using h
    · simp only [Tracked.after, ↓reduceIte]
      exact ⟨h.1, by simp, by simp⟩
  | predict v =>
    obtain ⟨b, rfl⟩ := step_predict_bufOnly hs
    exact h.frozen (a := t.cur) (by constructor <;> rfl) h.1
  | save =>
    simp only [Ink.step, Outcome.ok.injEq, Prod.mk.injEq] at hs
    obtain ⟨rfl, rfl⟩ := hs
    refine ⟨h.1, fun c hc => ?_, by simp [Tracked.after]⟩
    simp only [Tracked.after, Option.some.injEq] at hc
    subst hc
    exact ⟨rfl, ⟨rfl, rfl, rfl, rfl⟩, by rw [save_restore_sub]; exact h.1⟩
  | restore =>
    have hf := step_frozen hs trivial
    simp only [Ink.step, Outcome.ok.injEq, Prod.mk.injEq] at hs
    obtain ⟨rfl, rfl⟩ := hs
    cases hsv : t.saved with
    | none =>
      have : t.after q true .restore (⟨.ok, []⟩ : Response F D) = { t with cur := t.cur } := by
        simp [Tracked.after, hsv]
      rw [this]
      refine h.frozen hf ?_
      rcases h.2.2 hsv with h1 | h1
      · simpa [StrokeModeler.restore, h1] using h.1
      · rw [restore_sub_of_flags h1]; exact h.1
    | some c =>
      have : t.after q true .restore (⟨.ok, []⟩ : Response F D) = { t with cur := c } := by
        simp [Tracked.after, hsv]
      rw [this]
      exact h.frozen hf (h.2.1 c hsv).2.2
  | update i v =>
    have hs₀ := hs
    simp only [Ink.step] at hs
    obtain ⟨⟨m₁, s, v'⟩, hu, hs⟩ := Outcome.bind_eq_ok.1 hs
    simp only [Outcome.pure_eq, Outcome.ok.injEq, Prod.mk.injEq] at hs
    obtain ⟨rfl, rfl⟩ := hs
    rcases update_ok hu with ⟨c, msg, _, rfl, rfl, _⟩ | ⟨hn, p, hp, hh⟩
    · simpa [Tracked.after] using h
    by_cases he : i.eventType = .down
    · rcases hh with ⟨_, hl, hh⟩ | ⟨_, he', _⟩ | ⟨_, he', _⟩
      · obtain ⟨sty, pr, hst, _, rfl, rfl, rfl⟩ := StrokeModeler.processDown_ok hl hh
        simp only [Tracked.after, ↓reduceIte, he]
        refine ⟨hq.down _ _ _ _ _ hm hn he hu, by simp, fun _ => .inr ?_⟩
        refine ⟨rfl, rfl, ?_, rfl⟩
        have := StylusModeler.update_rel (a := m.stylus.reset p.stylus) (b := m.stylus.reset p.stylus) rfl rfl i.position
          i.time (stylusStateOf i)
        rw [hst] at this
        exact this.2.2.2.1
      · simp [he] at he'
      · simp [he] at he'
    · have hf := step_frozen hs₀ (fun hc => absurd hc he)
      cases s with
      | ok =>
        simp only [Tracked.after, ↓reduceIte, he]
        exact h.frozen hf (hq.input _ _ _ _ _ _ hm hn he hu h.1)
      | err c msg =>
        simp only [Tracked.after, reduceCtorEq, ↓reduceIte]
        exact h.frozen (a := t.cur) hf (hq.late _ _ _ _ _ _ _ _ hm hn he hu h.1)

theorem TrackInv.run {q : Quantity F D α} {R : α → Sub F D → Prop} (hq : Follows q R) {m m' : StrokeModeler F D}
    {t : Tracked α} (hm : Reachable m) (h : TrackInv R m t) {ops : List (Op F D)} {rs : List (Response F D)}
    (hs : run m ops = .ok (m', rs)) : TrackInv R m' (trackFrom q true t ops rs) := by
  induction ops generalizing m t rs with
  | nil => simp only [Ink.run, Outcome.ok.injEq, Prod.mk.injEq] at hs; simpa [← hs.1, trackFrom] using h
  | cons op ops ih =>
    obtain ⟨m₁, r, rs', h₁, h₂, rfl⟩ := run_cons_ok hs
    exact ih (hm.step h₁) (h.step hq hm h₁) h₂

/-- A quantity followed through any history. -/
theorem Session.track {q : Quantity F D α} {R : α → Sub F D → Prop} (hq : Follows q R) {init : α}
    (h0 : R init (StrokeModeler.default : StrokeModeler F D).sub) {m : StrokeModeler F D} {ops : List (Op F D)}
    {rs : List (Response F D)} (hs : Session ops rs m) : R (track q true init ops rs) m.sub :=
  (TrackInv.run hq (t := ⟨init, none⟩) ⟨[], [], rfl⟩ ⟨h0, by simp, fun _ => .inl rfl⟩ hs).1

end Ink
