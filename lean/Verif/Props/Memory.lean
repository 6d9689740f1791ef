import Verif.Props.Window
import Verif.Lemmas.Predictor
import Verif.Examples.Exact
/-!
# The modeler remembers only so much: C54
-/
namespace Ink
open Scalar Arith

section Any
variable {F D : Type} [Scalar F] [Scalar D] [Arith F D]

/-- In closest-point mode no more than `max_input_samples` samples. -/
def StylusSmall (sp : StylusParams D) (inputs : List (Result F D)) : Prop :=
  sp.useStrokeNormalProjection = false → inputs.length ≤ sp.maxInputSamples.toNat

/-- No sample but the newest, or the oldest is from no longer ago than the timeout. -/
def WobbleRecent (wp : WobbleParams F D) (samples : List (WobbleSample F D)) : Prop :=
  samples.length ≤ 1 ∨
    ∀ old new, samples.head? = some old → samples.getLast? = some new → (old.time <ᵇ new.time - wp.timeout) = false

/-- No more than the minimal number of samples, or the oldest is from no longer ago than the window. -/
def LoopRecent (lp : LoopParams F D) (samples : List (SpeedSample F D)) : Prop :=
  samples.length ≤ lp.minDiscreteSpeedSamples.toNat ∨
    ∀ old new, samples.head? = some old → samples.getLast? = some new → (lp.minSpeedSamplingWindow <ᵇ new.time - old.time) = false

/-- No more than `max_time_samples` timestamps. -/
def KalmanSmall (pr : Option (Predictor F D)) : Prop :=
  ∀ q, pr = some (.kalman q) → 0 < q.params.maxTimeSamples ∧ q.sampleTimes.length ≤ q.params.maxTimeSamples.toNat

theorem StylusSmall.update {s s' : StylusModeler F D} {x : Vec2 F} {t : D} {st : StylusState F} (hv : s.params.useStrokeNormalProjection = false → 0 < s.params.maxInputSamples)
    (h : s.update x t st = .ok s') :
    s'.params = s.params ∧ s'.saveActive = s.saveActive ∧ s'.savedState = s.savedState ∧ StylusSmall s.params s'.state.inputs := by
  unfold StylusModeler.update at h
  dsimp only at h
  split at h
  · simp only [Outcome.ok.injEq] at h
    subst h
    exact ⟨rfl, rfl, rfl, fun _ => Nat.zero_le _⟩
  · obtain ⟨l, hd, h⟩ := Outcome.bind_eq_ok.1 h
    simp only [Outcome.pure_eq, Outcome.ok.injEq] at h
    subst h
    refine ⟨rfl, rfl, rfl, fun hu => ?_⟩
    rw [dropOldInputs_closest hu (hv hu)] at hd
    simp only [Outcome.ok.injEq] at hd
    rw [← hd]
    simp only [List.length_drop]
    omega

omit [Arith F D] in
theorem wobble_evict_recent {limit : D} {l : List (WobbleSample F D)} {a : Vec2 F} {b c : F} [Arith F D] {st : WobbleState F D}
    (h : WobbleSmoother.evict limit l a b c = .ok st) :
    st.samples <:+ l ∧ ∀ old, st.samples.head? = some old → (old.time <ᵇ limit) = false := by
  induction l generalizing a b c with
  | nil => simp [WobbleSmoother.evict] at h
  | cons s rest ih =>
    unfold WobbleSmoother.evict at h
    split at h
    · obtain ⟨h1, h2⟩ := ih h
      exact ⟨h1.trans (List.suffix_cons _ _), h2⟩
    · rename_i hc
      simp only [Outcome.ok.injEq] at h
      subst h
      refine ⟨List.suffix_rfl, fun old ho => ?_⟩
      simp only [List.head?_cons, Option.some.injEq] at ho
      subst ho
      simpa using hc

theorem suffix_getLast? {α : Type} {l l' : List α} {a b : α} (h : l <:+ l') (ha : l.getLast? = some a) (hb : l'.getLast? = some b) :
    a = b := by
  obtain ⟨pre, rfl⟩ := h
  have hne : l ≠ [] := by rintro rfl; simp at ha
  rw [List.getLast?_append_of_ne_nil _ hne, ha] at hb
  exact Option.some.inj hb

theorem WobbleRecent.update {w w' : WobbleSmoother F D} {x c : Vec2 F} {t : D} (h0 : WobbleRecent w.params w.state.samples)
    (h : w.update x t = .ok (w', c)) :
    w'.params = w.params ∧ w'.saveActive = w.saveActive ∧ w'.savedState = w.savedState ∧ WobbleRecent w.params w'.state.samples := by
  unfold WobbleSmoother.update at h
  split at h
  · simp only [Outcome.ok.injEq, Prod.mk.injEq] at h
    obtain ⟨rfl, -⟩ := h
    exact ⟨rfl, rfl, rfl, h0⟩
  · split at h
    · simp at h
    · obtain ⟨st, hd, h⟩ := Outcome.bind_eq_ok.1 h
      simp only [Outcome.pure_eq, Outcome.ok.injEq, Prod.mk.injEq] at h
      obtain ⟨rfl, -⟩ := h
      refine ⟨rfl, rfl, rfl, .inr fun old new ho hn => ?_⟩
      obtain ⟨h1, h2⟩ := wobble_evict_recent hd
      have := suffix_getLast? h1 hn (by simp [WobbleSmoother.push]; rfl)
      rw [this]
      exact h2 old ho

omit [Scalar F] [Arith F D] in
theorem loop_evict_recent (lp : LoopParams F D) (t : D) (l : List (SpeedSample F D)) :
    LoopModeler.evict lp t l <:+ l ∧
    ((LoopModeler.evict lp t l).length ≤ lp.minDiscreteSpeedSamples.toNat ∨
      ∀ old, (LoopModeler.evict lp t l).head? = some old → (lp.minSpeedSamplingWindow <ᵇ t - old.time) = false) := by
  induction l with
  | nil => exact ⟨List.suffix_rfl, .inl (Nat.zero_le _)⟩
  | cons s rest ih =>
    unfold LoopModeler.evict
    split
    · exact ⟨ih.1.trans (List.suffix_cons _ _), ih.2⟩
    · rename_i hc
      refine ⟨List.suffix_rfl, ?_⟩
      simp only [Bool.and_eq_true, decide_eq_true_eq, not_and, not_lt, gt_iff_lt] at hc
      cases hb : lp.minSpeedSamplingWindow <ᵇ t - s.time with
      | true => exact .inl (by have := hc hb; omega)
      | false =>
        refine .inr fun old ho => ?_
        simp only [List.head?_cons, Option.some.injEq] at ho
        rw [← ho]; exact hb

theorem LoopRecent.update {l : LoopModeler F D} (h0 : LoopRecent l.params l.samples) (v : Vec2 F) (t : D) :
    (l.update v t).1.params = l.params ∧ (l.update v t).1.saveActive = l.saveActive ∧
    (l.update v t).1.savedSamples = l.savedSamples ∧ LoopRecent l.params (l.update v t).1.samples := by
  unfold LoopModeler.update
  split
  · exact ⟨rfl, rfl, rfl, h0⟩
  · refine ⟨rfl, rfl, rfl, ?_⟩
    dsimp only
    obtain ⟨h1, h2⟩ := loop_evict_recent l.params t (l.samples ++ [{ speed := v.magnitude, time := t }])
    rcases h2 with h2 | h2
    · exact .inl h2
    · refine .inr fun old new ho hn => ?_
      have := suffix_getLast? h1 hn (by simp; rfl)
      rw [this]
      exact h2 old ho

theorem LoopRecent.model {s : StylusModeler F D} {tips : List (TipState F D)} {l l' : LoopModeler F D} {c : F}
    {t : D} {out : List (Result F D)} (h0 : LoopRecent l.params l.samples) (h : modelStylusGo s tips l c t = .ok (l', out)) :
    l'.params = l.params ∧ l'.saveActive = l.saveActive ∧ l'.savedSamples = l.savedSamples ∧ LoopRecent l.params l'.samples := by
  induction tips generalizing l c t out with
  | nil =>
    simp only [modelStylusGo, Outcome.ok.injEq, Prod.mk.injEq] at h
    rw [← h.1]; exact ⟨rfl, rfl, rfl, h0⟩
  | cons tip tips ih =>
    simp only [modelStylusGo] at h
    obtain ⟨q, _, h⟩ := Outcome.bind_eq_ok.1 h
    obtain ⟨r, _, h⟩ := Outcome.bind_eq_ok.1 h
    obtain ⟨⟨l₁, out'⟩, h₁, h⟩ := Outcome.bind_eq_ok.1 h
    simp only [Outcome.pure_eq, Outcome.ok.injEq, Prod.mk.injEq] at h
    obtain ⟨u1, u2, u3, u4⟩ := h0.update r.velocity tip.time
    obtain ⟨rfl, -⟩ := h
    obtain ⟨v1, v2, v3, v4⟩ := ih (by rw [u1]; exact u4) h₁
    exact ⟨v1.trans u1, v2.trans u2, v3.trans u3, by rw [← u1]; exact v4⟩

omit [Scalar F] in
theorem KalmanSmall.update {pr pr' : Option (Predictor F D)} (h0 : KalmanSmall pr) {x : Vec2 F} {t : D}
    (h : updatePredictor pr x t = .ok pr') : KalmanSmall pr' := by
  intro q hq
  subst hq
  cases pr with
  | none => simp [updatePredictor] at h
  | some pr =>
    cases pr with
    | strokeEnd e => simp [updatePredictor, Predictor.update] at h
    | kalman k =>
      obtain ⟨hk, hn⟩ := h0 k rfl
      obtain ⟨q', h3, he⟩ : ∃ q', k.update x t = .ok q' ∧ q = q' := by
        simp only [updatePredictor, Predictor.update] at h
        cases hc : k.update x t <;> simp [hc] at h
        exact ⟨_, rfl, h.symm⟩
      subst he
      unfold KalmanPredictor.update at h3
      obtain ⟨_, _, h3⟩ := Outcome.bind_eq_ok.1 h3
      obtain ⟨_, _, h3⟩ := Outcome.bind_eq_ok.1 h3
      simp only [Outcome.pure_eq, Outcome.ok.injEq] at h3
      subst h3
      refine ⟨hk, ?_⟩
      dsimp only
      split
      · simp only [List.length_tail, List.length_append, List.length_singleton]
        omega
      · omega

omit [Scalar F] [Arith F D] in
theorem KalmanSmall.reset {pr : Option (Predictor F D)} (h0 : KalmanSmall pr) : KalmanSmall (pr.map Predictor.reset) := by
  intro q hq
  cases pr with
  | none => simp at hq
  | some pr =>
    cases pr with
    | strokeEnd e => simp [Predictor.reset] at hq
    | kalman k =>
      simp only [Option.map_some, Predictor.reset, Option.some.injEq, Predictor.kalman.injEq] at hq
      subst hq
      exact ⟨(h0 k rfl).1, Nat.zero_le _⟩

theorem KalmanSmall.make {p : StrokeModelParams F D} (hv : validateStrokeModelParams p = .ok) :
    KalmanSmall (StrokeModeler.makePredictor p) := by
  intro q hq
  unfold StrokeModeler.makePredictor at hq
  split at hq
  · rename_i k hk
    simp only [Option.some.injEq, Predictor.kalman.injEq] at hq
    subst hq
    refine ⟨?_, Nat.zero_le _⟩
    obtain ⟨-, -, -, -, -, h⟩ := validParts hv
    rw [hk] at h
    exact validateGreaterThanZeroInt_ok (andThen_ok (andThen_ok (andThen_ok (andThen_ok h).2).2).2).1
  · simp at hq
  · simp at hq

/-- The parameters that the stroke is modeled with. -/
structure Uses (p : StrokeModelParams F D) (m : StrokeModeler F D) : Prop where
  stylus : m.stylus.params = p.stylus
  wobble : m.wobble.params = p.wobble
  loop : m.loop.params = p.position.loop

/-- What the modeler holds, and what a Restore would bring back, is within the limits. -/
structure Memory (m : StrokeModeler F D) : Prop where
  valid : ∀ p, m.params = some p → validateStrokeModelParams p = .ok
  uses : m.lastInput ≠ none → ∀ p, m.params = some p → Uses p m
  usesSaved : m.saveActive = true → m.savedLastInput ≠ none → ∀ p, m.params = some p → Uses p m
  stylus : StylusSmall m.stylus.params m.stylus.state.inputs
  stylusSaved : m.stylus.saveActive = true → StylusSmall m.stylus.params m.stylus.savedState.inputs
  wobble : WobbleRecent m.wobble.params m.wobble.state.samples
  wobbleSaved : m.wobble.saveActive = true → WobbleRecent m.wobble.params m.wobble.savedState.samples
  loop : LoopRecent m.loop.params m.loop.samples
  loopSaved : m.loop.saveActive = true → LoopRecent m.loop.params m.loop.savedSamples
  kalman : KalmanSmall m.predictor
  kalmanSaved : KalmanSmall m.savedPredictor

theorem Memory.default : Memory (.default : StrokeModeler F D) := by
  constructor <;> simp [StrokeModeler.default, StylusModeler.default, StylusModelerState.default, WobbleSmoother.default,
    WobbleState.default, LoopModeler.default, StylusSmall, WobbleRecent, LoopRecent, KalmanSmall]

theorem Memory.save {m : StrokeModeler F D} (h : Memory m) : Memory m.save := by
  refine ⟨h.valid, ?_, ?_, h.stylus, fun _ => h.stylus, h.wobble, fun _ => h.wobble, h.loop, fun _ => h.loop, h.kalman, ?_⟩
  · intro hl p hp
    obtain ⟨a, b, c⟩ := h.uses hl p hp
    exact ⟨a, b, c⟩
  · intro _ hl p hp
    obtain ⟨a, b, c⟩ := h.uses hl p hp
    exact ⟨a, b, c⟩
  · unfold StrokeModeler.save
    dsimp only
    split
    · rename_i q hq
      rw [← hq]; exact h.kalman
    · exact h.kalmanSaved

theorem Memory.restore {m : StrokeModeler F D} (h : Memory m) : Memory m.restore := by
  unfold StrokeModeler.restore
  split
  · exact h
  · rename_i hs
    simp only [Bool.not_eq_true, Bool.not_eq_false'] at hs
    have hw : m.wobble.restore.params = m.wobble.params ∧ m.wobble.restore.saveActive = m.wobble.saveActive ∧
        m.wobble.restore.savedState = m.wobble.savedState ∧ WobbleRecent m.wobble.params m.wobble.restore.state.samples := by
      unfold WobbleSmoother.restore
      split
      · rename_i ha; exact ⟨rfl, rfl, rfl, h.wobbleSaved ha⟩
      · exact ⟨rfl, rfl, rfl, h.wobble⟩
    have hy : m.stylus.restore.params = m.stylus.params ∧ m.stylus.restore.saveActive = m.stylus.saveActive ∧
        m.stylus.restore.savedState = m.stylus.savedState ∧ StylusSmall m.stylus.params m.stylus.restore.state.inputs := by
      unfold StylusModeler.restore
      split
      · rename_i ha; exact ⟨rfl, rfl, rfl, h.stylusSaved ha⟩
      · exact ⟨rfl, rfl, rfl, h.stylus⟩
    have hl : m.loop.restore.params = m.loop.params ∧ m.loop.restore.saveActive = m.loop.saveActive ∧
        m.loop.restore.savedSamples = m.loop.savedSamples ∧ LoopRecent m.loop.params m.loop.restore.samples := by
      unfold LoopModeler.restore
      split
      · rename_i ha; exact ⟨rfl, rfl, rfl, h.loopSaved ha⟩
      · exact ⟨rfl, rfl, rfl, h.loop⟩
    have hu : m.savedLastInput ≠ none → ∀ p, m.params = some p → m.stylus.restore.params = p.stylus ∧
        m.wobble.restore.params = p.wobble ∧ m.loop.restore.params = p.position.loop := by
      intro hn p hp
      obtain ⟨a, b, c⟩ := h.usesSaved hs hn p hp
      exact ⟨hy.1.trans a, hw.1.trans b, hl.1.trans c⟩
    refine ⟨h.valid, fun hn p hp => ?_, fun _ hn p hp => ?_, ?_, ?_, ?_, ?_, ?_, ?_, ?_, h.kalmanSaved⟩
    · obtain ⟨a, b, c⟩ := hu hn p hp; exact ⟨a, b, c⟩
    · obtain ⟨a, b, c⟩ := hu hn p hp; exact ⟨a, b, c⟩
    · show StylusSmall m.stylus.restore.params _
      rw [hy.1]; exact hy.2.2.2
    · show m.stylus.restore.saveActive = true → StylusSmall m.stylus.restore.params m.stylus.restore.savedState.inputs
      rw [hy.1, hy.2.1, hy.2.2.1]; exact h.stylusSaved
    · show WobbleRecent m.wobble.restore.params _
      rw [hw.1]; exact hw.2.2.2
    · show m.wobble.restore.saveActive = true → WobbleRecent m.wobble.restore.params m.wobble.restore.savedState.samples
      rw [hw.1, hw.2.1, hw.2.2.1]; exact h.wobbleSaved
    · show LoopRecent m.loop.restore.params _
      rw [hl.1]; exact hl.2.2.2
    · show m.loop.restore.saveActive = true → LoopRecent m.loop.restore.params m.loop.restore.savedSamples
      rw [hl.1, hl.2.1, hl.2.2.1]; exact h.loopSaved
    · dsimp only
      split
      · rename_i q hq
        rw [← hq]; exact h.kalmanSaved
      · exact h.kalman

theorem Memory.step {m m' : StrokeModeler F D} {op : Op F D} {r : Response F D} (h : Memory m) (hs : step m op = .ok (m', r)) :
    Memory m' := by
  cases op with
  | resetParams p =>
    rcases resetParams_cases m p with ⟨c, msg, _, hr⟩ | ⟨hv, hr⟩ <;>
      simp only [Ink.step, hr, Outcome.ok.injEq, Prod.mk.injEq] at hs <;> rw [← hs.1]
    · exact h
    · refine ⟨?_, by simp, by simp, h.stylus, h.stylusSaved, h.wobble, h.wobbleSaved, .inl (Nat.zero_le _),
        by simp [LoopModeler.reset], .make hv, h.kalmanSaved⟩
      intro q hq
      simp only [Option.some.injEq] at hq
      exact hq ▸ hv
  | reset =>
    rcases reset_cases m with ⟨_, msg, hr⟩ | ⟨⟨p, hp⟩, hr⟩ <;>
      simp only [Ink.step, hr, Outcome.ok.injEq, Prod.mk.injEq] at hs <;> rw [← hs.1]
    · exact h
    · exact ⟨h.valid, by simp, by simp, h.stylus, h.stylusSaved, h.wobble, h.wobbleSaved, h.loop, h.loopSaved, h.kalman,
        h.kalmanSaved⟩
  | save =>
    simp only [Ink.step, Outcome.ok.injEq, Prod.mk.injEq] at hs
    rw [← hs.1]; exact h.save
  | restore =>
    simp only [Ink.step, Outcome.ok.injEq, Prod.mk.injEq] at hs
    rw [← hs.1]; exact h.restore
  | predict v =>
    simp only [Ink.step] at hs
    obtain ⟨⟨m₁, s, v'⟩, hu, hs⟩ := Outcome.bind_eq_ok.1 hs
    simp only [Outcome.pure_eq, Outcome.ok.injEq, Prod.mk.injEq] at hs
    obtain ⟨rfl, rfl⟩ := hs
    rcases predict_ok hu with ⟨_, _, rfl, _⟩ | ⟨_, _, _, _, _, _, _, _, _, _, _, _, rfl, _⟩
    · exact h
    · refine ⟨h.valid, fun a b c => ?_, fun a b c d => ?_, h.stylus, h.stylusSaved, h.wobble, h.wobbleSaved, h.loop, h.loopSaved, h.kalman,
        h.kalmanSaved⟩
      · obtain ⟨x, y, z⟩ := h.uses a b c; exact ⟨x, y, z⟩
      · obtain ⟨x, y, z⟩ := h.usesSaved a b c d; exact ⟨x, y, z⟩
  | update i v =>
    simp only [Ink.step] at hs
    obtain ⟨⟨m₁, s, v'⟩, hu, hs⟩ := Outcome.bind_eq_ok.1 hs
    simp only [Outcome.pure_eq, Outcome.ok.injEq, Prod.mk.injEq] at hs
    obtain ⟨rfl, rfl⟩ := hs
    rcases update_ok hu with ⟨c, msg, _, rfl, rfl, _⟩ | ⟨_, p, hp, ⟨he, hl, hx⟩ | ⟨last, he, hl, hx⟩ | ⟨last, he, hl, hx⟩⟩
    · exact h
    · have hv := h.valid p hp
      obtain ⟨sty, pr, hsty, hpr, rfl, rfl, _⟩ := StrokeModeler.processDown_ok hl hx
      obtain ⟨y1, y2, y3, y4⟩ := StylusSmall.update (validStylus hv).2 hsty
      have hu : ∀ q, m.params = some q → Uses q (m.afterDown p i sty pr) := by
        intro q hq
        rw [hp, Option.some.injEq] at hq
        subst hq
        exact ⟨y1, rfl, rfl⟩
      refine ⟨h.valid, fun _ => hu, fun _ _ => hu, ?_, ?_, .inl (by simp [StrokeModeler.afterDown, WobbleSmoother.reset]), ?_,
        .inl (Nat.zero_le _), ?_, h.kalman.reset.update hpr, h.kalmanSaved⟩
      · show StylusSmall sty.params _
        rw [y1]; exact y4
      · show sty.saveActive = true → _
        rw [y2]; simp [StylusModeler.reset]
      · simp [StrokeModeler.afterDown, WobbleSmoother.reset]
      · simp [StrokeModeler.afterDown, LoopModeler.reset]
    · have hv := h.valid p hp
      have hU := h.uses (by simp [hl]) p hp
      obtain ⟨w, c, sty, hw, hsty, hor⟩ := StrokeModeler.processMove_ok hl hx
      obtain ⟨w1, w2, w3, w4⟩ := h.wobble.update hw
      obtain ⟨y1, y2, y3, y4⟩ := StylusSmall.update (by rw [hU.stylus]; exact (validStylus hv).2) hsty
      have hsty2 : StylusSmall sty.params sty.state.inputs := by rw [y1]; exact y4
      have hsty3 : sty.saveActive = true → StylusSmall sty.params sty.savedState.inputs := by
        rw [y1, y2, y3]; exact h.stylusSaved
      have hw2 : WobbleRecent w.params w.state.samples := by rw [w1]; exact w4
      have hw3 : w.saveActive = true → WobbleRecent w.params w.savedState.samples := by
        rw [w1, w2, w3]; exact h.wobbleSaved
      rcases hor with ⟨_, rfl, _⟩ | ⟨n, pr, lo, out, _, hpr, hlo, _, rfl, _⟩
      · have hu : ∀ q, m.params = some q → Uses q { m with wobble := w, stylus := sty } := by
          intro q hq
          rw [hp, Option.some.injEq] at hq
          subst hq
          exact ⟨y1.trans hU.stylus, w1.trans hU.wobble, hU.loop⟩
        exact ⟨h.valid, fun _ => hu, fun _ _ => hu, hsty2, hsty3, hw2, hw3, h.loop, h.loopSaved, h.kalman, h.kalmanSaved⟩
      · obtain ⟨l1, l2, l3, l4⟩ := h.loop.model hlo
        refine ⟨h.valid, ?_, ?_, hsty2, hsty3, hw2, hw3, by dsimp only; rw [l1]; exact l4, by dsimp only; rw [l1, l2, l3]; exact h.loopSaved,
          h.kalman.update hpr, h.kalmanSaved⟩
        all_goals
          intros
          rename_i q hq
          rw [hp, Option.some.injEq] at hq
          subst hq
          exact ⟨y1.trans hU.stylus, w1.trans hU.wobble, l1.trans hU.loop⟩
    · have hv := h.valid p hp
      have hU := h.uses (by simp [hl]) p hp
      rcases StrokeModeler.processUp_ok hl hx with ⟨_, rfl, _⟩ | ⟨n, sty, lo, out, _, hsty, hlo, _, rfl, _⟩
      · exact h
      · obtain ⟨y1, y2, y3, y4⟩ := StylusSmall.update (by rw [hU.stylus]; exact (validStylus hv).2) hsty
        obtain ⟨l1, l2, l3, l4⟩ := h.loop.model hlo
        refine ⟨h.valid, by simp, ?_, by dsimp only; rw [y1]; exact y4, by dsimp only; rw [y1, y2, y3]; exact h.stylusSaved,
          h.wobble, h.wobbleSaved, by dsimp only; rw [l1]; exact l4, by dsimp only; rw [l1, l2, l3]; exact h.loopSaved,
          h.kalman, h.kalmanSaved⟩
        intro _ _ q hq
        rw [hp, Option.some.injEq] at hq
        subst hq
        exact ⟨y1.trans hU.stylus, hU.wobble, l1.trans hU.loop⟩

theorem Session.memory {ops : List (Op F D)} {rs : List (Response F D)} {m : StrokeModeler F D} (h : Session ops rs m) : Memory m :=
  run_invariant (P := Memory) (fun _ _ _ _ hm hs => hm.step hs) h .default

variable {ops : List (Op F D)} {rs : List (Response F D)} {m : StrokeModeler F D} {p : StrokeModelParams F D}

/-- C54, in any arithmetic and for any sequence of calls whatsoever, Save and Restore at any point included: while a stroke is in
progress, however long, the stylus modeler holds in closest-point mode no more than `max_input_samples` samples; the wobble smoother
holds no sample that is further than `timeout` before its newest as its oldest, or only one; the loop mitigation holds no more than
`min_discrete_speed_samples` speeds, or none as its oldest that is further than `min_speed_sampling_window` before the newest; the
Kalman predictor holds no more than `max_time_samples` times. -/
theorem C54_bounded_memory (h : Session ops rs m) (hp : (known ops rs).params = some p) (hl : (known ops rs).prev ≠ none) :
    (p.stylus.useStrokeNormalProjection = false → m.stylus.state.inputs.length ≤ p.stylus.maxInputSamples.toNat) ∧
    (m.wobble.state.samples.length ≤ 1 ∨ ∀ old new, m.wobble.state.samples.head? = some old →
      m.wobble.state.samples.getLast? = some new → (old.time <ᵇ new.time - p.wobble.timeout) = false) ∧
    (m.loop.samples.length ≤ p.position.loop.minDiscreteSpeedSamples.toNat ∨ ∀ old new, m.loop.samples.head? = some old →
      m.loop.samples.getLast? = some new → (p.position.loop.minSpeedSamplingWindow <ᵇ new.time - old.time) = false) ∧
    (NoDisableAfterSave ops → ∀ q, m.predictor = some (.kalman q) →
      ∃ k, p.prediction = .kalman k ∧ q.sampleTimes.length ≤ k.maxTimeSamples.toNat) := by
  have hm := h.memory
  have hp' : m.params = some p := by rw [← hp, ← h.known]; rfl
  have hl' : m.lastInput ≠ none := by
    intro hc
    apply hl
    rw [← h.known]
    simp [StrokeModeler.known, hc]
  obtain ⟨u1, u2, u3⟩ := hm.uses hl' p hp'
  have h1 := hm.stylus
  have h2 := hm.wobble
  have h3 := hm.loop
  rw [u1] at h1
  rw [u2] at h2
  rw [u3] at h3
  refine ⟨h1, h2, h3, fun hn q hq => ?_⟩
  have hi := (h.predInv hn).live p hp'
  rw [hq] at hi
  unfold StrokeModeler.makePredictor at hi
  split at hi
  · rename_i k hk
    simp only [Option.map_some, Predictor.reset, Option.some.injEq, Predictor.kalman.injEq] at hi
    have : q.params = k := by
      have := congrArg KalmanPredictor.params hi
      exact this
    exact ⟨k, hk, by rw [← this]; exact (hm.kalman q hq).2⟩
  · simp [Predictor.reset] at hi
  · simp at hi

/-- C54 at all times: also between strokes and after other parameters were given, each part holds no more than the limits in the
parameters that it was last reset with allow, and no more comes back with Restore. -/
theorem C54_bounded_always (h : Session ops rs m) :
    StylusSmall m.stylus.params m.stylus.state.inputs ∧ WobbleRecent m.wobble.params m.wobble.state.samples ∧
    LoopRecent m.loop.params m.loop.samples ∧ KalmanSmall m.predictor ∧
    (let m' := m.restore
     StylusSmall m'.stylus.params m'.stylus.state.inputs ∧ WobbleRecent m'.wobble.params m'.wobble.state.samples ∧
     LoopRecent m'.loop.params m'.loop.samples ∧ KalmanSmall m'.predictor) :=
  ⟨h.memory.stylus, h.memory.wobble, h.memory.loop, h.memory.kalman, h.memory.restore.stylus, h.memory.restore.wobble,
    h.memory.restore.loop, h.memory.restore.kalman⟩

/-- Inputs at one and the same time all stay in the window of the wobble smoother. -/
theorem Course.crowd {es : List (Event F D)} (h : Course p es m) (hw : p.wobble.isEnabled = true) {t : D}
    (hb : (t <ᵇ t - p.wobble.timeout) = false) (ht : ∀ f ∈ es, f.input.time = t ∧ f.input.eventType ≠ .up) :
    m.wobble.state.samples.length = es.length ∧ ∀ s ∈ m.wobble.state.samples, s.time = t := by
  have key : ∀ {w w' : WobbleSmoother F D} {x c : Vec2 F} {k : ℕ}, w.params = p.wobble →
      w.state.samples.length = k → (∀ s ∈ w.state.samples, s.time = t) → w.update x t = .ok (w', c) →
      w'.state.samples.length = k + 1 ∧ ∀ s ∈ w'.state.samples, s.time = t := by
    intro w w' x c k hwp hlen hall hu
    unfold WobbleSmoother.update at hu
    rw [hwp, hw] at hu
    simp only [Bool.not_true, Bool.false_eq_true, ↓reduceIte] at hu
    split at hu
    · simp at hu
    · rename_i last hlast
      obtain ⟨st, hd, hu⟩ := Outcome.bind_eq_ok.1 hu
      simp only [Outcome.pure_eq, Outcome.ok.injEq, Prod.mk.injEq] at hu
      obtain ⟨rfl, -⟩ := hu
      have hall' : ∀ s ∈ (WobbleSmoother.push w.state last x t).samples, s.time = t := by
        intro s hs
        simp only [WobbleSmoother.push, List.mem_append, List.mem_singleton] at hs
        rcases hs with hs | rfl
        · exact hall s hs
        · rfl
      have hst : st.samples = (WobbleSmoother.push w.state last x t).samples := by
        revert hd hall'
        generalize (WobbleSmoother.push w.state last x t).samples = l
        intro hd hall'
        cases l with
        | nil => simp [WobbleSmoother.evict] at hd
        | cons s rest =>
          unfold WobbleSmoother.evict at hd
          rw [hall' s (by simp), hb] at hd
          simp only [Bool.false_eq_true, ↓reduceIte, Outcome.ok.injEq] at hd
          rw [← hd]
      dsimp only
      rw [hst]
      exact ⟨by simp [WobbleSmoother.push, hlen], hall'⟩
  induction h with
  | @down i stylus predictor _ he hf hs hp =>
    have := (ht ⟨i, some [StrokeModeler.downResult i]⟩ (by simp)).1
    simp only at this
    simp [WobbleSmoother.reset, this]
  | @move es m last i wobble corrected stylus n predictor loop out hm hl he hf hw' hs hn hp hq ih =>
    obtain ⟨h1, h2⟩ := ih fun f hf => ht f (by simp [hf])
    have := (ht ⟨i, some out⟩ (by simp)).1
    simp only at this
    rw [this] at hw'
    simpa using key hm.paramsOf.wobble h1 h2 hw'
  | @late es m last i wobble corrected stylus st' hm hl he hf hw' hs hn ih =>
    obtain ⟨h1, h2⟩ := ih fun f hf => ht f (by simp [hf])
    have := (ht ⟨i, none⟩ (by simp)).1
    simp only at this
    rw [this] at hw'
    simpa using key hm.paramsOf.wobble h1 h2 hw'
  | @up es m last i stylus n loop out hm hl he hf hs hn hq ih =>
    exact absurd he (ht ⟨i, some out⟩ (by simp)).2

end Any

namespace XR

/-- The `j`-th Move of a stroke on the spot in time. -/
def crowdMove (j : ℕ) : Input XR XR := Ex.xin .move (Ex.pt j 0) 0 0.2 1 2

theorem crowd_follows (n : ℕ) (k : ℕ) (prev : Input XR XR) (h : prev = crowdMove k ∨ (prev = Ex.xin .down (Ex.pt 0 0) 0 0.2 1 2)) :
    Follows Ex.xparams prev ((List.range' (k + 1) n).map crowdMove) := by
  induction n generalizing k prev with
  | zero => trivial
  | succ n ih =>
    rw [List.range'_succ, List.map_cons]
    refine ⟨⟨⟨isFinite_fin _, isFinite_fin _, isFinite_fin _⟩, ?_, ?_⟩, ?_, Ex.good_fin _, .inl rfl, ih (k + 1) _ (.inl rfl)⟩
    · rcases h with rfl | rfl <;> simp [crowdMove, Ex.xin]
    · rcases h with rfl | rfl
      · simp [crowdMove, Ex.xin, Input.eq, Vec2.eq, Ex.pt, V]
      · simp [crowdMove, Ex.xin, Input.eq]
    · refine .inr ⟨rfl, ?_⟩
      rcases h with rfl | rfl <;> simp [crowdMove, Ex.xin, Ex.xparams]

end XR

open XR in
/-- The number of samples is bounded by nothing but the number of inputs: inputs at the same time all count as recent. (The
documentation bounds only the time, params.h:198-204.) -/
theorem C54_crowd_exact (n : ℕ) (hn : n < 2147483645) :
    ∃ ops rs m, Session ops rs m ∧ (known ops rs).params = some Ex.xparams ∧ (known ops rs).prev ≠ none ∧
      m.wobble.state.samples.length = n + 1 := by
  obtain ⟨rs, m, h1, h2, h3, h4, h5⟩ := exists_stroke (p := Ex.xparams) Ex.xparams_valid (i := Ex.xin .down (Ex.pt 0 0) 0 0.2 1 2) rfl
    ⟨isFinite_fin _, isFinite_fin _, isFinite_fin _⟩ (Ex.good_fin _) (crowd_follows n 0 _ (.inr rfl)) (by simpa using hn)
  have hne : strokeOf (calls Ex.xparams (Ex.xin .down (Ex.pt 0 0) 0 0.2 1 2 :: (List.range' 1 n).map crowdMove)) rs ≠ [] := by
    intro hc; rw [hc] at h4; simp at h4
  obtain ⟨p', m₀, g1, hc, hsame⟩ := h1.course h2 hne
  obtain rfl : Ex.xparams = p' := by rw [h3] at g1; exact Option.some.inj g1
  have ht : ∀ f ∈ strokeOf (calls Ex.xparams (Ex.xin .down (Ex.pt 0 0) 0 0.2 1 2 :: (List.range' 1 n).map crowdMove)) rs,
      f.input.time = (fin 0 : XR) ∧ f.input.eventType ≠ .up := by
    intro f hf
    have : f.input ∈ Ex.xin .down (Ex.pt 0 0) 0 0.2 1 2 :: (List.range' 1 n).map crowdMove := by
      rw [← h4]; exact List.mem_map_of_mem hf
    simp only [List.mem_cons, List.mem_map] at this
    rcases this with h | ⟨j, _, h⟩
    · rw [h]; simp [Ex.xin]
    · rw [← h]; simp [Ex.xin, crowdMove]
  have hlast : m.lastInput ≠ none := by
    intro hl
    rw [hsame.last] at hl
    obtain ⟨es', f, he, hu⟩ := hc.ended hl
    exact (ht f (by simp at he ⊢; rw [he]; simp)).2 hu
  refine ⟨_, rs, m, h1, h3, ?_, ?_⟩
  · rw [← h1.known]
    simpa [StrokeModeler.known] using hlast
  have := (hc.crowd rfl (t := fin 0) (by simp [Ex.xparams]) ht).1
  have hlen := congrArg List.length h4
  rw [List.length_map] at hlen
  rw [hsame.live.wobble, this, hlen]
  simp

/-- A stroke with a hundred Moves: the wobble smoother holds them all, the stylus modeler no more than twenty. -/
example : ∃ ops rs m, Session ops rs m ∧ (known ops rs).params = some Ex.xparams ∧ (known ops rs).prev ≠ none ∧
    m.wobble.state.samples.length = 101 ∧ m.stylus.state.inputs.length ≤ 20 := by
  obtain ⟨ops, rs, m, h1, h2, h3, h4⟩ := C54_crowd_exact 100 (by norm_num)
  exact ⟨ops, rs, m, h1, h2, h3, h4, (C54_bounded_memory h1 h2 h3).1 rfl⟩

end Ink
