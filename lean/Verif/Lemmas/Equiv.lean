import Verif.Lemmas.Predictor
/-!
# States that no client can tell apart

The outcome of a call depends on a part of the state only: the scratch buffer never matters, saved copies only
while a save is active, and the sub-modelers only during a stroke (or when a save point inside a stroke exists).
-/
namespace Ink
open Scalar Arith

variable {F D : Type} [Scalar F] [Scalar D] [Arith F D]

/-! ## sub-modelers: the saved copies do not matter -/

theorem StylusModeler.query_congr {a b : StylusModeler F D} (hs : a.state = b.state) (hp : a.params = b.params)
    (tip : TipState F D) (n : Option (Vec2 F)) : b.query tip n = a.query tip n := by
  unfold StylusModeler.query
  rw [hs, hp]

omit [Scalar D] [Arith F D] in
theorem LoopModeler.interp_congr {a b : LoopModeler F D} (hs : a.samples = b.samples) (hp : a.params = b.params) :
    b.getInterpolationValue = a.getInterpolationValue := by
  unfold LoopModeler.getInterpolationValue
  rw [hs, hp]

theorem LoopModeler.update_congr {a b : LoopModeler F D} (hs : a.samples = b.samples) (hp : a.params = b.params)
    (v : Vec2 F) (t : D) :
    b.update v t = ({ b with samples := (a.update v t).1.samples }, (a.update v t).2) := by
  unfold LoopModeler.update
  rw [hs, hp]
  split
  · simp [hs]
  · simp only [Prod.mk.injEq, true_and]
    exact LoopModeler.interp_congr rfl rfl

/-! ## the live part of the state -/

/-- The two modelers agree on the state that Update and Predict read during a stroke. -/
structure LiveEq (a b : StrokeModeler F D) : Prop where
  predictor : a.predictor = b.predictor
  wobble : a.wobble.state = b.wobble.state
  wobbleP : a.wobble.params = b.wobble.params
  position : a.position.state = b.position.state
  positionP : a.position.params = b.position.params
  stylus : a.stylus.state = b.stylus.state
  stylusP : a.stylus.params = b.stylus.params
  loop : a.loop.samples = b.loop.samples
  loopP : a.loop.params = b.loop.params

omit [Scalar F] [Scalar D] [Arith F D] in
theorem LiveEq.refl (a : StrokeModeler F D) : LiveEq a a := ⟨rfl, rfl, rfl, rfl, rfl, rfl, rfl, rfl, rfl⟩
omit [Scalar F] [Scalar D] [Arith F D] in
theorem LiveEq.symm {a b : StrokeModeler F D} (h : LiveEq a b) : LiveEq b a :=
  ⟨h.1.symm, h.2.symm, h.3.symm, h.4.symm, h.5.symm, h.6.symm, h.7.symm, h.8.symm, h.9.symm⟩

/-- The part of the state that a Move or Up leaves alone. -/
structure Frozen (a b : StrokeModeler F D) : Prop where
  params : a.params = b.params
  wobbleP : a.wobble.params = b.wobble.params
  wobbleS : a.wobble.savedState = b.wobble.savedState
  wobbleA : a.wobble.saveActive = b.wobble.saveActive
  positionP : a.position.params = b.position.params
  positionS : a.position.savedState = b.position.savedState
  stylusP : a.stylus.params = b.stylus.params
  stylusS : a.stylus.savedState = b.stylus.savedState
  stylusA : a.stylus.saveActive = b.stylus.saveActive
  loopP : a.loop.params = b.loop.params
  loopS : a.loop.savedSamples = b.loop.savedSamples
  loopA : a.loop.saveActive = b.loop.saveActive
  savedPredictor : a.savedPredictor = b.savedPredictor
  savedLastInput : a.savedLastInput = b.savedLastInput
  saveActive : a.saveActive = b.saveActive

omit [Scalar F] [Scalar D] [Arith F D] in
theorem Frozen.refl (a : StrokeModeler F D) : Frozen a a := by constructor <;> rfl

/-- Outcomes that are both `ok` with related values, or the same failure. -/
def OutRel {α β : Type} (R : α → β → Prop) : Outcome α → Outcome β → Prop
  | .ok a, .ok b => R a b
  | .ub w, .ub w' => w = w'
  | .diverge, .diverge => True
  | _, _ => False

theorem OutRel.bind {α β α' β' : Type} {R : α → β → Prop} {S : α' → β' → Prop} {x : Outcome α} {y : Outcome β}
    {f : α → Outcome α'} {g : β → Outcome β'} (h : OutRel R x y) (hf : ∀ a b, R a b → OutRel S (f a) (g b)) :
    OutRel S (x >>= f) (y >>= g) := by
  cases x <;> cases y <;> simp_all [OutRel]

theorem OutRel.map {α β α' β' : Type} {R : α → β → Prop} {S : α' → β' → Prop} {x : Outcome α} {y : Outcome β}
    {f : α → α'} {g : β → β'} (h : OutRel R x y) (hf : ∀ a b, R a b → S (f a) (g b)) :
    OutRel S (f <$> x) (g <$> y) := by
  cases x <;> cases y <;> simp_all [OutRel]

theorem OutRel.mono {α β : Type} {R S : α → β → Prop} {x : Outcome α} {y : Outcome β} (h : OutRel R x y)
    (hf : ∀ a b, R a b → S a b) : OutRel S x y := by
  cases x <;> cases y <;> simp_all [OutRel]

theorem OutRel.refl {α : Type} {R : α → α → Prop} (x : Outcome α) (h : ∀ a, x = .ok a → R a a) : OutRel R x x := by
  cases x <;> simp_all [OutRel]

omit [Scalar F] [Scalar D] [Arith F D] in
theorem sameStep_iff {R : StrokeModeler F D → StrokeModeler F D → Prop}
    {x y : Outcome (StrokeModeler F D × Response F D)} :
    SameStep R x y ↔ OutRel (fun a b => R a.1 b.1 ∧ a.2 = b.2) x y := by
  cases x <;> cases y <;> simp [SameStep, OutRel]

theorem WobbleSmoother.update_rel {a b : WobbleSmoother F D} (hs : a.state = b.state) (hp : a.params = b.params)
    (x : Vec2 F) (t : D) :
    OutRel (fun u w : WobbleSmoother F D × Vec2 F => u.2 = w.2 ∧ u.1.state = w.1.state ∧ u.1.params = a.params ∧
        u.1.savedState = a.savedState ∧ u.1.saveActive = a.saveActive ∧ w.1.params = b.params ∧
        w.1.savedState = b.savedState ∧ w.1.saveActive = b.saveActive) (a.update x t) (b.update x t) := by
  unfold WobbleSmoother.update
  rw [hs, hp]
  split
  · simp [OutRel, hs, hp]
  · split
    · simp [OutRel]
    · dsimp only
      refine OutRel.bind (OutRel.refl _ (R := (· = ·)) (fun _ _ => rfl)) ?_
      rintro e _ rfl
      simp [OutRel]

theorem StylusModeler.update_rel {a b : StylusModeler F D} (hs : a.state = b.state) (hp : a.params = b.params)
    (x : Vec2 F) (t : D) (s : StylusState F) :
    OutRel (fun u w : StylusModeler F D => u.state = w.state ∧ u.params = a.params ∧
        u.savedState = a.savedState ∧ u.saveActive = a.saveActive ∧ w.params = b.params ∧
        w.savedState = b.savedState ∧ w.saveActive = b.saveActive) (a.update x t s) (b.update x t s) := by
  unfold StylusModeler.update
  rw [hs, hp]
  dsimp only
  split
  · simp [OutRel]
  · refine OutRel.bind (OutRel.refl _ (R := (· = ·)) (fun _ _ => rfl)) ?_
    rintro e _ rfl
    simp [OutRel]

theorem modelStylusGo_rel {s s' : StylusModeler F D} (hs : s.state = s'.state) (hsp : s.params = s'.params)
    (tips : List (TipState F D)) (l l' : LoopModeler F D) (hl : l.samples = l'.samples) (hlp : l.params = l'.params)
    (c : F) (t : D) :
    OutRel (fun u w : LoopModeler F D × List (Result F D) => u.2 = w.2 ∧ u.1.samples = w.1.samples ∧
        u.1.params = l.params ∧ u.1.savedSamples = l.savedSamples ∧ u.1.saveActive = l.saveActive ∧
        w.1.params = l'.params ∧ w.1.savedSamples = l'.savedSamples ∧ w.1.saveActive = l'.saveActive)
      (modelStylusGo s tips l c t) (modelStylusGo s' tips l' c t) := by
  induction tips generalizing l l' c t with
  | nil => simp [modelStylusGo, OutRel, hl]
  | cons tip tips ih =>
    simp only [modelStylusGo, StylusModeler.query_congr hs hsp]
    refine OutRel.bind (OutRel.refl _ (R := (· = ·)) (fun _ _ => rfl)) ?_
    rintro q _ rfl
    refine OutRel.bind (OutRel.refl _ (R := (· = ·)) (fun _ _ => rfl)) ?_
    rintro r _ rfl
    have hu : ∀ k : LoopModeler F D, (k.update r.velocity tip.time).1.params = k.params ∧
        (k.update r.velocity tip.time).1.savedSamples = k.savedSamples ∧
        (k.update r.velocity tip.time).1.saveActive = k.saveActive := by
      intro k; unfold LoopModeler.update; split <;> simp
    have hc : (l'.update r.velocity tip.time).1.samples = (l.update r.velocity tip.time).1.samples ∧
        (l'.update r.velocity tip.time).2 = (l.update r.velocity tip.time).2 := by
      rw [LoopModeler.update_congr hl hlp]; simp
    rw [hc.2]
    refine OutRel.bind (ih _ _ hc.1.symm (by rw [(hu l).1, (hu l').1, hlp]) _ _) ?_
    rintro ⟨a, o⟩ ⟨b, o'⟩ h
    simp only [Outcome.pure_eq, OutRel] at h ⊢
    rw [(hu l).1, (hu l).2.1, (hu l).2.2, (hu l').1, (hu l').2.1, (hu l').2.2] at h
    exact ⟨by rw [h.1], h.2⟩

theorem modelStylus_rel {s s' : StylusModeler F D} (hs : s.state = s'.state) (hsp : s.params = s'.params)
    (tips : List (TipState F D)) (l l' : LoopModeler F D) (hl : l.samples = l'.samples) (hlp : l.params = l'.params)
    (t : D) :
    OutRel (fun u w : LoopModeler F D × List (Result F D) => u.2 = w.2 ∧ u.1.samples = w.1.samples ∧
        u.1.params = l.params ∧ u.1.savedSamples = l.savedSamples ∧ u.1.saveActive = l.saveActive ∧
        w.1.params = l'.params ∧ w.1.savedSamples = l'.savedSamples ∧ w.1.saveActive = l'.saveActive)
      (modelStylus tips s l t) (modelStylus tips s' l' t) := by
  unfold modelStylus
  rw [LoopModeler.interp_congr hl hlp]
  exact modelStylusGo_rel hs hsp tips l l' hl hlp _ t

/-- The effect of a handler on two modelers with the same live part. -/
def HandlerRel (a b : StrokeModeler F D) (x y : StrokeModeler F D × Status × List (Result F D)) : Prop :=
  LiveEq x.1 y.1 ∧ x.1.lastInput = y.1.lastInput ∧ Frozen x.1 a ∧ Frozen y.1 b ∧ x.2 = y.2

theorem processMove_rel {a b : StrokeModeler F D} (h : LiveEq a b) (hl : a.lastInput = b.lastInput)
    (p : StrokeModelParams F D) (i : Input F D) (v : List (Result F D)) :
    OutRel (HandlerRel a b) (a.processMove p i v) (b.processMove p i v) := by
  unfold StrokeModeler.processMove
  rw [hl]
  cases hlast : b.lastInput with
  | none => exact ⟨h, hl, .refl a, .refl b, rfl⟩
  | some last =>
    dsimp only
    refine OutRel.bind (WobbleSmoother.update_rel h.wobble h.wobbleP _ _) ?_
    rintro ⟨wa, ca⟩ ⟨wb, _⟩ ⟨hwc, hw1, hw2, hw3, hw4, hw5, hw6, hw7⟩
    dsimp only at hwc hw1 hw2 hw3 hw4 hw5 hw6 hw7 ⊢
    subst hwc
    refine OutRel.bind (StylusModeler.update_rel h.stylus h.stylusP _ _ _) ?_
    rintro sa sb ⟨hs1, hs2, hs3, hs4, hs5, hs6, hs7⟩
    rw [h.position]
    refine OutRel.bind (OutRel.refl _ (R := (· = ·)) (fun _ _ => rfl)) ?_
    rintro n _ rfl
    cases n with
    | error s =>
      simp only [Outcome.pure_eq, OutRel]
      exact ⟨⟨h.predictor, hw1, by simp [hw2, hw5, h.wobbleP], h.position, h.positionP, hs1,
        by simp [hs2, hs5, h.stylusP], h.loop, h.loopP⟩, by simp,
        ⟨rfl, hw2, hw3, hw4, rfl, rfl, hs2, hs3, hs4, rfl, rfl, rfl, rfl, rfl, rfl⟩,
        ⟨rfl, hw5, hw6, hw7, rfl, rfl, hs5, hs6, hs7, rfl, rfl, rfl, rfl, rfl, rfl⟩, rfl⟩
    | ok n =>
      have htips : (a.position.updateAlongLinearPath last.correctedPosition last.input.time ca i.time n).2 =
          (b.position.updateAlongLinearPath last.correctedPosition last.input.time ca i.time n).2 ∧
          (a.position.updateAlongLinearPath last.correctedPosition last.input.time ca i.time n).1.state =
          (b.position.updateAlongLinearPath last.correctedPosition last.input.time ca i.time n).1.state := by
        simp only [PositionModeler.updateAlongLinearPath, h.position, h.positionP, and_self]
      dsimp only
      rw [h.predictor]
      refine OutRel.bind (OutRel.refl _ (R := (· = ·)) (fun _ _ => rfl)) ?_
      rintro pr _ rfl
      rw [htips.1]
      refine OutRel.bind (modelStylus_rel hs1 (by rw [hs2, hs5, h.stylusP]) _ _ _ h.loop h.loopP _) ?_
      rintro ⟨la, oa⟩ ⟨lb, _⟩ ⟨hlo, hl1, hl2, hl3, hl4, hl5, hl6, hl7⟩
      dsimp only at hlo hl1 hl2 hl3 hl4 hl5 hl6 hl7
      subst hlo
      simp only [Outcome.pure_eq, OutRel]
      exact ⟨⟨rfl, hw1, by simp [hw2, hw5, h.wobbleP], htips.2, h.positionP, hs1,
        by simp [hs2, hs5, h.stylusP], hl1, by simp [hl2, hl5, h.loopP]⟩, rfl,
        ⟨rfl, hw2, hw3, hw4, rfl, rfl, hs2, hs3, hs4, hl2, hl3, hl4, rfl, rfl, rfl⟩,
        ⟨rfl, hw5, hw6, hw7, rfl, rfl, hs5, hs6, hs7, hl5, hl6, hl7, rfl, rfl, rfl⟩, rfl⟩

theorem processUp_rel {a b : StrokeModeler F D} (h : LiveEq a b) (hl : a.lastInput = b.lastInput)
    (p : StrokeModelParams F D) (i : Input F D) (v : List (Result F D)) :
    OutRel (HandlerRel a b) (a.processUp p i v) (b.processUp p i v) := by
  unfold StrokeModeler.processUp
  rw [hl]
  cases hlast : b.lastInput with
  | none => exact ⟨h, hl, .refl a, .refl b, rfl⟩
  | some last =>
    dsimp only
    rw [h.position]
    refine OutRel.bind (OutRel.refl _ (R := (· = ·)) (fun _ _ => rfl)) ?_
    rintro n _ rfl
    cases n with
    | error s =>
      simp only [Outcome.pure_eq, OutRel]
      exact ⟨h, hl, .refl a, .refl b, rfl⟩
    | ok n =>
      have htips : (a.upTips p last i n).2 = (b.upTips p last i n).2 ∧
          (a.upTips p last i n).1.state = (b.upTips p last i n).1.state := by
        simp only [StrokeModeler.upTips, PositionModeler.updateAlongLinearPath, PositionModeler.modelEndOfStroke,
          h.position, h.positionP]
        exact ⟨rfl, trivial⟩
      dsimp only
      refine OutRel.bind (StylusModeler.update_rel h.stylus h.stylusP _ _ _) ?_
      rintro sa sb ⟨hs1, hs2, hs3, hs4, hs5, hs6, hs7⟩
      refine OutRel.bind (R := fun u w : LoopModeler F D × List (Result F D) => u.2 = w.2 ∧ u.1.samples = w.1.samples ∧
        u.1.params = a.loop.params ∧ u.1.savedSamples = a.loop.savedSamples ∧ u.1.saveActive = a.loop.saveActive ∧
        w.1.params = b.loop.params ∧ w.1.savedSamples = b.loop.savedSamples ∧ w.1.saveActive = b.loop.saveActive) ?_ ?_
      · have := modelStylus_rel hs1 (by rw [hs2, hs5, h.stylusP]) (a.upTips p last i n).2 _ _ h.loop h.loopP
          last.input.time
        rw [show modelStylus (a.upTips p last i n).2 sb b.loop last.input.time =
          modelStylus (b.upTips p last i n).2 sb b.loop last.input.time by rw [htips.1]] at this
        exact this
      rintro ⟨la, oa⟩ ⟨lb, _⟩ ⟨hlo, hl1, hl2, hl3, hl4, hl5, hl6, hl7⟩
      dsimp only at hlo hl1 hl2 hl3 hl4 hl5 hl6 hl7
      subst hlo
      simp only [Outcome.pure_eq, OutRel]
      exact ⟨⟨h.predictor, h.wobble, h.wobbleP, htips.2, h.positionP, hs1,
        by simp [hs2, hs5, h.stylusP], hl1, by simp [hl2, hl5, h.loopP]⟩, rfl,
        ⟨rfl, rfl, rfl, rfl, rfl, rfl, hs2, hs3, hs4, hl2, hl3, hl4, rfl, rfl, rfl⟩,
        ⟨rfl, rfl, rfl, rfl, rfl, rfl, hs5, hs6, hs7, hl5, hl6, hl7, rfl, rfl, rfl⟩, rfl⟩

/-- Nothing but the scratch buffer changed. -/
def BufOnly (a x : StrokeModeler F D) : Prop := ∃ t, x = { a with tipBuffer := t }

omit [Scalar F] [Scalar D] [Arith F D] in
theorem BufOnly.refl (a : StrokeModeler F D) : BufOnly a a := ⟨a.tipBuffer, rfl⟩

theorem predict_rel {a b : StrokeModeler F D} (hp : a.params = b.params) (hl : a.lastInput = b.lastInput)
    (hn : a.predictor = none ↔ b.predictor = none) (h : a.lastInput ≠ none → LiveEq a b) (v : List (Result F D)) :
    OutRel (fun x y => BufOnly a x.1 ∧ BufOnly b y.1 ∧ x.2 = y.2) (a.predict v) (b.predict v) := by
  unfold StrokeModeler.predict
  rw [hp, hl]
  cases hpb : b.params with
  | none => exact ⟨.refl a, .refl b, rfl⟩
  | some p =>
    cases hlast : b.lastInput with
    | none => cases ha : a.predictor <;> cases hb : b.predictor <;> simp [ha, hb] at hn <;> exact ⟨.refl a, .refl b, rfl⟩
    | some last =>
      have h := h (by simp [hl, hlast])
      have hpp := h.predictor
      cases hb : b.predictor with
      | none => rw [hb] at hpp; simp only [hpp]; exact ⟨.refl a, .refl b, rfl⟩
      | some pr =>
        rw [hb] at hpp
        simp only [hpp, h.position]
        refine OutRel.bind (OutRel.refl _ (R := (· = ·)) (fun _ _ => rfl)) ?_
        rintro t _ rfl
        refine OutRel.bind (modelStylus_rel h.stylus h.stylusP _ _ _ h.loop h.loopP _) ?_
        rintro ⟨la, oa⟩ ⟨lb, _⟩ ⟨hlo, _⟩
        dsimp only at hlo
        subst hlo
        exact ⟨⟨t, by rw [hp, hpb, hl, hlast, hpp]⟩, ⟨t, by rw [hpb, hlast, hb]⟩, rfl⟩

theorem processDown_rel {a b : StrokeModeler F D} (hl : a.lastInput = b.lastInput)
    (hr : a.predictor.map Predictor.reset = b.predictor.map Predictor.reset)
    (p : StrokeModelParams F D) (i : Input F D) (v : List (Result F D)) :
    OutRel (fun x y => x.2 = y.2 ∧ ((a.lastInput ≠ none ∧ x.1 = a ∧ y.1 = b) ∨
      (LiveEq x.1 y.1 ∧ ∃ pr sa sb, x.1 = a.afterDown p i sa pr ∧ y.1 = b.afterDown p i sb pr ∧
        pr.map Predictor.reset = a.predictor.map Predictor.reset ∧ sa.saveActive = false ∧ sb.saveActive = false)))
      (a.processDown p i v) (b.processDown p i v) := by
  unfold StrokeModeler.processDown
  rw [hl]
  cases hlast : b.lastInput with
  | some last => exact ⟨rfl, .inl ⟨by simp, rfl, rfl⟩⟩
  | none =>
    dsimp only
    refine OutRel.bind (StylusModeler.update_rel (a := a.stylus.reset p.stylus) (b := b.stylus.reset p.stylus)
      rfl rfl _ _ _) ?_
    rintro sa sb ⟨hs1, hs2, hs3, hs4, hs5, hs6, hs7⟩
    rw [hr]
    refine OutRel.bind (OutRel.refl (updatePredictor (b.predictor.map Predictor.reset) i.position i.time)
      (R := fun x y => x = y ∧ x.map Predictor.reset = a.predictor.map Predictor.reset) ?_) ?_
    · intro pr hpr
      refine ⟨rfl, (updatePredictor_reset hpr).trans ?_⟩
      simp [Function.comp_def, Predictor.reset_reset, hr]
    rintro pr _ ⟨rfl, hpr⟩
    simp only [Outcome.pure_eq, OutRel]
    exact ⟨trivial, .inr ⟨⟨rfl, rfl, rfl, rfl, rfl, hs1, by rw [hs2, hs5]; rfl, rfl, rfl⟩, pr, sa, sb, rfl, rfl,
      by rw [hpr, hr], hs4, hs7⟩⟩

omit [Arith F D] in
/-- The refusal of an input depends on the parameters and the previous input only. -/
theorem refusal_congr {k k' : Known F D} (hp : k.params = k'.params) (hl : k.prev = k'.prev) (i : Input F D) :
    refusal k i = refusal k' i := by
  unfold refusal
  simp only [hp, hl]

/-! ## the equivalence -/

/-- The saved copies agree. -/
structure SavedEq (a b : StrokeModeler F D) : Prop where
  predictor : a.savedPredictor = b.savedPredictor
  wobbleA : a.wobble.saveActive = b.wobble.saveActive
  wobbleS : a.wobble.saveActive = true → a.wobble.savedState = b.wobble.savedState
  positionS : a.position.savedState = b.position.savedState
  stylusA : a.stylus.saveActive = b.stylus.saveActive
  stylusS : a.stylus.saveActive = true → a.stylus.savedState = b.stylus.savedState
  loopA : a.loop.saveActive = b.loop.saveActive
  loopS : a.loop.saveActive = true → a.loop.savedSamples = b.loop.savedSamples

/-- The state matters only if a stroke is in progress or a save point within a stroke exists. -/
def Hot (live : Prop) (a : StrokeModeler F D) : Prop :=
  a.lastInput ≠ none ∨ (live ∧ a.saveActive = true ∧ a.savedLastInput ≠ none)

/-- The two modelers agree on everything that can influence later responses. `live` tells whether Restore may be
called before the next Save, `saved` whether Save has been called on one of them. -/
structure Equiv (live saved : Prop) (a b : StrokeModeler F D) : Prop where
  params : a.params = b.params
  last : a.lastInput = b.lastInput
  active : live → a.saveActive = b.saveActive
  pred : a.predictor.map Predictor.reset = b.predictor.map Predictor.reset
  hot : Hot live a → LiveEq a b
  savedLast : live → a.saveActive = true → a.savedLastInput = b.savedLastInput
  savedPred : live → a.saveActive = true → a.savedPredictor.map Predictor.reset = b.savedPredictor.map Predictor.reset
  savedEq : live → a.saveActive = true → a.savedLastInput ≠ none → SavedEq a b
  stale : a.predictor = none → a.savedPredictor = none ∧ b.savedPredictor = none
  fresh : ¬ saved → a.savedPredictor = none ∧ b.savedPredictor = none

omit [Scalar F] [Arith F D] in
theorem Equiv.pred_none {live saved : Prop} {a b : StrokeModeler F D} (h : Equiv live saved a b) :
    a.predictor = none ↔ b.predictor = none := by
  have := h.pred
  cases ha : a.predictor <;> cases hb : b.predictor <;> simp [ha, hb] at this ⊢

omit [Scalar F] [Arith F D] in
theorem Equiv.known {live saved : Prop} {a b : StrokeModeler F D} (h : Equiv live saved a b) :
    a.known.params = b.known.params ∧ a.known.prev = b.known.prev :=
  ⟨h.params, by simp [StrokeModeler.known, h.last]⟩

omit [Scalar F] [Arith F D] in
/-- Handlers that only touch the live part preserve the equivalence. -/
theorem Equiv.handler {live saved : Prop} {a b x y : StrokeModeler F D} (h : Equiv live saved a b) (hl : LiveEq x y)
    (hlast : x.lastInput = y.lastInput) (hx : Frozen x a) (hy : Frozen y b)
    (hp : x.predictor.map Predictor.reset = a.predictor.map Predictor.reset) : Equiv live saved x y where
  params := by rw [hx.params, hy.params, h.params]
  last := hlast
  active := by rw [hx.saveActive, hy.saveActive]; exact h.active
  pred := by rw [hl.predictor]
  hot := fun _ => hl
  savedLast := by rw [hx.saveActive, hx.savedLastInput, hy.savedLastInput]; exact h.savedLast
  savedPred := by rw [hx.saveActive, hx.savedPredictor, hy.savedPredictor]; exact h.savedPred
  savedEq := by
    rw [hx.saveActive, hx.savedLastInput]
    intro h0 h1 h2
    have := h.savedEq h0 h1 h2
    refine ⟨?_, ?_, ?_, ?_, ?_, ?_, ?_, ?_⟩
    · rw [hx.savedPredictor, hy.savedPredictor, this.predictor]
    · rw [hx.wobbleA, hy.wobbleA, this.wobbleA]
    · rw [hx.wobbleA, hx.wobbleS, hy.wobbleS]; exact this.wobbleS
    · rw [hx.positionS, hy.positionS, this.positionS]
    · rw [hx.stylusA, hy.stylusA, this.stylusA]
    · rw [hx.stylusA, hx.stylusS, hy.stylusS]; exact this.stylusS
    · rw [hx.loopA, hy.loopA, this.loopA]
    · rw [hx.loopA, hx.loopS, hy.loopS]; exact this.loopS
  stale := by
    intro hn
    rw [hn, Option.map_none, eq_comm, Option.map_eq_none_iff] at hp
    rw [hx.savedPredictor, hy.savedPredictor]
    exact h.stale hp
  fresh := by rw [hx.savedPredictor, hy.savedPredictor]; exact h.fresh

omit [Scalar F] [Arith F D] in
theorem Equiv.bufOnly {live saved : Prop} {a b x y : StrokeModeler F D} (h : Equiv live saved a b) (hx : BufOnly a x)
    (hy : BufOnly b y) : Equiv live saved x y := by
  obtain ⟨t, rfl⟩ := hx
  obtain ⟨t', rfl⟩ := hy
  exact ⟨h.params, h.last, h.active, h.pred, fun hh => by
      obtain ⟨a1, a2, a3, a4, a5, a6, a7, a8, a9⟩ := h.hot hh
      exact ⟨a1, a2, a3, a4, a5, a6, a7, a8, a9⟩, h.savedLast, h.savedPred,
    fun h0 h1 h2 => by
      obtain ⟨a1, a2, a3, a4, a5, a6, a7, a8⟩ := h.savedEq h0 h1 h2
      exact ⟨a1, a2, a3, a4, a5, a6, a7, a8⟩, h.stale, h.fresh⟩

/-- A Move that returns leaves the predictor the same up to its observations; so does an Up. -/
theorem update_pred {m m' : StrokeModeler F D} {i : Input F D} {v v' : List (Result F D)} {s : Status}
    (h : m.update i v = .ok (m', s, v')) :
    m'.predictor.map Predictor.reset = m.predictor.map Predictor.reset := by
  have hs : step m (.update i v) = .ok (m', ⟨s, v'⟩) := by simp [step, h]
  rcases step_pred hs with ⟨p, hp, _⟩ | ⟨hp, _⟩ | ⟨hp, _⟩ | ⟨_, hp, _⟩
  · simp at hp
  · simp at hp
  · simp at hp
  · exact hp

theorem Equiv.update {live saved : Prop} {a b : StrokeModeler F D} (h : Equiv live saved a b) (i : Input F D)
    (v : List (Result F D)) :
    OutRel (fun x y => Equiv live saved x.1 y.1 ∧ x.2 = y.2) (a.update i v) (b.update i v) := by
  have hk := h.known
  have hpa := fun m' s v' => update_pred (m := a) (m' := m') (i := i) (v := v) (s := s) (v' := v')
  cases hr : refusal a.known i with
  | some c =>
    obtain ⟨msg, hm⟩ := update_refused_of_known _ i hr
    rw [hm a v ⟨rfl, rfl⟩, hm b v ⟨hk.1.symm, hk.2.symm⟩]
    exact ⟨h, rfl⟩
  | none =>
    obtain ⟨p', hp', hc⟩ := update_not_refused a i hr
    obtain ⟨p, hp, hc'⟩ := update_not_refused b i (by rw [← hr]; exact (refusal_congr hk.1 hk.2 i).symm)
    rw [h.params, hp, Option.some.injEq] at hp'
    subst hp'
    rcases hc with ⟨he, hl, hc⟩ | ⟨he, hl, hc⟩ | ⟨he, hl, hc⟩ <;>
      rcases hc' with ⟨he', hl', hc'⟩ | ⟨he', hl', hc'⟩ | ⟨he', hl', hc'⟩ <;>
      first
      | (rw [he] at he'; simp at he'; done)
      | skip
    · rw [hc, hc']
      refine (processDown_rel h.last h.pred p i v).mono ?_
      rintro x y ⟨h2, ⟨h3, _⟩ | ⟨hlive, pr, sa, sb, hx, hy, hpr, hsa, hsb⟩⟩
      · exact absurd hl h3
      · refine ⟨?_, h2⟩
        rw [hx, hy] at hlive ⊢
        refine ⟨h.params, rfl, h.active, ?_, fun _ => hlive, h.savedLast, h.savedPred, ?_, ?_, h.fresh⟩
        · rfl
        · intro h0 h1 h2
          have := h.savedEq h0 h1 h2
          exact ⟨this.predictor, rfl, by simp [StrokeModeler.afterDown, WobbleSmoother.reset], rfl,
            hsa.trans hsb.symm, by simp [StrokeModeler.afterDown, hsa], rfl,
            by simp [StrokeModeler.afterDown, LoopModeler.reset]⟩
        · intro hn
          simp only [StrokeModeler.afterDown] at hn
          rw [hn, Option.map_none, eq_comm, Option.map_eq_none_iff] at hpr
          exact h.stale hpr
    · obtain ⟨last, hl⟩ := hl
      have hlive := h.hot (.inl (by simp [hl]))
      have := processMove_rel hlive h.last p i v
      rw [← hc, ← hc'] at this
      cases ha : a.update i v <;> cases hb : b.update i v <;> simp only [ha, hb, OutRel] at this ⊢
      · obtain ⟨h1, h2, h3, h4, h5⟩ := this
        exact ⟨h.handler h1 h2 h3 h4 (hpa _ _ _ ha), h5⟩
      · exact this
    · obtain ⟨last, hl⟩ := hl
      have hlive := h.hot (.inl (by simp [hl]))
      have := processUp_rel hlive h.last p i v
      rw [← hc, ← hc'] at this
      cases ha : a.update i v <;> cases hb : b.update i v <;> simp only [ha, hb, OutRel] at this ⊢
      · obtain ⟨h1, h2, h3, h4, h5⟩ := this
        exact ⟨h.handler h1 h2 h3 h4 (hpa _ _ _ ha), h5⟩
      · exact this

omit [Scalar F] [Arith F D] in
theorem Equiv.save {live saved : Prop} {a b : StrokeModeler F D} (h : Equiv live saved a b) : Equiv True True a.save b.save := by
  have hn := h.pred_none
  have hpred : a.save.savedPredictor.map Predictor.reset = b.save.savedPredictor.map Predictor.reset := by
    simp only [StrokeModeler.save]
    cases ha : a.predictor with
    | none => simp [hn.1 ha, (h.stale ha).1, (h.stale ha).2]
    | some x =>
      have := h.pred
      cases hb : b.predictor with
      | none => simp [ha, hb] at this
      | some y => simpa [ha, hb] using this
  refine ⟨h.params, h.last, fun _ => rfl, h.pred, ?_, fun _ _ => h.last, fun _ _ => hpred, ?_, ?_, by simp⟩
  · rintro (hh | ⟨_, _, hh⟩) <;>
    · obtain ⟨a1, a2, a3, a4, a5, a6, a7, a8, a9⟩ := h.hot (.inl hh)
      exact ⟨a1, a2, a3, a4, a5, a6, a7, a8, a9⟩
  · intro _ _ hh
    obtain ⟨a1, a2, a3, a4, a5, a6, a7, a8, a9⟩ := h.hot (.inl hh)
    refine ⟨?_, rfl, fun _ => a2, congrArg some a4, rfl, fun _ => a6, rfl, fun _ => a8⟩
    simp only [StrokeModeler.save, ← a1]
    cases ha : a.predictor with
    | none => simp [(h.stale ha).1, (h.stale ha).2]
    | some x => rfl
  · intro ha
    replace ha : a.predictor = none := ha
    simp [StrokeModeler.save, ha, hn.1 ha, (h.stale ha).1, (h.stale ha).2]

omit [Scalar F] [Arith F D] in
theorem Equiv.restore {live saved : Prop} {a b : StrokeModeler F D} (h : Equiv live saved a b) (hlive : live) :
    Equiv live saved a.restore b.restore := by
  unfold StrokeModeler.restore
  rw [← h.active hlive]
  cases hact : a.saveActive with
  | false => exact h
  | true =>
    simp only [Bool.not_true, Bool.false_eq_true, ↓reduceIte]
    have hsl := h.savedLast hlive hact
    have hsp := h.savedPred hlive hact
    refine ⟨h.params, hsl, by simp, ?_, ?_, fun _ _ => hsl, fun _ _ => hsp, ?_, ?_, h.fresh⟩
    · cases ha : a.savedPredictor <;> cases hb : b.savedPredictor <;> simp [ha, hb] at hsp ⊢
      · exact h.pred
      · exact hsp
    · intro hh
      have hh : a.savedLastInput ≠ none := by
        rcases hh with hh | ⟨_, _, hh⟩ <;> exact hh
      obtain ⟨a1, a2, a3, a4, a5, a6, a7, a8, a9⟩ := h.hot (.inr ⟨hlive, hact, hh⟩)
      have hs := h.savedEq hlive hact hh
      refine ⟨?_, ?_, ?_, ?_, ?_, ?_, ?_, ?_, ?_⟩
      · dsimp only; rw [hs.predictor, a1]
      · dsimp only [WobbleSmoother.restore]
        rw [← hs.wobbleA]
        split
        · exact hs.wobbleS ‹_›
        · exact a2
      · dsimp only [WobbleSmoother.restore]
        split <;> split <;> exact a3
      · dsimp only [PositionModeler.restore]
        rw [← hs.positionS]
        split
        · rfl
        · exact a4
      · dsimp only [PositionModeler.restore]
        split <;> split <;> exact a5
      · dsimp only [StylusModeler.restore]
        rw [← hs.stylusA]
        split
        · exact hs.stylusS ‹_›
        · exact a6
      · dsimp only [StylusModeler.restore]
        split <;> split <;> exact a7
      · dsimp only [LoopModeler.restore]
        rw [← hs.loopA]
        split
        · exact hs.loopS ‹_›
        · exact a8
      · dsimp only [LoopModeler.restore]
        split <;> split <;> exact a9
    · intro _ _ hh
      have hs := h.savedEq hlive hact hh
      have w1 : ∀ w : WobbleSmoother F D, w.restore.saveActive = w.saveActive ∧ w.restore.savedState = w.savedState := by
        intro w; unfold WobbleSmoother.restore; split <;> simp
      have w2 : ∀ w : StylusModeler F D, w.restore.saveActive = w.saveActive ∧ w.restore.savedState = w.savedState := by
        intro w; unfold StylusModeler.restore; split <;> simp
      have w3 : ∀ w : LoopModeler F D, w.restore.saveActive = w.saveActive ∧ w.restore.savedSamples = w.savedSamples := by
        intro w; unfold LoopModeler.restore; split <;> simp
      have w4 : ∀ w : PositionModeler F D, w.restore.savedState = w.savedState := by
        intro w; unfold PositionModeler.restore; split <;> simp_all
      refine ⟨hs.predictor, ?_, ?_, ?_, ?_, ?_, ?_, ?_⟩
      · simp only [w1]; exact hs.wobbleA
      · simp only [w1]; exact hs.wobbleS
      · simp only [w4]; exact hs.positionS
      · simp only [w2]; exact hs.stylusA
      · simp only [w2]; exact hs.stylusS
      · simp only [w3]; exact hs.loopA
      · simp only [w3]; exact hs.loopS
    · intro hn
      cases ha : a.savedPredictor with
      | none =>
        simp only [ha] at hn hsp
        rw [Option.map_none, eq_comm, Option.map_eq_none_iff] at hsp
        exact ⟨rfl, hsp⟩
      | some q => simp [ha] at hn

/-- Reset(params) makes any two modelers equivalent, if no stale saved predictor is around. -/
theorem Equiv.resetParams {live saved : Prop} {a b : StrokeModeler F D} {p : StrokeModelParams F D}
    (hv : validateStrokeModelParams p = .ok)
    (hfresh : ¬ saved → a.savedPredictor = none ∧ b.savedPredictor = none)
    (hd : p.prediction = .disabled → a.savedPredictor = none ∧ b.savedPredictor = none) :
    Equiv live saved (a.resetParams p).1 (b.resetParams p).1 := by
  unfold StrokeModeler.resetParams StrokeModeler.resetInternal
  simp only [hv]
  refine ⟨rfl, rfl, fun _ => rfl, rfl, by simp [Hot], by simp, by simp, by simp, ?_, hfresh⟩
  intro hn
  exact hd ((makePredictor_eq_none p).1 hn)

theorem Equiv.step {live saved : Prop} {a b : StrokeModeler F D} (h : Equiv live saved a b) (op : Op F D)
    (hop : ∀ p, op = .resetParams p → p.prediction = .disabled → ¬ saved) (hres : op = .restore → live) :
    SameStep (Equiv (live ∨ op = .save) (saved ∨ op = .save)) (step a op) (step b op) := by
  rw [sameStep_iff]
  cases op with
  | resetParams p =>
    have hs : ∀ P : Prop, (P ∨ Op.resetParams p = .save) = P := by simp
    rw [hs, hs]
    cases hv : validateStrokeModelParams p with
    | err c msg => simp only [Ink.step, StrokeModeler.resetParams, hv, OutRel]; exact ⟨h, trivial⟩
    | ok =>
      refine ⟨Equiv.resetParams hv h.fresh (fun hd => h.fresh (hop p rfl hd)), ?_⟩
      simp [hv]
  | reset =>
    have hs : ∀ P : Prop, (P ∨ (Op.reset : Op F D) = .save) = P := by simp
    rw [hs, hs]
    simp only [Ink.step, StrokeModeler.reset, ← h.params]
    cases hp : a.params with
    | none => exact ⟨h, rfl⟩
    | some p =>
      exact ⟨⟨h.params, rfl, fun _ => rfl, h.pred, by simp [Hot, StrokeModeler.resetInternal],
        by simp [StrokeModeler.resetInternal], by simp [StrokeModeler.resetInternal],
        by simp [StrokeModeler.resetInternal], h.stale, h.fresh⟩, rfl⟩
  | update i v =>
    have hs : ∀ P : Prop, (P ∨ (Op.update i v : Op F D) = .save) = P := by simp
    rw [hs, hs]
    refine OutRel.bind (h.update i v) ?_
    rintro ⟨x, s, o⟩ ⟨y, s', o'⟩ ⟨h1, h2⟩
    simp only [Prod.mk.injEq] at h2
    obtain ⟨rfl, rfl⟩ := h2
    exact ⟨h1, rfl⟩
  | predict v =>
    have hs : ∀ P : Prop, (P ∨ (Op.predict v : Op F D) = .save) = P := by simp
    rw [hs, hs]
    refine OutRel.bind (predict_rel h.params h.last h.pred_none (fun hh => h.hot (.inl hh)) v) ?_
    rintro ⟨x, s, o⟩ ⟨y, s', o'⟩ ⟨h1, h2, h3⟩
    simp only [Prod.mk.injEq] at h3
    obtain ⟨rfl, rfl⟩ := h3
    exact ⟨h.bufOnly h1 h2, rfl⟩
  | save => exact ⟨by simpa using h.save, rfl⟩
  | restore =>
    have hs : ∀ P : Prop, (P ∨ (Op.restore : Op F D) = .save) = P := by simp
    rw [hs, hs]
    exact ⟨h.restore (hres rfl), rfl⟩

/-- Equivalent modelers are observed alike by clients that never disable prediction after a Save. -/
theorem Equiv.observe {live saved : Prop} {a b : StrokeModeler F D} (h : Equiv live saved a b) (ops : List (Op F D))
    (hops : NoDisableAfterSave ops)
    (hs : saved → ∀ p, .resetParams p ∈ ops → p.prediction ≠ .disabled)
    (hres : live ∨ ∀ x y, ops = x ++ .restore :: y → .save ∈ x) : observe a ops = observe b ops := by
  induction ops generalizing live saved a b with
  | nil => rfl
  | cons op ops ih =>
    have hst := h.step op (fun p hp hd hsv => hs hsv p (by simp [hp]) hd)
      (fun ho => hres.resolve_right (fun hc => by
        have := hc [] ops (by simp [ho])
        simp at this))
    have hn : NoDisableAfterSave ops := fun x p y hxy hd hm => hops (op :: x) p y (by simp [hxy]) hd (by simp [hm])
    simp only [Ink.observe]
    cases h₁ : Ink.step a op <;> cases h₂ : Ink.step b op <;> simp only [h₁, h₂, SameStep] at hst
    · rename_i x y
      simp only [hst.2, List.cons.injEq, true_and]
      refine ih hst.1 hn ?_ ?_
      · rintro (hsv | rfl) p hp hd
        · exact hs hsv p (by simp [hp]) hd
        · obtain ⟨u, w, rfl⟩ := List.append_of_mem hp
          exact hops (.save :: u) p w (by simp) hd (by simp)
      · by_cases hsave : op = .save
        · exact .inl (.inr hsave)
        · rcases hres with hres | hres
          · exact .inl (.inl hres)
          · refine .inr fun x y hxy => ?_
            have := hres (op :: x) y (by simp [hxy])
            simpa [Ne.symm hsave] using this
    · simp [hst]
    · rfl

end Ink
