import Verif.Exact.Convert
import Verif.Lemmas.Window
/-!
# The modeler is unit-agnostic

Two modelers that receive the same calls in different units stay in corresponding states.
-/
namespace Ink
namespace XR
noncomputable section
open Scalar Arith

namespace Units
variable (U : Units)

/-! ### Validation -/

theorem validateIsFinite_q (i j : ℤ) (x : XR) (l : String) : validateIsFiniteNumber (U.q i j x) l = validateIsFiniteNumber x l := by
  simp only [validateIsFiniteNumber, q_isNaN, q_isInf]
theorem validateGTZ_q (i j : ℤ) (x : XR) (l : String) : validateGreaterThanZero (U.q i j x) l = validateGreaterThanZero x l := by
  simp only [validateGreaterThanZero, validateIsFinite_q, lit0, q_le_zero]
theorem validateGEZ_q (i j : ℤ) (x : XR) (l : String) :
    validateGreaterThanOrEqualToZero (U.q i j x) l = validateGreaterThanOrEqualToZero x l := by
  simp only [validateGreaterThanOrEqualToZero, validateIsFinite_q, lit0, q_lt_zero]

/-- The limit of 10000 units of time for the speed sampling window (params.cc:44) is not converted: both windows have to be
on the same side of it. -/
def WindowFits (p : StrokeModelParams XR XR) : Prop :=
  p.position.loop.isEnabled = true →
    ((10000 : XR) <ᵇ U.q 0 1 p.position.loop.minSpeedSamplingWindow) = ((10000 : XR) <ᵇ p.position.loop.minSpeedSamplingWindow)

theorem validate_params (p : StrokeModelParams XR XR) (h : U.WindowFits p) :
    validateStrokeModelParams (U.params p) = validateStrokeModelParams p := by
  have hw : validateWobbleParams (U.wobble p.wobble) = validateWobbleParams p.wobble := by
    simp only [validateWobbleParams, wobble, validateGEZ_q, validateIsFinite_q, q_lt]
  have hl : validateLoopParams (U.loop p.position.loop) = validateLoopParams p.position.loop := by
    simp only [validateLoopParams, loop, q_lt, lit0, q_lt_zero, q_le_zero, kMaxSamplingWindow]
    split
    · rfl
    · next he =>
      rw [h (by simpa using he)]
  have hp : validatePositionModelerParams (U.position p.position) = validatePositionModelerParams p.position := by
    simp only [validatePositionModelerParams, position, hl, validateGTZ_q]
  have hs : validateSamplingParams (U.sampling p.sampling) = validateSamplingParams p.sampling := by
    simp only [validateSamplingParams, sampling, validateGTZ_q]
    rfl
  have hy : validateStylusParams (U.stylus p.stylus) = validateStylusParams p.stylus := by
    simp only [validateStylusParams, stylus, validateGTZ_q]
  have hk : validatePredictionParams (U.prediction p.prediction) = validatePredictionParams p.prediction := by
    cases p.prediction with
    | kalman k =>
      simp only [prediction, validatePredictionParams, validateKalmanParams, kalman, confidence, validateGTZ_q, validateGEZ_q,
        validateIsFinite_q, q_lt]
    | strokeEnd => rfl
    | disabled => rfl
  simp only [validateStrokeModelParams, params, hw, hp, hs, hy, hk]
  rfl

theorem validateInput_input (i : Input XR XR) : validateInput (U.input i) = validateInput i := by
  simp only [validateInput, input_eventType, input_position, input_time, validateIsFiniteNumber, pos_isNaN_x, pos_isNaN_y, pos_isInf_x,
    pos_isInf_y, time_isNaN, time_isInf]

theorem inputEq_input (a b : Input XR XR) : Input.eq (U.input a) (U.input b) = Input.eq a b := by
  simp only [Input.eq, input_eventType, input_position, input_time, pos_eq, time_eq]
  rfl

/-! ### The state of the modeler -/

def lastInput (l : LastInput XR XR) : LastInput XR XR := { input := U.input l.input, correctedPosition := U.pos l.correctedPosition }

def predictor : Predictor XR XR → Predictor XR XR
  | .kalman p => .kalman (U.kalmanPredictor p)
  | .strokeEnd p => .strokeEnd
      { position := U.position p.position, sampling := U.sampling p.sampling, lastPosition := p.lastPosition.map U.pos }

/-- A predictor has the matrices of axis_predictor.cc. -/
def Sound : Predictor XR XR → Prop
  | .kalman p => Std p.xPredictor ∧ Std p.yPredictor
  | .strokeEnd _ => True

/-- A stroke can be continued: one is in progress, or Restore would go back to one. -/
def Active (m : StrokeModeler XR XR) : Prop := m.lastInput ≠ none ∨ m.saveActive = true ∧ m.savedLastInput ≠ none

/-- While a stroke can be continued, the parts of the modeler use its parameters. -/
structure Live (m : StrokeModeler XR XR) : Prop where
  params : ∃ p, m.params = some p ∧ m.stylus.params = p.stylus ∧ m.loop.params = p.position.loop
  full : m.loop.params.isEnabled = true →
    m.stylus.state.inputs ≠ [] ∧ (m.stylus.saveActive = true → m.stylus.savedState.inputs ≠ [])

/-- The two modelers are in corresponding states. -/
structure Rel (m m' : StrokeModeler XR XR) : Prop where
  predictor : m'.predictor = m.predictor.map U.predictor
  sound : ∀ pr, m.predictor = some pr → Sound pr
  savedPredictor : m'.savedPredictor = m.savedPredictor.map U.predictor
  savedSound : ∀ pr, m.savedPredictor = some pr → Sound pr
  params : m'.params = m.params.map U.params
  valid : ∀ p, m.params = some p → validateStrokeModelParams p = .ok
  wState : m'.wobble.state = U.wobbleState m.wobble.state
  wSaved : m'.wobble.savedState = U.wobbleState m.wobble.savedState
  wActive : m'.wobble.saveActive = m.wobble.saveActive
  timed : Timed m.wobble.state
  savedTimed : Timed m.wobble.savedState
  sState : m'.stylus.state = U.stylusState m.stylus.state
  sSaved : m'.stylus.savedState = U.stylusState m.stylus.savedState
  sActive : m'.stylus.saveActive = m.stylus.saveActive
  lState : m'.loop.samples = m.loop.samples.map U.speedSample
  lSaved : m'.loop.savedSamples = m.loop.savedSamples.map U.speedSample
  lActive : m'.loop.saveActive = m.loop.saveActive
  last : m'.lastInput = m.lastInput.map U.lastInput
  savedLast : m'.savedLastInput = m.savedLastInput.map U.lastInput
  active : m'.saveActive = m.saveActive
  live : Active m → Live m ∧ m'.position = U.posModeler m.position ∧ m'.wobble.params = U.wobble m.wobble.params ∧
    m'.stylus.params = U.stylus m.stylus.params ∧ m'.loop.params = U.loop m.loop.params

theorem timed_default : Timed (WobbleState.default : WobbleState XR XR) :=
  ⟨by simp [WobbleState.default], 0, by simp [WobbleState.default]⟩

theorem wobbleState_default : U.wobbleState WobbleState.default = WobbleState.default := by
  simp [wobbleState, WobbleState.default, wsum, ws, Vec2.zero]

theorem rel_default : U.Rel StrokeModeler.default StrokeModeler.default where
  predictor := rfl
  sound := by intro pr h; cases h
  savedPredictor := rfl
  savedSound := by intro pr h; cases h
  params := rfl
  valid := by intro pr h; cases h
  wState := U.wobbleState_default.symm
  wSaved := U.wobbleState_default.symm
  wActive := rfl
  timed := timed_default
  savedTimed := timed_default
  sState := rfl
  sSaved := rfl
  sActive := rfl
  lState := rfl
  lSaved := rfl
  lActive := rfl
  last := rfl
  savedLast := rfl
  active := rfl
  live := by
    intro h
    rcases h with h | ⟨h, -⟩
    · exact absurd rfl h
    · cases h

variable {U} {m m' : StrokeModeler XR XR}

theorem Rel.wobble_eq (h : U.Rel m m') (ha : Active m) : m'.wobble = U.wobbleSmoother m.wobble := by
  obtain ⟨-, -, h1, -, -⟩ := h.live ha
  have h2 := h.wState; have h3 := h.wSaved; have h4 := h.wActive
  cases hw : m'.wobble
  rw [hw] at h1 h2 h3 h4
  simp only at h1 h2 h3 h4
  simp only [wobbleSmoother, h1, h2, h3, h4]

theorem Rel.stylus_eq (h : U.Rel m m') (ha : Active m) : m'.stylus = U.stylusModeler m.stylus := by
  obtain ⟨-, -, -, h1, -⟩ := h.live ha
  have h2 := h.sState; have h3 := h.sSaved; have h4 := h.sActive
  cases hw : m'.stylus
  rw [hw] at h1 h2 h3 h4
  simp only at h1 h2 h3 h4
  simp only [stylusModeler, h1, h2, h3, h4]

theorem Rel.loop_eq (h : U.Rel m m') (ha : Active m) : m'.loop = U.loopModeler m.loop := by
  obtain ⟨-, -, -, -, h1⟩ := h.live ha
  have h2 := h.lState; have h3 := h.lSaved; have h4 := h.lActive
  cases hw : m'.loop
  rw [hw] at h1 h2 h3 h4
  simp only at h1 h2 h3 h4
  simp only [loopModeler, h1, h2, h3, h4]

/-- Corresponding outcomes of a call. -/
def Out (U : Units) (x x' : Outcome (StrokeModeler XR XR × Status × List (Result XR XR))) : Prop :=
  match x with
  | .ok (m, s, r) => ∃ m', x' = .ok (m', s, r.map U.result) ∧ U.Rel m m'
  | .ub w => x' = .ub w
  | .diverge => x' = .diverge

/-! ### Save, Restore, Reset -/

theorem Rel.save (h : U.Rel m m') : U.Rel m.save m'.save where
  predictor := h.predictor
  sound := h.sound
  savedPredictor := by
    simp only [StrokeModeler.save, h.predictor]
    cases m.predictor with
    | none => exact h.savedPredictor
    | some p => rfl
  savedSound := by
    intro pr hpr
    simp only [StrokeModeler.save] at hpr
    cases hp : m.predictor with
    | none => rw [hp] at hpr; exact h.savedSound pr hpr
    | some p => rw [hp] at hpr; exact h.sound pr (hp.trans hpr)
  params := h.params
  valid := h.valid
  wState := h.wState
  wSaved := h.wState
  wActive := rfl
  timed := h.timed
  savedTimed := h.timed
  sState := h.sState
  sSaved := h.sState
  sActive := rfl
  lState := h.lState
  lSaved := h.lState
  lActive := rfl
  last := h.last
  savedLast := h.last
  active := rfl
  live := by
    intro ha
    have ha' : Active m := by
      rcases ha with ha | ⟨-, ha⟩ <;> exact .inl ha
    obtain ⟨hl, h1, h2, h3, h4⟩ := h.live ha'
    refine ⟨⟨hl.params, fun he => ⟨(hl.full he).1, fun _ => (hl.full he).1⟩⟩, ?_, h2, h3, h4⟩
    simp only [StrokeModeler.save, PositionModeler.save, h1, posModeler, Option.map_some]

theorem Rel.restore (h : U.Rel m m') : U.Rel m.restore m'.restore := by
  cases hs : m.saveActive with
  | false =>
    have hs' : m'.saveActive = false := h.active.trans hs
    simpa [StrokeModeler.restore, hs, hs'] using h
  | true =>
    have hs' : m'.saveActive = true := h.active.trans hs
    have e : m.restore = { m with
        wobble := m.wobble.restore, position := m.position.restore, stylus := m.stylus.restore
        loop := m.loop.restore
        lastInput := m.savedLastInput
        predictor := match m.savedPredictor with
          | some p => some p
          | none => m.predictor } := by 
        simp only [StrokeModeler.restore, hs]
        cases m.savedPredictor <;> rfl
    have e' : m'.restore = { m' with
        wobble := m'.wobble.restore, position := m'.position.restore, stylus := m'.stylus.restore
        loop := m'.loop.restore
        lastInput := m'.savedLastInput
        predictor := match m'.savedPredictor with
          | some p => some p
          | none => m'.predictor } := by 
        simp only [StrokeModeler.restore, hs']
        cases m'.savedPredictor <;> rfl
    rw [e, e']
    constructor
    · simp only [h.savedPredictor]
      cases m.savedPredictor with
      | none => exact h.predictor
      | some p => rfl
    · intro pr hpr
      simp only at hpr
      cases hp : m.savedPredictor with
      | none => rw [hp] at hpr; exact h.sound pr hpr
      | some p => rw [hp] at hpr; exact h.savedSound pr (hp.trans hpr)
    · exact h.savedPredictor
    · exact h.savedSound
    · exact h.params
    · exact h.valid
    · simp only [WobbleSmoother.restore, h.wActive]
      split
      · exact h.wSaved
      · exact h.wState
    · simp only [WobbleSmoother.restore, h.wActive]
      split <;> exact h.wSaved
    · simp only [WobbleSmoother.restore, h.wActive]
      split
      · next he => simp [he]
      · next he => exact h.wActive
    · simp only [WobbleSmoother.restore]
      split
      · exact h.savedTimed
      · exact h.timed
    · simp only [WobbleSmoother.restore]
      split <;> exact h.savedTimed
    · simp only [StylusModeler.restore, h.sActive]
      split
      · exact h.sSaved
      · exact h.sState
    · simp only [StylusModeler.restore, h.sActive]
      split <;> exact h.sSaved
    · simp only [StylusModeler.restore, h.sActive]
      split
      · next he => simp [he]
      · next he => exact h.sActive
    · simp only [LoopModeler.restore, h.lActive]
      split
      · exact h.lSaved
      · exact h.lState
    · simp only [LoopModeler.restore, h.lActive]
      split <;> exact h.lSaved
    · simp only [LoopModeler.restore, h.lActive]
      split
      · next he => simp [he]
      · next he => exact h.lActive
    · exact h.savedLast
    · exact h.savedLast
    · exact h.active
    · intro ha
      have ha' : Active m := by
        rcases ha with ha | ⟨-, ha⟩ <;> exact .inr ⟨hs, ha⟩
      obtain ⟨hl, h1, h2, h3, h4⟩ := h.live ha'
      have ws : ∀ w : WobbleSmoother XR XR, w.restore.params = w.params := by
        intro w; simp only [WobbleSmoother.restore]; split <;> rfl
      have ss : ∀ w : StylusModeler XR XR, w.restore.params = w.params := by
        intro w; simp only [StylusModeler.restore]; split <;> rfl
      have ls : ∀ w : LoopModeler XR XR, w.restore.params = w.params := by
        intro w; simp only [LoopModeler.restore]; split <;> rfl
      refine ⟨⟨?_, ?_⟩, ?_, ?_, ?_, ?_⟩
      · simp only [ss, ls]; exact hl.params
      · intro he
        simp only [ls] at he
        obtain ⟨f1, f2⟩ := hl.full he
        simp only [StylusModeler.restore]
        split
        · next hsa => exact ⟨f2 hsa, fun _ => f2 hsa⟩
        · exact ⟨f1, f2⟩
      · simp only [h1, PositionModeler.restore, posModeler]
        cases hss : m.position.savedState <;> simp [hss]
      · simp only [ws]; exact h2
      · simp only [ss]; exact h3
      · simp only [ls]; exact h4

theorem Rel.resetInternal (h : U.Rel m m') : U.Rel m.resetInternal m'.resetInternal where
  predictor := h.predictor
  sound := h.sound
  savedPredictor := h.savedPredictor
  savedSound := h.savedSound
  params := h.params
  valid := h.valid
  wState := h.wState
  wSaved := h.wSaved
  wActive := h.wActive
  timed := h.timed
  savedTimed := h.savedTimed
  sState := h.sState
  sSaved := h.sSaved
  sActive := h.sActive
  lState := h.lState
  lSaved := h.lSaved
  lActive := h.lActive
  last := rfl
  savedLast := h.savedLast
  active := rfl
  live := by
    intro ha
    rcases ha with ha | ⟨ha, -⟩
    · exact absurd rfl ha
    · cases ha

theorem makePredictor_params (p : StrokeModelParams XR XR) :
    StrokeModeler.makePredictor (U.params p) = (StrokeModeler.makePredictor p).map U.predictor := by
  have h1 : (U.params p).prediction = U.prediction p.prediction := rfl
  cases hp : p.prediction with
  | strokeEnd => simp only [StrokeModeler.makePredictor, h1, hp, prediction]; rfl
  | disabled => simp only [StrokeModeler.makePredictor, h1, hp, prediction]; rfl
  | kalman k =>
    simp only [StrokeModeler.makePredictor, h1, hp, prediction, Option.map_some, Units.predictor, kalmanPredictor, KalmanPredictor.make, make_axis]
    rfl

theorem makePredictor_sound {p : StrokeModelParams XR XR} (hv : validateStrokeModelParams p = .ok) {pr : Predictor XR XR}
    (h : StrokeModeler.makePredictor p = some pr) : Sound pr := by
  cases hp : p.prediction with
  | strokeEnd => simp only [StrokeModeler.makePredictor, hp, Option.some.injEq] at h; subst h; trivial
  | disabled => simp [StrokeModeler.makePredictor, hp] at h
  | kalman k =>
    simp only [StrokeModeler.makePredictor, hp, Option.some.injEq] at h; subst h
    have hk : 0 < k.minStableIteration := by
      have := (validParts hv).2.2.2.2.2
      rw [hp] at this
      unfold validatePredictionParams validateKalmanParams at this
      exact validateGreaterThanZeroInt_ok (andThen_ok (andThen_ok (andThen_ok this).2).2).1
    exact ⟨make_std hk, make_std hk⟩

theorem Rel.resetParams (h : U.Rel m m') (p : StrokeModelParams XR XR) (hp : U.WindowFits p) :
    U.Rel (m.resetParams p).1 (m'.resetParams (U.params p)).1 ∧ (m'.resetParams (U.params p)).2 = (m.resetParams p).2 := by
  simp only [StrokeModeler.resetParams, U.validate_params p hp]
  cases hv : validateStrokeModelParams p with
  | err c msg => exact ⟨h, rfl⟩
  | ok =>
    refine ⟨?_, rfl⟩
    have h' := h.resetInternal
    exact
      { h' with
        predictor := makePredictor_params p
        sound := fun pr hpr => makePredictor_sound hv hpr
        params := rfl
        valid := by rintro q ⟨⟩; exact hv
        lState := rfl
        lActive := rfl
        live := by
          intro ha
          rcases ha with ha | ⟨ha, -⟩
          · exact absurd rfl ha
          · cases ha }

theorem Rel.reset (h : U.Rel m m') : U.Rel m.reset.1 m'.reset.1 ∧ m'.reset.2 = m.reset.2 := by
  simp only [StrokeModeler.reset, h.params]
  cases m.params with
  | none => exact ⟨h, rfl⟩
  | some p => exact ⟨h.resetInternal, rfl⟩

/-! ### Inputs -/

theorem out_bind {A A' : Type} {x : Outcome A} {x' : Outcome A'} {f : A → A'} (hx : x' = f <$> x)
    {k : A → Outcome (StrokeModeler XR XR × Status × List (Result XR XR))}
    {k' : A' → Outcome (StrokeModeler XR XR × Status × List (Result XR XR))}
    (h : ∀ a, x = .ok a → Out U (k a) (k' (f a))) : Out U (x >>= k) (x' >>= k') := by
  subst hx
  cases x with
  | ok a => exact h a rfl
  | ub w => rfl
  | diverge => rfl

theorem updatePredictor_map (pr : Option (Predictor XR XR)) (hs : ∀ p, pr = some p → Sound p) (z : Vec2 XR) (t : XR) :
    updatePredictor (pr.map U.predictor) (U.pos z) (U.time t) = (Option.map U.predictor) <$> updatePredictor pr z t ∧
      ∀ pr', updatePredictor pr z t = .ok pr' → ∀ p, pr' = some p → Sound p := by
  cases pr with
  | none =>
    refine ⟨rfl, ?_⟩
    intro pr' h p hp
    simp only [updatePredictor, Outcome.ok.injEq] at h
    rw [← h] at hp; cases hp
  | some p =>
    cases p with
    | strokeEnd p =>
      refine ⟨rfl, ?_⟩
      intro pr' h p hp
      simp only [updatePredictor, Predictor.update, Outcome.map_ok, Outcome.ok.injEq] at h
      rw [← h] at hp; cases hp; trivial
    | kalman p =>
      obtain ⟨hx, hy⟩ := hs _ rfl
      obtain ⟨h1, h2⟩ := U.update_kalman p hx hy z t
      constructor
      · simp only [Option.map_some, updatePredictor, Units.predictor, Predictor.update, h1]
        cases p.update z t <;> rfl
      · intro pr' h q hq
        cases hu : p.update z t with
        | ok p' =>
          simp only [updatePredictor, Predictor.update, hu, Outcome.map_ok, Outcome.ok.injEq] at h
          rw [← h] at hq; cases hq
          exact h2 p' hu
        | ub w => simp only [updatePredictor, Predictor.update, hu] at h; cases h
        | diverge => simp only [updatePredictor, Predictor.update, hu] at h; cases h

theorem reset_predictor (pr : Option (Predictor XR XR)) :
    (pr.map U.predictor).map Predictor.reset = (pr.map Predictor.reset).map U.predictor := by
  cases pr with
  | none => rfl
  | some p =>
    cases p with
    | strokeEnd p => rfl
    | kalman p =>
      simp only [Option.map_some, Units.predictor, Predictor.reset, KalmanPredictor.reset, kalmanPredictor, reset_axis]
      rfl

theorem reset_sound {pr : Option (Predictor XR XR)} (hs : ∀ p, pr = some p → Sound p) :
    ∀ p, pr.map Predictor.reset = some p → Sound p := by
  intro p hp
  cases pr with
  | none => cases hp
  | some q =>
    cases q with
    | strokeEnd q => cases hp; trivial
    | kalman q =>
      cases hp
      obtain ⟨hx, hy⟩ := hs _ rfl
      exact ⟨reset_std hx, reset_std hy⟩

/-- What an input changes in the stylus modeler. -/
theorem update_stylus_full {p : StrokeModelParams XR XR} (hv : validateStrokeModelParams p = .ok) {st st' : StylusModeler XR XR}
    (hp : st.params = p.stylus) {z : Vec2 XR} {t : XR} {s : StylusState XR} (h : st.update z t s = .ok st') :
    st'.savedState = st.savedState ∧ st'.saveActive = st.saveActive ∧ st'.params = st.params ∧
      (p.position.loop.isEnabled = true → st'.state.inputs ≠ []) := by
  simp only [StylusModeler.update] at h
  split at h
  · next hc =>
    cases h
    refine ⟨rfl, rfl, rfl, fun he => ?_⟩
    rw [hp, (validParts hv).1 he] at hc
    simp at hc
  · obtain ⟨l, hl, h⟩ := Outcome.bind_eq_ok.mp h
    cases h
    refine ⟨rfl, rfl, rfl, fun he => ?_⟩
    have hu := (validParts hv).1 he
    have hm := (validStylus hv).1 hu
    rw [← hp] at hu hm
    obtain ⟨-, h2, -⟩ := dropOldInputs_normal hu hm hl
    intro hn
    simp only at hn
    subst hn
    simp only [List.length_append, List.length_singleton, List.length_nil] at h2
    omega

theorem out_same (h : U.Rel m m') (s : Status) (r : List (Result XR XR)) : Out U (.ok (m, s, r)) (.ok (m', s, r.map U.result)) :=
  ⟨m', rfl, h⟩

theorem out_ok (s : Status) {r r' : List (Result XR XR)} (hr : r' = r.map U.result) (h : U.Rel m m') :
    Out U (pure (m, s, r)) (pure (m', s, r')) := by
  subst hr
  exact ⟨m', rfl, h⟩

theorem stylusStateOf_input (i : Input XR XR) : stylusStateOf (U.input i) = stylusStateOf i := rfl

theorem Rel.down (h : U.Rel m m') {p : StrokeModelParams XR XR} (hp : m.params = some p) {i : Input XR XR} {t : ℝ} (ht : i.time = fin t)
    (r : List (Result XR XR)) : Out U (m.processDown p i r) (m'.processDown (U.params p) (U.input i) (r.map U.result)) := by
  have hv := h.valid p hp
  have hl := h.last
  cases hlast : m.lastInput with
  | some last =>
    rw [hlast] at hl
    simp only [StrokeModeler.processDown, hlast, hl, Option.map_some]
    exact out_same h _ _
  | none =>
    rw [hlast] at hl
    simp only [StrokeModeler.processDown, hlast, hl, Option.map_none]
    have hst : m'.stylus.reset (U.params p).stylus = U.stylusModeler (m.stylus.reset p.stylus) := by
      simp only [StylusModeler.reset, stylusModeler, h.sSaved]
      rfl
    refine out_bind (f := U.stylusModeler) ?_ fun st hstu => ?_
    · rw [hst]; exact U.update_stylus _ _ _ _
    obtain ⟨u1, u2⟩ := updatePredictor_map (U := U) _ (reset_sound h.sound) i.position i.time
    refine out_bind (f := Option.map U.predictor) ?_ fun pr hpr => ?_
    · rw [h.predictor, reset_predictor]; exact u1
    obtain ⟨f1, f2, f3, f4⟩ := update_stylus_full hv (show (m.stylus.reset p.stylus).params = p.stylus from rfl) hstu
    refine out_ok _ ?_ ?_
    · simp only [PositionModeler.reset, StrokeModeler.startState, List.map_append, List.map_cons, List.map_nil, result, qv_zero]
      rfl
    · constructor
      · rfl
      · exact u2 pr hpr
      · exact h.savedPredictor
      · exact h.savedSound
      · exact h.params
      · exact h.valid
      · simp [WobbleSmoother.reset, wobbleState, wobbleSample, wsum, ws, Vec2.zero]
      · exact h.wSaved
      · rfl
      · exact ⟨by simp [WobbleSmoother.reset, ht], 0, by simp [WobbleSmoother.reset]⟩
      · exact h.savedTimed
      · rfl
      · rfl
      · rfl
      · rfl
      · exact h.lSaved
      · rfl
      · rfl
      · exact h.savedLast
      · exact h.active
      · intro _
        refine ⟨⟨⟨p, hp, f3, rfl⟩, fun he => ⟨f4 he, ?_⟩⟩, ?_, rfl, rfl, rfl⟩
        · rw [f2]; intro hc; cases hc
        · simp only [PositionModeler.reset, StrokeModeler.startState, posModeler, tip, qv_zero]
          rfl

theorem loop_update (l : LoopModeler XR XR) (tips : List (TipState XR XR)) (st : StylusModeler XR XR) :
    ∀ (v s : XR) (l' : LoopModeler XR XR) (out : List (Result XR XR)), modelStylusGo st tips l v s = .ok (l', out) →
      l'.params = l.params ∧ l'.savedSamples = l.savedSamples ∧ l'.saveActive = l.saveActive := by
  induction tips generalizing l with
  | nil => intro v s l' out h; cases h; exact ⟨rfl, rfl, rfl⟩
  | cons t tips ih =>
    intro v s l' out h
    simp only [modelStylusGo] at h
    obtain ⟨pr, -, h⟩ := Outcome.bind_eq_ok.mp h
    obtain ⟨r, -, h⟩ := Outcome.bind_eq_ok.mp h
    obtain ⟨⟨l1, o1⟩, h1, h⟩ := Outcome.bind_eq_ok.mp h
    cases h
    obtain ⟨a, b, c⟩ := ih _ _ _ _ _ h1
    have hu : ∀ w y, (l.update w y).1.params = l.params ∧ (l.update w y).1.savedSamples = l.savedSamples ∧
        (l.update w y).1.saveActive = l.saveActive := by
      intro w y
      simp only [LoopModeler.update]
      split <;> exact ⟨rfl, rfl, rfl⟩
    obtain ⟨a', b', c'⟩ := hu r.velocity t.time
    exact ⟨a.trans a', b.trans b', c.trans c'⟩

theorem id_map {A : Type} (x : Outcome A) : id <$> x = x := by cases x <;> rfl

/-- The state after the smoother and the stylus modeler have been updated. -/
theorem Rel.fed (h : U.Rel m m') (ha : Active m) {w : WobbleSmoother XR XR} (hw : Timed w.state)
    (hw' : w.savedState = m.wobble.savedState) {z : Vec2 XR} {t : XR} {s : StylusState XR} {st : StylusModeler XR XR}
    (hst : m.stylus.update z t s = .ok st) :
    U.Rel { m with wobble := w, stylus := st } { m' with wobble := U.wobbleSmoother w, stylus := U.stylusModeler st } := by
  obtain ⟨⟨⟨p, hp, hl1, hl2⟩, hf⟩, h1, h2, h3, h4⟩ := h.live ha
  obtain ⟨f1, f2, f3, f4⟩ := update_stylus_full (h.valid p hp) hl1 hst
  exact
    { h with
      wState := rfl, wSaved := rfl, wActive := rfl, timed := hw
      savedTimed := by show Timed w.savedState; rw [hw']; exact h.savedTimed
      sState := rfl, sSaved := rfl, sActive := rfl
      live := fun _ => ⟨⟨⟨p, hp, f3.trans hl1, hl2⟩, fun he =>
        ⟨f4 (by rw [← hl2]; exact he), by
          show st.saveActive = true → st.savedState.inputs ≠ []
          rw [f1, f2]; exact (hf he).2⟩⟩, h1, rfl, rfl, h4⟩ }

/-- The state after the position modeler, the predictor and the mitigation have been updated as well. -/
theorem Rel.moved (h : U.Rel m m') (ha : Active m) (hw : m'.wobble.params = U.wobble m.wobble.params)
    (hs : m'.stylus.params = U.stylus m.stylus.params) {pos pos' : PositionModeler XR XR}
    (hpos : pos' = U.posModeler pos) {pr : Option (Predictor XR XR)}
    (hpr : ∀ q, pr = some q → Sound q) {l : LoopModeler XR XR} (hl : l.params = m.loop.params) (tips tips' : List (TipState XR XR))
    (last : Option (LastInput XR XR)) :
    U.Rel { m with position := pos, predictor := pr, loop := l, tipBuffer := tips, lastInput := last }
      { m' with
        position := pos', predictor := pr.map U.predictor, loop := U.loopModeler l, tipBuffer := tips'
        lastInput := last.map U.lastInput } := by
  obtain ⟨⟨⟨p, hp, hl1, hl2⟩, hf⟩, h1, h2, h3, h4⟩ := h.live ha
  exact
    { h with
      predictor := rfl, sound := hpr, lState := rfl, lSaved := rfl, lActive := rfl, last := rfl
      live := fun _ => ⟨⟨⟨p, hp, hl1, hl.trans hl2⟩, fun he => hf (by rw [← hl]; exact he)⟩, hpos, hw, hs, rfl⟩ }

theorem Rel.move (h : U.Rel m m') {p : StrokeModelParams XR XR} (hp : m.params = some p) {i : Input XR XR} {t : ℝ} (ht : i.time = fin t)
    (r : List (Result XR XR)) : Out U (m.processMove p i r) (m'.processMove (U.params p) (U.input i) (r.map U.result)) := by
  have hl := h.last
  cases hlast : m.lastInput with
  | none =>
    rw [hlast] at hl
    simp only [StrokeModeler.processMove, hlast, hl, Option.map_none]
    exact out_same h _ _
  | some last =>
    rw [hlast] at hl
    have ha : Active m := .inl (by simp [hlast])
    obtain ⟨⟨⟨p', hp', hl1, hl2⟩, hf⟩, h1, h2, h3, h4⟩ := h.live ha
    cases hp.symm.trans hp'
    have hv := h.valid p hp
    simp only [StrokeModeler.processMove, hlast, hl, Option.map_some]
    obtain ⟨w1, w2⟩ := U.update_wobble m.wobble i.position t h.timed
    rw [← ht] at w1 w2
    refine out_bind (f := fun x => (U.wobbleSmoother x.1, U.pos x.2)) ?_ fun ⟨w, c⟩ hw => ?_
    · rw [h.wobble_eq ha]; exact w1
    obtain ⟨w3, w4, w5⟩ := w2 w c hw
    refine out_bind (f := U.stylusModeler) ?_ fun st hst => ?_
    · rw [h.stylus_eq ha]; exact U.update_stylus _ _ _ _
    have hfed := h.fed ha w3 w4 hst
    refine out_bind (f := id) ?_ fun n hn => ?_
    · rw [h1, id_map]; exact U.numberOfSteps_tip _ _ _ _ _
    cases n with
    | error s =>
      simp only [hlast, hl, Option.map_some] at hfed
      exact out_ok s rfl hfed
    | ok n =>
      simp only [id_eq, h1]
      have hu := U.updateAlongLinearPath_tip m.position last.correctedPosition last.input.time c i.time n
      change Out U _ ((updatePredictor m'.predictor (U.pos c) (U.time i.time)).bind _)
      obtain ⟨u1, u2⟩ := updatePredictor_map (U := U) _ h.sound c i.time
      refine out_bind (f := Option.map U.predictor) ?_ fun pr hpr => ?_
      · rw [h.predictor]; exact u1
      refine out_bind (f := fun x => (U.loopModeler x.1, x.2.map U.result)) ?_ fun ⟨l, out⟩ hout => ?_
      · rw [h.loop_eq ha]
        refine Eq.trans ?_ (U.modelStylus_tip _ st m.loop i.time ?_)
        · congr 1
          exact congrArg Prod.snd hu
        · intro he
          cases hen : m.loop.params.isEnabled with
          | false => rfl
          | true => exact absurd he ((update_stylus_full hv hl1 hst).2.2.2 (by rw [← hl2]; exact hen))
      · exact out_ok _ (List.map_append).symm
          (hfed.moved (.inl (by simp [hlast])) rfl rfl (congrArg Prod.fst hu) (u2 pr hpr) (loop_update _ _ _ _ _ _ _ hout).1 _ _
            (some { input := i, correctedPosition := c }))

theorem Rel.up (h : U.Rel m m') {p : StrokeModelParams XR XR} (hp : m.params = some p) (i : Input XR XR)
    (r : List (Result XR XR)) : Out U (m.processUp p i r) (m'.processUp (U.params p) (U.input i) (r.map U.result)) := by
  have hl := h.last
  cases hlast : m.lastInput with
  | none =>
    rw [hlast] at hl
    simp only [StrokeModeler.processUp, hlast, hl, Option.map_none]
    exact out_same h _ _
  | some last =>
    rw [hlast] at hl
    have ha : Active m := .inl (by simp [hlast])
    obtain ⟨⟨⟨p', hp', hl1, hl2⟩, hf⟩, h1, h2, h3, h4⟩ := h.live ha
    cases hp.symm.trans hp'
    have hv := h.valid p hp
    simp only [StrokeModeler.processUp, hlast, hl, Option.map_some]
    refine out_bind (f := id) ?_ fun n hn => ?_
    · rw [h1, id_map]; exact U.numberOfSteps_tip _ _ _ _ _
    cases n with
    | error s => exact out_ok s rfl h
    | ok n =>
      simp only [id_eq, h1]
      generalize hA : m.position.updateAlongLinearPath last.correctedPosition last.input.time i.position i.time n = A
      have hu : (U.posModeler m.position).updateAlongLinearPath (U.lastInput last).correctedPosition (U.lastInput last).input.time
          (U.input i).position (U.input i).time n = (U.posModeler A.1, A.2.map U.tip) := by
        rw [← hA]; exact U.updateAlongLinearPath_tip _ _ _ _ _ _
      rw [hu]
      generalize hB : A.1.modelEndOfStroke i.position (1 / p.sampling.minOutputRate)
          p.sampling.endOfStrokeMaxIterations p.sampling.endOfStrokeStoppingDistance = B
      have he : (U.posModeler A.1).modelEndOfStroke (U.input i).position (1 / (U.params p).sampling.minOutputRate)
          (U.params p).sampling.endOfStrokeMaxIterations (U.params p).sampling.endOfStrokeStoppingDistance =
            (U.posModeler B.1, B.2.map U.tip) := by
        have hr : (1 : XR) / (U.params p).sampling.minOutputRate = U.q 0 1 (1 / p.sampling.minOutputRate) := U.one_div_rate _
        rw [hr, ← hB]; exact U.modelEndOfStroke_tip _ _ _ _ _
      simp only [he]
      have htips : (if (A.2.map U.tip ++ B.2.map U.tip).isEmpty = true then [(U.posModeler B.1).state] else A.2.map U.tip ++ B.2.map U.tip) =
          (if (A.2 ++ B.2).isEmpty = true then [B.1.state] else A.2 ++ B.2).map U.tip := by
        rw [← List.map_append, List.isEmpty_map]
        split <;> rfl
      simp only [htips]
      refine out_bind (f := U.stylusModeler) ?_ fun st hst => ?_
      · rw [h.stylus_eq ha]; exact U.update_stylus _ _ _ _
      refine out_bind (f := fun x => (U.loopModeler x.1, x.2.map U.result)) ?_ fun ⟨l, out⟩ hout => ?_
      · rw [h.loop_eq ha]
        refine U.modelStylus_tip _ st m.loop last.input.time ?_
        intro he
        cases hen : m.loop.params.isEnabled with
        | false => rfl
        | true => exact absurd he ((update_stylus_full hv hl1 hst).2.2.2 (by rw [← hl2]; exact hen))
      · have hfed := h.fed ha h.timed rfl hst
        rw [← h.wobble_eq ha] at hfed
        have hm := hfed.moved (.inl (by simp [hlast])) h2 rfl (pos := B.1) rfl (pr := m.predictor) h.sound (loop_update _ _ _ _ _ _ _ hout).1
          (if (A.2 ++ B.2).isEmpty = true then [B.1.state] else A.2 ++ B.2)
          ((if (A.2 ++ B.2).isEmpty = true then [B.1.state] else A.2 ++ B.2).map U.tip) none
        rw [← h.predictor] at hm
        exact out_ok _ (List.map_append).symm hm

theorem constructPrediction_map (pr : Predictor XR XR) (hs : Sound pr) (last : TipState XR XR) :
    (U.predictor pr).constructPrediction (U.tip last) = (List.map U.tip) <$> pr.constructPrediction last := by
  cases pr with
  | kalman p => exact U.constructPrediction_kalman p hs.1 hs.2 last
  | strokeEnd p =>
    simp only [Units.predictor, Predictor.constructPrediction, StrokeEndPredictor.constructPrediction]
    cases p.lastPosition with
    | none => rfl
    | some a =>
      simp only [Option.map_some, Outcome.map_ok]
      have hr : (1 : XR) / (U.sampling p.sampling).minOutputRate = U.q 0 1 (1 / p.sampling.minOutputRate) := U.one_div_rate _
      rw [hr]
      exact congrArg (fun x => Outcome.ok x.2) (U.modelEndOfStroke_tip (PositionModeler.reset last p.position) a _ _ _)

theorem Rel.buffer (h : U.Rel m m') (a b : List (TipState XR XR)) : U.Rel { m with tipBuffer := a } { m' with tipBuffer := b } :=
  { h with
    live := fun ha => by
      obtain ⟨⟨hl, hf⟩, h1⟩ := h.live ha
      exact ⟨⟨hl, hf⟩, h1⟩ }

theorem Rel.predict (h : U.Rel m m') (r r' : List (Result XR XR)) : Out U (m.predict r) (m'.predict r') := by
  simp only [StrokeModeler.predict, h.params]
  cases hp : m.params with
  | none => exact out_same h _ []
  | some p =>
    simp only [Option.map_some, h.predictor]
    cases hpr : m.predictor with
    | none => exact out_same h _ []
    | some pr =>
      simp only [Option.map_some, h.last]
      cases hlast : m.lastInput with
      | none => exact out_same h _ []
      | some last =>
        have ha : Active m := .inl (by simp [hlast])
        obtain ⟨⟨⟨p', hp', hl1, hl2⟩, hf⟩, h1, h2, h3, h4⟩ := h.live ha
        simp only [Option.map_some]
        refine out_bind (f := List.map U.tip) ?_ fun tips htips => ?_
        · rw [h1]; exact constructPrediction_map pr (h.sound pr hpr) _
        refine out_bind (f := fun x => (U.loopModeler x.1, x.2.map U.result)) ?_ fun ⟨l, out⟩ hout => ?_
        · rw [h.loop_eq ha, h.stylus_eq ha]
          refine U.modelStylus_tip _ m.stylus m.loop last.input.time ?_
          intro he
          cases hen : m.loop.params.isEnabled with
          | false => rfl
          | true => exact absurd he (hf hen).1
        · have hb := h.buffer tips (tips.map U.tip)
          simp only [hp, hpr, hlast, h.params, h.predictor, h.last, Option.map_some] at hb
          exact out_ok _ rfl hb

theorem Rel.update (h : U.Rel m m') (i : Input XR XR) (r : List (Result XR XR)) :
    Out U (m.update i r) (m'.update (U.input i) (r.map U.result)) := by
  simp only [StrokeModeler.update, h.params]
  cases hp : m.params with
  | none => exact out_same h _ _
  | some p =>
    simp only [Option.map_some, U.validateInput_input]
    cases hv : validateInput i with
    | err c msg => exact out_same h _ _
    | ok =>
      obtain ⟨t, ht⟩ : ∃ t, i.time = fin t := by
        unfold validateInput at hv
        split at hv
        · cases hv
        · have := (andThen_ok (andThen_ok hv).2).2
          simp only [validateIsFiniteNumber] at this
          cases hi : i.time with
          | fin t => exact ⟨t, rfl⟩
          | nan => rw [hi] at this; simp [isNaN] at this
          | inf b => rw [hi] at this; simp [isInf] at this
      simp only [h.last]
      have ht' : (U.input i).eventType = i.eventType := rfl
      cases m.lastInput with
      | none =>
        simp only [Option.map_none, ht']
        cases i.eventType with
        | down => exact h.down hp ht r
        | move => exact h.move hp ht r
        | up => exact h.up hp i r
        | unknown n => exact out_same h _ _
      | some last =>
        simp only [Option.map_some, lastInput, inputEq_input, input_time, time_lt, ht']
        cases Input.eq last.input i with
        | true => exact out_same h _ _
        | false =>
          cases i.time <ᵇ last.input.time with
          | true => exact out_same h _ _
          | false =>
            cases i.eventType with
            | down => exact h.down hp ht r
            | move => exact h.move hp ht r
            | up => exact h.up hp i r
            | unknown n => exact out_same h _ _

/-! ### Sessions -/

/-- All parameters given to Reset respect the limit of the sampling window in both units, or exceed it in both. -/
def Fits (U : Units) (ops : List (Op XR XR)) : Prop := ∀ p, Op.resetParams p ∈ ops → U.WindowFits p

theorem Rel.step (h : U.Rel m m') (op : Op XR XR) (hop : ∀ p, op = .resetParams p → U.WindowFits p) :
    match Ink.step m op with
    | .ok (n, r) => ∃ n', Ink.step m' (U.op op) = .ok (n', U.response r) ∧ U.Rel n n'
    | .ub w => Ink.step m' (U.op op) = .ub w
    | .diverge => Ink.step m' (U.op op) = .diverge := by
  have key : ∀ {x x' : Outcome (StrokeModeler XR XR × Status × List (Result XR XR))}, Out U x x' →
      match (do let (m, s, r) ← x; return (m, (⟨s, r⟩ : Response XR XR)) : Outcome (StrokeModeler XR XR × Response XR XR)) with
      | .ok (n, r) => ∃ n', (do let (m, s, r) ← x'; return (m, (⟨s, r⟩ : Response XR XR)) : Outcome (StrokeModeler XR XR × Response XR XR)) =
          .ok (n', U.response r) ∧ U.Rel n n'
      | .ub w => (do let (m, s, r) ← x'; return (m, (⟨s, r⟩ : Response XR XR)) : Outcome (StrokeModeler XR XR × Response XR XR)) = .ub w
      | .diverge => (do let (m, s, r) ← x'; return (m, (⟨s, r⟩ : Response XR XR)) : Outcome (StrokeModeler XR XR × Response XR XR)) = .diverge := by
    intro x x' hx
    cases x with
    | ok a =>
      obtain ⟨n, s, r⟩ := a
      obtain ⟨n', rfl, hn⟩ := hx
      exact ⟨n', rfl, hn⟩
    | ub w => cases hx; rfl
    | diverge => cases hx; rfl
  cases op with
  | resetParams p =>
    obtain ⟨h1, h2⟩ := h.resetParams p (hop p rfl)
    refine ⟨_, ?_, h1⟩
    simp only [Ink.step, Units.op, h2]; rfl
  | reset =>
    obtain ⟨h1, h2⟩ := h.reset
    refine ⟨_, ?_, h1⟩
    simp only [Ink.step, Units.op, h2]; rfl
  | update i r => exact key (h.update i r)
  | predict r => exact key (h.predict r _)
  | save => exact ⟨_, rfl, h.save⟩
  | restore => exact ⟨_, rfl, h.restore⟩

theorem Rel.observe : ∀ (ops : List (Op XR XR)) {m m' : StrokeModeler XR XR}, U.Rel m m' → Fits U ops →
    Ink.observe m' (ops.map U.op) = (Ink.observe m ops).map (fun o => U.response <$> o)
  | [], _, _, _, _ => rfl
  | op :: ops, m, m', h, hf => by
    have hs := h.step op (fun p hp => hf p (by simp [hp]))
    simp only [List.map_cons, Ink.observe]
    cases hx : Ink.step m op with
    | ok a =>
      obtain ⟨n, r⟩ := a
      rw [hx] at hs
      obtain ⟨n', hn, hr⟩ := hs
      simp only [hn, List.map_cons]
      rw [Rel.observe ops hr (fun p hp => hf p (List.mem_cons_of_mem _ hp))]
      rfl
    | ub w => rw [hx] at hs; simp only at hs; simp only [hs]; rfl
    | diverge => rw [hx] at hs; simp only at hs; simp only [hs]; rfl

/-- **Unit-agnosticism**: a client that uses other units sees the same in these units. -/
theorem agnostic (U : Units) (ops : List (Op XR XR)) (h : Fits U ops) :
    Ink.observe StrokeModeler.default (ops.map U.op) = (Ink.observe StrokeModeler.default ops).map (fun o => U.response <$> o) :=
  Rel.observe ops U.rel_default h

end Units
end
end XR
end Ink
