import Verif.Lemmas.Course
/-!
# Calls that return

What the arithmetic must provide for no call to run into undefined behaviour or to hang, and the proof that it suffices.
-/
namespace Ink
open Scalar Arith

set_option linter.unusedSectionVars false

variable {F D : Type} [Scalar F] [Scalar D] [Arith F D]

variable (F D) in
/-- What is needed of the arithmetic. `Good` are the orientations on which the normalisation loops end. -/
structure Tame (Good : F → Prop) : Prop where
  unknown : Good (-1)
  angle : ∀ {a b : F} (c : F), Good a → Good b → (a <ᵇ 0) = false → (b <ᵇ 0) = false →
    ∃ z, interpAngle a b c = .ok z ∧ Good z
  evict : ∀ {t d : D}, isFinite t = true → isFinite d = true → (d <ᵇ 0) = false → (t <ᵇ t - d) = false
  steps : ∀ {p : StrokeModelParams F D} (tip : TipState F D) {last i : Input F D}, validateStrokeModelParams p = .ok →
    FiniteInput last → Fits last i → ∃ r, numberOfStepsBetweenInputs tip last i p.sampling p.position = .ok r

variable {Good : F → Prop}

/-! ### the wobble smoother -/

/-- The wobble smoother has been started. -/
def WobbleReady (w : WobbleSmoother F D) : Prop := validateWobbleParams w.params = .ok ∧ w.state.samples ≠ []

omit [Arith F D] in
theorem timeout_of_valid {w : WobbleParams F D} (h : validateWobbleParams w = .ok) (he : w.isEnabled = true) :
    isFinite w.timeout = true ∧ (w.timeout <ᵇ 0) = false := by
  unfold validateWobbleParams at h
  simp only [he, Bool.not_true, Bool.false_eq_true, ↓reduceIte] at h
  exact validateGreaterThanOrEqualToZero_ok (andThen_ok h).1

theorem evict_returns (limit : D) (l : List (WobbleSample F D)) (s : WobbleSample F D) (hs : (s.time <ᵇ limit) = false)
    (a : Vec2 F) (b c : F) : ∃ st, WobbleSmoother.evict limit (l ++ [s]) a b c = .ok st ∧ st.samples ≠ [] := by
  induction l generalizing a b c with
  | nil => exact ⟨⟨[s], a, b, c⟩, by simp [WobbleSmoother.evict, hs], by simp⟩
  | cons x l ih =>
    simp only [List.cons_append, WobbleSmoother.evict]
    split
    · exact ih _ _ _
    · exact ⟨_, rfl, by simp⟩

theorem wobble_returns (hT : Tame F D Good) {w : WobbleSmoother F D} (h : WobbleReady w) (x : Vec2 F) {t : D}
    (ht : isFinite t = true) : ∃ w' c, w.update x t = .ok (w', c) ∧ WobbleReady w' ∧ w'.saveActive = w.saveActive ∧
      w'.savedState = w.savedState := by
  unfold WobbleSmoother.update
  split
  · exact ⟨w, x, rfl, h, rfl, rfl⟩
  · rename_i he
    have he : w.params.isEnabled = true := by simpa using he
    obtain ⟨h1, h2⟩ := timeout_of_valid h.1 he
    obtain ⟨last, hl⟩ : ∃ last, w.state.samples.getLast? = some last := by
      rw [← Option.isSome_iff_exists]; simpa using h.2
    rw [hl]
    obtain ⟨st, hst, hne⟩ := evict_returns (F := F) (t - w.params.timeout) w.state.samples
      { position := x, weightedPosition := (narrow (t - last.time) : F) •ᵥ x, distance := distance x last.position
        duration := t - last.time, time := t } (hT.evict ht h1 h2)
      (WobbleSmoother.push w.state last x t).weightedPositionSum (WobbleSmoother.push w.state last x t).distanceSum
      (WobbleSmoother.push w.state last x t).durationSum
    refine ⟨{ w with state := st }, WobbleSmoother.smoothed w.params st x, ?_, ⟨h.1, hne⟩, rfl, rfl⟩
    have e : (WobbleSmoother.push w.state last x t).samples = w.state.samples ++ [
      { position := x, weightedPosition := (narrow (t - last.time) : F) •ᵥ x, distance := distance x last.position
        duration := t - last.time, time := t }] := rfl
    dsimp only
    rw [e, hst]
    rfl

/-! ### the stylus modeler -/

/-- The stylus modeler has valid parameters and only holds good orientations. -/
def StylusReady (Good : F → Prop) (s : StylusModeler F D) : Prop :=
  validateStylusParams s.params = .ok ∧ ∀ r ∈ s.state.inputs, Good r.orientation

theorem stylus_valid {p : StylusParams D} (h : validateStylusParams p = .ok) :
    (p.useStrokeNormalProjection = true → 0 < p.minInputSamples) ∧
    (p.useStrokeNormalProjection = false → 0 < p.maxInputSamples) := by
  unfold validateStylusParams at h
  split at h
  · rename_i hu
    exact ⟨fun _ => validateGreaterThanZeroInt_ok (andThen_ok h).1, by simp [hu]⟩
  · rename_i hu
    exact ⟨by simp [hu], fun _ => validateGreaterThanZeroInt_ok h⟩

theorem sizeGtInt_of_pos {n : ℕ} {i : ℤ} (h : 0 < i) : sizeGtInt n i = decide (i < n) := by
  simp [sizeGtInt, show ¬ i < 0 by omega]

omit [Scalar F] [Arith F D] in
theorem dropOldInputs_returns {p : StylusParams D} (hp : validateStylusParams p = .ok) (t : D) (l : List (Result F D)) :
    ∃ l', dropOldInputs p t l = .ok l' := by
  obtain ⟨h1, h2⟩ := stylus_valid hp
  have key : ∀ l : List (Result F D), ∃ b, shouldDropOldestInput p t l = .ok b ∧ (l = [] → b = false) := by
    intro l
    unfold shouldDropOldestInput
    split
    · rename_i hu
      rw [sizeGtInt_of_pos (h1 hu)]
      split
      · rename_i hlt
        have hlt : p.minInputSamples < l.length := by simpa using hlt
        have := h1 hu
        rcases l with _ | ⟨a, _ | ⟨b, l⟩⟩
        · simp at hlt; omega
        · simp at hlt; omega
        · exact ⟨_, rfl, by simp⟩
      · exact ⟨_, rfl, by simp⟩
    · rename_i hu
      have := h2 (by simpa using hu)
      rw [sizeGtInt_of_pos this]
      exact ⟨_, rfl, by rintro rfl; simp; omega⟩
  induction l with
  | nil =>
    obtain ⟨b, hb, hb'⟩ := key []
    exact ⟨[], by simp [dropOldInputs, hb, hb' rfl]⟩
  | cons r l ih =>
    obtain ⟨b, hb, _⟩ := key (r :: l)
    simp only [dropOldInputs, hb, Outcome.ok_bind]
    split
    · exact ih
    · exact ⟨_, rfl⟩

theorem rawResult_orientation (l : Option (Result F D)) (x : Vec2 F) (t : D) (s : StylusState F) :
    (StylusModeler.rawResult l x t s).orientation = s.orientation := by
  unfold StylusModeler.rawResult
  cases l with
  | none => rfl
  | some r => dsimp only

omit [Arith F D] [Scalar F] in
theorem dropOldInputs_suffix {p : StylusParams D} {t : D} {l l' : List (Result F D)}
    (h : dropOldInputs p t l = .ok l') : l' <:+ l := by
  induction l generalizing l' with
  | nil =>
    simp only [dropOldInputs] at h
    obtain ⟨b, _, h⟩ := Outcome.bind_eq_ok.1 h
    split at h
    · simp at h
    · simp only [Outcome.ok.injEq] at h; rw [← h]
  | cons r l ih =>
    simp only [dropOldInputs] at h
    obtain ⟨b, _, h⟩ := Outcome.bind_eq_ok.1 h
    split at h
    · exact (ih h).trans (List.suffix_cons _ _)
    · simp only [Outcome.ok.injEq] at h; rw [← h]

/-- What Update does to the samples. -/
theorem stylus_update_inputs {s s' : StylusModeler F D} {x : Vec2 F} {t : D} {st : StylusState F}
    (h : s.update x t st = .ok s') : s'.state.inputs <:+ s.state.inputs ++
      [StylusModeler.rawResult s.state.inputs.getLast? x t st] := by
  unfold StylusModeler.update at h
  dsimp only at h
  split at h
  · simp only [Outcome.ok.injEq] at h; rw [← h]; exact List.nil_suffix
  · obtain ⟨l, hd, h⟩ := Outcome.bind_eq_ok.1 h
    simp only [Outcome.pure_eq, Outcome.ok.injEq] at h; rw [← h]
    exact dropOldInputs_suffix hd

theorem stylus_update_saved {s s' : StylusModeler F D} {x : Vec2 F} {t : D} {st : StylusState F}
    (h : s.update x t st = .ok s') : s'.saveActive = s.saveActive ∧ s'.savedState = s.savedState := by
  unfold StylusModeler.update at h
  dsimp only at h
  split at h
  · simp only [Outcome.ok.injEq] at h; rw [← h]; exact ⟨rfl, rfl⟩
  · obtain ⟨l, hd, h⟩ := Outcome.bind_eq_ok.1 h
    simp only [Outcome.pure_eq, Outcome.ok.injEq] at h; rw [← h]; exact ⟨rfl, rfl⟩

theorem stylus_returns {s : StylusModeler F D} (h : StylusReady Good s) (x : Vec2 F) (t : D)
    {st : StylusState F} (hst : Good st.orientation) :
    ∃ s', s.update x t st = .ok s' ∧ StylusReady Good s' ∧ s'.saveActive = s.saveActive ∧ s'.savedState = s.savedState := by
  obtain ⟨s', hs'⟩ : ∃ s', s.update x t st = .ok s' := by
    unfold StylusModeler.update
    dsimp only
    split
    · exact ⟨_, rfl⟩
    · obtain ⟨l, hl⟩ := dropOldInputs_returns h.1 t ((StylusModeler.flags s.state st).inputs ++
        [StylusModeler.rawResult (StylusModeler.flags s.state st).inputs.getLast? x t st])
      rw [hl]
      exact ⟨_, rfl⟩
  refine ⟨s', hs', ⟨by rw [stylus_update_params hs']; exact h.1, ?_⟩, stylus_update_saved hs'⟩
  intro r hr
  rcases List.mem_append.1 ((stylus_update_inputs hs').subset hr) with hr | hr
  · exact h.2 r hr
  · rw [List.mem_singleton] at hr
    rw [hr, rawResult_orientation]
    exact hst

theorem interpOrientation_returns (hT : Tame F D Good) {a b : Result F D} (ha : Good a.orientation) (hb : Good b.orientation)
    (c : F) : ∃ z, interpOrientation a b c = .ok z ∧ Good z := by
  unfold interpOrientation
  split
  · exact ⟨_, rfl, hT.unknown⟩
  · rename_i h
    simp only [Bool.or_eq_true, not_or, Bool.not_eq_true] at h
    exact hT.angle c ha hb h.1 h.2

theorem interpResult_returns (hT : Tame F D Good) {a b : Result F D} (ha : Good a.orientation) (hb : Good b.orientation)
    (c : F) : ∃ r, interpResult a b c = .ok r ∧ Good r.orientation := by
  obtain ⟨z, hz, hg⟩ := interpOrientation_returns hT ha hb c
  exact ⟨interpResultWith a b c z, by rw [interpResult_eq, hz]; rfl, hg⟩

/-- The projection found is on a segment of the polyline. -/
theorem closestLoop_index (x : Vec2 F) (l : List (Result F D)) (i : ℕ) (best : Option (RawInputProjection F)) (d : F)
    (N : ℕ) (hN : N = i + l.length) (hb : ∀ b, best = some b → b.segmentIndex + 1 < N) :
    ∀ b, StylusModeler.closestLoop x l i best d = some b → b.segmentIndex + 1 < N := by
  induction l generalizing i best d with
  | nil => exact hb
  | cons a l ih =>
    cases l with
    | nil => exact hb
    | cons b l =>
      simp only [StylusModeler.closestLoop]
      split
      · apply ih
        · simp at hN ⊢; omega
        · rintro _ ⟨⟩; simp at hN ⊢; omega
      · exact ih _ _ _ (by simp at hN ⊢; omega) hb

theorem normalRound_index (x n a b : Vec2 F) (i N : ℕ) (hi : i + 1 < N) (best : StylusModeler.NormalBest F)
    (hl : ∀ b, best.left = some b → b.segmentIndex + 1 < N) (hr : ∀ b, best.right = some b → b.segmentIndex + 1 < N) :
    (∀ c, (StylusModeler.normalRound x n a b i best).left = some c → c.segmentIndex + 1 < N) ∧
    ∀ c, (StylusModeler.normalRound x n a b i best).right = some c → c.segmentIndex + 1 < N := by
  unfold StylusModeler.normalRound
  split
  · exact ⟨hl, hr⟩
  · dsimp only
    split
    · split
      · exact ⟨hl, by rintro _ ⟨⟩; exact hi⟩
      · exact ⟨hl, hr⟩
    · split
      · exact ⟨by rintro _ ⟨⟩; exact hi, hr⟩
      · exact ⟨hl, hr⟩

theorem normalLoop_index (x n : Vec2 F) (l : List (Result F D)) (i N : ℕ) (hN : N = i + l.length)
    (best : StylusModeler.NormalBest F)
    (hl : ∀ b, best.left = some b → b.segmentIndex + 1 < N) (hr : ∀ b, best.right = some b → b.segmentIndex + 1 < N) :
    (∀ c, (StylusModeler.normalLoop x n l i best).left = some c → c.segmentIndex + 1 < N) ∧
    ∀ c, (StylusModeler.normalLoop x n l i best).right = some c → c.segmentIndex + 1 < N := by
  induction l generalizing i best with
  | nil => exact ⟨hl, hr⟩
  | cons a l ih =>
    cases l with
    | nil => exact ⟨hl, hr⟩
    | cons b l =>
      simp only [StylusModeler.normalLoop]
      have := normalRound_index x n a.position b.position i N (by simp at hN; omega) best hl hr
      exact ih _ (by simp at hN ⊢; omega) _ this.1 this.2

theorem projection_returns (s : StylusModeler F D) (tip : TipState F D) (n : Option (Vec2 F)) (hne : s.state.inputs ≠ []) :
    ∃ p, s.projection tip n = .ok p ∧ ∀ b, p = some b → b.segmentIndex + 1 < s.state.inputs.length := by
  have he : s.state.inputs.isEmpty = false := by simpa using hne
  unfold StylusModeler.projection
  split
  · unfold StylusModeler.projectAlongStrokeNormal
    rw [he]
    refine ⟨_, rfl, ?_⟩
    rename_i v _
    have hf := normalLoop_index tip.position v s.state.inputs 0 s.state.inputs.length (by simp)
      ⟨none, none, Arith.inf, Arith.inf⟩ (by simp) (by simp)
    split
    · split
      · exact hf.2
      · exact hf.1
    · split
      · exact hf.2
      · exact hf.1
  · unfold StylusModeler.projectToClosestPoint
    rw [he]
    exact ⟨_, rfl, closestLoop_index tip.position s.state.inputs 0 none Arith.inf _ (by simp) (by simp)⟩

theorem query_returns (hT : Tame F D Good) {s : StylusModeler F D} (h : StylusReady Good s) (tip : TipState F D)
    (n : Option (Vec2 F)) : ∃ q, s.query tip n = .ok q ∧ Good q.orientation := by
  rw [StylusModeler.query_eq]
  split
  · exact ⟨_, rfl, hT.unknown⟩
  · rename_i hne
    have hne : s.state.inputs ≠ [] := by simpa using hne
    obtain ⟨p, hp, hi⟩ := projection_returns s tip n hne
    rw [hp, Outcome.ok_bind]
    have hr : ∃ r, StylusModeler.projectedResult s.state.inputs tip p = .ok r ∧ Good r.orientation := by
      unfold StylusModeler.projectedResult
      cases p with
      | some b =>
        have hb := hi b rfl
        simp only [List.getElem?_eq_getElem hb, List.getElem?_eq_getElem (Nat.lt_of_succ_lt hb)]
        exact interpResult_returns hT (h.2 _ (List.getElem_mem _)) (h.2 _ (List.getElem_mem _)) _
      | none =>
        cases hh : s.state.inputs with
        | nil => exact absurd hh hne
        | cons a l =>
          have hl : ∃ b, (a :: l).getLast? = some b := ⟨(a :: l).getLast (by simp), List.getLast?_eq_some_getLast (by simp)⟩
          obtain ⟨b, hb⟩ := hl
          simp only [List.head?_cons, hb]
          refine ⟨_, rfl, ?_⟩
          split
          · exact h.2 a (by simp [hh])
          · exact h.2 b (by rw [hh]; exact List.mem_of_getLast? hb)
    obtain ⟨r, hr, hg⟩ := hr
    rw [hr, Outcome.ok_bind]
    refine ⟨_, rfl, ?_⟩
    simp only [StylusModeler.strip]
    split
    · exact hT.unknown
    · exact hg

theorem modelStylusGo_returns (hT : Tame F D Good) {s : StylusModeler F D} (h : StylusReady Good s)
    (tips : List (TipState F D)) (l : LoopModeler F D) (c : F) (t : D) : ∃ x, modelStylusGo s tips l c t = .ok x := by
  induction tips generalizing l c t with
  | nil => exact ⟨_, rfl⟩
  | cons tip tips ih =>
    simp only [modelStylusGo]
    obtain ⟨q, hq, hg⟩ := query_returns hT h tip (getStrokeNormal tip t)
    obtain ⟨r, hr, _⟩ := interpResult_returns hT (b := makeResultFromTipState tip q) hg hg c
    rw [hq, Outcome.ok_bind, hr, Outcome.ok_bind]
    obtain ⟨x, hx⟩ := ih (l.update r.velocity tip.time).1 (l.update r.velocity tip.time).2 tip.time
    rw [hx]
    exact ⟨_, rfl⟩

/-! ### the predictor -/

/-- The predictor has seen at most `k` inputs. -/
def PredictorReady (k : ℕ) (p : Option (Predictor F D)) : Prop :=
  ∀ q, p = some (.kalman q) → 0 ≤ q.xPredictor.iterNum ∧ q.xPredictor.iterNum ≤ k ∧
    0 ≤ q.yPredictor.iterNum ∧ q.yPredictor.iterNum ≤ k

omit [Arith F D] in
theorem kalman_update_returns {f : KalmanFilter D} {k : ℕ} (h : 0 ≤ f.iterNum ∧ f.iterNum ≤ k) (hk : (k : ℤ) < intMax) (x : D) :
    ∃ f', f.update x = .ok f' ∧ 0 ≤ f'.iterNum ∧ f'.iterNum ≤ (k + 1 : ℕ) := by
  unfold KalmanFilter.update
  rw [if_neg (by omega)]
  dsimp only
  split
  · exact ⟨_, rfl, by simp; omega, by simp; omega⟩
  · refine ⟨_, rfl, ?_⟩
    simp only [KalmanFilter.correct, KalmanFilter.predict]
    omega

theorem updatePredictor_returns {p : Option (Predictor F D)} {k : ℕ} (h : PredictorReady k p) (hk : (k : ℤ) < intMax)
    (x : Vec2 F) (t : D) : ∃ p', updatePredictor p x t = .ok p' ∧ PredictorReady (k + 1) p' := by
  unfold updatePredictor
  cases p with
  | none => exact ⟨none, rfl, by simp [PredictorReady]⟩
  | some q =>
    cases q with
    | strokeEnd q => exact ⟨_, rfl, by simp [PredictorReady]⟩
    | kalman q =>
      obtain ⟨h1, h2, h3, h4⟩ := h q rfl
      obtain ⟨x', hx, hx'⟩ := kalman_update_returns ⟨h1, h2⟩ hk (widen x.x)
      obtain ⟨y', hy, hy'⟩ := kalman_update_returns ⟨h3, h4⟩ hk (widen x.y)
      simp only [Predictor.update, KalmanPredictor.update, hx, hy, Outcome.ok_bind, Outcome.pure_eq, Outcome.map_ok]
      refine ⟨_, rfl, ?_⟩
      rintro _ ⟨⟩
      exact ⟨hx'.1, hx'.2, hy'.1, hy'.2⟩

omit [Arith F D] in
theorem predictorReady_mono {p : Option (Predictor F D)} {k l : ℕ} (hkl : k ≤ l) (h : PredictorReady k p) :
    PredictorReady l p := by
  intro q hq
  have := h q hq
  omega

/-! ### all calls -/

/-- A component must be ready if it is in use, or will be after a Restore. -/
structure Keeps (m : StrokeModeler F D) (flag : Bool) (live saved : Prop) : Prop where
  live : m.lastInput ≠ none ∨ (m.saveActive = true ∧ m.savedLastInput ≠ none ∧ flag = false) → live
  saved : m.saveActive = true ∧ m.savedLastInput ≠ none ∧ flag = true → saved

/-- The invariant: nothing can go wrong in the next call. `k` calls have been made so far. -/
structure Safe (Good : F → Prop) (k : ℕ) (m : StrokeModeler F D) : Prop where
  params : ∀ p, m.params = some p → validateStrokeModelParams p = .ok
  wobble : Keeps m m.wobble.saveActive (WobbleReady m.wobble) (WobbleReady m.wobble.restore)
  stylus : Keeps m m.stylus.saveActive (StylusReady Good m.stylus) (StylusReady Good m.stylus.restore)
  last : ∀ l, m.lastInput = some l → FiniteInput l.input
  savedLast : ∀ l, m.savedLastInput = some l → FiniteInput l.input
  predictor : PredictorReady k m.predictor
  savedPredictor : PredictorReady k m.savedPredictor

theorem safe_default : Safe (D := D) Good 0 StrokeModeler.default where
  params := by simp [StrokeModeler.default]
  wobble := ⟨by simp [StrokeModeler.default], by simp [StrokeModeler.default]⟩
  stylus := ⟨by simp [StrokeModeler.default], by simp [StrokeModeler.default]⟩
  last := by simp [StrokeModeler.default]
  savedLast := by simp [StrokeModeler.default]
  predictor := by simp [StrokeModeler.default, PredictorReady]
  savedPredictor := by simp [StrokeModeler.default, PredictorReady]

theorem Safe.mono {k l : ℕ} (hkl : k ≤ l) {m : StrokeModeler F D} (h : Safe Good k m) : Safe Good l m :=
  { h with predictor := predictorReady_mono hkl h.predictor, savedPredictor := predictorReady_mono hkl h.savedPredictor }

theorem makePredictor_ready (p : StrokeModelParams F D) : PredictorReady 0 (StrokeModeler.makePredictor p) := by
  unfold StrokeModeler.makePredictor
  split
  · rintro _ ⟨⟩
    simp [KalmanPredictor.make, makeKalmanFilter, KalmanFilter.mk']
  · simp [PredictorReady]
  · simp [PredictorReady]

omit [Arith F D] in
theorem predictor_reset_ready (p : Option (Predictor F D)) : PredictorReady 0 (p.map Predictor.reset) := by
  cases p with
  | none => simp [PredictorReady]
  | some q =>
    cases q with
    | strokeEnd q => simp [PredictorReady, Predictor.reset]
    | kalman q =>
      rintro _ ⟨⟩
      simp [KalmanPredictor.reset, KalmanFilter.reset]

theorem wobble_restore_of_update {w w' : WobbleSmoother F D} (h1 : w'.saveActive = w.saveActive)
    (h2 : w'.savedState = w.savedState) (h3 : w'.params = w.params) (hf : w.saveActive = true)
    (h : WobbleReady w.restore) : WobbleReady w'.restore := by
  unfold WobbleSmoother.restore at h ⊢
  rw [h1, hf]
  rw [hf] at h
  simp only [↓reduceIte] at h ⊢
  exact ⟨by rw [h3]; exact h.1, by rw [h2]; exact h.2⟩

theorem stylus_restore_of_update {s s' : StylusModeler F D} (h1 : s'.saveActive = s.saveActive)
    (h2 : s'.savedState = s.savedState) (h3 : s'.params = s.params) (hf : s.saveActive = true)
    (h : StylusReady Good s.restore) : StylusReady Good s'.restore := by
  unfold StylusModeler.restore at h ⊢
  rw [h1, hf]
  rw [hf] at h
  simp only [↓reduceIte] at h ⊢
  exact ⟨by rw [h3]; exact h.1, by rw [h2]; exact h.2⟩

/-- Update returns. -/
theorem update_returns (hT : Tame F D Good) {k : ℕ} {m : StrokeModeler F D} (h : Safe Good k m) (hk : (k : ℤ) < intMax)
    (i : Input F D) (hi : Good i.orientation) (v : List (Result F D)) :
    ∃ m' s v', m.update i v = .ok (m', s, v') ∧ Safe Good (k + 1) m' := by
  cases hr : refusal m.known i with
  | some c =>
    obtain ⟨msg, h'⟩ := update_refused m i v hr
    exact ⟨_, _, _, h', h.mono (by omega)⟩
  | none =>
    have hf := refusal_none_finite hr
    obtain ⟨p, hp, ⟨he, hl, hu⟩ | ⟨he, ⟨last, hl⟩, hu⟩ | ⟨he, ⟨last, hl⟩, hu⟩⟩ := update_not_refused m i hr
    · have hv := h.params p hp
      have hpv := validParts hv
      rw [hu]
      unfold StrokeModeler.processDown
      rw [hl]
      have hs0 : StylusReady Good (m.stylus.reset p.stylus) :=
        ⟨hpv.2.2.2.2.1, by simp [StylusModeler.reset, StylusModelerState.default]⟩
      obtain ⟨s', hs', hs1, hs2, hs3⟩ := stylus_returns hs0 i.position i.time (st := stylusStateOf i) hi
      obtain ⟨p', hp', hp1⟩ := updatePredictor_returns (predictorReady_mono (Nat.zero_le k) (predictor_reset_ready m.predictor)) hk
        i.position i.time
      simp only [hs', hp', Outcome.ok_bind, Outcome.pure_eq]
      refine ⟨_, _, _, rfl, ⟨h.params, ⟨fun _ => ⟨hpv.2.1, by simp [WobbleSmoother.reset]⟩, ?_⟩, ⟨fun _ => hs1, ?_⟩, ?_, h.savedLast,
        hp1, predictorReady_mono (by omega) h.savedPredictor⟩⟩
      · rintro ⟨_, _, hc⟩; simp [WobbleSmoother.reset] at hc
      · rintro ⟨_, _, hc⟩; rw [hs2] at hc; simp [StylusModeler.reset] at hc
      · rintro _ ⟨⟩; exact hf
    · have hv := h.params p hp
      have hfit : Fits last.input i := refusal_none_fits hr (by simp [StrokeModeler.known, hl])
      rw [hu]
      unfold StrokeModeler.processMove
      rw [hl]
      have hw := h.wobble.live (.inl (by simp [hl]))
      have hs := h.stylus.live (.inl (by simp [hl]))
      obtain ⟨w', c, hw', hw1, hw2, hw3⟩ := wobble_returns hT hw i.position hf.time
      have hw4 := wobble_update_params hw'
      obtain ⟨s', hs', hs1, hs2, hs3⟩ := stylus_returns hs c i.time (st := stylusStateOf i) hi
      have hs4 := stylus_update_params hs'
      obtain ⟨x, hx⟩ := hT.steps m.position.state hv (h.last _ hl) hfit
      simp only [hw', hs', Outcome.ok_bind, hx]
      have hws : m.saveActive = true ∧ m.savedLastInput ≠ none ∧ w'.saveActive = true → WobbleReady w'.restore := by
        intro hc
        rw [hw2] at hc
        exact wobble_restore_of_update hw2 hw3 hw4 hc.2.2 (h.wobble.saved hc)
      have hss : m.saveActive = true ∧ m.savedLastInput ≠ none ∧ s'.saveActive = true → StylusReady Good s'.restore := by
        intro hc
        rw [hs2] at hc
        exact stylus_restore_of_update hs2 hs3 hs4 hc.2.2 (h.stylus.saved hc)
      cases x with
      | error st =>
        refine ⟨_, _, _, rfl, ⟨h.params, ⟨fun _ => hw1, hws⟩, ⟨fun _ => hs1, hss⟩, ?_, h.savedLast,
          predictorReady_mono (by omega) h.predictor, predictorReady_mono (by omega) h.savedPredictor⟩⟩
        intro l hl'
        exact h.last l (by rw [hl]; exact hl')
      | ok n =>
        obtain ⟨p', hp', hp1⟩ := updatePredictor_returns h.predictor hk c i.time
        obtain ⟨y, hy⟩ := modelStylusGo_returns hT hs1 (m.moveTips last i c n).2 m.loop m.loop.getInterpolationValue i.time
        unfold StrokeModeler.moveTips at hy
        simp only [hp', Outcome.ok_bind, modelStylus, hy, Outcome.pure_eq]
        refine ⟨_, _, _, rfl, ⟨h.params, ⟨fun _ => hw1, hws⟩, ⟨fun _ => hs1, hss⟩, ?_, h.savedLast,
          hp1, predictorReady_mono (by omega) h.savedPredictor⟩⟩
        rintro _ ⟨⟩; exact hf
    · have hv := h.params p hp
      have hfit : Fits last.input i := refusal_none_fits hr (by simp [StrokeModeler.known, hl])
      rw [hu]
      unfold StrokeModeler.processUp
      rw [hl]
      have hw := h.wobble.live (.inl (by simp [hl]))
      have hs := h.stylus.live (.inl (by simp [hl]))
      obtain ⟨s', hs', hs1, hs2, hs3⟩ := stylus_returns hs i.position i.time (st := stylusStateOf i) hi
      have hs4 := stylus_update_params hs'
      obtain ⟨x, hx⟩ := hT.steps m.position.state hv (h.last _ hl) hfit
      simp only [hs', Outcome.ok_bind, hx]
      have hss : m.saveActive = true ∧ m.savedLastInput ≠ none ∧ s'.saveActive = true → StylusReady Good s'.restore := by
        intro hc
        rw [hs2] at hc
        exact stylus_restore_of_update hs2 hs3 hs4 hc.2.2 (h.stylus.saved hc)
      cases x with
      | error st => exact ⟨_, _, _, rfl, h.mono (by omega)⟩
      | ok n =>
        obtain ⟨y, hy⟩ := modelStylusGo_returns hT hs1 (m.upTips p last i n).2 m.loop m.loop.getInterpolationValue
          last.input.time
        unfold StrokeModeler.upTips at hy
        simp only [modelStylus]
        dsimp only at hy ⊢
        rw [hy]
        refine ⟨_, _, _, rfl, ⟨h.params, ⟨fun _ => hw, h.wobble.saved⟩, ⟨fun _ => hs1, hss⟩, by simp, h.savedLast,
          predictorReady_mono (by omega) h.predictor, predictorReady_mono (by omega) h.savedPredictor⟩⟩

/-- The call is one that is known to return. -/
def Op.Fine (Good : F → Prop) : Op F D → Prop
  | .update i _ => Good i.orientation
  | .predict _ => False
  | _ => True

/-- Every call except Predict returns. -/
theorem step_returns (hT : Tame F D Good) {k : ℕ} {m : StrokeModeler F D} (h : Safe Good k m) (hk : (k : ℤ) < intMax)
    (op : Op F D) (hop : op.Fine Good) : ∃ m' r, step m op = .ok (m', r) ∧ Safe Good (k + 1) m' := by
  cases op with
  | resetParams p =>
    rcases resetParams_cases m p with ⟨c, msg, _, hr⟩ | ⟨hv, hr⟩
    · exact ⟨m, ⟨.err c msg, []⟩, by simp only [step, hr], h.mono (by omega)⟩
    · refine ⟨(m.resetParams p).1, ⟨.ok, []⟩, by simp only [step, hr], ?_⟩
      rw [hr]
      refine ⟨?_, ⟨by simp, by simp⟩, ⟨by simp, by simp⟩, by simp, h.savedLast,
        predictorReady_mono (by omega) (makePredictor_ready p), predictorReady_mono (by omega) h.savedPredictor⟩
      rintro _ ⟨⟩; exact hv
  | reset =>
    rcases reset_cases m with ⟨_, msg, hr⟩ | ⟨_, hr⟩
    · exact ⟨m, ⟨.err .failedPrecondition msg, []⟩, by simp only [step, hr], h.mono (by omega)⟩
    · refine ⟨m.reset.1, ⟨.ok, []⟩, by simp only [step, hr], ?_⟩
      rw [hr]
      exact ⟨h.params, ⟨by simp, by simp⟩, ⟨by simp, by simp⟩, by simp, h.savedLast,
        predictorReady_mono (by omega) h.predictor, predictorReady_mono (by omega) h.savedPredictor⟩
  | update i v =>
    obtain ⟨m', s, v', hu, hs⟩ := update_returns hT h hk i hop v
    exact ⟨m', ⟨s, v'⟩, by simp [step, hu], hs⟩
  | predict v => exact hop.elim
  | save =>
    refine ⟨_, _, rfl, ⟨h.params, ⟨?_, ?_⟩, ⟨?_, ?_⟩, h.last, h.last, predictorReady_mono (by omega) h.predictor, ?_⟩⟩
    · rintro (hc | ⟨_, _, hc⟩)
      · exact h.wobble.live (.inl hc)
      · simp [StrokeModeler.save, WobbleSmoother.save] at hc
    · rintro ⟨_, hc, _⟩
      exact h.wobble.live (.inl hc)
    · rintro (hc | ⟨_, _, hc⟩)
      · exact h.stylus.live (.inl hc)
      · simp [StrokeModeler.save, StylusModeler.save] at hc
    · rintro ⟨_, hc, _⟩
      exact h.stylus.live (.inl hc)
    · simp only [StrokeModeler.save]
      split
      · rename_i q hq
        rw [← hq]; exact predictorReady_mono (by omega) h.predictor
      · exact predictorReady_mono (by omega) h.savedPredictor
  | restore =>
    cases hsa : m.saveActive with
    | false => exact ⟨m, _, by simp only [step, StrokeModeler.restore, hsa]; rfl, h.mono (by omega)⟩
    | true =>
      refine ⟨m.restore, ⟨.ok, []⟩, rfl, ?_⟩
      rw [StrokeModeler.restore, hsa, Bool.not_true, if_neg Bool.false_ne_true]
      refine ⟨h.params, ⟨?_, ?_⟩, ⟨?_, ?_⟩, h.savedLast,
        h.savedLast, ?_, predictorReady_mono (by omega) h.savedPredictor⟩
      · intro hc
        have hne : m.savedLastInput ≠ none := hc.elim id (fun hc => hc.2.1)
        cases hfl : m.wobble.saveActive with
        | false =>
          have := h.wobble.live (.inr ⟨hsa, hne, hfl⟩)
          simpa [WobbleSmoother.restore, hfl] using this
        | true => exact h.wobble.saved ⟨hsa, hne, hfl⟩
      · rintro ⟨_, hne, hfl⟩
        have hfl : m.wobble.saveActive = true := by
          change m.wobble.restore.saveActive = true at hfl
          unfold WobbleSmoother.restore at hfl; split at hfl <;> exact hfl
        have := h.wobble.saved ⟨hsa, hne, hfl⟩
        simpa [WobbleSmoother.restore, hfl] using this
      · intro hc
        have hne : m.savedLastInput ≠ none := hc.elim id (fun hc => hc.2.1)
        cases hfl : m.stylus.saveActive with
        | false =>
          have := h.stylus.live (.inr ⟨hsa, hne, hfl⟩)
          simpa [StylusModeler.restore, hfl] using this
        | true => exact h.stylus.saved ⟨hsa, hne, hfl⟩
      · rintro ⟨_, hne, hfl⟩
        have hfl : m.stylus.saveActive = true := by
          change m.stylus.restore.saveActive = true at hfl
          unfold StylusModeler.restore at hfl; split at hfl <;> exact hfl
        have := h.stylus.saved ⟨hsa, hne, hfl⟩
        simpa [StylusModeler.restore, hfl] using this
      · simp only
        split
        · rename_i q hq
          rw [← hq]; exact predictorReady_mono (by omega) h.savedPredictor
        · exact predictorReady_mono (by omega) h.predictor

/-- Predict returns if the prediction can be constructed. -/
theorem predict_returns (hT : Tame F D Good) {k : ℕ} {m : StrokeModeler F D} (h : Safe Good k m) (v : List (Result F D))
    (hp : ∀ pr, m.predictor = some pr → ∃ tips, pr.constructPrediction m.position.state = .ok tips) :
    ∃ m' s v', m.predict v = .ok (m', s, v') ∧ Safe Good k m' := by
  unfold StrokeModeler.predict
  split
  · exact ⟨_, _, _, rfl, h⟩
  · split
    · exact ⟨_, _, _, rfl, h⟩
    · rename_i pr hpr
      split
      · exact ⟨_, _, _, rfl, h⟩
      · rename_i last hl
        obtain ⟨tips, ht⟩ := hp pr hpr
        obtain ⟨y, hy⟩ := modelStylusGo_returns hT (h.stylus.live (.inl (by simp [hl]))) tips m.loop
          m.loop.getInterpolationValue last.input.time
        simp only [ht, Outcome.ok_bind, modelStylus, hy, Outcome.pure_eq]
        exact ⟨_, _, _, rfl, ⟨h.params, ⟨h.wobble.live, h.wobble.saved⟩, ⟨h.stylus.live, h.stylus.saved⟩, h.last, h.savedLast,
          h.predictor, h.savedPredictor⟩⟩

theorem predict_safe {k : ℕ} {m m' : StrokeModeler F D} (h : Safe Good k m) {v v' : List (Result F D)} {s : Status}
    (hp : m.predict v = .ok (m', s, v')) : Safe Good k m' := by
  rcases predict_ok hp with ⟨_, _, rfl, _⟩ | ⟨_, _, _, _, _, _, _, _, _, _, _, _, rfl, _⟩
  · exact h
  · exact ⟨h.params, ⟨h.wobble.live, h.wobble.saved⟩, ⟨h.stylus.live, h.stylus.saved⟩, h.last, h.savedLast,
      h.predictor, h.savedPredictor⟩

/-- The calls give good orientations. -/
def Op.Mild (Good : F → Prop) : Op F D → Prop
  | .update i _ => Good i.orientation
  | _ => True

theorem step_safe (hT : Tame F D Good) {k : ℕ} {m m' : StrokeModeler F D} (h : Safe Good k m) (hk : (k : ℤ) < intMax)
    {op : Op F D} (hop : op.Mild Good) {r : Response F D} (hs : step m op = .ok (m', r)) : Safe Good (k + 1) m' := by
  have hfine : (∃ v, op = .predict v) ∨ op.Fine Good := by
    cases op <;> simp [Op.Fine]
    exact hop
  rcases hfine with ⟨v, rfl⟩ | hfine
  · simp only [step] at hs
    obtain ⟨⟨m₁, s, v'⟩, hu, hs⟩ := Outcome.bind_eq_ok.1 hs
    simp only [Outcome.pure_eq, Outcome.ok.injEq, Prod.mk.injEq] at hs
    obtain ⟨rfl, rfl⟩ := hs
    exact (predict_safe h hu).mono (by omega)
  · obtain ⟨m₁, r₁, h₁, h₂⟩ := step_returns hT h hk op hfine
    rw [hs] at h₁
    cases h₁
    exact h₂

/-- The predictors kept are not Kalman predictors. -/
def NoKalman (m : StrokeModeler F D) : Prop :=
  (∀ q, m.predictor ≠ some (.kalman q)) ∧ ∀ q, m.savedPredictor ≠ some (.kalman q)

omit [Arith F D] in
theorem Predictor.reset_kalman {p : Predictor F D} : (∃ q, p.reset = .kalman q) ↔ ∃ q, p = .kalman q := by
  cases p <;> simp [Predictor.reset]

theorem NoKalman.step {m m' : StrokeModeler F D} (h : NoKalman m) {op : Op F D}
    (hop : ∀ p, op = .resetParams p → ∀ k, p.prediction ≠ .kalman k) {r : Response F D} (hs : step m op = .ok (m', r)) :
    NoKalman m' := by
  rcases step_pred hs with ⟨p, rfl, hv, _, hp, hpr, hs, hsp⟩ | ⟨rfl, rfl⟩ | ⟨rfl, rfl⟩ | ⟨hp, hpr, hs, hsp⟩
  · refine ⟨fun q hq => ?_, fun q hq => h.2 q (hsp ▸ hq)⟩
    rw [hpr] at hq
    unfold StrokeModeler.makePredictor at hq
    split at hq
    · rename_i k hk; exact hop p rfl k hk
    · cases hq
    · cases hq
  · refine ⟨h.1, fun q hq => ?_⟩
    simp only [StrokeModeler.save] at hq
    split at hq
    · rename_i q' hq'
      exact h.1 q (hq'.trans hq)
    · exact h.2 q hq
  · unfold StrokeModeler.restore
    split
    · exact h
    · refine ⟨fun q hq => ?_, h.2⟩
      simp only at hq
      split at hq
      · rename_i q' hq'
        exact h.2 q (hq'.trans hq)
      · exact h.1 q hq
  · refine ⟨fun q hq => ?_, fun q hq => h.2 q (hsp ▸ hq)⟩
    rw [hq, Option.map_some] at hpr
    cases hm : m.predictor with
    | none => rw [hm] at hpr; simp at hpr
    | some q' =>
      rw [hm, Option.map_some, Option.some.injEq] at hpr
      obtain ⟨q₁, rfl⟩ := Predictor.reset_kalman.1 ⟨_, (by rw [← hpr]; rfl : q'.reset = _)⟩
      exact h.1 q₁ hm

theorem Safe.of_noKalman {k : ℕ} {m : StrokeModeler F D} (h : Safe Good k m) (hn : NoKalman m) : Safe Good 0 m :=
  { h with
    predictor := fun q hq => absurd hq (hn.1 q)
    savedPredictor := fun q hq => absurd hq (hn.2 q) }

/-- Fewer than INT_MAX calls, or no Kalman predictor was ever asked for. -/
def Countable (ops : List (Op F D)) : Prop :=
  (ops.length : ℤ) < intMax ∨ ∀ p, Op.resetParams p ∈ ops → ∀ k, p.prediction ≠ .kalman k

theorem run_safe (hT : Tame F D Good) {ops : List (Op F D)} {rs : List (Response F D)} {m m' : StrokeModeler F D} {k : ℕ}
    (h : Safe Good k m) (hr : run m ops = .ok (m', rs)) (hg : ∀ op ∈ ops, op.Mild Good) (hk : (k + ops.length : ℤ) ≤ intMax) :
    Safe Good (k + ops.length) m' := by
  induction ops generalizing m rs k with
  | nil =>
    simp only [run, Outcome.ok.injEq, Prod.mk.injEq] at hr
    simpa [← hr.1] using h
  | cons op ops ih =>
    obtain ⟨m₁, r, rs', h₁, h₂, _⟩ := run_cons_ok hr
    simp only [List.length_cons, Nat.cast_add, Nat.cast_one] at hk
    have := ih (step_safe hT h (by omega) (hg op (by simp)) h₁) h₂ (fun o ho => hg o (by simp [ho])) (by push_cast; omega)
    simpa [Nat.add_assoc, Nat.add_comm 1] using this

theorem run_safe_noKalman (hT : Tame F D Good) {ops : List (Op F D)} {rs : List (Response F D)} {m m' : StrokeModeler F D}
    (h : Safe Good 0 m) (hn : NoKalman m) (hr : run m ops = .ok (m', rs)) (hg : ∀ op ∈ ops, op.Mild Good)
    (hk : ∀ p, Op.resetParams p ∈ ops → ∀ k, p.prediction ≠ .kalman k) : Safe Good 0 m' ∧ NoKalman m' := by
  induction ops generalizing m rs with
  | nil =>
    simp only [run, Outcome.ok.injEq, Prod.mk.injEq] at hr
    simpa [← hr.1] using ⟨h, hn⟩
  | cons op ops ih =>
    obtain ⟨m₁, r, rs', h₁, h₂, _⟩ := run_cons_ok hr
    have hn₁ := hn.step (fun p hp => hk p (by simp [hp])) h₁
    have hs := step_safe hT h (by decide) (hg op (by simp)) h₁
    exact ih (hs.of_noKalman hn₁) hn₁ h₂ (fun o ho => hg o (by simp [ho])) (fun p hp => hk p (by simp [hp]))

/-- After any session with good orientations the modeler is safe. -/
theorem Session.safe (hT : Tame F D Good) {ops : List (Op F D)} {rs : List (Response F D)} {m : StrokeModeler F D}
    (h : Session ops rs m) (hg : ∀ op ∈ ops, op.Mild Good) (hk : Countable ops) :
    ∃ k : ℕ, (k : ℤ) < intMax ∧ Safe Good k m := by
  rcases hk with hk | hk
  · exact ⟨0 + ops.length, by simpa using hk, run_safe hT safe_default h hg (by simpa using hk.le)⟩
  · refine ⟨0, by decide, (run_safe_noKalman hT safe_default ?_ h hg hk).1⟩
    simp [NoKalman, StrokeModeler.default]

end Ink
