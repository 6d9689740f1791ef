import Verif.Lemmas.Window
/-!
# What the predictor is given

The predictor sees the Down and the accepted Moves of a stroke, with the positions after wobble smoothing.
-/
namespace Ink
open Scalar Arith

set_option linter.unusedSectionVars false

variable {F D : Type} [Scalar F] [Scalar D] [Arith F D]

/-- The inputs that the predictor is given: the accepted ones other than the Up. -/
def fedInputs (es : List (Event F D)) : List (Input F D) := (acceptedOf es).filter fun i => decide (i.eventType ≠ .up)

/-- The predictor after the given positions and times. -/
def feed (pr : Option (Predictor F D)) (cs : List (Vec2 F × D)) : Outcome (Option (Predictor F D)) :=
  cs.foldlM (fun pr c => updatePredictor pr c.1 c.2) pr

theorem feed_snoc {pr pr' pr'' : Option (Predictor F D)} {cs : List (Vec2 F × D)} {c : Vec2 F × D} (h : feed pr cs = .ok pr')
    (hu : updatePredictor pr' c.1 c.2 = .ok pr'') : feed pr (cs ++ [c]) = .ok pr'' := by
  simp only [feed, List.foldlM_append, List.foldlM_cons, List.foldlM_nil] at h ⊢
  rw [h, Outcome.ok_bind, hu]
  rfl

theorem fedInputs_snoc (es : List (Event F D)) (f : Event F D) :
    fedInputs (es ++ [f]) = fedInputs es ++ if f.results.isSome ∧ f.input.eventType ≠ .up then [f.input] else [] := by
  unfold fedInputs acceptedOf
  rw [List.filter_append, List.map_append, List.filter_append]
  congr 1
  by_cases h1 : f.results.isSome = true <;> by_cases h2 : f.input.eventType = .up <;> simp [h1, h2]

theorem wobble_update_off {w w' : WobbleSmoother F D} {x c : Vec2 F} {t : D} (hp : w.params.isEnabled = false)
    (h : w.update x t = .ok (w', c)) : c = x := by
  simp only [WobbleSmoother.update, hp, Bool.not_false, ↓reduceIte, Outcome.ok.injEq, Prod.mk.injEq] at h
  exact h.2.symm

/-- The predictor of a stroke has been given the accepted inputs other than the Up. -/
theorem Course.fed {p : StrokeModelParams F D} {es : List (Event F D)} {m : StrokeModeler F D} (h : Course p es m) :
    ∃ cs, feed (StrokeModeler.makePredictor p) cs = .ok m.predictor ∧ cs.map (·.2) = (fedInputs es).map (·.time) ∧
      (p.wobble.isEnabled = false → cs.map (·.1) = (fedInputs es).map (·.position)) ∧
      ∀ last, m.lastInput = some last → cs.getLast? = some (last.correctedPosition, last.input.time) := by
  induction h with
  | @down i stylus predictor _ he hf hs hp =>
    refine ⟨[(i.position, i.time)], ?_, by simp [fedInputs, acceptedOf, he], by simp [fedInputs, acceptedOf, he], by simp⟩
    simp only [feed, List.foldlM_cons, List.foldlM_nil, hp, Outcome.ok_bind]
    rfl
  | @move es m last i wobble corrected stylus n predictor loop out hm hl he hf hw hs hn hp hq ih =>
    obtain ⟨cs, h1, h2, h3, h4⟩ := ih
    have hc : i.eventType ≠ .up := by simp [he]
    refine ⟨cs ++ [(corrected, i.time)], feed_snoc h1 hp, ?_, fun ho => ?_, ?_⟩
    · rw [fedInputs_snoc, if_pos ⟨rfl, hc⟩]; simp [h2]
    · rw [fedInputs_snoc, if_pos ⟨rfl, hc⟩, List.map_append, h3 ho,
        wobble_update_off (by rw [hm.paramsOf.wobble]; exact ho) hw]
      simp
    · rintro last' ⟨rfl⟩
      simp
  | @late es m last i wobble corrected stylus st' hm hl he hf hw hs hn ih =>
    obtain ⟨cs, h1, h2, h3, h4⟩ := ih
    refine ⟨cs, h1, ?_, fun ho => ?_, h4⟩
    · rw [fedInputs_snoc, if_neg (by simp)]; simpa using h2
    · rw [fedInputs_snoc, if_neg (by simp)]; simpa using h3 ho
  | @up es m last i stylus n loop out hm hl he hf hs hn hq ih =>
    obtain ⟨cs, h1, h2, h3, h4⟩ := ih
    refine ⟨cs, h1, ?_, fun ho => ?_, by simp⟩
    · rw [fedInputs_snoc, if_neg (by simp [he])]; simpa using h2
    · rw [fedInputs_snoc, if_neg (by simp [he])]; simpa using h3 ho

/-- A filter after the given observations. -/
def measure (f : KalmanFilter D) (zs : List D) : Outcome (KalmanFilter D) := zs.foldlM KalmanFilter.update f

omit [Arith F D] [Scalar F] in
theorem measure_snoc {f f' f'' : KalmanFilter D} {zs : List D} {z : D} (h : measure f zs = .ok f')
    (hu : f'.update z = .ok f'') : measure f (zs ++ [z]) = .ok f'' := by
  simp only [measure, List.foldlM_append, List.foldlM_cons, List.foldlM_nil] at h ⊢
  rw [h, Outcome.ok_bind, hu]
  rfl

/-- The filter of one axis. -/
def axisFilter (k : KalmanParams F D) : KalmanFilter D := makeKalmanFilter k.processNoise k.measurementNoise k.minStableIteration

omit [Arith F D] [Scalar F] in
theorem filter_update {f f' : KalmanFilter D} {z : D} (h : f.update z = .ok f') :
    f'.iterNum = f.iterNum + 1 ∧ f'.minStableIteration = f.minStableIteration := by
  unfold KalmanFilter.update at h
  split at h
  · simp at h
  · dsimp only at h
    split at h
    all_goals
      simp only [Outcome.ok.injEq] at h
      rw [← h]
      exact ⟨rfl, rfl⟩

/-- What a Kalman predictor holds after it has been given positions and times. -/
structure KalmanOf (k : KalmanParams F D) (s : SamplingParams F D) (cs : List (Vec2 F × D)) (q : KalmanPredictor F D) : Prop where
  params : q.params = k
  sampling : q.sampling = s
  last : q.lastPositionReceived = cs.getLast?.map (·.1)
  times : q.sampleTimes = lastN k.maxTimeSamples.toNat (cs.map (·.2))
  x : measure (axisFilter k) (cs.map fun c => widen c.1.x) = .ok q.xPredictor
  y : measure (axisFilter k) (cs.map fun c => widen c.1.y) = .ok q.yPredictor
  iterX : q.xPredictor.iterNum = cs.length
  iterY : q.yPredictor.iterNum = cs.length
  stableX : q.xPredictor.minStableIteration = k.minStableIteration
  stableY : q.yPredictor.minStableIteration = k.minStableIteration

theorem lastN_snoc {α : Type} {n : ℕ} (hn : 0 < n) (l : List α) (a : α) :
    (if n < (lastN n l ++ [a]).length then (lastN n l ++ [a]).tail else lastN n l ++ [a]) = lastN n (l ++ [a]) := by
  unfold lastN
  have hlen : (l.drop (l.length - n) ++ [a]).length = min l.length n + 1 := by
    rw [List.length_append, List.length_drop, List.length_singleton]; omega
  rw [hlen, List.length_append, List.length_singleton]
  split
  · have h1 : l.length + 1 - n = (l.length - n) + 1 := by omega
    rw [h1, ← List.drop_drop, List.drop_append_of_le_length (by omega), ← List.drop_one]
  · have h1 : l.length + 1 - n = 0 := by omega
    have h2 : l.length - n = 0 := by omega
    rw [h1, h2, List.drop_zero, List.drop_zero]

theorem feed_kalman {k : KalmanParams F D} {s : SamplingParams F D} (hk : 0 < k.maxTimeSamples) {cs : List (Vec2 F × D)}
    {pr : Option (Predictor F D)} (h : feed (some (.kalman (KalmanPredictor.make k s))) cs = .ok pr) :
    ∃ q, pr = some (.kalman q) ∧ KalmanOf k s cs q := by
  induction cs using List.reverseRecOn generalizing pr with
  | nil =>
    simp only [feed, List.foldlM_nil] at h
    refine ⟨_, (Outcome.ok.inj h).symm, rfl, rfl, rfl, by simp [KalmanPredictor.make, lastN], rfl, rfl, rfl, rfl, rfl, rfl⟩
  | append_singleton cs c ih =>
    simp only [feed, List.foldlM_append, List.foldlM_cons, List.foldlM_nil] at h
    obtain ⟨pr₁, h1, h⟩ := Outcome.bind_eq_ok.1 h
    obtain ⟨q, rfl, hq⟩ := ih h1
    obtain ⟨pr₂, h2, h⟩ := Outcome.bind_eq_ok.1 h
    simp only [Outcome.pure_eq, Outcome.ok.injEq] at h
    subst h
    obtain ⟨q', h3, rfl⟩ : ∃ q', q.update c.1 c.2 = .ok q' ∧ pr₂ = some (.kalman q') := by
      simp only [updatePredictor, Predictor.update] at h2
      cases hk : q.update c.1 c.2 <;> simp [hk] at h2
      exact ⟨_, rfl, h2.symm⟩
    refine ⟨q', rfl, ?_⟩
    unfold KalmanPredictor.update at h3
    obtain ⟨x, hx, h3⟩ := Outcome.bind_eq_ok.1 h3
    obtain ⟨y, hy, h3⟩ := Outcome.bind_eq_ok.1 h3
    simp only [Outcome.pure_eq, Outcome.ok.injEq] at h3
    obtain ⟨x1, x2⟩ := filter_update hx
    obtain ⟨y1, y2⟩ := filter_update hy
    subst h3
    refine ⟨hq.params, hq.sampling, by simp, ?_, ?_, ?_, ?_, ?_, ?_, ?_⟩
    · have hn : 0 < k.maxTimeSamples.toNat := by omega
      simp only [hq.params, hq.times]
      rw [List.map_append, List.map_singleton, ← lastN_snoc hn]
      refine if_congr ?_ rfl rfl
      omega
    · rw [List.map_append]; exact measure_snoc hq.x hx
    · rw [List.map_append]; exact measure_snoc hq.y hy
    · show x.iterNum = _
      rw [x1, hq.iterX]; simp
    · show y.iterNum = _
      rw [y1, hq.iterY]; simp
    · exact x2.trans hq.stableX
    · exact y2.trans hq.stableY

/-- The Kalman predictor of a stroke. -/
theorem Course.kalman {p : StrokeModelParams F D} {es : List (Event F D)} {m : StrokeModeler F D} (h : Course p es m)
    {k : KalmanParams F D} (hk : p.prediction = .kalman k) :
    ∃ cs q, m.predictor = some (.kalman q) ∧ KalmanOf k p.sampling cs q ∧ cs.map (·.2) = (fedInputs es).map (·.time) ∧
      (p.wobble.isEnabled = false → cs.map (·.1) = (fedInputs es).map (·.position)) ∧
      ∀ last, m.lastInput = some last → cs.getLast? = some (last.correctedPosition, last.input.time) := by
  obtain ⟨cs, h1, h2, h3, h4⟩ := h.fed
  have hm : 0 < k.maxTimeSamples := by
    have := (validParts h.valid).2.2.2.2.2
    rw [hk] at this
    unfold validatePredictionParams validateKalmanParams at this
    exact validateGreaterThanZeroInt_ok (andThen_ok (andThen_ok (andThen_ok (andThen_ok this).2).2).2).1
  simp only [StrokeModeler.makePredictor, hk] at h1
  obtain ⟨q, hq, hq'⟩ := feed_kalman hm h1
  exact ⟨cs, q, hq, hq', h2, h3, h4⟩

end Ink
