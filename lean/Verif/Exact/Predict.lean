import Verif.Exact.Forecast
import Verif.Exact.Told
import Verif.Lemmas.Forecast
import Verif.Lemmas.Handlers
/-!
# Kalman predictions during a stroke on exact numbers
-/
namespace Ink
open Scalar Arith XR
noncomputable section
open Classical

namespace XR
variable {p : StrokeModelParams XR XR} {P : Ref.Params}

/-- What the predictor is given of a stroke. -/
def news (P : Ref.Params) (e : Event XR XR) (rest : List (Event XR XR)) : List (ℂ × ℝ) :=
  Ref.known P (toPoint e.input.position) (toReal e.input.time) (rest.map fun f => touch f.input)

theorem news_append (P : Ref.Params) (e : Event XR XR) (rest : List (Event XR XR)) (f : Event XR XR) :
    news P e (rest ++ [f]) = news P e rest ++ Ref.hears P (state P e rest) (touch f.input) := by
  simp only [news, Ref.known, List.map_append, List.map_singleton, Ref.heard_append, List.cons_append]
  rfl

theorem touch_move {i : Input XR XR} (h : i.eventType = .move) : touch i = .move (toPoint i.position) (toReal i.time) := by
  simp [touch, h]

theorem touch_up {i : Input XR XR} (h : i.eventType = .up) : touch i = .up (toPoint i.position) (toReal i.time) := by
  simp [touch, h]

/-- The predictor has been given the Down and the accepted Moves, smoothed. -/
theorem course_fed (hr : Realizes p P) (hv : P.Valid) {es : List (Event XR XR)} {m : StrokeModeler XR XR} (h : Course p es m) :
    ∃ e rest, es = e :: rest ∧ feed (StrokeModeler.makePredictor p) (given (news P e rest)) = .ok m.predictor ∧
      ((news P e rest).map fun i => fin i.2) = (fedInputs es).map (·.time) ∧
      (p.wobble.isEnabled = false → ((news P e rest).map fun i => V i.1) = (fedInputs es).map (·.position)) := by
  induction h with
  | @down i stylus predictor hval he hf hs hp =>
    obtain ⟨h1, h2⟩ := finiteInput_eq hf
    refine ⟨_, [], rfl, ?_, by simp [news, Ref.known, Ref.heard, fedInputs, acceptedOf, he, ← h2],
      by simp [news, Ref.known, Ref.heard, fedInputs, acceptedOf, he, ← h1]⟩
    simp only [news, Ref.known, given, List.map_nil, Ref.heard, List.map_cons, feed, List.foldlM_cons, List.foldlM_nil, ← h1, ← h2, hp,
      Outcome.ok_bind]
    rfl
  | @move es m last i wobble corrected stylus n predictor loop out hm hl he hf hw hs hn hp hq ih =>
    obtain ⟨e, rest, rfl, ih, ih2, ih3⟩ := ih
    refine ⟨e, rest ++ [_], List.cons_append, ?_⟩
    obtain ⟨e', rest', he', ht⟩ := course_tale hr hv (Course.move hm hl he hf hw hs hn hp hq)
    rw [List.cons_append, List.cons.injEq] at he'
    obtain ⟨rfl, rfl⟩ := he'
    have h1 := (ht.refines (by simp)).anchor _ rfl
    have h2 := ht.answer _ _ rfl
    dsimp only at h2
    obtain ⟨tips, h2, -⟩ := h2
    rw [news_append, given, List.map_append]
    have hh : Ref.hears P (state P e rest) (touch i) = [(state P e (rest ++ [⟨i, some out⟩])).anchor] := by
      rw [state_append]
      rw [touch_move he] at h2 ⊢
      simp only [Ref.hears, h2]
    simp only [hh, List.map_cons, List.map_nil]
    dsimp only at h1 ⊢
    have hc : i.eventType ≠ .up := by simp [he]
    rw [fedInputs_snoc, if_pos ⟨rfl, hc⟩]
    simp only [List.map_append, List.map_singleton, ih2, ← h1.1, ← h1.2]
    refine ⟨feed_snoc ih hp, trivial, fun ho => ?_⟩
    rw [ih3 ho, wobble_update_off (by rw [hm.paramsOf.wobble]; exact ho) hw]
  | @late es m last i wobble corrected stylus st' hm hl he hf hw hs hn ih =>
    obtain ⟨e, rest, rfl, ih, ih2, ih3⟩ := ih
    refine ⟨e, rest ++ [_], List.cons_append, ?_⟩
    obtain ⟨e', rest', he', ht⟩ := course_tale hr hv (Course.late hm hl he hf hw hs hn)
    rw [List.cons_append, List.cons.injEq] at he'
    obtain ⟨rfl, rfl⟩ := he'
    have h2 := ht.answer _ _ rfl
    dsimp only at h2
    rw [news_append]
    have hh : Ref.hears P (state P e rest) (touch i) = [] := by
      rw [touch_move he] at h2 ⊢
      simp only [Ref.hears, h2]
    simp only [hh, List.append_nil]
    rw [fedInputs_snoc, if_neg (by simp), List.append_nil]
    exact ⟨ih, ih2, ih3⟩
  | @up es m last i stylus n loop out hm hl he hf hs hn hq ih =>
    obtain ⟨e, rest, rfl, ih, ih2, ih3⟩ := ih
    refine ⟨e, rest ++ [_], List.cons_append, ?_⟩
    rw [news_append]
    simp only [touch_up he, Ref.hears, List.append_nil]
    rw [fedInputs_snoc, if_neg (by simp [he]), List.append_nil]
    exact ⟨ih, ih2, ih3⟩

/-- The Kalman predictor of a stroke. -/
theorem course_kalman (hr : Realizes p P) (hv : P.Valid) {e : Event XR XR} {rest : List (Event XR XR)} {m : StrokeModeler XR XR}
    (h : Course p (e :: rest) m) {k : KalmanParams XR XR} (hk : p.prediction = .kalman k) :
    (∃ q, m.predictor = some (.kalman q) ∧ KalmanOf k p.sampling (given (news P e rest)) q) ∧
    ((news P e rest).map fun i => fin i.2) = (fedInputs (e :: rest)).map (·.time) ∧
    (p.wobble.isEnabled = false → ((news P e rest).map fun i => V i.1) = (fedInputs (e :: rest)).map (·.position)) := by
  obtain ⟨e', rest', he, hf, h2⟩ := course_fed hr hv h
  rw [List.cons.injEq] at he
  obtain ⟨rfl, rfl⟩ := he
  have hm : 0 < k.maxTimeSamples := by
    have := (validParts h.valid).2.2.2.2.2
    rw [hk] at this
    unfold validatePredictionParams validateKalmanParams at this
    exact validateGreaterThanZeroInt_ok (andThen_ok (andThen_ok (andThen_ok (andThen_ok this).2).2).2).1
  simp only [StrokeModeler.makePredictor, hk] at hf
  exact ⟨feed_kalman hm hf, h2⟩

/-- The results of `Predict` are made from the tip states of the predictor in the same way as the results of a stroke. -/
theorem course_predict (hr : Realizes p P) (hv : P.Valid) {e : Event XR XR} {rest : List (Event XR XR)} {m m' : StrokeModeler XR XR}
    (h : Course p (e :: rest) m) {pr : Predictor XR XR} (hp : m.predictor = some pr) (hmp : m.params ≠ none) (hl : m.lastInput ≠ none)
    {v v' : List (Result XR XR)} {st : Status} (hu : m.predict v = .ok (m', st, v')) :
    st = .ok ∧ ∃ tips, pr.constructPrediction (tip (state P e rest).tip) = .ok tips ∧
      ∀ ts : List Ref.Tip, tips = ts.map tip →
        (LoopOk p.position.loop → Modeled m.stylus p.position.loop (resultsOf rest) (state P e rest).anchor.2 ts v' ∧
          v'.map (·.time) = ts.map fun q => fin q.time) ∧
        (p.position.loop.isEnabled = false → v'.map Result.kin = ts.map tip) := by
  obtain ⟨e', rest', he, ht⟩ := course_tale hr hv h
  rw [List.cons.injEq] at he
  obtain ⟨rfl, rfl⟩ := he
  have hpar := h.paramsOf
  have href := ht.refines hl
  rcases predict_ok hu with ⟨_, _, _, _, hc⟩ | ⟨_, pr', last, tips, _, out, _, hpr, hla, hcp, hms, rfl, _, rfl⟩
  · simp [hmp, hp, hl] at hc
  · rw [hp, Option.some.injEq] at hpr
    subst hpr
    refine ⟨rfl, tips, by rw [← href.tip]; exact hcp, ?_⟩
    rintro ts rfl
    rw [(href.anchor last hla).2] at hms
    have hmod : LoopOk p.position.loop → Modeled m.stylus p.position.loop (resultsOf rest) (state P e rest).anchor.2 ts v' := by
      intro hlo
      have := modelStylus_modeled ht.finIn (ht.loop hlo).1
        (fun hon => ht.inputs_ne h.valid ((validParts h.valid).1 (by rw [← hpar.loop]; exact hon))) (ht.loop hlo).2 hms
      rw [hpar.loop] at this
      exact this.1
    exact ⟨fun hlo => ⟨hmod hlo, (hmod hlo).times ht.finIn (fun hon => ht.inputs_ne h.valid ((validParts h.valid).1 hon))⟩,
      fun hoff => (hmod (by simp [LoopOk, hoff])).kin ht.finIn hoff⟩

/-- A stroke that is being drawn with the Kalman predictor: its parameters and inputs on real numbers, and what the predictor holds. -/
structure Watched (ops : List (Op XR XR)) (rs : List (Response XR XR)) (m : StrokeModeler XR XR) (p : StrokeModelParams XR XR)
    (k : KalmanParams XR XR) (P : Ref.Params) (K : Ref.Foresight) (e : Event XR XR) (rest : List (Event XR XR)) : Prop where
  realizes : Realizes p P
  valid : P.Valid
  foresees : Foresees k K
  validK : K.Valid
  stroke : strokeOf ops rs = e :: rest
  kalman : ∃ q, m.predictor = some (.kalman q) ∧ KalmanOf k p.sampling (given (news P e rest)) q
  tip : m.position.state = XR.tip (state P e rest).tip
  lastTime : LoopOk p.position.loop →
    (resultsOf (strokeOf ops rs)).getLast?.map (·.time) = some (fin (state P e rest).tip.time)
  lastKin : p.position.loop.isEnabled = false →
    (resultsOf (strokeOf ops rs)).getLast?.map Result.kin = some (XR.tip (state P e rest).tip)
  times : ((news P e rest).map fun i => fin i.2) = (acceptedOf (strokeOf ops rs)).map (·.time)
  positions : p.wobble.isEnabled = false → ((news P e rest).map fun i => V i.1) = (acceptedOf (strokeOf ops rs)).map (·.position)
  foretold : ((news P e rest).length < K.stable ∨ Ref.pace (Ref.latest K (news P e rest)) ≠ 0) →
    ∀ v m' r, step m (.predict v) = .ok (m', r) → r.status = .ok ∧
      (LoopOk p.position.loop → r.results.map (·.time) =
        (Ref.forecast K P.rate (state P e rest).tip (news P e rest)).map fun q => fin q.time) ∧
      (p.position.loop.isEnabled = false → r.results.map Result.kin =
        (Ref.forecast K P.rate (state P e rest).tip (news P e rest)).map XR.tip)

theorem _root_.Ink.Session.watched {ops : List (Op XR XR)} {rs : List (Response XR XR)} {m : StrokeModeler XR XR}
    (h : Session ops rs m) (hr : Regular ops rs) (hp : (Ink.known ops rs).params = some p) {k : KalmanParams XR XR}
    (hk : p.prediction = .kalman k) (hi : (Ink.known ops rs).prev ≠ none) : ∃ P K e rest, Watched ops rs m p k P K e rest := by
  have hl : m.lastInput ≠ none := by
    intro hc
    rw [← h.known] at hi
    simp [StrokeModeler.known, hc] at hi
  obtain ⟨e, rest, hs⟩ := List.exists_cons_of_ne_nil (h.in_progress hr hl)
  obtain ⟨P, m₀, hreal, hv, hc, hsame⟩ := h.stroke hr hp hs
  have hl₀ : m₀.lastInput ≠ none := by rw [← hsame.last]; exact hl
  have hmp : m₀.params ≠ none := by
    rw [← hsame.params]
    rw [← h.known] at hp
    have : m.params = some p := hp
    simp [this]
  obtain ⟨⟨q, hq, hq'⟩, h2, h3⟩ := course_kalman hreal hv hc hk
  obtain ⟨e', rest', he', htale⟩ := course_tale hreal hv hc
  rw [List.cons.injEq] at he'
  obtain ⟨rfl, rfl⟩ := he'
  have hmoves : ∀ i ∈ rest.map (fun f => touch f.input), i.IsMove := by
    intro i hi
    obtain ⟨f, hf, rfl⟩ := List.mem_map.1 hi
    rw [touch_isMove, htale.going hl₀ f hf]
    simp
  have hvk := (validParts hc.valid).2.2.2.2.2
  rw [hk] at hvk
  obtain ⟨K, hK, hKv⟩ := foresees_of_valid (k := k) hvk
  rw [hc.fedInputs_eq hl₀, ← hs] at h2 h3
  refine ⟨P, K, e, rest, hreal, hv, hK, hKv, hs, ⟨q, hsame.live.predictor.trans hq, hq'⟩,
    by rw [hsame.live.position]; exact (htale.refines hl₀).tip, fun hlo => ?_, fun hoff => ?_, h2, h3, ?_⟩
  · rw [hs, ← List.getLast?_map, course_times hreal hv hc hlo, List.getLast?_map, Ref.told_last _ _ _ hmoves]
    rfl
  · rw [hs, ← List.getLast?_map, course_results hreal hv hc hoff, List.getLast?_map, Ref.told_last _ _ _ hmoves]
    rfl
  intro hpace v m' r hst
  simp only [step] at hst
  obtain ⟨⟨m₁, st, v'⟩, hu, hst⟩ := Outcome.bind_eq_ok.1 hst
  simp only [Outcome.pure_eq, Outcome.ok.injEq, Prod.mk.injEq] at hst
  obtain ⟨rfl, rfl⟩ := hst
  obtain ⟨b', hu', -⟩ := hsame.predict_ok hu
  obtain ⟨h4, tips, h5, h6⟩ := course_predict hreal hv hc hq hmp hl₀ hu'
  obtain ⟨h7, h8⟩ := h6 _ (by
    have h9 := constructPrediction_eq hK hKv hv.rate hreal.rate (by simp [news, Ref.known]) hq' hpace (state P e rest).tip
    rcases Classical.em _ with h10 | h10
    · have := (h9.1 h10).symm.trans h5
      exact (Outcome.ok.inj this).symm
    · obtain ⟨w, hw⟩ := h9.2 h10
      have := hw.symm.trans h5
      simp at this)
  exact ⟨h4, fun hlo => (h7 hlo).2, h8⟩

end XR
end
end Ink
