import Verif.Lemmas.Forecast
import Verif.Props.Counts
import Verif.Props.Replay
/-!
# Kalman prediction: C45
-/
namespace Ink
open Scalar Arith

section Any
variable {F D : Type} [Scalar F] [Scalar D] [Arith F D]
variable {ops : List (Op F D)} {rs : List (Response F D)} {m : StrokeModeler F D} {p : StrokeModelParams F D} {k : KalmanParams F D}

/-- The Kalman predictor during a stroke. -/
theorem Session.kalman (h : Session ops rs m) (hr : Regular ops rs) (hp : (Ink.known ops rs).params = some p)
    (hk : p.prediction = .kalman k) (hi : (Ink.known ops rs).prev ≠ none) :
    ∃ q cs last, m.params = some p ∧ m.lastInput = some last ∧ m.predictor = some (.kalman q) ∧ KalmanOf k p.sampling cs q ∧
      0 < k.maxTimeSamples ∧ cs ≠ [] ∧ cs.map (·.2) = (acceptedOf (strokeOf ops rs)).map (·.time) ∧
      (p.wobble.isEnabled = false → cs.map (·.1) = (acceptedOf (strokeOf ops rs)).map (·.position)) ∧
      cs.getLast? = some (last.correctedPosition, last.input.time) := by
  have hl : m.lastInput ≠ none := by
    intro hc
    rw [← h.known] at hi
    simp [StrokeModeler.known, hc] at hi
  obtain ⟨p', m₀, h1, hc, hsame⟩ := h.course hr (h.in_progress hr hl)
  obtain rfl : p' = p := by rw [hp] at h1; exact (Option.some.inj h1).symm
  have hl₀ : m₀.lastInput ≠ none := by rw [← hsame.last]; exact hl
  obtain ⟨cs, q, hq, hq', h2, h3, h4⟩ := hc.kalman hk
  have hm : 0 < k.maxTimeSamples := by
    have := (validParts hc.valid).2.2.2.2.2
    rw [hk] at this
    unfold validatePredictionParams validateKalmanParams at this
    exact validateGreaterThanZeroInt_ok (andThen_ok (andThen_ok (andThen_ok (andThen_ok this).2).2).2).1
  have hcs : cs ≠ [] := by
    intro hn
    subst hn
    exact hc.down_accepted (by simpa using h2.symm)
  obtain ⟨last, hlast⟩ := Option.ne_none_iff_exists'.1 hl₀
  rw [hc.fedInputs_eq hl₀] at h2 h3
  exact ⟨q, cs, last, by rw [← h.known] at hp; exact hp, hsame.last.trans hlast, hsame.live.predictor.trans hq, hq', hm, hcs, h2, h3, h4 _ hlast⟩

/-- C45, first half, in any arithmetic: with the Kalman predictor, `Predict` succeeds with an empty prediction while the stroke has
had fewer than `min_stable_iteration` accepted inputs. -/
theorem C45_empty_until_stable (h : Session ops rs m) (hr : Regular ops rs) (hp : (known ops rs).params = some p)
    (hk : p.prediction = .kalman k) (hi : (known ops rs).prev ≠ none)
    (hn : (acceptedOf (strokeOf ops rs)).length < k.minStableIteration) (v : List (Result F D)) :
    ∃ m' r, step m (.predict v) = .ok (m', r) ∧ r.status = .ok ∧ r.results = [] := by
  obtain ⟨q, cs, last, h1, h2, h3, hq, hm, hcs, ht, -⟩ := h.kalman hr hp hk hi
  have hlen : cs.length = (acceptedOf (strokeOf ops rs)).length := by simpa using congrArg List.length ht
  have hest := (hq.estimated hm hcs).1 (by rwa [hlen])
  have hpr : q.constructPrediction m.position.state = .ok [] := by simp [KalmanPredictor.constructPrediction, hest]
  refine ⟨{ m with tipBuffer := [] }, ⟨.ok, []⟩, ?_, rfl, rfl⟩
  simp [step, StrokeModeler.predict, h1, h2, h3, Predictor.constructPrediction, hpr, modelStylus, modelStylusGo]

theorem predicts [RoundsUp F] (h : Session ops rs m) (hr : Regular ops rs) (hp : (known ops rs).params = some p)
    (hk : p.prediction = .kalman k) (hi : (known ops rs).prev ≠ none)
    (hn : k.minStableIteration ≤ (acceptedOf (strokeOf ops rs)).length) {v : List (Result F D)} {m' : StrokeModeler F D}
    {r : Response F D} (hs : step m (.predict v) = .ok (m', r)) : r.status = .ok ∧ r.results ≠ [] := by
  obtain ⟨q, cs, last, h1, h2, h3, hq, hm, hcs, ht, -⟩ := h.kalman hr hp hk hi
  have hlen : cs.length = (acceptedOf (strokeOf ops rs)).length := by simpa using congrArg List.length ht
  obtain ⟨est, x, he, hx⟩ := (hq.estimated hm hcs).2 (by rwa [hlen])
  simp only [step] at hs
  obtain ⟨⟨m₁, s, v'⟩, hu, hs⟩ := Outcome.bind_eq_ok.1 hs
  simp only [Outcome.pure_eq, Outcome.ok.injEq, Prod.mk.injEq] at hs
  obtain ⟨rfl, rfl⟩ := hs
  rcases predict_ok hu with ⟨_, _, _, _, hc⟩ | ⟨_, pr, _, tips, _, out, _, hpr, _, ht, hms, rfl, _, rfl⟩
  · simp [h1, h2, h3] at hc
  · rw [h3, Option.some.injEq] at hpr
    subst hpr
    refine ⟨rfl, ?_⟩
    simp only [Predictor.constructPrediction, KalmanPredictor.constructPrediction, he, hx] at ht
    obtain ⟨l, hl, ht⟩ := Outcome.bind_eq_ok.1 ht
    obtain ⟨n, hn, ht⟩ := Outcome.bind_eq_ok.1 ht
    simp only [Outcome.pure_eq, Outcome.ok.injEq] at ht
    have hne : tips ≠ [] := by rw [← ht]; simp [cubicConnector_ne hl]
    intro hout
    have := modelStylus_length hms
    simp only at hout
    rw [hout] at this
    exact hne (List.length_eq_zero_iff.1 this.symm)

end Any

/-- C45, second half, on floats: from `min_stable_iteration` accepted inputs on, `Predict` predicts at least one point (if it
returns, see C21). -/
theorem C45_predicts_once_stable [Libm] {ops : List (Op (Fl f32) (Fl f64))} {rs : List (Response (Fl f32) (Fl f64))}
    {m : StrokeModeler (Fl f32) (Fl f64)} {p : StrokeModelParams (Fl f32) (Fl f64)} {k : KalmanParams (Fl f32) (Fl f64)}
    (h : Session ops rs m) (hr : Regular ops rs) (hp : (known ops rs).params = some p) (hk : p.prediction = .kalman k)
    (hi : (known ops rs).prev ≠ none) (hn : k.minStableIteration ≤ (acceptedOf (strokeOf ops rs)).length)
    {v : List (Result (Fl f32) (Fl f64))} {m' : StrokeModeler (Fl f32) (Fl f64)} {r : Response (Fl f32) (Fl f64)}
    (hs : step m (.predict v) = .ok (m', r)) : r.status = .ok ∧ r.results ≠ [] := predicts h hr hp hk hi hn hs

/-- C45, second half, on exact numbers. -/
theorem C45_predicts_once_stable_exact {ops : List (Op XR XR)} {rs : List (Response XR XR)} {m : StrokeModeler XR XR}
    {p : StrokeModelParams XR XR} {k : KalmanParams XR XR} (h : Session ops rs m) (hr : Regular ops rs)
    (hp : (known ops rs).params = some p) (hk : p.prediction = .kalman k) (hi : (known ops rs).prev ≠ none)
    (hn : k.minStableIteration ≤ (acceptedOf (strokeOf ops rs)).length) {v : List (Result XR XR)} {m' : StrokeModeler XR XR}
    {r : Response XR XR} (hs : step m (.predict v) = .ok (m', r)) : r.status = .ok ∧ r.results ≠ [] :=
  predicts h hr hp hk hi hn hs

section Examples
open Ex

/-- A stroke with the Kalman predictor that is restored to an earlier point. -/
def Ex.kalmanOps : List (Op F32 F64) :=
  [.resetParams { params with prediction := .kalman kalman }, .update (inp .down 0 0 0) [], .save,
   .update (inp .move (fl 1 50) 0 (d 1 200)) [], .predict []]

theorem Ex.noDisable_kalman (ops : List (Op F32 F64))
    (h : ∀ op ∈ ops, op = .restore ∨ op = .predict []) : NoDisableAfterSave (kalmanOps ++ ops) := by
  intro a p b h' hd
  have hm : Op.resetParams p ∈ kalmanOps ++ ops := by simp [h']
  rw [List.mem_append] at hm
  rcases hm with hm | hm
  · simp [kalmanOps] at hm
    simp [hm, params] at hd
  · simpa using h _ hm

/-- the hypotheses are met with one input after the Restore, and with two before it -/
example : (∃ rs m, Session (kalmanOps ++ [.restore]) rs m ∧ Regular (kalmanOps ++ [.restore]) rs ∧
      (known (kalmanOps ++ [.restore]) rs).params = some { params with prediction := .kalman kalman } ∧
      (known (kalmanOps ++ [.restore]) rs).prev ≠ none ∧ (acceptedOf (strokeOf (kalmanOps ++ [.restore]) rs)).length < 2) ∧
    (∃ rs m m' r, Session (kalmanOps ++ []) rs m ∧ Regular (kalmanOps ++ []) rs ∧
      (known (kalmanOps ++ []) rs).params = some { params with prediction := .kalman kalman } ∧
      (known (kalmanOps ++ []) rs).prev ≠ none ∧ 2 ≤ (acceptedOf (strokeOf (kalmanOps ++ []) rs)).length ∧
      step m (.predict []) = .ok (m', r)) := by
  constructor
  · obtain ⟨rs, m, h, hP⟩ := exists_session (ops := kalmanOps ++ [.restore]) (P := fun rs _ => noStale (kalmanOps ++ [.restore]) rs &&
      decide ((known (kalmanOps ++ [.restore]) rs).params = some { params with prediction := .kalman kalman } ∧
        (known (kalmanOps ++ [.restore]) rs).prev ≠ none ∧ (acceptedOf (strokeOf (kalmanOps ++ [.restore]) rs)).length < 2)) (by kernel_rfl)
    simp only [Bool.and_eq_true, decide_eq_true_eq] at hP
    exact ⟨rs, m, h, ⟨noStale_iff hP.1, noDisable_kalman _ (by simp)⟩, hP.2⟩
  · obtain ⟨rs, m, h, hP⟩ := exists_session (ops := kalmanOps ++ []) (P := fun rs m => noStale (kalmanOps ++ []) rs &&
      decide ((known (kalmanOps ++ []) rs).params = some { params with prediction := .kalman kalman } ∧
        (known (kalmanOps ++ []) rs).prev ≠ none ∧ 2 ≤ (acceptedOf (strokeOf (kalmanOps ++ []) rs)).length) &&
      match step m (.predict []) with
        | .ok _ => true
        | _ => false) (by kernel_rfl)
    simp only [Bool.and_eq_true, decide_eq_true_eq] at hP
    cases hs : step m (.predict []) with
    | ok x => exact ⟨rs, m, x.1, x.2, h, ⟨noStale_iff hP.1.1, noDisable_kalman _ (by simp)⟩, hP.1.2.1, hP.1.2.2.1, hP.1.2.2.2, hs⟩
    | ub w => simp [hs] at hP
    | diverge => simp [hs] at hP
end Examples

end Ink
