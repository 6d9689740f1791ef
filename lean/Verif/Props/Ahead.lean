import Verif.Props.Plain
/-!
# Predictions of the stroke-end predictor on floats, from the inputs alone: C73

C72 for what Predict returns.
-/
namespace Ink
noncomputable section
open Scalar Arith Fl

section Lemmas
variable [Libm] {R g G : ℝ} {p : StrokeModelParams (Fl f32) (Fl f64)} {es : List (Event (Fl f32) (Fl f64))} {m : StrokeModeler (Fl f32) (Fl f64)}

/-- The stroke-end predictor aims at the corrected position of the last input. -/
theorem Course.aims (h : Course p es m) (hend : p.prediction = .strokeEnd) {last : LastInput (Fl f32) (Fl f64)} (hl : m.lastInput = some last) :
    m.predictor = some (.strokeEnd { position := p.position, sampling := p.sampling, lastPosition := some last.correctedPosition }) := by
  induction h generalizing last with
  | down _ _ _ _ hp =>
    cases hl
    simp only [StrokeModeler.makePredictor, hend, updatePredictor, Predictor.update, Outcome.map_ok] at hp
    exact (Outcome.ok.inj hp).symm
  | move hm hl' _ _ _ _ _ hp _ ih =>
    cases hl
    rw [ih hl'] at hp
    simp only [updatePredictor, Predictor.update, Outcome.map_ok] at hp
    exact (Outcome.ok.inj hp).symm
  | late _ hl' _ _ _ _ _ ih => exact ih hl
  | up => simp at hl

/-- The corrected position of the last input. -/
theorem Course.corrected [LibmFair] (h : Course p es m) (ht : Tidy p R g G es) {last : LastInput (Fl f32) (Fl f64)} (hl : m.lastInput = some last) :
    InReach (2 * R) last.correctedPosition := by
  induction h generalizing last with
  | down =>
    cases hl
    exact (ht.inputs _ (List.mem_singleton.2 rfl)).mono (by linarith [ht.sizes.bounds.1])
  | move hm hl' _ hfi hw =>
    cases hl
    exact ((hm.going ht.init).smooth hm hl' ht (finite_of_isFinite hfi.time) hw).2
  | late _ hl' _ _ _ _ _ ih => exact ih ht.init hl
  | up => simp at hl

end Lemmas

section Theorems
variable [Libm] [LibmFair] {ops : List (Op (Fl f32) (Fl f64))} {rs : List (Response (Fl f32) (Fl f64))} {m : StrokeModeler (Fl f32) (Fl f64)}

/-- C73: on floats, what the stroke-end predictor predicts for a stroke with usual parameters and inputs goes on where the results of the
stroke end, in the order of the times and often enough; it is finite, and it stays near the inputs. -/
theorem C73_ahead_float (h : Session ops rs m) (hr : Regular ops rs) {p : StrokeModelParams (Fl f32) (Fl f64)}
    (hp : (known ops rs).params = some p) (hend : p.prediction = .strokeEnd) {R g G : ℝ} (hc : Plain p R g G (strokeOf ops rs))
    {v : List (Result (Fl f32) (Fl f64))} {m' : StrokeModeler (Fl f32) (Fl f64)} {resp : Response (Fl f32) (Fl f64)}
    (hst : step m (.predict v) = .ok (m', resp)) :
    Paced (spacing p.sampling.maxOutputsPerCall.toNat (num p.sampling.minOutputRate) (2 ^ 20)) (resultsOf (strokeOf ops rs) ++ resp.results) ∧
    resp.results.length ≤ 1000 ∧
    ∀ r ∈ resp.results,
      InReach (5 * reach (num p.position.springMassConstant) (num p.position.dragConstant) R) r.position ∧
      InReach (7 * (R / g) + 5 * ((Real.sqrt (num p.position.springMassConstant))⁻¹ *
        reach (num p.position.springMassConstant) (num p.position.dragConstant) R)) r.velocity ∧
      InReach (13 * (R / g ^ 2) + 11 * (((Real.sqrt (num p.position.springMassConstant))⁻¹ + num p.position.dragConstant) *
        ((Real.sqrt (num p.position.springMassConstant))⁻¹ *
          reach (num p.position.springMassConstant) (num p.position.dragConstant) R))) r.acceleration := by
  have calm : Paced (spacing p.sampling.maxOutputsPerCall.toNat (num p.sampling.minOutputRate) (2 ^ 20)) (resultsOf (strokeOf ops rs) ++ []) := by
    rw [List.append_nil]
    by_cases hne : strokeOf ops rs = []
    · rw [hne]; exact ⟨by simp [resultsOf], by simp [resultsOf]⟩
    · exact (C72_plain_float h hr hp hne hc).1
  simp only [step] at hst
  obtain ⟨⟨m₁, s, v'⟩, hu, hst⟩ := Outcome.bind_eq_ok.1 hst
  simp only [Outcome.pure_eq, Outcome.ok.injEq, Prod.mk.injEq] at hst
  obtain ⟨rfl, rfl⟩ := hst
  rcases predict_ok hu with ⟨_, _, _, rfl, _⟩ | ⟨_, _, last, _, _, _, _, _, hl, _⟩
  · exact ⟨calm, by simp, by simp⟩
  have hne := h.in_progress hr (by simp [hl])
  obtain ⟨p', m₀, hp', hcourse, hsl⟩ := h.course hr hne
  obtain rfl : p = p' := by rw [hp] at hp'; exact Option.some.inj hp'
  obtain ⟨_, hu, -⟩ := hsl.predict_ok hu
  rcases predict_ok hu with ⟨_, _, _, rfl, _⟩ | ⟨_, pr, last, tips, loop, out, _, hpr, hl, hcon, hq, _, _, rfl⟩
  · exact ⟨calm, by simp, by simp⟩
  rw [hcourse.aims hend hl, Option.some.injEq] at hpr
  rw [← hpr] at hcon
  simp only [Predictor.constructPrediction, StrokeEndPredictor.constructPrediction, PositionModeler.modelEndOfStroke, PositionModeler.reset,
    Outcome.ok.injEq] at hcon
  obtain ⟨hz, ht, hck, hN, hB1, hB2, hfade⟩ := hc.facts hcourse.valid hne
  have hshort := hc.short
  have hloop : p.position.loop.isEnabled = true → FiniteLoop p.position.loop :=
    fun hon => ⟨(hc.loop hon).1, (hc.loop hon).2.1, (hc.loop hon).2.2.1, (hc.loop hon).2.2.2⟩
  obtain ⟨es', q, hs, hq', hes, htr, hlast, -⟩ := course_trace hcourse ht hck hN ⟨hB1, hB2⟩ hloop
  obtain ⟨l1, l2⟩ := hlast _ hl
  obtain rfl := hq' (by simp [hl])
  rw [hl] at hs
  obtain ⟨i1, i2⟩ := Course.inStep hcourse hck _ hl
  have hi : |num last.input.time| ≤ 2 ^ 19 := hck.inputs _ (List.mem_of_getLast? i2)
  obtain ⟨hpace, hfew, -⟩ := end_pace hcourse.valid hc.rate p.sampling.maxOutputsPerCall.toNat p.position last.correctedPosition
    (Course.clocks hcourse).state (by rw [i1]; exact hi) rfl
  obtain ⟨r1, -⟩ := springRest_go p.position last.correctedPosition p.sampling.endOfStrokeStoppingDistance
    p.sampling.endOfStrokeMaxIterations.toNat (1 / p.sampling.minOutputRate) m₀.position.state
  rw [hcon] at hpace hfew r1
  rw [i1] at hpace
  obtain ⟨hdr, hsnd⟩ := answered ⟨hB1, hB2⟩ hloop hcourse hcourse ht hq
  have hlen := hdr.length_eq
  rw [List.length_map] at hlen
  by_cases hnil : tips = []
  · rw [hnil] at hlen
    obtain rfl : v' = [] := by simpa using hlen
    exact ⟨calm, by simp, by simp⟩
  have htr' := htr.add l1 hpace hsnd last.input { last.input with position := last.correctedPosition, eventType := .up }
  have hs' := Springs.up (p := p.still) (i := { last.input with position := last.correctedPosition, eventType := .up }) (n := 0) hs rfl
    (.done (by decide)) r1 (by simpa using hnil) (same_ghost tips)
  have hcount : (resultsOf (es' ++ [⟨{ last.input with position := last.correctedPosition, eventType := .up }, some (tips.map ghost)⟩])).length ≤ 2 ^ 18 := by
    rw [resultsOf_append, List.length_append, List.length_map]
    omega
  have hin : ∀ i ∈ acceptedOf (es' ++ [⟨{ last.input with position := last.correctedPosition, eventType := .up }, some (tips.map ghost)⟩]),
      InReach (2 * R) i.position := by
    intro i hi
    rw [acceptedOf_append] at hi
    rcases List.mem_append.1 hi with hi | hi
    · simp only [acceptedOf, List.mem_map, List.mem_filter] at hi
      obtain ⟨e', ⟨he', -⟩, rfl⟩ := hi
      obtain ⟨e, -, he⟩ := mem_right hes he'
      exact he.input
    · rw [List.mem_singleton] at hi
      rw [hi]
      exact hcourse.corrected ht hl
  have hpaced := (⟨htr'.finite, (List.isChain_map _).1 htr'.gaps⟩ :
    Paced (spacing p.sampling.maxOutputsPerCall.toNat (num p.sampling.minOutputRate) (2 ^ 20)) _)
  have hb := springs_bounded (p := p.still) hs' rfl (s := spacing p.sampling.maxOutputsPerCall.toNat (num p.sampling.minOutputRate) (2 ^ 20))
    hc.mass hc.drag hc.suits hin (part_length hcount) hpaced (Weights.count hpaced hfade) fun k hk => by
      have : k ≤ 2 ^ 18 := by omega
      exact_mod_cast this
  obtain ⟨hfin, -⟩ := htr'.sound (by omega) fun r hr => (hb r hr).2.1.mono (le_max_right _ _)
  rw [resultsOf_append] at hfin
  rw [resultsOf_append] at hpaced
  have hall := List.rel_append (drawn_all hes) hdr
  obtain ⟨t1, t2⟩ := same_times hall hfin
  refine ⟨hpaced.times t1.symm hfin, by change v'.length ≤ 1000; omega, fun r hmem => ?_⟩
  obtain ⟨r', hmem', hdr'⟩ := mem_left hdr hmem
  obtain ⟨b1, b2, b3⟩ := hb r' (by rw [resultsOf_append]; simp only [List.mem_append]; exact .inr hmem')
  exact drawn_bounds hz hc.suits hdr' (hfin r (by simp [hmem])) b1 b2 b3

/-- C24 and C25 for these predictions, loop mitigation included: if the inputs of the stroke have a pressure in [0, 1], so do the predicted
results; likewise for a tilt in [0, 2]; and if they have an orientation between 0 and 2^27, the predicted orientations are in [0, 2π). -/
theorem C73_ahead_stylus_float (h : Session ops rs m) (hr : Regular ops rs) {p : StrokeModelParams (Fl f32) (Fl f64)}
    (hp : (known ops rs).params = some p) (hend : p.prediction = .strokeEnd) {R g G : ℝ} (hc : Plain p R g G (strokeOf ops rs))
    {v : List (Result (Fl f32) (Fl f64))} {m' : StrokeModeler (Fl f32) (Fl f64)} {resp : Response (Fl f32) (Fl f64)}
    (hst : step m (.predict v) = .ok (m', resp)) {r : Result (Fl f32) (Fl f64)} (hmem : r ∈ resp.results) :
    ((∀ e ∈ strokeOf ops rs, InRange 1 e.input.pressure) → InRange 1 r.pressure) ∧
    ((∀ e ∈ strokeOf ops rs, InRange 2 e.input.tilt) → InRange 2 r.tilt) ∧
    ((∀ e ∈ strokeOf ops rs, FromZeroTo (2 ^ 27) e.input.orientation) → Direction r.orientation) := by
  have hfin : Fl.isNaN r.time = false := ((C73_ahead_float h hr hp hend hc hst).1.1 r (by simp [hmem])).1
  have off : ∀ {q : Bool}, ¬ (q = true ∧ Scalar.isNaN r.time = true) := fun hq => by
    have := hq.2
    rw [show Scalar.isNaN r.time = Fl.isNaN r.time from rfl, hfin] at this
    cases this
  obtain ⟨k1, k2⟩ := C24_prediction_range_float_partial h hr hp hst hmem
  exact ⟨fun hin => (k1 hin).2.resolve_left off, fun hin => (k2 hin).2.resolve_left off,
    fun hin => (C25_known_predicted_float h hr hp hst hmem hin).2.resolve_left off⟩

end Theorems

section Examples
open Ex

/-- The stroke of `fullOps` without its Up. -/
def Ex.openOps : List (Op F32 F64) :=
  [.resetParams fullParams, .update (pressed .down 0 0 1 1) [], .update (pressed .move (fl 1 100) (d 1 50) (fl 1 2) 1) [],
   .update (pressed .move 1 (d 2 50) (fl 1 4) 1) []]

/-- C73 applies to a stroke of a Down and two Moves, with wobble smoothing, loop mitigation and pressures and tilts in range, for which
Predict returns more than five results. -/
example : ∃ (rs : List (Response F32 F64)) (m m' : StrokeModeler F32 F64) (resp : Response F32 F64), Session openOps rs m ∧
    Regular openOps rs ∧ (known openOps rs).params = some fullParams ∧ fullParams.prediction = .strokeEnd ∧
    Plain fullParams 4 (1 / 64) (1 / 32) (strokeOf openOps rs) ∧ step m (.predict []) = .ok (m', resp) ∧ 5 ≤ resp.results.length ∧
    fullParams.wobble.isEnabled = true ∧ fullParams.position.loop.isEnabled = true ∧ (strokeOf openOps rs).length = 3 ∧
    ∀ e ∈ strokeOf openOps rs, InRange 1 e.input.pressure ∧ InRange 2 e.input.tilt := by
  obtain ⟨rs, m, h, hP⟩ := exists_session (ops := openOps) (P := fun rs m => noStale openOps rs && fullCheck (strokeOf openOps rs) &&
    decide ((known openOps rs).params = some fullParams ∧ (strokeOf openOps rs).length = 3) &&
    (match step m (.predict []) with | .ok (_, resp) => decide (5 ≤ resp.results.length) | _ => false)) (by kernel_rfl)
  simp only [Bool.and_eq_true, decide_eq_true_eq] at hP
  obtain ⟨⟨⟨h1, h2⟩, h5, h8⟩, h9⟩ := hP
  split at h9
  · rename_i m' resp hst
    refine ⟨rs, m, m', resp, h, ⟨noStale_iff h1, ?_⟩, h5, rfl, (full_plain h2).1, hst, by simpa using h9, rfl, rfl, h8, (full_plain h2).2⟩
    intro a p b h hd
    have hm : Op.resetParams p ∈ openOps := by simp [h]
    simp [openOps] at hm
    simp [hm, fullParams, params] at hd
  · cases h9

end Examples

end
end Ink
