import Verif.Props.Heading
/-!
# Constant pressure, tilt and orientation on floats: C80
-/
namespace Ink
open Scalar Arith

namespace Fl
variable [Libm]

/-- The same number. -/
structure Level (c x : Fl f32) : Prop where
  finite : Finite x
  eq : num x = num c

variable {c : Fl f32}

omit [Libm] in
theorem small_finite {x : Fl f32} (hn : Fl.isNaN x = false) (h : num x = 0) : Finite x :=
  finite_of_num_le hn (j := 1) (by decide) (by rw [h]; norm_num)

omit [Libm] in
theorem sub_same {a b : Fl f32} (ha : Level c a) (hb : Level c b) : Finite (b - a) ∧ num (b - a) = 0 := by
  have e : num (b - a) = 0 := by rw [num_sub hb.finite ha.finite, ha.eq, hb.eq, sub_self, rd_zero]
  exact ⟨small_finite (sub_not_nan hb.finite ha.finite) e, e⟩

omit [Libm] in
theorem interp_same {a b u : Fl f32} (ha : Level c a) (hb : Level c b) (hu : Fl.isNaN u = false) : Level c (Ink.interp a b u) := by
  obtain ⟨c1, -⟩ := (clamp01_spec u).2 hu
  obtain ⟨d1, d2⟩ := sub_same ha hb
  have e : num ((b - a) * clamp01 u) = 0 := by rw [num_mul d1 c1, d2, zero_mul, rd_zero]
  have mf := small_finite (mul_not_nan d1 c1) e
  have h : num (Ink.interp a b u) = num a := by
    change num (a + (b - a) * clamp01 u) = _
    rw [num_add ha.finite mf, e, add_zero, rd_num ha.finite]
  refine ⟨finite_of_num (add_not_nan ha.finite mf) ?_, h.trans ha.eq⟩
  rw [h]
  exact abs_num_lt ha.finite

omit [Libm] in
theorem Level.known {x : Fl f32} (h : Level c x) (h0 : 0 ≤ num c) : (x <ᵇ 0) = false := by
  rw [lt_num h.finite.1 finite_zero.1, num_zero, decide_eq_false_iff_not, not_lt, h.eq]
  exact h0

theorem normalize_same {x : Fl f32} (h : Level c x) (h0 : 0 ≤ num c) (h1 : num c ≤ tau) : normalizeAngle (D := Fl f64) x = .ok x := by
  have ht := tau_bounds
  obtain ⟨z, z1, -, -, -, z2⟩ := normalizeAngle_returns h.finite (by rw [h.eq, abs_of_nonneg h0]; norm_num; linarith)
  rw [z1, z2 (by rw [h.eq]; exact h0) (by rw [h.eq]; exact h1)]

theorem interpAngle_same {a b u : Fl f32} (ha : Level c a) (hb : Level c b) (h0 : 0 ≤ num c) (h1 : num c ≤ tau) :
    ∃ z, interpAngle (D := Fl f64) a b u = .ok z ∧ (Fl.isNaN u = false → Level c z) ∧ (Fl.isNaN u = true → Fl.isNaN z = true) := by
  obtain ⟨d1, d2⟩ := sub_same ha hb
  have w1 : num (widen (b - a) : Fl f64) = 0 := by rw [num_widen d1, d2]
  have wf : Finite (widen (b - a) : Fl f64) := finite_widen d1
  have ht := tau_bounds
  have p1 : ((widen (b - a) : Fl f64) <ᵇ -(Arith.pi (Fl f32))) = false := by
    have hn : Finite (-(Arith.pi (Fl f32) : Fl f64)) := by
      rw [pi_eq]
      constructor <;> decide +kernel
    rw [lt_num wf.1 hn.1, w1, decide_eq_false_iff_not, not_lt, num_neg, num_pi]
    linarith
  have p2 : ((Arith.pi (Fl f32) : Fl f64) <ᵇ widen (b - a)) = false := by
    rw [lt_num finite_pi.1 wf.1, w1, decide_eq_false_iff_not, not_lt, num_pi]
    linarith
  have e : interpAngle (D := Fl f64) a b u = normalizeAngle (D := Fl f64) (Ink.interp a b u) := by
    unfold interpAngle
    rw [normalize_same ha h0 h1, normalize_same hb h0 h1]
    simp only [Outcome.ok_bind, p1, p2]
    rfl
  rw [e]
  cases hu : Fl.isNaN u with
  | false =>
    have hs := interp_same ha hb hu
    exact ⟨_, normalize_same hs h0 h1, fun _ => hs, by simp⟩
  | true =>
    have hs : Fl.isNaN (Ink.interp a b u) = true := add_nan_right _ (mul_nan_right _ ((clamp01_spec u).1.trans hu))
    exact ⟨_, normalizeAngle_nan hs, by simp, fun _ => hs⟩

/-- A field of the results that the stylus modeler interpolates, and that of the inputs. -/
structure Field (c : Fl f32) (get : Result (Fl f32) (Fl f64) → Fl f32) (gone : StylusModelerState (Fl f32) (Fl f64) → Bool)
    (ofInput : Input (Fl f32) (Fl f64) → Fl f32) : Prop where
  interp : ∀ {a b r : Result (Fl f32) (Fl f64)} {u : Fl f32}, interpResult a b u = .ok r → Level c (get a) → Level c (get b) →
    (Fl.isNaN u = false → Level c (get r)) ∧ (Fl.isNaN u = true → Fl.isNaN (get r) = true)
  strip : ∀ {s : StylusModelerState (Fl f32) (Fl f64)} {tip : TipState (Fl f32) (Fl f64)} {r : Result (Fl f32) (Fl f64)},
    gone s = false → get (StylusModeler.strip s tip r) = get r
  make : ∀ (tip : TipState (Fl f32) (Fl f64)) (q : Result (Fl f32) (Fl f64)), get (makeResultFromTipState tip q) = get q
  blank : ∀ {s : StylusModelerState (Fl f32) (Fl f64)}, gone s = false → s.blank = false
  held : ∀ {p : StrokeModelParams (Fl f32) (Fl f64)} {es : List (Event (Fl f32) (Fl f64))} {m : StrokeModeler (Fl f32) (Fl f64)},
    Ink.Course p es m → gone m.stylus.state = es.any fun f => isUnknown (ofInput f.input)
  tag : ∀ {x : Result (Fl f32) (Fl f64)} {i : Input (Fl f32) (Fl f64)}, i.tag = x.tag → get x = ofInput i
  down : ∀ i : Input (Fl f32) (Fl f64), get (StrokeModeler.downResult i) = ofInput i
  low : 0 ≤ num c

omit [Libm] in
theorem interp_nan {a b u : Fl f32} (hu : Fl.isNaN u = true) : Fl.isNaN (Ink.interp a b u) = true :=
  add_nan_right _ (mul_nan_right _ ((clamp01_spec u).1.trans hu))

theorem field_pressure (h0 : 0 ≤ num c) : Field c (·.pressure) (·.unknownPressure) (·.pressure) where
  interp h ha hb := by
    obtain ⟨o, -, rfl⟩ := interpResult_ok h
    simp only [interpResultWith, ha.known h0, hb.known h0]
    exact ⟨interp_same ha hb, interp_nan⟩
  strip hs := by simp only [StylusModeler.strip]; rw [hs]; rfl
  make _ _ := rfl
  blank hs := by simp [StylusModelerState.blank, hs]
  held h := h.flags.1
  tag h := by simp only [Result.tag, Input.tag, Prod.mk.injEq] at h; exact h.2.1.symm
  down _ := rfl
  low := h0

theorem field_tilt (h0 : 0 ≤ num c) : Field c (·.tilt) (·.unknownTilt) (·.tilt) where
  interp h ha hb := by
    obtain ⟨o, -, rfl⟩ := interpResult_ok h
    simp only [interpResultWith, ha.known h0, hb.known h0]
    exact ⟨interp_same ha hb, interp_nan⟩
  strip hs := by simp only [StylusModeler.strip]; rw [hs]; rfl
  make _ _ := rfl
  blank hs := by simp [StylusModelerState.blank, hs]
  held h := h.flags.2.1
  tag h := by simp only [Result.tag, Input.tag, Prod.mk.injEq] at h; exact h.2.2.1.symm
  down _ := rfl
  low := h0

theorem field_orientation (h0 : 0 ≤ num c) (h1 : num c ≤ tau) : Field c (·.orientation) (·.unknownOrientation) (·.orientation) where
  interp {a b r u} h ha hb := by
    obtain ⟨o, ho, rfl⟩ := interpResult_ok h
    have : interpOrientation a b u = interpAngle (D := Fl f64) a.orientation b.orientation u := by
      simp [interpOrientation, ha.known h0, hb.known h0]
    rw [this] at ho
    obtain ⟨z, z1, z2, z3⟩ := interpAngle_same (u := u) ha hb h0 h1
    rw [z1] at ho
    cases ho
    exact ⟨z2, z3⟩
  strip hs := by simp only [StylusModeler.strip]; rw [hs]; rfl
  make _ _ := rfl
  blank hs := by simp [StylusModelerState.blank, hs]
  held h := h.flags.2.2
  tag h := by simp only [Result.tag, Input.tag, Prod.mk.injEq] at h; exact h.2.2.2.symm
  down _ := rfl
  low := h0

variable {get : Result (Fl f32) (Fl f64) → Fl f32} {gone : StylusModelerState (Fl f32) (Fl f64) → Bool}
  {ofInput : Input (Fl f32) (Fl f64) → Fl f32} {p : StrokeModelParams (Fl f32) (Fl f64)} {es : List (Event (Fl f32) (Fl f64))}
  {m : StrokeModeler (Fl f32) (Fl f64)}

theorem Field.query (hg : Field c get gone ofInput) {s : StylusModeler (Fl f32) (Fl f64)} {tip : TipState (Fl f32) (Fl f64)}
    {n : Option (Vec2 (Fl f32))} {q : Result (Fl f32) (Fl f64)} (h : s.query tip n = .ok q) (hne : s.state.inputs ≠ [])
    (hs : gone s.state = false) (hin : ∀ x ∈ s.state.inputs, Level c (get x)) : Level c (get q) := by
  rcases StylusModeler.query_ok h with ⟨he, -⟩ | ⟨-, p, r, hp, hr, rfl⟩
  · exact absurd he hne
  · rw [hg.strip hs]
    unfold StylusModeler.projectedResult at hr
    split at hr
    · rename_i p
      split at hr
      · rename_i a b ha hb
        exact (hg.interp hr (hin _ (List.mem_of_getElem? ha)) (hin _ (List.mem_of_getElem? hb))).1 (projection_ratio hp _ rfl)
      · cases hr
    · split at hr
      · rename_i a b ha hb
        simp only [Outcome.ok.injEq] at hr
        rw [← hr]
        split
        · exact hin _ (List.mem_of_mem_head? ha)
        · exact hin _ (List.mem_of_getLast? hb)
      · cases hr

/-- The field of a result is as expected; with loop mitigation, it may be NaN together with the time. -/
def Stays (c : Fl f32) (off : Prop) (x : Fl f32) (t : Fl f64) : Prop :=
  (off → Level c x) ∧ ((Fl.isNaN x = true ∧ Fl.isNaN t = true) ∨ Level c x)

theorem Field.results (hg : Field c get gone ofInput) {s : StylusModeler (Fl f32) (Fl f64)} {tips : List (TipState (Fl f32) (Fl f64))}
    {l l' : LoopModeler (Fl f32) (Fl f64)} {u : Fl f32} {t : Fl f64} {out : List (Result (Fl f32) (Fl f64))}
    (h : modelStylusGo s tips l u t = .ok (l', out)) (hne : s.state.inputs ≠ [])
    (hs : gone s.state = false) (hin : ∀ x ∈ s.state.inputs, Level c (get x)) :
    ∀ r ∈ out, Stays c (l.params.isEnabled = false ∧ u = 1) (get r) r.time := by
  induction tips generalizing l l' u t out with
  | nil => simp only [modelStylusGo, Outcome.ok.injEq, Prod.mk.injEq] at h; simp [← h.2]
  | cons tip tips ih =>
    simp only [modelStylusGo] at h
    obtain ⟨q, hq, h⟩ := Outcome.bind_eq_ok.1 h
    obtain ⟨r, hr, h⟩ := Outcome.bind_eq_ok.1 h
    obtain ⟨⟨l₁, out'⟩, h₁, h⟩ := Outcome.bind_eq_ok.1 h
    simp only [Outcome.pure_eq, Outcome.ok.injEq, Prod.mk.injEq] at h
    rw [← h.2]
    intro r' hr'
    rcases List.mem_cons.1 hr' with rfl | hr'
    · have q1 := hg.query hq hne hs hin
      obtain ⟨k1, k2⟩ := hg.interp hr q1 (by rw [hg.make]; exact q1)
      refine ⟨?_, ?_⟩
      · rintro ⟨-, rfl⟩
        exact k1 (finite_lit one_lt_two_pow).1
      · cases hu : Fl.isNaN u with
        | false => exact .inr (k1 hu)
        | true =>
          refine .inl ⟨k2 hu, ?_⟩
          obtain ⟨o, -, rfl⟩ := interpResult_ok hr
          exact add_nan_right _ (mul_nan_right _ (widen_nan ((clamp01_spec u).1.trans hu)))
    · obtain ⟨i1, i2⟩ := ih h₁ r' hr'
      refine ⟨?_, i2⟩
      rintro ⟨hl, -⟩
      exact i1 ⟨by rw [loop_update_params]; exact hl, by simp [LoopModeler.update, hl]⟩

theorem Field.samples (hg : Field c get gone ofInput) (h : Ink.Course p es m) (hin : ∀ f ∈ es, Level c (ofInput f.input)) :
    m.stylus.state.inputs ≠ [] ∧ gone m.stylus.state = false ∧ ∀ x ∈ m.stylus.state.inputs, Level c (get x) := by
  have hgone : gone m.stylus.state = false := by
    rw [hg.held h, List.any_eq_false]
    intro f hf
    have hs := hin f hf
    have h2 : Scalar.isNaN (ofInput f.input) = false := hs.finite.1
    simp [isUnknown, hs.known hg.low, h2]
  refine ⟨Course.held_ne_nil h (hg.blank hgone), hgone, ?_⟩
  intro x hx
  have hm : x.tag ∈ es.map fun f => f.input.tag := (Course.held h).subset (List.mem_map_of_mem hx)
  obtain ⟨f, hf, hft⟩ := List.mem_map.1 hm
  rw [hg.tag hft]
  exact hin f hf

theorem Field.answer (hg : Field c get gone ofInput) (h : Ink.Course p es m) (hin : ∀ f ∈ es, Level c (ofInput f.input))
    {es' : List (Event (Fl f32) (Fl f64))} {m' : StrokeModeler (Fl f32) (Fl f64)} {tips : List (TipState (Fl f32) (Fl f64))} {t : Fl f64}
    {l' : LoopModeler (Fl f32) (Fl f64)} {out : List (Result (Fl f32) (Fl f64))} (hc : Ink.Course p es' m')
    (hq : modelStylus tips m.stylus m'.loop t = .ok (l', out)) : ∀ r ∈ out, Stays c (p.position.loop.isEnabled = false) (get r) r.time := by
  obtain ⟨g1, g2, g3⟩ := hg.samples h hin
  intro r hr
  obtain ⟨k1, k2⟩ := hg.results hq g1 g2 g3 r hr
  refine ⟨fun hoff => ?_, k2⟩
  have : m'.loop.params.isEnabled = false := by rw [hc.paramsOf.loop]; exact hoff
  exact k1 ⟨this, by simp [LoopModeler.getInterpolationValue, this]⟩

theorem Field.stroke (hg : Field c get gone ofInput) (h : Ink.Course p es m) (hin : ∀ f ∈ es, Level c (ofInput f.input)) :
    ∀ r ∈ resultsOf es, Stays c (p.position.loop.isEnabled = false) (get r) r.time := by
  induction h with
  | @down i stylus predictor hv he hf hs hp =>
    intro r hr
    simp [resultsOf] at hr
    subst hr
    have := hin _ (List.mem_singleton.2 rfl)
    rw [← hg.down] at this
    exact ⟨fun _ => this, .inr this⟩
  | @move es m last i wobble corrected stylus n predictor loop out hm hl he hfi hw hs hn hp hq ih =>
    intro r hr
    rw [resultsOf, List.flatMap_append, List.mem_append] at hr
    rcases hr with hr | hr
    · exact ih (fun f hf => hin f (List.mem_append_left _ hf)) r hr
    · refine hg.answer (.move hm hl he hfi hw hs hn hp hq) hin hm hq r (by simpa using hr)
  | @late es m last i wobble corrected stylus s hm hl he hfi hw hs hn ih =>
    intro r hr
    have e2 : resultsOf (es ++ [⟨i, none⟩]) = resultsOf es := by simp [resultsOf]
    rw [e2] at hr
    exact ih (fun f hf => hin f (List.mem_append_left _ hf)) r hr
  | @up es m last i stylus n loop out hm hl he hfi hs hn hq ih =>
    intro r hr
    rw [resultsOf, List.flatMap_append, List.mem_append] at hr
    rcases hr with hr | hr
    · exact ih (fun f hf => hin f (List.mem_append_left _ hf)) r hr
    · refine hg.answer (.up hm hl he hfi hs hn hq) hin hm hq r (by simpa using hr)

end Fl

section Theorems
variable [Libm] {ops : List (Op (Fl f32) (Fl f64))} {rs : List (Response (Fl f32) (Fl f64))} {m m' : StrokeModeler (Fl f32) (Fl f64)}

/-- The value `x` of a result at the time `t` is equal to `c`. With loop mitigation it may be NaN, but only together with the time. -/
def KeptAt (p : StrokeModelParams (Fl f32) (Fl f64)) (c x : Fl f32) (t : Fl f64) : Prop :=
  (p.position.loop.isEnabled = false → (x =ᵇ c) = true) ∧ ((isNaN x = true ∧ isNaN t = true) ∨ (x =ᵇ c) = true)

omit [Libm] in
theorem level_iff {c x : Fl f32} (hc : Fl.Finite c) : Fl.Level c x ↔ (x =ᵇ c) = true := by
  constructor
  · intro h
    rw [Fl.eq_num h.finite.1 hc.1, h.eq]
    simp
  · intro h
    have hn : Fl.isNaN x = false := by
      cases x with
      | nan => cases c <;> cases h
      | _ => rfl
    rw [Fl.eq_num hn hc.1, decide_eq_true_eq] at h
    exact ⟨Fl.finite_of_num hn (by rw [h]; exact Fl.abs_num_lt hc), h⟩

omit [Libm] in
theorem keptAt_iff {p : StrokeModelParams (Fl f32) (Fl f64)} {c x : Fl f32} {t : Fl f64} (hc : Fl.Finite c)
    (h : Fl.Stays c (p.position.loop.isEnabled = false) x t) : KeptAt p c x t := by
  unfold Fl.Stays at h
  rw [level_iff hc] at h
  exact h

omit [Libm] in
theorem low_of {c : Fl f32} (hc : Fl.Finite c) (h0 : (0 ≤ᵇ c) = true) : 0 ≤ Fl.num c := by
  rwa [Fl.le_num Fl.finite_zero.1 hc.1, Fl.num_zero, decide_eq_true_eq] at h0

theorem tau_of {c : Fl f32} (hc : Fl.Finite c) (h1 : (widen c ≤ᵇ (twoPi (Fl f32) : Fl f64)) = true) : Fl.num c ≤ Fl.tau := by
  rwa [Fl.le_num (Fl.finite_widen hc).1 Fl.finite_twoPi.1, Fl.num_widen hc, Fl.num_twoPi, decide_eq_true_eq] at h1

/-- C80: on floats, a pressure, tilt or orientation that is the same in all inputs of a stroke is exactly that in all its results. -/
theorem C80_steady_float (h : Session ops rs m) (hr : Regular ops rs) {p : StrokeModelParams (Fl f32) (Fl f64)}
    (hp : (known ops rs).params = some p) {c : Fl f32} (hc : isFinite c = true) (h0 : (0 ≤ᵇ c) = true) :
    ((∀ f ∈ strokeOf ops rs, (f.input.pressure =ᵇ c) = true) → ∀ r ∈ resultsOf (strokeOf ops rs), KeptAt p c r.pressure r.time) ∧
    ((∀ f ∈ strokeOf ops rs, (f.input.tilt =ᵇ c) = true) → ∀ r ∈ resultsOf (strokeOf ops rs), KeptAt p c r.tilt r.time) ∧
    ((∀ f ∈ strokeOf ops rs, (f.input.orientation =ᵇ c) = true) → (widen c ≤ᵇ (twoPi (Fl f32) : Fl f64)) = true →
      ∀ r ∈ resultsOf (strokeOf ops rs), KeptAt p c r.orientation r.time) := by
  by_cases hne : strokeOf ops rs = []
  · rw [hne]; simp [resultsOf]
  have hf := Fl.finite_of_isFinite hc
  obtain ⟨p', m₀, hp', hco, -⟩ := h.course hr hne
  obtain rfl : p = p' := by rw [hp] at hp'; exact Option.some.inj hp'
  have hl := low_of hf h0
  refine ⟨fun hin r hr => ?_, fun hin r hr => ?_, fun hin h1 r hr => ?_⟩
  · exact keptAt_iff hf ((Fl.field_pressure hl).stroke hco (fun f h => (level_iff hf).2 (hin f h)) r hr)
  · exact keptAt_iff hf ((Fl.field_tilt hl).stroke hco (fun f h => (level_iff hf).2 (hin f h)) r hr)
  · exact keptAt_iff hf ((Fl.field_orientation hl (tau_of hf h1)).stroke hco (fun f h => (level_iff hf).2 (hin f h)) r hr)

/-- C80, predictions: likewise for the results of Predict. -/
theorem C80_prediction_float (h : Session ops rs m) (hr : Regular ops rs) {p : StrokeModelParams (Fl f32) (Fl f64)}
    (hp : (known ops rs).params = some p) {c : Fl f32} (hc : isFinite c = true) (h0 : (0 ≤ᵇ c) = true)
    {v : List (Result (Fl f32) (Fl f64))} {resp : Response (Fl f32) (Fl f64)} (hst : step m (.predict v) = .ok (m', resp)) :
    ((∀ f ∈ strokeOf ops rs, (f.input.pressure =ᵇ c) = true) → ∀ r ∈ resp.results, KeptAt p c r.pressure r.time) ∧
    ((∀ f ∈ strokeOf ops rs, (f.input.tilt =ᵇ c) = true) → ∀ r ∈ resp.results, KeptAt p c r.tilt r.time) ∧
    ((∀ f ∈ strokeOf ops rs, (f.input.orientation =ᵇ c) = true) → (widen c ≤ᵇ (twoPi (Fl f32) : Fl f64)) = true →
      ∀ r ∈ resp.results, KeptAt p c r.orientation r.time) := by
  simp only [step] at hst
  obtain ⟨⟨m₁, s, v'⟩, hu, hst⟩ := Outcome.bind_eq_ok.1 hst
  simp only [Outcome.pure_eq, Outcome.ok.injEq, Prod.mk.injEq] at hst
  obtain ⟨rfl, rfl⟩ := hst
  rcases predict_ok hu with ⟨_, _, _, rfl, _⟩ | ⟨_, _, last, _, _, _, _, _, hl, _⟩
  · simp
  · obtain ⟨p', m₀, hp', hco, hsl⟩ := h.course hr (h.in_progress hr (by simp [hl]))
    obtain rfl : p = p' := by rw [hp] at hp'; exact Option.some.inj hp'
    obtain ⟨_, hu, -⟩ := hsl.predict_ok hu
    rcases predict_ok hu with ⟨_, _, _, rfl, _⟩ | ⟨_, pr, last, tips, _, out, _, _, hl, _, hms, _, _, rfl⟩
    · simp
    have hf := Fl.finite_of_isFinite hc
    have hl := low_of hf h0
    refine ⟨fun hin r hr => ?_, fun hin r hr => ?_, fun hin h1 r hr => ?_⟩
    · exact keptAt_iff hf ((Fl.field_pressure hl).answer hco (fun f h => (level_iff hf).2 (hin f h)) hco hms r hr)
    · exact keptAt_iff hf ((Fl.field_tilt hl).answer hco (fun f h => (level_iff hf).2 (hin f h)) hco hms r hr)
    · exact keptAt_iff hf ((Fl.field_orientation hl (tau_of hf h1)).answer hco (fun f h => (level_iff hf).2 (hin f h)) hco hms r hr)

end Theorems

section Examples
open Ex

/-- An input with pressure and tilt 1/3. -/
def Ex.thirds (e : EventType) (x : F32) (t : F64) : Input F32 F64 := pressed e x t (fl 1 3) (fl 1 3)

/-- A Down and a Move with them. -/
def Ex.thirdly : List (Op F32 F64) :=
  [.resetParams params, .update (thirds .down 0 0) [], .update (thirds .move 1 (d 1 50)) []]

/-- C80 applies to them, and there are results and predictions. -/
example [Libm] : ∃ (rs : List (Response F32 F64)) (m : StrokeModeler F32 F64), Session thirdly rs m ∧ Regular thirdly rs ∧
    (known thirdly rs).params = some params ∧ isFinite (fl 1 3) = true ∧ (0 ≤ᵇ fl 1 3) = true ∧
    (∀ f ∈ strokeOf thirdly rs, (f.input.pressure =ᵇ fl 1 3) = true ∧ (f.input.tilt =ᵇ fl 1 3) = true) ∧
    3 ≤ (resultsOf (strokeOf thirdly rs)).length ∧ ∃ m' r, step m (.predict []) = .ok (m', r) ∧ 3 ≤ r.results.length := by
  obtain ⟨rs, m, h, hP⟩ := exists_session (ops := thirdly) (P := fun rs m => noStale thirdly rs &&
    decide ((known thirdly rs).params = some params ∧ 3 ≤ (resultsOf (strokeOf thirdly rs)).length) &&
    (strokeOf thirdly rs).all (fun f => (f.input.pressure =ᵇ fl 1 3) && (f.input.tilt =ᵇ fl 1 3)) &&
    match step m (.predict []) with
    | .ok (_, r) => decide (3 ≤ r.results.length)
    | _ => false) (by kernel_rfl)
  simp only [Bool.and_eq_true, List.all_eq_true, decide_eq_true_eq] at hP
  obtain ⟨⟨⟨h1, h2, h3⟩, h4⟩, h5⟩ := hP
  refine ⟨rs, m, h, ⟨noStale_iff h1, ?_⟩, h2, by decide +kernel, by decide +kernel,
    fun f hf => h4 f hf, h3, ?_⟩
  · intro a p b h hd
    have hm : Op.resetParams p ∈ thirdly := by simp [h]
    simp [thirdly] at hm
    simp [hm, params] at hd
  · split at h5
    · rename_i m' r hs
      exact ⟨m', r, hs, of_decide_eq_true h5⟩
    · cases h5

theorem Ex.one_turn [Libm] : (widen (1 : F32) ≤ᵇ (twoPi F32 : F64)) = true := by
  have h1 : Fl.Finite (1 : F32) := Fl.finite_lit Fl.one_lt_two_pow
  rw [Fl.le_num (Fl.finite_widen h1).1 Fl.finite_twoPi.1, Fl.num_twoPi, Fl.num_widen h1, Fl.num_one, decide_eq_true_eq]
  have := Fl.tau_bounds
  linarith

/-- A stylus that goes on pointing to 1 rad. -/
def Ex.facingSame : Input F32 F64 := { inp .move 1 0 (d 1 50) with orientation := 1 }

open Fl in
/-- C80 applies to this stroke of constant orientation, and its Move has results. -/
example [Libm] : ∃ (rs : List (Response F32 F64)) (m : StrokeModeler F32 F64) (out : List (Result F32 F64)),
    Session [.resetParams params, .update facingDown [], .update facingSame []] rs m ∧
    Regular [.resetParams params, .update facingDown [], .update facingSame []] rs ∧
    strokeOf [.resetParams params, .update facingDown [], .update facingSame []] rs =
      [⟨facingDown, some [StrokeModeler.downResult facingDown]⟩, ⟨facingSame, some out⟩] ∧ out ≠ [] ∧
    (∀ f ∈ [facingDown, facingSame], (f.orientation =ᵇ (1 : F32)) = true) ∧ isFinite (1 : F32) = true ∧ ((0 : F32) ≤ᵇ 1) = true ∧
    (widen (1 : F32) ≤ᵇ (twoPi F32 : F64)) = true := by
  have o1 : FromZeroTo (2 ^ 27) facingDown.orientation := by
    refine ⟨num (1 : F32), val_num (finite_lit one_lt_two_pow), ?_, ?_⟩ <;> rw [num_one] <;> norm_num
  have o2 : FromZeroTo (2 ^ 27) facingSame.orientation := o1
  obtain ⟨rs, m, h, hP⟩ := exists_session (ops := [.resetParams params, .update facingDown []])
    (P := fun rs m => decide (refusal m.known facingSame = none) &&
      (match strokeOf [.resetParams params, .update facingDown []] rs with
        | [e] => decide (e.input = facingDown ∧ e.results = some [StrokeModeler.downResult facingDown])
        | _ => false) &&
      decide (rs.length = 2) &&
      (match m.lastInput, m.params with
      | some last, some p =>
        (match numberOfStepsBetweenInputs m.position.state last.input facingSame p.sampling p.position with
        | .ok (.ok n) => decide (1 ≤ n)
        | _ => false)
      | _, _ => false)) (by kernel_rfl)
  simp only [Bool.and_eq_true, decide_eq_true_eq] at hP
  obtain ⟨⟨⟨h1, h2⟩, h3⟩, h4⟩ := hP
  have oriented : ∀ i : Input F32 F64, FromZeroTo (2 ^ 27) i.orientation → ∀ r, val i.orientation = some r → r ≤ ((2 ^ 27 : ℝ) : EReal) := by
    rintro i ⟨x, hx, -, hx'⟩ r hr
    rw [hx] at hr
    cases hr
    exact EReal.coe_le_coe_iff.2 hx'
  obtain ⟨m', resp, hst⟩ := C20_calls_return_partial h (by
    intro op hop
    simp only [List.mem_cons, List.not_mem_nil, or_false] at hop
    rcases hop with rfl | rfl
    · trivial
    · exact oriented _ o1) (.inl (by simp)) (.update facingSame []) (oriented _ o2) (by simp)
  have hst' := hst
  simp only [step] at hst
  obtain ⟨⟨m₁, s, v'⟩, hu, hst⟩ := Outcome.bind_eq_ok.1 hst
  simp only [Outcome.pure_eq, Outcome.ok.injEq, Prod.mk.injEq] at hst
  obtain ⟨rfl, rfl⟩ := hst
  have hk : refusal (known [.resetParams params, .update facingDown []] rs) facingSame = none := by rw [← h.known]; exact h1
  rcases update_ok hu with ⟨_, _, hc, _⟩ | ⟨_, p, hp, ⟨hc, _⟩ | ⟨last, _, hl, hc⟩ | ⟨last, hc, _⟩⟩
  · rw [h1] at hc; cases hc
  · exact absurd hc (by decide)
  · simp only [hl, hp] at h4
    have h4 : ∃ n, numberOfStepsBetweenInputs m.position.state last.input facingSame p.sampling p.position = .ok (.ok n) ∧ 1 ≤ n := by
      split at h4
      · rename_i n hn; exact ⟨n, hn, of_decide_eq_true h4⟩
      · cases h4
    obtain ⟨k, hk1, hk2⟩ := h4
    obtain ⟨_, _, _, _, _, ⟨hn, _⟩ | ⟨n, _, _, out, hn, _, hq, rfl, _, rfl⟩⟩ := StrokeModeler.processMove_ok hl hc
    · exact absurd (hn.symm.trans hk1) (by simp)
    · have := hn.symm.trans hk1
      simp only [Outcome.ok.injEq, Except.ok.injEq] at this
      subst this
      have hsn := Session.snoc h hst'
      rw [List.cons_append, List.cons_append, List.nil_append] at hsn
      refine ⟨rs ++ [⟨.ok, v'⟩], m₁, v', hsn, ⟨?_, ?_⟩, ?_, ?_, by decide +kernel, by decide +kernel, by decide +kernel, one_turn⟩
      · intro n hn
        rcases n with _ | _ | _ | n <;> simp at hn
      · intro a q b hq hd
        have hm : Op.resetParams q ∈ [Op.resetParams params, .update facingDown [], .update facingSame []] := by simp [hq]
        simp at hm
        simp [hm, params] at hd
      · have e : view ([.resetParams params, .update facingDown []] ++ [.update facingSame []]) (rs ++ [⟨.ok, v'⟩]) = _ :=
          viewFrom_append .initial (by simp [h3])
        have hv : (viewFrom .initial [.resetParams params, .update facingDown []] rs).known = m.known := by
          refine ((Session.viewInv h ⟨?_, ?_⟩).known).symm
          · intro n hn
            rcases n with _ | _ | n <;> simp at hn
          · intro a q b hq hd
            have hm : Op.resetParams q ∈ [Op.resetParams params, .update facingDown []] := by simp [hq]
            simp at hm
            simp [hm, params] at hd
        simp only [List.cons_append, List.nil_append] at e
        unfold strokeOf
        rw [e]
        simp only [viewFrom, StrokeView.after, hv, h1]
        change (strokeOf [.resetParams params, .update facingDown []] rs) ++ _ = _
        split at h2
        · rename_i x hx
          obtain ⟨x1, x2⟩ := of_decide_eq_true h2
          rw [hx]
          cases x
          cases x1
          cases x2
          rfl
        · cases h2
      · intro h0
        have := modelStylus_length hq
        rw [h0, StrokeModeler.moveTips, PositionModeler.updateAlongLinearPath_length] at this
        simp at this
        omega
  · exact absurd hc (by decide)

end Examples

end Ink
