import Verif.Props.Total
import Verif.Props.FloatStylus
import Verif.Props.SaveRestore
/-!
# Orientations of results on floats: C25
-/
namespace Ink
open Scalar Arith

section
open Fl
variable [Libm]

/-- Unknown, not a number, or a direction in [0, 2π). -/
def Heading (o : Fl f32) : Prop := o = -1 ∨ val o = none ∨ ∃ r : ℝ, val o = some (r : EReal) ∧ 0 ≤ r ∧ r < 2 * Real.pi

theorem interpAngle_heading {a b c z : Fl f32} (h : interpAngle (D := Fl f64) a b c = .ok z) : Heading z := by
  obtain ⟨h1, h2⟩ := C22_interpAngle_float a b c
  by_cases hm : Moderate a ∧ Moderate b
  · obtain ⟨y, h3, -, h4⟩ := h1 hm
    rw [h] at h3
    cases h3
    right
    cases hv : val z with
    | none => exact .inl rfl
    | some r =>
      right
      obtain ⟨h5, h6⟩ := h4 r hv
      induction r with
      | bot => simp at h5
      | top => simp at h6
      | coe r => exact ⟨r, rfl, EReal.coe_nonneg.1 h5, EReal.coe_lt_coe_iff.1 h6⟩
  · rw [h2 hm] at h
    cases h

theorem modelStylusGo_headings {s : StylusModeler (Fl f32) (Fl f64)} {tips : List (TipState (Fl f32) (Fl f64))}
    {l l' : LoopModeler (Fl f32) (Fl f64)} {c : Fl f32} {t : Fl f64} {out : List (Result (Fl f32) (Fl f64))}
    (h : modelStylusGo s tips l c t = .ok (l', out)) : ∀ r ∈ out, Heading r.orientation := by
  induction tips generalizing l l' c t out with
  | nil => simp only [modelStylusGo, Outcome.ok.injEq, Prod.mk.injEq] at h; simp [← h.2]
  | cons tip tips ih =>
    simp only [modelStylusGo] at h
    obtain ⟨q, hq, h⟩ := Outcome.bind_eq_ok.1 h
    obtain ⟨r, hr, h⟩ := Outcome.bind_eq_ok.1 h
    obtain ⟨⟨l₁, out'⟩, h₁, h⟩ := Outcome.bind_eq_ok.1 h
    simp only [Outcome.pure_eq, Outcome.ok.injEq, Prod.mk.injEq] at h
    rw [← h.2]
    intro r' hr'
    rcases List.mem_cons.1 hr' with rfl | hr'
    · obtain ⟨o, ho, rfl⟩ := interpResult_ok hr
      change Heading o
      unfold interpOrientation at ho
      split at ho
      · simp only [Outcome.ok.injEq] at ho
        exact .inl ho.symm
      · exact interpAngle_heading ho
    · exact ih h₁ r' hr'

/-- C25 on floats: whatever the inputs, the orientation of a result of a Move or Up is -1 (unknown), NaN, or a direction in [0, 2π),
in any state. (Down repeats the orientation of the input as it is, see C14.) -/
theorem C25_heading_float {m m' : StrokeModeler (Fl f32) (Fl f64)} {i : Input (Fl f32) (Fl f64)} (hi : i.eventType ≠ .down)
    {v : List (Result (Fl f32) (Fl f64))} {resp : Response (Fl f32) (Fl f64)} (h : step m (.update i v) = .ok (m', resp)) :
    ∃ out, resp.results = v ++ out ∧ ∀ r ∈ out, Heading r.orientation := by
  simp only [step] at h
  obtain ⟨⟨m₁, s, v'⟩, hu, h⟩ := Outcome.bind_eq_ok.1 h
  simp only [Outcome.pure_eq, Outcome.ok.injEq, Prod.mk.injEq] at h
  obtain ⟨rfl, rfl⟩ := h
  have same : v' = v → ∃ out, v' = v ++ out ∧ ∀ r ∈ out, Heading r.orientation := fun h => ⟨[], by simp [h]⟩
  rcases update_ok hu with ⟨_, _, _, _, _, h⟩ | ⟨_, p, _, ⟨h, _⟩ | ⟨last, _, hl, h⟩ | ⟨last, _, hl, h⟩⟩
  · exact same h
  · exact absurd h hi
  · obtain ⟨_, _, _, _, _, ⟨_, _, h⟩ | ⟨_, _, _, out, _, _, hq, _, _, h⟩⟩ := StrokeModeler.processMove_ok hl h
    · exact same h
    · exact ⟨out, h, modelStylusGo_headings hq⟩
  · rcases StrokeModeler.processUp_ok hl h with ⟨_, _, h⟩ | ⟨_, _, _, out, _, _, hq, _, _, h⟩
    · exact same h
    · exact ⟨out, h, modelStylusGo_headings hq⟩

/-- C25 on floats, predictions: likewise. -/
theorem C25_predicted_heading_float {m m' : StrokeModeler (Fl f32) (Fl f64)} {v : List (Result (Fl f32) (Fl f64))}
    {resp : Response (Fl f32) (Fl f64)} (h : step m (.predict v) = .ok (m', resp)) : ∀ r ∈ resp.results, Heading r.orientation := by
  simp only [step] at h
  obtain ⟨⟨m₁, s, v'⟩, hu, h⟩ := Outcome.bind_eq_ok.1 h
  simp only [Outcome.pure_eq, Outcome.ok.injEq, Prod.mk.injEq] at h
  obtain ⟨rfl, rfl⟩ := h
  rcases predict_ok hu with ⟨_, _, _, rfl, _⟩ | ⟨_, _, _, _, _, out, _, _, _, _, hq, _, _, rfl⟩
  · simp
  · exact modelStylusGo_headings hq

/-! ## Known orientations -/

/-- A known orientation that is not too large. -/
def Facing (o : Fl f32) : Prop := Fl.isNaN o = false ∧ 0 ≤ num o ∧ num o ≤ 2 ^ 27

omit [Libm] in
theorem Facing.known {o : Fl f32} (h : Facing o) : (o <ᵇ 0) = false := by
  rw [lt_zero h.1, decide_eq_false_iff_not, not_lt]
  exact h.2.1

theorem Facing.interp {a b r : Result (Fl f32) (Fl f64)} {c : Fl f32} (h : interpResult a b c = .ok r)
    (ha : Facing a.orientation) (hb : Facing b.orientation) :
    (Fl.isNaN c = false → Facing r.orientation ∧ num r.orientation < tau) ∧
    (Fl.isNaN c = true → Fl.isNaN r.orientation = true ∧ Fl.isNaN r.time = true) := by
  obtain ⟨o, ho, rfl⟩ := interpResult_ok h
  change (Fl.isNaN c = false → Facing o ∧ num o < tau) ∧ (Fl.isNaN c = true → Fl.isNaN o = true ∧ Fl.isNaN (interpTime a.time b.time c) = true)
  simp only [interpOrientation, ha.known, hb.known, Bool.or_self, Bool.false_eq_true, ↓reduceIte] at ho
  have mild : ∀ {x : Fl f32}, Facing x → Mild x := fun h => .inr (by rw [abs_of_nonneg h.2.1]; exact h.2.2)
  obtain ⟨z, h1, h2, h3⟩ := interpAngle_mild c (mild ha) (mild hb)
  rw [ho] at h1
  cases h1
  rw [ha.1, hb.1] at h2
  simp only [Bool.false_eq_true, false_or] at h2
  refine ⟨fun hc => ?_, fun hc => ⟨h2.2 hc, ?_⟩⟩
  · have hn : Fl.isNaN o = false := by
      cases hn : Fl.isNaN o with
      | false => rfl
      | true => rw [h2.1 hn] at hc; cases hc
    obtain ⟨-, h4, h5⟩ := h3 hn
    have := tau_bounds
    exact ⟨⟨hn, h4, (h5.le.trans this.2.le).trans (by norm_num)⟩, h5⟩
  · exact add_nan_right _ (mul_nan_right _ (widen_nan ((clamp01_spec c).1.trans hc)))

theorem Facing.query {s : StylusModeler (Fl f32) (Fl f64)} {tip : TipState (Fl f32) (Fl f64)}
    {n : Option (Vec2 (Fl f32))} {q : Result (Fl f32) (Fl f64)} (h : s.query tip n = .ok q) (hne : s.state.inputs ≠ [])
    (hs : s.state.unknownOrientation = false) (hin : ∀ x ∈ s.state.inputs, Facing x.orientation) : Facing q.orientation := by
  rcases StylusModeler.query_ok h with ⟨he, -⟩ | ⟨-, p, r, hp, hr, rfl⟩
  · exact absurd he hne
  · have key : (StylusModeler.strip s.state tip r).orientation = r.orientation := by simp [StylusModeler.strip, hs]
    rw [key]
    unfold StylusModeler.projectedResult at hr
    split at hr
    · rename_i p
      split at hr
      · rename_i a b ha hb
        exact ((Facing.interp hr (hin _ (List.mem_of_getElem? ha)) (hin _ (List.mem_of_getElem? hb))).1 (projection_ratio hp _ rfl)).1
      · cases hr
    · split at hr
      · rename_i a b ha hb
        simp only [Outcome.ok.injEq] at hr
        rw [← hr]
        split
        · exact hin _ (List.mem_of_mem_head? ha)
        · exact hin _ (List.mem_of_getLast? hb)
      · cases hr

/-- A direction in [0, 2π), unless the result has no time. -/
def Turned (r : Result (Fl f32) (Fl f64)) : Prop :=
  (Fl.isNaN r.orientation = true ∧ Fl.isNaN r.time = true) ∨ (Facing r.orientation ∧ num r.orientation < tau)

theorem Facing.results {s : StylusModeler (Fl f32) (Fl f64)} {tips : List (TipState (Fl f32) (Fl f64))}
    {l l' : LoopModeler (Fl f32) (Fl f64)} {c : Fl f32} {t : Fl f64} {out : List (Result (Fl f32) (Fl f64))}
    (h : modelStylusGo s tips l c t = .ok (l', out)) (hne : s.state.inputs ≠ [])
    (hs : s.state.unknownOrientation = false) (hin : ∀ x ∈ s.state.inputs, Facing x.orientation) :
    ∀ r ∈ out, (l.params.isEnabled = false → c = 1 → Facing r.orientation ∧ num r.orientation < tau) ∧ Turned r := by
  induction tips generalizing l l' c t out with
  | nil => simp only [modelStylusGo, Outcome.ok.injEq, Prod.mk.injEq] at h; simp [← h.2]
  | cons tip tips ih =>
    simp only [modelStylusGo] at h
    obtain ⟨q, hq, h⟩ := Outcome.bind_eq_ok.1 h
    obtain ⟨r, hr, h⟩ := Outcome.bind_eq_ok.1 h
    obtain ⟨⟨l₁, out'⟩, h₁, h⟩ := Outcome.bind_eq_ok.1 h
    simp only [Outcome.pure_eq, Outcome.ok.injEq, Prod.mk.injEq] at h
    rw [← h.2]
    intro r' hr'
    rcases List.mem_cons.1 hr' with rfl | hr'
    · have q1 := Facing.query hq hne hs hin
      obtain ⟨k1, k2⟩ := Facing.interp hr q1 (b := makeResultFromTipState tip q) q1
      refine ⟨?_, ?_⟩
      · rintro - rfl
        exact k1 (finite_lit one_lt_two_pow).1
      · cases hc : Fl.isNaN c with
        | false => exact .inr (k1 hc)
        | true => exact .inl (k2 hc)
    · obtain ⟨i1, i2⟩ := ih h₁ r' hr'
      refine ⟨?_, i2⟩
      intro hl _
      exact i1 (by rw [loop_update_params]; exact hl) (by simp [LoopModeler.update, hl])

variable {p : StrokeModelParams (Fl f32) (Fl f64)} {es : List (Event (Fl f32) (Fl f64))} {m : StrokeModeler (Fl f32) (Fl f64)}

/-- The samples held have orientations if all inputs have. -/
theorem facing_held (h : Course p es m) (hin : ∀ f ∈ es, Facing f.input.orientation) :
    m.stylus.state.inputs ≠ [] ∧ m.stylus.state.unknownOrientation = false ∧ ∀ x ∈ m.stylus.state.inputs, Facing x.orientation := by
  obtain ⟨f1, f2, f3⟩ := h.flags
  have hgone : m.stylus.state.unknownOrientation = false := by
    rw [f3, List.any_eq_false]
    intro f hf
    have h1 := hin f hf
    have h2 : Scalar.isNaN f.input.orientation = false := h1.1
    simp [isUnknown, h1.known, h2]
  refine ⟨Fl.Course.held_ne_nil h (by simp [StylusModelerState.blank, hgone]), hgone, ?_⟩
  intro x hx
  have hm : x.tag ∈ es.map fun f => f.input.tag := (Fl.Course.held h).subset (List.mem_map_of_mem hx)
  obtain ⟨f, hf, hft⟩ := List.mem_map.1 hm
  simp only [Result.tag, Input.tag, Prod.mk.injEq] at hft
  rw [← hft.2.2.2]
  exact hin f hf

theorem facing_last {f : Event (Fl f32) (Fl f64)} (h : Course p (es ++ [f]) m) (hes : es ≠ [])
    (hin : ∀ g ∈ es ++ [f], Facing g.input.orientation) {out : List (Result (Fl f32) (Fl f64))} (hout : f.results = some out) :
    ∀ r ∈ out, (p.position.loop.isEnabled = false → Facing r.orientation ∧ num r.orientation < tau) ∧ Turned r := by
  obtain ⟨g1, g2, g3⟩ := facing_held h hin
  have fin : ∀ {es' : List (Event (Fl f32) (Fl f64))} {m' : StrokeModeler (Fl f32) (Fl f64)} {tips t l' out} , Course p es' m' →
      modelStylus tips m.stylus m'.loop t = .ok (l', out) →
      ∀ r ∈ out, (p.position.loop.isEnabled = false → Facing r.orientation ∧ num r.orientation < tau) ∧ Turned r := by
    intro es' m' tips t l' out hc hq r hr
    obtain ⟨k1, k2⟩ := Facing.results hq g1 g2 g3 r hr
    refine ⟨fun hoff => ?_, k2⟩
    have : m'.loop.params.isEnabled = false := by rw [hc.paramsOf.loop]; exact hoff
    exact k1 this (by simp [LoopModeler.getInterpolationValue, this])
  generalize hes' : es ++ [f] = es' at h
  cases h with
  | down =>
    cases es with
    | nil => exact absurd rfl hes
    | cons x a => simp at hes'
  | move hm hl he hfi hw hs hn hp hq =>
    obtain ⟨-, hfe⟩ := List.append_inj' hes' rfl
    simp only [List.cons.injEq, and_true] at hfe
    subst hfe
    cases hout
    exact fin hm hq
  | late =>
    obtain ⟨-, hfe⟩ := List.append_inj' hes' rfl
    simp only [List.cons.injEq, and_true] at hfe
    subst hfe
    cases hout
  | up hm hl he hfi hs hn hq =>
    obtain ⟨-, hfe⟩ := List.append_inj' hes' rfl
    simp only [List.cons.injEq, and_true] at hfe
    subst hfe
    cases hout
    exact fin hm hq

/-- The value is a number in [0, x]. -/
def FromZeroTo (x : ℝ) (o : Fl f32) : Prop := ∃ r : ℝ, val o = some (r : EReal) ∧ 0 ≤ r ∧ r ≤ x

/-- The value is a number in [0, 2π). -/
def Direction (o : Fl f32) : Prop := ∃ r : ℝ, val o = some (r : EReal) ∧ 0 ≤ r ∧ r < 2 * Real.pi

omit [Libm] in
theorem facing_of {o : Fl f32} (h : FromZeroTo (2 ^ 27) o) : Facing o := by
  obtain ⟨r, h1, h2, h3⟩ := h
  have hf := Fl.finite_of_isFinite (Fl.isFinite_val.2 ⟨_, h1⟩)
  rw [Fl.val_num hf] at h1
  simp only [Option.some.injEq, EReal.coe_eq_coe_iff] at h1
  subst h1
  exact ⟨hf.1, h2, h3⟩

omit [Libm] in
theorem Facing.direction {o : Fl f32} (h : Facing o) (ht : num o < tau) : Direction o := by
  refine ⟨num o, val_num (finite_of_num_le (j := 27) h.1 (by decide) ?_), h.2.1, ht.trans tau_lt_two_pi⟩
  rw [abs_of_nonneg h.2.1]
  exact h.2.2

variable {ops : List (Op (Fl f32) (Fl f64))} {rs : List (Response (Fl f32) (Fl f64))}

/-- C25 on floats, Moves and Ups: if all inputs so far have an orientation between 0 and 2^27, the results have an orientation in
[0, 2π). With loop mitigation it may be NaN instead, but then the result's time is NaN too (see `C24_refuted`). -/
theorem C25_known_heading_float (h : Session ops rs m) (hr : Regular ops rs) (hp : (known ops rs).params = some p)
    {e f : Event (Fl f32) (Fl f64)} {a b : List (Event (Fl f32) (Fl f64))}
    (hs : strokeOf ops rs = e :: (a ++ f :: b)) {out : List (Result (Fl f32) (Fl f64))} (hout : f.results = some out)
    {r : Result (Fl f32) (Fl f64)} (hmem : r ∈ out) (hin : ∀ g ∈ e :: (a ++ [f]), FromZeroTo (2 ^ 27) g.input.orientation) :
    (p.position.loop.isEnabled = false → Direction r.orientation) ∧
    ((Scalar.isNaN r.orientation = true ∧ Scalar.isNaN r.time = true) ∨ Direction r.orientation) := by
  obtain ⟨p', m₀, hp', hc, -⟩ := h.course hr (by rw [hs]; simp)
  obtain rfl : p = p' := by rw [hp] at hp'; exact Option.some.inj hp'
  rw [hs, show e :: (a ++ f :: b) = ((e :: a) ++ [f]) ++ b by simp] at hc
  obtain ⟨m₁, hc⟩ := hc.take (by simp)
  obtain ⟨k1, k2⟩ := facing_last hc (by simp) (fun g hg => facing_of (hin g (by simpa using hg))) hout r hmem
  exact ⟨fun hoff => (k1 hoff).1.direction (k1 hoff).2, k2.imp_right fun h => h.1.direction h.2⟩

/-- C25 on floats, predictions with known orientations: likewise. -/
theorem C25_known_predicted_float (h : Session ops rs m) (hr : Regular ops rs) (hp : (known ops rs).params = some p)
    {v : List (Result (Fl f32) (Fl f64))} {m' : StrokeModeler (Fl f32) (Fl f64)}
    {resp : Response (Fl f32) (Fl f64)} (hst : step m (.predict v) = .ok (m', resp)) {r : Result (Fl f32) (Fl f64)}
    (hmem : r ∈ resp.results) (hin : ∀ g ∈ strokeOf ops rs, FromZeroTo (2 ^ 27) g.input.orientation) :
    (p.position.loop.isEnabled = false → Direction r.orientation) ∧
    ((Scalar.isNaN r.orientation = true ∧ Scalar.isNaN r.time = true) ∨ Direction r.orientation) := by
  simp only [step] at hst
  obtain ⟨⟨m₁, s, v'⟩, hu, hst⟩ := Outcome.bind_eq_ok.1 hst
  simp only [Outcome.pure_eq, Outcome.ok.injEq, Prod.mk.injEq] at hst
  obtain ⟨rfl, rfl⟩ := hst
  rcases predict_ok hu with ⟨_, _, _, rfl, _⟩ | ⟨_, _, last, _, _, _, _, _, hl, _⟩
  · simp at hmem
  · obtain ⟨p', m₀, hp', hc, hsl⟩ := h.course hr (h.in_progress hr (by simp [hl]))
    obtain rfl : p = p' := by rw [hp] at hp'; exact Option.some.inj hp'
    obtain ⟨_, hu, -⟩ := hsl.predict_ok hu
    rcases predict_ok hu with ⟨_, _, _, rfl, _⟩ | ⟨_, pr, last, tips, _, out, _, _, hl, _, hms, _, _, rfl⟩
    · simp at hmem
    obtain ⟨g1, g2, g3⟩ := facing_held hc fun f hf => facing_of (hin f hf)
    obtain ⟨k1, k2⟩ := Facing.results hms g1 g2 g3 r hmem
    refine ⟨fun hoff => ?_, k2.imp_right fun h => h.1.direction h.2⟩
    have : m₀.loop.params.isEnabled = false := by rw [hc.paramsOf.loop]; exact hoff
    have := k1 this (by simp [LoopModeler.getInterpolationValue, this])
    exact this.1.direction this.2

end

section Examples
open Ex Fl
variable [Libm]

/-- A stylus pointing to 1 rad and then, one and a half turns later, to about 10 rad. -/
def Ex.facingDown : Input F32 F64 := { inp .down 0 0 0 with orientation := 1 }
@[inherit_doc Ex.facingDown] def Ex.facingMove : Input F32 F64 := { inp .move 1 0 (d 1 50) with orientation := fl 10 1 }

/-- C25 applies to this stroke, and its Move has results. -/
example : ∃ (rs : List (Response F32 F64)) (m : StrokeModeler F32 F64) (out : List (Result F32 F64)),
    Session [.resetParams params, .update facingDown [], .update facingMove []] rs m ∧
    Regular [.resetParams params, .update facingDown [], .update facingMove []] rs ∧
    strokeOf [.resetParams params, .update facingDown [], .update facingMove []] rs =
      [⟨facingDown, some [StrokeModeler.downResult facingDown]⟩, ⟨facingMove, some out⟩] ∧ out ≠ [] ∧
    FromZeroTo (2 ^ 27) facingDown.orientation ∧ FromZeroTo (2 ^ 27) facingMove.orientation := by
  have o1 : FromZeroTo (2 ^ 27) facingDown.orientation := by
    refine ⟨num (1 : F32), val_num (finite_lit one_lt_two_pow), ?_, ?_⟩ <;> rw [num_one] <;> norm_num
  have o2 : FromZeroTo (2 ^ 27) facingMove.orientation := by
    have e : num (fl 10 1) = 10 := by
      have hk : Fl.key (fl 10 1) = 10 * 2 ^ f32.q := by decide +kernel
      unfold Fl.num
      rw [hk]
      push_cast
      rw [mul_div_assoc, div_self (by positivity), mul_one]
    refine ⟨num (fl 10 1), val_num (by decide +kernel), ?_, ?_⟩ <;> rw [e] <;> norm_num
  obtain ⟨rs, m, h, hP⟩ := exists_session (ops := [.resetParams params, .update facingDown []])
    (P := fun rs m => decide (refusal m.known facingMove = none) &&
      (match strokeOf [.resetParams params, .update facingDown []] rs with
        | [e] => decide (e.input = facingDown ∧ e.results = some [StrokeModeler.downResult facingDown])
        | _ => false) &&
      decide (rs.length = 2) &&
      (match m.lastInput, m.params with
      | some last, some p =>
        (match numberOfStepsBetweenInputs m.position.state last.input facingMove p.sampling p.position with
        | .ok (.ok n) => decide (1 ≤ n)
        | _ => false)
      | _, _ => false)) (by kernel_rfl)
  simp only [Bool.and_eq_true, decide_eq_true_eq] at hP
  obtain ⟨⟨⟨h1, h2⟩, h3⟩, h4⟩ := hP
  have oriented : ∀ i : Input F32 F64, FromZeroTo (2 ^ 27) i.orientation → ∀ r, val i.orientation = some r → r ≤ ((2 ^ 27 : ℝ) : EReal) := by
    rintro i ⟨x, hx, -, hx'⟩ r hr
    rw [hx] at hr
    cases hr
    exact EReal.coe_le_coe_iff.2 hx'
  obtain ⟨m', resp, hst⟩ := C20_calls_return_partial h (by
    intro op hop
    simp only [List.mem_cons, List.not_mem_nil, or_false] at hop
    rcases hop with rfl | rfl
    · trivial
    · exact oriented _ o1) (.inl (by simp)) (.update facingMove []) (oriented _ o2) (by simp)
  have hst' := hst
  simp only [step] at hst
  obtain ⟨⟨m₁, s, v'⟩, hu, hst⟩ := Outcome.bind_eq_ok.1 hst
  simp only [Outcome.pure_eq, Outcome.ok.injEq, Prod.mk.injEq] at hst
  obtain ⟨rfl, rfl⟩ := hst
  have hk : refusal (known [.resetParams params, .update facingDown []] rs) facingMove = none := by rw [← h.known]; exact h1
  rcases update_ok hu with ⟨_, _, hc, _⟩ | ⟨_, p, hp, ⟨hc, _⟩ | ⟨last, _, hl, hc⟩ | ⟨last, hc, _⟩⟩
  · rw [h1] at hc; cases hc
  · exact absurd hc (by decide)
  · simp only [hl, hp] at h4
    have h4 : ∃ n, numberOfStepsBetweenInputs m.position.state last.input facingMove p.sampling p.position = .ok (.ok n) ∧ 1 ≤ n := by
      split at h4
      · rename_i n hn; exact ⟨n, hn, of_decide_eq_true h4⟩
      · cases h4
    obtain ⟨k, hk1, hk2⟩ := h4
    obtain ⟨_, _, _, _, _, ⟨hn, _⟩ | ⟨n, _, _, out, hn, _, hq, rfl, _, rfl⟩⟩ := StrokeModeler.processMove_ok hl hc
    · exact absurd (hn.symm.trans hk1) (by simp)
    · have := hn.symm.trans hk1
      simp only [Outcome.ok.injEq, Except.ok.injEq] at this
      subst this
      have hsn := Session.snoc h hst'
      rw [List.cons_append, List.cons_append, List.nil_append] at hsn
      refine ⟨rs ++ [⟨.ok, v'⟩], m₁, v', hsn, ⟨?_, ?_⟩, ?_, ?_, o1, o2⟩
      · intro n hn
        rcases n with _ | _ | _ | n <;> simp at hn
      · intro a q b hq hd
        have hm : Op.resetParams q ∈ [Op.resetParams params, .update facingDown [], .update facingMove []] := by simp [hq]
        simp at hm
        simp [hm, params] at hd
      · have e : view ([.resetParams params, .update facingDown []] ++ [.update facingMove []]) (rs ++ [⟨.ok, v'⟩]) = _ :=
          viewFrom_append .initial (by simp [h3])
        have hv : (viewFrom .initial [.resetParams params, .update facingDown []] rs).known = m.known := by
          refine ((Session.viewInv h ⟨?_, ?_⟩).known).symm
          · intro n hn
            rcases n with _ | _ | n <;> simp at hn
          · intro a q b hq hd
            have hm : Op.resetParams q ∈ [Op.resetParams params, .update facingDown []] := by simp [hq]
            simp at hm
            simp [hm, params] at hd
        simp only [List.cons_append, List.nil_append] at e
        unfold strokeOf
        rw [e]
        simp only [viewFrom, StrokeView.after, hv, h1]
        change (strokeOf [.resetParams params, .update facingDown []] rs) ++ _ = _
        split at h2
        · rename_i x hx
          obtain ⟨x1, x2⟩ := of_decide_eq_true h2
          rw [hx]
          cases x
          cases x1
          cases x2
          rfl
        · cases h2
      · intro h0
        have := modelStylus_length hq
        rw [h0, StrokeModeler.moveTips, PositionModeler.updateAlongLinearPath_length] at this
        simp at this
        omega
  · exact absurd hc (by decide)

end Examples

end Ink
