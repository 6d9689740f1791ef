import Verif.IEEE.Interp
import Verif.Props.FloatSpring
/-!
# Pressure and tilt on floats: C24
-/
namespace Ink
open Scalar Arith

namespace Fl
variable [Libm]

/-! ## The ratio of a projection is a number -/

theorem distance_nan {x : Vec2 (Fl f32)} {a b : Vec2 (Fl f32)} {c : Fl f32} (hc : Fl.isNaN c = true) :
    Fl.isNaN (distance x (interpVec a b c)) = true := by
  have h1 : ∀ u v w : Fl f32, Fl.isNaN (u + clamp01 c * v - w) = true := fun u v w =>
    sub_nan_left _ (add_nan_right _ (mul_nan_left _ ((clamp01_spec c).1.trans hc)))
  have hx := h1 a.x (b.x - a.x) x.x
  have hy := h1 a.y (b.y - a.y) x.y
  change Fl.isNaN (Fl.hypot (a.x + clamp01 c * (b.x - a.x) - x.x) (a.y + clamp01 c * (b.y - a.y) - x.y)) = true
  revert hx hy
  generalize a.x + clamp01 c * (b.x - a.x) - x.x = u
  generalize a.y + clamp01 c * (b.y - a.y) - x.y = v
  intro hu hv
  cases u <;> simp [Fl.isNaN] at hu
  cases v <;> simp [Fl.isNaN] at hv
  rfl

omit [Libm] in
theorem le_nan_left {x y : Fl f32} (h : Fl.isNaN x = true) : (x ≤ᵇ y) = false := by
  cases x <;> simp [Fl.isNaN] at h
  rfl

/-- The projection has a number as ratio. -/
def Ratio (p : Option (RawInputProjection (Fl f32))) : Prop := ∀ r, p = some r → Fl.isNaN r.ratio = false

theorem closestLoop_ratio (x : Vec2 (Fl f32)) (l : List (Result (Fl f32) (Fl f64))) (i : ℕ) (best : Option (RawInputProjection (Fl f32)))
    (d : Fl f32) (h : Ratio best) : Ratio (StylusModeler.closestLoop x l i best d) := by
  induction l generalizing i best d with
  | nil => exact h
  | cons a l ih =>
    cases l with
    | nil => exact h
    | cons b rest =>
      simp only [StylusModeler.closestLoop]
      split
      · rename_i hle
        refine ih _ _ _ ?_
        rintro r ⟨⟩
        cases hn : Fl.isNaN (nearestPointOnSegment a.position b.position x) with
        | false => rfl
        | true => rw [le_nan_left (distance_nan hn)] at hle; cases hle
      · exact ih _ _ _ h

theorem normalLoop_ratio (x n : Vec2 (Fl f32)) (l : List (Result (Fl f32) (Fl f64))) (i : ℕ) (best : StylusModeler.NormalBest (Fl f32))
    (h : Ratio best.left ∧ Ratio best.right) :
    Ratio (StylusModeler.normalLoop x n l i best).left ∧ Ratio (StylusModeler.normalLoop x n l i best).right := by
  induction l generalizing i best with
  | nil => exact h
  | cons a l ih =>
    cases l with
    | nil => exact h
    | cons b rest =>
      simp only [StylusModeler.normalLoop]
      refine ih _ _ ?_
      unfold StylusModeler.normalRound
      split
      · exact h
      · rename_i ratio _
        have hnum : ∀ d : Fl f32, (distance x (interpVec a.position b.position ratio) <ᵇ d) = true → Fl.isNaN ratio = false := by
          intro d hd
          cases hn : Fl.isNaN ratio with
          | false => rfl
          | true => rw [lt_nan_left (distance_nan hn)] at hd; cases hd
        dsimp only
        split
        · split
          · rename_i hd
            exact ⟨h.1, by rintro r ⟨⟩; exact hnum _ hd⟩
          · exact h
        · split
          · rename_i hd
            exact ⟨by rintro r ⟨⟩; exact hnum _ hd, h.2⟩
          · exact h

theorem projection_ratio {s : StylusModeler (Fl f32) (Fl f64)} {tip : TipState (Fl f32) (Fl f64)} {n : Option (Vec2 (Fl f32))}
    {p : Option (RawInputProjection (Fl f32))} (h : s.projection tip n = .ok p) : Ratio p := by
  have closest : ∀ {x : Vec2 (Fl f32)} {l : List (Result (Fl f32) (Fl f64))} {p}, StylusModeler.projectToClosestPoint x l = .ok p → Ratio p := by
    intro x l p h
    unfold StylusModeler.projectToClosestPoint at h
    split at h
    · cases h
    · simp only [Outcome.ok.injEq] at h
      rw [← h]
      exact closestLoop_ratio _ _ _ _ _ (by rintro r ⟨⟩)
  unfold StylusModeler.projection at h
  split at h
  · unfold StylusModeler.projectAlongStrokeNormal at h
    split at h
    · cases h
    · simp only [Outcome.ok.injEq] at h
      rename_i k _ _
      obtain ⟨h1, h2⟩ := normalLoop_ratio tip.position k s.state.inputs 0 ⟨none, none, Arith.inf, Arith.inf⟩
        ⟨by rintro r ⟨⟩, by rintro r ⟨⟩⟩
      rw [← h]
      split
      · split
        · exact h2
        · exact h1
      · split
        · exact h2
        · exact h1
  · exact closest h

/-! ## Fields in range -/

omit [Libm] in
theorem Within.known {m : ℝ} {x : Fl f32} (h : Within m x) : (x <ᵇ 0) = false := by
  rw [lt_num h.finite.1 finite_zero.1, num_zero, decide_eq_false_iff_not, not_lt]
  exact h.low

/-- A field of a result: pressure or tilt, and whether it is withheld. -/
inductive Gauge (j : ℕ) (get : Result (Fl f32) (Fl f64) → Fl f32) (gone : StylusModelerState (Fl f32) (Fl f64) → Bool) : Prop
  | pressure (hj : j = 0) (h1 : get = (·.pressure)) (h2 : gone = (·.unknownPressure))
  | tilt (hj : j = 1) (h1 : get = (·.tilt)) (h2 : gone = (·.unknownTilt))

variable {j : ℕ} {get : Result (Fl f32) (Fl f64) → Fl f32} {gone : StylusModelerState (Fl f32) (Fl f64) → Bool}

theorem Gauge.interp (hg : Gauge j get gone) {a b r : Result (Fl f32) (Fl f64)} {c : Fl f32} (h : interpResult a b c = .ok r)
    (ha : Within (2 ^ j) (get a)) (hb : Within (2 ^ j) (get b)) :
    (Fl.isNaN c = false → Within (2 ^ j) (get r)) ∧ ((Fl.isNaN (get r) = true ∧ Fl.isNaN r.time = true) ∨ Within (2 ^ j) (get r)) := by
  obtain ⟨o, -, rfl⟩ := interpResult_ok h
  have key : get (interpResultWith a b c o) = Ink.interp (get a) (get b) c := by
    cases hg with
    | pressure _ h1 h2 => subst h1; simp [interpResultWith, ha.known, hb.known]
    | tilt _ h1 h2 => subst h1; simp [interpResultWith, ha.known, hb.known]
  have hj : j = 0 ∨ j = 1 := by cases hg <;> simp [*]
  rw [key]
  have h1 : Fl.isNaN c = false → Within (2 ^ j) (Ink.interp (get a) (get b) c) := fun hc => interp_within hj ha hb hc
  refine ⟨h1, ?_⟩
  cases hc : Fl.isNaN c with
  | false => exact .inr (h1 hc)
  | true =>
    refine .inl ⟨add_nan_right _ (mul_nan_right _ ((clamp01_spec c).1.trans hc)), add_nan_right _ (mul_nan_right _ ?_)⟩
    exact widen_nan ((clamp01_spec c).1.trans hc)

/-- What the stylus modeler answers is in range. -/
theorem Gauge.query (hg : Gauge j get gone) {s : StylusModeler (Fl f32) (Fl f64)} {tip : TipState (Fl f32) (Fl f64)}
    {n : Option (Vec2 (Fl f32))} {q : Result (Fl f32) (Fl f64)} (h : s.query tip n = .ok q) (hne : s.state.inputs ≠ [])
    (hs : gone s.state = false) (hin : ∀ x ∈ s.state.inputs, Within (2 ^ j) (get x)) :
    Within (2 ^ j) (get q) ∧ get (makeResultFromTipState tip q) = get q := by
  have h2 : get (makeResultFromTipState tip q) = get q := by cases hg with
    | pressure _ h1 => subst h1; rfl
    | tilt _ h1 => subst h1; rfl
  refine ⟨?_, h2⟩
  rcases StylusModeler.query_ok h with ⟨he, -⟩ | ⟨-, p, r, hp, hr, rfl⟩
  · exact absurd he hne
  · have key : get (StylusModeler.strip s.state tip r) = get r := by cases hg with
      | pressure _ h1 h3 => subst h1 h3; simp [StylusModeler.strip, hs]
      | tilt _ h1 h3 => subst h1 h3; simp [StylusModeler.strip, hs]
    rw [key]
    unfold StylusModeler.projectedResult at hr
    split at hr
    · rename_i p
      split at hr
      · rename_i a b ha hb
        exact (hg.interp hr (hin _ (List.mem_of_getElem? ha)) (hin _ (List.mem_of_getElem? hb))).1 (projection_ratio hp _ rfl)
      · cases hr
    · split at hr
      · rename_i a b ha hb
        simp only [Outcome.ok.injEq] at hr
        rw [← hr]
        split
        · exact hin _ (List.mem_of_mem_head? ha)
        · exact hin _ (List.mem_of_getLast? hb)
      · cases hr

theorem Gauge.results (hg : Gauge j get gone) {s : StylusModeler (Fl f32) (Fl f64)} {tips : List (TipState (Fl f32) (Fl f64))}
    {l l' : LoopModeler (Fl f32) (Fl f64)} {c : Fl f32} {t : Fl f64} {out : List (Result (Fl f32) (Fl f64))}
    (h : modelStylusGo s tips l c t = .ok (l', out)) (hne : s.state.inputs ≠ [])
    (hs : gone s.state = false) (hin : ∀ x ∈ s.state.inputs, Within (2 ^ j) (get x)) :
    ∀ r ∈ out, (l.params.isEnabled = false → c = 1 → Within (2 ^ j) (get r)) ∧ ((Fl.isNaN (get r) = true ∧ Fl.isNaN r.time = true) ∨ Within (2 ^ j) (get r)) := by
  induction tips generalizing l l' c t out with
  | nil => simp only [modelStylusGo, Outcome.ok.injEq, Prod.mk.injEq] at h; simp [← h.2]
  | cons tip tips ih =>
    simp only [modelStylusGo] at h
    obtain ⟨q, hq, h⟩ := Outcome.bind_eq_ok.1 h
    obtain ⟨r, hr, h⟩ := Outcome.bind_eq_ok.1 h
    obtain ⟨⟨l₁, out'⟩, h₁, h⟩ := Outcome.bind_eq_ok.1 h
    simp only [Outcome.pure_eq, Outcome.ok.injEq, Prod.mk.injEq] at h
    rw [← h.2]
    intro r' hr'
    rcases List.mem_cons.1 hr' with rfl | hr'
    · obtain ⟨q1, q2⟩ := hg.query hq hne hs hin
      obtain ⟨k1, k2⟩ := hg.interp hr q1 (by rw [q2]; exact q1)
      refine ⟨?_, k2⟩
      rintro - rfl
      exact k1 (finite_lit one_lt_two_pow).1
    · obtain ⟨i1, i2⟩ := ih h₁ r' hr'
      refine ⟨?_, i2⟩
      intro hl _
      exact i1 (by rw [loop_update_params]; exact hl) (by simp [LoopModeler.update, hl])

/-! ## Along a stroke -/

variable {p : StrokeModelParams (Fl f32) (Fl f64)} {es : List (Event (Fl f32) (Fl f64))} {m : StrokeModeler (Fl f32) (Fl f64)}

/-- The field of the inputs. -/
inductive GaugeOf (get : Result (Fl f32) (Fl f64) → Fl f32) (ofInput : Input (Fl f32) (Fl f64) → Fl f32) : Prop
  | pressure (h1 : get = (·.pressure)) (h2 : ofInput = (·.pressure))
  | tilt (h1 : get = (·.tilt)) (h2 : ofInput = (·.tilt))

theorem Course.held (h : Ink.Course p es m) : m.stylus.state.inputs.map Result.tag <:+ es.map fun f => f.input.tag := by
  obtain ⟨cs, hcs, -, hw⟩ := h.window
  have hsuf : m.stylus.state.inputs <:+ rawSamples cs := by
    cases hu : p.stylus.useStrokeNormalProjection with
    | true => exact (hw.suffix hu).1
    | false =>
      cases hb : m.stylus.state.blank with
      | true => rw [hw.cleared hu hb]; exact List.nil_suffix
      | false => rw [hw.closest hu hb]; exact List.drop_suffix _ _
  have := hsuf.map Result.tag
  rw [rawSamples_tag] at this
  have e : (cs.map fun c => c.2.tag) = es.map fun f => f.input.tag := by
    have := congrArg (List.map Input.tag) hcs
    simpa [List.map_map, Function.comp_def] using this
  rwa [e] at this

theorem Course.held_ne_nil (h : Ink.Course p es m) (hb : m.stylus.state.blank = false) : m.stylus.state.inputs ≠ [] := by
  obtain ⟨cs, hcs, -, hw⟩ := h.window
  have hne : 0 < cs.length := by
    have : cs.length = es.length := by simpa using congrArg List.length hcs
    have hes : es ≠ [] := by cases h <;> simp
    rw [this]
    exact List.length_pos_iff.2 hes
  rw [← List.length_pos_iff]
  cases hu : p.stylus.useStrokeNormalProjection with
  | true =>
    have h1 := (hw.suffix hu).2
    have h2 := (validStylus h.valid).1 hu
    rw [rawSamples_length] at h1
    omega
  | false =>
    have h2 := (validStylus h.valid).2 hu
    rw [hw.closest hu hb, List.length_drop, rawSamples_length]
    omega

/-- The samples held have the field if all inputs have it. -/
theorem Course.gauge (h : Ink.Course p es m) {ofInput : Input (Fl f32) (Fl f64) → Fl f32} (hg : Gauge j get gone) (hi : GaugeOf get ofInput)
    (hin : ∀ f ∈ es, Within (2 ^ j) (ofInput f.input)) :
    m.stylus.state.inputs ≠ [] ∧ gone m.stylus.state = false ∧ ∀ x ∈ m.stylus.state.inputs, Within (2 ^ j) (get x) := by
  obtain ⟨f1, f2, f3⟩ := h.flags
  have known : ∀ x : Fl f32, Within (2 ^ j) x → isUnknown x = false := by
    intro x hx
    have h2 : Scalar.isNaN x = false := hx.finite.1
    simp [isUnknown, hx.known, h2]
  have hgone : gone m.stylus.state = false := by
    cases hg with
    | pressure _ h1 h2 =>
      cases hi with
      | tilt h1' => exact absurd (congrFun (h1.symm.trans h1') ⟨⟨0, 0⟩, ⟨0, 0⟩, ⟨0, 0⟩, 0, 0, 1, 0⟩) (by dsimp only; decide +kernel)
      | pressure _ h2' =>
        subst h2 h2'
        dsimp only
        rw [f1, List.any_eq_false]
        exact fun f hf => by simp [known _ (hin f hf)]
    | tilt _ h1 h2 =>
      cases hi with
      | pressure h1' => exact absurd (congrFun (h1.symm.trans h1') ⟨⟨0, 0⟩, ⟨0, 0⟩, ⟨0, 0⟩, 0, 0, 1, 0⟩) (by dsimp only; decide +kernel)
      | tilt _ h2' =>
        subst h2 h2'
        dsimp only
        rw [f2, List.any_eq_false]
        exact fun f hf => by simp [known _ (hin f hf)]
  have hblank : m.stylus.state.blank = false := by
    cases hg with
    | pressure _ _ h2 => subst h2; dsimp only at hgone; simp [StylusModelerState.blank, hgone]
    | tilt _ _ h2 => subst h2; dsimp only at hgone; simp [StylusModelerState.blank, hgone]
  refine ⟨Course.held_ne_nil h hblank, hgone, ?_⟩
  intro x hx
  have hm : x.tag ∈ es.map fun f => f.input.tag := (Course.held h).subset (List.mem_map_of_mem hx)
  obtain ⟨f, hf, hft⟩ := List.mem_map.1 hm
  have : get x = ofInput f.input := by
    simp only [Result.tag, Input.tag, Prod.mk.injEq] at hft
    cases hi with
    | pressure h1 h2 => subst h1 h2; exact hft.2.1.symm
    | tilt h1 h2 => subst h1 h2; exact hft.2.2.1.symm
  rw [this]
  exact hin f hf

/-- All results of the last event. -/
theorem Course.gauge_last {f : Event (Fl f32) (Fl f64)} (h : Ink.Course p (es ++ [f]) m) (hes : es ≠ [])
    {ofInput : Input (Fl f32) (Fl f64) → Fl f32}
    (hg : Gauge j get gone) (hi : GaugeOf get ofInput) (hin : ∀ g ∈ es ++ [f], Within (2 ^ j) (ofInput g.input))
    {out : List (Result (Fl f32) (Fl f64))} (hout : f.results = some out) :
    ∀ r ∈ out, (p.position.loop.isEnabled = false → Within (2 ^ j) (get r)) ∧ ((Fl.isNaN (get r) = true ∧ Fl.isNaN r.time = true) ∨ Within (2 ^ j) (get r)) := by
  obtain ⟨g1, g2, g3⟩ := Course.gauge h hg hi hin
  have fin : ∀ {es' : List (Event (Fl f32) (Fl f64))} {m' : StrokeModeler (Fl f32) (Fl f64)} {tips t l' out} , Ink.Course p es' m' →
      modelStylus tips m.stylus m'.loop t = .ok (l', out) →
      ∀ r ∈ out, (p.position.loop.isEnabled = false → Within (2 ^ j) (get r)) ∧ ((Fl.isNaN (get r) = true ∧ Fl.isNaN r.time = true) ∨ Within (2 ^ j) (get r)) := by
    intro es' m' tips t l' out hc hq r hr
    obtain ⟨k1, k2⟩ := hg.results hq g1 g2 g3 r hr
    refine ⟨fun hoff => ?_, k2⟩
    have : m'.loop.params.isEnabled = false := by rw [hc.paramsOf.loop]; exact hoff
    exact k1 this (by simp [LoopModeler.getInterpolationValue, this])
  generalize hes' : es ++ [f] = es' at h
  cases h with
  | down =>
    cases es with
    | nil => exact absurd rfl hes
    | cons x a => simp at hes'
  | move hm hl he hfi hw hs hn hp hq =>
    obtain ⟨-, hfe⟩ := List.append_inj' hes' rfl
    simp only [List.cons.injEq, and_true] at hfe
    subst hfe
    cases hout
    exact fin hm hq
  | late =>
    obtain ⟨-, hfe⟩ := List.append_inj' hes' rfl
    simp only [List.cons.injEq, and_true] at hfe
    subst hfe
    cases hout
  | up hm hl he hfi hs hn hq =>
    obtain ⟨-, hfe⟩ := List.append_inj' hes' rfl
    simp only [List.cons.injEq, and_true] at hfe
    subst hfe
    cases hout
    exact fin hm hq

omit [Libm] in
theorem within_iff {j : ℕ} {x y : Fl f32} (hy : num y = 2 ^ j) (hf : Finite y) :
    Within (2 ^ j) x ↔ ((0 ≤ᵇ x) = true ∧ (x ≤ᵇ y) = true) := by
  constructor
  · intro h
    rw [le_num finite_zero.1 h.finite.1, le_num h.finite.1 hf.1, num_zero, hy]
    exact ⟨decide_eq_true h.low, decide_eq_true h.high⟩
  · intro ⟨h1, h2⟩
    have hn : Fl.isNaN x = false := by
      cases hn : Fl.isNaN x with
      | false => rfl
      | true => rw [le_nan_left hn] at h2; cases h2
    rw [le_num finite_zero.1 hn, num_zero, decide_eq_true_eq] at h1
    rw [le_num hn hf.1, hy, decide_eq_true_eq] at h2
    refine ⟨finite_of_num hn ?_, h1, h2⟩
    rw [abs_of_nonneg h1]
    refine lt_of_le_of_lt h2 ?_
    rw [← hy]
    exact (le_abs_self _).trans_lt (abs_num_lt hf)

end Fl

variable [Libm] {ops : List (Op (Fl f32) (Fl f64))} {rs : List (Response (Fl f32) (Fl f64))} {m : StrokeModeler (Fl f32) (Fl f64)}

/-- The value lies in [0, top]. -/
def InRange (top x : Fl f32) : Prop := (0 ≤ᵇ x) = true ∧ (x ≤ᵇ top) = true

omit [Libm] in
private theorem one_top : Fl.num (1 : Fl f32) = 2 ^ 0 ∧ Fl.Finite (1 : Fl f32) :=
  ⟨by rw [Fl.num_one, pow_zero], Fl.finite_lit (by decide)⟩

omit [Libm] in
private theorem two_top : Fl.num (2 : Fl f32) = 2 ^ 1 ∧ Fl.Finite (2 : Fl f32) :=
  ⟨by simpa using Fl.num_lit (f := f32) (n := 2) (by decide), Fl.finite_lit (by decide)⟩

/-- C24 on floats, Moves and Ups (partial): if all inputs so far have a pressure in [0, 1], the results have a pressure in [0, 1]; if they
have a tilt in [0, 2], the results have a tilt in [0, 2]. With loop mitigation the values may be NaN instead, but then the
result's time is NaN too.
Full statement: they are never NaN; this is false, see `C24_refuted`. -/
theorem C24_stylus_range_float_partial (h : Session ops rs m) (hr : Regular ops rs) {p : StrokeModelParams (Fl f32) (Fl f64)}
    (hp : (known ops rs).params = some p) {e f : Event (Fl f32) (Fl f64)} {a b : List (Event (Fl f32) (Fl f64))}
    (hs : strokeOf ops rs = e :: (a ++ f :: b)) {out : List (Result (Fl f32) (Fl f64))} (hout : f.results = some out)
    {r : Result (Fl f32) (Fl f64)} (hmem : r ∈ out) :
    ((∀ g ∈ e :: (a ++ [f]), InRange 1 g.input.pressure) →
      (p.position.loop.isEnabled = false → InRange 1 r.pressure) ∧ ((isNaN r.pressure = true ∧ isNaN r.time = true) ∨ InRange 1 r.pressure)) ∧
    ((∀ g ∈ e :: (a ++ [f]), InRange 2 g.input.tilt) →
      (p.position.loop.isEnabled = false → InRange 2 r.tilt) ∧ ((isNaN r.tilt = true ∧ isNaN r.time = true) ∨ InRange 2 r.tilt)) := by
  obtain ⟨p', m₀, hp', hc, -⟩ := h.course hr (by rw [hs]; simp)
  obtain rfl : p = p' := by rw [hp] at hp'; exact Option.some.inj hp'
  rw [hs, show e :: (a ++ f :: b) = ((e :: a) ++ [f]) ++ b by simp] at hc
  obtain ⟨m₁, hc⟩ := hc.take (by simp)
  refine ⟨fun hin => ?_, fun hin => ?_⟩
  · have := Fl.Course.gauge_last hc (by simp) (.pressure rfl rfl rfl) (.pressure rfl rfl)
      (fun g hg => (Fl.within_iff one_top.1 one_top.2).2 (hin g (by simpa using hg))) hout r hmem
    rw [Fl.within_iff one_top.1 one_top.2] at this
    exact this
  · have := Fl.Course.gauge_last hc (by simp) (.tilt rfl rfl rfl) (.tilt rfl rfl)
      (fun g hg => (Fl.within_iff two_top.1 two_top.2).2 (hin g (by simpa using hg))) hout r hmem
    rw [Fl.within_iff two_top.1 two_top.2] at this
    exact this

/-- C24 on floats, predictions (partial): likewise for the results of Predict. Full statement as above. -/
theorem C24_prediction_range_float_partial (h : Session ops rs m) (hr : Regular ops rs) {p : StrokeModelParams (Fl f32) (Fl f64)}
    (hp : (known ops rs).params = some p) {v : List (Result (Fl f32) (Fl f64))} {m' : StrokeModeler (Fl f32) (Fl f64)}
    {resp : Response (Fl f32) (Fl f64)} (hst : step m (.predict v) = .ok (m', resp)) {r : Result (Fl f32) (Fl f64)}
    (hmem : r ∈ resp.results) :
    ((∀ g ∈ strokeOf ops rs, InRange 1 g.input.pressure) →
      (p.position.loop.isEnabled = false → InRange 1 r.pressure) ∧ ((isNaN r.pressure = true ∧ isNaN r.time = true) ∨ InRange 1 r.pressure)) ∧
    ((∀ g ∈ strokeOf ops rs, InRange 2 g.input.tilt) →
      (p.position.loop.isEnabled = false → InRange 2 r.tilt) ∧ ((isNaN r.tilt = true ∧ isNaN r.time = true) ∨ InRange 2 r.tilt)) := by
  simp only [step] at hst
  obtain ⟨⟨m₁, s, v'⟩, hu, hst⟩ := Outcome.bind_eq_ok.1 hst
  simp only [Outcome.pure_eq, Outcome.ok.injEq, Prod.mk.injEq] at hst
  obtain ⟨rfl, rfl⟩ := hst
  rcases predict_ok hu with ⟨_, _, _, rfl, _⟩ | ⟨_, _, last, _, _, _, _, _, hl, _⟩
  · simp at hmem
  · obtain ⟨p', m₀, hp', hc, hsl⟩ := h.course hr (h.in_progress hr (by simp [hl]))
    obtain rfl : p = p' := by rw [hp] at hp'; exact Option.some.inj hp'
    obtain ⟨_, hu, -⟩ := hsl.predict_ok hu
    rcases predict_ok hu with ⟨_, _, _, rfl, _⟩ | ⟨_, pr, last, tips, _, out, _, _, hl, _, hms, _, _, rfl⟩
    · simp at hmem
    have fin : ∀ {j get gone} {ofInput : Input (Fl f32) (Fl f64) → Fl f32}, Fl.Gauge j get gone → Fl.GaugeOf get ofInput →
        (∀ f ∈ strokeOf ops rs, Fl.Within (2 ^ j) (ofInput f.input)) →
        (p.position.loop.isEnabled = false → Fl.Within (2 ^ j) (get r)) ∧ ((Fl.isNaN (get r) = true ∧ Fl.isNaN r.time = true) ∨ Fl.Within (2 ^ j) (get r)) := by
      intro j get gone ofInput hg hi hin
      obtain ⟨g1, g2, g3⟩ := Fl.Course.gauge hc hg hi hin
      obtain ⟨k1, k2⟩ := hg.results hms g1 g2 g3 r hmem
      refine ⟨fun hoff => ?_, k2⟩
      have : m₀.loop.params.isEnabled = false := by rw [hc.paramsOf.loop]; exact hoff
      exact k1 this (by simp [LoopModeler.getInterpolationValue, this])
    refine ⟨fun hin => ?_, fun hin => ?_⟩
    · have := fin (.pressure rfl rfl rfl) (.pressure rfl rfl) fun g hg => (Fl.within_iff one_top.1 one_top.2).2 (hin g hg)
      rw [Fl.within_iff one_top.1 one_top.2] at this
      exact this
    · have := fin (.tilt rfl rfl rfl) (.tilt rfl rfl) fun g hg => (Fl.within_iff two_top.1 two_top.2).2 (hin g hg)
      rw [Fl.within_iff two_top.1 two_top.2] at this
      exact this

section Examples
open Ex

/-- An input with pressure and tilt. -/
def Ex.pressed (e : EventType) (x : F32) (t : F64) (pressure tilt : F32) : Input F32 F64 := ⟨e, ⟨x, 0⟩, t, pressure, tilt, -1⟩

/-- Loop mitigation with a strength that is not a number. -/
def Ex.nanStrength : StrokeModelParams F32 F64 :=
  { params with
    position := { params.position with
      loop := { isEnabled := true, speedLowerBound := 0, speedUpperBound := 25, strengthAtLower := .nan, strengthAtUpper := fl 1 2
                minSpeedSamplingWindow := d 4 100, minDiscreteSpeedSamples := 3 } }
    stylus := { maxInputSamples := 20, useStrokeNormalProjection := true, minInputSamples := 10, minSampleDuration := d 5 100 } }

/-- A Down and a Move with full pressure. -/
def Ex.pressing (p : StrokeModelParams F32 F64) : List (Op F32 F64) :=
  [.resetParams p, .update (pressed .down 0 0 1 1) [], .update (pressed .move 1 (d 1 50) 1 1) []]

omit [Libm] in
theorem Ex.pressing_noDisable {p : StrokeModelParams F32 F64} (h : p.prediction = .strokeEnd) : NoDisableAfterSave (pressing p) := by
  intro a q b hq hd
  have hm : Op.resetParams q ∈ pressing p := by simp [hq]
  simp [pressing] at hm
  simp [hm, h] at hd

omit [Libm] in
/-- The full C24 is false on floats: with a loop mitigation strength of NaN, which is accepted, pressures become NaN though all inputs
have pressure 1. -/
theorem C24_refuted [Libm] : ∃ (p : StrokeModelParams F32 F64) (rs : List (Response F32 F64)) (m : StrokeModeler F32 F64)
    (e f : Event F32 F64) (out : List (Result F32 F64)),
    Session (pressing p) rs m ∧ Regular (pressing p) rs ∧ strokeOf (pressing p) rs = [e, f] ∧ e.input.pressure = 1 ∧
    f.input.pressure = 1 ∧ f.results = some out ∧ ∃ r ∈ out, r.pressure = .nan := by
  obtain ⟨rs, m, h, hP⟩ := exists_session (ops := pressing nanStrength) (P := fun rs _ => noStale (pressing nanStrength) rs &&
    match strokeOf (pressing nanStrength) rs with
    | [e, f] => match f.results with
      | some out => decide (e.input.pressure = 1) && decide (f.input.pressure = 1) && out.any fun r => decide (r.pressure = .nan)
      | none => false
    | _ => false) (by kernel_rfl)
  rw [Bool.and_eq_true] at hP
  obtain ⟨h1, h2⟩ := hP
  split at h2
  · rename_i e f hs
    split at h2
    · rename_i out hout
      simp only [Bool.and_eq_true, decide_eq_true_eq, List.any_eq_true] at h2
      exact ⟨nanStrength, rs, m, e, f, out, h, ⟨noStale_iff h1, pressing_noDisable rfl⟩, hs, h2.1.1, h2.1.2, hout, h2.2⟩
    · cases h2
  · cases h2

/-- C24 applies to a stroke of a Down and a Move with results, without loop mitigation. -/
example : ∃ (rs : List (Response F32 F64)) (m : StrokeModeler F32 F64) (e f : Event F32 F64) (out : List (Result F32 F64)),
    Session (pressing params) rs m ∧ Regular (pressing params) rs ∧ (known (pressing params) rs).params = some params ∧
    strokeOf (pressing params) rs = e :: ([] ++ f :: []) ∧ f.results = some out ∧ 3 ≤ out.length ∧ params.position.loop.isEnabled = false ∧
    (∀ g ∈ e :: ([] ++ [f]), InRange 1 g.input.pressure) ∧ ∀ g ∈ e :: ([] ++ [f]), InRange 2 g.input.tilt := by
  obtain ⟨rs, m, h, hP⟩ := exists_session (ops := pressing params) (P := fun rs _ => noStale (pressing params) rs &&
    decide ((known (pressing params) rs).params = some params) &&
    match strokeOf (pressing params) rs with
    | [e, f] => match f.results with
      | some out => decide (3 ≤ out.length) && decide (e.input.pressure = 1 ∧ e.input.tilt = 1) &&
        decide (f.input.pressure = 1 ∧ f.input.tilt = 1)
      | none => false
    | _ => false) (by kernel_rfl)
  simp only [Bool.and_eq_true, decide_eq_true_eq] at hP
  obtain ⟨⟨h1, hk⟩, h2⟩ := hP
  have i1 : InRange (1 : F32) 1 := ⟨by decide +kernel, by decide +kernel⟩
  have i2 : InRange (2 : F32) 1 := ⟨by decide +kernel, by decide +kernel⟩
  split at h2
  · rename_i e f hs
    split at h2
    · rename_i out hout
      simp only [Bool.and_eq_true, decide_eq_true_eq] at h2
      obtain ⟨⟨h3, h4, h5⟩, h6, h7⟩ := h2
      refine ⟨rs, m, e, f, out, h, ⟨noStale_iff h1, pressing_noDisable rfl⟩, hk, hs, hout, h3, rfl, ?_, ?_⟩
      · simpa [h4, h6] using i1
      · simpa [h5, h7] using i2
    · cases h2
  · cases h2

end Examples

end Ink
