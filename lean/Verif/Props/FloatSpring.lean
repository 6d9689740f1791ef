import Verif.Spec.Spring
import Verif.Props.FloatTimes
import Verif.Props.Window
import Verif.Lemmas.Fed
/-!
# The spring model on floats: C36
-/
namespace Ink
open Scalar Arith

section Any
variable {F D : Type} [Scalar F] [Scalar D] [Arith F D]

theorem sprung_stepState (pp : PositionModelerParams F D) (q : TipState F D) (anchor : Vec2 F) (t : D) :
    Sprung pp anchor q (PositionModeler.stepState pp q anchor t) := ⟨rfl, rfl, rfl, rfl, rfl, rfl⟩

theorem springPath_go (pp : PositionModelerParams F D) (x₀ : Vec2 F) (t₀ : D) (x₁ : Vec2 F) (t₁ : D) (n : ℤ) (k : ℕ) (i : ℤ)
    (hk : k = (n + 1 - i).toNat) (q : TipState F D) :
    SpringPath pp x₀ t₀ x₁ t₁ n i q (PositionModeler.alongPathGo pp x₀ t₀ x₁ t₁ n k i q).2 := by
  induction k generalizing i q with
  | zero => exact .done (by omega)
  | succ k ih => exact .step (by omega) rfl (sprung_stepState ..) (ih _ (by omega) _)

theorem springRest_go (pp : PositionModelerParams F D) (x : Vec2 F) (stop : F) (k : ℕ) (dt : D) (q : TipState F D) :
    SpringRest pp x dt q (PositionModeler.endOfStrokeGo pp x stop k dt q).2 ∧
    ((PositionModeler.endOfStrokeGo pp x stop k dt q).2 = [] → (PositionModeler.endOfStrokeGo pp x stop k dt q).1 = q ∨
      SpringRest pp x dt q [(PositionModeler.endOfStrokeGo pp x stop k dt q).1]) := by
  induction k generalizing dt q with
  | zero => exact ⟨.done, fun _ => .inl rfl⟩
  | succ k ih =>
    simp only [PositionModeler.endOfStrokeGo]
    split
    · exact ⟨.done, fun _ => .inr (.step rfl (sprung_stepState ..) .done)⟩
    · split
      · obtain ⟨h1, h2⟩ := ih (dt * ofRatio 1 2) q
        exact ⟨.half h1, fun h => (h2 h).imp_right .half⟩
      · split
        · exact ⟨.step rfl (sprung_stepState ..) .done, by simp⟩
        · exact ⟨.step rfl (sprung_stepState ..) (ih _ _).1, by simp⟩

end Any

namespace Fl
variable [Libm]

/-- The two stand for the same number (zeros may differ in sign), or are both NaN. -/
def Alike {f : Fmt} (x y : Fl f) : Prop := val x = val y

/-- The result has the motion of the tip. -/
structure SameMotion (q : TipState (Fl f32) (Fl f64)) (r : Result (Fl f32) (Fl f64)) : Prop where
  px : Alike r.position.x q.position.x
  py : Alike r.position.y q.position.y
  vx : Alike r.velocity.x q.velocity.x
  vy : Alike r.velocity.y q.velocity.y
  ax : Alike r.acceleration.x q.acceleration.x
  ay : Alike r.acceleration.y q.acceleration.y
  time : Alike r.time q.time

omit [Libm] in
theorem one_mul_inf {f : Fmt} (b : Bool) : (1 : Fl f) * inf b = inf b ∧ (inf b : Fl f) * 1 = inf b := by
  have h1 : Finite (1 : Fl f) := finite_lit one_lt_two_pow
  have hk : key (1 : Fl f) ≠ 0 := by
    intro h
    have e : num (1 : Fl f) = 1 := num_one
    unfold num at e
    rw [h] at e
    simp at e
  obtain ⟨c, k, hk', h0⟩ := finite_iff.1 h1
  have hs : c = false := by
    have : 0 ≤ num (1 : Fl f) := by rw [num_one]; norm_num
    rw [← num_zero (f := f), num_le] at this
    have hz : key (0 : Fl f) = 0 := by
      have e : num (0 : Fl f) = 0 := num_zero
      unfold num at e
      rcases div_eq_zero_iff.1 e with e | e
      · exact_mod_cast e
      · exact absurd e (by positivity)
    rw [hz, h0] at this
    rw [h0] at hk
    cases c
    · rfl
    · simp only [key, sgn] at this hk
      simp at this hk
      omega
  have hk0 : k ≠ 0 := by
    rintro rfl
    rw [h0] at hk
    cases c <;> simp [key, sgn] at hk
  subst hs
  rw [h0]
  constructor
  · change mul _ _ = _
    simp [mul, hk0]
  · change mul _ _ = _
    simp [mul, hk0]

omit [Libm] in
theorem alike_chain {f : Fmt} (x : Fl f) : Alike (0 + 1 * (x - 0)) x ∧ Alike (0 + (x - 0) * 1) x := by
  obtain ⟨c, k, hk, h0⟩ := finite_iff.1 (finite_zero (f := f))
  have h1 : Finite (1 : Fl f) := finite_lit one_lt_two_pow
  by_cases hf : Finite x
  · have d0 : num (x - 0) = num x := by rw [num_sub hf finite_zero, num_zero, sub_zero, rd_num hf]
    have df : Finite (x - 0) := finite_of_num (sub_not_nan hf finite_zero) (by rw [d0]; exact abs_num_lt hf)
    have key : ∀ y : Fl f, Fl.isNaN y = false → num y = num x → Alike (0 + y) x := by
      intro y hn hy
      have yf : Finite y := finite_of_num hn (by rw [hy]; exact abs_num_lt hf)
      have e : num (0 + y) = num x := by rw [num_add finite_zero yf, hy, num_zero, zero_add, rd_num hf]
      have ef : Finite (0 + y) := finite_of_num (add_not_nan finite_zero yf) (by rw [e]; exact abs_num_lt hf)
      unfold Alike
      rw [val_num ef, val_num hf, e]
    exact ⟨key _ (mul_not_nan h1 df) (by rw [num_mul h1 df, d0, num_one, one_mul, rd_num hf]),
      key _ (mul_not_nan df h1) (by rw [num_mul df h1, d0, num_one, mul_one, rd_num hf])⟩
  · cases x with
    | nan =>
      have e : (nan : Fl f) - 0 = nan := by rw [h0]; rfl
      rw [e]
      have e1 : (1 : Fl f) * nan = nan := by obtain ⟨c, k, hk, h1⟩ := finite_iff.1 h1; rw [h1]; rfl
      have e2 : (nan : Fl f) * 1 = nan := rfl
      have e3 : (0 : Fl f) + nan = nan := by rw [h0]; rfl
      rw [e1, e2, e3]
      exact ⟨rfl, rfl⟩
    | inf b =>
      have e1 : (inf b : Fl f) - 0 = inf b := by rw [h0]; cases b <;> rfl
      have e2 : (0 : Fl f) + inf b = inf b := by rw [h0]; cases b <;> rfl
      rw [e1, (one_mul_inf b).1, (one_mul_inf b).2, e2]
      exact ⟨rfl, rfl⟩
    | fin a k hk => exact absurd ⟨rfl, rfl⟩ hf

omit [Libm] in
theorem clamp01_one : clamp01 (1 : Fl f32) = 1 := by decide +kernel

theorem widen_one : (widen (1 : Fl f32) : Fl f64) = 1 := by
  change convert f64 (1 : Fl f32) = 1
  decide +kernel

omit [Libm] in
/-- From zero all the way: nothing changes but the sign of a zero. -/
theorem interp_zero_one (x : Fl f32) : Alike (0 + clamp01 (1 : Fl f32) * (x - 0)) x := by
  rw [clamp01_one]; exact (alike_chain x).1

theorem interpTime_zero_one (t : Fl f64) : Alike (interpTime 0 t (1 : Fl f32)) t := by
  unfold interpTime
  rw [clamp01_one, widen_one]
  exact (alike_chain t).2

theorem result_motion {s : StylusModeler (Fl f32) (Fl f64)} {tips : List (TipState (Fl f32) (Fl f64))}
    {l l' : LoopModeler (Fl f32) (Fl f64)} {t : Fl f64} {out : List (Result (Fl f32) (Fl f64))} (hs : s.state.inputs = [])
    (h : modelStylusGo s tips l 1 t = .ok (l', out)) (hl : l.params.isEnabled = false) : List.Forall₂ SameMotion tips out := by
  induction tips generalizing l l' t out with
  | nil => simp only [modelStylusGo, Outcome.ok.injEq, Prod.mk.injEq] at h; simp [← h.2]
  | cons tip tips ih =>
    simp only [modelStylusGo] at h
    obtain ⟨q, hq, h⟩ := Outcome.bind_eq_ok.1 h
    obtain ⟨r, hr, h⟩ := Outcome.bind_eq_ok.1 h
    obtain ⟨⟨l₁, out'⟩, h₁, h⟩ := Outcome.bind_eq_ok.1 h
    simp only [Outcome.pure_eq, Outcome.ok.injEq, Prod.mk.injEq] at h
    rw [← h.2]
    have e : l.update r.velocity tip.time = (l, 1) := by simp [LoopModeler.update, hl]
    rw [e] at h₁
    refine .cons ?_ (ih h₁ hl)
    obtain ⟨o, -, rfl⟩ := interpResult_ok hr
    rcases StylusModeler.query_ok hq with ⟨-, rfl⟩ | ⟨hne, _⟩
    · exact ⟨interp_zero_one _, interp_zero_one _, interp_zero_one _, interp_zero_one _, interp_zero_one _, interp_zero_one _,
        interpTime_zero_one _⟩
    · exact absurd hs hne

variable {p : StrokeModelParams (Fl f32) (Fl f64)} {es : List (Event (Fl f32) (Fl f64))} {m : StrokeModeler (Fl f32) (Fl f64)}

/-- In closest-point mode nothing is held if no field is reported. -/
theorem Course.held_nil (h : Ink.Course p es m) (hu : p.stylus.useStrokeNormalProjection = false)
    (h1 : ∃ f ∈ es, isUnknown f.input.pressure = true) (h2 : ∃ f ∈ es, isUnknown f.input.tilt = true)
    (h3 : ∃ f ∈ es, isUnknown f.input.orientation = true) : m.stylus.state.inputs = [] := by
  obtain ⟨cs, -, -, hw⟩ := h.window
  obtain ⟨f1, f2, f3⟩ := h.flags
  refine hw.cleared hu ?_
  rw [← List.any_eq_true] at h1 h2 h3
  simp [StylusModelerState.blank, f1, f2, f3, h1, h2, h3]

/-- The unknown fields of the Down. -/
def Bare (i : Input (Fl f32) (Fl f64)) : Prop :=
  isUnknown i.pressure = true ∧ isUnknown i.tilt = true ∧ isUnknown i.orientation = true

theorem Course.springs (h : Course p es m) (hl : p.position.loop.isEnabled = false) (hu : p.stylus.useStrokeNormalProjection = false)
    (hb : ∀ e, es.head? = some e → Bare e.input) :
    ∃ q, Springs SameMotion p es (m.lastInput.map fun l => (l.input, l.correctedPosition)) q ∧
      (m.lastInput ≠ none → q = m.position.state) := by
  have held : ∀ {es' : List (Event (Fl f32) (Fl f64))} {m' : StrokeModeler (Fl f32) (Fl f64)}, Course p es' m' →
      (∀ e, es'.head? = some e → Bare e.input) → m'.stylus.state.inputs = [] := by
    intro es' m' h' hb'
    have hne : es' ≠ [] := by cases h' <;> simp
    obtain ⟨e, rest, hes⟩ := List.exists_cons_of_ne_nil hne
    obtain ⟨b1, b2, b3⟩ := hb' e (by rw [hes]; rfl)
    exact Course.held_nil h' hu ⟨e, by simp [hes], b1⟩ ⟨e, by simp [hes], b2⟩ ⟨e, by simp [hes], b3⟩
  have off : ∀ {es' : List (Event (Fl f32) (Fl f64))} {m' : StrokeModeler (Fl f32) (Fl f64)}, Course p es' m' →
      m'.loop.params.isEnabled = false ∧ m'.loop.getInterpolationValue = 1 := by
    intro es' m' h'
    have : m'.loop.params.isEnabled = false := by rw [h'.paramsOf.loop]; exact hl
    exact ⟨this, by simp [LoopModeler.getInterpolationValue, this]⟩
  have keep : ∀ {es' : List (Event (Fl f32) (Fl f64))} {f : Event (Fl f32) (Fl f64)}, (∀ e, (es' ++ [f]).head? = some e → Bare e.input) →
      ∀ e, es'.head? = some e → Bare e.input := fun hb e he => hb e (by rw [List.head?_append, he]; rfl)
  induction h with
  | @down i stylus predictor _ he hfi hs hp => exact ⟨StrokeModeler.startState i, .down he rfl rfl rfl rfl (by constructor <;> rfl), fun _ => rfl⟩
  | @move es m last i wobble corrected stylus n predictor loop out hm hl' he hfi hw hs hn hp hq ih =>
    obtain ⟨q, ih, hq'⟩ := ih (keep hb)
    rw [hl'] at ih
    obtain rfl := hq' (by simp [hl'])
    have hh := held (.move hm hl' he hfi hw hs hn hp hq) hb
    unfold modelStylus at hq
    rw [(off hm).2] at hq
    have hmot := result_motion hh hq (off hm).1
    have hpath := springPath_go p.position last.correctedPosition last.input.time corrected i.time n n.toNat 1 (by omega) m.position.state
    have hst := alongPathGo_state p.position last.correctedPosition last.input.time corrected i.time n n.toNat 1 m.position.state
    unfold StrokeModeler.moveTips PositionModeler.updateAlongLinearPath at hmot ⊢
    rw [hm.paramsOf.position] at hmot ⊢
    refine ⟨_, .move ih he (fun hwb => ?_) hpath hmot, fun _ => ?_⟩
    · exact wobble_update_off (by rw [hm.paramsOf.wobble]; exact hwb) hw
    · exact (hst.trans (List.getLastD_eq_getLast?.symm)).symm
  | @late es m last i wobble corrected stylus s hm hl' he hfi hw hs hn ih =>
    obtain ⟨q, ih, hq'⟩ := ih (keep hb)
    refine ⟨q, ?_, hq'⟩
    rw [hl'] at ih
    change Springs _ _ _ (m.lastInput.map _) _
    rw [hl']
    exact .late ih he
  | @up es m last i stylus n loop out hm hl' he hfi hs hn hq ih =>
    obtain ⟨q, ih, hq'⟩ := ih (keep hb)
    rw [hl'] at ih
    obtain rfl := hq' (by simp [hl'])
    have hh := held (.up hm hl' he hfi hs hn hq) hb
    unfold modelStylus at hq
    rw [(off hm).2] at hq
    have hmot := result_motion hh hq (off hm).1
    have hpath := springPath_go p.position last.correctedPosition last.input.time i.position i.time n n.toNat 1 (by omega) m.position.state
    have hst := alongPathGo_state p.position last.correctedPosition last.input.time i.position i.time n n.toNat 1 m.position.state
    unfold StrokeModeler.upTips PositionModeler.updateAlongLinearPath PositionModeler.modelEndOfStroke at hmot
    dsimp only at hmot
    rw [hm.paramsOf.position] at hmot
    generalize hA : PositionModeler.alongPathGo p.position last.correctedPosition last.input.time i.position i.time n n.toNat 1
      m.position.state = A at hmot hpath hst
    obtain ⟨r1, r2⟩ := springRest_go p.position i.position p.sampling.endOfStrokeStoppingDistance p.sampling.endOfStrokeMaxIterations.toNat
      (1 / p.sampling.minOutputRate) A.1
    rw [← List.getLastD_eq_getLast?] at hst
    generalize hB : PositionModeler.endOfStrokeGo p.position i.position p.sampling.endOfStrokeStoppingDistance
      p.sampling.endOfStrokeMaxIterations.toNat (1 / p.sampling.minOutputRate) A.1 = B at hmot r1 r2
    rw [hst] at r1 r2
    split at hmot
    · rename_i hnil
      rw [List.isEmpty_iff, List.append_eq_nil_iff] at hnil
      obtain ⟨n1, n2⟩ := hnil
      rw [n1] at hpath r2
      cases hmot with
      | cons hr hrest =>
        cases hrest
        exact ⟨_, .stop ih he hpath (r2 n2) hr, fun h => absurd rfl h⟩
    · rename_i hne
      exact ⟨_, .up ih he hpath r1 (by simpa using hne) hmot, fun h => absurd rfl h⟩

end Fl

variable [Libm] {ops : List (Op (Fl f32) (Fl f64))} {rs : List (Response (Fl f32) (Fl f64))} {m : StrokeModeler (Fl f32) (Fl f64)}

/-- C36 on floats: without loop mitigation, in closest-point mode and without stylus data, the results of a stroke are those of the spring
model, number by number, in single and double precision. Only zeros may lose their sign. -/
theorem C36_spring_float (h : Session ops rs m) (hr : Regular ops rs) {p : StrokeModelParams (Fl f32) (Fl f64)}
    (hp : (known ops rs).params = some p) (hl : p.position.loop.isEnabled = false) (hu : p.stylus.useStrokeNormalProjection = false)
    {e : Event (Fl f32) (Fl f64)} {es : List (Event (Fl f32) (Fl f64))} (hs : strokeOf ops rs = e :: es)
    (h1 : isUnknown e.input.pressure = true) (h2 : isUnknown e.input.tilt = true) (h3 : isUnknown e.input.orientation = true) :
    ∃ last q, Springs Fl.SameMotion p (strokeOf ops rs) last q := by
  obtain ⟨p', m₀, hp', hc, -⟩ := h.course hr (by rw [hs]; simp)
  obtain rfl : p = p' := by rw [hp] at hp'; exact Option.some.inj hp'
  obtain ⟨q, hq, -⟩ := Fl.Course.springs hc hl hu (fun e' he' => by
    rw [hs] at he'
    obtain rfl := Option.some.inj he'
    exact ⟨h1, h2, h3⟩)
  exact ⟨_, q, hq⟩

section Examples
open Ex

/-- C36 applies to a stroke of a Down, a Move and an Up with more than ten results. -/
example : ∃ (rs : List (Response F32 F64)) (m : StrokeModeler F32 F64) (e : Event F32 F64) (es : List (Event F32 F64)),
    Session usual rs m ∧ Regular usual rs ∧ (known usual rs).params = some params ∧ params.position.loop.isEnabled = false ∧
    params.stylus.useStrokeNormalProjection = false ∧ strokeOf usual rs = e :: es ∧ isUnknown e.input.pressure = true ∧
    isUnknown e.input.tilt = true ∧ isUnknown e.input.orientation = true ∧ 10 ≤ (resultsOf (strokeOf usual rs)).length := by
  obtain ⟨rs, m, h, hP⟩ := exists_session (ops := usual) (P := fun rs _ => noStale usual rs &&
    (match strokeOf usual rs with
    | e :: _ => isUnknown e.input.pressure && isUnknown e.input.tilt && isUnknown e.input.orientation
    | [] => false) &&
    decide ((known usual rs).params = some params ∧ 10 ≤ (resultsOf (strokeOf usual rs)).length)) (by kernel_rfl)
  simp only [Bool.and_eq_true, decide_eq_true_eq] at hP
  obtain ⟨⟨h1, h2⟩, h3, h4⟩ := hP
  split at h2
  · rename_i e es hs
    simp only [Bool.and_eq_true] at h2
    refine ⟨rs, m, e, es, h, ⟨noStale_iff h1, ?_⟩, h3, rfl, rfl, hs, h2.1.1, h2.1.2, h2.2, h4⟩
    intro a p b h hd
    have hm : Op.resetParams p ∈ usual := by simp [h]
    simp [usual] at hm
    simp [hm, params] at hd
  · cases h2

end Examples
end Ink
