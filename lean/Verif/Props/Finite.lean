import Verif.Props.Projection
import Verif.Props.Kalman
/-!
# Finite inputs and finite results: C53, and a resting pen that is predicted to be nowhere (C47)
-/
namespace Ink
open Scalar Arith

section Exact
open XR

/-- C53 on exact numbers: position, velocity, acceleration and time of all results of a stroke are finite, and so are pressure, tilt
and orientation if they are known and finite for all inputs. -/
theorem C53_finite_exact {ops : List (Op XR XR)} {rs : List (Response XR XR)} {m : StrokeModeler XR XR} {p : StrokeModelParams XR XR}
    (h : Session ops rs m) (hr : Regular ops rs) (hp : (known ops rs).params = some p) (hl : LoopOk p.position.loop)
    {r : Result XR XR} (hmem : r ∈ resultsOf (strokeOf ops rs)) :
    (isFinite r.position.x ∧ isFinite r.position.y ∧ isFinite r.velocity.x ∧ isFinite r.velocity.y ∧
      isFinite r.acceleration.x ∧ isFinite r.acceleration.y ∧ isFinite r.time) ∧
    ((∀ e ∈ strokeOf ops rs, ∃ v, 0 ≤ v ∧ e.input.pressure = fin v) → isFinite r.pressure) ∧
    ((∀ e ∈ strokeOf ops rs, ∃ v, 0 ≤ v ∧ e.input.tilt = fin v) → isFinite r.tilt) ∧
    ((∀ e ∈ strokeOf ops rs, ∃ v, 0 ≤ v ∧ e.input.orientation = fin v) → isFinite r.orientation) := by
  obtain ⟨f, hf, hrf⟩ := List.mem_flatMap.1 hmem
  obtain ⟨e, rest, hs⟩ := List.exists_cons_of_ne_nil (List.ne_nil_of_mem hf)
  obtain ⟨P, m₀, hreal, hv, hc, -⟩ := h.stroke hr hp hs
  rw [hs, List.mem_cons] at hf
  rcases hf with rfl | hf
  · obtain ⟨e', rest', he', ht⟩ := course_tale hreal hv hc
    rw [List.cons.injEq] at he'
    obtain ⟨rfl, rfl⟩ := he'
    rw [ht.first] at hrf
    simp only [Option.getD_some, List.mem_singleton] at hrf
    subst hrf
    have hfin := ht.finite
    have hg : ∀ x : XR, (∃ v, 0 ≤ v ∧ x = fin v) → isFinite x = true := by
      rintro _ ⟨v, -, rfl⟩
      rfl
    exact ⟨⟨hfin.x, hfin.y, rfl, rfl, rfl, rfl, hfin.time⟩, fun h => hg _ (h f (by simp [hs])), fun h => hg _ (h f (by simp [hs])),
      fun h => hg _ (h f (by simp [hs]))⟩
  · obtain ⟨a, b, rfl⟩ := List.append_of_mem hf
    cases hout : f.results with
    | none => simp [hout] at hrf
    | some out =>
      rw [hout] at hrf
      have hrf : r ∈ out := hrf
      obtain ⟨k, hk⟩ := List.mem_iff_getElem?.1 hrf
      obtain ⟨P', tips, -, -, -, -, hall⟩ := C37_between_exact h hr hp hl hs hout
      obtain ⟨q, raw, c, -, -, -, -, -, e1, e2, e3, e4⟩ := hall k r hk
      obtain ⟨i, i', u, -, -, -, g1, g2, g3⟩ := C26_stylus_between_exact h hr hp hl hs hout hrf
      have hsub : ∀ (Q : Input XR XR → Prop), (∀ e ∈ strokeOf ops rs, Q e.input) → ∀ i ∈ soFar e a f, Q i := by
        intro Q hQ i hi
        simp only [soFar, List.mem_map] at hi
        obtain ⟨x, hx, rfl⟩ := hi
        refine hQ x ?_
        rw [hs]
        simp only [List.cons_append, List.mem_cons, List.mem_append, List.not_mem_nil, or_false] at hx ⊢
        tauto
      refine ⟨by rw [e1, e2, e3, e4]; exact ⟨rfl, rfl, rfl, rfl, rfl, rfl, rfl⟩, fun hQ => ?_, fun hQ => ?_, fun hQ => ?_⟩
      · obtain ⟨v, v', -, -, h3⟩ := g1 (hsub (fun i => ∃ v, 0 ≤ v ∧ i.pressure = fin v) hQ)
        rw [h3]; rfl
      · obtain ⟨v, v', -, -, h3⟩ := g2 (hsub (fun i => ∃ v, 0 ≤ v ∧ i.tilt = fin v) hQ)
        rw [h3]; rfl
      · obtain ⟨v, v', θ, -, -, h3, -⟩ := g3 (hsub (fun i => ∃ v, 0 ≤ v ∧ i.orientation = fin v) hQ)
        rw [h3]; rfl

/-- the hypotheses are met by a stroke with and one without loop mitigation -/
example : (∃ rs m, Session (calls Ex.xparams Ex.xinputs) rs m ∧ Regular (calls Ex.xparams Ex.xinputs) rs ∧
      (known (calls Ex.xparams Ex.xinputs) rs).params = some Ex.xparams ∧ LoopOk Ex.xparams.position.loop ∧
      ∃ r, r ∈ resultsOf (strokeOf (calls Ex.xparams Ex.xinputs) rs)) ∧
    (∃ rs m, Session (calls Ex.xloop Ex.xinputs) rs m ∧ Regular (calls Ex.xloop Ex.xinputs) rs ∧
      (known (calls Ex.xloop Ex.xinputs) rs).params = some Ex.xloop ∧ LoopOk Ex.xloop.position.loop ∧
      ∃ r, r ∈ resultsOf (strokeOf (calls Ex.xloop Ex.xinputs) rs)) := by
  have key : ∀ p : StrokeModelParams XR XR, validateStrokeModelParams p = .ok → p.sampling = Ex.xparams.sampling →
      LoopOk p.position.loop → ∃ rs m, Session (calls p Ex.xinputs) rs m ∧ Regular (calls p Ex.xinputs) rs ∧
      (known (calls p Ex.xinputs) rs).params = some p ∧ LoopOk p.position.loop ∧
      ∃ r, r ∈ resultsOf (strokeOf (calls p Ex.xinputs) rs) := by
    intro p hv hsam hlo
    obtain ⟨rs, m, h1, h2, h3, h4, h5⟩ := Ex.xstroke p hv hsam
    obtain ⟨o₁, o₂, o₃, o₄, hs⟩ := Ex.xevents h4 h5
    refine ⟨rs, m, h1, h2, h3, hlo, ?_⟩
    obtain ⟨P, m₀, hreal, hPv, hc, -⟩ := h1.stroke h2 h3 hs
    obtain ⟨e', rest', he', ht⟩ := course_tale hreal hPv hc
    rw [List.cons.injEq] at he'
    have := ht.first
    rw [← he'.1] at this
    rw [hs]
    exact ⟨_, List.mem_flatMap.2 ⟨_, List.mem_cons_self, by rw [this]; exact List.mem_singleton.2 rfl⟩⟩
  exact ⟨key _ Ex.xparams_valid rfl (.inl rfl), key _ Ex.xloop_valid rfl Ex.xloop_ok⟩

end Exact

section Float
open Ex

/-- An input with pressure and tilt on the line y = 0. -/
def Ex.inq (e : EventType) (x : F32) (t : F64) : Input F32 F64 := ⟨e, ⟨x, 0⟩, t, fl 1 2, 0, -1⟩

/-- A pen that is moved by 1 within 10⁻⁴⁰ seconds. -/
def Ex.jumpOps : List (Op F32 F64) :=
  [.resetParams params, .update (inq .down 0 0) [], .update (inq .move 1 (d 1 (10 ^ 40))) []]

/-- C53 fails on floats: the velocity from one input to the next one overflows, and the velocity of the results of all Moves from
then on is NaN, although the velocity of the modeled tip is finite and loop mitigation is off: the infinite velocity still takes
part in the interpolation, with weight 0. -/
theorem C53_refuted [Libm] : ∃ (ops : List (Op F32 F64)) (rs : List (Response F32 F64)) (m m' : StrokeModeler F32 F64)
    (p : StrokeModelParams F32 F64) (i : Input F32 F64) (r : Response F32 F64), Session ops rs m ∧
    (known ops rs).params = some p ∧ p.position.loop.isEnabled = false ∧
    (∀ j v, Op.update j v ∈ ops ++ [.update i []] → isFinite j.position.x ∧ isFinite j.position.y ∧ isFinite j.time ∧
      isFinite j.pressure ∧ isFinite j.tilt ∧ isFinite j.orientation) ∧
    step m (.update i []) = .ok (m', r) ∧ r.status = .ok ∧ r.results ≠ [] ∧
    ∀ q ∈ r.results, isNaN q.velocity.x = true ∧ isNaN q.acceleration.x = true := by
  let i : Input F32 F64 := inq .move 2 (d 1 100)
  obtain ⟨rs, m, h, hP⟩ := exists_session (ops := jumpOps)
    (P := fun rs m => match step m (.update i []) with
      | .ok (_, r) => decide ((known jumpOps rs).params = some params ∧ r.status = .ok ∧ r.results ≠ [] ∧
          ∀ q ∈ r.results, isNaN q.velocity.x = true ∧ isNaN q.acceleration.x = true)
      | _ => false) (by kernel_rfl)
  cases hs : step m (.update i []) with
  | ok x =>
    rw [hs] at hP
    obtain ⟨h0, h1, h2⟩ := of_decide_eq_true hP
    refine ⟨jumpOps, rs, m, x.1, params, i, x.2, h, h0, rfl, ?_, hs, h1, h2⟩
    intro j v hj
    simp only [jumpOps, List.cons_append, List.nil_append, List.mem_cons, List.not_mem_nil, or_false, reduceCtorEq, false_or,
      Op.update.injEq] at hj
    rcases hj with ⟨rfl, -⟩ | ⟨rfl, -⟩ | ⟨rfl, -⟩ <;> decide +kernel
  | ub w => simp [hs] at hP
  | diverge => simp [hs] at hP

/-- Only one time stamp is kept. -/
def Ex.forgetful : StrokeModelParams F32 F64 := { params with prediction := .kalman { kalman with maxTimeSamples := 1 } }

/-- A pen that rests. -/
def Ex.restOps : List (Op F32 F64) :=
  [.resetParams forgetful, .update (inp .down 0 0 0) [], .update (inp .move 0 0 (d 1 300)) []]

/-- C47 fails if only one time stamp is kept, which validation accepts: a pen that rests is predicted to be at NaN. -/
theorem C47_refuted [Libm] : ∃ (ops : List (Op F32 F64)) (rs : List (Response F32 F64)) (m m' : StrokeModeler F32 F64)
    (p : StrokeModelParams F32 F64) (k : KalmanParams F32 F64) (r : Response F32 F64), Session ops rs m ∧
    (known ops rs).params = some p ∧ p.prediction = .kalman k ∧ (∀ j v, Op.update j v ∈ ops → j.position = ⟨0, 0⟩) ∧
    k.minStableIteration ≤ (acceptedOf (strokeOf ops rs)).length ∧
    step m (.predict []) = .ok (m', r) ∧ r.status = .ok ∧ r.results ≠ [] ∧
    ∀ q ∈ r.results, isNaN q.position.x = true ∧ isNaN q.velocity.x = true := by
  obtain ⟨rs, m, h, hP⟩ := exists_session (ops := restOps)
    (P := fun rs m => match step m (.predict []) with
      | .ok (_, r) => decide ((known restOps rs).params = some forgetful ∧ 2 ≤ (acceptedOf (strokeOf restOps rs)).length ∧
          r.status = .ok ∧ r.results ≠ [] ∧ ∀ q ∈ r.results, isNaN q.position.x = true ∧ isNaN q.velocity.x = true)
      | _ => false) (by kernel_rfl)
  cases hs : step m (.predict []) with
  | ok x =>
    rw [hs] at hP
    obtain ⟨h0, h1, h2⟩ := of_decide_eq_true hP
    refine ⟨restOps, rs, m, x.1, forgetful, _, x.2, h, h0, rfl, ?_, by show (2 : ℤ) ≤ _; exact_mod_cast h1, hs, h2⟩
    intro j v hj
    simp only [restOps, List.mem_cons, List.not_mem_nil, or_false, reduceCtorEq, false_or, Op.update.injEq] at hj
    rcases hj with ⟨rfl, -⟩ | ⟨rfl, -⟩ <;> rfl
  | ub w => simp [hs] at hP
  | diverge => simp [hs] at hP

end Float
end Ink
