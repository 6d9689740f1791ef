import Verif.Model.Move
import Verif.Props.SaveRestore
/-!
# Modelers that were moved from: C68
-/
namespace Ink
open Scalar Arith

variable {F D : Type} [Scalar F] [Scalar D] [Arith F D]

/-- C68 (partial): a modeler that was moved from, in whatever state it was and whatever the move left in its containers, can be used
again after a successful `Reset(params)`: it behaves as a new one on which only that call was made.
Full statement: also after `Reset()`, "keeping the same model parameters"; it is false, see `C68_refuted`. And without
`NoDisableAfterSave later`, cf. C10. -/
theorem C68_moved_from_partial {m m' m₁ m₀ : StrokeModeler F D} (h : MovedFrom m m') {p : StrokeModelParams F D} {r r₀ : Response F D}
    (hs : step m' (.resetParams p) = .ok (m₁, r)) (hr : r.status = .ok) (hf : step .default (.resetParams p) = .ok (m₀, r₀))
    {later : List (Op F D)} (hn : NoDisableAfterSave later) : observe m₁ later = observe m₀ later := by
  have hv : validateStrokeModelParams p = .ok := by
    rcases resetParams_cases m' p with ⟨c, msg, hv, h'⟩ | ⟨hv, -⟩
    · simp only [step, h', Outcome.ok.injEq, Prod.mk.injEq] at hs
      rw [← hs.2] at hr
      cases hr
    · exact hv
  have e1 : (m'.resetParams p).1 = m₁ := by
    simp only [step, Outcome.ok.injEq, Prod.mk.injEq] at hs
    exact hs.1
  have e0 : ((StrokeModeler.default : StrokeModeler F D).resetParams p).1 = m₀ := by
    simp only [step, Outcome.ok.injEq, Prod.mk.injEq] at hf
    exact hf.1
  have hq : Equiv True False m₁ m₀ := by
    rcases resetParams_cases m' p with ⟨c, msg, hv', -⟩ | ⟨-, h1⟩
    · rw [hv] at hv'; cases hv'
    rcases resetParams_cases (.default : StrokeModeler F D) p with ⟨c, msg, hv', -⟩ | ⟨-, h2⟩
    · rw [hv] at hv'; cases hv'
    rw [← e1, ← e0, h1, h2]
    refine ⟨rfl, rfl, fun _ => rfl, rfl, ?_, ?_, ?_, ?_, ?_, ?_⟩
    · rintro (hc | ⟨_, hc, _⟩)
      · exact absurd rfl hc
      · cases hc
    · intro _ hc; cases hc
    · intro _ hc; cases hc
    · intro _ hc; cases hc
    · exact fun _ => ⟨h.savedPredictor, rfl⟩
    · exact fun _ => ⟨h.savedPredictor, rfl⟩
  exact hq.observe later hn (fun hc => hc.elim) (.inl trivial)

section Examples
open Ex

/-- `m` with empty containers. -/
def Ex.emptied (m : StrokeModeler F D) : StrokeModeler F D :=
  { m with
    predictor := none, savedPredictor := none, tipBuffer := []
    wobble := { m.wobble with state := { m.wobble.state with samples := [] }, savedState := { m.wobble.savedState with samples := [] } }
    stylus := { m.stylus with state := { m.stylus.state with inputs := [] }, savedState := { m.stylus.savedState with inputs := [] } }
    loop := { m.loop with samples := [], savedSamples := [] } }

omit [Scalar F] [Scalar D] [Arith F D] in
theorem Ex.emptied_movedFrom (m : StrokeModeler F D) : MovedFrom m (emptied m) :=
  ⟨rfl, rfl, rfl, ⟨[], [], rfl⟩, rfl, ⟨[], [], rfl⟩, ⟨[], [], rfl⟩, rfl, rfl, rfl⟩

/-- a modeler that is moved from during a stroke with an active save; its `Reset(params)` then succeeds -/
example : ∃ rs m m₁ r m₀ r₀, Session (stroke1 ++ [.save]) rs m ∧ MovedFrom m (emptied m) ∧ m.saveActive = true ∧
    m.lastInput ≠ none ∧ step (emptied m) (.resetParams params) = .ok (m₁, r) ∧ r.status = .ok ∧
    step .default (.resetParams params) = .ok (m₀, r₀) ∧ NoDisableAfterSave stroke2 := by
  obtain ⟨rs, m, h, hP⟩ := exists_session (ops := (stroke1 ++ [.save] : List (Op F32 F64)))
    (P := fun _ m => decide (m.saveActive = true ∧ m.lastInput ≠ none ∧ ((emptied m).resetParams params).2 = .ok)) (by kernel_rfl)
  obtain ⟨h1, h2, h3⟩ := of_decide_eq_true hP
  refine ⟨rs, m, ((emptied m).resetParams params).1, ⟨((emptied m).resetParams params).2, []⟩,
    (StrokeModeler.default.resetParams params).1, ⟨(StrokeModeler.default.resetParams params).2, []⟩, h, emptied_movedFrom m, h1, h2,
    step_resetParams _ _, (by dsimp only; exact h3), step_resetParams _ _, ?_⟩
  intro a p b hab hd
  have hm : Op.resetParams p ∈ stroke2 := by simp [hab]
  simp [stroke2] at hm

/-- The full C68 is false: a modeler with the stroke-end predictor is moved from and `Reset()` succeeds on it; then `Predict` during a
stroke fails as if prediction were disabled, while on a new modeler with these parameters it succeeds. -/
theorem C68_refuted [Libm] : ∃ (ops : List (Op F32 F64)) (rs : List (Response F32 F64)) (m m' m₁ m₀ : StrokeModeler F32 F64)
    (p : StrokeModelParams F32 F64) (r r₀ : Response F32 F64) (later : List (Op F32 F64)), Session ops rs m ∧ MovedFrom m m' ∧
    (known ops rs).params = some p ∧ step m' .reset = .ok (m₁, r) ∧ r.status = .ok ∧
    step .default (.resetParams p) = .ok (m₀, r₀) ∧ observe m₁ later ≠ observe m₀ later := by
  let later : List (Op F32 F64) := [.update (inp .down 0 0 0) [], .predict []]
  obtain ⟨rs, m, h, hP⟩ := exists_session (ops := ([.resetParams params] : List (Op F32 F64)))
    (P := fun rs m => decide ((known [.resetParams params] rs).params = some params ∧ (emptied m).reset.2 = .ok ∧
      observe (emptied m).reset.1 later ≠ observe (StrokeModeler.default.resetParams params).1 later))
    (by kernel_rfl)
  obtain ⟨h0, h1, h2⟩ := of_decide_eq_true hP
  exact ⟨_, rs, m, emptied m, (emptied m).reset.1, (StrokeModeler.default.resetParams params).1, params,
    ⟨(emptied m).reset.2, []⟩, ⟨(StrokeModeler.default.resetParams params).2, []⟩, later, h, emptied_movedFrom m, h0, rfl, h1,
    step_resetParams _ _, h2⟩

end Examples
end Ink
