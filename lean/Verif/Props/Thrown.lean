import Verif.Props.Rounding
/-!
# What a rejected input can do to the rest of the stroke: C05
-/
namespace Ink
open Scalar Arith Fl Ex

/-- With the parameters of the unit tests: the pen is put down at the origin and stays there; one input in between, a thousandth away, has a
wrong time. -/
def Ex.glitch : List (Op F32 F64) :=
  [.resetParams params, .update (inp .down 0 0 0) [], .update (inp .move (fl 1 1000) 0 1099511627776) [], .update (inp .move 0 0 (d 1 100)) [],
   .update (inp .move 0 0 (d 2 100)) [], .update (inp .move 0 0 (d 3 100)) []]

/-- How bad it gets: the modeler rejects the wrong input and accepts all others, which are at the origin, but the tip is sent to a distance of
more than a million. -/
theorem C05_thrown_refuted [Libm] : ∃ (rs : List (Response F32 F64)) (m : StrokeModeler F32 F64), Session glitch rs m ∧ Regular glitch rs ∧
    rs.map (·.status.isOk) = [true, true, false, true, true, true] ∧
    (∀ i ∈ acceptedOf (strokeOf glitch rs), i.position = ⟨0, 0⟩) ∧
    ∃ r ∈ resultsOf (strokeOf glitch rs), Finite r.position.x ∧ 1000000 ≤ num r.position.x := by
  obtain ⟨rs, m, h, hP⟩ := exists_session (ops := glitch) (P := fun rs _ => noStale glitch rs &&
    decide (rs.map (·.status.isOk) = [true, true, false, true, true, true]) &&
    (acceptedOf (strokeOf glitch rs)).all (fun i => decide (i.position = ⟨0, 0⟩)) &&
    (resultsOf (strokeOf glitch rs)).any fun r => decide (Finite r.position.x) && decide (1000000 * 2 ^ f32.q ≤ Fl.key r.position.x)) (by kernel_rfl)
  simp only [Bool.and_eq_true, decide_eq_true_eq, List.all_eq_true, List.any_eq_true] at hP
  obtain ⟨⟨⟨h1, h2⟩, h3⟩, r, hr, h4, h5⟩ := hP
  refine ⟨rs, m, h, ⟨noStale_iff h1, ?_⟩, h2, h3, r, hr, h4, ?_⟩
  · intro a p b h hd
    have hm : Op.resetParams p ∈ glitch := by simp [h]
    simp [glitch] at hm
    simp [hm, params] at hd
  · rw [num, le_div_iff₀ (by positivity)]
    exact_mod_cast h5

end Ink
