import Verif.Spec.Ref
import Mathlib.Analysis.Calculus.Deriv.Basic
/-!
# The equation of motion of the README

Nothing here refers to the transcription of the code.
-/
namespace Ink.Ref
noncomputable section
open Classical

/-- The anchor (README.md:457-460, 507-508): from one point to the next in a straight line at constant speed; it stays at the last
one. -/
def anchorAt (a : ℂ × ℝ) : List (ℂ × ℝ) → ℝ → ℂ
  | [], _ => a.1
  | b :: l, t => if t < b.2 then lerp a.1 b.1 ((t - a.2) / (b.2 - a.2)) else anchorAt b l t

/-- The pen with position `x` and velocity `v` obeys the differential equation (README.md:519-522) from `t₀` until `T`, where `Φ` is
the position of the anchor. -/
structure Obeys (M d : ℝ) (Φ : ℝ → ℂ) (t₀ T : ℝ) (x v : ℝ → ℂ) : Prop where
  pos : ∀ t ∈ Set.Icc t₀ T, HasDerivWithinAt x (v t) (Set.Icc t₀ T) t
  vel : ∀ t ∈ Set.Icc t₀ T, HasDerivWithinAt v (M⁻¹ • (Φ t - x t) - d • v t) (Set.Icc t₀ T) t

/-- The anchor is never faster than `S`. -/
def Slow (S : ℝ) (a : ℂ × ℝ) (l : List (ℂ × ℝ)) : Prop := (a :: l).IsChain fun b c => b.2 ≤ c.2 ∧ ‖c.1 - b.1‖ ≤ S * (c.2 - b.2)

end
end Ink.Ref
