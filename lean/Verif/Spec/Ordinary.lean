import Verif.Spec.Shadow
/-!
# Ordinary strokes on floats

Strokes with any of the features on: wobble smoothing, loop mitigation, stylus data. The numbers have usual sizes.
-/
namespace Ink
noncomputable section

/-- The second input follows the first at the same time or `g` to `G` later. -/
def Spaced (g G : ℝ) (e f : Event (Fl f32) (Fl f64)) : Prop :=
  (Fl.num f.input.time = Fl.num e.input.time ∨ g ≤ Fl.num f.input.time - Fl.num e.input.time) ∧
    Fl.num f.input.time - Fl.num e.input.time ≤ G

/-- A stroke with inputs (rejected ones included) in the region of size `R`, not too many of them for the window of the wobble smoother if
that is enabled, and with results that come often enough for the spring. -/
structure Ordinary (p : StrokeModelParams (Fl f32) (Fl f64)) (h R g G : ℝ) (es : List (Event (Fl f32) (Fl f64))) : Prop where
  mass : Fl.Finite p.position.springMassConstant
  drag : Fl.Finite p.position.dragConstant
  suits : Suits (Fl.num p.position.springMassConstant) (Fl.num p.position.dragConstant) h (2 * R)
  region : 1 / 2 ^ 50 ≤ R
  inputs : ∀ e ∈ es, InReach R e.input.position
  early : ∀ e ∈ es, |Fl.num e.input.time| ≤ 2 ^ 20
  spaced : es.IsChain (Spaced g G)
  gaps : 1 / 2 ^ 20 ≤ g ∧ g ≤ 1 ∧ 0 ≤ G ∧ G ≤ 2 ^ 20
  wobble : p.wobble.isEnabled = true → 1 / 2 ^ 20 ≤ Fl.num p.wobble.timeout ∧ Fl.num p.wobble.timeout ≤ 2 ^ 20 ∧
    es.length * (3 * (Fl.num p.wobble.timeout + 2 * G)) ≤ 2 ^ 17 * Fl.num p.wobble.timeout
  few : ∀ e ∈ es, (e.results.getD []).length ≤ 2 ^ 20
  paced : Paced h (resultsOf es)

end
end Ink
