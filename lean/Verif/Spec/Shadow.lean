import Verif.Spec.Ref
import Verif.Spec.Stroke
import Verif.IEEE.Real
/-!
# The exact spring beside a stroke on floats

The spring model of the README (`Ref.spring`) on real numbers, driven by the inputs of a stroke and by the times of its results as a
client sees them. Nothing of it is rounded.
-/
namespace Ink
noncomputable section

/-- Where an input is, as a point of the plane. -/
def spot (i : Input (Fl f32) (Fl f64)) : ℂ := ⟨Fl.num i.position.x, Fl.num i.position.y⟩

/-- The anchors for the results of an input at `w` that follows one at `z`: the results number `1 … n` have those on the way, at equal
parts of it, the others rest at `w`. The times are those of the results. -/
def pulls (z w : ℂ) (n : ℕ) : ℕ → List (Result (Fl f32) (Fl f64)) → List (ℂ × ℝ)
  | _, [] => []
  | j, r :: rs => (if j ≤ n then Ref.lerp z w ((j : ℝ) / n) else w, Fl.num r.time) :: pulls z w n (j + 1) rs

/-- The exact tips beside the results of a stroke (without wobble smoothing): a Down starts at rest; the anchor runs straight to
each accepted Move, and to the Up, where it rests. The indices: the events, where the last accepted input is, and the tips so far. -/
inductive Shadow (P : Ref.Params) : List (Event (Fl f32) (Fl f64)) → ℂ → List Ref.Tip → Prop
  | down {i : Input (Fl f32) (Fl f64)} {r : Result (Fl f32) (Fl f64)} (he : i.eventType = .down) :
      Shadow P [⟨i, some [r]⟩] (spot i) [⟨spot i, 0, 0, Fl.num r.time⟩]
  | next {es : List (Event (Fl f32) (Fl f64))} {z : ℂ} {us : List Ref.Tip} {u : Ref.Tip} {i : Input (Fl f32) (Fl f64)}
      {out : List (Result (Fl f32) (Fl f64))} {n : ℕ} (h : Shadow P es z us) (hu : us.getLast? = some u) (hn : n ≤ out.length)
      (he : i.eventType = .move ∧ n = out.length ∨ i.eventType = .up) :
      Shadow P (es ++ [⟨i, some out⟩]) (spot i) (us ++ Ref.follow P u (pulls z (spot i) n 1 out))
  | late {es : List (Event (Fl f32) (Fl f64))} {z : ℂ} {us : List Ref.Tip} {i : Input (Fl f32) (Fl f64)} (h : Shadow P es z us)
      (he : i.eventType = .move) : Shadow P (es ++ [⟨i, none⟩]) z us

/-- The results come in the order of their times, which are at most `h` apart. -/
structure Paced (h : ℝ) (out : List (Result (Fl f32) (Fl f64))) : Prop where
  finite : ∀ r ∈ out, Fl.Finite r.time
  gaps : out.IsChain fun r r' => 0 ≤ Fl.num r'.time - Fl.num r.time ∧ Fl.num r'.time - Fl.num r.time ≤ h

/-- Weights of the results: at each result, the weight so far fades by `δ` per second, and one is added. The results count
themselves (`Weights.count`), and if they are at least `g` apart then no weight has to be larger than `1 / (δ g)` (`Weights.even`). -/
structure Weights (δ : ℝ) (out : List (Result (Fl f32) (Fl f64))) (w : ℕ → ℝ) : Prop where
  nonneg : ∀ k, 0 ≤ w k
  next : ∀ k r r', out[k]? = some r → out[k + 1]? = some r' → (1 - δ * (Fl.num r'.time - Fl.num r.time)) * w k + 1 ≤ w (k + 1)

/-- Usual sizes: of the parameters of the spring and of the region of the inputs; and steps that are short enough for the spring. -/
structure Suits (M d h R : ℝ) : Prop where
  mass : 1 / 2 ^ 16 ≤ M ∧ M ≤ 2 ^ 16
  drag : 1 / 2 ^ 16 ≤ d ∧ d ≤ 2 ^ 16
  step : 0 < h ∧ 2 * d * h ≤ 1 ∧ 4 * h ≤ M * d
  size : 1 / 2 ^ 50 ≤ R ∧ R ≤ 2 ^ 50

/-- A point (or a velocity) with finite coordinates of at most the given size. -/
structure InReach (R : ℝ) (a : Vec2 (Fl f32)) : Prop where
  finx : Fl.Finite a.x
  finy : Fl.Finite a.y
  x : |Fl.num a.x| ≤ R
  y : |Fl.num a.y| ≤ R

/-- How fast errors fade. -/
def fade (M d : ℝ) : ℝ := d / (20 * (1 + M * d ^ 2))

/-- How far the tip may get if the inputs are within `R`. -/
def reach (M d R : ℝ) : ℝ := 26 * (1 / (d * Real.sqrt M) + d * Real.sqrt M) * R

/-- A stroke without wobble smoothing, loop mitigation and stylus data, with inputs in the region of size `R` and results that come
often enough for the spring. -/
structure Calm (p : StrokeModelParams (Fl f32) (Fl f64)) (h R : ℝ) (es : List (Event (Fl f32) (Fl f64))) : Prop where
  loop : p.position.loop.isEnabled = false
  normal : p.stylus.useStrokeNormalProjection = false
  wobble : p.wobble.isEnabled = false
  bare : ∀ e, es.head? = some e →
    isUnknown e.input.pressure = true ∧ isUnknown e.input.tilt = true ∧ isUnknown e.input.orientation = true
  mass : Fl.Finite p.position.springMassConstant
  drag : Fl.Finite p.position.dragConstant
  suits : Suits (Fl.num p.position.springMassConstant) (Fl.num p.position.dragConstant) h R
  inputs : ∀ i ∈ acceptedOf es, InReach R i.position
  few : ∀ e ∈ es, (e.results.getD []).length ≤ 2 ^ 20
  paced : Paced h (resultsOf es)

end
end Ink
