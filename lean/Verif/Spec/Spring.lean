import Verif.Spec.Stroke
import Verif.Model.Utils
/-!
# The spring model, step by step, in any arithmetic

What docs and comments (README.md "Position Modeling", internal/position_modeler.h:31-40) say about the pen tip: a mass pulled by a
spring towards an anchor that runs along the inputs, with drag proportional to the velocity, integrated step by step. Here the formulas
are spelled out per component, in the order in which a client would compute them in the given arithmetic.
-/
namespace Ink
open Scalar Arith

variable {F D : Type} [Scalar F] [Scalar D] [Arith F D]

/-- The pen tip `b` is one step of the spring after `a`, with the given anchor. -/
structure Sprung (pp : PositionModelerParams F D) (anchor : Vec2 F) (a b : TipState F D) : Prop where
  ax : b.acceleration.x = (anchor.x - a.position.x) / pp.springMassConstant - pp.dragConstant * a.velocity.x
  ay : b.acceleration.y = (anchor.y - a.position.y) / pp.springMassConstant - pp.dragConstant * a.velocity.y
  vx : b.velocity.x = a.velocity.x + narrow (b.time - a.time) * b.acceleration.x
  vy : b.velocity.y = a.velocity.y + narrow (b.time - a.time) * b.acceleration.y
  px : b.position.x = a.position.x + narrow (b.time - a.time) * b.velocity.x
  py : b.position.y = a.position.y + narrow (b.time - a.time) * b.velocity.y

/-- The steps `i, i + 1, …` of `n` with the anchor (and the time) moving from one point to another. -/
inductive SpringPath (pp : PositionModelerParams F D) (x₀ : Vec2 F) (t₀ : D) (x₁ : Vec2 F) (t₁ : D) (n : Int) :
    Int → TipState F D → List (TipState F D) → Prop
  | done {i : Int} {q : TipState F D} (h : n < i) : SpringPath pp x₀ t₀ x₁ t₁ n i q []
  | step {i : Int} {q b : TipState F D} {tips : List (TipState F D)} (hi : i ≤ n)
      (ht : b.time = t₀ + (t₁ - t₀) * widen (clamp01 (ofInt i / ofInt n : F)))
      (hb : Sprung pp ⟨x₀.x + clamp01 (ofInt i / ofInt n : F) * (x₁.x - x₀.x), x₀.y + clamp01 (ofInt i / ofInt n : F) * (x₁.y - x₀.y)⟩ q b)
      (h : SpringPath pp x₀ t₀ x₁ t₁ n (i + 1) b tips) : SpringPath pp x₀ t₀ x₁ t₁ n i q (b :: tips)

/-- Steps at the end of the stroke: the anchor rests; the time step stays the same or is halved. -/
inductive SpringRest (pp : PositionModelerParams F D) (anchor : Vec2 F) : D → TipState F D → List (TipState F D) → Prop
  | done {dt : D} {q : TipState F D} : SpringRest pp anchor dt q []
  | half {dt : D} {q : TipState F D} {tips : List (TipState F D)} (h : SpringRest pp anchor (dt * ofRatio 1 2) q tips) :
      SpringRest pp anchor dt q tips
  | step {dt : D} {q b : TipState F D} {tips : List (TipState F D)} (ht : b.time = q.time + dt) (hb : Sprung pp anchor q b)
      (h : SpringRest pp anchor dt b tips) : SpringRest pp anchor dt q (b :: tips)

/-- The results of a stroke are those of the spring model (`same`: a pen tip is what the result says). The anchor starts at the Down and
runs straight to the corrected position of each accepted Move, which is the raw position without wobble smoothing, and to the raw
position of the Up, where it rests. The indices: the events, the last accepted input with its corrected position (none after an Up), and
the last pen tip. -/
inductive Springs (same : TipState F D → Result F D → Prop) (p : StrokeModelParams F D) :
    List (Event F D) → Option (Input F D × Vec2 F) → TipState F D → Prop
  | down {i : Input F D} {q : TipState F D} {r : Result F D} (he : i.eventType = .down) (hx : q.position = i.position)
      (hv : q.velocity = ⟨0, 0⟩) (ha : q.acceleration = ⟨0, 0⟩) (ht : q.time = i.time) (hr : same q r) :
      Springs same p [⟨i, some [r]⟩] (some (i, i.position)) q
  | move {es : List (Event F D)} {i prev : Input F D} {c c' : Vec2 F} {q : TipState F D} {n : Int} {tips : List (TipState F D)}
      {out : List (Result F D)} (h : Springs same p es (some (prev, c)) q) (he : i.eventType = .move)
      (hc : p.wobble.isEnabled = false → c' = i.position) (ht : SpringPath p.position c prev.time c' i.time n 1 q tips)
      (hr : List.Forall₂ same tips out) : Springs same p (es ++ [⟨i, some out⟩]) (some (i, c')) (tips.getLastD q)
  | late {es : List (Event F D)} {i prev : Input F D} {c : Vec2 F} {q : TipState F D} (h : Springs same p es (some (prev, c)) q)
      (he : i.eventType = .move) : Springs same p (es ++ [⟨i, none⟩]) (some (prev, c)) q
  | up {es : List (Event F D)} {i prev : Input F D} {c : Vec2 F} {q : TipState F D} {n : Int} {tips rest : List (TipState F D)}
      {out : List (Result F D)} (h : Springs same p es (some (prev, c)) q) (he : i.eventType = .up)
      (ht : SpringPath p.position c prev.time i.position i.time n 1 q tips)
      (hrest : SpringRest p.position i.position (1 / p.sampling.minOutputRate) (tips.getLastD q) rest) (hne : tips ++ rest ≠ [])
      (hr : List.Forall₂ same (tips ++ rest) out) : Springs same p (es ++ [⟨i, some out⟩]) none (rest.getLastD (tips.getLastD q))
  | stop {es : List (Event F D)} {i prev : Input F D} {c : Vec2 F} {q b : TipState F D} {n : Int} {r : Result F D}
      (h : Springs same p es (some (prev, c)) q) (he : i.eventType = .up)
      (ht : SpringPath p.position c prev.time i.position i.time n 1 q [])
      (hb : b = q ∨ SpringRest p.position i.position (1 / p.sampling.minOutputRate) q [b]) (hr : same b r) :
      Springs same p (es ++ [⟨i, some [r]⟩]) none b

end Ink
