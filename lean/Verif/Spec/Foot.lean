import Verif.Spec.Ref
/-!
# Projecting the modeled tip to the raw input

README.md describes this in words ("Stylus state modeling", "Loop contraction mitigation"); the comments in
internal/utils.h and internal/stylus_state_modeler.h are the other source. Nothing here refers to the transcription of the code.
-/
namespace Ink.Ref
noncomputable section
open Classical

/-- The third component of the cross product. -/
def cross (a b : ℂ) : ℝ := a.re * b.im - a.im * b.re

/-- The direction of a vector. -/
def unit (z : ℂ) : ℂ := ‖z‖⁻¹ • z

/-- The stroke normal: perpendicular to the direction of travel, halfway between the velocity and the velocity one step further,
`t` being the time of the tip state before; a quarter turn to the left. A step of the size of the last one is assumed, and
acceleration along the velocity is disregarded (internal/utils.h:112-120, utils.cc:33-78). -/
def normal (q : Tip) (t : ℝ) : Option ℂ :=
  if q.vel = 0 ∧ q.acc = 0 then none
  else if q.vel = 0 then some (Complex.I * q.acc)
  else if q.acc = 0 ∨ 0.99996192 * ‖q.vel‖ * ‖q.acc‖ < |inner ℝ q.vel q.acc| then some (Complex.I * q.vel)
  else some (Complex.I * (unit q.vel + unit (q.vel + (q.time - t) • q.acc)))

/-- The value a fraction `u` of the way from the `k`-th to the next. -/
def along {E : Type} [AddCommGroup E] [Module ℝ E] (l : List E) (k : ℕ) (u : ℝ) : E := lerp (l.getD k 0) (l.getD (k + 1) 0) u

/-- The polyline has a segment `k`, and `u` is a fraction. -/
structure On {E : Type} (l : List E) (k : ℕ) (u : ℝ) : Prop where
  lt : k + 1 < l.length
  nonneg : 0 ≤ u
  le : u ≤ 1

/-- The point of the polyline closest to `x`; on the last segment if there are several, and at the beginning of this segment if it
has no length. -/
structure Closest (l : List ℂ) (x : ℂ) (k : ℕ) (u : ℝ) : Prop extends On l k u where
  least : ∀ k' u', On l k' u' → ‖x - along l k u‖ ≤ ‖x - along l k' u'‖
  last : ∀ k' u', On l k' u' → k < k' → ‖x - along l k u‖ < ‖x - along l k' u'‖
  first : l.getD k 0 = l.getD (k + 1) 0 → u = 0

/-- The polyline crosses the line through `x` along `n` at `x + s • n`; segments along this line do not count. -/
structure Crossing (l : List ℂ) (x n : ℂ) (k : ℕ) (u s : ℝ) : Prop extends On l k u where
  across : cross n (l.getD (k + 1) 0 - l.getD k 0) ≠ 0
  eq : along l k u = x + s • n

/-- The crossing closest to `x` on one side; on the first segment if there are several. -/
def Nearest (l : List ℂ) (x n : ℂ) (side : ℝ → Prop) (k : ℕ) (u : ℝ) : Prop :=
  ∃ s, Crossing l x n k u s ∧ side s ∧
    ∀ k' u' s', Crossing l x n k' u' s' → side s' → |s| ≤ |s'| ∧ (k' < k → |s| < |s'|)

/-- The polyline has a crossing on the given side. -/
def Crosses (l : List ℂ) (x n : ℂ) (side : ℝ → Prop) : Prop := ∃ k u s, Crossing l x n k u s ∧ side s

/-- The projection of `x` to the polyline. Along the normal, if there is one and it is asked for: then the nearest crossing on
the left, or on the right if there is none on the left or if the acceleration points to the left. Otherwise the closest
point. -/
def Foot (alongNormal : Bool) (l : List ℂ) (x acc : ℂ) (n : Option ℂ) (foot : Option (ℕ × ℝ)) : Prop :=
  match alongNormal, n with
  | true, some n =>
    match foot with
    | none => ¬ Crosses l x n (fun _ => True)
    | some (k, u) =>
      if Crosses l x n (· < 0) ∧ (¬ Crosses l x n (0 ≤ ·) ∨ 0 < (inner ℝ n acc : ℝ)) then Nearest l x n (· < 0) k u
      else Nearest l x n (0 ≤ ·) k u
  | _, _ =>
    match foot with
    | none => l.length = 1
    | some (k, u) => Closest l x k u

/-- The value at the projection; if there is none, at the end of the polyline that is closer to `x`. -/
def value {E : Type} [AddCommGroup E] [Module ℝ E] (pos : List ℂ) (x : ℂ) (foot : Option (ℕ × ℝ)) (l : List E) : E :=
  match foot with
  | some (k, u) => along l k u
  | none => if ‖pos.headD 0 - x‖ < ‖pos.getLastD 0 - x‖ then l.headD 0 else l.getLastD 0

/-- `θ` is a fraction `u` of the way along the shorter arc from the direction `a` to the direction `b`, up to full turns, and in
[0, 2π]. -/
structure OnArc (a b u θ : ℝ) : Prop where
  nonneg : 0 ≤ θ
  le : θ ≤ 2 * Real.pi
  eq : ∃ (δ : ℝ) (m n : ℤ), |δ| ≤ Real.pi ∧ a + δ = b + m * (2 * Real.pi) ∧ θ = a + u * δ + n * (2 * Real.pi)

/-- The direction at the projection. -/
def arcValue (pos : List ℂ) (x : ℂ) (foot : Option (ℕ × ℝ)) (l : List ℝ) (θ : ℝ) : Prop :=
  match foot with
  | some (k, u) => OnArc (l.getD k 0) (l.getD (k + 1) 0) u θ
  | none => OnArc (value pos x foot l) (value pos x foot l) 0 θ

/-- A state between two. -/
def between (a b : Tip) (c : ℝ) : Tip := ⟨lerp a.pos b.pos c, lerp a.vel b.vel c, lerp a.acc b.acc c, lerp a.time b.time c⟩

/-- The raw sample at the projection, at the time of the tip state. -/
def footSample (win : List Tip) (q : Tip) (foot : Option (ℕ × ℝ)) : Tip :=
  let pos := win.map Tip.pos
  ⟨value pos q.pos foot (win.map Tip.pos), value pos q.pos foot (win.map Tip.vel), value pos q.pos foot (win.map Tip.acc), q.time⟩

theorem Foot.on {nm : Bool} {l : List ℂ} {x acc : ℂ} {n : Option ℂ} {k : ℕ} {u : ℝ} (h : Foot nm l x acc n (some (k, u))) :
    On l k u := by
  unfold Foot at h
  split at h
  · dsimp only at h
    split at h
    · obtain ⟨s, hs, _⟩ := h; exact hs.toOn
    · obtain ⟨s, hs, _⟩ := h; exact hs.toOn
  · exact h.toOn

theorem lerp_mem {E : Type} [AddCommGroup E] [Module ℝ E] {S : Set E} (hS : Convex ℝ S) {a b : E} (ha : a ∈ S) (hb : b ∈ S) {u : ℝ}
    (h0 : 0 ≤ u) (h1 : u ≤ 1) : lerp a b u ∈ S := by
  have := hS ha hb (by linarith : 0 ≤ 1 - u) h0 (by ring)
  have e : lerp a b u = (1 - u) • a + u • b := by unfold lerp; module
  rwa [e]

/-- The value at the projection lies in every convex set that contains the values. -/
theorem value_mem {E : Type} [AddCommGroup E] [Module ℝ E] {S : Set E} (hS : Convex ℝ S) {pos : List ℂ} {x : ℂ}
    {foot : Option (ℕ × ℝ)} {l : List E} (hl : ∀ a ∈ l, a ∈ S) (hne : l ≠ []) (hlen : l.length = pos.length)
    (hon : ∀ k u, foot = some (k, u) → On pos k u) : value pos x foot l ∈ S := by
  unfold value
  split
  · rename_i k u
    have h := hon k u rfl
    have h1 : k + 1 < l.length := by rw [hlen]; exact h.lt
    have h0 : k < l.length := by omega
    refine lerp_mem hS ?_ ?_ h.nonneg h.le
    · have : l.getD k 0 = l[k] := by simp [h0]
      rw [this]; exact hl _ (List.getElem_mem _)
    · have : l.getD (k + 1) 0 = l[k + 1] := by simp [h1]
      rw [this]; exact hl _ (List.getElem_mem _)
  · split
    · cases l with
      | nil => exact absurd rfl hne
      | cons a l => exact hl _ (by simp)
    · rw [List.getLastD_eq_getLast?, List.getLast?_eq_getLast_of_ne_nil hne]
      exact hl _ (List.getLast_mem hne)

/-- There is at most one projection. -/
theorem Closest.unique {l : List ℂ} {x : ℂ} {k k' : ℕ} {u u' : ℝ} (h : Closest l x k u) (h' : Closest l x k' u') : k = k' := by
  rcases lt_trichotomy k k' with hlt | rfl | hlt
  · exact absurd (h.last _ _ h'.toOn hlt) (not_lt.2 (h'.least _ _ h.toOn))
  · rfl
  · exact absurd (h'.last _ _ h.toOn hlt) (not_lt.2 (h.least _ _ h'.toOn))

end
end Ink.Ref
