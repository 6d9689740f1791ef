import Verif.Spec.Foot
import Mathlib.Analysis.Complex.Isometry
/-!
# Strokes and their images under isometries of the plane that fix the origin

The reference model of Spec/Ref.lean and the projection of Spec/Foot.lean do not single out a direction of the plane.
-/
namespace Ink.Ref
noncomputable section
open Classical

variable (L : ℂ ≃ₗᵢ[ℝ] ℂ)

/-- The image of a tip state. -/
def Tip.image (q : Tip) : Tip := ⟨L q.pos, L q.vel, L q.acc, q.time⟩
@[inherit_doc Tip.image] def Sample.image (s : Sample) : Sample := ⟨L s.pos, s.dur, s.dist, s.time⟩
@[inherit_doc Tip.image] def State.image (s : State) : State := ⟨s.tip.image L, s.window.map (Sample.image L), (L s.anchor.1, s.anchor.2)⟩
@[inherit_doc Tip.image] def Touch.image : Touch → Touch
  | .move pos t => .move (L pos) t
  | .up pos t => .up (L pos) t

/-- The image of a point with a time. -/
def imagePt (i : ℂ × ℝ) : ℂ × ℝ := (L i.1, i.2)

/-- The isometry is a rotation. -/
def Rotates : Prop := ∀ z, L (Complex.I * z) = Complex.I * L z

variable {L}

theorem lerp_isom (a b : ℂ) (c : ℝ) : lerp (L a) (L b) c = L (lerp a b c) := by
  simp only [lerp, map_add, map_sub, map_smul]

theorem norm_sub_image (a b : ℂ) : ‖L a - L b‖ = ‖a - b‖ := by rw [← map_sub, L.norm_map]

theorem sample_image (s : Sample) (x : ℂ) (t : ℝ) : sample (s.image L) (L x) t = (sample s x t).image L := by
  simp [sample, Sample.image, norm_sub_image]

theorem slide_image (timeout : ℝ) (w : List Sample) (s : Sample) :
    slide timeout (w.map (Sample.image L)) (s.image L) = (slide timeout w s).map (Sample.image L) := by
  unfold slide
  have : w.map (Sample.image L) ++ [s.image L] = (w ++ [s]).map (Sample.image L) := by simp
  rw [this, List.dropWhile_map]
  rfl

theorem total_image (w : List Sample) : totalDur (w.map (Sample.image L)) = totalDur w ∧ totalDist (w.map (Sample.image L)) = totalDist w ∧
    totalPos (w.map (Sample.image L)) = L (totalPos w) := by
  refine ⟨by simp [totalDur, Function.comp_def, Sample.image], by simp [totalDist, Function.comp_def, Sample.image], ?_⟩
  simp only [totalPos, List.map_map, Function.comp_def, Sample.image, map_list_sum, map_smul]

theorem smoothed_image (lo hi : ℝ) (w : List Sample) (x : ℂ) : smoothed lo hi (w.map (Sample.image L)) (L x) = L (smoothed lo hi w x) := by
  obtain ⟨h1, h2, h3⟩ := total_image (L := L) w
  unfold smoothed
  rw [h1, h2, h3]
  split
  · rfl
  · rw [← map_smul, lerp_isom]

theorem smooth_image (P : Params) (s : State) (x : ℂ) (t : ℝ) :
    smooth P (s.image L) (L x) t = ((smooth P s x t).1.map (Sample.image L), L (smooth P s x t).2) := by
  unfold smooth
  cases P.wobble with
  | none => rfl
  | some w =>
    obtain ⟨tm, lo, hi⟩ := w
    simp only [State.image, List.getLast?_map]
    cases s.window.getLast? with
    | none => rfl
    | some last => simp only [Option.map_some, sample_image, slide_image, smoothed_image]

theorem upsample_image (a b : ℂ × ℝ) (n : ℕ) : upsample (imagePt L a) (imagePt L b) n = (upsample a b n).map (imagePt L) := by
  simp only [upsample, List.map_map, Function.comp_def, imagePt, lerp_isom]

theorem turn_image (v w : ℂ) : turn (L v) (L w) = turn v w := by
  simp only [turn, map_eq_zero_iff L L.injective]
  split
  · rfl
  · exact LinearIsometry.angle_map L.toLinearIsometry v w

theorem steps_image (P : Params) (q : Tip) (x : ℂ) (dt : ℝ) : steps P (q.image L) (L x) dt = steps P q x dt := by
  have e : velocityGain P (q.image L) (L x) dt = L (velocityGain P q x dt) := by
    simp only [velocityGain, Tip.image, map_sub, map_smul]
  unfold steps
  rw [e]
  simp only [Tip.image, ← map_add, turn_image]

theorem spring_image (P : Params) (q : Tip) (i : ℂ × ℝ) : spring P (q.image L) (imagePt L i) = (spring P q i).image L := by
  simp only [spring, Tip.image, imagePt, map_add, map_sub, map_smul]

theorem follow_image (P : Params) (q : Tip) (l : List (ℂ × ℝ)) :
    follow P (q.image L) (l.map (imagePt L)) = (follow P q l).map (Tip.image L) := by
  induction l generalizing q with
  | nil => rfl
  | cons i l ih => simp only [List.map_cons, follow, spring_image, ih]

theorem overshoots_image (w a b : ℂ) : Overshoots (L w) (L a) (L b) ↔ Overshoots w a b := by
  unfold Overshoots
  have : segment ℝ (L a) (L b) = L '' segment ℝ a b := by
    have := image_segment ℝ (L.toLinearEquiv.toLinearMap.toAffineMap) a b
    simpa using this.symm
  rw [this]
  simp [norm_sub_image]

theorem settle_image (P : Params) (w : ℂ) (k : ℕ) (dt : ℝ) (q : Tip) :
    settle P (L w) k dt (q.image L) = ((settle P w k dt q).1.image L, (settle P w k dt q).2.map (Tip.image L)) := by
  induction k generalizing dt q with
  | zero => rfl
  | succ k ih =>
    have e : spring P (q.image L) (L w, (q.image L).time + dt) = (spring P q (w, q.time + dt)).image L := spring_image P q (w, q.time + dt)
    simp only [settle, e]
    generalize spring P q (w, q.time + dt) = c
    simp only [ih]
    simp only [Tip.image, norm_sub_image, overshoots_image]
    split
    · rfl
    · split
      · rfl
      · split <;> rfl

theorem getLastD_image (l : List Tip) (q : Tip) : (l.map (Tip.image L)).getLastD (q.image L) = (l.getLastD q).image L := by
  rw [List.getLastD_eq_getLast?, List.getLastD_eq_getLast?, List.getLast?_map]
  cases l.getLast? <;> rfl

theorem advance_image (P : Params) (s : State) (i : Touch) :
    advance P (s.image L) (i.image L) = ((advance P s i).1.image L, (advance P s i).2.map (List.map (Tip.image L))) := by
  cases i with
  | move x t =>
    simp only [advance, Touch.image, move, smooth_image]
    have e1 : (s.image L).tip = s.tip.image L := rfl
    have e2 : (s.image L).anchor = imagePt L s.anchor := rfl
    have e3 : (L (smooth P s x t).2, t) = imagePt L ((smooth P s x t).2, t) := rfl
    rw [e1, e2, e3, steps_image, upsample_image, follow_image, getLastD_image]
    have e4 : (imagePt L s.anchor).2 = s.anchor.2 := rfl
    rw [e4]
    split <;> rfl
  | up x t =>
    simp only [advance, Touch.image, up]
    have e1 : (s.image L).tip = s.tip.image L := rfl
    have e2 : (s.image L).anchor = imagePt L s.anchor := rfl
    have e3 : (L x, t) = imagePt L (x, t) := rfl
    have e4 : (imagePt L s.anchor).2 = s.anchor.2 := rfl
    rw [e1, e2, e3, steps_image, upsample_image, follow_image, getLastD_image, settle_image, e4]
    simp only [List.append_eq_nil_iff, List.map_eq_nil_iff]
    congr 1
    split
    · split <;> simp
    · rfl

theorem after_image (P : Params) (s : State) (is : List Touch) : after P (s.image L) (is.map (Touch.image L)) = (after P s is).image L := by
  induction is generalizing s with
  | nil => rfl
  | cons i is ih =>
    simp only [after, List.map_cons, List.foldl_cons, advance_image]
    exact ih _

theorem start_image (x : ℂ) (t : ℝ) : start (L x) t = (start x t).image L := by
  simp [start, State.image, Tip.image, Sample.image]

theorem raw_image (last : Option Tip) (i : ℂ × ℝ) : raw (last.map (Tip.image L)) (imagePt L i) = (raw last i).image L := by
  cases last with
  | none => simp [raw, Tip.image, imagePt]
  | some l =>
    simp only [raw, Option.map_some]
    by_cases h : i.2 = l.time
    · have h' : (imagePt L i).2 = (l.image L).time := h
      rw [if_pos h, if_pos h']; simp only [Tip.image, imagePt, map_zero]
    · have h' : ¬ (imagePt L i).2 = (l.image L).time := h
      rw [if_neg h, if_neg h']; simp only [Tip.image, imagePt, map_sub, map_smul]

theorem raws_image (l : List (ℂ × ℝ)) : raws (l.map (imagePt L)) = (raws l).map (Tip.image L) := by
  induction l using List.reverseRecOn with
  | nil => rfl
  | append_singleton l i ih => rw [List.map_append, List.map_singleton, raws_append, raws_append, ih, List.getLast?_map, raw_image]; simp

theorem place_image (P : Params) (s : State) (i : Touch) : place P (s.image L) (i.image L) = imagePt L (place P s i) := by
  cases i with
  | move x t => simp [place, Touch.image, smooth_image, imagePt]
  | up x t => rfl

theorem places_image (P : Params) (s : State) (is : List Touch) :
    places P (s.image L) (is.map (Touch.image L)) = (places P s is).map (imagePt L) := by
  induction is generalizing s with
  | nil => rfl
  | cons i is ih => simp only [List.map_cons, places, place_image, advance_image, ih]

theorem polyline_image (P : Params) (x : ℂ) (t : ℝ) (is : List Touch) :
    polyline P (L x) t (is.map (Touch.image L)) = (polyline P x t is).map (Tip.image L) := by
  unfold polyline
  rw [start_image, places_image, ← raws_image]
  rfl

/-! ### the projection -/

theorem along_image (l : List ℂ) (k : ℕ) (u : ℝ) : along (l.map L) k u = L (along l k u) := by
  have e : ∀ k, (l.map L).getD k 0 = L (l.getD k 0) := fun k => by
    rw [List.getD_eq_getElem?_getD, List.getElem?_map, List.getD_eq_getElem?_getD]
    cases l[k]? <;> simp
  simp only [along, e, lerp_isom]

theorem getD_image (l : List ℂ) (k : ℕ) : (l.map L).getD k 0 = L (l.getD k 0) := by
  rw [List.getD_eq_getElem?_getD, List.getElem?_map, List.getD_eq_getElem?_getD]
  cases l[k]? <;> simp

theorem on_image {l : List ℂ} {k : ℕ} {u : ℝ} : On (l.map L) k u ↔ On l k u := by
  constructor
  · rintro ⟨h1, h2, h3⟩; exact ⟨by simpa using h1, h2, h3⟩
  · rintro ⟨h1, h2, h3⟩; exact ⟨by simpa using h1, h2, h3⟩

theorem Closest.image {l : List ℂ} {x : ℂ} {k : ℕ} {u : ℝ} (h : Closest l x k u) : Closest (l.map L) (L x) k u where
  toOn := on_image.2 h.toOn
  least k' u' ho := by
    simp only [along_image, norm_sub_image]
    exact h.least k' u' (on_image.1 ho)
  last k' u' ho := by
    simp only [along_image, norm_sub_image]
    exact h.last k' u' (on_image.1 ho)
  first he := by
    rw [getD_image, getD_image] at he
    exact h.first (L.injective he)

theorem cross_eq_inner (a b : ℂ) : cross a b = inner ℝ (Complex.I * a) b := by
  simp [cross, Complex.inner]
  ring

theorem cross_image (hL : Rotates L) (a b : ℂ) : cross (L a) (L b) = cross a b := by
  rw [cross_eq_inner, cross_eq_inner, ← hL, L.inner_map_map]

theorem crossing_image (hL : Rotates L) {l : List ℂ} {x n : ℂ} {k : ℕ} {u s : ℝ} :
    Crossing (l.map L) (L x) (L n) k u s ↔ Crossing l x n k u s := by
  constructor
  · rintro ⟨h1, h2, h3⟩
    refine ⟨on_image.1 h1, ?_, ?_⟩
    · rw [getD_image, getD_image, ← map_sub, cross_image hL] at h2; exact h2
    · rw [along_image, ← map_smul, ← map_add] at h3; exact L.injective h3
  · rintro ⟨h1, h2, h3⟩
    refine ⟨on_image.2 h1, ?_, ?_⟩
    · rw [getD_image, getD_image, ← map_sub, cross_image hL]; exact h2
    · rw [along_image, ← map_smul, ← map_add, h3]

theorem nearest_image (hL : Rotates L) {l : List ℂ} {x n : ℂ} {side : ℝ → Prop} {k : ℕ} {u : ℝ} :
    Nearest (l.map L) (L x) (L n) side k u ↔ Nearest l x n side k u := by
  simp only [Nearest, crossing_image hL]

theorem crosses_image (hL : Rotates L) {l : List ℂ} {x n : ℂ} {side : ℝ → Prop} :
    Crosses (l.map L) (L x) (L n) side ↔ Crosses l x n side := by
  simp only [Crosses, crossing_image hL]

theorem unit_image (z : ℂ) : unit (L z) = L (unit z) := by simp only [unit, map_smul, L.norm_map]

theorem normal_image (hL : Rotates L) (q : Tip) (t : ℝ) : normal (q.image L) t = (normal q t).map L := by
  simp only [normal, Tip.image, map_eq_zero_iff L L.injective, L.norm_map, L.inner_map_map, ← map_smul, ← map_add, unit_image]
  split
  · rfl
  · split
    · rw [← hL]; rfl
    · split <;> rw [← hL] <;> rfl

/-- The projection of the image is the image of the projection. -/
theorem Foot.image {nm : Bool} (hL : nm = true → Rotates L) {l : List ℂ} {q : Tip} {t : ℝ} {foot : Option (ℕ × ℝ)}
    (h : Foot nm l q.pos q.acc (normal q t) foot) : Foot nm (l.map L) (q.image L).pos (q.image L).acc (normal (q.image L) t) foot := by
  cases nm with
  | false =>
    unfold Foot at h ⊢
    dsimp only at h ⊢
    cases foot with
    | none => simpa using h
    | some f => exact Closest.image h
  | true =>
    have hL := hL rfl
    rw [normal_image hL]
    cases hn : normal q t with
    | none =>
      rw [hn] at h
      unfold Foot at h ⊢
      dsimp only [Option.map_none] at h ⊢
      cases foot with
      | none => simpa using h
      | some f => exact Closest.image h
    | some n =>
      rw [hn] at h
      unfold Foot at h ⊢
      simp only [Option.map_some, Tip.image, crosses_image hL, nearest_image hL, L.inner_map_map]
      exact h

theorem headD_image (l : List ℂ) : (l.map L).headD 0 = L (l.headD 0) := by cases l <;> simp

theorem getLastD_image' (l : List ℂ) : (l.map L).getLastD 0 = L (l.getLastD 0) := by
  rw [List.getLastD_eq_getLast?, List.getLastD_eq_getLast?, List.getLast?_map]
  cases l.getLast? <;> simp

theorem value_image (pos l : List ℂ) (x : ℂ) (foot : Option (ℕ × ℝ)) : value (pos.map L) (L x) foot (l.map L) = L (value pos x foot l) := by
  unfold value
  cases foot with
  | none => simp only [headD_image, getLastD_image', norm_sub_image]; split <;> rfl
  | some f => exact along_image _ _ _

theorem value_image' {E : Type} [AddCommGroup E] [Module ℝ E] (pos : List ℂ) (l : List E) (x : ℂ) (foot : Option (ℕ × ℝ)) :
    value (pos.map L) (L x) foot l = value pos x foot l := by
  unfold value
  cases foot with
  | none => simp only [headD_image, getLastD_image', norm_sub_image]
  | some f => rfl

theorem footSample_image (win : List Tip) (q : Tip) (foot : Option (ℕ × ℝ)) :
    footSample (win.map (Tip.image L)) (q.image L) foot = (footSample win q foot).image L := by
  have e1 : (win.map (Tip.image L)).map Tip.pos = (win.map Tip.pos).map L := by simp [Function.comp_def, Tip.image]
  have e2 : (win.map (Tip.image L)).map Tip.vel = (win.map Tip.vel).map L := by simp [Function.comp_def, Tip.image]
  have e3 : (win.map (Tip.image L)).map Tip.acc = (win.map Tip.acc).map L := by simp [Function.comp_def, Tip.image]
  simp only [footSample, e1, e2, e3]
  simp only [Tip.image, value_image]

theorem between_image (a b : Tip) (c : ℝ) : between (a.image L) (b.image L) c = (between a b c).image L := by
  simp only [between, Tip.image, lerp_isom]

/-! ### there is only one projection -/

theorem lerp_inj {a b : ℂ} (h : a ≠ b) {u v : ℝ} (he : lerp a b u = lerp a b v) : u = v := by
  have : (u - v) • (b - a) = 0 := by
    unfold lerp at he; rw [sub_smul]; rw [add_right_inj] at he; rw [he, sub_self]
  rcases smul_eq_zero.1 this with h' | h'
  · linarith
  · exact absurd (sub_eq_zero.1 h').symm h

theorem Closest.eq {l : List ℂ} {x : ℂ} {k k' : ℕ} {u u' : ℝ} (h : Closest l x k u) (h' : Closest l x k' u') : k = k' ∧ u = u' := by
  obtain rfl := h.unique h'
  refine ⟨rfl, ?_⟩
  by_cases he : l.getD k 0 = l.getD (k + 1) 0
  · rw [h.first he, h'.first he]
  · -- halfway between two closest points there would be a closer one
    by_contra hne
    have h1 := h.least k u' h'.toOn
    have h2 := h'.least k u h.toOn
    have heq : ‖x - along l k u‖ = ‖x - along l k u'‖ := le_antisymm h1 h2
    have hm : On l k ((u + u') / 2) := ⟨h.lt, by have := h.nonneg; have := h'.nonneg; linarith, by have := h.le; have := h'.le; linarith⟩
    have h3 := h.least k _ hm
    have e : x - along l k ((u + u') / 2) = (1 / 2 : ℝ) • ((x - along l k u) + (x - along l k u')) := by
      simp only [along, lerp]; module
    have hd : (x - along l k u) - (x - along l k u') ≠ 0 := by
      intro h0
      rw [sub_eq_zero, sub_right_inj] at h0
      exact hne (lerp_inj he h0)
    have hp := parallelogram_law_with_norm ℝ (x - along l k u) (x - along l k u')
    have hd' := norm_pos_iff.2 hd
    rw [e, norm_smul, Real.norm_of_nonneg (by norm_num)] at h3
    rw [← heq] at hp
    have hA := norm_nonneg (x - along l k u)
    have hB := norm_nonneg ((x - along l k u) + (x - along l k u'))
    nlinarith [mul_pos hd' hd']

theorem Crossing.unique {l : List ℂ} {x n : ℂ} {k : ℕ} {u u' s s' : ℝ} (h : Crossing l x n k u s) (h' : Crossing l x n k u' s') :
    u = u' := by
  have e : ∀ {u s}, Crossing l x n k u s → cross n (l.getD k 0 - x) + u * cross n (l.getD (k + 1) 0 - l.getD k 0) = 0 := by
    intro u s h
    have h1 : cross n (along l k u - x) = 0 := by rw [h.eq]; simp [cross]; ring
    rw [← h1]
    simp [cross, along, lerp]; ring
  have e1 := e h
  have e2 := e h'
  have : (u - u') * cross n (l.getD (k + 1) 0 - l.getD k 0) = 0 := by linarith
  rcases mul_eq_zero.1 this with h0 | h0
  · linarith
  · exact absurd h0 h.across

theorem Nearest.eq {l : List ℂ} {x n : ℂ} {side : ℝ → Prop} {k k' : ℕ} {u u' : ℝ} (h : Nearest l x n side k u)
    (h' : Nearest l x n side k' u') : k = k' ∧ u = u' := by
  obtain ⟨s, h1, h2, h3⟩ := h
  obtain ⟨s', h1', h2', h3'⟩ := h'
  have a1 := h3 _ _ _ h1' h2'
  have a2 := h3' _ _ _ h1 h2
  have hk : k = k' := by
    rcases lt_trichotomy k k' with hlt | rfl | hlt
    · exact absurd (a2.2 hlt) (not_lt.2 a1.1)
    · rfl
    · exact absurd (a1.2 hlt) (not_lt.2 a2.1)
  subst hk
  exact ⟨rfl, h1.unique h1'⟩

/-- There is at most one projection. -/
theorem Foot.unique {nm : Bool} {l : List ℂ} {x acc : ℂ} {n : Option ℂ} {foot foot' : Option (ℕ × ℝ)} (h : Foot nm l x acc n foot)
    (h' : Foot nm l x acc n foot') : foot = foot' := by
  have closest : ∀ {foot foot' : Option (ℕ × ℝ)}, (match foot with | none => l.length = 1 | some (k, u) => Closest l x k u) →
      (match foot' with | none => l.length = 1 | some (k, u) => Closest l x k u) → foot = foot' := by
    rintro (_ | ⟨k, u⟩) (_ | ⟨k', u'⟩) h h'
    · rfl
    · have := h'.lt; simp only at h; omega
    · have := h.lt; simp only at h'; omega
    · obtain ⟨rfl, rfl⟩ := Closest.eq h h'; rfl
  cases nm with
  | false => exact closest h h'
  | true =>
    cases n with
    | none => exact closest h h'
    | some n =>
      unfold Foot at h h'
      dsimp only at h h'
      have some_crosses : ∀ {k u}, (if Crosses l x n (· < 0) ∧ (¬ Crosses l x n (0 ≤ ·) ∨ 0 < (inner ℝ n acc : ℝ)) then Nearest l x n (· < 0) k u
          else Nearest l x n (0 ≤ ·) k u) → Crosses l x n (fun _ => True) := by
        intro k u h
        split at h
        · obtain ⟨s, hs, _⟩ := h; exact ⟨_, _, _, hs, trivial⟩
        · obtain ⟨s, hs, _⟩ := h; exact ⟨_, _, _, hs, trivial⟩
      rcases foot with _ | ⟨k, u⟩ <;> rcases foot' with _ | ⟨k', u'⟩
      · rfl
      · exact absurd (some_crosses h') h
      · exact absurd (some_crosses h) h'
      · dsimp only at h h'
        split at h
        · rw [if_pos ‹_›] at h'
          obtain ⟨rfl, rfl⟩ := Nearest.eq h h'; rfl
        · rw [if_neg ‹_›] at h'
          obtain ⟨rfl, rfl⟩ := Nearest.eq h h'; rfl

end
end Ink.Ref
