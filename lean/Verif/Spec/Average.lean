import Verif.Spec.Ref
import Mathlib.Analysis.Convex.Combination
/-!
# Wobble smoothing as a moving average of the raw inputs

The smoothed position of a Move in closed form, from the positions and times of all inputs of the stroke so far.
-/
namespace Ink.Ref
noncomputable section
open Classical

/-- The ways from each input to the next one. -/
def legs : List (ℂ × ℝ) → List Sample
  | a :: b :: l => ⟨b.1, b.2 - a.2, ‖b.1 - a.1‖, b.2⟩ :: legs (b :: l)
  | _ => []

/-- Those that end less than `timeout` before the time `t`. -/
def recent (timeout t : ℝ) (l : List (ℂ × ℝ)) : List Sample := (legs l).filter fun s => decide (t - s.time ≤ timeout)

/-- The average of the positions of the last inputs `w`, each weighted by the time elapsed since the input before. -/
def mean (w : List Sample) : ℂ := (totalDur w)⁻¹ • totalPos w

/-- The average speed. -/
def speed (w : List Sample) : ℝ := totalDist w / totalDur w

theorem legs_snoc (l : List (ℂ × ℝ)) (a b : ℂ × ℝ) :
    legs (l ++ [a, b]) = legs (l ++ [a]) ++ [⟨b.1, b.2 - a.2, ‖b.1 - a.1‖, b.2⟩] := by
  induction l with
  | nil => rfl
  | cons c l ih =>
    cases l with
    | nil => rfl
    | cons d l => simpa [legs] using ih

/-- Position and time. -/
def Touch.at : Touch → ℂ × ℝ
  | .move x t => (x, t)
  | .up x t => (x, t)

theorem dropWhile_dropWhile {α : Type} {f g : α → Bool} (h : ∀ x, f x = true → g x = true) (l r : List α) :
    (l.dropWhile f ++ r).dropWhile g = (l ++ r).dropWhile g := by
  induction l with
  | nil => rfl
  | cons a l ih =>
    rw [List.dropWhile_cons]
    split
    · rename_i hf
      rw [ih, List.cons_append, List.dropWhile_cons, if_pos (h a hf)]
    · rfl

theorem dropWhile_getLast? {α : Type} {f : α → Bool} {l : List α} {a : α} (h : l.getLast? = some a) (hf : f a = false) :
    (l.dropWhile f).getLast? = some a := by
  induction l with
  | nil => simp at h
  | cons b l ih =>
    rw [List.dropWhile_cons]
    split
    · rename_i hb
      cases l with
      | nil => simp at h; subst h; simp [hf] at hb
      | cons c l => exact ih (by simpa using h)
    · exact h

/-- All inputs of a stroke so far as positions and times. -/
def path (pos : ℂ) (time : ℝ) (is : List Touch) : List (ℂ × ℝ) := (pos, time) :: is.map Touch.at

theorem legs_last : ∀ (a : ℂ × ℝ) (l : List (ℂ × ℝ)), ∃ s, ((⟨a.1, 0, 0, a.2⟩ : Sample) :: legs (a :: l)).getLast? = some s ∧
    s.pos = ((a :: l).getLast (by simp)).1 ∧ s.time = ((a :: l).getLast (by simp)).2
  | a, [] => ⟨_, rfl, rfl, rfl⟩
  | a, b :: l => by
    obtain ⟨s, h1, h2, h3⟩ := legs_last b l
    cases l with
    | nil => exact ⟨_, rfl, rfl, rfl⟩
    | cons c l =>
      refine ⟨s, ?_, ?_, ?_⟩
      · simpa [legs] using h1
      · simpa using h2
      · simpa using h3

/-- The window holds the last of all samples. -/
theorem after_window {P : Params} {timeout lo hi : ℝ} (hw : P.wobble = some (timeout, lo, hi)) (ht : 0 ≤ timeout) (pos : ℂ) (time : ℝ)
    (is : List Touch) (hm : ∀ i ∈ is, ∃ x t, i = .move x t) (ho : (path pos time is).Pairwise fun a b => a.2 ≤ b.2) :
    (after P (start pos time) is).window = (⟨pos, 0, 0, time⟩ :: legs (path pos time is)).dropWhile
      fun s => decide (timeout < ((path pos time is).getLastD (0, 0)).2 - s.time) := by
  induction is using List.reverseRecOn with
  | nil => simp [after, start, path, legs, ht]
  | append_singleton is i ih =>
    have hpath : path pos time (is ++ [i]) = path pos time is ++ [i.at] := by simp [path]
    rw [hpath] at ho ⊢
    obtain ⟨x, t, rfl⟩ := hm i (by simp)
    rw [List.pairwise_append] at ho
    have ih' := ih (fun i hi => hm i (by simp [hi])) ho.1
    rw [after_append]
    have hadv : (advance P (after P (start pos time) is) (.move x t)).1.window = (smooth P (after P (start pos time) is) x t).1 := by
      simp only [advance, move]
      split <;> rfl
    obtain ⟨last, hlast, hl1, hl2⟩ := legs_last (pos, time) (is.map Touch.at)
    have hsplit : ∃ l' a, path pos time is = l' ++ [a] ∧ last.pos = a.1 ∧ last.time = a.2 := by
      have hne : path pos time is ≠ [] := by simp [path]
      refine ⟨_, _, (List.dropLast_append_getLast hne).symm, ?_, ?_⟩
      · exact hl1
      · exact hl2
    obtain ⟨l', a, hla, hp, htm⟩ := hsplit
    have hT : ((path pos time is).getLastD (0, 0)).2 = a.2 := by rw [hla]; simp
    have hwl : (after P (start pos time) is).window.getLast? = some last := by
      rw [ih']
      refine dropWhile_getLast? hlast ?_
      rw [hT, htm]; simp [ht]
    have hle : a.2 ≤ t := by
      have := ho.2.2 a (by rw [hla]; simp) (x, t) (by simp [Touch.at])
      exact this
    rw [hadv]
    unfold smooth
    simp only [hw, hwl, slide]
    rw [ih', hT, List.getLastD_concat]
    rw [dropWhile_dropWhile]
    · have : legs (path pos time is ++ [Touch.at (.move x t)]) = legs (path pos time is) ++ [sample last x t] := by
        rw [hla]
        have := legs_snoc l' a (x, t)
        rw [List.append_assoc]
        simp only [List.cons_append, List.nil_append, Touch.at, this, sample, hp, htm]
      rw [this]
      rfl
    · intro s hs
      have hs' := of_decide_eq_true hs
      refine decide_eq_true ?_
      show timeout < t - s.time
      linarith

/-- In order of time, dropping the oldest ones is dropping all that are too old. -/
theorem dropWhile_eq_filter {α : Type} {f : α → Bool} : ∀ {l : List α}, l.Pairwise (fun a b => f b = true → f a = true) →
    l.dropWhile f = l.filter fun a => !f a
  | [], _ => rfl
  | a :: l, h => by
    rw [List.pairwise_cons] at h
    rw [List.dropWhile_cons, List.filter_cons]
    by_cases hf : f a = true
    · rw [if_pos hf, dropWhile_eq_filter h.2]; simp [hf]
    · have : ∀ b ∈ l, f b = false := fun b hb => by
        by_contra hc
        exact hf (h.1 b hb (by simpa using hc))
      rw [if_neg hf, if_pos (by simpa using hf)]
      rw [List.filter_eq_self.2 fun b hb => by simp [this b hb]]

theorem legs_times : ∀ (a : ℂ × ℝ) (l : List (ℂ × ℝ)), (legs (a :: l)).map Sample.time = l.map Prod.snd
  | _, [] => rfl
  | a, b :: l => by simp [legs, legs_times b l]

theorem legs_pos : ∀ (a : ℂ × ℝ) (l : List (ℂ × ℝ)), (legs (a :: l)).map (fun s => (s.pos, s.time)) = l
  | _, [] => rfl
  | a, b :: l => by simp [legs, legs_pos b l]

theorem legs_dur : ∀ (l : List (ℂ × ℝ)), (l.Pairwise fun a b => a.2 ≤ b.2) → ∀ s ∈ legs l, 0 ≤ s.dur
  | [], _ => by simp [legs]
  | [_], _ => by simp [legs]
  | a :: b :: l, h => by
    intro s hs
    rw [List.pairwise_cons] at h
    simp only [legs, List.mem_cons] at hs
    rcases hs with rfl | hs
    · have := h.1 b (by simp)
      simpa using this
    · exact legs_dur (b :: l) h.2 s hs

/-- The smoothed position in closed form. -/
def average (lo hi : ℝ) (w : List Sample) (x : ℂ) : ℂ := if totalDur w = 0 then x else lerp (mean w) x (speedRatio lo hi (speed w))

theorem smoothed_zero (lo hi : ℝ) (b : ℂ) (t : ℝ) (w : List Sample) (x : ℂ) :
    smoothed lo hi (⟨b, 0, 0, t⟩ :: w) x = smoothed lo hi w x := by
  simp [smoothed, totalDur, totalPos, totalDist]

/-- The position a Move is taken to be at, if the inputs are in order of time. -/
theorem place_eq {P : Params} {timeout lo hi : ℝ} (hw : P.wobble = some (timeout, lo, hi)) (ht : 0 ≤ timeout) (pos : ℂ) (time : ℝ)
    (is : List Touch) (hm : ∀ i ∈ is, ∃ x t, i = .move x t) (x : ℂ) (t : ℝ)
    (ho : (path pos time (is ++ [.move x t])).Pairwise fun a b => a.2 ≤ b.2) :
    place P (after P (start pos time) is) (.move x t) =
      (average lo hi (recent timeout t (path pos time (is ++ [.move x t]))) x, t) := by
  have h := after_window hw ht pos time (is ++ [.move x t])
    (by intro i hi; rcases List.mem_append.1 hi with hi | hi; exacts [hm i hi, ⟨x, t, by simpa using hi⟩]) ho
  rw [after_append] at h
  have hadv : (advance P (after P (start pos time) is) (.move x t)).1.window = (smooth P (after P (start pos time) is) x t).1 := by
    simp only [advance, move]
    split <;> rfl
  rw [hadv] at h
  have hne : (after P (start pos time) is).window.getLast? ≠ none := by
    intro h0
    have ho' : (path pos time is).Pairwise fun a b => a.2 ≤ b.2 := by
      have : path pos time (is ++ [.move x t]) = path pos time is ++ [(x, t)] := by simp [path, Touch.at]
      rw [this, List.pairwise_append] at ho
      exact ho.1
    rw [after_window hw ht pos time is hm ho'] at h0
    obtain ⟨last, hlast, _, hl2⟩ := legs_last (pos, time) (is.map Touch.at)
    have h1 := dropWhile_getLast? (f := fun s : Sample => decide (timeout < ((path pos time is).getLastD (0, 0)).2 - s.time)) hlast ?_
    · exact absurd (h1.symm.trans h0) (by simp)
    · rw [hl2]
      have : (path pos time is).getLastD (0, 0) = ((pos, time) :: is.map Touch.at).getLast (by simp) := by
        rw [List.getLastD_eq_getLast?, List.getLast?_eq_getLast_of_ne_nil (by simp [path])]; rfl
      rw [this]; simp [ht]
  have hlast : ((path pos time (is ++ [.move x t])).getLastD (0, 0)).2 = t := by
    have : path pos time (is ++ [.move x t]) = path pos time is ++ [(x, t)] := by simp [path, Touch.at]
    rw [this, List.getLastD_concat]
  rw [hlast, dropWhile_eq_filter] at h
  · simp only [place, Prod.mk.injEq, and_true]
    have h2 : (smooth P (after P (start pos time) is) x t).2 = smoothed lo hi (smooth P (after P (start pos time) is) x t).1 x := by
      unfold smooth
      rw [hw]
      cases hg : (after P (start pos time) is).window.getLast? with
      | none => exact absurd hg hne
      | some last => rfl
    rw [h2, h, List.filter_cons]
    have e1 : (legs (path pos time (is ++ [.move x t]))).filter (fun s => !decide (timeout < t - s.time)) =
        recent timeout t (path pos time (is ++ [.move x t])) := by
      unfold recent
      congr 1
      funext s
      by_cases h : timeout < t - s.time
      · simp [h, not_le.2 h]
      · simp [h, not_lt.1 h]
    rw [e1]
    split
    · rw [smoothed_zero]; rfl
    · rfl
  · have hs : ((⟨pos, 0, 0, time⟩ : Sample) :: legs (path pos time (is ++ [.move x t]))).map Sample.time =
        (path pos time (is ++ [.move x t])).map Prod.snd := by
      unfold path
      rw [List.map_cons, legs_times]; rfl
    have h3 : ((path pos time (is ++ [.move x t])).map Prod.snd).Pairwise (· ≤ ·) := List.pairwise_map.2 ho
    rw [← hs, List.pairwise_map] at h3
    refine h3.imp fun {a b} hab hb => ?_
    simp only [decide_eq_true_eq] at hb ⊢
    linarith

/-! ### bounds -/

/-- A weighted average lies in every convex set that contains the points. -/
theorem mean_mem {S : Set ℂ} (hS : Convex ℝ S) : ∀ {w : List Sample}, (∀ s ∈ w, 0 ≤ s.dur ∧ s.pos ∈ S) → 0 < totalDur w → mean w ∈ S
  | [], _, h => by simp [totalDur] at h
  | s :: w, hw, h => by
    obtain ⟨h0, h1⟩ := hw s (by simp)
    have hw' : ∀ s ∈ w, 0 ≤ s.dur ∧ s.pos ∈ S := fun s hs => hw s (by simp [hs])
    have hn : 0 ≤ totalDur w := List.sum_nonneg (by simpa using fun s hs => (hw' s hs).1)
    have ed : totalDur (s :: w) = s.dur + totalDur w := by simp [totalDur]
    have ep : totalPos (s :: w) = s.dur • s.pos + totalPos w := by simp [totalPos]
    rcases hn.eq_or_lt with hz | hpos
    · have hall : ∀ x ∈ w, x.dur = 0 := by
        intro x hx
        have h2 : ∀ d ∈ w.map Sample.dur, 0 ≤ d := by simpa using fun s hs => (hw' s hs).1
        have h3 : x.dur ≤ totalDur w := List.single_le_sum h2 _ (List.mem_map_of_mem hx)
        linarith [(hw' x hx).1]
      have hp0 : totalPos w = 0 := by
        unfold totalPos
        apply List.sum_eq_zero
        intro z hz
        obtain ⟨x, hx, rfl⟩ := List.mem_map.1 hz
        rw [hall x hx, zero_smul]
      have hd : 0 < s.dur := by rw [ed, ← hz] at h; linarith
      have : mean (s :: w) = s.pos := by
        unfold mean
        rw [ed, ep, ← hz, hp0, add_zero, add_zero, smul_smul, inv_mul_cancel₀ hd.ne', one_smul]
      rwa [this]
    · have hm := mean_mem hS hw' hpos
      have := hS h1 hm (div_nonneg h0 h.le) (div_nonneg hn h.le) (by rw [← add_div, ← ed, div_self h.ne'])
      have e : mean (s :: w) = (s.dur / totalDur (s :: w)) • s.pos + (totalDur w / totalDur (s :: w)) • mean w := by
        unfold mean
        rw [ep, smul_add, smul_smul, smul_smul]
        congr 1
        · rw [inv_mul_eq_div]
        · congr 1
          field_simp
      rwa [e]

end
end Ink.Ref
