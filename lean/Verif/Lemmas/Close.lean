import Verif.Spec.Blend
import Verif.Lemmas.Settle
/-!
# Strokes side by side

Without wobble smoothing and angles the difference of two strokes with the same times is a stroke as well.
-/
namespace Ink.Ref
noncomputable section
open Classical

/-- The third tip state is the difference of the two others. -/
structure Tip.IsDiff (a b q : Tip) : Prop where
  pos : q.pos = a.pos - b.pos
  vel : q.vel = a.vel - b.vel
  acc : q.acc = a.acc - b.acc
  time : a.time = q.time ∧ b.time = q.time

/-- The same for points with times. -/
structure PtDiff (a b q : ℂ × ℝ) : Prop where
  pos : q.1 = a.1 - b.1
  time : a.2 = q.2 ∧ b.2 = q.2

/-- The same for states, without the samples for smoothing. -/
structure State.IsDiff (a b s : State) : Prop where
  tip : Tip.IsDiff a.tip b.tip s.tip
  anchor : PtDiff a.anchor b.anchor s.anchor

variable {P : Params}

theorem upsample_diff {a b q a' b' q' : ℂ × ℝ} (h : PtDiff a b q) (h' : PtDiff a' b' q') (n : ℕ) :
    Forall₃ PtDiff (upsample a a' n) (upsample b b' n) (upsample q q' n) := by
  unfold upsample
  generalize List.range n = l
  induction l with
  | nil => exact .nil
  | cons k l ih =>
    refine .cons ⟨?_, ?_, ?_⟩ ih
    · dsimp only; rw [h.pos, h'.pos]; simp only [lerp, Complex.real_smul]; ring
    · dsimp only; rw [h.time.1, h'.time.1]
    · dsimp only; rw [h.time.2, h'.time.2]

theorem spring_diff {a b q : Tip} (h : Tip.IsDiff a b q) {i j k : ℂ × ℝ} (hi : PtDiff i j k) :
    Tip.IsDiff (spring P a i) (spring P b j) (spring P q k) := by
  obtain ⟨h1, h2, h3, h4, h5⟩ := h
  obtain ⟨i1, i2, i3⟩ := hi
  refine ⟨?_, ?_, ?_, i2, i3⟩ <;>
  · simp only [spring, h1, h2, h4, h5, i1, i2, i3, Complex.real_smul]
    ring

theorem follow_diff {a b q : Tip} (h : Tip.IsDiff a b q) {i j k : List (ℂ × ℝ)} (hi : Forall₃ PtDiff i j k) :
    Forall₃ Tip.IsDiff (follow P a i) (follow P b j) (follow P q k) := by
  induction hi generalizing a b q with
  | nil => exact .nil
  | cons h1 _ ih => exact .cons (spring_diff h h1) (ih (spring_diff h h1))

theorem getLastD_diff {a b q : Tip} (h : Tip.IsDiff a b q) {i j k : List Tip} (hi : Forall₃ Tip.IsDiff i j k) :
    Tip.IsDiff (i.getLastD a) (j.getLastD b) (k.getLastD q) := by
  induction hi generalizing a b q with
  | nil => exact h
  | cons h1 _ ih => rw [List.getLastD_cons, List.getLastD_cons, List.getLastD_cons]; exact ih h1

/-- What two strokes answer, and what their difference does. -/
def AnswerDiff : Option (List Tip) → Option (List Tip) → Option (List Tip) → Prop
  | some a, some b, some q => Forall₃ Tip.IsDiff a b q
  | none, none, none => True
  | _, _, _ => False

theorem move_diff (hw : P.wobble = none) (ha : P.maxAngle = none) {a b s : State} (h : State.IsDiff a b s) (x y : ℂ) (t : ℝ) :
    State.IsDiff (move P a x t).1 (move P b y t).1 (move P s (x - y) t).1 ∧
    AnswerDiff (move P a x t).2 (move P b y t).2 (move P s (x - y) t).2 := by
  have hs : ∀ (s : State) (x : ℂ), smooth P s x t = (s.window, x) := fun s x => by simp [smooth, hw]
  have hn : ∀ (s' : State) (x y : ℂ), s'.anchor.2 = s.anchor.2 →
      steps P s'.tip x (t - s'.anchor.2) = steps P s.tip y (t - s.anchor.2) := by
    intro s' x y h
    simp [steps, ha, h]
  unfold move
  simp only [hs]
  rw [hn a x (x - y) h.anchor.time.1, hn b y (x - y) h.anchor.time.2]
  split
  · have hp : PtDiff (x, t) (y, t) (x - y, t) := ⟨rfl, rfl, rfl⟩
    have hf := follow_diff (P := P) h.tip
      (upsample_diff h.anchor hp (steps P s.tip (x - y) (t - s.anchor.2)).toNat)
    exact ⟨⟨getLastD_diff h.tip hf, hp⟩, hf⟩
  · exact ⟨⟨h.tip, h.anchor⟩, trivial⟩

theorem start_diff (x y : ℂ) (t : ℝ) : State.IsDiff (start x t) (start y t) (start (x - y) t) :=
  ⟨⟨rfl, by simp [start], by simp [start], rfl, rfl⟩, rfl, rfl, rfl⟩

end
end Ink.Ref
