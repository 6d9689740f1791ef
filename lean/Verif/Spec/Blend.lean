import Verif.Spec.Ref
/-!
# Blends of strokes

The reference model of Spec/Ref.lean without wobble smoothing and angles is linear in the positions of the inputs.
-/
namespace Ink

/-- A relation holds for all triples of elements at the same place of three lists of the same length. -/
inductive Forall₃ {α β γ : Type} (R : α → β → γ → Prop) : List α → List β → List γ → Prop
  | nil : Forall₃ R [] [] []
  | cons {a b c as bs cs} : R a b c → Forall₃ R as bs cs → Forall₃ R (a :: as) (b :: bs) (c :: cs)

theorem Forall₃.map {α β γ α' β' γ' : Type} {R : α → β → γ → Prop} {S : α' → β' → γ' → Prop} {f : α → α'} {g : β → β'} {h : γ → γ'}
    (hi : ∀ a b c, R a b c → S (f a) (g b) (h c)) {as : List α} {bs : List β} {cs : List γ} (hl : Forall₃ R as bs cs) :
    Forall₃ S (as.map f) (bs.map g) (cs.map h) := by
  induction hl with
  | nil => exact .nil
  | cons h1 _ ih => exact .cons (hi _ _ _ h1) ih

theorem Forall₃.of_map {α β γ α' β' γ' : Type} {S : α' → β' → γ' → Prop} {f : α → α'} {g : β → β'} {h : γ → γ'} :
    ∀ {as : List α} {bs : List β} {cs : List γ}, Forall₃ S (as.map f) (bs.map g) (cs.map h) →
      Forall₃ (fun a b c => S (f a) (g b) (h c)) as bs cs
  | [], [], [], _ => .nil
  | _ :: _, _ :: _, _ :: _, .cons h1 h2 => .cons h1 (Forall₃.of_map h2)

theorem Forall₃.and {α β γ : Type} {R S : α → β → γ → Prop} {as : List α} {bs : List β} {cs : List γ} (h : Forall₃ R as bs cs)
    (h' : Forall₃ S as bs cs) : Forall₃ (fun a b c => R a b c ∧ S a b c) as bs cs := by
  induction h with
  | nil => exact .nil
  | cons h1 _ ih => cases h' with | cons h2 h3 => exact .cons ⟨h1, h2⟩ (ih h3)

theorem Forall₃.imp {α β γ : Type} {R S : α → β → γ → Prop} (hi : ∀ a b c, R a b c → S a b c) {as : List α} {bs : List β} {cs : List γ}
    (h : Forall₃ R as bs cs) : Forall₃ S as bs cs := by
  induction h with
  | nil => exact .nil
  | cons h1 _ ih => exact .cons (hi _ _ _ h1) ih

namespace Ref
noncomputable section
open Classical

/-- The third tip state is the blend of the two others. -/
structure Tip.IsBlend (c : ℝ) (a b q : Tip) : Prop where
  pos : q.pos = lerp a.pos b.pos c
  vel : q.vel = lerp a.vel b.vel c
  acc : q.acc = lerp a.acc b.acc c
  time : a.time = q.time ∧ b.time = q.time

/-- The same for points with times. -/
structure PtBlend (c : ℝ) (a b q : ℂ × ℝ) : Prop where
  pos : q.1 = lerp a.1 b.1 c
  time : a.2 = q.2 ∧ b.2 = q.2

/-- The same for states, without the samples for smoothing. -/
structure State.IsBlend (c : ℝ) (a b s : State) : Prop where
  tip : Tip.IsBlend c a.tip b.tip s.tip
  anchor : PtBlend c a.anchor b.anchor s.anchor

variable {c : ℝ} {P : Params}

theorem lerp_lerp (a b a' b' : ℂ) (c d : ℝ) : lerp (lerp a b c) (lerp a' b' c) d = lerp (lerp a a' d) (lerp b b' d) c := by
  simp only [lerp, Complex.real_smul]; ring

theorem upsample_blend {a b q a' b' q' : ℂ × ℝ} (h : PtBlend c a b q) (h' : PtBlend c a' b' q') (n : ℕ) :
    Forall₃ (PtBlend c) (upsample a a' n) (upsample b b' n) (upsample q q' n) := by
  unfold upsample
  generalize List.range n = l
  induction l with
  | nil => exact .nil
  | cons k l ih =>
    refine .cons ⟨?_, ?_, ?_⟩ ih
    · dsimp only; rw [h.pos, h'.pos, lerp_lerp]
    · dsimp only; rw [h.time.1, h'.time.1]
    · dsimp only; rw [h.time.2, h'.time.2]

theorem spring_blend {a b q : Tip} (h : Tip.IsBlend c a b q) {i j k : ℂ × ℝ} (hi : PtBlend c i j k) :
    Tip.IsBlend c (spring P a i) (spring P b j) (spring P q k) := by
  obtain ⟨h1, h2, h3, h4, h5⟩ := h
  obtain ⟨i1, i2, i3⟩ := hi
  refine ⟨?_, ?_, ?_, i2, i3⟩ <;>
  · simp only [spring, h1, h2, h4, h5, i1, i2, i3, lerp, Complex.real_smul]
    ring

theorem follow_blend {a b q : Tip} (h : Tip.IsBlend c a b q) {i j k : List (ℂ × ℝ)} (hi : Forall₃ (PtBlend c) i j k) :
    Forall₃ (Tip.IsBlend c) (follow P a i) (follow P b j) (follow P q k) := by
  induction hi generalizing a b q with
  | nil => exact .nil
  | cons h1 _ ih => exact .cons (spring_blend h h1) (ih (spring_blend h h1))

theorem getLastD_blend {a b q : Tip} (h : Tip.IsBlend c a b q) {i j k : List Tip} (hi : Forall₃ (Tip.IsBlend c) i j k) :
    Tip.IsBlend c (i.getLastD a) (j.getLastD b) (k.getLastD q) := by
  induction hi generalizing a b q with
  | nil => exact h
  | cons h1 _ ih => rw [List.getLastD_cons, List.getLastD_cons, List.getLastD_cons]; exact ih h1

/-- What blended inputs have as answers. -/
def AnswerBlend (c : ℝ) : Option (List Tip) → Option (List Tip) → Option (List Tip) → Prop
  | some a, some b, some q => Forall₃ (Tip.IsBlend c) a b q
  | none, none, none => True
  | _, _, _ => False

theorem move_blend (hw : P.wobble = none) (ha : P.maxAngle = none) {a b s : State} (h : State.IsBlend c a b s) (x y : ℂ) (t : ℝ) :
    State.IsBlend c (move P a x t).1 (move P b y t).1 (move P s (lerp x y c) t).1 ∧
    AnswerBlend c (move P a x t).2 (move P b y t).2 (move P s (lerp x y c) t).2 := by
  have hs : ∀ (s : State) (x : ℂ), smooth P s x t = (s.window, x) := fun s x => by simp [smooth, hw]
  have hn : ∀ (s' : State) (x y : ℂ), s'.anchor.2 = s.anchor.2 →
      steps P s'.tip x (t - s'.anchor.2) = steps P s.tip y (t - s.anchor.2) := by
    intro s' x y h
    simp [steps, ha, h]
  unfold move
  simp only [hs]
  rw [hn a x (lerp x y c) h.anchor.time.1, hn b y (lerp x y c) h.anchor.time.2]
  split
  · have hp : PtBlend c (x, t) (y, t) (lerp x y c, t) := ⟨rfl, rfl, rfl⟩
    have hf := follow_blend (P := P) h.tip
      (upsample_blend h.anchor hp (steps P s.tip (lerp x y c) (t - s.anchor.2)).toNat)
    exact ⟨⟨getLastD_blend h.tip hf, hp⟩, hf⟩
  · exact ⟨⟨h.tip, h.anchor⟩, trivial⟩

theorem start_blend (x y : ℂ) (t : ℝ) : State.IsBlend c (start x t) (start y t) (start (lerp x y c) t) :=
  ⟨⟨rfl, by simp [start, lerp], by simp [start, lerp], rfl, rfl⟩, rfl, rfl, rfl⟩

end
end Ref
end Ink
