import Verif.Lemmas.Equiv
/-!
# The scratch buffer never matters, and what a stroke leaves alone
-/
namespace Ink
open Scalar Arith

variable {F D : Type} [Scalar F] [Scalar D] [Arith F D]

omit [Scalar F] [Scalar D] [Arith F D] in
theorem BufOnly.symm {a b : StrokeModeler F D} (h : BufOnly a b) : BufOnly b a := by
  obtain ⟨t, rfl⟩ := h
  exact ⟨a.tipBuffer, rfl⟩

omit [Scalar F] [Scalar D] [Arith F D] in
theorem BufOnly.trans {a b c : StrokeModeler F D} (h : BufOnly a b) (h' : BufOnly b c) : BufOnly a c := by
  obtain ⟨t, rfl⟩ := h
  obtain ⟨t', rfl⟩ := h'
  exact ⟨t', rfl⟩

omit [Scalar F] [Scalar D] [Arith F D] in
/-- Live state, last input and frozen state are everything but the scratch buffer. -/
theorem BufOnly.of {a b : StrokeModeler F D} (h : LiveEq a b) (hl : a.lastInput = b.lastInput) (hf : Frozen a b) :
    BufOnly a b := by
  obtain ⟨_, _, ⟨_, _, _, _⟩, ⟨_, _, _⟩, ⟨_, _, _, _⟩, ⟨_, _, _, _⟩, _, _, _, _, _⟩ := a
  obtain ⟨_, _, ⟨_, _, _, _⟩, ⟨_, _, _⟩, ⟨_, _, _, _⟩, ⟨_, _, _, _⟩, t, _, _, _, _⟩ := b
  obtain ⟨h1, h2, h3, h4, h5, h6, h7, h8, h9⟩ := h
  obtain ⟨f1, f2, f3, f4, f5, f6, f7, f8, f9, f10, f11, f12, f13, f14, f15⟩ := hf
  simp only at *
  subst h1 h2 h3 h4 h5 h6 h7 h8 h9 f1 f3 f4 f6 f8 f9 f11 f12 f13 f14 f15 hl
  exact ⟨t, rfl⟩

omit [Scalar F] [Scalar D] [Arith F D] in
theorem Frozen.symm {a b : StrokeModeler F D} (h : Frozen a b) : Frozen b a := by
  obtain ⟨f1, f2, f3, f4, f5, f6, f7, f8, f9, f10, f11, f12, f13, f14, f15⟩ := h
  exact ⟨f1.symm, f2.symm, f3.symm, f4.symm, f5.symm, f6.symm, f7.symm, f8.symm, f9.symm, f10.symm, f11.symm,
    f12.symm, f13.symm, f14.symm, f15.symm⟩

omit [Scalar F] [Scalar D] [Arith F D] in
theorem Frozen.trans {a b c : StrokeModeler F D} (h : Frozen a b) (h' : Frozen b c) : Frozen a c := by
  obtain ⟨f1, f2, f3, f4, f5, f6, f7, f8, f9, f10, f11, f12, f13, f14, f15⟩ := h
  obtain ⟨g1, g2, g3, g4, g5, g6, g7, g8, g9, g10, g11, g12, g13, g14, g15⟩ := h'
  exact ⟨f1.trans g1, f2.trans g2, f3.trans g3, f4.trans g4, f5.trans g5, f6.trans g6, f7.trans g7, f8.trans g8,
    f9.trans g9, f10.trans g10, f11.trans g11, f12.trans g12, f13.trans g13, f14.trans g14, f15.trans g15⟩

theorem BufOnly.update {a b : StrokeModeler F D} (h : BufOnly a b) (i : Input F D) (v : List (Result F D)) :
    OutRel (fun x y => BufOnly x.1 y.1 ∧ x.2 = y.2) (a.update i v) (b.update i v) := by
  obtain ⟨t, rfl⟩ := h
  cases hr : refusal a.known i with
  | some c =>
    obtain ⟨msg, hm⟩ := update_refused_of_known _ i hr
    rw [hm a v ⟨rfl, rfl⟩, hm { a with tipBuffer := t } v ⟨rfl, rfl⟩]
    exact ⟨⟨t, rfl⟩, rfl⟩
  | none =>
    have hr' : refusal ({ a with tipBuffer := t } : StrokeModeler F D).known i = none := hr
    have hlive : LiveEq a { a with tipBuffer := t } := ⟨rfl, rfl, rfl, rfl, rfl, rfl, rfl, rfl, rfl⟩
    have hfro : Frozen a { a with tipBuffer := t } := by constructor <;> rfl
    have hrel : ∀ x y : StrokeModeler F D × Status × List (Result F D),
        HandlerRel a { a with tipBuffer := t } x y → BufOnly x.1 y.1 ∧ x.2 = y.2 :=
      fun x y ⟨h1, h2, h3, h4, h5⟩ => ⟨.of h1 h2 (h3.trans (hfro.trans h4.symm)), h5⟩
    obtain ⟨p, hp, h1⟩ := update_not_refused a i hr
    obtain ⟨p', hp', h2⟩ := update_not_refused _ i hr'
    obtain rfl : p = p' := by simpa [hp] using hp'
    rcases h1 with ⟨he, hl, hu⟩ | ⟨he, hl, hu⟩ | ⟨he, hl, hu⟩ <;>
    rcases h2 with ⟨he', hl', hu'⟩ | ⟨he', hl', hu'⟩ | ⟨he', hl', hu'⟩ <;>
    simp [he] at he'
    · rw [hu, hu']
      simp only [StrokeModeler.processDown, hl]
      refine OutRel.bind (OutRel.refl _ (R := (· = ·)) (fun _ _ => rfl)) ?_
      rintro s _ rfl
      refine OutRel.bind (OutRel.refl _ (R := (· = ·)) (fun _ _ => rfl)) ?_
      rintro pr _ rfl
      exact ⟨⟨t, rfl⟩, rfl⟩
    · rw [hu, hu']
      exact (processMove_rel hlive rfl p i v).mono hrel
    · rw [hu, hu']
      exact (processUp_rel hlive rfl p i v).mono hrel

theorem BufOnly.step {a b : StrokeModeler F D} (h : BufOnly a b) (op : Op F D) :
    SameStep BufOnly (step a op) (step b op) := by
  rw [sameStep_iff]
  cases op with
  | update i v =>
    simp only [Ink.step]
    refine OutRel.bind (h.update i v) ?_
    rintro ⟨x, s, v'⟩ ⟨y, _, _⟩ ⟨h1, h2⟩
    cases h2
    exact ⟨h1, rfl⟩
  | predict v =>
    obtain ⟨t, rfl⟩ := h
    simp only [Ink.step]
    refine OutRel.bind (predict_rel (a := a) (b := { a with tipBuffer := t }) rfl rfl Iff.rfl (fun _ => ⟨rfl, rfl, rfl, rfl, rfl, rfl, rfl, rfl, rfl⟩) v) ?_
    rintro ⟨x, s, v'⟩ ⟨y, _, _⟩ ⟨h1, h2, h3⟩
    cases h3
    exact ⟨h1.symm.trans (BufOnly.trans ⟨t, rfl⟩ h2), rfl⟩
  | resetParams p =>
    obtain ⟨t, rfl⟩ := h
    simp only [Ink.step, StrokeModeler.resetParams]
    cases validateStrokeModelParams p with
    | ok => exact ⟨⟨t, rfl⟩, rfl⟩
    | err c msg => exact ⟨⟨t, rfl⟩, rfl⟩
  | reset =>
    obtain ⟨t, rfl⟩ := h
    simp only [Ink.step, StrokeModeler.reset]
    split <;> exact ⟨⟨t, rfl⟩, rfl⟩
  | save =>
    obtain ⟨t, rfl⟩ := h
    exact ⟨⟨t, rfl⟩, rfl⟩
  | restore =>
    obtain ⟨t, rfl⟩ := h
    simp only [Ink.step, StrokeModeler.restore]
    split <;> exact ⟨⟨t, rfl⟩, rfl⟩

theorem BufOnly.indist {a b : StrokeModeler F D} (h : BufOnly a b) : Indist a b :=
  indist_of_bisim (R := BufOnly) (fun _ _ op hr => hr.step op) h

/-- Modelers with the same scratch-free state make the same runs. -/
theorem BufOnly.run {a b a' : StrokeModeler F D} (h : BufOnly a b) {ops : List (Op F D)} {rs : List (Response F D)}
    (hr : run a ops = .ok (a', rs)) : ∃ b', run b ops = .ok (b', rs) ∧ BufOnly a' b' := by
  induction ops generalizing a b rs with
  | nil =>
    simp only [Ink.run, Outcome.ok.injEq, Prod.mk.injEq] at hr
    obtain ⟨rfl, rfl⟩ := hr
    exact ⟨b, rfl, h⟩
  | cons op ops ih =>
    obtain ⟨a₁, r, rs', h₁, h₂, rfl⟩ := run_cons_ok hr
    have := h.step op
    rw [h₁] at this
    cases hb : Ink.step b op with
    | ub w => simp [hb, SameStep] at this
    | diverge => simp [hb, SameStep] at this
    | ok y =>
      simp only [hb, SameStep] at this
      obtain ⟨b', hb', hrel⟩ := ih this.1 h₂
      refine ⟨b', ?_, hrel⟩
      simp [Ink.run, hb, hb', this.2]

/-- `Predict` changes the scratch buffer only. -/
theorem step_predict_bufOnly {m m' : StrokeModeler F D} {v : List (Result F D)} {r : Response F D}
    (h : step m (.predict v) = .ok (m', r)) : BufOnly m m' := by
  simp only [step] at h
  obtain ⟨⟨m₁, s, v'⟩, hu, h⟩ := Outcome.bind_eq_ok.1 h
  simp only [Outcome.pure_eq, Outcome.ok.injEq, Prod.mk.injEq] at h
  obtain ⟨rfl, rfl⟩ := h
  rcases predict_ok hu with ⟨_, _, rfl, _⟩ | ⟨_, _, _, _, _, _, _, _, _, _, _, _, rfl, _⟩
  · exact .refl _
  · exact ⟨_, rfl⟩

/-- A call that does not reset, save or start a stroke leaves parameters and saved copies alone. -/
theorem step_frozen {m m' : StrokeModeler F D} {op : Op F D} {r : Response F D} (h : step m op = .ok (m', r))
    (hop : match op with
      | .update i _ => i.eventType = .down → r.status ≠ .ok
      | .predict _ => True
      | .restore => True
      | _ => False) : Frozen m' m := by
  cases op with
  | resetParams p => simp at hop
  | reset => simp at hop
  | save => simp at hop
  | restore =>
    simp only [step, Outcome.ok.injEq, Prod.mk.injEq] at h
    rw [← h.1]
    unfold StrokeModeler.restore
    split
    · exact .refl _
    · constructor <;>
        simp [WobbleSmoother.restore, PositionModeler.restore, StylusModeler.restore, LoopModeler.restore] <;>
        split <;> rfl
  | predict v =>
    obtain ⟨t, rfl⟩ := step_predict_bufOnly h
    constructor <;> rfl
  | update i v =>
    simp only [step] at h
    obtain ⟨⟨m₁, s, v'⟩, hu, h⟩ := Outcome.bind_eq_ok.1 h
    simp only [Outcome.pure_eq, Outcome.ok.injEq, Prod.mk.injEq] at h
    obtain ⟨rfl, rfl⟩ := h
    rcases update_ok hu with ⟨c, msg, _, rfl, rfl, _⟩ | ⟨_, p, hp, ⟨he, hl, h⟩ | ⟨last, he, hl, h⟩ | ⟨last, he, hl, h⟩⟩
    · exact .refl _
    · obtain ⟨_, _, _, _, rfl, _⟩ := StrokeModeler.processDown_ok hl h
      simp [he] at hop
    · have := processMove_rel (LiveEq.refl m) rfl p i v
      rw [h] at this
      exact this.2.2.1
    · have := processUp_rel (LiveEq.refl m) rfl p i v
      rw [h] at this
      exact this.2.2.1

end Ink
