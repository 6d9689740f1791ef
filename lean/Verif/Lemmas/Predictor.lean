import Verif.Lemmas.Handlers
/-!
# Invariants: the stored parameters are valid, the predictor is the one they ask for
-/
namespace Ink
open Scalar Arith

variable {F D : Type} [Scalar F] [Scalar D] [Arith F D]

theorem KalmanFilter.reset_update {f f' : KalmanFilter D} {x : D} (h : f.update x = .ok f') : f'.reset = f.reset := by
  unfold KalmanFilter.update at h
  split at h
  · simp at h
  · simp only at h
    split at h <;> simp only [Outcome.ok.injEq] at h <;> rw [← h] <;> rfl

omit [Scalar F] in
theorem Predictor.reset_update {p p' : Predictor F D} {x : Vec2 F} {t : D} (h : p.update x t = .ok p') :
    p'.reset = p.reset := by
  cases p with
  | strokeEnd s =>
    simp only [Predictor.update, Outcome.ok.injEq] at h
    rw [← h]; rfl
  | kalman k =>
    simp only [Predictor.update] at h
    obtain ⟨k', hk, h⟩ : ∃ k', k.update x t = .ok k' ∧ p' = .kalman k' := by
      cases hk : k.update x t <;> simp [hk] at h
      exact ⟨_, rfl, h.symm⟩
    subst h
    unfold KalmanPredictor.update at hk
    obtain ⟨a, ha, hk⟩ := Outcome.bind_eq_ok.1 hk
    obtain ⟨b, hb, hk⟩ := Outcome.bind_eq_ok.1 hk
    simp only [Outcome.pure_eq, Outcome.ok.injEq] at hk
    rw [← hk]
    simp only [Predictor.reset, KalmanPredictor.reset, KalmanFilter.reset_update ha, KalmanFilter.reset_update hb]

omit [Scalar F] [Arith F D] in
theorem Predictor.reset_reset (p : Predictor F D) : p.reset.reset = p.reset := by
  cases p <;> rfl

omit [Scalar F] in
theorem updatePredictor_reset {p p' : Option (Predictor F D)} {x : Vec2 F} {t : D}
    (h : updatePredictor p x t = .ok p') : p'.map Predictor.reset = p.map Predictor.reset := by
  cases p with
  | none => simp only [updatePredictor, Outcome.ok.injEq] at h; rw [← h]
  | some p =>
    simp only [updatePredictor] at h
    cases hu : p.update x t with
    | ok q =>
      simp only [hu, Outcome.map_ok, Outcome.ok.injEq] at h
      rw [← h]
      simp [Predictor.reset_update hu]
    | _ => simp [hu] at h

omit [Scalar F] [Arith F D] in
theorem makePredictor_reset (p : StrokeModelParams F D) :
    (StrokeModeler.makePredictor p).map Predictor.reset = StrokeModeler.makePredictor p := by
  unfold StrokeModeler.makePredictor
  cases p.prediction <;> rfl

omit [Scalar F] [Arith F D] in
theorem makePredictor_eq_none (p : StrokeModelParams F D) :
    StrokeModeler.makePredictor p = none ↔ p.prediction = .disabled := by
  unfold StrokeModeler.makePredictor
  cases p.prediction <;> simp

/-- How one call changes the fields that concern initialisation and prediction. -/
theorem step_pred {m m' : StrokeModeler F D} {op : Op F D} {r : Response F D} (h : step m op = .ok (m', r)) :
    (∃ p, op = .resetParams p ∧ validateStrokeModelParams p = .ok ∧ r.status = .ok ∧ m'.params = some p ∧
      m'.predictor = StrokeModeler.makePredictor p ∧ m'.saveActive = false ∧ m'.savedPredictor = m.savedPredictor) ∨
    (op = .save ∧ m' = m.save) ∨ (op = .restore ∧ m' = m.restore) ∨
    (m'.params = m.params ∧ m'.predictor.map Predictor.reset = m.predictor.map Predictor.reset ∧
      (m'.saveActive = true → m.saveActive = true) ∧ m'.savedPredictor = m.savedPredictor) := by
  cases op with
  | resetParams p =>
    rcases resetParams_cases m p with ⟨c, msg, _, hr⟩ | ⟨hv, hr⟩ <;>
      simp only [step, hr, Outcome.ok.injEq, Prod.mk.injEq] at h <;> rw [← h.1, ← h.2]
    · simp
    · exact .inl ⟨p, rfl, hv, rfl, rfl, rfl, rfl, rfl⟩
  | reset =>
    rcases reset_cases m with ⟨_, msg, hr⟩ | ⟨⟨p, hp⟩, hr⟩ <;>
      simp only [step, hr, Outcome.ok.injEq, Prod.mk.injEq] at h <;> rw [← h.1] <;> simp
  | update i v =>
    simp only [step] at h
    obtain ⟨⟨m₁, s, v'⟩, hu, h⟩ := Outcome.bind_eq_ok.1 h
    simp only [Outcome.pure_eq, Outcome.ok.injEq, Prod.mk.injEq] at h
    obtain ⟨rfl, rfl⟩ := h
    refine .inr (.inr (.inr ?_))
    rcases update_ok hu with ⟨c, msg, _, rfl, rfl, _⟩ | ⟨_, p, hp, ⟨he, hl, h⟩ | ⟨last, he, hl, h⟩ | ⟨last, he, hl, h⟩⟩
    · simp
    · obtain ⟨_, _, _, hpr, rfl, rfl, _⟩ := StrokeModeler.processDown_ok hl h
      refine ⟨rfl, ?_, id, rfl⟩
      refine (updatePredictor_reset hpr).trans ?_
      simp [Function.comp_def, Predictor.reset_reset]
    · obtain ⟨_, _, _, _, _, ⟨hn, rfl, _⟩ | ⟨_, _, _, _, _, hpr, _, rfl, rfl, _⟩⟩ := StrokeModeler.processMove_ok hl h
      · simp
      · exact ⟨rfl, updatePredictor_reset hpr, id, rfl⟩
    · rcases StrokeModeler.processUp_ok hl h with ⟨hn, rfl, _⟩ | ⟨_, _, _, _, _, _, _, rfl, rfl, _⟩ <;> simp
  | predict v =>
    simp only [step] at h
    obtain ⟨⟨m₁, s, v'⟩, hu, h⟩ := Outcome.bind_eq_ok.1 h
    simp only [Outcome.pure_eq, Outcome.ok.injEq, Prod.mk.injEq] at h
    obtain ⟨rfl, rfl⟩ := h
    rcases predict_ok hu with ⟨_, _, rfl, _⟩ | ⟨_, _, _, _, _, _, _, _, _, _, _, _, rfl, _⟩ <;> simp
  | save =>
    simp only [step, Outcome.ok.injEq, Prod.mk.injEq] at h
    exact .inr (.inl ⟨rfl, h.1.symm⟩)
  | restore =>
    simp only [step, Outcome.ok.injEq, Prod.mk.injEq] at h
    exact .inr (.inr (.inl ⟨rfl, h.1.symm⟩))

/-- The stored parameters passed validation. -/
def ValidInv (m : StrokeModeler F D) : Prop := ∀ p, m.params = some p → validateStrokeModelParams p = .ok

omit [Scalar F] [Scalar D] [Arith F D] in
theorem restore_params (m : StrokeModeler F D) : m.restore.params = m.params := by
  unfold StrokeModeler.restore; split <;> rfl

theorem ValidInv.step {m m' : StrokeModeler F D} {op : Op F D} {r : Response F D} (hi : ValidInv m)
    (h : step m op = .ok (m', r)) : ValidInv m' := by
  intro q hq
  rcases step_pred h with ⟨p, _, hv, _, hp, _⟩ | ⟨_, rfl⟩ | ⟨_, rfl⟩ | ⟨hp, _⟩
  · rw [hp] at hq; cases hq; exact hv
  · exact hi q hq
  · exact hi q (by rw [← hq, restore_params])
  · exact hi q (by rw [← hp, hq])

theorem Session.validInv {ops : List (Op F D)} {rs : List (Response F D)} {m : StrokeModeler F D}
    (h : Session ops rs m) : ValidInv m :=
  run_invariant (P := ValidInv) (fun _ _ _ _ hm hs => hm.step hs) h (by intro p hp; simp [StrokeModeler.default] at hp)

/-- The predictor is the one the parameters ask for. `saved` tells whether Save has ever been called. -/
structure PredInv (m : StrokeModeler F D) (saved : Prop) : Prop where
  live : ∀ p, m.params = some p → m.predictor.map Predictor.reset = StrokeModeler.makePredictor p
  uninit : m.params = none → m.predictor = none ∧ m.savedPredictor = none
  savedP : m.saveActive = true → ∀ p q, m.params = some p → m.savedPredictor = some q →
    some q.reset = StrokeModeler.makePredictor p
  stale : ∀ p, m.params = some p → p.prediction = .disabled → m.savedPredictor = none
  fresh : ¬ saved → m.savedPredictor = none

theorem PredInv.step {m m' : StrokeModeler F D} {op : Op F D} {r : Response F D} {saved : Prop} (hi : PredInv m saved)
    (h : step m op = .ok (m', r)) (hop : ∀ p, op = .resetParams p → p.prediction = .disabled → ¬ saved) :
    PredInv m' (saved ∨ op = .save) := by
  rcases step_pred h with ⟨p, rfl, hv, _, hp, hpr, hs, hsp⟩ | ⟨rfl, rfl⟩ | ⟨rfl, rfl⟩ | ⟨hp, hpr, hs, hsp⟩
  · refine ⟨?_, ?_, ?_, ?_, ?_⟩
    · intro q hq
      rw [hp] at hq; cases hq
      rw [hpr, makePredictor_reset]
    · simp [hp]
    · simp [hs]
    · intro q hq hd
      rw [hp] at hq; cases hq
      rw [hsp]; exact hi.fresh (hop _ rfl hd)
    · intro hf
      rw [hsp]
      exact hi.fresh (fun hc => hf (.inl hc))
  · refine ⟨hi.live, ?_, ?_, ?_, by simp⟩
    · intro hn
      have := hi.uninit hn
      simp [StrokeModeler.save, this]
    · intro _ p q hp hq
      have hl := hi.live p hp
      simp only [StrokeModeler.save] at hq hp
      cases hc : m.predictor with
      | none =>
        rw [hc] at hl hq
        simp only [Option.map_none] at hl
        rw [hi.stale p hp ((makePredictor_eq_none p).1 hl.symm)] at hq
        simp at hq
      | some c =>
        rw [hc] at hl hq
        simp only [Option.some.injEq] at hq
        rw [← hl, ← hq]; rfl
    · intro p hp hd
      have hl := hi.live p hp
      rw [(makePredictor_eq_none p).2 hd, Option.map_eq_none_iff] at hl
      simp [StrokeModeler.save, hl, hi.stale p hp hd]
  · have hsp : m.restore.savedPredictor = m.savedPredictor := by
      unfold StrokeModeler.restore; split <;> rfl
    refine ⟨?_, ?_, ?_, ?_, ?_⟩
    · intro p hp
      rw [restore_params] at hp
      unfold StrokeModeler.restore
      split
      · exact hi.live p hp
      · rename_i hsa
        simp only [Bool.not_eq_true, Bool.not_eq_false'] at hsa
        cases hq : m.savedPredictor with
        | none => exact hi.live p hp
        | some q => exact hi.savedP hsa p q hp hq
    · rw [restore_params, hsp]
      intro hn
      refine ⟨?_, (hi.uninit hn).2⟩
      unfold StrokeModeler.restore
      split
      · exact (hi.uninit hn).1
      · simp [(hi.uninit hn).2, (hi.uninit hn).1]
    · rw [restore_params, hsp]
      intro hs
      refine hi.savedP ?_
      unfold StrokeModeler.restore at hs
      split at hs
      · exact hs
      · exact hs
    · rw [restore_params, hsp]; exact hi.stale
    · rw [hsp]
      intro hf
      exact hi.fresh (fun hc => hf (.inl hc))
  · refine ⟨?_, ?_, ?_, ?_, ?_⟩
    · rw [hp, hpr]; exact hi.live
    · rw [hp, hsp]
      intro hn
      have := (hi.uninit hn).1
      rw [this, Option.map_none, Option.map_eq_none_iff] at hpr
      exact ⟨hpr, (hi.uninit hn).2⟩
    · rw [hp, hsp]
      intro hs'
      exact hi.savedP (hs hs')
    · rw [hp, hsp]; exact hi.stale
    · rw [hsp]
      intro hf
      exact hi.fresh (fun hc => hf (.inl hc))

omit [Scalar F] [Scalar D] [Arith F D] in
theorem NoDisableAfterSave.prefix {a b : List (Op F D)} (h : NoDisableAfterSave (a ++ b)) : NoDisableAfterSave a :=
  fun x p y hxy hd => h x p (y ++ b) (by simp [hxy]) hd

theorem Session.append {a b : List (Op F D)} {rs : List (Response F D)} {m : StrokeModeler F D}
    (h : Session (a ++ b) rs m) :
    ∃ m₁ rs₁ rs₂, Session a rs₁ m₁ ∧ run m₁ b = .ok (m, rs₂) ∧ rs = rs₁ ++ rs₂ := run_append_ok h

theorem run_predInv {m m' : StrokeModeler F D} {pre ops : List (Op F D)} {rs : List (Response F D)}
    (hi : PredInv m (Op.save ∈ pre)) (h : run m ops = .ok (m', rs)) (hn : NoDisableAfterSave (pre ++ ops)) :
    PredInv m' (Op.save ∈ pre ++ ops) := by
  induction ops generalizing m rs pre with
  | nil =>
    simp only [run, Outcome.ok.injEq, Prod.mk.injEq] at h
    simpa [← h.1] using hi
  | cons op ops ih =>
    obtain ⟨m₁, r, rs', h₁, h₂, _⟩ := run_cons_ok h
    have := hi.step h₁ (fun p hp hd => hn pre p ops (by rw [hp]) hd)
    have := ih (pre := pre ++ [op]) (by simpa [eq_comm] using this) h₂ (by simpa using hn)
    simpa using this

theorem Session.predInv {ops : List (Op F D)} {rs : List (Response F D)} {m : StrokeModeler F D}
    (h : Session ops rs m) (hn : NoDisableAfterSave ops) : PredInv m (Op.save ∈ ops) :=
  run_predInv (pre := []) (by constructor <;> simp [StrokeModeler.default]) h hn

end Ink
