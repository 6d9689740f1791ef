import Verif.Spec.History
/-!
# Basic facts about sessions
-/
namespace Ink
open Scalar Arith

variable {F D : Type} [Scalar F] [Scalar D] [Arith F D]

/-! ## run, observe -/

theorem run_append (m : StrokeModeler F D) (a b : List (Op F D)) :
    run m (a ++ b) = (do let (m, rs) ← run m a; let (m, rs') ← run m b; return (m, rs ++ rs')) := by
  induction a generalizing m with
  | nil => cases h : run m b <;> simp [run, h]
  | cons op a ih =>
    simp only [List.cons_append, run]
    cases step m op with
    | ok x =>
      simp only [Outcome.ok_bind, ih]
      cases run x.1 a with
      | ok y =>
        simp only [Outcome.ok_bind]
        cases h : run y.1 b <;> simp [h]
      | _ => simp
    | _ => simp

theorem run_append_ok {m m' : StrokeModeler F D} {a b : List (Op F D)} {rs : List (Response F D)}
    (h : run m (a ++ b) = .ok (m', rs)) :
    ∃ m₁ rs₁ rs₂, run m a = .ok (m₁, rs₁) ∧ run m₁ b = .ok (m', rs₂) ∧ rs = rs₁ ++ rs₂ := by
  rw [run_append] at h
  obtain ⟨⟨m₁, rs₁⟩, h₁, h⟩ := Outcome.bind_eq_ok.1 h
  obtain ⟨⟨m₂, rs₂⟩, h₂, h⟩ := Outcome.bind_eq_ok.1 h
  simp only [Outcome.pure_eq, Outcome.ok.injEq, Prod.mk.injEq] at h
  exact ⟨m₁, rs₁, rs₂, h₁, h.1 ▸ h₂, h.2.symm⟩

theorem run_append_eq {m m₁ m₂ : StrokeModeler F D} {a b : List (Op F D)} {rs₁ rs₂ : List (Response F D)}
    (h₁ : run m a = .ok (m₁, rs₁)) (h₂ : run m₁ b = .ok (m₂, rs₂)) :
    run m (a ++ b) = .ok (m₂, rs₁ ++ rs₂) := by
  simp [run_append, h₁, h₂]

theorem run_cons_ok {m m' : StrokeModeler F D} {op : Op F D} {ops : List (Op F D)} {rs : List (Response F D)}
    (h : run m (op :: ops) = .ok (m', rs)) :
    ∃ m₁ r rs', step m op = .ok (m₁, r) ∧ run m₁ ops = .ok (m', rs') ∧ rs = r :: rs' := by
  simp only [run] at h
  obtain ⟨⟨m₁, r⟩, h₁, h⟩ := Outcome.bind_eq_ok.1 h
  obtain ⟨⟨m₂, rs₂⟩, h₂, h⟩ := Outcome.bind_eq_ok.1 h
  simp only [Outcome.pure_eq, Outcome.ok.injEq, Prod.mk.injEq] at h
  exact ⟨m₁, r, rs₂, h₁, h.1 ▸ h₂, h.2.symm⟩

theorem run_length {m m' : StrokeModeler F D} {ops : List (Op F D)} {rs : List (Response F D)}
    (h : run m ops = .ok (m', rs)) : rs.length = ops.length := by
  induction ops generalizing m rs with
  | nil => simp only [run, Outcome.ok.injEq, Prod.mk.injEq] at h; simp [← h.2]
  | cons op ops ih =>
    obtain ⟨m₁, r, rs', _, h₂, rfl⟩ := run_cons_ok h
    simp [ih h₂]

/-- A session whose calls all return is observed as its responses. -/
theorem observe_of_run {m m' : StrokeModeler F D} {ops : List (Op F D)} {rs : List (Response F D)}
    (h : run m ops = .ok (m', rs)) (next : List (Op F D)) :
    observe m (ops ++ next) = rs.map .ok ++ observe m' next := by
  induction ops generalizing m rs with
  | nil =>
    simp only [run, Outcome.ok.injEq, Prod.mk.injEq] at h
    simp [← h.1, ← h.2]
  | cons op ops ih =>
    obtain ⟨m₁, r, rs', h₁, h₂, rfl⟩ := run_cons_ok h
    simp [observe, h₁, ih h₂]

theorem observe_cons {m m' : StrokeModeler F D} {op : Op F D} {r : Response F D}
    (h : step m op = .ok (m', r)) (ops : List (Op F D)) : observe m (op :: ops) = .ok r :: observe m' ops := by
  simp [observe, h]

/-- An invariant of all steps is an invariant of sessions. -/
theorem run_invariant {P : StrokeModeler F D → Prop}
    (hstep : ∀ m op m' r, P m → step m op = .ok (m', r) → P m')
    {m m' : StrokeModeler F D} {ops : List (Op F D)} {rs : List (Response F D)}
    (h : run m ops = .ok (m', rs)) (hm : P m) : P m' := by
  induction ops generalizing m rs with
  | nil => simp only [run, Outcome.ok.injEq, Prod.mk.injEq] at h; exact h.1 ▸ hm
  | cons op ops ih =>
    obtain ⟨m₁, r, rs', h₁, h₂, rfl⟩ := run_cons_ok h
    exact ih h₂ (hstep _ _ _ _ hm h₁)

/-! ## bisimulation -/

/-- Two calls that look the same to the client and leave related states. -/
def SameStep (R : StrokeModeler F D → StrokeModeler F D → Prop) :
    Outcome (StrokeModeler F D × Response F D) → Outcome (StrokeModeler F D × Response F D) → Prop
  | .ok (m, r), .ok (m', r') => R m m' ∧ r = r'
  | .ub w, .ub w' => w = w'
  | .diverge, .diverge => True
  | _, _ => False

theorem indist_of_bisim {R : StrokeModeler F D → StrokeModeler F D → Prop}
    (hR : ∀ m m' op, R m m' → SameStep R (step m op) (step m' op)) {m m' : StrokeModeler F D} (h : R m m') :
    Indist m m' := by
  intro ops
  induction ops generalizing m m' with
  | nil => rfl
  | cons op ops ih =>
    have := hR m m' op h
    simp only [observe]
    cases h₁ : step m op <;> cases h₂ : step m' op <;> simp only [h₁, h₂, SameStep] at this
    · simp [this.2, ih this.1]
    · simp [this]
    · rfl

/-- As `indist_of_bisim` for histories in which every call meets a condition. -/
theorem observe_eq_of_bisim {R : StrokeModeler F D → StrokeModeler F D → Prop} {ok : Op F D → Prop}
    (hR : ∀ m m' op, ok op → R m m' → SameStep R (step m op) (step m' op)) {m m' : StrokeModeler F D} (h : R m m')
    (ops : List (Op F D)) (hops : ∀ op ∈ ops, ok op) : observe m ops = observe m' ops := by
  induction ops generalizing m m' with
  | nil => rfl
  | cons op ops ih =>
    have := hR m m' op (hops op (by simp)) h
    simp only [observe]
    cases h₁ : step m op <;> cases h₂ : step m' op <;> simp only [h₁, h₂, SameStep] at this
    · simp [this.2, ih this.1 (fun o ho => hops o (by simp [ho]))]
    · simp [this]
    · rfl

theorem Indist.refl (m : StrokeModeler F D) : Indist m m := fun _ => rfl
theorem Indist.symm {m m' : StrokeModeler F D} (h : Indist m m') : Indist m' m := fun ops => (h ops).symm
theorem Indist.trans {m m' m'' : StrokeModeler F D} (h : Indist m m') (h' : Indist m' m'') : Indist m m'' :=
  fun ops => (h ops).trans (h' ops)

/-! ## the cases of Update -/

/-- What the client's knowledge amounts to in the state of the modeler. -/
def StrokeModeler.known (m : StrokeModeler F D) : Known F D where
  params := m.params
  prev := m.lastInput.map (·.input)
  saved := if m.saveActive then some (m.savedLastInput.map (·.input)) else none

theorem validateIsFiniteNumber_eq {α : Type} [Scalar α] (v : α) (l : String) :
    (isFinite v = true ∧ validateIsFiniteNumber v l = .ok) ∨
    (isFinite v = false ∧ ∃ msg, validateIsFiniteNumber v l = .err .invalidArgument msg) := by
  unfold isFinite validateIsFiniteNumber
  cases isNaN v <;> cases isInf v <;> simp

omit [Arith F D] in
theorem validateInput_eq (i : Input F D) :
    ((i.eventType.isKnown ∧ isFinite i.position.x ∧ isFinite i.position.y ∧ isFinite i.time) ∧
      validateInput i = .ok) ∨
    (¬ (i.eventType.isKnown ∧ isFinite i.position.x ∧ isFinite i.position.y ∧ isFinite i.time) ∧
      ∃ msg, validateInput i = .err .invalidArgument msg) := by
  unfold validateInput EventType.isKnown
  rcases validateIsFiniteNumber_eq i.position.x "Input.position.x" with ⟨h1, h1'⟩ | ⟨h1, _, h1'⟩ <;>
  rcases validateIsFiniteNumber_eq i.position.y "Input.position.y" with ⟨h2, h2'⟩ | ⟨h2, _, h2'⟩ <;>
  rcases validateIsFiniteNumber_eq i.time "Input.time" with ⟨h3, h3'⟩ | ⟨h3, _, h3'⟩ <;>
  cases i.eventType <;> simp [h1, h1', h2, h2', h3, h3', Status.andThen]

/-- A refused input changes nothing; the status depends on what the client knows only. -/
theorem update_refused_of_known (k : Known F D) (i : Input F D) {c : Code} (h : refusal k i = some c) :
    ∃ msg, ∀ (m : StrokeModeler F D) (v : List (Result F D)),
      (m.known.params = k.params ∧ m.known.prev = k.prev) → m.update i v = .ok (m, .err c msg, v) := by
  unfold StrokeModeler.update
  unfold refusal at h
  rcases Option.eq_none_or_eq_some k.params with hp | ⟨p, hp⟩
  · -- the modeler has no parameters
    simp [hp] at h; subst h
    refine ⟨"Stroke model has not yet been initialized", fun m v hm => ?_⟩
    have : m.params = none := by rw [← hp, ← hm.1]; rfl
    simp only [this]
  · -- it has
    have hparams : ∀ m : StrokeModeler F D, (m.known.params = k.params ∧ m.known.prev = k.prev) → m.params = some p :=
      fun m hm => by rw [← hp, ← hm.1]; rfl
    simp only [hp, reduceCtorEq, ↓reduceIte] at h
    rcases validateInput_eq i with ⟨hv, hv'⟩ | ⟨hv, msg, hv'⟩
    · rw [if_neg (Classical.not_not.2 hv)] at h
      rcases Option.eq_none_or_eq_some k.prev with hl | ⟨prev, hl⟩
      · -- no stroke
        have hlast : ∀ m : StrokeModeler F D, (m.known.params = k.params ∧ m.known.prev = k.prev) →
            m.lastInput = none := fun m hm => by
          rw [← hm.2] at hl
          simpa [StrokeModeler.known] using hl
        simp only [hl] at h
        split at h
        · simp at h
        · simp only [Option.some.injEq] at h
          subst h
          cases he : i.eventType with
          | down => simp_all
          | unknown n => simp [he, EventType.isKnown] at hv
          | move =>
            refine ⟨"Received move event while no stroke is in-progress", fun m v hm => ?_⟩
            simp only [hparams m hm, hlast m hm, hv', StrokeModeler.processMove]
          | up =>
            refine ⟨"Received up event while no stroke is in-progress", fun m v hm => ?_⟩
            simp only [hparams m hm, hlast m hm, hv', StrokeModeler.processUp]
      · -- stroke in progress
        have hlast : ∀ m : StrokeModeler F D, (m.known.params = k.params ∧ m.known.prev = k.prev) →
            ∃ last, m.lastInput = some last ∧ last.input = prev :=
          fun m hm => by
            rw [← hm.2] at hl
            simpa [StrokeModeler.known] using hl
        simp only [hl] at h
        split at h
        · rename_i hd
          simp only [Option.some.injEq] at h
          subst h
          refine ⟨"Received duplicate input", fun m v hm => ?_⟩
          obtain ⟨last, hlast', rfl⟩ := hlast m hm
          simp only [hparams m hm, hlast', hv', hd, ↓reduceIte]
        · rename_i hd
          simp only [Bool.not_eq_true] at hd
          split at h
          · rename_i ht
            simp only [Option.some.injEq] at h
            subst h
            refine ⟨"Inputs travel backwards in time", fun m v hm => ?_⟩
            obtain ⟨last, hlast', rfl⟩ := hlast m hm
            simp only [hparams m hm, hlast', hv', hd, ht, ↓reduceIte, Bool.false_eq_true]
          · rename_i ht
            simp only [Bool.not_eq_true] at ht
            split at h
            · rename_i he
              simp only [Option.some.injEq] at h
              subst h
              refine ⟨"Received down event while stroke is in-progress", fun m v hm => ?_⟩
              obtain ⟨last, hlast', rfl⟩ := hlast m hm
              simp only [hparams m hm, hlast', hv', hd, ht, he, StrokeModeler.processDown, ↓reduceIte,
                Bool.false_eq_true]
            · simp at h
    · rw [if_pos hv, Option.some.injEq] at h
      subst h
      exact ⟨msg, fun m v hm => by simp [hv', hparams m hm]⟩

theorem update_refused (m : StrokeModeler F D) (i : Input F D) (v : List (Result F D)) {c : Code}
    (h : refusal m.known i = some c) : ∃ msg, m.update i v = .ok (m, .err c msg, v) := by
  obtain ⟨msg, hm⟩ := update_refused_of_known _ i h
  exact ⟨msg, hm m v ⟨rfl, rfl⟩⟩

/-- An input that is not refused reaches one of the three event handlers. -/
theorem update_not_refused (m : StrokeModeler F D) (i : Input F D) (h : refusal m.known i = none) :
    ∃ p, m.params = some p ∧
      ((i.eventType = .down ∧ m.lastInput = none ∧ ∀ v, m.update i v = m.processDown p i v) ∨
       (i.eventType = .move ∧ (∃ last, m.lastInput = some last) ∧ ∀ v, m.update i v = m.processMove p i v) ∨
       (i.eventType = .up ∧ (∃ last, m.lastInput = some last) ∧ ∀ v, m.update i v = m.processUp p i v)) := by
  unfold refusal at h
  unfold StrokeModeler.update
  cases hp : m.params with
  | none => simp [StrokeModeler.known, hp] at h
  | some p =>
    refine ⟨p, rfl, ?_⟩
    simp only [StrokeModeler.known, hp, reduceCtorEq, ↓reduceIte] at h
    rcases validateInput_eq i with ⟨hv, hv'⟩ | ⟨hv, msg, hv'⟩
    · rw [if_neg (Classical.not_not.2 hv)] at h
      simp only [hv']
      cases hl : m.lastInput with
      | none =>
        simp only [hl, Option.map_none] at h ⊢
        split at h
        · rename_i he
          simp [he]
        · simp at h
      | some last =>
        simp only [hl, Option.map_some] at h ⊢
        split at h
        · simp at h
        · rename_i hd
          simp only [Bool.not_eq_true] at hd
          split at h
          · simp at h
          · rename_i ht
            simp only [Bool.not_eq_true] at ht
            split at h
            · simp at h
            · rename_i he
              cases he' : i.eventType <;> simp_all [EventType.isKnown]
    · rw [if_pos hv] at h; simp at h

end Ink
