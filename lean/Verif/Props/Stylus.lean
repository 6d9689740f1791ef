import Verif.Lemmas.Track
import Verif.Lemmas.Query
import Verif.Examples.Base
/-!
# The stylus state: C23
-/
namespace Ink
open Scalar Arith

variable {F D : Type} [Scalar F] [Scalar D] [Arith F D]

/-! ## C23: unknown fields are sticky -/

/-- The optional fields of an input. -/
inductive StylusField where
  | pressure
  | tilt
  | orientation
deriving DecidableEq

/-- The field of an input. -/
def Input.field {F D : Type} (i : Input F D) : StylusField → F
  | .pressure => i.pressure
  | .tilt => i.tilt
  | .orientation => i.orientation

/-- The field of a result. -/
def Result.field {F D : Type} (r : Result F D) : StylusField → F
  | .pressure => r.pressure
  | .tilt => r.tilt
  | .orientation => r.orientation

/-- The input does not report the field: it is negative or NaN (types.h:160-176). -/
def Input.lacks {F D : Type} [Scalar F] (i : Input F D) (f : StylusField) : Bool :=
  (i.field f <ᵇ 0) || isNaN (i.field f)

/-- Whether some input accepted in the stroke lacks the field. -/
def lacking (F D : Type) [Scalar F] (f : StylusField) : Quantity F D Bool where
  onDown i := i.lacks f
  onInput b i := b || i.lacks f

/-- The modeler's flag for a field. -/
def StylusModelerState.unknown {F D : Type} (s : StylusModelerState F D) : StylusField → Bool
  | .pressure => s.unknownPressure
  | .tilt => s.unknownTilt
  | .orientation => s.unknownOrientation

theorem stylus_update_unknown {m m' : StylusModeler F D} {x : Vec2 F} {t : D} {i : Input F D} (f : StylusField)
    (h : m.update x t (stylusStateOf i) = .ok m') :
    m'.state.unknown f = (m.state.unknown f || i.lacks f) := by
  unfold StylusModeler.update at h
  dsimp only at h
  split at h
  · simp only [Outcome.ok.injEq] at h
    rw [← h]
    cases f <;> rfl
  · obtain ⟨l, _, h⟩ := Outcome.bind_eq_ok.1 h
    simp only [Outcome.pure_eq, Outcome.ok.injEq] at h
    rw [← h]
    cases f <;> rfl

/-- How an Update that reaches a handler changes the flags. -/
theorem update_unknown {m m' : StrokeModeler F D} {i : Input F D} {v v' : List (Result F D)} {s : Status}
    (f : StylusField) (hr : refusal m.known i = none) (h : m.update i v = .ok (m', s, v')) :
    m'.stylus.state.unknown f = if i.eventType = .down then i.lacks f
      else if i.eventType = .up ∧ s ≠ .ok then m.stylus.state.unknown f
      else (m.stylus.state.unknown f || i.lacks f) := by
  rcases update_ok h with ⟨c, msg, hc, _⟩ | ⟨_, p, hp, ⟨he, hl, hh⟩ | ⟨last, he, hl, hh⟩ | ⟨last, he, hl, hh⟩⟩
  · simp [hr] at hc
  · obtain ⟨sty, _, hst, _, _, rfl, _⟩ := StrokeModeler.processDown_ok hl hh
    simp only [he, ↓reduceIte, StrokeModeler.afterDown]
    rw [stylus_update_unknown f hst]
    cases f <;> rfl
  · obtain ⟨_, _, sty, _, hst, hh⟩ := StrokeModeler.processMove_ok hl hh
    simp only [he, reduceCtorEq, ↓reduceIte, false_and]
    rw [← stylus_update_unknown f hst]
    rcases hh with ⟨_, rfl, _⟩ | ⟨_, _, _, _, _, _, _, _, rfl, _⟩ <;> rfl
  · simp only [he, reduceCtorEq, ↓reduceIte, true_and]
    rcases StrokeModeler.processUp_ok hl hh with ⟨hn, rfl, _⟩ | ⟨_, _, _, _, _, hst, _, rfl, rfl, _⟩
    · obtain ⟨msg, rfl⟩ := numberOfSteps_error hn
      simp
    · simpa using stylus_update_unknown f hst

theorem lacking_follows (f : StylusField) :
    Follows (lacking F D f) (fun b s => b = true → s.stylus.unknown f = true) where
  loopReset _ _ _ h := h
  down m m' i v v' _ hr he h hb := by
    have := update_unknown f hr h
    simp only [he, ↓reduceIte] at this
    exact this.trans hb
  input m m' i v v' a _ hr he h ha hb := by
    have := update_unknown f hr h
    simp only [he, ↓reduceIte, ne_eq, not_true_eq_false, and_false] at this
    refine this.trans ?_
    simp only [lacking, Bool.or_eq_true] at hb ⊢
    exact hb.imp_left ha
  late m m' i v v' c msg a _ hr he h ha hb := by
    have := update_unknown f hr h
    refine this.trans ?_
    rw [if_neg he]
    split
    · exact ha hb
    · simp only [Bool.or_eq_true]
      exact .inl (ha hb)

theorem query_unknown {s : StylusModeler F D} {tip : TipState F D} {n : Option (Vec2 F)} {q : Result F D}
    (f : StylusField) (h : s.query tip n = .ok q) (hu : s.state.unknown f = true) : q.field f = -1 := by
  rcases StylusModeler.query_ok h with ⟨_, rfl⟩ | ⟨_, p, r, _, _, rfl⟩
  · cases f <;> rfl
  · cases f <;> simp_all [StylusModeler.strip, Result.field, StylusModelerState.unknown]

theorem interpResult_unknown (hneg : ((-1 : F) <ᵇ 0) = true) {a b r : Result F D} {c : F} (f : StylusField)
    (h : interpResult a b c = .ok r) (ha : a.field f = -1) : r.field f = -1 := by
  obtain ⟨o, ho, rfl⟩ := interpResult_ok h
  cases f with
  | pressure => simp only [Result.field, interpResultWith] at ha ⊢; simp [ha, hneg]
  | tilt => simp only [Result.field, interpResultWith] at ha ⊢; simp [ha, hneg]
  | orientation =>
    simp only [Result.field, interpResultWith] at ha ⊢
    simp only [interpOrientation, ha, hneg, Bool.true_or, ↓reduceIte, Outcome.ok.injEq] at ho
    exact ho.symm

theorem modelStylus_unknown (hneg : ((-1 : F) <ᵇ 0) = true) {s : StylusModeler F D} {tips : List (TipState F D)}
    {l l' : LoopModeler F D} {t : D} {out : List (Result F D)} (f : StylusField)
    (h : modelStylus tips s l t = .ok (l', out)) (hu : s.state.unknown f = true) : ∀ r ∈ out, r.field f = -1 := by
  have := modelStylus_mem h
  intro r hr
  clear h
  induction this with
  | nil => simp at hr
  | cons hx _ ih =>
    rcases List.mem_cons.1 hr with rfl | hr
    · obtain ⟨n, q, c, hq, hi⟩ := hx
      exact interpResult_unknown hneg f hi (query_unknown f hq hu)
    · exact ih hr

/-- C23: in any history, once an accepted input of the stroke lacks a field, every later result of the stroke reports
-1 for it: the results of a further accepted input, including the first one lacking the field, and predictions. (`-1 < 0`
is all that is assumed of the arithmetic.) -/
theorem C23_unknown_sticky (hneg : ((-1 : F) <ᵇ 0) = true) {ops : List (Op F D)} {rs : List (Response F D)}
    {m m' : StrokeModeler F D} (hS : Session ops rs m) (f : StylusField) {r : Response F D} :
    (∀ i v, step m (.update i v) = .ok (m', r) → r.status = .ok → i.eventType ≠ .down →
      (track (lacking F D f) true false ops rs || i.lacks f) = true →
      ∃ out, r.results = v ++ out ∧ ∀ x ∈ out, x.field f = -1) ∧
    (∀ v, step m (.predict v) = .ok (m', r) → track (lacking F D f) true false ops rs = true →
      ∀ x ∈ r.results, x.field f = -1) := by
  have hT := hS.track (lacking_follows f) (init := false) (by simp)
  constructor
  · intro i v hs hr he hu
    simp only [step] at hs
    obtain ⟨⟨m₁, s, v'⟩, hup, hs⟩ := Outcome.bind_eq_ok.1 hs
    simp only [Outcome.pure_eq, Outcome.ok.injEq, Prod.mk.injEq] at hs
    obtain ⟨rfl, rfl⟩ := hs
    obtain rfl : s = .ok := hr
    rcases update_ok hup with ⟨c, msg, _, hc, _⟩ | ⟨hn, p, hp, hh⟩
    · simp at hc
    have hst : m₁.stylus.state.unknown f = true := by
      have := update_unknown f hn hup
      rw [if_neg he, if_neg (by simp)] at this
      refine this.trans ?_
      simp only [Bool.or_eq_true] at hu ⊢
      exact hu.imp_left hT
    rcases hh with ⟨he', _⟩ | ⟨last, _, hl, hh⟩ | ⟨last, _, hl, hh⟩
    · exact absurd he' he
    · obtain ⟨_, _, _, _, _, ⟨hn, _⟩ | ⟨n, _, _, out, _, _, hms, _, rfl, rfl⟩⟩ := StrokeModeler.processMove_ok hl hh
      · obtain ⟨_, hc⟩ := numberOfSteps_error hn
        simp at hc
      · exact ⟨out, rfl, modelStylus_unknown hneg f hms hst⟩
    · rcases StrokeModeler.processUp_ok hl hh with ⟨hn, _⟩ | ⟨n, _, _, out, _, _, hms, _, rfl, rfl⟩
      · obtain ⟨_, hc⟩ := numberOfSteps_error hn
        simp at hc
      · exact ⟨out, rfl, modelStylus_unknown hneg f hms hst⟩
  · intro v hs hu x hx
    simp only [step] at hs
    obtain ⟨⟨m₁, s, v'⟩, hup, hs⟩ := Outcome.bind_eq_ok.1 hs
    simp only [Outcome.pure_eq, Outcome.ok.injEq, Prod.mk.injEq] at hs
    obtain ⟨rfl, rfl⟩ := hs
    rcases predict_ok hup with ⟨_, _, _, rfl, _⟩ | ⟨_, _, _, _, _, _, _, _, _, _, hms, _, _, rfl⟩
    · simp at hx
    · exact modelStylus_unknown hneg f hms (hT hu) x hx

section Examples
open Ex

/-- An input with pressure `q`, without tilt and orientation. -/
def Ex.inpP (e : EventType) (x y : F32) (t : F64) (q : F32) : Input F32 F64 := { inp e x y t with pressure := q }

/-- Pressure is missing from the second input only; a save point is made before and restored after it. -/
def Ex.pressureOps : List (Op F32 F64) :=
  [.resetParams params, .update (inpP .down 3 4 0 (fl 1 2)) [], .save,
   .update (inpP .move (fl 31 10) 4 (d 1 100) (-1)) [], .restore,
   .update (inpP .move (fl 31 10) 4 (d 1 100) (-1)) [],
   .update (inpP .move (fl 32 10) (fl 42 10) (d 1 50) (fl 1 2)) []]

example : ((-1 : F32) <ᵇ 0) = true := by decide +kernel

example : ∃ rs m, Session pressureOps rs m ∧ decide (track (lacking F32 F64 .pressure) true false pressureOps rs = true ∧
    m.lastInput ≠ none) = true := exists_session (by kernel_rfl)
end Examples

end Ink
