import Verif.Lemmas.Buffer
import Mathlib.Data.List.Forall2
/-!
# Tip states and results of one call: how many, and what they are made of
-/
namespace Ink
open Scalar Arith

variable {F D : Type} [Scalar F] [Scalar D] [Arith F D]

namespace PositionModeler

theorem alongPathGo_length (pp : PositionModelerParams F D) (a : Vec2 F) (ta : D) (b : Vec2 F) (tb : D) (n : Int)
    (k : Nat) (i : Int) (st : TipState F D) : (alongPathGo pp a ta b tb n k i st).2.length = k := by
  induction k generalizing i st with
  | zero => rfl
  | succ k ih => simp [alongPathGo, ih]

theorem updateAlongLinearPath_length (m : PositionModeler F D) (a : Vec2 F) (ta : D) (b : Vec2 F) (tb : D) (n : Int) :
    (m.updateAlongLinearPath a ta b tb n).2.length = n.toNat := by
  simp [updateAlongLinearPath, alongPathGo_length]

theorem endOfStrokeGo_length (pp : PositionModelerParams F D) (a : Vec2 F) (stop : F) (k : Nat) (dt : D)
    (st : TipState F D) : (endOfStrokeGo pp a stop k dt st).2.length ≤ k := by
  induction k generalizing dt st with
  | zero => simp [endOfStrokeGo]
  | succ k ih =>
    simp only [endOfStrokeGo]
    split
    · simp
    · split
      · exact Nat.le_succ_of_le (ih _ _)
      · split
        · simp
        · simpa using ih _ _

theorem modelEndOfStroke_length (m : PositionModeler F D) (a : Vec2 F) (dt : D) (n : Int) (stop : F) :
    (m.modelEndOfStroke a dt n stop).2.length ≤ n.toNat := by
  simp [modelEndOfStroke, endOfStrokeGo_length]

end PositionModeler

theorem modelStylusGo_length {s : StylusModeler F D} {tips : List (TipState F D)} {l l' : LoopModeler F D} {c : F}
    {t : D} {out : List (Result F D)} (h : modelStylusGo s tips l c t = .ok (l', out)) : out.length = tips.length := by
  induction tips generalizing l l' c t out with
  | nil => simp only [modelStylusGo, Outcome.ok.injEq, Prod.mk.injEq] at h; simp [← h.2]
  | cons tip tips ih =>
    simp only [modelStylusGo] at h
    obtain ⟨q, _, h⟩ := Outcome.bind_eq_ok.1 h
    obtain ⟨r, _, h⟩ := Outcome.bind_eq_ok.1 h
    obtain ⟨⟨l₁, out'⟩, h₁, h⟩ := Outcome.bind_eq_ok.1 h
    simp only [Outcome.pure_eq, Outcome.ok.injEq, Prod.mk.injEq] at h
    simp [← h.2, ih h₁]

theorem modelStylus_length {s : StylusModeler F D} {tips : List (TipState F D)} {l l' : LoopModeler F D}
    {t : D} {out : List (Result F D)} (h : modelStylus tips s l t = .ok (l', out)) : out.length = tips.length :=
  modelStylusGo_length h

/-- Every result comes from one tip state: the stylus model is queried at it and the answer is mixed with it. -/
theorem modelStylusGo_mem {s : StylusModeler F D} {tips : List (TipState F D)} {l l' : LoopModeler F D} {c : F}
    {t : D} {out : List (Result F D)} (h : modelStylusGo s tips l c t = .ok (l', out)) :
    List.Forall₂ (fun tip r => ∃ n q c, s.query tip n = .ok q ∧
      interpResult q (makeResultFromTipState tip q) c = .ok r) tips out := by
  induction tips generalizing l l' c t out with
  | nil => simp only [modelStylusGo, Outcome.ok.injEq, Prod.mk.injEq] at h; simp [← h.2]
  | cons tip tips ih =>
    simp only [modelStylusGo] at h
    obtain ⟨q, hq, h⟩ := Outcome.bind_eq_ok.1 h
    obtain ⟨r, hr, h⟩ := Outcome.bind_eq_ok.1 h
    obtain ⟨⟨l₁, out'⟩, h₁, h⟩ := Outcome.bind_eq_ok.1 h
    simp only [Outcome.pure_eq, Outcome.ok.injEq, Prod.mk.injEq] at h
    rw [← h.2]
    exact .cons ⟨_, q, c, hq, hr⟩ (ih h₁)

theorem modelStylus_mem {s : StylusModeler F D} {tips : List (TipState F D)} {l l' : LoopModeler F D}
    {t : D} {out : List (Result F D)} (h : modelStylus tips s l t = .ok (l', out)) :
    List.Forall₂ (fun tip r => ∃ n q c, s.query tip n = .ok q ∧
      interpResult q (makeResultFromTipState tip q) c = .ok r) tips out :=
  modelStylusGo_mem h

theorem upTips_length (m : StrokeModeler F D) (p : StrokeModelParams F D) (last : LastInput F D) (i : Input F D)
    (n : Int) : 0 < (m.upTips p last i n).2.length ∧
      (m.upTips p last i n).2.length ≤ max 1 (n.toNat + p.sampling.endOfStrokeMaxIterations.toNat) := by
  unfold StrokeModeler.upTips
  dsimp only
  split
  · simp; omega
  · rename_i hne
    have hne := List.length_pos_of_ne_nil (fun hc => hne (List.isEmpty_iff.2 hc))
    refine ⟨hne, ?_⟩
    rw [List.length_append, PositionModeler.updateAlongLinearPath_length]
    have := PositionModeler.modelEndOfStroke_length
      (m.position.updateAlongLinearPath last.correctedPosition last.input.time i.position i.time n).1 i.position
      (1 / p.sampling.minOutputRate) p.sampling.endOfStrokeMaxIterations p.sampling.endOfStrokeStoppingDistance
    omega

/-! ## what validation guarantees -/

/-- `a.andThen b` is ok only if both are. -/
theorem andThen_ok {a b : Status} (h : a.andThen b = .ok) : a = .ok ∧ b = .ok := by
  cases a <;> simp_all [Status.andThen]

theorem validateGreaterThanZeroInt_ok {v : Int} {l : String} (h : validateGreaterThanZeroInt v l = .ok) : 0 < v := by
  unfold validateGreaterThanZeroInt at h
  split at h
  · simp at h
  · omega

theorem validateGreaterThanZero_ok {α : Type} [Scalar α] {v : α} {l : String} (h : validateGreaterThanZero v l = .ok) :
    isFinite v = true ∧ (v ≤ᵇ 0) = false := by
  unfold validateGreaterThanZero at h
  obtain ⟨h1, h2⟩ := andThen_ok h
  rcases validateIsFiniteNumber_eq v l with ⟨h3, _⟩ | ⟨_, _, h3⟩
  · refine ⟨h3, ?_⟩
    split at h2
    · simp at h2
    · rename_i hc; simpa using hc
  · rw [h3] at h1; simp at h1

theorem validateGreaterThanOrEqualToZero_ok {α : Type} [Scalar α] {v : α} {l : String}
    (h : validateGreaterThanOrEqualToZero v l = .ok) : isFinite v = true ∧ (v <ᵇ 0) = false := by
  unfold validateGreaterThanOrEqualToZero at h
  obtain ⟨h1, h2⟩ := andThen_ok h
  rcases validateIsFiniteNumber_eq v l with ⟨h3, _⟩ | ⟨_, _, h3⟩
  · refine ⟨h3, ?_⟩
    split at h2
    · simp at h2
    · rename_i hc; simpa using hc
  · rw [h3] at h1; simp at h1

theorem validateIsFiniteNumber_ok {α : Type} [Scalar α] {v : α} {l : String}
    (h : validateIsFiniteNumber v l = .ok) : isFinite v = true := by
  rcases validateIsFiniteNumber_eq v l with ⟨h3, _⟩ | ⟨_, _, h3⟩
  · exact h3
  · rw [h3] at h; simp at h

/-- The parts of a validated parameter structure. -/
theorem validParts {p : StrokeModelParams F D} (h : validateStrokeModelParams p = .ok) :
    (p.position.loop.isEnabled = true → p.stylus.useStrokeNormalProjection = true) ∧
    validateWobbleParams p.wobble = .ok ∧ validatePositionModelerParams p.position = .ok ∧
    validateSamplingParams p.sampling = .ok ∧ validateStylusParams p.stylus = .ok ∧
    validatePredictionParams p.prediction = .ok := by
  unfold validateStrokeModelParams at h
  split at h
  · simp at h
  · rename_i hc
    obtain ⟨h1, h⟩ := andThen_ok h
    obtain ⟨h2, h⟩ := andThen_ok h
    obtain ⟨h3, h⟩ := andThen_ok h
    obtain ⟨h4, h⟩ := andThen_ok h
    refine ⟨fun he => ?_, h1, h2, h3, h4, h⟩
    simpa [he] using hc

/-- What validation guarantees about the window sizes of the stylus modeler. -/
theorem validStylus {p : StrokeModelParams F D} (h : validateStrokeModelParams p = .ok) :
    (p.stylus.useStrokeNormalProjection = true → 0 < p.stylus.minInputSamples) ∧
    (p.stylus.useStrokeNormalProjection = false → 0 < p.stylus.maxInputSamples) := by
  have h := (validParts h).2.2.2.2.1
  unfold validateStylusParams at h
  split at h
  · rename_i hu
    exact ⟨fun _ => validateGreaterThanZeroInt_ok (andThen_ok h).1, by simp [hu]⟩
  · rename_i hu
    exact ⟨by simp [hu], fun _ => validateGreaterThanZeroInt_ok h⟩

theorem validSamplingParts {p : SamplingParams F D} (h : validateSamplingParams p = .ok) :
    (isFinite p.minOutputRate = true ∧ (p.minOutputRate ≤ᵇ 0) = false) ∧
    (isFinite p.endOfStrokeStoppingDistance = true ∧ (p.endOfStrokeStoppingDistance ≤ᵇ 0) = false) ∧
    (0 < p.endOfStrokeMaxIterations ∧ p.endOfStrokeMaxIterations ≤ 1000) ∧ 0 < p.maxOutputsPerCall ∧
    ((p.maxEstimatedAngle =ᵇ -1) = true ∨ (isFinite p.maxEstimatedAngle = true ∧ (p.maxEstimatedAngle ≤ᵇ 0) = false ∧
      (Arith.pi F ≤ᵇ p.maxEstimatedAngle) = false)) := by
  unfold validateSamplingParams at h
  obtain ⟨h1, h⟩ := andThen_ok h
  obtain ⟨h2, h⟩ := andThen_ok h
  obtain ⟨h3, h⟩ := andThen_ok h
  split at h
  · simp at h
  · rename_i h4
    obtain ⟨h5, h⟩ := andThen_ok h
    refine ⟨validateGreaterThanZero_ok h1, validateGreaterThanZero_ok h2,
      ⟨validateGreaterThanZeroInt_ok h3, by simpa [kMaxEndOfStrokeMaxIterations] using h4⟩,
      validateGreaterThanZeroInt_ok h5, ?_⟩
    split at h
    · obtain ⟨h6, h⟩ := andThen_ok h
      refine .inr ⟨(validateGreaterThanZero_ok h6).1, (validateGreaterThanZero_ok h6).2, ?_⟩
      split at h
      · simp at h
      · rename_i hc; simpa using hc
    · rename_i hc
      exact .inl (by simpa using hc)

end Ink
