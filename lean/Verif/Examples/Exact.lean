import Verif.Exact.Exists
/-!
# Concrete strokes on exact numbers
-/
namespace Ink.Ex
open Scalar Arith XR
noncomputable section

/-- The point (x, y). -/
def pt (x y : ℝ) : ℂ := ⟨x, y⟩

/-- An input with full stylus data. -/
def xin (e : EventType) (z : ℂ) (t pr tl o : ℝ) : Input XR XR := ⟨e, V z, fin t, fin pr, fin tl, fin o⟩

/-- The parameters of the unit tests (stroke_modeler_test.cc:38-52). -/
def xparams : StrokeModelParams XR XR where
  wobble := { isEnabled := true, timeout := fin (1 / 25), speedFloor := fin 1.31, speedCeiling := fin 1.44 }
  position :=
    { springMassConstant := fin (11 / 32400), dragConstant := fin 72
      loop := { isEnabled := false, speedLowerBound := fin (-1), speedUpperBound := fin (-1), strengthAtLower := fin (-1)
                strengthAtUpper := fin (-1), minSpeedSamplingWindow := fin (-1), minDiscreteSpeedSamples := 3 } }
  sampling :=
    { minOutputRate := fin 180, endOfStrokeStoppingDistance := fin (1 / 1000), endOfStrokeMaxIterations := 20
      maxOutputsPerCall := 20, maxEstimatedAngle := fin (-1) }
  stylus := { maxInputSamples := 20, useStrokeNormalProjection := false, minInputSamples := -1, minSampleDuration := fin (-1) }
  prediction := .strokeEnd

/-- The same with loop mitigation. -/
def xloop : StrokeModelParams XR XR :=
  { xparams with
    position := { xparams.position with
      loop := { isEnabled := true, speedLowerBound := fin 0, speedUpperBound := fin 100, strengthAtLower := fin 1
                strengthAtUpper := fin (1 / 2), minSpeedSamplingWindow := fin (1 / 25), minDiscreteSpeedSamples := 3 } }
    stylus := { maxInputSamples := 20, useStrokeNormalProjection := true, minInputSamples := 5, minSampleDuration := fin (1 / 25) } }

/-- Down, two Moves, Up. -/
def xinputs : List (Input XR XR) :=
  [xin .down (pt 3 4) 0 0.2 1 2, xin .move (pt 3.2 4.2) (1 / 30) 0.3 1.1 2.1, xin .move (pt 3.5 4.2) (2 / 30) 0.4 1.2 2.2,
   xin .up (pt 3.6 4.1) (3 / 30) 0.5 1.3 2.3]

theorem ok_andThen (b : Status) : Status.ok.andThen b = b := rfl

theorem lit10000 : (10000 : XR) = fin 10000 := by show fin _ = _; norm_num

/-- Decides validity of concrete parameters. -/
macro "valid" : tactic => `(tactic| (
  simp only [validateStrokeModelParams, validateWobbleParams, validatePositionModelerParams, validateLoopParams,
    validateSamplingParams, validateStylusParams, validatePredictionParams, validateGreaterThanZero,
    validateGreaterThanOrEqualToZero, validateGreaterThanZeroInt, validateIsFiniteNumber, kMaxEndOfStrokeMaxIterations,
    kMaxDiscreteSamples, kMaxSamplingWindow, lit10000, isFinite_fin, lit0, lit1, fin_lt, fin_le, fin_eq, fin_neg, ofRatio_eq]
  norm_num [ok_andThen]))

theorem xparams_valid : validateStrokeModelParams xparams = .ok := by unfold xparams; valid

theorem xloop_valid : validateStrokeModelParams xloop = .ok := by unfold xloop xparams; valid

theorem xloop_ok : LoopOk xloop.position.loop :=
  .inr ⟨0, 100, 1, 1 / 2, rfl, rfl, rfl, rfl, by norm_num, by norm_num, by norm_num, by norm_num, by norm_num⟩

theorem fits_xin {e e' : EventType} {z z' : ℂ} {t t' pr pr' tl tl' o o' : ℝ} (h : t < t') :
    Fits (xin e z t pr tl o) (xin e' z' t' pr' tl' o') := by
  refine ⟨⟨isFinite_fin _, isFinite_fin _, isFinite_fin _⟩, by simp [xin, h.le], ?_⟩
  simp [Input.eq, xin, h.ne]

theorem good_fin (r : ℝ) : Good (fin r) := by simp [Good]

theorem xfollows (p : StrokeModelParams XR XR) (h : p.sampling = xparams.sampling) :
    XR.Follows p (xin .down (pt 3 4) 0 0.2 1 2) xinputs.tail := by
  have hn : ∀ {e e' : EventType} {z z' : ℂ} {t t' pr pr' tl tl' o o' : ℝ}, (t' - t) * 180 ≤ 20 →
      Near p (xin e z t pr tl o) (xin e' z' t' pr' tl' o') := by
    intro e e' z z' t t' pr pr' tl tl' o o' ht
    refine .inr ⟨by rw [h]; rfl, ?_⟩
    rw [h]
    simpa [xin, xparams] using ht
  refine ⟨fits_xin (by norm_num), hn (by norm_num), good_fin _, .inl rfl, fits_xin (by norm_num), hn (by norm_num), good_fin _, .inl rfl, fits_xin (by norm_num),
    hn (by norm_num), good_fin _, .inr ⟨rfl, rfl⟩, trivial⟩

/-- A stroke of four inputs, with and without loop mitigation. -/
theorem xstroke (p : StrokeModelParams XR XR) (hv : validateStrokeModelParams p = .ok) (h : p.sampling = xparams.sampling) :
    ∃ rs m, Session (calls p xinputs) rs m ∧ Regular (calls p xinputs) rs ∧
      (Ink.known (calls p xinputs) rs).params = some p ∧ (strokeOf (calls p xinputs) rs).map Event.input = xinputs ∧
      ∀ e ∈ strokeOf (calls p xinputs) rs, e.results.isSome = true :=
  exists_stroke hv rfl ⟨isFinite_fin _, isFinite_fin _, isFinite_fin _⟩ (good_fin _) (xfollows p h) (by simp)

/-- The stroke as a list of four events. -/
theorem xevents {p : StrokeModelParams XR XR} {rs : List (Response XR XR)} (h : (strokeOf (calls p xinputs) rs).map Event.input = xinputs)
    (hs : ∀ e ∈ strokeOf (calls p xinputs) rs, e.results.isSome = true) : ∃ o₁ o₂ o₃ o₄, strokeOf (calls p xinputs) rs =
      [⟨xin .down (pt 3 4) 0 0.2 1 2, some o₁⟩, ⟨xin .move (pt 3.2 4.2) (1 / 30) 0.3 1.1 2.1, some o₂⟩,
       ⟨xin .move (pt 3.5 4.2) (2 / 30) 0.4 1.2 2.2, some o₃⟩, ⟨xin .up (pt 3.6 4.1) (3 / 30) 0.5 1.3 2.3, some o₄⟩] := by
  revert h hs
  generalize strokeOf (calls p xinputs) rs = l
  intro h hs
  match l, h, hs with
  | [⟨a, ra⟩, ⟨b, rb⟩, ⟨c, rc⟩, ⟨d, rd⟩], h, hs =>
    simp only [List.map_cons, List.map_nil, xinputs, List.cons.injEq, and_true] at h
    obtain ⟨rfl, rfl, rfl, rfl⟩ := h
    simp only [List.mem_cons, List.not_mem_nil, or_false, forall_eq_or_imp, forall_eq, Option.isSome_iff_exists] at hs
    obtain ⟨⟨o₁, rfl⟩, ⟨o₂, rfl⟩, ⟨o₃, rfl⟩, ⟨o₄, rfl⟩⟩ := hs
    exact ⟨o₁, o₂, o₃, o₄, rfl⟩
  | [], h, _ => simp [xinputs] at h
  | [_], h, _ => simp [xinputs] at h
  | [_, _], h, _ => simp [xinputs] at h
  | [_, _, _], h, _ => simp [xinputs] at h
  | _ :: _ :: _ :: _ :: _ :: _, h, _ => simp [xinputs] at h

end
end Ink.Ex
