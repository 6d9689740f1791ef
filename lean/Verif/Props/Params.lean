import Verif.IEEE.Value
import Verif.Lemmas.Tips
import Verif.Examples.Base
import Verif.Props.Protocol
/-!
# C38, C39: what Reset(params) and Update accept
-/
namespace Ink
open Scalar Fl

/-! ## C38 -/

/-- The constraints params.h puts on the parameters, wherever a number is asked for in the sense that NaN does not meet them: on
PositionModelerParams (params.h:50-105), SamplingParams (params.h:121-144), StylusStateModelerParams (params.h:162-188),
WobbleSmootherParams (params.h:197-212) and KalmanPredictorParams (params.h:231-306). `pi` is `kPi`. -/
structure Documented (pi : Fl f64) (p : StrokeModelParams (Fl f32) (Fl f64)) : Prop where
  wobble : p.wobble.isEnabled = true → IsNonneg p.wobble.timeout ∧ IsNonneg p.wobble.speedFloor ∧ IsReal p.wobble.speedCeiling ∧
    AtMost p.wobble.speedFloor p.wobble.speedCeiling
  spring : IsPos p.position.springMassConstant
  drag : IsPos p.position.dragConstant
  loop : p.position.loop.isEnabled = true → p.stylus.useStrokeNormalProjection = true ∧
    (AtMost 0 p.position.loop.speedLowerBound ∧ AtMost p.position.loop.speedLowerBound p.position.loop.speedUpperBound) ∧
    (AtMost 0 p.position.loop.strengthAtUpper ∧ AtMost p.position.loop.strengthAtUpper p.position.loop.strengthAtLower ∧
      AtMost p.position.loop.strengthAtLower 1) ∧
    Less 0 p.position.loop.minSpeedSamplingWindow ∧ 0 < p.position.loop.minDiscreteSpeedSamples
  rate : IsPos p.sampling.minOutputRate
  stopping : IsPos p.sampling.endOfStrokeStoppingDistance
  iterations : 0 < p.sampling.endOfStrokeMaxIterations
  outputs : 0 < p.sampling.maxOutputsPerCall
  angle : Same p.sampling.maxEstimatedAngle (-1) ∨ (IsPos p.sampling.maxEstimatedAngle ∧ Less p.sampling.maxEstimatedAngle pi)
  normal : p.stylus.useStrokeNormalProjection = true → 0 < p.stylus.minInputSamples ∧ IsPos p.stylus.minSampleDuration
  closest : p.stylus.useStrokeNormalProjection = false → 0 < p.stylus.maxInputSamples
  kalman : ∀ k, p.prediction = .kalman k → IsPos k.processNoise ∧ IsPos k.measurementNoise ∧ 0 < k.minStableIteration ∧
    0 < k.maxTimeSamples ∧ IsPos k.minCatchupVelocity ∧ IsReal k.accelerationWeight ∧ IsReal k.jerkWeight ∧
    IsPos k.predictionInterval ∧ 0 < k.confidence.desiredNumberOfSamples ∧ IsPos k.confidence.maxEstimationDistance ∧
    IsNonneg k.confidence.minTravelSpeed ∧ IsReal k.confidence.maxTravelSpeed ∧
    AtMost k.confidence.minTravelSpeed k.confidence.maxTravelSpeed ∧ IsPos k.confidence.maxLinearDeviation ∧
    AtMost 0 k.confidence.baselineLinearityConfidence ∧ AtMost k.confidence.baselineLinearityConfidence 1

/-- Upper limits that params.h does not mention (params.cc:40-44). -/
structure Limits (p : StrokeModelParams (Fl f32) (Fl f64)) : Prop where
  iterations : p.sampling.endOfStrokeMaxIterations ≤ 1000
  samples : p.position.loop.isEnabled = true → p.position.loop.minDiscreteSpeedSamples ≤ 10000
  window : p.position.loop.isEnabled = true → AtMost p.position.loop.minSpeedSamplingWindow 10000

/-- The parameters for which NaN is not caught are numbers. -/
structure Numbers (p : StrokeModelParams (Fl f32) (Fl f64)) : Prop where
  loop : p.position.loop.isEnabled = true → p.position.loop.speedLowerBound ≠ nan ∧ p.position.loop.speedUpperBound ≠ nan ∧
    p.position.loop.strengthAtLower ≠ nan ∧ p.position.loop.strengthAtUpper ≠ nan ∧ p.position.loop.minSpeedSamplingWindow ≠ nan
  baseline : ∀ k, p.prediction = .kalman k → k.confidence.baselineLinearityConfidence ≠ nan

theorem andThen_eq_ok {a b : Status} : a.andThen b = .ok ↔ a = .ok ∧ b = .ok := by
  cases a <;> simp [Status.andThen]

theorem ite_err_eq_ok {c : Prop} [Decidable c] {code : Code} {msg : String} {s : Status} :
    (if c then .err code msg else s) = .ok ↔ ¬ c ∧ s = .ok := by
  split <;> simp_all

theorem validateIsFiniteNumber_iff {f : Fmt} {v : Fl f} {l : String} : validateIsFiniteNumber v l = .ok ↔ IsReal v := by
  rw [← isFinite_val]
  rcases validateIsFiniteNumber_eq v l with ⟨h, h'⟩ | ⟨h, _, h'⟩ <;> simp [h, h']

theorem validateGreaterThanZero_iff {f : Fmt} {v : Fl f} {l : String} : validateGreaterThanZero v l = .ok ↔ IsPos v := by
  simp only [validateGreaterThanZero, andThen_eq_ok, ite_err_eq_ok, validateIsFiniteNumber_iff, and_true, isPos_iff, isFinite_val,
    Bool.not_eq_true]

theorem validateGreaterThanOrEqualToZero_iff {f : Fmt} {v : Fl f} {l : String} :
    validateGreaterThanOrEqualToZero v l = .ok ↔ IsNonneg v := by
  simp only [validateGreaterThanOrEqualToZero, andThen_eq_ok, ite_err_eq_ok, validateIsFiniteNumber_iff, and_true, isNonneg_iff,
    isFinite_val, Bool.not_eq_true]

theorem validateGreaterThanZeroInt_iff {v : Int} {l : String} : validateGreaterThanZeroInt v l = .ok ↔ 0 < v := by
  unfold validateGreaterThanZeroInt
  split <;> simp <;> omega

/-- Parameters that validation accepts, in terms of the numbers the floats stand for: `¬ Less` where NaN is not caught. -/
theorem validate_iff [Libm] (p : StrokeModelParams (Fl f32) (Fl f64)) : validateStrokeModelParams p = .ok ↔
    (p.position.loop.isEnabled = true → p.stylus.useStrokeNormalProjection = true) ∧
    (p.wobble.isEnabled = true → IsNonneg p.wobble.timeout ∧ IsNonneg p.wobble.speedFloor ∧ IsReal p.wobble.speedCeiling ∧
      ¬ Less p.wobble.speedCeiling p.wobble.speedFloor) ∧
    ((p.position.loop.isEnabled = true →
      (¬ Less p.position.loop.speedUpperBound p.position.loop.speedLowerBound ∧ ¬ Less p.position.loop.speedLowerBound 0) ∧
      (¬ Less p.position.loop.strengthAtLower p.position.loop.strengthAtUpper ∧ ¬ Less 1 p.position.loop.strengthAtLower ∧
        ¬ Less p.position.loop.strengthAtUpper 0) ∧
      (1 ≤ p.position.loop.minDiscreteSpeedSamples ∧ p.position.loop.minDiscreteSpeedSamples ≤ 10000) ∧
      ¬ AtMost p.position.loop.minSpeedSamplingWindow 0 ∧ ¬ Less 10000 p.position.loop.minSpeedSamplingWindow) ∧
      IsPos p.position.springMassConstant ∧ IsPos p.position.dragConstant) ∧
    (IsPos p.sampling.minOutputRate ∧ IsPos p.sampling.endOfStrokeStoppingDistance ∧ 0 < p.sampling.endOfStrokeMaxIterations ∧
      p.sampling.endOfStrokeMaxIterations ≤ 1000 ∧ 0 < p.sampling.maxOutputsPerCall ∧
      (Same p.sampling.maxEstimatedAngle (-1) ∨
        (IsPos p.sampling.maxEstimatedAngle ∧ ¬ AtMost (Arith.pi (Fl f32)) p.sampling.maxEstimatedAngle))) ∧
    ((p.stylus.useStrokeNormalProjection = true → 0 < p.stylus.minInputSamples ∧ IsPos p.stylus.minSampleDuration) ∧
      (p.stylus.useStrokeNormalProjection = false → 0 < p.stylus.maxInputSamples)) ∧
    (∀ k, p.prediction = .kalman k → IsPos k.processNoise ∧ IsPos k.measurementNoise ∧ 0 < k.minStableIteration ∧
      0 < k.maxTimeSamples ∧ IsPos k.minCatchupVelocity ∧ IsReal k.accelerationWeight ∧ IsReal k.jerkWeight ∧
      IsPos k.predictionInterval ∧ 0 < k.confidence.desiredNumberOfSamples ∧ IsPos k.confidence.maxEstimationDistance ∧
      IsNonneg k.confidence.minTravelSpeed ∧ IsReal k.confidence.maxTravelSpeed ∧
      ¬ Less k.confidence.maxTravelSpeed k.confidence.minTravelSpeed ∧ IsPos k.confidence.maxLinearDeviation ∧
      ¬ Less k.confidence.baselineLinearityConfidence 0 ∧ ¬ Less 1 k.confidence.baselineLinearityConfidence) := by
  have h0 : validateStrokeModelParams p = .ok ↔
      (p.position.loop.isEnabled = true → p.stylus.useStrokeNormalProjection = true) ∧ validateWobbleParams p.wobble = .ok ∧
      validatePositionModelerParams p.position = .ok ∧ validateSamplingParams p.sampling = .ok ∧
      validateStylusParams p.stylus = .ok ∧ validatePredictionParams p.prediction = .ok := by
    simp only [validateStrokeModelParams, ite_err_eq_ok, andThen_eq_ok]
    simp
  rw [h0]
  refine and_congr Iff.rfl (and_congr ?_ (and_congr ?_ (and_congr ?_ (and_congr ?_ ?_))))
  · unfold validateWobbleParams
    cases p.wobble.isEnabled
    · simp
    · simp only [Bool.not_true, Bool.false_eq_true, ↓reduceIte, andThen_eq_ok, ite_err_eq_ok, validateGreaterThanOrEqualToZero_iff,
        validateIsFiniteNumber_iff, lt_val, forall_const, and_true]
  · simp only [validatePositionModelerParams, andThen_eq_ok, validateGreaterThanZero_iff]
    refine and_congr ?_ Iff.rfl
    unfold validateLoopParams
    cases p.position.loop.isEnabled
    · simp
    · simp only [Bool.not_true, Bool.false_eq_true, ↓reduceIte, ite_err_eq_ok, Bool.or_eq_true, lt_val, le_val, forall_const, and_true,
        not_or, not_lt, and_assoc]
      rfl
  · simp only [validateSamplingParams, andThen_eq_ok, ite_err_eq_ok, validateGreaterThanZero_iff, validateGreaterThanZeroInt_iff,
      not_lt]
    refine and_congr Iff.rfl (and_congr Iff.rfl (and_congr Iff.rfl (and_congr Iff.rfl (and_congr Iff.rfl ?_))))
    by_cases hs : Same p.sampling.maxEstimatedAngle (-1)
    · simp [hs, eq_val.2 hs]
    · have : (p.sampling.maxEstimatedAngle =ᵇ -1) = false := by rwa [Bool.eq_false_iff, ne_eq, eq_val]
      simp only [this, hs, Bool.not_false, ↓reduceIte, andThen_eq_ok, validateGreaterThanZero_iff, ite_err_eq_ok, le_val, and_true,
        false_or]
  · unfold validateStylusParams
    cases p.stylus.useStrokeNormalProjection <;>
      simp [andThen_eq_ok, validateGreaterThanZero_iff, validateGreaterThanZeroInt_iff]
  · cases hk : p.prediction with
    | strokeEnd => simp [validatePredictionParams]
    | disabled => simp [validatePredictionParams]
    | kalman k =>
      simp only [validatePredictionParams, validateKalmanParams, andThen_eq_ok, ite_err_eq_ok, validateGreaterThanZero_iff,
        validateGreaterThanZeroInt_iff, validateIsFiniteNumber_iff, validateGreaterThanOrEqualToZero_iff, lt_val, Bool.or_eq_true,
        not_or, and_true, PredictionParams.kalman.injEq, forall_eq']

theorem Fl.IsReal.ne_nan {f : Fmt} {x : Fl f} (h : IsReal x) : x ≠ nan := by
  rintro rfl; obtain ⟨r, hr⟩ := h; simp [val] at hr

theorem Fl.IsPos.isReal {f : Fmt} {x : Fl f} : IsPos x → IsReal x := fun ⟨r, h, _⟩ => ⟨r, h⟩
theorem Fl.IsNonneg.isReal {f : Fmt} {x : Fl f} : IsNonneg x → IsReal x := fun ⟨r, h, _⟩ => ⟨r, h⟩

theorem Fl.Less.not_atMost {f : Fmt} {x y : Fl f} (h : Less x y) : ¬ AtMost y x := fun h' => h'.not_less h

theorem less_of_not_atMost {f : Fmt} {x y : Fl f} (hx : x ≠ nan) (hy : y ≠ nan) (h : ¬ AtMost y x) : Less x y := by
  by_contra hc; exact h ((not_less hx hy).1 hc)

theorem lit_ne_nan {f : Fmt} {n : ℕ} : (OfNat.ofNat n : Fl f) ≠ nan := by
  have h : Fl.isNaN (Fl.ofInt n : Fl f) = false := ofUnits_not_nan _ _ _
  intro hc
  have hc' : (Fl.ofInt n : Fl f) = nan := hc
  rw [hc'] at h
  simp [Fl.isNaN] at h

theorem pi_ne_nan [Libm] : (Arith.pi (Fl f32) : Fl f64) ≠ nan := by
  change (Scalar.ofRatio 884279719003555 281474976710656 : Fl f64) ≠ nan
  decide +kernel

theorem ite_err_code {c : Prop} [Decidable c] {msg : String} {s : Status} (h : s = .ok ∨ s.HasCode .invalidArgument) :
    (if c then .err .invalidArgument msg else s) = .ok ∨
      (if c then .err .invalidArgument msg else s).HasCode .invalidArgument := by
  split
  · exact .inr ⟨_, rfl⟩
  · exact h

theorem andThen_code {a b : Status} (ha : a = .ok ∨ a.HasCode .invalidArgument) (hb : b = .ok ∨ b.HasCode .invalidArgument) :
    a.andThen b = .ok ∨ (a.andThen b).HasCode .invalidArgument := by
  rcases ha with rfl | ⟨msg, rfl⟩
  · exact hb
  · exact .inr ⟨msg, rfl⟩

section Codes
variable {F D : Type} [Scalar F] [Scalar D] [Arith F D]

theorem validate_code (p : StrokeModelParams F D) :
    validateStrokeModelParams p = .ok ∨ (validateStrokeModelParams p).HasCode .invalidArgument := by
  have hok : Status.ok = .ok ∨ Status.ok.HasCode .invalidArgument := .inl rfl
  have hfin : ∀ {α : Type} [Scalar α] (v : α) (l : String),
      validateIsFiniteNumber v l = .ok ∨ (validateIsFiniteNumber v l).HasCode .invalidArgument :=
    fun v l => ite_err_code (ite_err_code hok)
  have hpos : ∀ {α : Type} [Scalar α] (v : α) (l : String),
      validateGreaterThanZero v l = .ok ∨ (validateGreaterThanZero v l).HasCode .invalidArgument :=
    fun v l => andThen_code (hfin v l) (ite_err_code hok)
  have hnn : ∀ {α : Type} [Scalar α] (v : α) (l : String),
      validateGreaterThanOrEqualToZero v l = .ok ∨ (validateGreaterThanOrEqualToZero v l).HasCode .invalidArgument :=
    fun v l => andThen_code (hfin v l) (ite_err_code hok)
  have hint : ∀ (v : Int) (l : String),
      validateGreaterThanZeroInt v l = .ok ∨ (validateGreaterThanZeroInt v l).HasCode .invalidArgument :=
    fun v l => ite_err_code hok
  refine ite_err_code (andThen_code ?_ (andThen_code ?_ (andThen_code ?_ (andThen_code ?_ ?_))))
  · unfold validateWobbleParams
    split
    · exact hok
    · exact andThen_code (hnn _ _) (andThen_code (hnn _ _) (andThen_code (hfin _ _) (ite_err_code hok)))
  · refine andThen_code ?_ (andThen_code (hpos _ _) (hpos _ _))
    unfold validateLoopParams
    split
    · exact hok
    · exact ite_err_code (ite_err_code (ite_err_code (ite_err_code hok)))
  · refine andThen_code (hpos _ _) (andThen_code (hpos _ _) (andThen_code (hint _ _) (ite_err_code (andThen_code (hint _ _) ?_))))
    split
    · exact andThen_code (hpos _ _) (ite_err_code hok)
    · exact hok
  · unfold validateStylusParams
    split
    · exact andThen_code (hint _ _) (hpos _ _)
    · exact hint _ _
  · cases p.prediction with
    | strokeEnd => exact hok
    | disabled => exact hok
    | kalman k =>
      exact andThen_code (hpos _ _) (andThen_code (hpos _ _) (andThen_code (hint _ _) (andThen_code (hint _ _)
        (andThen_code (hpos _ _) (andThen_code (hfin _ _) (andThen_code (hfin _ _) (andThen_code (hpos _ _)
        (andThen_code (hint _ _) (andThen_code (hpos _ _) (andThen_code (hnn _ _) (andThen_code (hfin _ _)
        (ite_err_code (andThen_code (hpos _ _) (ite_err_code hok))))))))))))))

end Codes

/-- C38, the part that holds: `Reset(params)` succeeds for all parameters that meet the documented constraints and the
undocumented upper limits; and apart from NaN in the loop mitigation parameters and in the baseline confidence, for no others.
It fails with InvalidArgument otherwise. -/
theorem C38_ranges_partial [Libm] (m : StrokeModeler (Fl f32) (Fl f64)) (p : StrokeModelParams (Fl f32) (Fl f64)) :
    ∃ m' r, step m (.resetParams p) = .ok (m', r) ∧ (r.status = .ok ∨ r.status.HasCode .invalidArgument) ∧
      (Documented (Arith.pi (Fl f32)) p → Limits p → r.status = .ok) ∧
      (r.status = .ok → Numbers p → Documented (Arith.pi (Fl f32)) p ∧ Limits p) := by
  obtain ⟨m', r, hs, hr⟩ : ∃ m' r, step m (.resetParams p) = .ok (m', r) ∧ r.status = validateStrokeModelParams p := by
    rcases resetParams_cases m p with ⟨c, msg, h, h'⟩ | ⟨h, h'⟩
    · exact ⟨m, ⟨.err c msg, []⟩, by simp [step, h'], h.symm⟩
    · exact ⟨_, ⟨.ok, []⟩, by simp only [step, h']; rfl, h.symm⟩
  refine ⟨m', r, hs, by rw [hr]; exact validate_code p, ?_, ?_⟩
  · intro hd hl
    rw [hr, validate_iff]
    refine ⟨fun h => (hd.loop h).1, fun h => ?_, ⟨fun h => ?_, hd.spring, hd.drag⟩, ⟨hd.rate, hd.stopping, hd.iterations, hl.iterations,
      hd.outputs, hd.angle.imp id fun h => ⟨h.1, Less.not_atMost h.2⟩⟩, ⟨hd.normal, hd.closest⟩, fun k hk => ?_⟩
    · obtain ⟨h1, h2, h3, h4⟩ := hd.wobble h
      exact ⟨h1, h2, h3, h4.not_less⟩
    · obtain ⟨_, h2, h3, h4, h5⟩ := hd.loop h
      exact ⟨⟨h2.2.not_less, h2.1.not_less⟩, ⟨h3.2.1.not_less, h3.2.2.not_less, h3.1.not_less⟩, ⟨h5, hl.samples h⟩,
        Less.not_atMost h4, (hl.window h).not_less⟩
    · obtain ⟨h1, h2, h3, h4, h5, h6, h7, h8, h9, h10, h11, h12, h13, h14, h15, h16⟩ := hd.kalman k hk
      exact ⟨h1, h2, h3, h4, h5, h6, h7, h8, h9, h10, h11, h12, h13.not_less, h14, h15.not_less, h16.not_less⟩
  · intro h hn
    rw [hr, validate_iff] at h
    obtain ⟨h1, h2, ⟨h3, h4, h5⟩, ⟨h6, h7, h8, h9, h10, h11⟩, ⟨h12, h13⟩, h14⟩ := h
    refine ⟨⟨fun he => ?_, h4, h5, fun he => ?_, h6, h7, h8, h10, h11.imp id fun h => ⟨h.1, ?_⟩, h12, h13, fun k hk => ?_⟩,
      ⟨h9, fun he => (h3 he).2.2.1.2, fun he => ?_⟩⟩
    · obtain ⟨a, b, c, d⟩ := h2 he
      exact ⟨a, b, c, (not_less c.ne_nan b.isReal.ne_nan).1 d⟩
    · obtain ⟨n1, n2, n3, n4, n5⟩ := hn.loop he
      obtain ⟨⟨a, b⟩, ⟨c, d, e⟩, g, i, j⟩ := h3 he
      exact ⟨h1 he, ⟨(not_less n1 lit_ne_nan).1 b, (not_less n2 n1).1 a⟩,
        ⟨(not_less n4 lit_ne_nan).1 e, (not_less n3 n4).1 c, (not_less lit_ne_nan n3).1 d⟩, less_of_not_atMost lit_ne_nan n5 i, g.1⟩
    · exact less_of_not_atMost h.1.isReal.ne_nan pi_ne_nan h.2
    · obtain ⟨h1, h2, h3, h4, h5, h6, h7, h8, h9, h10, h11, h12, h13, h14, h15, h16⟩ := h14 k hk
      have hb := hn.baseline k hk
      exact ⟨h1, h2, h3, h4, h5, h6, h7, h8, h9, h10, h11, h12, (not_less h12.ne_nan h11.isReal.ne_nan).1 h13, h14,
        (not_less hb lit_ne_nan).1 h15, (not_less lit_ne_nan hb).1 h16⟩
    · exact (not_less lit_ne_nan (hn.loop he).2.2.2.2).1 (h3 he).2.2.2.2

section Examples
open Ex

/-- the parameters of the unit tests with the Kalman predictor -/
def kalmanParams : KalmanParams F32 F64 where
  processNoise := d 17 10000
  measurementNoise := d 5 10
  minStableIteration := 4
  maxTimeSamples := 20
  minCatchupVelocity := fl 1 100
  accelerationWeight := fl 5 10
  jerkWeight := fl 1 10
  predictionInterval := d 1 50
  confidence :=
    { desiredNumberOfSamples := 20, maxEstimationDistance := 4, minTravelSpeed := 2, maxTravelSpeed := 8
      maxLinearDeviation := 10, baselineLinearityConfidence := fl 4 10 }

/-- loop mitigation and normal projection as in the unit tests (stroke_modeler_test.cc), and the Kalman predictor -/
def fullParams : StrokeModelParams F32 F64 where
  wobble := params.wobble
  position :=
    { springMassConstant := 11 / 32400, dragConstant := 72
      loop :=
        { isEnabled := true, speedLowerBound := 0, speedUpperBound := 100, strengthAtLower := 1, strengthAtUpper := fl 1 2
          minSpeedSamplingWindow := d 4 100, minDiscreteSpeedSamples := 3 } }
  sampling := { params.sampling with maxEstimatedAngle := d 1 10 }
  stylus := { maxInputSamples := 10, useStrokeNormalProjection := true, minInputSamples := 10, minSampleDuration := d 5 100 }
  prediction := .kalman kalmanParams

/-- these parameters are accepted, so that they meet the documented constraints -/
example [Libm] : Documented (Arith.pi F32) fullParams ∧ Limits fullParams := by
  obtain ⟨m', r, h, _, _, h2⟩ := C38_ranges_partial .default fullParams
  have : validateStrokeModelParams fullParams = .ok := by kernel_rfl
  refine h2 ?_ ⟨fun _ => ?_, fun k hk => ?_⟩
  · simp only [step, StrokeModeler.resetParams, this, Outcome.ok.injEq, Prod.mk.injEq] at h
    rw [← h.2]
  · decide +kernel
  · obtain rfl : kalmanParams = k := PredictionParams.kalman.inj hk
    decide +kernel

/-- C38 fails as stated: `Reset(params)` accepts NaN as a speed bound, as a strength, as the sampling window of loop mitigation
and as baseline confidence of the Kalman predictor, and refuses documented values of end_of_stroke_max_iterations. -/
theorem C38_refuted [Libm] (m : StrokeModeler F32 F64) :
    (∃ p m' r, step m (.resetParams p) = .ok (m', r) ∧ r.status = .ok ∧ ¬ Documented (Arith.pi F32) p) ∧
    (∃ p m' r, step m (.resetParams p) = .ok (m', r) ∧ r.status ≠ .ok ∧ Documented (Arith.pi F32) p) := by
  constructor
  · let k : KalmanParams F32 F64 :=
      { kalmanParams with confidence := { kalmanParams.confidence with baselineLinearityConfidence := .nan } }
    let p : StrokeModelParams F32 F64 :=
      { fullParams with
        position := { fullParams.position with loop := { fullParams.position.loop with
          speedLowerBound := .nan, strengthAtLower := .nan, minSpeedSamplingWindow := .nan } }
        prediction := .kalman k }
    have hv : validateStrokeModelParams p = .ok := by kernel_rfl
    refine ⟨p, _, _, by simp only [step, StrokeModeler.resetParams, hv]; rfl, rfl, fun hd => ?_⟩
    obtain ⟨h1, h2, _⟩ := (hd.loop rfl).2
    exact h1.1.ne_nan.2 rfl
  · let p : StrokeModelParams F32 F64 := { params with sampling := { params.sampling with endOfStrokeMaxIterations := 1001 } }
    obtain ⟨m', r, h, _, _, h2⟩ := C38_ranges_partial m params
    have hv : validateStrokeModelParams params = .ok := by kernel_rfl
    have hd : Documented (Arith.pi F32) params := by
      refine (h2 ?_ ⟨fun hc => by exact absurd hc (by decide +kernel), fun k hk => by exact absurd hk (by simp [params])⟩).1
      simp only [step, StrokeModeler.resetParams, hv, Outcome.ok.injEq, Prod.mk.injEq] at h
      rw [← h.2]
    obtain ⟨msg, hp⟩ : ∃ msg, validateStrokeModelParams p = .err .invalidArgument msg := 
      ⟨"SamplingParams::end_of_stroke_max_iterations must be at most", by kernel_rfl⟩
    refine ⟨p, m, ⟨.err .invalidArgument msg, []⟩, by simp only [step, StrokeModeler.resetParams, hp], by simp, ?_⟩
    exact ⟨hd.wobble, hd.spring, hd.drag, hd.loop, hd.rate, hd.stopping, by decide, hd.outputs, hd.angle, hd.normal, hd.closest, hd.kalman⟩

end Examples

/-! ## C39 -/

/-- The position and the time of an input are real numbers. -/
def RealInput (i : Input (Fl f32) (Fl f64)) : Prop := IsReal i.position.x ∧ IsReal i.position.y ∧ IsReal i.time

/-- All fields of the two inputs are the same numbers. -/
structure Repeats (a b : Input (Fl f32) (Fl f64)) : Prop where
  eventType : a.eventType = b.eventType
  x : Same a.position.x b.position.x
  y : Same a.position.y b.position.y
  time : Same a.time b.time
  pressure : Same a.pressure b.pressure
  tilt : Same a.tilt b.tilt
  orientation : Same a.orientation b.orientation

theorem input_eq_iff {a b : Input (Fl f32) (Fl f64)} : Input.eq a b = true ↔ Repeats a b := by
  simp only [Input.eq, Vec2.eq, Bool.and_eq_true, decide_eq_true_eq, eq_val]
  constructor
  · rintro ⟨⟨⟨⟨⟨h1, h2, h3⟩, h4⟩, h5⟩, h6⟩, h7⟩
    exact ⟨h1, h2, h3, h4, h5, h6, h7⟩
  · rintro ⟨h1, h2, h3, h4, h5, h6, h7⟩
    exact ⟨⟨⟨⟨⟨h1, h2, h3⟩, h4⟩, h5⟩, h6⟩, h7⟩

/-- C39: an input of unknown type, or whose position or time is not a real number, is always refused as an invalid argument;
any other first input of a stroke is accepted, whatever its pressure, tilt and orientation are, NaN and infinities included; a later
input is refused if all its fields are the numbers of the last one; and any other later input is refused, if at all, for being earlier
than the last one or for being too far. -/
theorem C39_inputs [Libm] {ops : List (Op (Fl f32) (Fl f64))} {rs : List (Response (Fl f32) (Fl f64))}
    {m : StrokeModeler (Fl f32) (Fl f64)} (h : Session ops rs m) (hp : (known ops rs).params ≠ none)
    (i : Input (Fl f32) (Fl f64)) (v : List (Result (Fl f32) (Fl f64))) :
    (¬ (i.eventType.isKnown ∧ RealInput i) → ∃ m' msg, step m (.update i v) = .ok (m', ⟨.err .invalidArgument msg, v⟩)) ∧
    (i.eventType = .down → (known ops rs).prev = none → RealInput i →
      ∃ m' out, step m (.update i v) = .ok (m', ⟨.ok, v ++ [out]⟩)) ∧
    (i.eventType = .move ∨ i.eventType = .up → RealInput i → ∀ prev, (known ops rs).prev = some prev → ¬ Repeats prev i →
      ¬ Less i.time prev.time → refusal (known ops rs) i = none) ∧
    (∀ prev, (known ops rs).prev = some prev → Repeats prev i →
      ∃ m' msg, step m (.update i v) = .ok (m', ⟨.err .invalidArgument msg, v⟩)) := by
  have hr : RealInput i ↔ isFinite i.position.x ∧ isFinite i.position.y ∧ isFinite i.time := by
    simp only [RealInput, isFinite_val]
  refine ⟨fun hn => ?_, fun he hl hi => ?_, fun he hi prev hl hd ht => ?_, fun prev hl hd => ?_⟩
  · refine (C03_acceptance h i v).1 _ ?_
    rw [hr] at hn
    simp [refusal, hp, hn]
  · have : refusal (known ops rs) i = none := by
      rw [hr] at hi
      simp [refusal, hp, hi, hl, he, EventType.isKnown]
    obtain ⟨m', hs⟩ := C14_down_echo h this he v
    exact ⟨m', _, hs⟩
  · rw [hr] at hi
    have hk : i.eventType.isKnown := .inr he
    have hnd : i.eventType ≠ .down := by rintro hc; rw [hc] at he; simp at he
    rw [← input_eq_iff, Bool.not_eq_true] at hd
    rw [← lt_val, Bool.not_eq_true] at ht
    simp [refusal, hp, hi, hl, hd, ht, hk, hnd]
  · refine (C03_acceptance h i v).1 _ ?_
    rw [← input_eq_iff] at hd
    by_cases hi : i.eventType.isKnown ∧ RealInput i
    · rw [hr] at hi
      simp [refusal, hp, hi, hl, hd]
    · rw [hr] at hi
      simp [refusal, hp, hi]

/-- C39, the part on duplicates that holds: the last accepted input is refused if it is sent again, provided that none of its
pressure, tilt and orientation is NaN. -/
theorem C39_duplicates_partial [Libm] {ops : List (Op (Fl f32) (Fl f64))} {rs : List (Response (Fl f32) (Fl f64))}
    {m : StrokeModeler (Fl f32) (Fl f64)} (h : Session ops rs m) (hp : (known ops rs).params ≠ none)
    {i : Input (Fl f32) (Fl f64)} (hl : (known ops rs).prev = some i) (h1 : i.pressure ≠ nan) (h2 : i.tilt ≠ nan)
    (h3 : i.orientation ≠ nan) (v : List (Result (Fl f32) (Fl f64))) :
    ∃ m' msg, step m (.update i v) = .ok (m', ⟨.err .invalidArgument msg, v⟩) := by
  refine (C03_acceptance h i v).1 _ ?_
  have hself : ∀ {f : Fmt} {x : Fl f}, x ≠ nan → (x =ᵇ x) = true := by
    intro f x hx
    have hn : Fl.isNaN x = false := by cases x <;> simp [Fl.isNaN] at hx ⊢
    exact eq_iff.2 ⟨hn, hn, rfl⟩
  by_cases hi : i.eventType.isKnown ∧ RealInput i
  · have hr := hi.2
    have heq : Input.eq i i = true := by
      simp [Input.eq, Vec2.eq, hself h1, hself h2, hself h3, hself hr.1.ne_nan, hself hr.2.1.ne_nan, hself hr.2.2.ne_nan]
    simp only [RealInput, ← isFinite_val] at hi
    simp [refusal, hp, hi, hl, heq]
  · simp only [RealInput, ← isFinite_val] at hi
    simp [refusal, hp, hi]

section Examples
open Ex

/-- Down and Move with NaN as pressure -/
def nanStroke : List (Op F32 F64) :=
  [.resetParams params, .update (inp .down 0 0 0) [],
   .update { inp .move 1 0 (d 1 60) with pressure := .nan } []]

/-- C39 fails as stated: a Move whose pressure is NaN is accepted a second time. -/
theorem C39_refuted [Libm] : ∃ (ops : List (Op F32 F64)) (rs : List (Response F32 F64)) (m m' : StrokeModeler F32 F64)
    (i : Input F32 F64) (r : Response F32 F64), Session ops rs m ∧ (known ops rs).prev = some i ∧
    step m (.update i []) = .ok (m', r) ∧ r.status = .ok := by
  let i : Input F32 F64 := { inp .move 1 0 (d 1 60) with pressure := .nan }
  obtain ⟨rs, m, h, hP⟩ := exists_session (ops := nanStroke)
    (P := fun rs m => match step m (.update i []) with
      | .ok (_, r) => decide (r.status = .ok ∧ (known nanStroke rs).prev = some i)
      | _ => false) (by kernel_rfl)
  split at hP
  · rename_i m' r hs
    simp only [decide_eq_true_eq] at hP
    exact ⟨nanStroke, rs, m, m', i, r, h, hP.2, hs, hP.1⟩
  · simp at hP

/-- the hypotheses of C39_duplicates_partial: a Move without NaN -/
example : ∃ rs m, Session stroke1 rs m ∧ (known stroke1 rs).params ≠ none ∧
    (known stroke1 rs).prev = some (inp .move (fl 32 10) (fl 42 10) (d 1 30)) := by
  obtain ⟨rs, m, h, hP⟩ := exists_session (ops := stroke1)
    (P := fun rs _ => decide ((known stroke1 rs).params ≠ none ∧
      (known stroke1 rs).prev = some (inp .move (fl 32 10) (fl 42 10) (d 1 30)))) (by kernel_rfl)
  simp only [decide_eq_true_eq] at hP
  exact ⟨rs, m, h, hP⟩

/-- a Down with NaN and infinite stylus values is accepted -/
example [Libm] : ∃ m', step (.default : StrokeModeler F32 F64) (.resetParams params) = .ok (m', ⟨.ok, []⟩) ∧
    ∃ m'' out, step m' (.update ⟨.down, ⟨1, 2⟩, 3, .nan, .inf false, .inf true⟩ []) = .ok (m'', ⟨.ok, [out]⟩) := by
  obtain ⟨rs, m, h, hP⟩ := exists_session (ops := [.resetParams (params : StrokeModelParams F32 F64)])
    (P := fun rs _ => decide (rs = [⟨.ok, []⟩])) (by kernel_rfl)
  simp only [decide_eq_true_eq] at hP
  subst hP
  obtain ⟨m₁, r, rs', h1, h2, h3⟩ := run_cons_ok h
  cases h2
  cases h3
  refine ⟨m, h1, ?_⟩
  obtain ⟨m'', out, hs⟩ := (C39_inputs h (by simp [known, knownFrom, Known.after]) ⟨.down, ⟨1, 2⟩, 3, .nan, .inf false, .inf true⟩ []).2.1 rfl
    rfl ⟨⟨1, by simpa using val_one⟩, ⟨2, val_lit 2 (by decide)⟩, ⟨3, val_lit 3 (by decide)⟩⟩
  exact ⟨m'', out, hs⟩

end Examples

end Ink
