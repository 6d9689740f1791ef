import Verif.Examples.Exact
import Verif.Exact.Predict
/-!
# Strokes with the Kalman predictor on exact numbers
-/
namespace Ink
open Scalar Arith XR
noncomputable section
open Classical

/-- A stroke whose last input is no Up goes on. -/
theorem Course.goes_on {F D : Type} [Scalar F] [Scalar D] [Arith F D] {p : StrokeModelParams F D} {es : List (Event F D)} {f : Event F D}
    {m : StrokeModeler F D} (h : Course p (es ++ [f]) m) (hf : f.input.eventType ≠ .up) : m.lastInput ≠ none := by
  generalize hl : es ++ [f] = l at h
  cases h with
  | down => simp
  | move => simp
  | late hm hl' => simp [hl']
  | up hm hl he =>
    obtain ⟨-, h2⟩ := List.append_inj' hl rfl
    simp only [List.cons.injEq, and_true] at h2
    rw [h2] at hf
    exact absurd he hf

namespace Ref

theorem believe_two (q r a b : ℝ) (hq : 0 ≤ q) (hr : 0 < r) :
    ∃ g, 0 ≤ g ∧ g ≤ 1 ∧ (believe q r [a, b]).mean 0 = a + g * (b - a) := by
  have hb : believe q r [a, b] = ((believe q r [a]).predict q).correct r b := rfl
  have hpsd := Belief.predict_psd hq (believe_psd hq hr [a])
  have hs := (Belief.innovation_pos hr hpsd).2
  have h0 := posSemidef_diag hpsd 0
  refine ⟨((believe q r [a]).predict q).gain r 0, ?_, ?_, ?_⟩
  · show 0 ≤ (Belief.innovation r _)⁻¹ * _
    rw [watch_mulVec]
    exact mul_nonneg (inv_nonneg.2 hs.le) h0
  · show (Belief.innovation r _)⁻¹ * _ ≤ 1
    rw [watch_mulVec, inv_mul_le_one₀ hs, Belief.innovation_eq]
    linarith
  · have hm : ((believe q r [a]).predict q).mean 0 = a := by
      show (transition.mulVec (Belief.first a).mean) 0 = a
      simp [transition_eq, Matrix.mulVec, dotProduct, Belief.first]
    rw [hb]
    show ((believe q r [a]).predict q).mean 0 + (b - watch ⬝ᵥ _) * _ = _
    rw [watch_dot, hm]
    ring

theorem believe_two_velocity {q r : ℝ} (hq : 0 ≤ q) (hr : 0 < r) : 0 < (believe q r [0, 1]).mean 1 := by
  have hb : believe q r [0, 1] = ((believe q r [0]).predict q).correct r 1 := rfl
  have hpsd := Belief.predict_psd hq (believe_psd hq hr [0])
  have hs := (Belief.innovation_pos hr hpsd).2
  have hm : ((believe q r [0]).predict q).mean = 0 := by
    show transition.mulVec (Belief.first 0).mean = 0
    have : (Belief.first 0).mean = 0 := by ext i; simp [Belief.first]
    rw [this, Matrix.mulVec_zero]
  have hc : 0 < ((believe q r [0]).predict q).cov 1 0 := by
    show 0 < (transition * (1 : Matrix (Fin 4) (Fin 4) ℝ) * transition.transpose + q • Matrix.vecMulVec jolt jolt) 1 0
    have h1 : (0 : ℝ) ≤ (q • Matrix.vecMulVec jolt jolt) 1 0 := by
      simp only [Matrix.smul_apply, Matrix.vecMulVec_apply, jolt, smul_eq_mul]
      positivity
    have h2 : (0 : ℝ) < (transition * (1 : Matrix (Fin 4) (Fin 4) ℝ) * transition.transpose) 1 0 := by
      rw [Matrix.mul_one, transition_eq, Matrix.mul_apply, Fin.sum_univ_four]
      simp [Matrix.transpose_apply]
      norm_num
    rw [Matrix.add_apply]
    linarith
  rw [hb]
  show 0 < ((believe q r [0]).predict q).mean 1 + (1 - watch ⬝ᵥ _) * ((Belief.innovation r _)⁻¹ * _)
  rw [watch_dot, hm, watch_mulVec]
  simp only [Pi.zero_apply, zero_add, sub_zero, one_mul]
  exact mul_pos (inv_pos.2 hs) hc

end Ref

namespace Ex

/-- The Kalman parameters of the unit tests (kalman_predictor_test.cc:41-49) but for stability, which comes with the second input,
and a longer interval. -/
def xkalman : KalmanParams XR XR where
  processNoise := fin 0.00026458
  measurementNoise := fin 0.026458
  minStableIteration := 2
  maxTimeSamples := 20
  minCatchupVelocity := fin 0.01
  accelerationWeight := fin 0.5
  jerkWeight := fin 0.1
  predictionInterval := fin 0.02
  confidence := ⟨20, fin 0.04, fin 3, fin 15, fin 0.2, fin 0.4⟩

/-- The same with half a time step as the interval, and not much needed for confidence. -/
def xshort : KalmanParams XR XR :=
  { xkalman with
    accelerationWeight := fin 0, jerkWeight := fin 0, predictionInterval := fin (1 / 360)
    confidence := ⟨20, fin 2, fin 0, fin 15, fin 0.2, fin 0.4⟩ }

/-- The parameters with the Kalman predictor and without wobble smoothing. -/
def xpredict (k : KalmanParams XR XR) : StrokeModelParams XR XR :=
  { xparams with wobble := { xparams.wobble with isEnabled := false }, prediction := .kalman k }

theorem xkalman_valid : validateKalmanParams xkalman = .ok := by
  simp only [xkalman]
  simp only [validateKalmanParams, validateGreaterThanZero,
    validateGreaterThanOrEqualToZero, validateGreaterThanZeroInt, validateIsFiniteNumber, lit0, lit1, fin_lt, fin_le]
  norm_num [ok_andThen]

theorem xshort_valid : validateKalmanParams xshort = .ok := by
  simp only [xshort, xkalman]
  simp only [validateKalmanParams, validateGreaterThanZero,
    validateGreaterThanOrEqualToZero, validateGreaterThanZeroInt, validateIsFiniteNumber, lit0, lit1, fin_lt, fin_le]
  norm_num [ok_andThen]

theorem xpredict_valid {k : KalmanParams XR XR} (h : validateKalmanParams k = .ok) : validateStrokeModelParams (xpredict k) = .ok := by
  simp only [xpredict, xparams]
  simp only [validateStrokeModelParams, validateWobbleParams, validatePositionModelerParams, validateLoopParams,
    validateSamplingParams, validateStylusParams, validatePredictionParams, validateGreaterThanZero,
    validateGreaterThanZeroInt, validateIsFiniteNumber, kMaxEndOfStrokeMaxIterations, h,
    kMaxDiscreteSamples, lit0, lit1, fin_lt, fin_le, fin_eq, fin_neg]
  norm_num [ok_andThen]

/-- Down at 0 and a Move to `x` a 180th of a second later. -/
def xtwo (x : ℝ) : List (Input XR XR) := [xin .down (pt 0 0) 0 0.2 1 2, xin .move (pt x 0) (1 / 180) 0.3 1.1 2.1]

/-- The parameters on real numbers. -/
theorem xpredict_realizes {k : KalmanParams XR XR} {P : Ref.Params} (h : Realizes (xpredict k) P) (hv : P.Valid) :
    P.mass = 11 / 32400 ∧ P.rate = 180 ∧ P.maxOut = 20 ∧ P.maxAngle = none ∧ P.wobble = none := by
  have h9 := hv.maxAngle
  obtain ⟨h1, h2, h3, h4, h5, h6, h7, h8⟩ := h
  refine ⟨(XR.fin.inj h1).symm, (XR.fin.inj h3).symm, h6.symm, ?_, ?_⟩
  · rcases hP : P.maxAngle with _ | a
    · rfl
    · rw [hP] at h7
      have := (h9 a hP).1
      have h10 : (-1 : ℝ) = a := XR.fin.inj h7
      linarith
  · rcases hP : P.wobble with _ | ⟨t, lo, hi⟩
    · rfl
    · rw [hP] at h8
      simp [xpredict] at h8

/-- Where the tip is then. -/
theorem xtwo_tip {k : KalmanParams XR XR} {P : Ref.Params} (h : Realizes (xpredict k) P) (hv : P.Valid) (x : ℝ) :
    (Ref.after P (Ref.start (pt 0 0) 0) [.move (pt x 0) (1 / 180)]).tip.pos = pt (x / 11) 0 ∧
    Ref.known P (pt 0 0) 0 [.move (pt x 0) (1 / 180)] = [(pt 0 0, 0), (pt x 0, 1 / 180)] := by
  obtain ⟨h1, h2, h3, h4, h5⟩ := xpredict_realizes h hv
  have hs : Ref.steps P (Ref.start (pt 0 0) 0).tip (pt x 0) (1 / 180 - (Ref.start (pt 0 0) 0).anchor.2) = 1 := by
    simp only [Ref.steps, h4, h2, Ref.start]
    norm_num
  have hm : Ref.move P (Ref.start (pt 0 0) 0) (pt x 0) (1 / 180) =
      (⟨Ref.spring P (Ref.start (pt 0 0) 0).tip (pt x 0, 1 / 180), [⟨pt 0 0, 0, 0, 0⟩], (pt x 0, 1 / 180)⟩,
        some [Ref.spring P (Ref.start (pt 0 0) 0).tip (pt x 0, 1 / 180)]) := by
    simp only [Ref.move, Ref.smooth, h5, hs, h3]
    simp [Ref.upsample, Ref.follow, Ref.lerp, Ref.start]
  constructor
  · simp only [Ref.after, List.foldl_cons, List.foldl_nil, Ref.advance, hm]
    apply Complex.ext <;> simp [Ref.spring, Ref.start, pt, h1] <;> ring
  · simp only [Ref.known, Ref.heard, Ref.hears, Ref.advance, hm, List.append_nil]

theorem xtwo_predict {k : KalmanParams XR XR} (hk : validateKalmanParams k = .ok) (hkt : k.maxTimeSamples = 20)
    (hkc : k.minCatchupVelocity = fin 0.01) {c : ℝ} (hki : k.predictionInterval = fin c) (hc1 : c ≤ 1) {x : ℝ} (h0 : -1 ≤ x) (h1 : x ≤ 1) :
    ∃ rs m m' r, Session (calls (xpredict k) (xtwo x)) rs m ∧ Regular (calls (xpredict k) (xtwo x)) rs ∧
      (Ink.known (calls (xpredict k) (xtwo x)) rs).params = some (xpredict k) ∧ (Ink.known (calls (xpredict k) (xtwo x)) rs).prev ≠ none ∧
      acceptedOf (strokeOf (calls (xpredict k) (xtwo x)) rs) = xtwo x ∧
      (strokeOf (calls (xpredict k) (xtwo x)) rs).map Event.input = xtwo x ∧ step m (.predict []) = .ok (m', r) := by
  have hfo : XR.Follows (xpredict k) (xin .down (pt 0 0) 0 0.2 1 2) [xin .move (pt x 0) (1 / 180) 0.3 1.1 2.1] :=
    ⟨fits_xin (by norm_num), .inr ⟨rfl, by simp [xin, xpredict, xparams]⟩, good_fin _, .inl rfl, trivial⟩
  obtain ⟨rs, m, hall⟩ := exists_stroke_safe (xpredict_valid hk) rfl ⟨isFinite_fin _, isFinite_fin _, isFinite_fin _⟩
    (good_fin _) hfo (by simp)
  rw [show (xin .down (pt 0 0) 0 0.2 1 2 :: [xin .move (pt x 0) (1 / 180) 0.3 1.1 2.1]) = xtwo x from rfl] at hall
  obtain ⟨h, hr, hp, hs, hres, hsafe⟩ := hall
  have hacc : acceptedOf (strokeOf (calls (xpredict k) (xtwo x)) rs) = xtwo x := by
    rw [acceptedOf, List.filter_eq_self.2 hres, hs]
  obtain ⟨e₁, f₁, hs₁, he₁, hf₁⟩ : ∃ e f, strokeOf (calls (xpredict k) (xtwo x)) rs = [e, f] ∧ e.input = xin .down (pt 0 0) 0 0.2 1 2 ∧
      f.input = xin .move (pt x 0) (1 / 180) 0.3 1.1 2.1 := by
    revert hs
    generalize strokeOf (calls (xpredict k) (xtwo x)) rs = l
    intro hs
    match l, hs with
    | [a, b], hs =>
      simp only [List.map_cons, List.map_nil, xtwo, List.cons.injEq, and_true] at hs
      exact ⟨a, b, rfl, hs.1, hs.2⟩
    | [], h => simp [xtwo] at h
    | [_], h => simp [xtwo] at h
    | _ :: _ :: _ :: _, h => simp [xtwo] at h
  have hi : (Ink.known (calls (xpredict k) (xtwo x)) rs).prev ≠ none := by
    obtain ⟨P, m₀, -, -, hc, hsame⟩ := h.stroke hr hp hs₁
    have hl := hc.goes_on (es := [e₁]) (by rw [hf₁]; simp [xin])
    rw [← h.known]
    simp only [StrokeModeler.known, hsame.last]
    simpa using hl
  obtain ⟨P, K, e, rest, w⟩ := h.watched hr hp (k := k) rfl hi
  have hst := w.stroke
  rw [hs₁, List.cons.injEq] at hst
  obtain ⟨rfl, rfl⟩ := hst
  obtain ⟨hq1, hq2⟩ := xtwo_tip w.realizes w.valid x
  have ht : touch f₁.input = .move (pt x 0) (1 / 180) := by rw [hf₁]; simp [touch, xin]
  have hn : news P e₁ [f₁] = [(pt 0 0, 0), (pt x 0, 1 / 180)] := by
    rw [← hq2, news, List.map_singleton, ht, he₁]
    simp [xin]
  have hq : (state P e₁ [f₁]).tip.pos = pt (x / 11) 0 := by
    rw [← hq1, state, List.map_singleton, ht, he₁]
    simp [xin]
  have hrate := (xpredict_realizes w.realizes w.valid).2.1
  have hint : K.interval = c := (XR.fin.inj (hki.symm.trans w.foresees.interval)).symm
  have hcu : K.catchup = 0.01 := (XR.fin.inj (hkc.symm.trans w.foresees.catchup)).symm
  have hti : K.times = 20 := by have : (20 : ℤ) = (K.times : ℤ) := hkt.symm.trans w.foresees.times; omega
  have hpace : Ref.pace (Ref.latest K (news P e₁ [f₁])) ≠ 0 := by
    rw [hn]
    simp [Ref.pace, Ref.latest, hti]
  have hb : Ref.beyond K P.rate (news P e₁ [f₁]) ≤ 2147483647 := by
    unfold Ref.beyond Ref.horizon
    rw [Int.ceil_le, hint, hrate]
    have := (trust_mem w.validK (news P e₁ [f₁]).length (((news P e₁ [f₁]).map Prod.fst).getLastD 0) (Ref.sight K (news P e₁ [f₁]))).2.2.2.2
    have hpos := w.validK.interval
    rw [hint] at hpos
    push_cast
    nlinarith [mul_le_mul_of_nonneg_left this.2 hpos.le]
  have hcatch : Ref.catchUp K P.rate (state P e₁ [f₁]).tip (Ref.sight K (news P e₁ [f₁])) ≤ 2147483647 := by
    have hpos : ∃ g, 0 ≤ g ∧ g ≤ 1 ∧ (Ref.sight K (news P e₁ [f₁])).pos = pt (g * x) 0 := by
      obtain ⟨g, g0, g1, hg⟩ := Ref.believe_two K.process K.noise 0 x w.validK.process.le w.validK.noise
      obtain ⟨g', -, -, hg'⟩ := Ref.believe_two K.process K.noise 0 0 w.validK.process.le w.validK.noise
      refine ⟨g, g0, g1, ?_⟩
      rw [hn]
      simp only [Ref.sight, Ref.estimate, List.map_cons, List.map_nil, pt, hg, hg']
      apply Complex.ext <;> simp
    obtain ⟨g, g0, g1, hg⟩ := hpos
    refine max_le (by norm_num) (Int.ceil_le.2 ?_)
    rw [hg, hq, hrate]
    have hnorm : ‖pt (g * x) 0 - pt (x / 11) 0‖ ≤ 2 := by
      have : pt (g * x) 0 - pt (x / 11) 0 = ((g * x - x / 11 : ℝ) : ℂ) := by apply Complex.ext <;> simp [pt]
      rw [this, Complex.norm_real, Real.norm_eq_abs, abs_le]
      constructor <;> nlinarith
    have hden : (0.01 : ℝ) ≤ max (max ‖(state P e₁ [f₁]).tip.vel‖ ‖(Ref.sight K (news P e₁ [f₁])).vel‖) K.catchup := by
      rw [hcu]; exact le_max_right _ _
    have : ‖pt (g * x) 0 - pt (x / 11) 0‖ / max (max ‖(state P e₁ [f₁]).tip.vel‖ ‖(Ref.sight K (news P e₁ [f₁])).vel‖) K.catchup ≤ 2 / 0.01 :=
      div_le_div₀ (by norm_num) hnorm (by norm_num) hden
    push_cast
    norm_num at this ⊢
    linarith
  obtain ⟨q, hq₁, hq₂⟩ := w.kalman
  have hcp := (constructPrediction_eq w.foresees w.validK w.valid.rate w.realizes.rate (by rw [hn]; simp) hq₂ (.inr hpace)
    (state P e₁ [f₁]).tip).1 (.inr ⟨hcatch, hb⟩)
  obtain ⟨m', st, v', hm', -⟩ := predict_returns tame hsafe [] (by
    intro pr hpr
    rw [hq₁, Option.some.injEq] at hpr
    subst hpr
    exact ⟨_, by rw [w.tip]; exact hcp⟩)
  exact ⟨rs, m, m', ⟨st, v'⟩, h, hr, hp, hi, hacc, hs, by simp [step, hm']⟩

end Ex
end
end Ink
