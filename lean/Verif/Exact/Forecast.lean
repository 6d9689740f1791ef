import Verif.Exact.Filter
import Verif.Exact.Wobble
/-!
# The Kalman predictor on exact numbers
-/
namespace Ink
open Scalar Arith XR
noncomputable section
open Classical

namespace Ref

theorem later_later (m : Motion) (s t : ℝ) : (m.later s).later t = m.later (s + t) := by
  simp only [Motion.later, Motion.mk.injEq, and_true]
  refine ⟨?_, ?_, ?_⟩ <;> module

theorem later_zero (m : Motion) : m.later 0 = m := by
  simp [Motion.later]

end Ref

namespace XR
open Ref

/-- The parameters `k` are the real numbers `K`. -/
structure Foresees (k : KalmanParams XR XR) (K : Foresight) : Prop where
  process : k.processNoise = fin K.process
  noise : k.measurementNoise = fin K.noise
  stable : k.minStableIteration = K.stable
  times : k.maxTimeSamples = (K.times : ℤ)
  catchup : k.minCatchupVelocity = fin K.catchup
  accWeight : k.accelerationWeight = fin K.accWeight
  jerkWeight : k.jerkWeight = fin K.jerkWeight
  interval : k.predictionInterval = fin K.interval
  samples : k.confidence.desiredNumberOfSamples = K.samples
  maxError : k.confidence.maxEstimationDistance = fin K.maxError
  minSpeed : k.confidence.minTravelSpeed = fin K.minSpeed
  maxSpeed : k.confidence.maxTravelSpeed = fin K.maxSpeed
  maxDeviation : k.confidence.maxLinearDeviation = fin K.maxDeviation
  baseline : k.confidence.baselineLinearityConfidence = K.baseline.elim nan fin

/-- Validation accepts NaN as the baseline confidence, but otherwise only real numbers in the documented ranges. -/
theorem foresees_of_valid {k : KalmanParams XR XR} (h : validateKalmanParams k = .ok) : ∃ K : Foresight, Foresees k K ∧ K.Valid := by
  unfold validateKalmanParams at h
  obtain ⟨h1, h⟩ := andThen_ok h
  obtain ⟨h2, h⟩ := andThen_ok h
  obtain ⟨h3, h⟩ := andThen_ok h
  obtain ⟨h4, h⟩ := andThen_ok h
  obtain ⟨h5, h⟩ := andThen_ok h
  obtain ⟨h6, h⟩ := andThen_ok h
  obtain ⟨h7, h⟩ := andThen_ok h
  obtain ⟨h8, h⟩ := andThen_ok h
  obtain ⟨h9, h⟩ := andThen_ok h
  obtain ⟨h10, h⟩ := andThen_ok h
  obtain ⟨h11, h⟩ := andThen_ok h
  obtain ⟨h12, h⟩ := andThen_ok h
  obtain ⟨q, hq, hq'⟩ := pos_of (validateGreaterThanZero_ok h1)
  obtain ⟨r, hr, hr'⟩ := pos_of (validateGreaterThanZero_ok h2)
  have h3 := validateGreaterThanZeroInt_ok h3
  have h4 := validateGreaterThanZeroInt_ok h4
  obtain ⟨c, hc, hc'⟩ := pos_of (validateGreaterThanZero_ok h5)
  obtain ⟨wa, hwa⟩ := isFinite_iff.1 (validateIsFiniteNumber_ok h6)
  obtain ⟨wj, hwj⟩ := isFinite_iff.1 (validateIsFiniteNumber_ok h7)
  obtain ⟨t, ht, ht'⟩ := pos_of (validateGreaterThanZero_ok h8)
  have h9 := validateGreaterThanZeroInt_ok h9
  obtain ⟨me, hme, hme'⟩ := pos_of (validateGreaterThanZero_ok h10)
  obtain ⟨lo, hlo, hlo'⟩ := nonneg_of (validateGreaterThanOrEqualToZero_ok h11)
  obtain ⟨hi, hhi⟩ := isFinite_iff.1 (validateIsFiniteNumber_ok h12)
  split at h
  · simp at h
  · rename_i hle
    obtain ⟨h13, h⟩ := andThen_ok h
    obtain ⟨md, hmd, hmd'⟩ := pos_of (validateGreaterThanZero_ok h13)
    split at h
    · simp at h
    · rename_i hbase
      obtain ⟨b, hb', hb''⟩ : ∃ b : Option ℝ, k.confidence.baselineLinearityConfidence = b.elim nan fin ∧
          ∀ x, b = some x → 0 ≤ x ∧ x ≤ 1 := by
        cases hx : k.confidence.baselineLinearityConfidence with
        | nan => exact ⟨none, rfl, by simp⟩
        | inf c =>
          rw [hx] at hbase
          cases c <;> simp [Scalar.lt, XR.lt] at hbase
        | fin b =>
          rw [hx] at hbase
          simp at hbase
          exact ⟨some b, rfl, by simpa using hbase⟩
      rw [hlo, hhi] at hle
      exact ⟨⟨q, r, k.minStableIteration, k.maxTimeSamples.toNat, c, wa, wj, t, k.confidence.desiredNumberOfSamples, me, lo, hi, md, b⟩,
        ⟨hq, hr, rfl, by simp; omega, hc, hwa, hwj, ht, rfl, hme, hlo, hhi, hmd, hb'⟩,
        ⟨hq', hr', h3, by simp; omega, hc', ht', h9, hme', hlo', by simpa using hle, hmd', hb''⟩⟩

/-- A motion in the code. -/
def motion (m : Motion) : KalmanState XR := ⟨V m.pos, V m.vel, V m.acc, V m.jerk⟩

theorem evaluateCubic_eq (m : Motion) (t : ℝ) : evaluateCubic (motion m) (fin t) = motion (m.later t) := by
  simp only [evaluateCubic, motion, narrow_eq, fin_mul, V_smul, lit2, lit6, V_sdiv two_ne_zero, V_sdiv (show (6 : ℝ) ≠ 0 by norm_num), V_add,
    Motion.later, KalmanState.mk.injEq, V_inj, and_true]
  refine ⟨?_, ?_⟩ <;> module

theorem cubicPrediction_eq (m : Motion) (rate t : ℝ) (k j : ℕ) :
    KalmanPredictor.cubicPrediction (fin (1 / rate)) k (motion (m.later (j / rate))) (fin (t + j / rate)) =
      (List.range k).map fun i : ℕ => tip ⟨(m.later ((j + i + 1 : ℝ) / rate)).pos, (m.later ((j + i + 1 : ℝ) / rate)).vel,
        (m.later ((j + i + 1 : ℝ) / rate)).acc, t + (j + i + 1 : ℝ) / rate⟩ := by
  induction k generalizing j with
  | zero => rfl
  | succ k ih =>
    have e : (j : ℝ) / rate + 1 / rate = (j + 1 : ℕ) / rate := by push_cast; ring
    have := ih (j + 1)
    rw [KalmanPredictor.cubicPrediction, evaluateCubic_eq, later_later, fin_add, add_assoc, e, this, List.range_succ_eq_map]
    simp only [List.map_cons, List.map_map, motion, tip]
    congr 1
    · simp
    · refine List.map_congr_left fun i _ => ?_
      simp only [Function.comp_apply]
      push_cast
      rw [show (j : ℝ) + 1 + i + 1 = j + (i + 1) + 1 by ring]

theorem extrapolate_eq (m : Motion) (rate t : ℝ) (k : ℕ) :
    KalmanPredictor.cubicPrediction (fin (1 / rate)) k (motion m) (fin t) = (extrapolate rate m t k).map tip := by
  have := cubicPrediction_eq m rate t k 0
  simp only [Nat.cast_zero, zero_div, add_zero, later_zero, zero_add] at this
  rw [this, extrapolate, List.map_map]
  rfl

theorem toInt_cast {n k : ℤ} (h : toInt (fin (n : ℝ)) = .ok k) : k = n := by
  have ht : trunc? (fin (n : ℝ)) = some n := by
    simp [trunc?]
  simp only [toInt, ht] at h
  split at h
  · exact (Outcome.ok.inj h).symm
  · simp at h

theorem fmax_fin (a b : ℝ) : fmax (fin a) (fin b) = fin (max a b) := by
  simp only [fmax, fin_isNaN, Bool.false_eq_true, ↓reduceIte, fin_lt, decide_eq_true_eq]
  split
  · rw [max_eq_right (by linarith)]
  · rw [max_eq_left (by linarith)]

theorem connectorPoints_eq {k : KalmanParams XR XR} {K : Foresight} (hk : Foresees k K) (hv : K.Valid) {rate : ℝ} (hr : 0 < rate)
    (q : Tip) (m : Motion) :
    KalmanPredictor.connectorPoints (tip q) (motion m) k (fin (1 / rate)) = toInt (fin (catchUp K rate q m : ℝ)) := by
  have hpos : max (max ‖q.vel‖ ‖m.vel‖) K.catchup ≠ 0 := (lt_max_of_lt_right hv.catchup).ne'
  have hr' : (1 / rate) ≠ 0 := (one_div_pos.2 hr).ne'
  simp only [KalmanPredictor.connectorPoints, tip, motion, V_distance, maxFinite_eq, stdMin_inf, V_magnitude, stdMax_fin, hk.catchup,
    fin_div _ hpos, widen_eq, fin_div _ hr', narrow_eq, fin_ceil, lit1, fmax_fin]
  rw [show ‖m.pos - q.pos‖ / max (max ‖q.vel‖ ‖m.vel‖) K.catchup / (1 / rate) =
    ‖m.pos - q.pos‖ / max (max ‖q.vel‖ ‖m.vel‖) K.catchup * rate by field_simp]
  have : ((max (⌈‖m.pos - q.pos‖ / max (max ‖q.vel‖ ‖m.vel‖) K.catchup * rate⌉) 1 : ℤ) : ℝ) =
      max ((⌈‖m.pos - q.pos‖ / max (max ‖q.vel‖ ‖m.vel‖) K.catchup * rate⌉ : ℤ) : ℝ) 1 := by push_cast; rfl
  rw [← this, catchUp, max_comm]

theorem neg3 : (-3 : XR) = fin (-3) := by simp

theorem connectorPoint_eq (q : Tip) (m : Motion) {rate : ℝ} (hr : 0 < rate) {n : ℤ} (hn : 0 < n) (i : ℤ) :
    KalmanPredictor.connectorPoint (KalmanPredictor.connectorCubic (tip q) (motion m) (fin (n * (1 / rate)))) (fin q.time)
      (fin (n * (1 / rate))) (fin (n * (1 / rate))) n i =
    tip ⟨(bridge q.pos q.vel m.pos m.vel (n / rate) (i / rate)).1, (bridge q.pos q.vel m.pos m.vel (n / rate) (i / rate)).2.1,
      (bridge q.pos q.vel m.pos m.vel (n / rate) (i / rate)).2.2, q.time + i / rate⟩ := by
  have hn' : (n : ℝ) ≠ 0 := by exact_mod_cast hn.ne'
  have hT : (n : ℝ) * (1 / rate) ≠ 0 := mul_ne_zero hn' (one_div_pos.2 hr).ne'
  have hT2 : (n : ℝ) * (1 / rate) * (n * (1 / rate)) ≠ 0 := mul_ne_zero hT hT
  have e1 : (n : ℝ) / rate = n * (1 / rate) := by ring
  have e2 : (i : ℝ) / rate / (n * (1 / rate)) = i / n := by field_simp
  have e3 : (n : ℝ) * (1 / rate) * (i / n) = i / rate := by field_simp
  simp only [KalmanPredictor.connectorPoint, KalmanPredictor.connectorCubic, tip, motion, lit2, lit3, lit6, fin_neg, V_smul, V_sub, V_add, ofInt_eq,
    fin_div _ hn', fin_mul, V_sdiv hT, V_sdiv hT2, widen_eq, fin_add, e3, bridge, e1, e2, TipState.mk.injEq, V_inj, and_true]
  generalize (n : ℝ) * (1 / rate) = T at *
  generalize (i : ℝ) / n = u at *
  refine ⟨?_, ?_, ?_⟩
  · module
  · congr 1; module
  · rw [← pow_two]; congr 1; module

theorem connectorGo_eq (q : Tip) (m : Motion) {rate : ℝ} (hr : 0 < rate) {n : ℤ} (hn : 0 < n) (k j : ℕ) :
    KalmanPredictor.connectorGo (KalmanPredictor.connectorCubic (tip q) (motion m) (fin (n * (1 / rate)))) (fin q.time)
      (fin (n * (1 / rate))) (fin (n * (1 / rate))) n k (j + 1) =
    (List.range k).map fun i : ℕ =>
      tip ⟨(bridge q.pos q.vel m.pos m.vel (n / rate) ((j + i + 1 : ℝ) / rate)).1,
        (bridge q.pos q.vel m.pos m.vel (n / rate) ((j + i + 1 : ℝ) / rate)).2.1,
        (bridge q.pos q.vel m.pos m.vel (n / rate) ((j + i + 1 : ℝ) / rate)).2.2, q.time + (j + i + 1 : ℝ) / rate⟩ := by
  induction k generalizing j with
  | zero => rfl
  | succ k ih =>
    have := ih (j + 1)
    rw [KalmanPredictor.connectorGo, connectorPoint_eq q m hr hn, List.range_succ_eq_map]
    push_cast at this ⊢
    rw [this]
    simp only [List.map_cons, List.map_map]
    congr 1
    · simp
    · refine List.map_congr_left fun i _ => ?_
      simp only [Function.comp_apply]
      push_cast
      rw [show (j : ℝ) + 1 + i + 1 = j + (i + 1) + 1 by ring]

theorem catchUp_pos (K : Foresight) (rate : ℝ) (q : Tip) (m : Motion) : 0 < catchUp K rate q m :=
  lt_of_lt_of_le one_pos (le_max_left _ _)

theorem cubicConnector_eq {k : KalmanParams XR XR} {K : Foresight} (hk : Foresees k K) (hv : K.Valid) {rate : ℝ} (hr : 0 < rate)
    (q : Tip) (m : Motion) : KalmanPredictor.cubicConnector (tip q) (motion m) k (fin (1 / rate)) =
      (toInt (fin (catchUp K rate q m : ℝ)) : Outcome ℤ).bind fun _ => .ok ((connect K rate q m).map tip) := by
  unfold KalmanPredictor.cubicConnector
  rw [connectorPoints_eq hk hv hr]
  change Outcome.bind _ _ = _
  cases hn : (toInt (fin (catchUp K rate q m : ℝ)) : Outcome ℤ) with
  | ub w => rfl
  | diverge => rfl
  | ok n =>
    obtain rfl := toInt_cast hn
    simp only [Outcome.bind, Outcome.pure_eq]
    congr 1
    have hpos := catchUp_pos K rate q m
    have := connectorGo_eq q m hr hpos (catchUp K rate q m).toNat 0
    simp only [Nat.cast_zero, zero_add] at this
    rw [ofInt_eq, fin_mul, narrow_eq]
    rw [show (tip q).time = fin q.time from rfl]
    refine Eq.trans ?_ (this.trans ?_)
    · rfl
    · rw [connect, List.map_map]
      have hc : ((catchUp K rate q m).toNat : ℝ) = (catchUp K rate q m : ℝ) := by
        exact_mod_cast Int.toNat_of_nonneg hpos.le
      refine List.map_congr_left fun i _ => ?_
      simp only [Function.comp_apply, hc]

theorem connect_last (K : Foresight) (rate : ℝ) (q : Tip) (m : Motion) :
    ∃ e, (connect K rate q m).getLast? = some e ∧ e.time = q.time + (catchUp K rate q m).toNat / rate := by
  have hpos := catchUp_pos K rate q m
  obtain ⟨n, hn⟩ : ∃ n, (catchUp K rate q m).toNat = n + 1 := ⟨(catchUp K rate q m).toNat - 1, by omega⟩
  simp only [connect, hn, List.range_succ, List.map_append, List.map_cons, List.map_nil, List.getLast?_append, List.getLast?_singleton,
    Option.some_or, Option.some.injEq, exists_eq_left']
  push_cast
  rfl

theorem trust_mem {K : Foresight} (hv : K.Valid) (n : ℕ) (x : ℂ) (m : Motion) :
    (0 ≤ trustSamples K n ∧ trustSamples K n ≤ 1) ∧ (0 ≤ trustError K x m ∧ trustError K x m ≤ 1) ∧
    (0 ≤ trustSpeed K m ∧ trustSpeed K m ≤ 1) ∧ (0 ≤ trustLine K m ∧ trustLine K m ≤ 1) ∧
    0 ≤ trust K n x m ∧ trust K n x m ≤ 1 := by
  have h1 : 0 ≤ trustSamples K n ∧ trustSamples K n ≤ 1 :=
    ⟨le_min zero_le_one (div_nonneg (Nat.cast_nonneg n) (by exact_mod_cast hv.samples.le)), min_le_left _ _⟩
  have h2 : 0 ≤ trustError K x m ∧ trustError K x m ≤ 1 := by
    have := speedRatio_mem 0 K.maxError ‖m.pos - x‖
    unfold trustError
    constructor <;> linarith [this.1, this.2]
  have h3 : 0 ≤ trustSpeed K m ∧ trustSpeed K m ≤ 1 := speedRatio_mem _ _ _
  have h4 : 0 ≤ trustLine K m ∧ trustLine K m ≤ 1 := by
    have := speedRatio_mem 0 K.maxDeviation ‖m.pos + K.interval • m.vel - (m.later K.interval).pos‖
    unfold trustLine lerp
    cases hb : K.baseline with
    | none => simp
    | some b =>
      have hb := hv.baseline b hb
      simp only [smul_eq_mul]
      constructor <;> nlinarith [this.1, this.2]
  refine ⟨h1, h2, h3, h4, ?_, ?_⟩
  · exact mul_nonneg (mul_nonneg (mul_nonneg h1.1 h2.1) h3.1) h4.1
  · have a1 := mul_le_one₀ h1.2 h2.1 h2.2
    have a2 := mul_le_one₀ a1 h3.1 h3.2
    exact mul_le_one₀ a2 h4.1 h4.2

theorem interp_nan (b t : XR) : interp nan b t = nan := by
  have h (x : XR) : nan + x = nan := rfl
  simp only [interp, h]

theorem mul_nan (x : XR) : x * nan = nan := by
  cases x <;> rfl

theorem ceil_nan : ceil (nan : XR) = nan := rfl

theorem fmax_nan (x : XR) : fmax x nan = x := by
  cases x <;> simp [fmax, isNaN]

/-- The number of points beyond the estimate. -/
theorem numberOfPoints_eq {k : KalmanParams XR XR} {K : Foresight} (hk : Foresees k K) (hv : K.Valid) {rate : ℝ} (hr : 0 < rate)
    {p : KalmanPredictor XR XR} (hp : p.params = k) (hs : p.sampling.minOutputRate = fin rate) {x : ℂ}
    (hx : p.lastPositionReceived = some (V x)) {n : ℕ} (hn : p.xPredictor.iterNum = n) (m : Motion) :
    p.numberOfPointsToPredict (motion m) = toInt (fin (horizon K rate n x m : ℝ)) := by
  have hsam : (K.samples : ℝ) ≠ 0 := by exact_mod_cast hv.samples.ne'
  have hint := hv.interval.ne'
  have hline := speedRatio_mem 0 K.maxDeviation ‖m.pos + K.interval • m.vel - (m.later K.interval).pos‖
  unfold KalmanPredictor.numberOfPointsToPredict
  rw [hx]
  simp only [KalmanPredictor.confidence, hp, hs, hk.interval, hk.samples, hk.maxError, hk.minSpeed, hk.maxSpeed, hk.maxDeviation,
    hk.baseline, evaluateCubic_eq]
  cases hb : K.baseline with
  | none =>
    simp only [hb, Option.elim_none, interp_nan, mul_nan, ceil_nan, fmax_nan, lit0]
    have h0 : horizon K rate n x m = 0 := by simp [horizon, trust, trustLine, hb]
    simp [h0]
  | some b =>
  simp only [hb, Option.elim_some, motion, hn, ofInt_eq, lit1, lit0, fin_div _ hsam, stdMin_fin, V_distance, normalize01_eq, fin_sub,
    V_smul, V_add, narrow_eq, fin_div _ hint, interp_fin, fin_mul, fin_ceil, fmax_fin]
  have e : (b + (1 - b) *
      clamp (1 - speedRatio 0 K.maxDeviation ‖m.pos + K.interval • m.vel - (m.later K.interval).pos‖)) = trustLine K m := by
    simp only [clamp_of_mem (sub_nonneg.2 hline.2) (by linarith [hline.1]), trustLine, hb, lerp, smul_eq_mul, mul_comm]
  rw [e]
  have e2 : K.interval * rate * (min 1 (((n : ℤ) : ℝ) / (K.samples : ℝ)) * (1 - speedRatio 0 K.maxError ‖m.pos - x‖) *
      speedRatio K.minSpeed K.maxSpeed (‖(m.later K.interval).pos - m.pos‖ / K.interval) * trustLine K m) =
      K.interval * rate * trust K n x m := by
    simp only [trust, trustSamples, trustError, trustSpeed, Int.cast_natCast]
  rw [e2]
  have h0 : 0 ≤ ⌈K.interval * rate * trust K n x m⌉ :=
    Int.ceil_nonneg (mul_nonneg (mul_nonneg hv.interval.le hr.le) (trust_mem hv n x m).2.2.2.2.1)
  rw [max_eq_right (by exact_mod_cast h0)]
  rfl

/-- What the predictor has been given, as real numbers. -/
def given (ins : List (ℂ × ℝ)) : List (Vec2 XR × XR) := ins.map fun i => (V i.1, fin i.2)

theorem estimate_eq {k : KalmanParams XR XR} {K : Foresight} (hk : Foresees k K) {p : KalmanPredictor XR XR} (hp : p.params = k)
    {x y : Belief} (hx : p.xPredictor.stateEstimation = L x.mean) (hy : p.yPredictor.stateEstimation = L y.mean) {dt : ℝ}
    (hd : dt ≠ 0) : p.estimate (fin dt) = motion (estimate K x y dt) := by
  have h2 : dt * dt ≠ 0 := mul_ne_zero hd hd
  have h3 : dt * dt * dt ≠ 0 := mul_ne_zero h2 hd
  have e : ∀ i : Fin 4, (⟨fin (x.mean i), fin (y.mean i)⟩ : Vec2 XR) = V ⟨x.mean i, y.mean i⟩ := fun i => rfl
  simp only [KalmanPredictor.estimate, hp, hx, hy, L, narrow_eq, fin_mul, hk.accWeight, hk.jerkWeight, e, V_sdiv hd, V_sdiv h2,
    V_sdiv h3, V_smul, motion, estimate]
  rw [show dt ^ 2 = dt * dt by ring, show dt ^ 3 = dt * dt * dt by ring]

theorem beyond_nonneg {K : Foresight} (hv : K.Valid) {rate : ℝ} (hr : 0 < rate) (ins : List (ℂ × ℝ)) : 0 ≤ beyond K rate ins :=
  Int.ceil_nonneg (mul_nonneg (mul_nonneg hv.interval.le hr.le) (trust_mem hv _ _ _).2.2.2.2.1)

theorem toInt_big {n : ℤ} (h : 2147483647 < n) : ∃ w, toInt (fin (n : ℝ)) = .ub w := by
  have ht : trunc? (fin (n : ℝ)) = some n := by
    simp [trunc?]
  simp only [toInt, ht]
  rw [if_neg (by unfold intMax; omega)]
  exact ⟨_, rfl⟩

/-- The prediction is the forecast, unless a number of points does not fit an `int`. -/
theorem constructPrediction_eq {k : KalmanParams XR XR} {K : Foresight} (hk : Foresees k K) (hv : K.Valid) {s : SamplingParams XR XR}
    {rate : ℝ} (hr : 0 < rate) (hs : s.minOutputRate = fin rate) {ins : List (ℂ × ℝ)} (hne : ins ≠ []) {p : KalmanPredictor XR XR}
    (hp : KalmanOf k s (given ins) p) (hpace : (ins.length : ℤ) < K.stable ∨ pace (latest K ins) ≠ 0) (q : Tip) :
    ((ins.length : ℤ) < K.stable ∨ (catchUp K rate q (sight K ins) ≤ 2147483647 ∧ beyond K rate ins ≤ 2147483647) →
      p.constructPrediction (tip q) = .ok ((forecast K rate q ins).map tip)) ∧
    (¬ ((ins.length : ℤ) < K.stable ∨ (catchUp K rate q (sight K ins) ≤ 2147483647 ∧ beyond K rate ins ≤ 2147483647)) →
      ∃ w, p.constructPrediction (tip q) = .ub w) := by
  have hcs : given ins ≠ [] := by simpa [given] using hne
  have hmax : 0 < k.maxTimeSamples := by rw [hk.times]; exact_mod_cast hv.times
  have hest := hp.estimated hmax hcs
  have hlen : (given ins).length = ins.length := by simp [given]
  rw [hlen, hk.stable] at hest
  by_cases hlt : (ins.length : ℤ) < K.stable
  · simp only [hlt, true_or, not_true, forall_true_left, false_imp_iff, and_true, forecast, if_true, List.map_nil]
    simp only [KalmanPredictor.constructPrediction, hest.1 hlt]
  · have hpace := hpace.resolve_left hlt
    simp only [hlt, false_or]
    obtain ⟨est, xl, he, hx⟩ := hest.2 (by omega)
    have hlast : p.lastPositionReceived = some (V ((ins.map Prod.fst).getLastD 0)) := by
      rw [hp.last]
      simp only [given, List.getLast?_map, Option.map_map]
      obtain ⟨a, ha⟩ := Option.ne_none_iff_exists'.1 (List.getLast?_eq_none_iff.not.2 hne)
      rw [ha, List.getLastD_eq_getLast?, List.getLast?_map, ha]
      rfl
    have hX : (given ins).map (fun c => (widen c.1.x : XR)) = (ins.map fun i => i.1.re).map fin := by
      simp [given, V]
    have hY : (given ins).map (fun c => (widen c.1.y : XR)) = (ins.map fun i => i.1.im).map fin := by
      simp [given, V]
    have bx := hp.x
    have bY := hp.y
    rw [hX, axisFilter, hk.process, hk.noise] at bx
    rw [hY, axisFilter, hk.process, hk.noise] at bY
    obtain ⟨bx, hnx⟩ := measure_believes hv.process.le hv.noise bx
    obtain ⟨bY, _⟩ := measure_believes hv.process.le hv.noise bY
    have htimes : p.sampleTimes = (latest K ins).map fin := by
      rw [hp.times, hk.times]
      simp only [latest, given, lastN, List.map_drop, List.map_map, List.length_map, Int.toNat_natCast]
      rfl
    have hstable : p.isStable = true := by
      rw [hp.isStable, hk.stable, hlen]; simpa using hlt
    have htne : latest K ins ≠ [] := by
      intro hc
      apply hpace
      rw [hc]; simp [pace]
    have heq : p.getEstimatedState = some (p.estimate (fin (pace (latest K ins)))) := by
      unfold KalmanPredictor.getEstimatedState
      obtain ⟨a, ha⟩ := Option.isSome_iff_exists.1 (List.isSome_head?.2 htne)
      obtain ⟨b, hb⟩ := Option.ne_none_iff_exists'.1 (List.getLast?_eq_none_iff.not.2 htne)
      have hl : (((latest K ins).length : ℤ) : ℝ) ≠ 0 := by
        have := List.length_pos_iff.2 htne
        exact_mod_cast this.ne'
      simp only [hstable, Bool.not_true, Bool.false_eq_true, ↓reduceIte, htimes, List.head?_map, ha, List.getLast?_map, hb,
        Option.map_some, List.length_map, KalmanPredictor.averageDt, fin_sub, narrow_eq, ofInt_eq, fin_div _ hl]
      rw [pace, List.getLastD_eq_getLast?, hb, List.headD_eq_head?_getD, ha]
      simp
    rw [estimate_eq hk hp.params bx.mean bY.mean hpace, ← sight] at heq
    have hsd : (1 / p.sampling.minOutputRate : XR) = fin (1 / rate) := by
      rw [hp.sampling, hs, lit1, fin_div _ hr.ne']
    have hnum := numberOfPoints_eq hk hv hr hp.params (by rw [hp.sampling]; exact hs) hlast (n := ins.length) (by rw [hnx]; simp)
      (sight K ins)
    rw [← beyond] at hnum
    simp only [KalmanPredictor.constructPrediction, heq, hlast, hsd, hp.params, cubicConnector_eq hk hv hr, hnum]
    have hc0 := catchUp_pos K rate q (sight K ins)
    have hb0 := beyond_nonneg hv hr ins
    constructor
    · rintro ⟨h1, h2⟩
      rw [toInt_int hc0.le h1, toInt_int hb0 h2]
      obtain ⟨e, he, ht⟩ := connect_last K rate q (sight K ins)
      simp only [Outcome.bind, Outcome.ok_bind, Outcome.pure_eq, List.getLast?_map, he, Option.map_some, tip, ht, extrapolate_eq,
        forecast, if_neg hlt, List.map_append]
    · intro hn
      by_cases h1 : catchUp K rate q (sight K ins) ≤ 2147483647
      · obtain ⟨w, hw⟩ := toInt_big (lt_of_not_ge fun h2 => hn ⟨h1, h2⟩)
        rw [toInt_int hc0.le h1, hw]
        exact ⟨w, rfl⟩
      · obtain ⟨w, hw⟩ := toInt_big (lt_of_not_ge h1)
        rw [hw]
        exact ⟨w, rfl⟩

end XR
end
end Ink
