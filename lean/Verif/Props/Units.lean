import Verif.Exact.Agnostic
import Verif.Examples.Kalman
import Verif.Props.Forecast
/-!
# Unit-agnosticism: C40, C41, C42

Sessions described in different units, on exact numbers. None of the theorems on origins and on the unit of distance has a
hypothesis: they hold for all sequences of calls with any arguments, including invalid ones.
-/
namespace Ink
open Scalar Arith XR
noncomputable section
open Classical

namespace XR.Units

theorem q_same {U : Units} (hc : U.c = 1) (hτ : U.τ = 1) (i j : ℤ) (x : XR) : U.q i j x = x := by
  simp only [q, hc, hτ, one_zpow, mul_one, scale_one]

theorem qv_same {U : Units} (hc : U.c = 1) (hτ : U.τ = 1) (i j : ℤ) (x : Vec2 XR) : U.qv i j x = x := by
  simp only [qv, q_same hc hτ]

theorem params_same {U : Units} (hc : U.c = 1) (hτ : U.τ = 1) (p : StrokeModelParams XR XR) : U.params p = p := by
  have hp : U.prediction p.prediction = p.prediction := by
    cases p.prediction with
    | kalman k => simp only [prediction, kalman, confidence, q_same hc hτ]
    | strokeEnd => rfl
    | disabled => rfl
  simp only [params, hp, wobble, position, sampling, stylus, loop, q_same hc hτ]

theorem fits_same {U : Units} (hτ : U.τ = 1) (ops : List (Op XR XR)) : Fits U ops := by
  intro p _ _
  simp only [q, hτ, one_zpow, zpow_zero, mul_one]
  rw [scale_one]

theorem add_zero' (x : XR) : x + fin 0 = x := by cases x <;> first | rfl | simp

theorem fin_mul_cancel {a : ℝ} (ha : 0 < a) {x y : XR} (h : fin a * x = fin a * y) : x = y := by
  have e : ∀ z : XR, fin a⁻¹ * (fin a * z) = z := by
    intro z
    cases z with
    | nan => rfl
    | fin r => simp [ha.ne']
    | inf b => rw [scale_inf ha, scale_inf (inv_pos.2 ha)]
  rw [← e x, ← e y, h]

theorem off_cancel {b : ℝ} {x y : XR} (h : x + fin b = y + fin b) : x = y := by
  have e : ∀ z : XR, (z + fin b) + fin (-b) = z := by
    intro z; cases z <;> first | rfl | simp
  rw [← e x, ← e y, h]

theorem q_inj (U : Units) {i j : ℤ} {x y : XR} (h : U.q i j x = U.q i j y) : x = y := fin_mul_cancel (U.factor_pos i j) h

/-- Nothing is lost by a conversion. -/
theorem result_inj (U : Units) : Function.Injective U.result := by
  intro a b h
  have h1 := congrArg Result.position h
  have h2 := congrArg Result.velocity h
  have h3 := congrArg Result.acceleration h
  have h4 := congrArg Result.time h
  have h5 := congrArg Result.pressure h
  have h6 := congrArg Result.tilt h
  have h7 := congrArg Result.orientation h
  obtain ⟨⟨ax, ay⟩, ⟨avx, avy⟩, ⟨aax, aay⟩, at', ap, al, ao⟩ := a
  obtain ⟨⟨bx, bY⟩, ⟨bvx, bvy⟩, ⟨bax, bay⟩, bt, bp, bl, bo⟩ := b
  have g1 := U.q_inj (off_cancel (congrArg Vec2.x h1))
  have g2 := U.q_inj (off_cancel (congrArg Vec2.y h1))
  have g3 := U.q_inj (congrArg Vec2.x h2)
  have g4 := U.q_inj (congrArg Vec2.y h2)
  have g5 := U.q_inj (congrArg Vec2.x h3)
  have g6 := U.q_inj (congrArg Vec2.y h3)
  have g7 := U.q_inj (off_cancel h4)
  simp only at g1 g2 g3 g4 g5 g6 g7
  simp only [result] at h5 h6 h7
  simp only [g1, g2, g3, g4, g5, g6, g7, h5, h6, h7]

end XR.Units

/-- **C40**: a client who translates all positions sees all results and predictions translated and nothing else changed, whatever
the calls are. -/
theorem C40_translation (z : ℂ) (ops : List (Op XR XR)) :
    observe .default (ops.map (translate z)) =
      (observe .default ops).map (fun o => (fun r => ⟨r.status, r.results.map (translateResult z)⟩) <$> o) := by
  have h1 : (XR.Units.ofOrigin z).c = 1 := rfl
  have h2 : (XR.Units.ofOrigin z).τ = 1 := rfl
  have h := XR.Units.agnostic (XR.Units.ofOrigin z) ops (XR.Units.fits_same rfl ops)
  have hclk : ∀ t, (XR.Units.ofOrigin z).time t = t := by
    intro t; simp only [XR.Units.time, XR.Units.q_same h1 h2]; exact XR.Units.add_zero' t
  have hr : (XR.Units.ofOrigin z).result = translateResult z := by
    funext r
    simp only [XR.Units.result, translateResult, XR.Units.pos, hclk, XR.Units.qv_same h1 h2]
    rfl
  have ho : (XR.Units.ofOrigin z).op = translate z := by
    funext op
    cases op <;> simp only [XR.Units.op, translate, hr, XR.Units.params_same h1 h2]
    simp only [XR.Units.input, XR.Units.pos, hclk, XR.Units.qv_same h1 h2]
    rfl
  have hs : (XR.Units.ofOrigin z).response = fun r => ⟨r.status, r.results.map (translateResult z)⟩ := by
    funext r; simp only [XR.Units.response, hr]
  rw [ho, hs] at h
  exact h

/-- **C41**: a client who uses another unit of distance — `c` new units per old one — for the inputs and for all distances and
speeds among the parameters sees the positions, velocities and accelerations in the new unit and nothing else changed, whatever
the calls are. The noise parameters of the Kalman predictor are kept. -/
theorem C41_unit_of_distance (c : ℝ) (hc : 0 < c) (ops : List (Op XR XR)) :
    observe .default (ops.map (XR.Units.ofDistance c hc).op) =
      (observe .default ops).map (fun o => (XR.Units.ofDistance c hc).response <$> o) :=
  XR.Units.agnostic _ ops (XR.Units.fits_same rfl ops)

/-- What the conversion of C41 does to inputs and results. -/
theorem C41_conversion (c : ℝ) (hc : 0 < c) (i : Input XR XR) (r : Result XR XR) :
    (XR.Units.ofDistance c hc).input i = { i with position := ⟨fin c * i.position.x, fin c * i.position.y⟩ } ∧
    (XR.Units.ofDistance c hc).result r =
      { r with
        position := ⟨fin c * r.position.x, fin c * r.position.y⟩, velocity := ⟨fin c * r.velocity.x, fin c * r.velocity.y⟩
        acceleration := ⟨fin c * r.acceleration.x, fin c * r.acceleration.y⟩ } := by
  have hp : ∀ p : Vec2 XR, (XR.Units.ofDistance c hc).pos p = ⟨fin c * p.x, fin c * p.y⟩ := by
    intro p
    have : (V 0 : Vec2 XR) = ⟨fin 0, fin 0⟩ := rfl
    simp only [XR.Units.pos, XR.Units.qv, XR.Units.q, XR.Units.ofDistance, zpow_one, zpow_zero, mul_one, this]
    exact congrArg₂ Vec2.mk (XR.Units.add_zero' _) (XR.Units.add_zero' _)
  have ht : ∀ t : XR, (XR.Units.ofDistance c hc).time t = t := by
    intro t; simp [XR.Units.time, XR.Units.q, XR.Units.ofDistance, scale_one, XR.Units.add_zero']
  constructor
  · simp only [XR.Units.input, hp, ht]
  · simp only [XR.Units.result, hp, ht]
    simp [XR.Units.qv, XR.Units.q, XR.Units.ofDistance]

/-- **C42**, origin: a client whose clock has another origin sees the times of the results on this clock and nothing else changed,
whatever the calls are. -/
theorem C42_origin_of_time (s : ℝ) (ops : List (Op XR XR)) :
    observe .default (ops.map (delay s)) =
      (observe .default ops).map (fun o => (fun r => ⟨r.status, r.results.map (delayResult s)⟩) <$> o) := by
  have h1 : (XR.Units.ofClock s).c = 1 := rfl
  have h2 : (XR.Units.ofClock s).τ = 1 := rfl
  have h := XR.Units.agnostic (XR.Units.ofClock s) ops (XR.Units.fits_same rfl ops)
  have hpos : ∀ p, (XR.Units.ofClock s).pos p = p := by
    intro p
    have : (V 0 : Vec2 XR) = ⟨fin 0, fin 0⟩ := rfl
    simp only [XR.Units.pos, XR.Units.qv_same h1 h2]
    show p + V 0 = p
    rw [this]
    exact congrArg₂ Vec2.mk (XR.Units.add_zero' _) (XR.Units.add_zero' _)
  have hr : (XR.Units.ofClock s).result = delayResult s := by
    funext r
    simp only [XR.Units.result, delayResult, hpos, XR.Units.time, XR.Units.qv_same h1 h2, XR.Units.q_same h1 h2]
    rfl
  have ho : (XR.Units.ofClock s).op = delay s := by
    funext op
    cases op <;> simp only [XR.Units.op, delay, hr, XR.Units.params_same h1 h2]
    simp only [XR.Units.input, hpos, XR.Units.time, XR.Units.q_same h1 h2]
    rfl
  have hs : (XR.Units.ofClock s).response = fun r => ⟨r.status, r.results.map (delayResult s)⟩ := by
    funext r; simp only [XR.Units.response, hr]
  rw [ho, hs] at h
  exact h

/-- **C42**, unit: a client who uses another unit of time — `τ` new units per old one — for the inputs and for all durations,
speeds and frequencies among the parameters sees the times, velocities and accelerations in the new units and nothing else
changed, provided that the speed sampling window does not cross the limit of 10000 units of time (`XR.Units.Fits`), which the library
does not convert. -/
theorem C42_unit_of_time (τ : ℝ) (hτ : 0 < τ) (ops : List (Op XR XR)) (h : XR.Units.Fits (XR.Units.ofTime τ hτ) ops) :
    observe .default (ops.map (XR.Units.ofTime τ hτ).op) =
      (observe .default ops).map (fun o => (XR.Units.ofTime τ hτ).response <$> o) :=
  XR.Units.agnostic _ ops h

/-- **C42**: without this provision it is false. A window of a 25th of a second is too long in microseconds. -/
theorem C42_refuted : ∃ (τ : ℝ) (hτ : 0 < τ) (p : StrokeModelParams XR XR),
    observe .default [.resetParams p] = [.ok ⟨.ok, []⟩] ∧
    observe .default ([.resetParams p].map (XR.Units.ofTime τ hτ).op) ≠
      (observe .default [.resetParams p]).map (fun o => (XR.Units.ofTime τ hτ).response <$> o) := by
  have h1 : observe .default [.resetParams Ex.xloop] = [.ok ⟨.ok, []⟩] := by
    simp [observe, step, StrokeModeler.resetParams, Ex.xloop_valid]
  refine ⟨1000000, by norm_num, Ex.xloop, h1, ?_⟩
  rw [h1]
  have hv : validateStrokeModelParams ((XR.Units.ofTime 1000000 (by norm_num)).params Ex.xloop) ≠ .ok := by
    intro h
    have h := (validParts h).2.2.1
    simp only [validatePositionModelerParams, XR.Units.params, XR.Units.position, XR.Units.loop, XR.Units.q, XR.Units.ofTime, Ex.xloop, Ex.xparams,
      validateLoopParams, kMaxSamplingWindow, kMaxDiscreteSamples, Ex.lit10000, fin_mul, fin_lt, lit0, lit1, fin_le] at h
    norm_num [Status.andThen] at h
    cases h
  intro h
  simp only [List.map_cons, List.map_nil, XR.Units.op, observe, step, StrokeModeler.resetParams] at h
  revert h hv
  cases validateStrokeModelParams ((XR.Units.ofTime 1000000 (by norm_num)).params Ex.xloop) with
  | ok => intro hv; exact absurd rfl hv
  | err c msg =>
    intro _ h
    have h := congrArg (fun l => l.map (fun o => (fun r : Response XR XR => r.status) <$> o)) h
    simp [XR.Units.response] at h

namespace Ref

/-- What the filter believes after observing 0 and 1. -/
theorem believe_step (q r : ℝ) : (believe q r [0, 1]).mean 0 = (41 / 18 + q / 36) / (41 / 18 + q / 36 + r) := by
  have hb : believe q r [0, 1] = ((believe q r [0]).predict q).correct r 1 := rfl
  have hm : ((believe q r [0]).predict q).mean 0 = 0 := by
    show (transition.mulVec (Belief.first 0).mean) 0 = 0
    simp [transition_eq, Matrix.mulVec, dotProduct, Belief.first]
  have hc : ((believe q r [0]).predict q).cov 0 0 = 41 / 18 + q / 36 := by
    show (transition * (1 : Matrix (Fin 4) (Fin 4) ℝ) * transition.transpose + q • Matrix.vecMulVec jolt jolt) 0 0 = _
    rw [Matrix.mul_one, Matrix.add_apply, Matrix.mul_apply, Fin.sum_univ_four]
    simp [Matrix.transpose_apply, transition_eq, jolt_eq]
    ring
  rw [hb]
  show ((believe q r [0]).predict q).mean 0 + (1 - watch ⬝ᵥ _) * ((Belief.innovation r _)⁻¹ * _) = _
  rw [watch_dot, hm, watch_mulVec, Belief.innovation_eq, hc]
  simp only [zero_add, sub_zero, one_mul]
  show _ * ((believe q r [0]).predict q).cov 0 0 = _
  rw [hc]
  exact (div_eq_inv_mul _ _).symm

end Ref

namespace Ex

/-- Kalman parameters with the given noises; predictions end at the estimate unless it is next to the last input. -/
def xnoise (q r : ℝ) : KalmanParams XR XR :=
  { xkalman with
    processNoise := fin q, measurementNoise := fin r, confidence := ⟨20, fin 0.001, fin 3, fin 15, fin 0.2, fin 0.4⟩ }

theorem xnoise_valid {q r : ℝ} (hq : 0 < q) (hr : 0 < r) : validateKalmanParams (xnoise q r) = .ok := by
  simp only [xnoise, xkalman]
  simp only [validateKalmanParams, validateGreaterThanZero,
    validateGreaterThanOrEqualToZero, validateGreaterThanZeroInt, validateIsFiniteNumber, lit0, lit1, fin_lt, fin_le]
  norm_num [ok_andThen, hq.not_ge, hr.not_ge]

/-- The session: Reset, Down at 0, Move to 1, Predict. -/
def xnoisy (q r : ℝ) : List (Op XR XR) := calls (xpredict (xnoise q r)) (xtwo 1) ++ [.predict []]

/-- The last position predicted. -/
theorem xnoisy_last {q r : ℝ} (hq : 0 < q) (hr : 0 < r) {g : ℝ} (hdef : g = (41 / 18 + q / 36) / (41 / 18 + q / 36 + r)) (hg : g ≤ 0.999) :
    ∃ rs resp, observe .default (xnoisy q r) = rs ++ [.ok resp] ∧
      (resp.results.map (·.position)).getLast? = some (V (pt g 0)) := by
  obtain ⟨rs, m, m', resp, h1, h2, h3, h4, h5, -, h6⟩ :=
    xtwo_predict (xnoise_valid hq hr) rfl rfl (c := 0.02) rfl (by norm_num) (x := 1) (by norm_num) le_rfl
  have hlen : (xnoise q r).minStableIteration ≤ (acceptedOf (strokeOf (calls (xpredict (xnoise q r)) (xtwo 1)) rs)).length := by
    rw [h5]; simp [xtwo, xnoise, xkalman]
  obtain ⟨P, K, ins, tip, hb, -, -, hkin⟩ := forecasts h1 h2 h3 rfl h4 (by rw [h5]; exact xtwo_passes rfl 1) h6
  have hkin := hkin rfl
  refine ⟨rs.map .ok, resp, ?_, ?_⟩
  · rw [xnoisy, observe_of_run h1]
    simp [observe, h6]
  have hs' : K.stable ≤ ins.length := by rw [basis_length hb, ← hb.foresees.stable]; exact hlen
  have hf := hb.foresees
  have hins : ins = [(pt 0 0, 0), (pt 1 0, 1 / 180)] := by
    have t1 := hb.times
    have t2 := hb.places rfl
    rw [h5] at t1 t2
    match ins, t1, t2 with
    | [(a, s), (b, t)], t1, t2 =>
      simp only [List.map_cons, List.map_nil, xtwo, xin, List.cons.injEq, and_true, fin_inj, V_inj] at t1 t2
      simp [t1, t2]
    | [], t, _ => simp [xtwo] at t
    | [_], t, _ => simp [xtwo] at t
    | _ :: _ :: _ :: _, t, _ => simp [xtwo] at t
  have hpr : K.process = q := (XR.fin.inj hf.process).symm
  have hno : K.noise = r := (XR.fin.inj hf.noise).symm
  have herr : K.maxError = 0.001 := (XR.fin.inj hf.maxError).symm
  have hep : (Ref.sight K ins).pos = pt g 0 := by
    obtain ⟨g', -, -, hg'⟩ := Ref.believe_two K.process K.noise 0 0 hb.validK.process.le hb.validK.noise
    have hg := Ref.believe_step K.process K.noise
    rw [hins]
    simp only [Ref.sight, Ref.estimate, List.map_cons, List.map_nil, pt, hg, hg']
    apply Complex.ext <;> simp [hdef, hpr, hno]
  have hbey : Ref.beyond K P.rate ins = 0 := by
    have ht : Ref.trustError K ((ins.map Prod.fst).getLastD 0) (Ref.sight K ins) = 0 := by
      rw [Ref.trustError, hep, hins]
      have e : pt g 0 - pt 1 0 = ((g - 1 : ℝ) : ℂ) := by
        apply Complex.ext <;> simp [pt]
      simp only [List.map_cons, List.map_nil, List.getLastD_cons, List.getLastD_nil, e, Complex.norm_real, Real.norm_eq_abs, herr]
      have h1 : (1 : ℝ) ≤ |g - 1| / 0.001 := by
        rw [le_div_iff₀ (by norm_num), abs_of_nonpos (by linarith)]
        linarith
      have h2 : Ref.clamp (|g - 1| / 0.001) = 1 := by
        simp only [Ref.clamp]
        rw [min_eq_right h1]
        simp
      simp only [Ref.speedRatio, sub_zero, h2]
      norm_num
    rw [Ref.beyond, Ref.horizon, Ref.trust, ht]
    simp
  obtain ⟨g1, g2⟩ := forecast_get (rate := P.rate) tip hs' rfl rfl
  have hc : 1 ≤ Ref.catchUp K P.rate tip (Ref.sight K ins) := le_max_left _ _
  obtain ⟨n, hn⟩ : ∃ n : ℕ, (Ref.catchUp K P.rate tip (Ref.sight K ins)).toNat = n + 1 := ⟨_, (Nat.sub_add_cancel (by omega)).symm⟩
  rw [hbey, hn] at g1
  simp only [hn] at g2
  have hlen : resp.results.length = n + 1 := by
    have := congrArg List.length hkin
    simpa [g1] using this
  have hT : ((n + 1 : ℕ) : ℝ) / P.rate ≠ 0 := div_ne_zero (by positivity) hb.valid.rate.ne'
  have hg := (g2 n (by omega)).1 (by omega)
  have hk := List.getElem_of_eq hkin (i := n) (by simp; omega)
  simp only [List.getElem_map, hg, bridge_eq _ _ _ _ hT] at hk
  have hp := congrArg TipState.position hk
  rw [List.getLast?_eq_getElem?, List.length_map, hlen, Nat.add_sub_cancel, List.getElem?_map, List.getElem?_eq_getElem (by omega)]
  have hcu := (cubic_spec tip.pos tip.vel (Ref.sight K ins).pos (Ref.sight K ins).vel hT).2.2.2.1
  push_cast at hp hcu
  simp only [Option.map_some, Option.some.injEq]
  refine hp.trans ?_
  rw [← hep]
  simp only [XR.tip]
  congr 1

end Ex

/-- **C41**: converting the two noise parameters as the variances they are documented to be makes it false. The covariance with
which the filter starts is fixed, so that their ratio to it changes with the unit. -/
theorem C41_variances_refuted : ∃ (c : ℝ) (hc : 0 < c) (p : StrokeModelParams XR XR) (ops : List (Op XR XR)),
    validateStrokeModelParams p = .ok ∧ (.resetParams p) ∈ ops ∧
    observe .default (ops.map (XR.Units.ofDistance c hc).opVariances) ≠
      (observe .default ops).map (fun o => (XR.Units.ofDistance c hc).response <$> o) := by
  refine ⟨2, two_pos, Ex.xpredict (Ex.xnoise 36 1), Ex.xnoisy 36 1, Ex.xpredict_valid (Ex.xnoise_valid (by norm_num) (by norm_num)),
    by simp [Ex.xnoisy, calls], fun h => ?_⟩
  have hmap : (Ex.xnoisy 36 1).map (XR.Units.ofDistance 2 two_pos).opVariances = (Ex.xnoisy 144 4).map (XR.Units.ofDistance 2 two_pos).op := by
    simp only [Ex.xnoisy, calls, List.map_append, List.map_cons, List.map_nil, List.cons_append, Ex.xtwo, XR.Units.opVariances, XR.Units.op]
    congr 2
    simp only [Ex.xpredict, XR.Units.params, XR.Units.prediction, XR.Units.variances, XR.Units.kalman, Ex.xnoise, XR.Units.q_fin]
    norm_num [XR.Units.ofDistance]
  rw [hmap, C41_unit_of_distance] at h
  obtain ⟨rs, resp, h1, h2⟩ := Ex.xnoisy_last (q := 36) (r := 1) (by norm_num) (by norm_num) rfl (by norm_num)
  obtain ⟨rs', resp', h1', h2'⟩ := Ex.xnoisy_last (q := 144) (r := 4) (by norm_num) (by norm_num) rfl (by norm_num)
  rw [h1, h1'] at h
  simp only [List.map_append, List.map_cons, List.map_nil] at h
  obtain ⟨-, h⟩ := List.append_inj' h rfl
  simp only [Outcome.map_ok, List.cons.injEq, Outcome.ok.injEq, and_true] at h
  have hr := List.map_injective_iff.2 (XR.Units.result_inj (XR.Units.ofDistance 2 two_pos)) (congrArg Response.results h)
  rw [← hr, h2'] at h2
  simp only [Option.some.injEq, V_inj] at h2
  have := congrArg Complex.re h2
  norm_num [Ex.pt] at this

section Examples
open Ex

/-- A session to which the theorems apply that produces results and a prediction: after Down at 0 and Move to 1, the prediction
ends at 59/77; translated by 5, at 5 + 59/77. -/
example : ∃ rs resp, observe .default ((xnoisy 36 1).map (translate (pt 5 0))) = rs ++ [.ok resp] ∧
    (resp.results.map (·.position)).getLast? = some (V (pt (59 / 77) 0) + V (pt 5 0)) := by
  obtain ⟨rs, resp, h1, h2⟩ := xnoisy_last (q := 36) (r := 1) (by norm_num) (by norm_num) rfl (by norm_num)
  have h := C40_translation (pt 5 0) (xnoisy 36 1)
  rw [h1, List.map_append] at h
  refine ⟨_, _, h, ?_⟩
  simp only [List.map_map]
  rw [show ((fun x : Result XR XR => x.position) ∘ translateResult (pt 5 0)) = (fun x => x + V (pt 5 0)) ∘ (·.position) from rfl,
    ← List.map_map, List.getLast?_map, h2]
  norm_num

/-- The limit that C42 mentions is respected by the parameters of the unit tests in milliseconds. -/
example : XR.Units.Fits (XR.Units.ofTime 1000 (by norm_num)) (calls xloop xinputs) := by
  intro p hp _
  simp only [calls, List.mem_cons, Op.resetParams.injEq, List.mem_map, reduceCtorEq, and_false, exists_false, or_false] at hp
  subst hp
  simp only [xloop, XR.Units.q, XR.Units.ofTime, fin_mul, lit10000, fin_lt]
  norm_num

end Examples

end
end Ink
