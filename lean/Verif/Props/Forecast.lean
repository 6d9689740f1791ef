import Verif.Examples.Kalman
import Mathlib.Algebra.Polynomial.Derivative
/-!
# What the Kalman predictor predicts (C43, C44, C47, C48), on exact numbers
-/
namespace Ink
open Scalar Arith XR Polynomial
noncomputable section
open Classical

/-- Among the inputs whose times the predictor keeps (`max_time_samples`), the first and the last one differ in time. -/
def TimePasses (k : KalmanParams XR XR) (is : List (Input XR XR)) : Prop :=
  let ts := lastN k.maxTimeSamples.toNat (is.map (·.time))
  ts.head? ≠ ts.getLast?

/-- What a prediction rests on: the parameters as real numbers; places and times of the accepted inputs, the places being those of
the inputs unless they are smoothed; the last tip state, which is the last result. -/
structure Basis (ops : List (Op XR XR)) (rs : List (Response XR XR)) (p : StrokeModelParams XR XR) (k : KalmanParams XR XR)
    (P : Ref.Params) (K : Ref.Foresight) (ins : List (ℂ × ℝ)) (q : Ref.Tip) : Prop where
  realizes : Realizes p P
  valid : P.Valid
  foresees : Foresees k K
  validK : K.Valid
  smoothed : ∃ e rest, strokeOf ops rs = e :: rest ∧ ins = Ref.known P (toPoint e.input.position) (toReal e.input.time)
    (rest.map fun f => touch f.input)
  times : (ins.map fun i => fin i.2) = (acceptedOf (strokeOf ops rs)).map (·.time)
  places : p.wobble.isEnabled = false → (ins.map fun i => V i.1) = (acceptedOf (strokeOf ops rs)).map (·.position)
  lastTime : LoopOk p.position.loop → (resultsOf (strokeOf ops rs)).getLast?.map (·.time) = some (fin q.time)
  last : p.position.loop.isEnabled = false → (resultsOf (strokeOf ops rs)).getLast?.map Result.kin = some (XR.tip q)

variable {ops : List (Op XR XR)} {rs : List (Response XR XR)} {m m' : StrokeModeler XR XR} {p : StrokeModelParams XR XR}
  {k : KalmanParams XR XR} {v : List (Result XR XR)} {r : Response XR XR}

theorem pace_ne {K : Ref.Foresight} (hk : Foresees k K) {ins : List (ℂ × ℝ)} {is : List (Input XR XR)}
    (ht : (ins.map fun i => fin i.2) = is.map (·.time)) (h : TimePasses k is) : Ref.pace (Ref.latest K ins) ≠ 0 := by
  have h1 : lastN k.maxTimeSamples.toNat (is.map (·.time)) = (Ref.latest K ins).map fin := by
    rw [← ht, hk.times]
    simp [lastN, Ref.latest, List.map_drop, Function.comp_def]
  simp only [TimePasses, h1] at h
  revert h
  generalize Ref.latest K ins = l
  intro h
  rcases l.eq_nil_or_concat with rfl | ⟨l', b, rfl⟩
  · simp at h
  · unfold Ref.pace
    refine div_ne_zero (sub_ne_zero.2 fun hc => h ?_) (by simp; positivity)
    rcases l' with _ | ⟨a, l'⟩
    · simp
    · rw [List.concat_eq_append, List.getLastD_concat] at hc
      have hc' : b = a := hc
      rw [List.concat_eq_append, List.map_append, List.map_singleton, List.getLast?_concat, hc']
      rfl

/-- The whole prediction. -/
theorem forecasts (h : Session ops rs m) (hr : Regular ops rs) (hp : (known ops rs).params = some p)
    (hk : p.prediction = .kalman k) (hi : (known ops rs).prev ≠ none) (ht : TimePasses k (acceptedOf (strokeOf ops rs)))
    (hst : step m (.predict v) = .ok (m', r)) :
    ∃ P K ins q, Basis ops rs p k P K ins q ∧ r.status = .ok ∧
      (LoopOk p.position.loop → r.results.map (·.time) = (Ref.forecast K P.rate q ins).map fun q => fin q.time) ∧
      (p.position.loop.isEnabled = false → r.results.map Result.kin = (Ref.forecast K P.rate q ins).map XR.tip) := by
  obtain ⟨P, K, e, rest, w⟩ := h.watched hr hp hk hi
  obtain ⟨h1, h2, h3⟩ := w.foretold (.inr (pace_ne w.foresees w.times ht)) v m' r hst
  exact ⟨P, K, news P e rest, (state P e rest).tip,
    ⟨w.realizes, w.valid, w.foresees, w.validK, ⟨e, rest, w.stroke, rfl⟩, w.times, w.positions, w.lastTime, w.lastKin⟩, h1, h2, h3⟩

/-- The cubic that goes from one position and velocity to another one within the time `T`. -/
def cubic (p₀ v₀ p₁ v₁ : ℂ) (T : ℝ) : ℂ[X] :=
  C p₀ + C v₀ * X + C ((3 * (p₁ - p₀) - T * (2 * v₀ + v₁)) / T ^ 2) * X ^ 2 + C ((2 * (p₀ - p₁) + T * (v₀ + v₁)) / T ^ 3) * X ^ 3

theorem bridge_eq (p₀ v₀ p₁ v₁ : ℂ) {T : ℝ} (hT : T ≠ 0) (s : ℝ) : Ref.bridge p₀ v₀ p₁ v₁ T s =
    ((cubic p₀ v₀ p₁ v₁ T).eval (s : ℂ), (derivative (cubic p₀ v₀ p₁ v₁ T)).eval (s : ℂ),
      (derivative (derivative (cubic p₀ v₀ p₁ v₁ T))).eval (s : ℂ)) := by
  have hT' : (T : ℂ) ≠ 0 := by exact_mod_cast hT
  simp only [Ref.bridge, cubic, Prod.mk.injEq]
  refine ⟨?_, ?_, ?_⟩ <;> simp <;> field_simp <;> ring

theorem cubic_spec (p₀ v₀ p₁ v₁ : ℂ) {T : ℝ} (hT : T ≠ 0) : (cubic p₀ v₀ p₁ v₁ T).natDegree ≤ 3 ∧
    (cubic p₀ v₀ p₁ v₁ T).eval 0 = p₀ ∧ (derivative (cubic p₀ v₀ p₁ v₁ T)).eval 0 = v₀ ∧
    (cubic p₀ v₀ p₁ v₁ T).eval (T : ℂ) = p₁ ∧ (derivative (cubic p₀ v₀ p₁ v₁ T)).eval (T : ℂ) = v₁ := by
  have hT' : (T : ℂ) ≠ 0 := by exact_mod_cast hT
  refine ⟨?_, ?_, ?_, ?_, ?_⟩
  · unfold cubic
    compute_degree
  · simp [cubic]
  · simp [cubic]
  · simp [cubic]; field_simp; ring
  · simp [cubic]; field_simp; ring

theorem connect_length (K : Ref.Foresight) (rate : ℝ) (q : Ref.Tip) (m : Ref.Motion) :
    (Ref.connect K rate q m).length = (Ref.catchUp K rate q m).toNat := by simp [Ref.connect]

/-- A prediction once there are enough inputs: its length and its tip states. -/
theorem forecast_get {K : Ref.Foresight} {rate : ℝ} (q : Ref.Tip) {ins : List (ℂ × ℝ)} (hs : K.stable ≤ ins.length) {n b : ℕ}
    (hn : n = (Ref.catchUp K rate q (Ref.sight K ins)).toNat) (hb : b = (Ref.beyond K rate ins).toNat) :
    (Ref.forecast K rate q ins).length = n + b ∧ ∀ i (hi : i < (Ref.forecast K rate q ins).length),
      (i < n → (Ref.forecast K rate q ins)[i] =
        let c := Ref.bridge q.pos q.vel (Ref.sight K ins).pos (Ref.sight K ins).vel (n / rate) ((i + 1 : ℝ) / rate)
        ⟨c.1, c.2.1, c.2.2, q.time + (i + 1 : ℝ) / rate⟩) ∧
      (n ≤ i → (Ref.forecast K rate q ins)[i] =
        let m := (Ref.sight K ins).later ((i + 1 - n : ℝ) / rate)
        ⟨m.pos, m.vel, m.acc, q.time + (i + 1 : ℝ) / rate⟩) := by
  have hf : Ref.forecast K rate q ins = Ref.connect K rate q (Ref.sight K ins) ++
      Ref.extrapolate rate (Ref.sight K ins) (q.time + n / rate) b := by
    rw [Ref.forecast, if_neg (by omega), hn, hb]
  have hl := connect_length K rate q (Ref.sight K ins)
  rw [← hn] at hl
  refine ⟨by simp [hf, hl, Ref.extrapolate], fun i hi => ⟨fun h => ?_, fun h => ?_⟩⟩
  · simp only [hf]
    rw [List.getElem_append_left (by omega)]
    simp [Ref.connect, ← hn]
  · simp only [hf]
    rw [List.getElem_append_right (by omega)]
    simp only [hl, Ref.extrapolate, List.getElem_map, List.getElem_range]
    have : (((i - n : ℕ) : ℝ) + 1) = i + 1 - n := by push_cast [h]; ring
    rw [this]
    congr 1
    ring

/-- The times of a prediction. -/
theorem forecast_times {K : Ref.Foresight} {rate : ℝ} (q : Ref.Tip) {ins : List (ℂ × ℝ)} (hs : K.stable ≤ ins.length) (i : ℕ)
    (hi : i < (Ref.forecast K rate q ins).length) : (Ref.forecast K rate q ins)[i].time = q.time + (i + 1 : ℝ) / rate := by
  obtain ⟨-, h⟩ := forecast_get (rate := rate) q hs rfl rfl
  rcases Nat.lt_or_ge i (Ref.catchUp K rate q (Ref.sight K ins)).toNat with hl | hl
  · rw [(h i hi).1 hl]
  · rw [(h i hi).2 hl]

theorem basis_length {P K ins q} (b : Basis ops rs p k P K ins q) : ins.length = (acceptedOf (strokeOf ops rs)).length := by
  simpa using congrArg List.length b.times

/-- C43, on exact numbers: as long as there is no loop mitigation, the first results of a Kalman prediction, at least one, are
samples of a cubic curve that leaves the last tip state with its velocity and arrives at the estimate with its velocity; their
velocities and accelerations are its derivatives. The last one of them is at the estimate (`Ref.sight`: what the filters believe),
from where the others go on as the estimated velocity, acceleration and jerk tell. It takes as many of them as are needed to cover
the distance at the greater one of the two speeds and `min_catchup_velocity`. -/
theorem C43_connector_exact (h : Session ops rs m) (hr : Regular ops rs) (hp : (known ops rs).params = some p)
    (hk : p.prediction = .kalman k) (hi : (known ops rs).prev ≠ none) (ht : TimePasses k (acceptedOf (strokeOf ops rs)))
    (hs : k.minStableIteration ≤ (acceptedOf (strokeOf ops rs)).length) (hoff : p.position.loop.isEnabled = false)
    (hst : step m (.predict v) = .ok (m', r)) :
    ∃ P K ins q, Basis ops rs p k P K ins q ∧ ∃ (n : ℕ) (c : ℂ[X]), let est := Ref.sight K ins
      1 ≤ n ∧ n ≤ r.results.length ∧ c.natDegree ≤ 3 ∧
      c.eval 0 = q.pos ∧ (derivative c).eval 0 = q.vel ∧
      c.eval ((n / P.rate : ℝ) : ℂ) = est.pos ∧ (derivative c).eval ((n / P.rate : ℝ) : ℂ) = est.vel ∧
      (n : ℤ) = max 1 ⌈‖est.pos - q.pos‖ / max (max ‖q.vel‖ ‖est.vel‖) K.catchup * P.rate⌉ ∧
      ∀ i (hi : i < r.results.length),
        (i < n → let s : ℝ := (i + 1) / P.rate
          r.results[i].kin = XR.tip ⟨c.eval (s : ℂ), (derivative c).eval (s : ℂ), (derivative (derivative c)).eval (s : ℂ), q.time + s⟩) ∧
        (i + 1 = n → r.results[i].position = V est.pos ∧ r.results[i].velocity = V est.vel) ∧
        (n ≤ i → let m := est.later ((i + 1 - n) / P.rate)
          r.results[i].kin = XR.tip ⟨m.pos, m.vel, m.acc, q.time + (i + 1) / P.rate⟩) := by
  obtain ⟨P, K, ins, q, hb, -, -, hkin⟩ := forecasts h hr hp hk hi ht hst
  refine ⟨P, K, ins, q, hb, (Ref.catchUp K P.rate q (Ref.sight K ins)).toNat,
    cubic q.pos q.vel (Ref.sight K ins).pos (Ref.sight K ins).vel ((Ref.catchUp K P.rate q (Ref.sight K ins)).toNat / P.rate), ?_⟩
  have hc : 1 ≤ Ref.catchUp K P.rate q (Ref.sight K ins) := le_max_left _ _
  have hkin := hkin hoff
  have hs' : K.stable ≤ ins.length := by rw [basis_length hb, ← hb.foresees.stable]; exact hs
  obtain ⟨g1, g2⟩ := forecast_get (rate := P.rate) q hs' rfl rfl
  have hT : (((Ref.catchUp K P.rate q (Ref.sight K ins)).toNat : ℝ) / P.rate) ≠ 0 := by
    refine div_ne_zero ?_ hb.valid.rate.ne'
    have : (Ref.catchUp K P.rate q (Ref.sight K ins)).toNat ≠ 0 := by omega
    exact_mod_cast this
  have hlen : r.results.length = (Ref.forecast K P.rate q ins).length := by simpa using congrArg List.length hkin
  have hget : ∀ i (hi : i < r.results.length), r.results[i].kin = XR.tip ((Ref.forecast K P.rate q ins)[i]'(hlen ▸ hi)) := by
    intro i hi
    have := List.getElem_of_eq hkin (i := i) (by simpa using hi)
    simpa using this
  obtain ⟨s1, s2, s3, s4, s5⟩ := cubic_spec q.pos q.vel (Ref.sight K ins).pos (Ref.sight K ins).vel hT
  intro est
  refine ⟨by omega, by omega, s1, s2, s3, s4, s5, by rw [Int.toNat_of_nonneg (by omega)]; rfl, fun i hi => ⟨fun h => ?_, fun h => ?_, fun h => ?_⟩⟩
  · rw [hget, (g2 i _).1 h, bridge_eq _ _ _ _ hT]
  · have h1 := hget i hi
    rw [(g2 i _).1 (by omega), bridge_eq _ _ _ _ hT] at h1
    have h2 : ((i : ℝ) + 1) = ((Ref.catchUp K P.rate q (Ref.sight K ins)).toNat : ℝ) := by rw [← h]; push_cast; rfl
    simp only [h2] at h1
    rw [s4, s5] at h1
    exact ⟨congrArg TipState.position h1, congrArg TipState.velocity h1⟩
  · rw [hget, (g2 i _).2 h]

/-- C44, on exact numbers: the results of a Kalman prediction follow the last result at intervals of `1 / min_output_rate`. -/
theorem C44_grid_exact (h : Session ops rs m) (hr : Regular ops rs) (hp : (known ops rs).params = some p)
    (hk : p.prediction = .kalman k) (hi : (known ops rs).prev ≠ none) (ht : TimePasses k (acceptedOf (strokeOf ops rs)))
    (hlo : LoopOk p.position.loop) (hst : step m (.predict v) = .ok (m', r)) :
    ∃ rate t₀ : ℝ, 0 < rate ∧ p.sampling.minOutputRate = fin rate ∧
      (resultsOf (strokeOf ops rs)).getLast?.map (·.time) = some (fin t₀) ∧
      ∀ i (hi : i < r.results.length), r.results[i].time = fin (t₀ + (i + 1) / rate) := by
  obtain ⟨P, K, ins, q, hb, -, htimes, -⟩ := forecasts h hr hp hk hi ht hst
  refine ⟨P.rate, q.time, hb.valid.rate, hb.realizes.rate, hb.lastTime hlo, fun i hi => ?_⟩
  have htimes := htimes hlo
  have hlen : r.results.length = (Ref.forecast K P.rate q ins).length := by simpa using congrArg List.length htimes
  have hget : r.results[i].time = fin ((Ref.forecast K P.rate q ins)[i]'(hlen ▸ hi)).time := by
    have := List.getElem_of_eq htimes (i := i) (by simpa using hi)
    simpa using this
  have hs : K.stable ≤ ins.length := by
    by_contra hc
    rw [Ref.forecast, if_pos (by omega)] at hlen
    simp at hlen
    simp [hlen] at hi
  rw [hget, forecast_times q hs]

/-- C48, on exact numbers: the results beyond the estimate are as many as fit into `prediction_interval` times a factor of
confidence, rounded up. The factor is the product of four numbers between 0 and 1; so there are between none and
`⌈prediction_interval * min_output_rate⌉`. -/
theorem C48_confidence_exact (h : Session ops rs m) (hr : Regular ops rs) (hp : (known ops rs).params = some p)
    (hk : p.prediction = .kalman k) (hi : (known ops rs).prev ≠ none) (ht : TimePasses k (acceptedOf (strokeOf ops rs)))
    (hs : k.minStableIteration ≤ (acceptedOf (strokeOf ops rs)).length)
    (hlo : LoopOk p.position.loop) (hst : step m (.predict v) = .ok (m', r)) :
    ∃ P K ins q, Basis ops rs p k P K ins q ∧ ∃ (n b : ℕ) (c₁ c₂ c₃ c₄ : ℝ), let est := Ref.sight K ins
      r.results.length = n + b ∧
      (n : ℤ) = max 1 ⌈‖est.pos - q.pos‖ / max (max ‖q.vel‖ ‖est.vel‖) K.catchup * P.rate⌉ ∧
      (b : ℤ) = ⌈K.interval * P.rate * (c₁ * c₂ * c₃ * c₄)⌉ ∧
      c₁ = min 1 (((acceptedOf (strokeOf ops rs)).length : ℝ) / (K.samples : ℝ)) ∧
      c₂ = 1 - Ref.clamp (‖est.pos - (ins.map Prod.fst).getLastD 0‖ / K.maxError) ∧
      c₃ = Ref.speedRatio K.minSpeed K.maxSpeed (‖(est.later K.interval).pos - est.pos‖ / K.interval) ∧
      (∀ l, K.baseline = some l → c₄ =
        Ref.lerp l 1 (1 - Ref.clamp (‖est.pos + K.interval • est.vel - (est.later K.interval).pos‖ / K.maxDeviation))) ∧
      (K.baseline = none → c₄ = 0) ∧
      (0 ≤ c₁ ∧ c₁ ≤ 1) ∧ (0 ≤ c₂ ∧ c₂ ≤ 1) ∧ (0 ≤ c₃ ∧ c₃ ≤ 1) ∧ (0 ≤ c₄ ∧ c₄ ≤ 1) ∧ (b : ℤ) ≤ ⌈K.interval * P.rate⌉ := by
  obtain ⟨P, K, ins, q, hb, -, htimes, -⟩ := forecasts h hr hp hk hi ht hst
  have hs' : K.stable ≤ ins.length := by rw [basis_length hb, ← hb.foresees.stable]; exact hs
  obtain ⟨g1, -⟩ := forecast_get (rate := P.rate) q hs' rfl rfl
  have hlen : r.results.length = (Ref.forecast K P.rate q ins).length := by simpa using congrArg List.length (htimes hlo)
  obtain ⟨t1, t2, t3, t4, t5⟩ := trust_mem hb.validK ins.length ((ins.map Prod.fst).getLastD 0) (Ref.sight K ins)
  have hc : 1 ≤ Ref.catchUp K P.rate q (Ref.sight K ins) := le_max_left _ _
  have hbn : ((Ref.beyond K P.rate ins).toNat : ℤ) = Ref.beyond K P.rate ins :=
    Int.toNat_of_nonneg (beyond_nonneg hb.validK hb.valid.rate ins)
  have hratio : ∀ {a x : ℝ}, 0 < a → Ref.speedRatio 0 a x = Ref.clamp (x / a) := by
    intro a x ha
    simp [Ref.speedRatio, ha.ne]
  refine ⟨P, K, ins, q, hb, _, _, Ref.trustSamples K ins.length, Ref.trustError K ((ins.map Prod.fst).getLastD 0) (Ref.sight K ins),
    Ref.trustSpeed K (Ref.sight K ins), Ref.trustLine K (Ref.sight K ins), hlen.trans g1,
    by rw [Int.toNat_of_nonneg (by omega)]; rfl, hbn.trans rfl, by rw [← basis_length hb]; rfl, ?_, rfl, ?_, ?_, t1, t2, t3, t4, ?_⟩
  · rw [← hratio hb.validK.maxError]; rfl
  · intro l hl
    rw [← hratio hb.validK.maxDeviation]
    simp [Ref.trustLine, hl]
  · intro hl
    simp [Ref.trustLine, hl]
  · rw [hbn]
    refine Int.ceil_le_ceil ?_
    have := mul_pos hb.validK.interval hb.valid.rate
    exact mul_le_of_le_one_right this.le t5.2

/-- C44, on exact numbers: what is predicted beyond the estimate lasts less than one time step longer than `prediction_interval`,
and not longer at all if that is a multiple of the time step. -/
theorem C44_horizon_exact (h : Session ops rs m) (hr : Regular ops rs) (hp : (known ops rs).params = some p)
    (hk : p.prediction = .kalman k) (hi : (known ops rs).prev ≠ none) (ht : TimePasses k (acceptedOf (strokeOf ops rs)))
    (hs : k.minStableIteration ≤ (acceptedOf (strokeOf ops rs)).length)
    (hlo : LoopOk p.position.loop) (hst : step m (.predict v) = .ok (m', r)) :
    ∃ P K ins q, Basis ops rs p k P K ins q ∧ ∃ n : ℕ, let est := Ref.sight K ins
      1 ≤ n ∧ n ≤ r.results.length ∧
      (n : ℤ) = max 1 ⌈‖est.pos - q.pos‖ / max (max ‖q.vel‖ ‖est.vel‖) K.catchup * P.rate⌉ ∧
      ((r.results.length : ℝ) - n) / P.rate < K.interval + 1 / P.rate ∧
      ((∃ z : ℤ, K.interval * P.rate = z) → ((r.results.length : ℝ) - n) / P.rate ≤ K.interval) := by
  obtain ⟨P, K, ins, q, hb, n, b, _, _, _, _, h1, h2, -, -, -, -, -, -, -, -, -, -, h3⟩ :=
    C48_confidence_exact h hr hp hk hi ht hs hlo hst
  have hn : (1 : ℤ) ≤ n := by rw [h2]; exact le_max_left _ _
  have hrate := hb.valid.rate
  refine ⟨P, K, ins, q, hb, n, by omega, by omega, h2, ?_, ?_⟩ <;> rw [h1] <;> push_cast <;> rw [add_sub_cancel_left]
  · have h4 := Int.ceil_lt_add_one (K.interval * P.rate)
    have h5 : (b : ℝ) ≤ (⌈K.interval * P.rate⌉ : ℝ) := by exact_mod_cast h3
    rw [div_lt_iff₀ hrate, add_mul, one_div_mul_cancel hrate.ne']
    linarith
  · rintro ⟨z, hz⟩
    rw [hz, Int.ceil_intCast] at h3
    have h5 : (b : ℝ) ≤ z := by exact_mod_cast h3
    rw [div_le_iff₀ hrate, hz]
    exact h5

/-! ## A resting pen -/

namespace Ref

/-- The state at rest. -/
structure Rests (x : ℂ) (s : State) : Prop where
  pos : s.tip.pos = x
  vel : s.tip.vel = 0
  acc : s.tip.acc = 0
  window : ∀ w ∈ s.window, w.pos = x
  anchor : s.anchor.1 = x

theorem totalPos_rest {x : ℂ} {w : List Sample} (h : ∀ s ∈ w, s.pos = x) : totalPos w = totalDur w • x := by
  induction w with
  | nil => simp [totalPos, totalDur]
  | cons a w ih =>
    have := ih fun s hs => h s (by simp [hs])
    simp only [totalPos, totalDur, List.map_cons, List.sum_cons] at this ⊢
    rw [this, h a (by simp), add_smul]

theorem smooth_rest (P : Params) {x : ℂ} {s : State} (h : Rests x s) (t : ℝ) :
    (smooth P s x t).2 = x ∧ ∀ w ∈ (smooth P s x t).1, w.pos = x := by
  unfold smooth
  split
  · rename_i timeout lo hi last hw hl
    have hwin : ∀ w ∈ slide timeout s.window (sample last x t), w.pos = x := by
      intro w hw
      have := (List.dropWhile_sublist _).mem hw
      rw [List.mem_append, List.mem_singleton] at this
      rcases this with hm | rfl
      · exact h.window w hm
      · rfl
    refine ⟨?_, hwin⟩
    simp only [smoothed]
    split
    · rfl
    · rename_i hd
      rw [totalPos_rest hwin, inv_smul_smul₀ hd]
      simp [lerp]
  · exact ⟨rfl, h.window⟩

theorem follow_rest (P : Params) {x : ℂ} : ∀ (l : List (ℂ × ℝ)), (∀ i ∈ l, i.1 = x) → ∀ q : Tip, q.pos = x → q.vel = 0 → q.acc = 0 →
    ∀ t ∈ follow P q l, t.pos = x ∧ t.vel = 0 ∧ t.acc = 0
  | [], _, q, _, _, _ => by simp [follow]
  | i :: l, hl, q, h1, h2, h3 => by
    have h4 : (spring P q i).acc = 0 := by simp [spring, hl i (by simp), h1, h2]
    have h5 : (spring P q i).vel = 0 := by simp [spring, hl i (by simp), h1, h2]
    have h6 : (spring P q i).pos = x := by simp [spring, hl i (by simp), h1, h2]
    intro t ht
    simp only [follow, List.mem_cons] at ht
    rcases ht with rfl | ht
    · exact ⟨h6, h5, h4⟩
    · exact follow_rest P l (fun i hi => hl i (by simp [hi])) _ h6 h5 h4 t ht

theorem move_rest (P : Params) {x : ℂ} {s : State} (h : Rests x s) (t : ℝ) :
    Rests x (move P s x t).1 ∧ ∀ a, (move P s x t).2 = some a → (move P s x t).1.anchor.1 = x := by
  obtain ⟨h1, h2⟩ := smooth_rest P h t
  unfold move
  simp only []
  split
  · have hf := follow_rest P (upsample s.anchor ((smooth P s x t).2, t) (steps P s.tip x (t - s.anchor.2)).toNat) (by
      intro i hi
      simp only [upsample, List.mem_map] at hi
      obtain ⟨j, -, rfl⟩ := hi
      simp [lerp, h.anchor, h1]) s.tip h.pos h.vel h.acc
    have hlast : ∀ l : List Tip, (∀ t ∈ l, t.pos = x ∧ t.vel = 0 ∧ t.acc = 0) →
        (l.getLastD s.tip).pos = x ∧ (l.getLastD s.tip).vel = 0 ∧ (l.getLastD s.tip).acc = 0 := by
      intro l hl
      rcases l.eq_nil_or_concat with rfl | ⟨l', b, rfl⟩
      · exact ⟨h.pos, h.vel, h.acc⟩
      · rw [List.concat_eq_append, List.getLastD_concat]
        exact hl b (by simp)
    obtain ⟨g1, g2, g3⟩ := hlast _ hf
    exact ⟨⟨g1, g2, g3, h2, h1⟩, fun _ _ => h1⟩
  · exact ⟨⟨h.pos, h.vel, h.acc, h2, h.anchor⟩, fun _ _ => h.anchor⟩

/-- Moves that stay where the stroke began leave the tip there, and the predictor hears of no other place. -/
theorem stays (P : Params) {x : ℂ} : ∀ (is : List Touch), (∀ i ∈ is, ∃ t, i = .move x t) → ∀ s : State, Rests x s →
    Rests x (after P s is) ∧ ∀ i ∈ heard P s is, i.1 = x
  | [], _, s, h => by simpa [after, heard] using h
  | i :: is, hi, s, h => by
    obtain ⟨t, rfl⟩ := hi i (by simp)
    obtain ⟨h1, h2⟩ := move_rest P h t
    obtain ⟨h3, h4⟩ := stays P is (fun j hj => hi j (by simp [hj])) _ h1
    refine ⟨h3, fun j hj => ?_⟩
    simp only [heard, List.mem_append] at hj
    rcases hj with hj | hj
    · simp only [hears, advance] at hj
      split at hj
      · rename_i heq
        simp only [List.mem_singleton] at hj
        rw [hj]
        exact h2 _ heq
      · simp at hj
    · exact h4 j hj

end Ref

/-- C47, on exact numbers: as long as the pen rests (smoothed or not), the estimate is that position, with no velocity,
acceleration and jerk, after any number of inputs, and the prediction is that it will still be there one time step later. -/
theorem C47_rest_exact (h : Session ops rs m) (hr : Regular ops rs) (hp : (known ops rs).params = some p)
    (hk : p.prediction = .kalman k) (hi : (known ops rs).prev ≠ none) (ht : TimePasses k (acceptedOf (strokeOf ops rs)))
    {x : ℂ} (hx : ∀ e ∈ strokeOf ops rs, e.input.position = V x) (hst : step m (.predict v) = .ok (m', r)) :
    ∃ P K ins q, Basis ops rs p k P K ins q ∧ Ref.sight K ins = ⟨x, 0, 0, 0⟩ ∧ (∀ i ∈ ins, i.1 = x) ∧
      (p.position.loop.isEnabled = false → k.minStableIteration ≤ (acceptedOf (strokeOf ops rs)).length →
        r.results.map Result.kin = [XR.tip ⟨x, 0, 0, q.time + 1 / P.rate⟩]) := by
  obtain ⟨P, K, e, rest, w⟩ := h.watched hr hp hk hi
  obtain ⟨h1, h2, h3⟩ := w.foretold (.inr (pace_ne w.foresees w.times ht)) v m' r hst
  have hb : Basis ops rs p k P K (news P e rest) (state P e rest).tip :=
    ⟨w.realizes, w.valid, w.foresees, w.validK, ⟨e, rest, w.stroke, rfl⟩, w.times, w.positions, w.lastTime, w.lastKin⟩
  have hgo : ∀ f ∈ rest, f.input.eventType ≠ .up := by
    obtain ⟨P', m₀, hreal, hv, hc, hsame⟩ := h.stroke hr hp w.stroke
    obtain ⟨e', rest', he', htale⟩ := course_tale hreal hv hc
    rw [List.cons.injEq] at he'
    obtain ⟨rfl, rfl⟩ := he'
    have hl : m.lastInput ≠ none := by
      intro hc
      rw [← h.known] at hi
      simp [StrokeModeler.known, hc] at hi
    intro f hf
    rw [htale.going (by rw [← hsame.last]; exact hl) f hf]
    simp
  have hx' : ∀ f ∈ e :: rest, toPoint f.input.position = x := by
    intro f hf
    rw [hx f (by rw [w.stroke]; exact hf)]
    rfl
  obtain ⟨h4, h5⟩ := Ref.stays P (rest.map fun f => touch f.input) (x := x) (by
    intro i hi
    obtain ⟨f, hf, rfl⟩ := List.mem_map.1 hi
    exact ⟨toReal f.input.time, by rw [touch, if_neg (hgo f hf), hx' f (by simp [hf])]⟩)
    (Ref.start (toPoint e.input.position) (toReal e.input.time))
    (by rw [hx' e (by simp)]; exact ⟨rfl, rfl, rfl, by simp [Ref.start], rfl⟩)
  have hins : ∀ i ∈ news P e rest, i.1 = x := by
    intro i hi
    simp only [news, Ref.known, List.mem_cons] at hi
    rcases hi with rfl | hi
    · exact hx' e (by simp)
    · exact h5 i hi
  have hsight : Ref.sight K (news P e rest) = ⟨x, 0, 0, 0⟩ := by
    have hne : (news P e rest).length ≠ 0 := by simp [news, Ref.known]
    obtain ⟨n, hn⟩ := Nat.exists_eq_succ_of_ne_zero hne
    have hre : (news P e rest).map (fun i => i.1.re) = List.replicate (n + 1) x.re := by
      rw [← Nat.succ_eq_add_one, ← hn, List.eq_replicate_iff]
      refine ⟨by simp, fun b hb => ?_⟩
      obtain ⟨i, hi, rfl⟩ := List.mem_map.1 hb
      rw [hins i hi]
    have him : (news P e rest).map (fun i => i.1.im) = List.replicate (n + 1) x.im := by
      rw [← Nat.succ_eq_add_one, ← hn, List.eq_replicate_iff]
      refine ⟨by simp, fun b hb => ?_⟩
      obtain ⟨i, hi, rfl⟩ := List.mem_map.1 hb
      rw [hins i hi]
    simp only [Ref.sight, Ref.estimate, hre, him, Ref.believe_rest]
    simp [← Complex.ofReal_inv, show (⟨0, 0⟩ : ℂ) = 0 from rfl]
  refine ⟨P, K, _, _, hb, hsight, hins, fun hoff hs => ?_⟩
  rw [h3 hoff, Ref.forecast, if_neg (by rw [basis_length hb, ← hb.foresees.stable]; omega)]
  have hc : Ref.catchUp K P.rate (state P e rest).tip (Ref.sight K (news P e rest)) = 1 := by
    simp [Ref.catchUp, hsight, state, h4.pos]
  have hbe : Ref.beyond K P.rate (news P e rest) = 0 := by
    have h0 : Ref.trustSpeed K ⟨x, 0, 0, 0⟩ = 0 := by
      simp only [Ref.trustSpeed, Ref.Motion.later, Ref.speedRatio, Ref.clamp]
      simp only [smul_zero, add_zero, sub_self, norm_zero, zero_div]
      have hm := w.validK.minSpeed
      split
      · rw [if_neg (by linarith)]
      · rw [max_eq_left]
        refine (min_le_left _ _).trans (div_nonpos_of_nonpos_of_nonneg (by linarith) ?_)
        linarith [w.validK.maxSpeed]
    simp [Ref.beyond, Ref.horizon, Ref.trust, hsight, h0]
  rw [hbe]
  rw [hsight] at hc
  simp only [Ref.connect, hc, Int.toNat_zero, Int.toNat_one, Ref.extrapolate, List.range_zero, List.map_nil, List.append_nil,
    List.range_one, List.map_cons, hsight, hc]
  rw [bridge_eq _ _ _ _ (by simpa using w.valid.rate.ne')]
  have hp1 : (state P e rest).tip.pos = x := h4.pos
  have hp2 : (state P e rest).tip.vel = 0 := h4.vel
  simp [cubic, hp1, hp2]

/-! ## Examples -/

section Examples
open Ex

theorem Ex.xtwo_passes {k : KalmanParams XR XR} (h : k.maxTimeSamples = 20) (x : ℝ) : TimePasses k (xtwo x) := by
  simp [TimePasses, xtwo, h, lastN, xin]

/-- the hypotheses of C43, C44 and C48 are met by a pen that moves -/
example : ∃ rs m m' r, Session (calls (xpredict xkalman) (xtwo 1)) rs m ∧ Regular (calls (xpredict xkalman) (xtwo 1)) rs ∧
    (known (calls (xpredict xkalman) (xtwo 1)) rs).params = some (xpredict xkalman) ∧
    (known (calls (xpredict xkalman) (xtwo 1)) rs).prev ≠ none ∧
    TimePasses xkalman (acceptedOf (strokeOf (calls (xpredict xkalman) (xtwo 1)) rs)) ∧
    xkalman.minStableIteration ≤ (acceptedOf (strokeOf (calls (xpredict xkalman) (xtwo 1)) rs)).length ∧
    (xpredict xkalman).position.loop.isEnabled = false ∧ step m (.predict []) = .ok (m', r) := by
  obtain ⟨rs, m, m', r, h1, h2, h3, h4, h5, -, h6⟩ := xtwo_predict xkalman_valid rfl rfl (c := 0.02) rfl (by norm_num) (x := 1) (by norm_num) le_rfl
  exact ⟨rs, m, m', r, h1, h2, h3, h4, by rw [h5]; exact xtwo_passes rfl 1, by rw [h5]; simp [xtwo, xkalman], rfl, h6⟩

/-- and those of C47 by one that rests -/
example : ∃ rs m m' r, Session (calls (xpredict xkalman) (xtwo 0)) rs m ∧ Regular (calls (xpredict xkalman) (xtwo 0)) rs ∧
    (known (calls (xpredict xkalman) (xtwo 0)) rs).params = some (xpredict xkalman) ∧
    (known (calls (xpredict xkalman) (xtwo 0)) rs).prev ≠ none ∧
    TimePasses xkalman (acceptedOf (strokeOf (calls (xpredict xkalman) (xtwo 0)) rs)) ∧
    (∀ e ∈ strokeOf (calls (xpredict xkalman) (xtwo 0)) rs, e.input.position = V 0) ∧
    step m (.predict []) = .ok (m', r) := by
  obtain ⟨rs, m, m', r, h1, h2, h3, h4, h5, h7, h6⟩ := xtwo_predict xkalman_valid rfl rfl (c := 0.02) rfl (by norm_num) (x := 0) (by norm_num) (by norm_num)
  refine ⟨rs, m, m', r, h1, h2, h3, h4, by rw [h5]; exact xtwo_passes rfl 0, fun e he => ?_, h6⟩
  have : e.input ∈ xtwo 0 := by rw [← h7]; exact List.mem_map_of_mem he
  simp only [xtwo, List.mem_cons, List.not_mem_nil, or_false] at this
  rcases this with h | h <;> rw [h] <;> rfl

/-- C44 fails for the horizon: half a time step as `prediction_interval` gives a prediction of one time step. -/
theorem C44_refuted : ∃ (p : StrokeModelParams XR XR) (k : KalmanParams XR XR) (ops : List (Op XR XR)) (rs : List (Response XR XR))
    (m m' : StrokeModeler XR XR) (r : Response XR XR), p.prediction = .kalman k ∧ Session ops rs m ∧ (known ops rs).params = some p ∧
    step m (.predict []) = .ok (m', r) ∧ ∃ P K ins q, Basis ops rs p k P K ins q ∧ ∃ n : ℕ, let est := Ref.sight K ins
      1 ≤ n ∧ n ≤ r.results.length ∧
      (n : ℤ) = max 1 ⌈‖est.pos - q.pos‖ / max (max ‖q.vel‖ ‖est.vel‖) K.catchup * P.rate⌉ ∧
      K.interval < ((r.results.length : ℝ) - n) / P.rate := by
  obtain ⟨rs, m, m', r, h1, h2, h3, h4, h5, -, h6⟩ :=
    xtwo_predict xshort_valid rfl rfl (c := 1 / 360) rfl (by norm_num) (x := 1) (by norm_num) le_rfl
  obtain ⟨P, K, ins, q, hb, n, b, c₁, c₂, c₃, c₄, k1, k2, k3, k4, k5, k6, k7, -, -, -, -, -, -⟩ :=
    C48_confidence_exact h1 h2 h3 rfl h4 (by rw [h5]; exact xtwo_passes rfl 1) (by rw [h5]; simp [xtwo, xshort, xkalman])
      (.inl rfl) h6
  refine ⟨_, _, _, rs, m, m', r, rfl, h1, h3, h6, P, K, ins, q, hb, n, ?_, ?_, k2, ?_⟩
  · have : (1 : ℤ) ≤ n := by rw [k2]; exact le_max_left _ _
    omega
  · omega
  have hf := hb.foresees
  have hins : ins = [(pt 0 0, 0), (pt 1 0, 1 / 180)] := by
    have t1 := hb.times
    have t2 := hb.places rfl
    rw [h5] at t1 t2
    match ins, t1, t2 with
    | [(a, s), (b, t)], t1, t2 =>
      simp only [List.map_cons, List.map_nil, xtwo, xin, List.cons.injEq, and_true, fin_inj, V_inj] at t1 t2
      simp [t1, t2]
    | [], t, _ => simp [xtwo] at t
    | [_], t, _ => simp [xtwo] at t
    | _ :: _ :: _ :: _, t, _ => simp [xtwo] at t
  have hrate : P.rate = 180 := (XR.fin.inj hb.realizes.rate).symm
  have hint : K.interval = 1 / 360 := (XR.fin.inj hf.interval).symm
  have hacc : K.accWeight = 0 := (XR.fin.inj hf.accWeight).symm
  have hjerk : K.jerkWeight = 0 := (XR.fin.inj hf.jerkWeight).symm
  have herr : K.maxError = 2 := (XR.fin.inj hf.maxError).symm
  have hmin : K.minSpeed = 0 := (XR.fin.inj hf.minSpeed).symm
  have hmax : K.maxSpeed = 15 := (XR.fin.inj hf.maxSpeed).symm
  have hsam : K.samples = 20 := hf.samples.symm
  have htim : K.times = 20 := by have : (20 : ℤ) = K.times := hf.times; omega
  have hbase : K.baseline = some 0.4 := by
    have := hf.baseline
    rcases hK : K.baseline with _ | l
    · rw [hK] at this; cases this
    · rw [hK] at this
      have : (0.4 : ℝ) = l := XR.fin.inj this
      rw [this]
  have hpos : 0 < c₁ * c₂ * c₃ * c₄ := by
    obtain ⟨g, g0, g1, hg⟩ := Ref.believe_two K.process K.noise 0 1 hb.validK.process.le hb.validK.noise
    obtain ⟨g', -, -, hg'⟩ := Ref.believe_two K.process K.noise 0 0 hb.validK.process.le hb.validK.noise
    have hv := Ref.believe_two_velocity hb.validK.process.le hb.validK.noise
    have hep : (Ref.sight K ins).pos = pt g 0 := by
      rw [hins]
      simp only [Ref.sight, Ref.estimate, List.map_cons, List.map_nil, pt, hg, hg']
      apply Complex.ext <;> simp
    have hpace : Ref.pace (Ref.latest K ins) = 1 / 360 := by
      rw [hins]
      simp [Ref.pace, Ref.latest, htim]
      norm_num
    have hev : (Ref.sight K ins).vel ≠ 0 := by
      simp only [Ref.sight, Ref.estimate, hpace]
      rw [hins]
      intro hc
      have := congrArg Complex.re hc
      simp [pt] at this
      linarith
    have h1 : 0 < c₁ := by rw [k4, h5, hsam]; simp [xtwo]
    have h2 : 0 < c₂ := by
      rw [k5, hep, hins, herr]
      have hn : ‖pt g 0 - pt 1 0‖ ≤ 1 := by
        have : pt g 0 - pt 1 0 = ((g - 1 : ℝ) : ℂ) := by apply Complex.ext <;> simp [pt]
        rw [this, Complex.norm_real, Real.norm_eq_abs, abs_le]
        constructor <;> linarith
      simp only [List.map_cons, List.map_nil, Ref.clamp, List.getLastD_cons, List.getLastD_nil, sub_pos, max_lt_iff]
      refine ⟨by norm_num, (min_le_left _ _).trans_lt ?_⟩
      linarith
    have h3 : 0 < c₃ := by
      rw [k6, hmin, hmax, hint]
      have hd : (Ref.Motion.later (Ref.sight K ins) (1 / 360)).pos - (Ref.sight K ins).pos = (1 / 360 : ℝ) • (Ref.sight K ins).vel := by
        simp [Ref.Motion.later, Ref.sight, Ref.estimate, hacc, hjerk]
      rw [hd]
      simp only [Ref.speedRatio, Ref.clamp]
      rw [if_neg (by norm_num)]
      refine lt_max_of_lt_right (lt_min ?_ one_pos)
      have : 0 < ‖(1 / 360 : ℝ) • (Ref.sight K ins).vel‖ := norm_pos_iff.2 (smul_ne_zero (by norm_num) hev)
      rw [sub_zero, sub_zero]
      positivity
    have h4 : 0 < c₄ := by
      rw [k7 _ hbase]
      have : ∀ y, Ref.clamp y ≤ 1 := fun y => max_le zero_le_one (min_le_right _ _)
      simp only [Ref.lerp, smul_eq_mul]
      nlinarith [this (‖(Ref.sight K ins).pos + K.interval • (Ref.sight K ins).vel - ((Ref.sight K ins).later K.interval).pos‖ / K.maxDeviation)]
    positivity
  have hb1 : (1 : ℤ) ≤ b := by
    rw [k3, hint, hrate]
    exact Int.one_le_ceil_iff.2 (by positivity)
  have hb2 : (1 : ℝ) ≤ b := by exact_mod_cast hb1
  rw [k1, hint, hrate]
  push_cast
  linarith
end Examples

end
end Ink
