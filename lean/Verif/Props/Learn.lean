import Verif.Props.Forecast
import Verif.Lemmas.Learn
/-!
# The Kalman predictor learns motions with constant jerk: C69
-/
namespace Ink
open Scalar Arith XR
noncomputable section
open Classical Filter Topology

namespace Ref

/-- Evenly timed inputs of a motion. -/
def evenly (μ : Motion) (t₀ δ : ℝ) (n : ℕ) : List (ℂ × ℝ) := (List.range n).map fun i : ℕ => ((μ.later (i * δ)).pos, t₀ + i * δ)

/-- A motion in units of a time step. -/
def inSteps (μ : Motion) (δ : ℝ) (n : ℕ) : Fin 4 → ℂ :=
  let m := μ.later (n * δ)
  ![m.pos, δ • m.vel, δ ^ 2 • m.acc, δ ^ 3 • m.jerk]

/-- How much the filter has to learn: how wrong it is to believe that the pen rests. -/
def toLearn (μ : Motion) (δ : ℝ) : ℝ := δ * ‖μ.vel‖ + δ ^ 2 * ‖μ.acc‖ + δ ^ 3 * ‖μ.jerk‖

theorem steady_re (μ : Motion) (δ : ℝ) : Steady fun n i => (inSteps μ δ n i).re := by
  intro n
  ext i
  rw [transition_eq]
  fin_cases i <;> simp [inSteps, Motion.later, Matrix.mulVec, dotProduct, Fin.sum_univ_four, -Complex.real_smul, Complex.smul_re] <;> ring

theorem steady_im (μ : Motion) (δ : ℝ) : Steady fun n i => (inSteps μ δ n i).im := by
  intro n
  ext i
  rw [transition_eq]
  fin_cases i <;> simp [inSteps, Motion.later, Matrix.mulVec, dotProduct, Fin.sum_univ_four, -Complex.real_smul, Complex.smul_im] <;> ring

/-- The error of what is believed after evenly timed inputs. -/
theorem believe_evenly {q r : ℝ} (μ : Motion) (t₀ : ℝ) {δ : ℝ} (hδ : 0 < δ) (n : ℕ) (i : Fin 4) :
    ‖(⟨(believe q r ((evenly μ t₀ δ (n + 1)).map fun i => i.1.re)).mean i, (believe q r ((evenly μ t₀ δ (n + 1)).map fun i => i.1.im)).mean i⟩ : ℂ) -
      inSteps μ δ n i‖ ≤ rest q r n * toLearn μ δ := by
  have hre := off_fade (q := q) (r := r) (steady_re μ δ) n
  have him := off_fade (q := q) (r := r) (steady_im μ δ) n
  have e1 : believe q r ((evenly μ t₀ δ (n + 1)).map fun i => i.1.re) = learn q r (fun n => (inSteps μ δ n 0).re) n := by
    rw [← believe_range, evenly, List.map_map]
    rfl
  have e2 : believe q r ((evenly μ t₀ δ (n + 1)).map fun i => i.1.im) = learn q r (fun n => (inSteps μ δ n 0).im) n := by
    rw [← believe_range, evenly, List.map_map]
    rfl
  rw [e1, e2]
  have e3 : (⟨(learn q r (fun n => (inSteps μ δ n 0).re) n).mean i, (learn q r (fun n => (inSteps μ δ n 0).im) n).mean i⟩ : ℂ) - inSteps μ δ n i =
      ∑ k : Fin 3, fade q r n i k.succ • -(inSteps μ δ 0 k.succ) := by
    have h1 := congrFun hre i
    have h2 := congrFun him i
    have h3 : off q r (fun n i => (inSteps μ δ n i).re) n i = (learn q r (fun n => (inSteps μ δ n 0).re) n).mean i - (inSteps μ δ n i).re := rfl
    have h4 : off q r (fun n i => (inSteps μ δ n i).im) n i = (learn q r (fun n => (inSteps μ δ n 0).im) n).mean i - (inSteps μ δ n i).im := rfl
    rw [h3] at h1
    rw [h4] at h2
    apply Complex.ext
    · rw [Complex.sub_re, h1]
      simp [Matrix.mulVec, dotProduct, Fin.sum_univ_succ, off, learn, Belief.first]
    · rw [Complex.sub_im, h2]
      simp [Matrix.mulVec, dotProduct, Fin.sum_univ_succ, off, learn, Belief.first]
  have e4 : ∀ k : Fin 3, ‖inSteps μ δ 0 k.succ‖ ≤ toLearn μ δ := by
    intro k
    have g1 : ‖(δ : ℂ)‖ = δ := by simp [abs_of_pos hδ]
    have h1 : 0 ≤ δ * ‖μ.vel‖ := by positivity
    have h2 : 0 ≤ δ ^ 2 * ‖μ.acc‖ := by positivity
    have h3 : 0 ≤ δ ^ 3 * ‖μ.jerk‖ := by positivity
    unfold toLearn
    fin_cases k <;> simp [inSteps, later_zero, abs_of_pos hδ] <;> linarith
  rw [e3]
  have hn : 0 ≤ toLearn μ δ := by unfold toLearn; positivity
  calc _ ≤ ∑ k : Fin 3, ‖fade q r n i k.succ • -(inSteps μ δ 0 k.succ)‖ := norm_sum_le _ _
    _ ≤ ∑ k : Fin 3, |fade q r n i k.succ| * toLearn μ δ := by
      refine Finset.sum_le_sum fun k _ => ?_
      rw [norm_smul, norm_neg, Real.norm_eq_abs]
      exact mul_le_mul_of_nonneg_left (e4 k) (abs_nonneg _)
    _ ≤ _ := by
      rw [← Finset.sum_mul]
      refine mul_le_mul_of_nonneg_right ?_ hn
      exact Finset.single_le_sum (f := fun i => ∑ k : Fin 3, |fade q r n i k.succ|) (fun _ _ => Finset.sum_nonneg fun _ _ => abs_nonneg _)
        (Finset.mem_univ i)

/-- The length of a time step is taken to be too short. -/
theorem pace_evenly {K : Foresight} (hK : 2 ≤ K.times) (μ : Motion) (t₀ δ : ℝ) {n N : ℕ} (hn : 1 ≤ n) (hN : N = min K.times (n + 1)) :
    pace (latest K (evenly μ t₀ δ (n + 1))) = δ * (N - 1) / N := by
  have h : latest K (evenly μ t₀ δ (n + 1)) = (List.range N).map fun i : ℕ => t₀ + ((n + 1 - K.times + i : ℕ) : ℝ) * δ := by
    apply List.ext_getElem
    · simp [latest, evenly]
      omega
    · intro i h1 h2
      simp [latest, evenly]
  obtain ⟨M, rfl⟩ : ∃ M, N = M + 1 := ⟨N - 1, by omega⟩
  have e1 : ((List.range (M + 1)).map fun i : ℕ => t₀ + ((n + 1 - K.times + i : ℕ) : ℝ) * δ).getLastD 0 =
      t₀ + ((n + 1 - K.times + M : ℕ) : ℝ) * δ := by
    rw [List.range_succ, List.map_append]
    simp
  have e2 : ((List.range (M + 1)).map fun i : ℕ => t₀ + ((n + 1 - K.times + i : ℕ) : ℝ) * δ).headD 0 = t₀ + ((n + 1 - K.times : ℕ) : ℝ) * δ := by
    rw [List.range_succ_eq_map]
    simp
  rw [h, pace, e1, e2]
  simp
  congr 1
  ring

/-- The motion believed in after evenly timed inputs. -/
theorem sight_evenly {K : Foresight} (hK : 2 ≤ K.times) (μ : Motion) (t₀ : ℝ) {δ : ℝ} (hδ : 0 < δ) {n N : ℕ} (hn : 1 ≤ n)
    (hN : N = min K.times (n + 1)) :
    let est := sight K (evenly μ t₀ δ (n + 1))
    let pen := μ.later (n * δ)
    let f : ℝ := N / (N - 1)
    let e := rest K.process K.noise n * toLearn μ δ
    ‖est.pos - pen.pos‖ ≤ e ∧ ‖est.vel - f • pen.vel‖ ≤ f / δ * e ∧
    ‖est.acc - (K.accWeight * f ^ 2) • pen.acc‖ ≤ |K.accWeight| * (f / δ) ^ 2 * e ∧
    ‖est.jerk - (K.jerkWeight * f ^ 3) • pen.jerk‖ ≤ |K.jerkWeight| * (f / δ) ^ 3 * e := by
  intro est pen f e
  have hN2 : (2 : ℝ) ≤ N := by exact_mod_cast (by omega : 2 ≤ N)
  have hf : 0 < f := div_pos (by linarith) (by linarith)
  have hp : (pace (latest K (evenly μ t₀ δ (n + 1))))⁻¹ = f / δ := by
    rw [pace_evenly hK μ t₀ δ hn hN]
    simp only [f]
    have : (N : ℝ) - 1 ≠ 0 := by linarith
    field_simp
  have hb := fun i => believe_evenly (q := K.process) (r := K.noise) μ t₀ hδ n i
  have main : ∀ (w x : ℝ) (z c y : ℂ), 0 ≤ x → ‖z - c‖ ≤ e → y = x • c → ‖w • x • z - w • y‖ ≤ |w| * x * e := by
    rintro w x z c _ hx hz rfl
    rw [← smul_sub, ← smul_sub, norm_smul, norm_smul, Real.norm_eq_abs, Real.norm_eq_abs, abs_of_nonneg hx, mul_assoc]
    exact mul_le_mul_of_nonneg_left (mul_le_mul_of_nonneg_left hz hx) (abs_nonneg _)
  have hs : est = estimate K (believe K.process K.noise ((evenly μ t₀ δ (n + 1)).map fun i => i.1.re))
    (believe K.process K.noise ((evenly μ t₀ δ (n + 1)).map fun i => i.1.im)) (pace (latest K (evenly μ t₀ δ (n + 1)))) := rfl
  rw [hs]
  simp only [estimate, ← inv_pow, hp]
  refine ⟨hb 0, ?_, ?_, ?_⟩
  · have := main 1 (f / δ) _ _ (f • pen.vel) (by positivity) (hb 1) (by
      show _ = (f / δ) • (δ • pen.vel)
      rw [smul_smul]; congr 1; field_simp)
    simpa only [one_smul, abs_one, one_mul] using this
  · have := main K.accWeight ((f / δ) ^ 2) _ _ (f ^ 2 • pen.acc) (by positivity) (hb 2) (by
      show _ = ((f / δ) ^ 2) • (δ ^ 2 • pen.acc)
      rw [smul_smul]; congr 1; field_simp)
    rw [mul_smul]
    exact this
  · have := main K.jerkWeight ((f / δ) ^ 3) _ _ (f ^ 3 • pen.jerk) (by positivity) (hb 3) (by
      show _ = ((f / δ) ^ 3) • (δ ^ 3 • pen.jerk)
      rw [smul_smul]; congr 1; field_simp)
    rw [mul_smul]
    exact this

end Ref

/-- The pen goes on a motion with constant jerk, and its inputs come at even intervals `δ`, the last one being the `n`-th after the
Down: their positions are those of the motion at their times. -/
def Even (is : List (Input XR XR)) (μ : Ref.Motion) (t₀ δ : ℝ) (n : ℕ) : Prop :=
  is.length = n + 1 ∧ ∀ i (hi : i < is.length), is[i].position = V (μ.later (i * δ)).pos ∧ is[i].time = fin (t₀ + i * δ)

variable {ops : List (Op XR XR)} {rs : List (Response XR XR)} {m m' : StrokeModeler XR XR} {p : StrokeModelParams XR XR}
  {k : KalmanParams XR XR} {v : List (Result XR XR)} {r : Response XR XR}

theorem Even.ins {is : List (Input XR XR)} {μ : Ref.Motion} {t₀ δ : ℝ} {n : ℕ} (h : Even is μ t₀ δ n) {ins : List (ℂ × ℝ)}
    (h1 : (ins.map fun i => V i.1) = is.map (·.position)) (h2 : (ins.map fun i => fin i.2) = is.map (·.time)) :
    ins = Ref.evenly μ t₀ δ (n + 1) := by
  have hl : ins.length = n + 1 := by
    have := congrArg List.length h2
    simpa [h.1] using this
  apply List.ext_getElem
  · simp [hl, Ref.evenly]
  · intro i hi hi'
    have hi2 : i < is.length := by rw [h.1]; omega
    obtain ⟨g1, g2⟩ := h.2 i hi2
    have e1 : (ins.map fun i => V i.1)[i]'(by simpa using hi) = (is.map (·.position))[i]'(by simpa using hi2) := by simp only [h1]
    have e2 : (ins.map fun i => fin i.2)[i]'(by simpa using hi) = (is.map (·.time))[i]'(by simpa using hi2) := by simp only [h2]
    simp only [List.getElem_map] at e1 e2
    rw [g1] at e1
    rw [g2] at e2
    simp only [Ref.evenly, List.getElem_map, List.getElem_range]
    exact Prod.ext (V_inj.1 e1) (XR.fin.inj e2)

theorem Even.passes {is : List (Input XR XR)} {μ : Ref.Motion} {t₀ δ : ℝ} {n : ℕ} (h : Even is μ t₀ δ n) (hδ : 0 < δ) (hn : 1 ≤ n)
    (hk : 2 ≤ k.maxTimeSamples) : TimePasses k is := by
  have e : is.map (·.time) = (List.range (n + 1)).map fun i : ℕ => fin (t₀ + i * δ) := by
    apply List.ext_getElem
    · simp [h.1]
    · intro i h1 h2
      simp [(h.2 i (by simpa using h1)).2]
  obtain ⟨N, hN⟩ : ∃ N, k.maxTimeSamples.toNat = N + 2 := ⟨k.maxTimeSamples.toNat - 2, by omega⟩
  simp only [TimePasses, e, hN, lastN, List.length_map, List.length_range]
  rw [List.head?_drop, List.getLast?_drop]
  simp
  rw [List.range_succ, List.getLast?_concat]
  rintro x ⟨⟩
  exact ⟨by omega, hδ.ne'⟩

/-- C69 (partial), on exact numbers: the inputs of a stroke come at even intervals from a pen that moves with constant jerk; then the
Kalman prediction reaches an estimate from where it goes on with the estimated velocity, acceleration and jerk, and the distance
between the estimated position and the pen is at most a number `c n` times what the motion after the Down amounts to, where `n`
is the number of inputs after the Down and `c`, which is determined by the two variances alone, tends to 0; it is less than fifty
times the standard deviation of the two noises together from the fifth input on. The same is true of the other quantities but for
a factor.
Full statement: without the factor `f`, i.e. the estimated velocity approaches that of the pen. That is false (`C69_refuted`), as
the length of a time step is taken to be too short: the velocity comes out too great by the factor `N / (N - 1)`, where `N` is the
number of the inputs whose times are looked at; acceleration and jerk, but for their weights, by its square and cube. -/
theorem C69_learns_exact_partial {process noise : ℝ} (hp₀ : 0 < process) (hn₀ : 0 < noise) : ∃ c : ℕ → ℝ, Tendsto c atTop (𝓝 0) ∧
    (∀ n ≥ 4, c n ≤ 49 * √(process + noise)) ∧
    ∀ {ops rs m p k v m' r}, Session ops rs m → Regular ops rs → (known ops rs).params = some p → p.prediction = .kalman k →
      (known ops rs).prev ≠ none → p.wobble.isEnabled = false → p.position.loop.isEnabled = false →
      ∀ {rate wₐ wⱼ : ℝ}, p.sampling.minOutputRate = fin rate → k.processNoise = fin process → k.measurementNoise = fin noise →
      k.accelerationWeight = fin wₐ → k.jerkWeight = fin wⱼ →
      ∀ {pen : Ref.Motion} {t₀ δ : ℝ} {n : ℕ}, 0 < δ → 1 ≤ n → Even (acceptedOf (strokeOf ops rs)) pen t₀ δ n →
      k.minStableIteration ≤ n + 1 → 2 ≤ k.maxTimeSamples → step m (.predict v) = .ok (m', r) →
      let now := pen.later (n * δ)
      let N : ℝ := min k.maxTimeSamples (n + 1)
      let f := N / (N - 1)
      let e := c n * (δ * ‖pen.vel‖ + δ ^ 2 * ‖pen.acc‖ + δ ^ 3 * ‖pen.jerk‖)
      ∃ est : Ref.Motion,
        ‖est.pos - now.pos‖ ≤ e ∧ ‖est.vel - f • now.vel‖ ≤ f / δ * e ∧
        ‖est.acc - (wₐ * f ^ 2) • now.acc‖ ≤ |wₐ| * (f / δ) ^ 2 * e ∧
        ‖est.jerk - (wⱼ * f ^ 3) • now.jerk‖ ≤ |wⱼ| * (f / δ) ^ 3 * e ∧
        ∃ j < r.results.length, ∀ i (hi : i < r.results.length), j ≤ i →
          r.results[i].position = V (est.later ((i - j) / rate)).pos ∧ r.results[i].velocity = V (est.later ((i - j) / rate)).vel := by
  refine ⟨Ref.rest process noise, Ref.rest_tendsto hp₀.le hn₀, fun n hn => Ref.rest_le hp₀.le hn₀ hn, ?_⟩
  intro ops rs m p k v m' r h hr hp hk hi hw hl rate wₐ wⱼ hrate hpn hmn hwa hwj pen t₀ δ n hδ hn hev hst hkt hpred now N f e
  obtain ⟨P, K, ins, q, hb, j, c, hj1, hj2, -, -, -, -, -, -, hres⟩ := C43_connector_exact h hr hp hk hi (hev.passes hδ hn hkt)
    (by rw [hev.1]; exact_mod_cast hst) hl hpred
  obtain rfl := hev.ins (hb.places hw) hb.times
  have hKt : (K.times : ℤ) = k.maxTimeSamples := hb.foresees.times.symm
  have e1 : K.process = process := (XR.fin.inj (hpn.symm.trans hb.foresees.process)).symm
  have e2 : K.noise = noise := (XR.fin.inj (hmn.symm.trans hb.foresees.noise)).symm
  have e3 : K.accWeight = wₐ := (XR.fin.inj (hwa.symm.trans hb.foresees.accWeight)).symm
  have e4 : K.jerkWeight = wⱼ := (XR.fin.inj (hwj.symm.trans hb.foresees.jerkWeight)).symm
  have e5 : P.rate = rate := (XR.fin.inj (hrate.symm.trans hb.realizes.rate)).symm
  have e6 : ((min K.times (n + 1) : ℕ) : ℝ) = N := by
    simp only [N, ← hKt]
    push_cast
    rfl
  obtain ⟨g1, g2, g3, g4⟩ := Ref.sight_evenly (K := K) (by omega) pen t₀ hδ hn rfl
  rw [e1, e2] at g1 g2 g3 g4
  rw [e6] at g2 g3 g4
  rw [e3] at g3
  rw [e4] at g4
  refine ⟨_, g1, g2, g3, g4, j - 1, by omega, fun i hi hji => ?_⟩
  obtain ⟨-, h2, h3⟩ := hres i hi
  rw [e5] at h3
  rcases Nat.eq_or_lt_of_le hji with rfl | hlt
  · obtain ⟨a, b⟩ := h2 (by omega)
    rw [a, b, sub_self, zero_div, Ref.later_zero]
    exact ⟨rfl, rfl⟩
  · have := h3 (by omega)
    have hc : ((i : ℝ) - ((j - 1 : ℕ) : ℝ)) = i + 1 - j := by push_cast [hj1]; ring
    rw [hc]
    simp only [Result.kin, XR.tip, TipState.mk.injEq] at this
    exact ⟨this.1, this.2.1⟩

/-! ### A pen in uniform motion -/

namespace Ex

/-- Kalman parameters with hardly any noise, the length of a time step being taken from two inputs. -/
def xsure : KalmanParams XR XR :=
  { xkalman with
    processNoise := fin (1 / 10 ^ 8), measurementNoise := fin (1 / 10 ^ 8), maxTimeSamples := 2
    accelerationWeight := fin 0, jerkWeight := fin 0 }

/-- Parameters by which the tip is always at the last input: one step for each second, at the end of which the spring has
pulled the tip all the way. -/
def xdead : StrokeModelParams XR XR :=
  { xparams with
    wobble := { xparams.wobble with isEnabled := false }
    position := { xparams.position with springMassConstant := fin 1, dragConstant := fin 1 }
    sampling := { xparams.sampling with minOutputRate := fin 1 }
    prediction := .kalman xsure }

/-- The pen moves one unit to the right each second, from (a, 0) on. -/
def xmoves : ℕ → ℕ → List (Input XR XR)
  | _, 0 => []
  | a, n + 1 => xin .move (pt (a + 1 : ℕ) 0) (a + 1 : ℕ) 0.2 1 2 :: xmoves (a + 1) n

/-- A stroke of such inputs. -/
def xeven (n : ℕ) : List (Input XR XR) := xin .down (pt (0 : ℕ) 0) (0 : ℕ) 0.2 1 2 :: xmoves 0 n

theorem xmoves_length (a n : ℕ) : (xmoves a n).length = n := by
  induction n generalizing a with
  | zero => rfl
  | succ n ih => simp [xmoves, ih]

theorem xmoves_get (a n i : ℕ) (hi : i < (xmoves a n).length) : (xmoves a n)[i] = xin .move (pt (a + 1 + i : ℕ) 0) (a + 1 + i : ℕ) 0.2 1 2 := by
  induction n generalizing a i with
  | zero => simp [xmoves] at hi
  | succ n ih =>
    rcases i with _ | i
    · rfl
    · simp only [xmoves, List.getElem_cons_succ]
      rw [ih]
      congr 2 <;> (push_cast; ring)

theorem xeven_even (n : ℕ) : Even (xeven n) ⟨0, 1, 0, 0⟩ 0 1 n := by
  refine ⟨by simp [xeven, xmoves_length], fun i hi => ?_⟩
  rcases i with _ | i
  · simp [xeven, xin, Ref.later_zero, pt]
    apply Complex.ext <;> simp
  · simp only [xeven, List.getElem_cons_succ]
    rw [xmoves_get]
    simp only [xin, Ref.Motion.later]
    refine ⟨congrArg V ?_, congrArg fin ?_⟩
    · apply Complex.ext <;> simp [pt]
      ring
    · push_cast; ring

theorem xsure_valid : validateKalmanParams xsure = .ok := by
  simp only [xsure, xkalman]
  simp only [validateKalmanParams, validateGreaterThanZero,
    validateGreaterThanOrEqualToZero, validateGreaterThanZeroInt, validateIsFiniteNumber, lit0, lit1, fin_lt, fin_le]
  norm_num [ok_andThen]

theorem xdead_valid : validateStrokeModelParams xdead = .ok := by
  simp only [xdead, xparams]
  simp only [validateStrokeModelParams, validateWobbleParams, validatePositionModelerParams, validateLoopParams,
    validateSamplingParams, validateStylusParams, validatePredictionParams, validateGreaterThanZero,
    validateGreaterThanZeroInt, validateIsFiniteNumber, kMaxEndOfStrokeMaxIterations, xsure_valid,
    kMaxDiscreteSamples, lit0, lit1, fin_lt, fin_le, fin_eq, fin_neg]
  norm_num [ok_andThen]

theorem xmoves_follow (e : EventType) (a n : ℕ) : XR.Follows xdead (xin e (pt a 0) a 0.2 1 2) (xmoves a n) := by
  induction n generalizing e a with
  | zero => trivial
  | succ n ih => exact ⟨fits_xin (by push_cast; linarith), .inr ⟨rfl, by simp [xin, xdead, xparams]⟩, good_fin _, .inl rfl, ih _ _⟩

theorem xdead_realizes {P : Ref.Params} (h : Realizes xdead P) (hv : P.Valid) :
    P.mass = 1 ∧ P.drag = 1 ∧ P.rate = 1 ∧ P.maxOut = 20 ∧ P.maxAngle = none ∧ P.wobble = none := by
  have h9 := hv.maxAngle
  obtain ⟨h1, h2, h3, h4, h5, h6, h7, h8⟩ := h
  refine ⟨(XR.fin.inj h1).symm, (XR.fin.inj h2).symm, (XR.fin.inj h3).symm, h6.symm, ?_, ?_⟩
  · rcases hP : P.maxAngle with _ | a
    · rfl
    · rw [hP] at h7
      have := (h9 a hP).1
      have h10 : (-1 : ℝ) = a := XR.fin.inj h7
      linarith
  · rcases hP : P.wobble with _ | ⟨t, lo, hi⟩
    · rfl
    · rw [hP] at h8
      simp [xdead] at h8

/-- The tip is at the last input. -/
theorem xmoves_tip {P : Ref.Params} (h : Realizes xdead P) (hv : P.Valid) (n : ℕ) : ∀ (a : ℕ) (s : Ref.State), s.tip.pos = pt a 0 →
    s.tip.time = a → s.anchor = (pt a 0, (a : ℝ)) → (Ref.after P s ((xmoves a n).map touch)).tip.pos = pt (a + n : ℕ) 0 := by
  obtain ⟨h1, h2, h3, h4, h5, h6⟩ := xdead_realizes h hv
  induction n with
  | zero => intro a s hs _ _; simpa [xmoves, Ref.after] using hs
  | succ n ih =>
    intro a s hp ht ha
    have hs : Ref.steps P s.tip (pt (a + 1 : ℕ) 0) (((a + 1 : ℕ) : ℝ) - s.anchor.2) = 1 := by
      simp only [Ref.steps, h3, h5, ha]
      norm_num
    have hm : Ref.move P s (pt (a + 1 : ℕ) 0) ((a + 1 : ℕ) : ℝ) =
        (⟨Ref.spring P s.tip (pt (a + 1 : ℕ) 0, ((a + 1 : ℕ) : ℝ)), s.window, (pt (a + 1 : ℕ) 0, ((a + 1 : ℕ) : ℝ))⟩,
          some [Ref.spring P s.tip (pt (a + 1 : ℕ) 0, ((a + 1 : ℕ) : ℝ))]) := by
      simp only [Ref.move, Ref.smooth, h6, hs, h4]
      simp [Ref.upsample, Ref.follow, Ref.lerp, ha]
    have ht' : touch (xin .move (pt (a + 1 : ℕ) 0) ((a + 1 : ℕ) : ℝ) 0.2 1 2) = .move (pt (a + 1 : ℕ) 0) ((a + 1 : ℕ) : ℝ) := by
      simp [touch, xin]
    have := ih (a + 1) (Ref.move P s (pt (a + 1 : ℕ) 0) ((a + 1 : ℕ) : ℝ)).1 (by
        rw [hm]
        apply Complex.ext <;> simp [Ref.spring, h1, h2, hp, ht, pt]) (by rw [hm]; rfl) (by rw [hm])
    simp only [xmoves, List.map_cons, ht', Ref.after, List.foldl_cons, Ref.advance] at this ⊢
    rw [this]
    congr 2
    ring

theorem xeven_predict {n : ℕ} (hn : 4 ≤ n) (hn' : n < 2147483645) :
    ∃ rs m m' r, Session (calls xdead (xeven n)) rs m ∧ Regular (calls xdead (xeven n)) rs ∧
      (Ink.known (calls xdead (xeven n)) rs).params = some xdead ∧ (Ink.known (calls xdead (xeven n)) rs).prev ≠ none ∧
      acceptedOf (strokeOf (calls xdead (xeven n)) rs) = xeven n ∧ step m (.predict []) = .ok (m', r) := by
  obtain ⟨rs, m, hall⟩ := exists_stroke_safe xdead_valid rfl ⟨isFinite_fin _, isFinite_fin _, isFinite_fin _⟩
    (good_fin _) (xmoves_follow .down 0 n) (by rw [xmoves_length]; exact hn')
  rw [show (xin .down (pt (0 : ℕ) 0) (0 : ℕ) 0.2 1 2 :: xmoves 0 n) = xeven n from rfl] at hall
  obtain ⟨h, hr, hp, hs, hres, hsafe⟩ := hall
  have hacc : acceptedOf (strokeOf (calls xdead (xeven n)) rs) = xeven n := by
    rw [acceptedOf, List.filter_eq_self.2 hres, hs]
  obtain ⟨e₁, fs, hs₁, he₁, hf₁⟩ : ∃ e fs, strokeOf (calls xdead (xeven n)) rs = e :: fs ∧ e.input = xin .down (pt (0 : ℕ) 0) (0 : ℕ) 0.2 1 2 ∧
      fs.map Event.input = xmoves 0 n := by
    revert hs
    generalize strokeOf (calls xdead (xeven n)) rs = l
    intro hs
    match l, hs with
    | a :: b, hs =>
      simp only [List.map_cons, xeven, List.cons.injEq] at hs
      exact ⟨a, b, rfl, hs.1, hs.2⟩
    | [], h => simp [xeven] at h
  have hi : (Ink.known (calls xdead (xeven n)) rs).prev ≠ none := by
    obtain ⟨P, m₀, -, -, hc, hsame⟩ := h.stroke hr hp hs₁
    rcases fs.eq_nil_or_concat with rfl | ⟨gs, g, rfl⟩
    · have := congrArg List.length hf₁
      rw [xmoves_length] at this
      simp at this
      omega
    · have hg : g.input.eventType ≠ .up := by
        have h1 : g.input ∈ xmoves 0 n := by rw [← hf₁]; simp
        obtain ⟨i, hi, h2⟩ := List.getElem_of_mem h1
        rw [xmoves_get] at h2
        rw [← h2]
        simp [xin]
      rw [List.concat_eq_append, ← List.cons_append] at hc
      have hl := hc.goes_on hg
      rw [← h.known]
      simp only [StrokeModeler.known, hsame.last]
      simpa using hl
  obtain ⟨P, K, e, rest, w⟩ := h.watched hr hp (k := xsure) rfl hi
  have hst := w.stroke
  rw [hs₁, List.cons.injEq] at hst
  obtain ⟨rfl, rfl⟩ := hst
  have hins : news P e₁ fs = Ref.evenly ⟨0, 1, 0, 0⟩ 0 1 (n + 1) := by
    have h1 := w.positions rfl
    have h2 := w.times
    rw [hacc] at h1 h2
    exact (xeven_even n).ins h1 h2
  have hq : (state P e₁ fs).tip.pos = pt n 0 := by
    have h1 := xmoves_tip w.realizes w.valid n 0 (Ref.start (pt (0 : ℕ) 0) (0 : ℕ)) rfl rfl rfl
    rw [zero_add] at h1
    rw [← h1, state, ← hf₁, he₁, List.map_map]
    simp only [xin, toPoint_V, toReal_fin]
    rfl
  have hrate := (xdead_realizes w.realizes w.valid).2.2.1
  have hcu : K.catchup = 0.01 := (XR.fin.inj w.foresees.catchup).symm
  have hint : K.interval = 0.02 := (XR.fin.inj w.foresees.interval).symm
  have hpr : K.process = 1 / 10 ^ 8 := (XR.fin.inj w.foresees.process).symm
  have hno : K.noise = 1 / 10 ^ 8 := (XR.fin.inj w.foresees.noise).symm
  have hti : K.times = 2 := by have : (2 : ℤ) = (K.times : ℤ) := w.foresees.times; omega
  have hpace : Ref.pace (Ref.latest K (news P e₁ fs)) ≠ 0 := by
    rw [hins, Ref.pace_evenly (N := 2) hti.ge _ _ _ (by omega) (by omega)]
    norm_num
  have hb : Ref.beyond K P.rate (news P e₁ fs) ≤ 2147483647 := by
    unfold Ref.beyond Ref.horizon
    rw [Int.ceil_le, hint, hrate]
    have := (trust_mem w.validK (news P e₁ fs).length (((news P e₁ fs).map Prod.fst).getLastD 0) (Ref.sight K (news P e₁ fs))).2.2.2.2
    push_cast
    nlinarith [this.2]
  have hcatch : Ref.catchUp K P.rate (state P e₁ fs).tip (Ref.sight K (news P e₁ fs)) ≤ 2147483647 := by
    refine max_le (by norm_num) (Int.ceil_le.2 ?_)
    have hsee := (Ref.sight_evenly (K := K) hti.ge ⟨0, 1, 0, 0⟩ 0 (δ := 1) one_pos (n := n) (by omega) rfl).1
    have hle := Ref.rest_le (q := K.process) (r := K.noise) w.validK.process.le w.validK.noise hn
    have hsq : √(K.process + K.noise) ≤ 1 := Real.sqrt_le_one.2 (by rw [hpr, hno]; norm_num)
    have hpen : (Ref.Motion.later ⟨0, 1, 0, 0⟩ (n * 1)).pos = pt n 0 := by
      apply Complex.ext <;> simp [Ref.Motion.later, pt]
    rw [hpen] at hsee
    rw [hrate, hq, hins, mul_one]
    have hden : (0.01 : ℝ) ≤ max (max ‖(state P e₁ fs).tip.vel‖ ‖(Ref.sight K (Ref.evenly ⟨0, 1, 0, 0⟩ 0 1 (n + 1))).vel‖) K.catchup := by
      rw [hcu]; exact le_max_right _ _
    have hnum : ‖(Ref.sight K (Ref.evenly ⟨0, 1, 0, 0⟩ 0 1 (n + 1))).pos - pt n 0‖ ≤ 49 := by
      refine hsee.trans ?_
      simp [Ref.toLearn]
      linarith
    have := div_le_div₀ (by norm_num) hnum (by norm_num) hden
    push_cast
    norm_num at this ⊢
    linarith
  obtain ⟨q, hq₁, hq₂⟩ := w.kalman
  have hcp := (constructPrediction_eq w.foresees w.validK w.valid.rate w.realizes.rate (by rw [hins]; simp [Ref.evenly]) hq₂ (.inr hpace)
    (state P e₁ fs).tip).1 (.inr ⟨hcatch, hb⟩)
  obtain ⟨m', st, v', hm', -⟩ := predict_returns tame hsafe [] (by
    intro pr hpr
    rw [hq₁, Option.some.injEq] at hpr
    subst hpr
    exact ⟨_, by rw [w.tip]; exact hcp⟩)
  exact ⟨rs, m, m', ⟨st, v'⟩, h, hr, hp, hi, hacc, by simp [step, hm']⟩

end Ex

/-- C69 is false for the velocity: a pen moves at speed 1, at even intervals, for as long as one likes; still, after each of the
inputs from the fifth on, the speed at the end of the prediction is nearly 2. (The code divides the time between the first and the
last of the inputs by their number, and not by the number of intervals between them, kalman_predictor.cc:92-94; there are two of
them here. With the 20 of the unit tests the speed is wrong by a 19th.) -/
theorem C69_refuted : ∃ (p : StrokeModelParams XR XR) (k : KalmanParams XR XR), p.prediction = .kalman k ∧ p.wobble.isEnabled = false ∧
    p.position.loop.isEnabled = false ∧ ∀ n, 4 ≤ n → n < 2147483645 →
    ∃ ops rs m m' r, Session ops rs m ∧ Regular ops rs ∧ (known ops rs).params = some p ∧ (known ops rs).prev ≠ none ∧
      Even (acceptedOf (strokeOf ops rs)) ⟨0, 1, 0, 0⟩ 0 1 n ∧ step m (.predict []) = .ok (m', r) ∧
      ∃ last u, r.results.getLast? = some last ∧ last.velocity = V u ∧ 1.98 ≤ u.re := by
  refine ⟨Ex.xdead, Ex.xsure, rfl, rfl, rfl, fun n hn hn' => ?_⟩
  obtain ⟨rs, m, m', r, h, hr, hp, hi, hacc, hst⟩ := Ex.xeven_predict hn hn'
  have hev : Even (acceptedOf (strokeOf (calls Ex.xdead (Ex.xeven n)) rs)) ⟨0, 1, 0, 0⟩ 0 1 n := by rw [hacc]; exact Ex.xeven_even n
  refine ⟨_, rs, m, m', r, h, hr, hp, hi, hev, hst, ?_⟩
  obtain ⟨c, -, hc, hall⟩ := C69_learns_exact_partial (process := 1 / 10 ^ 8) (noise := 1 / 10 ^ 8) (by norm_num) (by norm_num)
  obtain ⟨est, -, h2, h3, h4, j, hj, h5⟩ := hall h hr hp (k := Ex.xsure) rfl hi rfl rfl rfl rfl rfl rfl rfl one_pos (by omega) hev
    (by simp [Ex.xsure, Ex.xkalman]; omega) (by simp [Ex.xsure]) hst
  have hlast : r.results.getLast? = some (r.results[r.results.length - 1]'(by omega)) := by
    rw [List.getLast?_eq_getElem?, List.getElem?_eq_getElem]
  refine ⟨_, est.vel, hlast, ?_, ?_⟩
  · obtain ⟨-, h7⟩ := h5 (r.results.length - 1) (by omega) (by omega)
    rw [h7]
    simp at h3 h4
    simp [Ref.Motion.later, h3, h4]
  · have hN : min ((Ex.xsure.maxTimeSamples : ℤ) : ℝ) (n + 1) = 2 := by
      simp only [Ex.xsure]
      rw [min_eq_left]
      · norm_num
      · have : (4 : ℝ) ≤ n := by exact_mod_cast hn
        push_cast
        linarith
    have hs : √(1 / 10 ^ 8 + 1 / 10 ^ 8) ≤ 0.00015 := Real.sqrt_le_iff.2 (by norm_num)
    have hcn := hc n hn
    rw [hN] at h2
    have h8 := (Complex.abs_re_le_norm _).trans h2
    rw [abs_le] at h8
    have h9 := h8.1
    simp [Ref.Motion.later] at h9
    norm_num at h9 ⊢
    linarith
end
end Ink
