import Verif.Exact.Units
/-!
# The modeler in other units, continued

The stylus data of the results, the wobble smoother, the predictors, and the modeler as a whole.
-/
namespace Ink
namespace XR
noncomputable section
open Scalar Arith

namespace Units
variable (U : Units)

/-! ### The stylus data of the results -/

theorem interp_one (x : XR) : fin 0 + fin 1 * (x - fin 0) = x := by
  rw [scale_one, sub_def]
  cases x <;> first | rfl | simp

theorem interpVec_one (p : Vec2 XR) : interpVec Vec2.zero p 1 = p := by
  simp only [interpVec, lit1, clamp01_fin]
  rw [clamp_of_one_le le_rfl]
  show Vec2.mk _ _ = p
  cases p
  congr 1
  · show Vec2.zero.x + fin 1 * (_ - Vec2.zero.x) = _
    simp only [Vec2.zero, lit0, interp_one]
  · show Vec2.zero.y + fin 1 * (_ - Vec2.zero.y) = _
    simp only [Vec2.zero, lit0, interp_one]

theorem interpTime_one (t : XR) : (interpTime 0 t (1 : XR) : XR) = t := by
  simp only [interpTime, lit1, lit0, clamp01_fin, widen_eq]
  rw [clamp_of_one_le le_rfl, show ∀ x : XR, x * fin 1 = fin 1 * x from fun x => ?_, interp_one]
  cases x with
  | nan => rfl
  | inf b =>
    rw [scale_inf one_pos]
    show XR.mul (inf b) (fin 1) = _
    simp [XR.mul, show ¬ (1 : ℝ) < 0 by norm_num]
  | fin r => simp

theorem interpResult_empty (t : TipState XR XR) :
    interpResult (StylusModeler.emptyResult) (makeResultFromTipState t StylusModeler.emptyResult) 1 =
      .ok (makeResultFromTipState t StylusModeler.emptyResult) := by
  have hlt : ((-1 : XR) <ᵇ 0) = true := by simp
  simp only [interpResult, StylusModeler.emptyResult, makeResultFromTipState, interpVec_one, interpTime_one, hlt, Bool.or_self, if_true,
    Outcome.pure_eq, Outcome.ok_bind]

theorem modelStylusGo_tip (st : StylusModeler XR XR) : ∀ (tips : List (TipState XR XR)) (loop : LoopModeler XR XR) (v s : XR),
    (st.state.inputs = [] → loop.params.isEnabled = false ∧ v = 1) →
    modelStylusGo (U.stylusModeler st) (tips.map U.tip) (U.loopModeler loop) v (U.time s) =
      (fun x => (U.loopModeler x.1, x.2.map U.result)) <$> modelStylusGo st tips loop v s
  | [], loop, v, s, h => rfl
  | t :: tips, loop, v, s, h => by
    simp only [List.map_cons, modelStylusGo]
    obtain ⟨i, j, hn⟩ := U.getStrokeNormal_tip t s
    have hm : ∀ r, makeResultFromTipState (U.tip t) (U.result r) = U.result (makeResultFromTipState t r) := fun _ => rfl
    have ht : (U.tip t).time = U.time t.time := rfl
    rw [hn]
    have key : ∀ r : Result XR XR, (st.state.inputs = [] → loop.params.isEnabled = false) →
        ((fun x : LoopModeler XR XR × XR => modelStylusGo (U.stylusModeler st) (tips.map U.tip) x.1 x.2 (U.tip t).time >>= fun y =>
          (pure (y.1, U.result r :: y.2) : Outcome _)) ((U.loopModeler loop).update (U.result r).velocity (U.tip t).time)) =
        (fun x => (U.loopModeler x.1, x.2.map U.result)) <$> ((fun x : LoopModeler XR XR × XR =>
          modelStylusGo st tips x.1 x.2 t.time >>= fun y =>
          (pure (y.1, r :: y.2) : Outcome _)) (loop.update r.velocity t.time)) := by
      intro r hr
      rw [show (U.result r).velocity = U.qv 1 (-1) r.velocity from rfl, ht, update_loop]
      have h' : st.state.inputs = [] → (loop.update r.velocity t.time).1.params.isEnabled = false ∧ (loop.update r.velocity t.time).2 = 1 := by
        intro he
        have := hr he
        simp only [LoopModeler.update, this, Bool.not_false, if_true, and_self]
      simp only [modelStylusGo_tip st tips _ _ _ h']
      cases modelStylusGo st tips (loop.update r.velocity t.time).1 (loop.update r.velocity t.time).2 t.time <;> rfl
    by_cases he : st.state.inputs = []
    · obtain ⟨hl, rfl⟩ := h he
      have h1 : st.query t (getStrokeNormal t s) = .ok StylusModeler.emptyResult := by simp [StylusModeler.query, he]
      have h2 : ∀ t n, (U.stylusModeler st).query t n = .ok StylusModeler.emptyResult := by
        intro t n; simp [StylusModeler.query, stylusModeler, stylusState, he]
      rw [h1, h2]
      simp only [Outcome.ok_bind, interpResult_empty]
      exact key (makeResultFromTipState t StylusModeler.emptyResult) fun _ => hl
    · rw [query_stylus _ _ _ _ _ _ he]
      cases st.query t (getStrokeNormal t s) with
      | ub w => rfl
      | diverge => rfl
      | ok r =>
        simp only [Outcome.map_ok, Outcome.ok_bind, hm, interpResult_result]
        cases interpResult r (makeResultFromTipState t r) v with
        | ub w => rfl
        | diverge => rfl
        | ok r => exact key r fun h => absurd h he

theorem modelStylus_tip (tips : List (TipState XR XR)) (st : StylusModeler XR XR) (loop : LoopModeler XR XR) (s : XR)
    (h : st.state.inputs = [] → loop.params.isEnabled = false) :
    modelStylus (tips.map U.tip) (U.stylusModeler st) (U.loopModeler loop) (U.time s) =
      (fun x => (U.loopModeler x.1, x.2.map U.result)) <$> modelStylus tips st loop s := by
  simp only [modelStylus, getInterpolationValue_loop]
  refine U.modelStylusGo_tip st tips loop _ s fun he => ⟨h he, ?_⟩
  simp [LoopModeler.getInterpolationValue, h he]

/-! ### The wobble smoother -/

/-- A coordinate of the sum of positions weighted by durations that add up to `d`; `v` is the coordinate of the old origin. -/
def ws (v : ℝ) (w d : XR) : XR := U.q 1 1 w + U.q 0 1 (d * fin v)
/-- The sum of positions weighted by durations that add up to `d`. -/
def wsum (w : Vec2 XR) (d : XR) : Vec2 XR := ⟨U.ws U.v.re w.x d, U.ws U.v.im w.y d⟩

def wobbleSample (s : WobbleSample XR XR) : WobbleSample XR XR :=
  { position := U.pos s.position, weightedPosition := U.wsum s.weightedPosition s.duration, distance := U.q 1 0 s.distance
    duration := U.q 0 1 s.duration, time := U.time s.time }

def wobbleState (s : WobbleState XR XR) : WobbleState XR XR :=
  { samples := s.samples.map U.wobbleSample, weightedPositionSum := U.wsum s.weightedPositionSum s.durationSum
    distanceSum := U.q 1 0 s.distanceSum, durationSum := U.q 0 1 s.durationSum }

theorem fin_mul_off (a : ℝ) (x : XR) (b : ℝ) : fin a * (x + fin b) = fin a * x + fin (a * b) := by
  cases x with
  | nan => rfl
  | fin r => simp [mul_add]
  | inf c =>
    show XR.mul (fin a) (inf c) = XR.add (XR.mul (fin a) (inf c)) _
    simp only [XR.mul]
    split <;> rfl

theorem off_sub (x y : XR) (b b' : ℝ) : (x + fin b) - (y + fin b') = (x - y) + fin (b - b') := by
  rw [sub_def, sub_def, sub_eq_add_neg, ← off_add_off]
  congr 1
  cases y <;> first | rfl | skip
  simp only [fin_add, fin_neg, fin_inj]; ring

theorem off_div (x : XR) (b : ℝ) {d : ℝ} (hd : d ≠ 0) : (x + fin b) / fin d = x / fin d + fin (b / d) := by
  cases x with
  | nan => rfl
  | fin r => simp [fin_div _ hd, add_div]
  | inf c => rfl

theorem ws_add (v : ℝ) (w w' : XR) (d d' : ℝ) : U.ws v w (fin d) + U.ws v w' (fin d') = U.ws v (w + w') (fin (d + d')) := by
  simp only [ws, fin_mul, q_fin, off_add_off, q_add]
  congr 2; ring
theorem ws_sub (v : ℝ) (w w' : XR) (d d' : ℝ) : U.ws v w (fin d) - U.ws v w' (fin d') = U.ws v (w - w') (fin (d - d')) := by
  simp only [ws, fin_mul, q_fin, off_sub, q_sub]
  congr 2; ring
theorem ws_mul (v : ℝ) (x : XR) (d : ℝ) : U.q 0 1 (fin d) * (U.q 1 0 x + fin v) = U.ws v (fin d * x) (fin d) := by
  simp only [ws, fin_mul, q_fin, fin_mul_off, mul_q]
  rw [← U.q_fin, q_mul, q_q]
  simp only [zpow_zero, zpow_one, one_mul, mul_assoc, add_zero, zero_add]
theorem ws_div (v : ℝ) (w : XR) {d : ℝ} (hd : d ≠ 0) : U.ws v w (fin d) / U.q 0 1 (fin d) = U.q 1 0 (w / fin d) + fin v := by
  simp only [ws, fin_mul, q_fin]
  have : U.c ^ (0 : ℤ) * U.τ ^ (1 : ℤ) * d ≠ 0 := mul_ne_zero (U.factor_pos 0 1).ne' hd
  rw [off_div _ _ this, ← U.q_fin, q_div, div_q, q_q]
  congr 2
  have := U.τ_pos.ne'
  field_simp

theorem wsum_add (w w' : Vec2 XR) (d d' : ℝ) :
    U.wsum w (fin d) + U.wsum w' (fin d') = U.wsum (w + w') (fin (d + d')) :=
  congrArg₂ Vec2.mk (U.ws_add _ _ _ _ _) (U.ws_add _ _ _ _ _)
theorem wsum_sub (w w' : Vec2 XR) (d d' : ℝ) :
    U.wsum w (fin d) - U.wsum w' (fin d') = U.wsum (w - w') (fin (d - d')) :=
  congrArg₂ Vec2.mk (U.ws_sub _ _ _ _ _) (U.ws_sub _ _ _ _ _)
theorem wsum_smul (p : Vec2 XR) (d : ℝ) : U.q 0 1 (fin d) •ᵥ U.pos p = U.wsum (fin d •ᵥ p) (fin d) :=
  congrArg₂ Vec2.mk (U.ws_mul _ _ _) (U.ws_mul _ _ _)
theorem wsum_sdiv (w : Vec2 XR) {d : ℝ} (hd : d ≠ 0) : U.wsum w (fin d) /ᵥ U.q 0 1 (fin d) = U.pos (w /ᵥ fin d) :=
  congrArg₂ Vec2.mk (U.ws_div _ _ hd) (U.ws_div _ _ hd)

/-- The durations are finite. -/
def Timed (s : WobbleState XR XR) : Prop :=
  (∀ x ∈ s.samples, (∃ d, x.duration = fin d) ∧ ∃ t, x.time = fin t) ∧ ∃ d, s.durationSum = fin d

theorem evict_wobble (l : XR) : ∀ (ss : List (WobbleSample XR XR)) (w : Vec2 XR) (dist : XR) (d : ℝ),
    (∀ x ∈ ss, (∃ d, x.duration = fin d) ∧ ∃ t, x.time = fin t) →
    WobbleSmoother.evict (U.time l) (ss.map U.wobbleSample) (U.wsum w (fin d)) (U.q 1 0 dist) (U.q 0 1 (fin d)) =
      U.wobbleState <$> WobbleSmoother.evict l ss w dist (fin d) ∧
      ∀ st, WobbleSmoother.evict l ss w dist (fin d) = .ok st → Timed st
  | [], w, dist, d, h => ⟨rfl, by intro st h; simp [WobbleSmoother.evict] at h⟩
  | s :: ss, w, dist, d, h => by
    simp only [List.map_cons, WobbleSmoother.evict]
    rw [show (U.wobbleSample s).time = U.time s.time from rfl, time_lt]
    obtain ⟨⟨e, he⟩, -⟩ := h s (by simp)
    have hss : ∀ x ∈ ss, (∃ d, x.duration = fin d) ∧ ∃ t, x.time = fin t := fun x hx => h x (by simp [hx])
    split
    · have h1 : U.wsum w (fin d) - (U.wobbleSample s).weightedPosition = U.wsum (w - s.weightedPosition) (fin (d - e)) := by
        rw [← wsum_sub, ← he]; rfl
      have h2 : U.q 1 0 dist - (U.wobbleSample s).distance = U.q 1 0 (dist - s.distance) := by rw [← q_sub]; rfl
      have h3 : (WobbleSmoother.subDouble (U.q 0 1 (fin d)) (U.wobbleSample s).duration : XR) = U.q 0 1 (fin (d - e)) := by
        simp only [WobbleSmoother.subDouble, widen_eq, narrow_eq]
        rw [← fin_sub, ← q_sub, ← he]; rfl
      have h4 : (WobbleSmoother.subDouble (fin d) s.duration : XR) = fin (d - e) := by
        simp only [WobbleSmoother.subDouble, widen_eq, narrow_eq, he, fin_sub]
      rw [h1, h2, h3, h4]
      exact evict_wobble l ss _ _ _ hss
    · refine ⟨rfl, ?_⟩
      intro st hst
      cases hst
      exact ⟨h, d, rfl⟩

theorem push_wobble (st : WobbleState XR XR) (last : WobbleSample XR XR) (p : Vec2 XR) (t : ℝ) (h : Timed st) (hl : last ∈ st.samples) :
    WobbleSmoother.push (U.wobbleState st) (U.wobbleSample last) (U.pos p) (U.time (fin t)) =
      U.wobbleState (WobbleSmoother.push st last p (fin t)) ∧ Timed (WobbleSmoother.push st last p (fin t)) := by
  obtain ⟨hs, d, hd⟩ := h
  obtain ⟨-, t', ht'⟩ := hs last hl
  constructor
  · simp only [WobbleSmoother.push]
    rw [show (U.wobbleSample last).time = U.time last.time from rfl, show (U.wobbleSample last).position = U.pos last.position from rfl,
      time_sub, narrow_eq, narrow_eq, distance_pos, ht', fin_sub, wsum_smul]
    simp only [wobbleState, List.map_append, List.map_cons, List.map_nil, WobbleSmoother.addDouble, widen_eq, narrow_eq, q_add, hd,
      wsum_add, fin_add]
    rfl
  · refine ⟨?_, d + (t - t'), ?_⟩
    · intro x hx
      simp only [WobbleSmoother.push, List.mem_append, List.mem_singleton] at hx
      rcases hx with hx | rfl
      · exact hs x hx
      · exact ⟨⟨t - t', by simp [ht']⟩, t, rfl⟩
    · simp [WobbleSmoother.push, WobbleSmoother.addDouble, hd, ht']

theorem smoothed_wobble (w : WobbleParams XR XR) (st : WobbleState XR XR) (p : Vec2 XR) (h : Timed st) :
    WobbleSmoother.smoothed (U.wobble w) (U.wobbleState st) (U.pos p) = U.pos (WobbleSmoother.smoothed w st p) := by
  obtain ⟨-, d, hd⟩ := h
  have h1 : (U.wobbleState st).durationSum = U.q 0 1 (fin d) := by rw [← hd]; rfl
  have h2 : (U.wobbleState st).weightedPositionSum = U.wsum st.weightedPositionSum (fin d) := by rw [← hd]; rfl
  have h3 : (U.wobbleState st).distanceSum = U.q 1 0 st.distanceSum := rfl
  simp only [WobbleSmoother.smoothed, h1, h2, h3, hd, lit0, q_eq_zero, wobble]
  split
  · rfl
  · next h0 =>
    have h0 : d ≠ 0 := by simpa using h0
    rw [wsum_sdiv _ _ h0, q_div, div_q, q_q]
    simp only [neg_zero, zero_add, Int.reduceNeg, add_zero, normalize01_q, interpVec_pos]

def wobbleSmoother (w : WobbleSmoother XR XR) : WobbleSmoother XR XR :=
  { w with state := U.wobbleState w.state, savedState := U.wobbleState w.savedState, params := U.wobble w.params }

theorem update_wobble (w : WobbleSmoother XR XR) (p : Vec2 XR) (t : ℝ) (h : Timed w.state) :
    (U.wobbleSmoother w).update (U.pos p) (U.time (fin t)) = (fun x => (U.wobbleSmoother x.1, U.pos x.2)) <$> w.update p (fin t) ∧
      ∀ w' q, w.update p (fin t) = .ok (w', q) → Timed w'.state ∧ w'.savedState = w.savedState ∧ w'.params = w.params := by
  have h1 : (U.wobbleSmoother w).params.isEnabled = w.params.isEnabled := rfl
  have h2 : (U.wobbleSmoother w).state.samples = w.state.samples.map U.wobbleSample := rfl
  simp only [WobbleSmoother.update, h1, h2, List.getLast?_map]
  split
  · refine ⟨rfl, ?_⟩
    intro w' q hw
    cases hw
    exact ⟨h, rfl, rfl⟩
  · cases hl : w.state.samples.getLast? with
    | none => exact ⟨rfl, by intro w' q hw; simp at hw⟩
    | some last =>
      obtain ⟨hp, hT⟩ := U.push_wobble w.state last p t h (List.mem_of_getLast? hl)
      have h3 : U.time (fin t) - (U.wobbleSmoother w).params.timeout = U.time (fin t - w.params.timeout) := by
        rw [← time_sub_q]; rfl
      obtain ⟨hTs, d, hd⟩ := hT
      have h4 : ∀ s, (U.wobbleState s).samples = s.samples.map U.wobbleSample := fun _ => rfl
      have h5 : (U.wobbleState (WobbleSmoother.push w.state last p (fin t))).weightedPositionSum =
        U.wsum (WobbleSmoother.push w.state last p (fin t)).weightedPositionSum (fin d) := by rw [← hd]; rfl
      have h6 : (U.wobbleState (WobbleSmoother.push w.state last p (fin t))).durationSum = U.q 0 1 (fin d) := by rw [← hd]; rfl
      have h7 : ∀ s, (U.wobbleState s).distanceSum = U.q 1 0 s.distanceSum := fun _ => rfl
      obtain ⟨he, hT'⟩ := U.evict_wobble (fin t - w.params.timeout) _ (WobbleSmoother.push w.state last p (fin t)).weightedPositionSum
        (WobbleSmoother.push w.state last p (fin t)).distanceSum d hTs
      simp only [Option.map_some]
      rw [show (U.wobbleSmoother w).state = U.wobbleState w.state from rfl, hp, h3, h4, h5, h6, h7, he, hd]
      cases hev : WobbleSmoother.evict (fin t - w.params.timeout) (WobbleSmoother.push w.state last p (fin t)).samples
        (WobbleSmoother.push w.state last p (fin t)).weightedPositionSum (WobbleSmoother.push w.state last p (fin t)).distanceSum (fin d) with
      | ub w => exact ⟨rfl, by intro w' q hw; simp at hw⟩
      | diverge => exact ⟨rfl, by intro w' q hw; simp at hw⟩
      | ok st =>
        have hst := hT' st hev
        refine ⟨?_, ?_⟩
        · simp only [Outcome.map_ok, Outcome.ok_bind, Outcome.pure_eq]
          rw [show (U.wobbleSmoother w).params = U.wobble w.params from rfl, smoothed_wobble _ _ _ _ hst]
          rfl
        · intro w' q hw
          simp only [Outcome.ok_bind, Outcome.pure_eq, Outcome.ok.injEq, Prod.mk.injEq] at hw
          obtain ⟨rfl, -⟩ := hw
          exact ⟨hst, rfl, rfl⟩

/-! ### The Kalman filter -/

theorem mul_one' (x : XR) : x * fin 1 = x := by
  cases x with
  | nan => rfl
  | inf b =>
    show XR.mul (inf b) (fin 1) = _
    simp [XR.mul, show ¬ (1 : ℝ) < 0 by norm_num]
  | fin r => simp
theorem zero_add' (x : XR) : fin 0 + x = x := by
  cases x <;> first | rfl | simp
theorem off_mul_zero (x : XR) (b : ℝ) : (x + fin b) * fin 0 = x * fin 0 := by
  cases x <;> first | rfl | simp

/-- The estimate of a coordinate; `b` is the coordinate of the old origin. -/
def vec4 (b : ℝ) (x : Vec4 XR) : Vec4 XR := ⟨U.q 1 0 x.e0 + fin b, U.q 1 0 x.e1, U.q 1 0 x.e2, U.q 1 0 x.e3⟩

theorem dot_vec4_one (b : ℝ) (x r : Vec4 XR) (hr : r.e0 = 1) : Vec4.dot (U.vec4 b x) r = U.q 1 0 (Vec4.dot x r) + fin b := by
  simp only [Vec4.dot, hr, lit1, lit0, vec4, mul_one', zero_add', q_mul, off_add, q_add]
theorem dot_vec4_zero (b : ℝ) (x r : Vec4 XR) (hr : r.e0 = 0) : Vec4.dot (U.vec4 b x) r = U.q 1 0 (Vec4.dot x r) := by
  simp only [Vec4.dot, hr, lit0, vec4, off_mul_zero, zero_add', q_mul, q_add]

/-- The filter has the matrices of axis_predictor.cc. -/
structure Std (f : KalmanFilter XR) : Prop where
  r0 : f.stateTransition.r0.e0 = 1
  r1 : f.stateTransition.r1.e0 = 0
  r2 : f.stateTransition.r2.e0 = 0
  r3 : f.stateTransition.r3.e0 = 0
  h : f.measurementVector = ⟨1, 0, 0, 0⟩
  iter : 0 ≤ f.iterNum
  min : 0 < f.minStableIteration

/-- Before the first observation the estimate means nothing. -/
def axis (b : ℝ) (f : KalmanFilter XR) : KalmanFilter XR :=
  { f with stateEstimation := if f.iterNum = 0 then { U.vec4 b f.stateEstimation with e0 := f.stateEstimation.e0 } else U.vec4 b f.stateEstimation }

theorem mulVec_vec4 (b : ℝ) (m : Matrix4 XR) (x : Vec4 XR) (h0 : m.r0.e0 = 1) (h1 : m.r1.e0 = 0) (h2 : m.r2.e0 = 0) (h3 : m.r3.e0 = 0) :
    m.mulVec (U.vec4 b x) = U.vec4 b (m.mulVec x) := by
  simp only [Matrix4.mulVec, U.dot_vec4_one b x _ h0, U.dot_vec4_zero b x _ h1, U.dot_vec4_zero b x _ h2, U.dot_vec4_zero b x _ h3]
  rfl

theorem predict_axis (b : ℝ) (f : KalmanFilter XR) (hf : Std f) :
    KalmanFilter.predict { f with stateEstimation := U.vec4 b f.stateEstimation } =
      { f.predict with stateEstimation := U.vec4 b f.predict.stateEstimation } := by
  simp only [KalmanFilter.predict, U.mulVec_vec4 b _ _ hf.r0 hf.r1 hf.r2 hf.r3]

theorem one_mul_off (x : XR) (b : ℝ) : fin 1 * (x + fin b) = fin 1 * x + fin b := by rw [scale_one, scale_one]

theorem correct_axis (b : ℝ) (f : KalmanFilter XR) (hf : f.measurementVector = ⟨1, 0, 0, 0⟩) (o : XR) :
    KalmanFilter.correct { f with stateEstimation := U.vec4 b f.stateEstimation } (U.q 1 0 o + fin b) =
      { f.correct o with stateEstimation := U.vec4 b (f.correct o).stateEstimation } := by
  have hy : (U.q 1 0 o + fin b) - Vec4.dot (⟨1, 0, 0, 0⟩ : Vec4 XR) (U.vec4 b f.stateEstimation) =
      U.q 1 0 (o - Vec4.dot (⟨1, 0, 0, 0⟩ : Vec4 XR) f.stateEstimation) := by
    simp only [Vec4.dot, vec4, lit0, lit1, zero_add', one_mul_off, mul_q, off_add, q_add, off_sub_off, q_sub]
  simp only [KalmanFilter.correct, hf, hy]
  congr 1
  simp only [Vec4.add, Vec4.scale, vec4, mul_q, off_add, q_add]

theorem update_axis (b : ℝ) (f : KalmanFilter XR) (hf : Std f) (o : XR) :
    (U.axis b f).update (U.q 1 0 o + fin b) = U.axis b <$> f.update o ∧ ∀ f', f.update o = .ok f' → Std f' := by
  have hi : (U.axis b f).iterNum = f.iterNum := rfl
  simp only [KalmanFilter.update, hi]
  split
  · exact ⟨rfl, by intro f' h; cases h⟩
  · split
    · next h0 =>
      refine ⟨?_, ?_⟩
      · simp only [Outcome.map_ok, axis, h0, zero_add, if_true, if_neg (one_ne_zero : (1 : ℤ) ≠ 0)]
        rfl
      · rintro f' ⟨⟩
        exact ⟨hf.r0, hf.r1, hf.r2, hf.r3, hf.h, by simp [h0], hf.min⟩
    · next h0 =>
      have h1 : f.iterNum + 1 ≠ 0 := by have := hf.iter; omega
      refine ⟨?_, ?_⟩
      · have e1 : ({ U.axis b f with iterNum := f.iterNum + 1 } : KalmanFilter XR) =
            { ({ f with iterNum := f.iterNum + 1 } : KalmanFilter XR) with
              stateEstimation := U.vec4 b ({ f with iterNum := f.iterNum + 1 } : KalmanFilter XR).stateEstimation } := by
          simp only [axis, if_neg h0]
        have hs : Std { f with iterNum := f.iterNum + 1 } := ⟨hf.r0, hf.r1, hf.r2, hf.r3, hf.h, by have := hf.iter; simp; omega, hf.min⟩
        rw [e1, U.predict_axis b _ hs]
        refine (congrArg Outcome.ok (U.correct_axis b ({ f with iterNum := f.iterNum + 1 } : KalmanFilter XR).predict hf.h o)).trans ?_
        simp only [Outcome.map_ok, axis]
        rw [if_neg]
        exact h1
      · rintro f' ⟨⟩
        exact ⟨hf.r0, hf.r1, hf.r2, hf.r3, hf.h, by have := hf.iter; simp only [KalmanFilter.correct, KalmanFilter.predict]; omega, hf.min⟩

theorem make_std {n r : XR} {k : ℤ} (hk : 0 < k) : Std (makeKalmanFilter n r k) := ⟨rfl, rfl, rfl, rfl, rfl, le_rfl, hk⟩

theorem reset_axis (b : ℝ) (f : KalmanFilter XR) : (U.axis b f).reset = U.axis b f.reset := by
  simp [KalmanFilter.reset, axis, Vec4.zero, vec4]

theorem make_axis (b : ℝ) (n r : XR) (k : ℤ) : U.axis b (makeKalmanFilter n r k) = makeKalmanFilter n r k := by
  simp [makeKalmanFilter, KalmanFilter.mk', axis, Vec4.zero, vec4]

theorem reset_std {f : KalmanFilter XR} (hf : Std f) : Std f.reset := ⟨hf.r0, hf.r1, hf.r2, hf.r3, hf.h, le_rfl, hf.min⟩

/-! ### The Kalman predictor -/

def kalmanPredictor (p : KalmanPredictor XR XR) : KalmanPredictor XR XR :=
  { params := U.kalman p.params, sampling := U.sampling p.sampling, lastPositionReceived := p.lastPositionReceived.map U.pos
    sampleTimes := p.sampleTimes.map U.time, xPredictor := U.axis U.v.re p.xPredictor, yPredictor := U.axis U.v.im p.yPredictor }

theorem update_kalman (p : KalmanPredictor XR XR) (hx : Std p.xPredictor) (hy : Std p.yPredictor) (z : Vec2 XR) (t : XR) :
    (U.kalmanPredictor p).update (U.pos z) (U.time t) = U.kalmanPredictor <$> p.update z t ∧
      ∀ p', p.update z t = .ok p' → Std p'.xPredictor ∧ Std p'.yPredictor := by
  obtain ⟨hx1, hx2⟩ := U.update_axis U.v.re p.xPredictor hx z.x
  obtain ⟨hy1, hy2⟩ := U.update_axis U.v.im p.yPredictor hy z.y
  have e1 : (U.kalmanPredictor p).sampleTimes ++ [U.time t] = (p.sampleTimes ++ [t]).map U.time := by
    rw [List.map_append]; rfl
  simp only [KalmanPredictor.update, e1, List.length_map, widen_eq]
  rw [show (U.kalmanPredictor p).xPredictor.update (U.pos z).x = U.axis U.v.re <$> p.xPredictor.update z.x from hx1,
    show (U.kalmanPredictor p).yPredictor.update (U.pos z).y = U.axis U.v.im <$> p.yPredictor.update z.y from hy1]
  cases h1 : p.xPredictor.update z.x with
  | ub w => exact ⟨rfl, by intro p' h; cases h⟩
  | diverge => exact ⟨rfl, by intro p' h; cases h⟩
  | ok x =>
    cases h2 : p.yPredictor.update z.y with
    | ub w => exact ⟨rfl, by intro p' h; cases h⟩
    | diverge => exact ⟨rfl, by intro p' h; cases h⟩
    | ok y =>
      refine ⟨?_, ?_⟩
      · simp only [Outcome.map_ok, Outcome.ok_bind, Outcome.pure_eq, kalmanPredictor, Option.map_some]
        congr 2
        by_cases hc : p.params.maxTimeSamples < 0 ∨ ((p.sampleTimes ++ [t]).length : ℤ) > p.params.maxTimeSamples
        · refine (if_pos hc).trans ?_
          rw [if_pos hc, List.map_tail]
        · refine (if_neg hc).trans ?_
          rw [if_neg hc]
      · intro p' h
        cases h
        exact ⟨hx2 x h1, hy2 y h2⟩

def kst (s : KalmanState XR) : KalmanState XR :=
  { position := U.pos s.position, velocity := U.qv 1 (-1) s.velocity, acceleration := U.qv 1 (-2) s.acceleration
    jerk := U.qv 1 (-3) s.jerk }

theorem evaluateCubic_kst (s : KalmanState XR) (t : XR) : evaluateCubic (U.kst s) (U.q 0 1 t) = U.kst (evaluateCubic s t) := by
  simp only [evaluateCubic, kst, narrow_eq, q_mul, mul_q, q_q, q_smul, smul_qv, qv_sdiv, qv_qv, Int.reduceNeg, Int.reduceAdd, add_zero,
    qv_add, pos_add]

theorem estimate_kalman (p : KalmanPredictor XR XR) (hx : p.xPredictor.iterNum ≠ 0) (hy : p.yPredictor.iterNum ≠ 0) (t : XR) :
    (U.kalmanPredictor p).estimate (U.q 0 1 t) = U.kst (p.estimate t) := by
  have ex : (U.kalmanPredictor p).xPredictor.stateEstimation = U.vec4 U.v.re p.xPredictor.stateEstimation := by
    simp [kalmanPredictor, axis, hx]
  have ey : (U.kalmanPredictor p).yPredictor.stateEstimation = U.vec4 U.v.im p.yPredictor.stateEstimation := by
    simp [kalmanPredictor, axis, hy]
  have hq : ∀ a b : XR, (⟨U.q 1 0 a, U.q 1 0 b⟩ : Vec2 XR) = U.qv 1 0 ⟨a, b⟩ := fun _ _ => rfl
  simp only [KalmanPredictor.estimate, ex, ey, vec4, narrow_eq, hq, q_mul, mul_q, q_q, qv_sdiv, sdiv_q, smul_qv, qv_qv, Int.reduceNeg,
    Int.reduceAdd, add_zero, zero_add, neg_zero, kst]
  rfl

theorem getEstimatedState_kalman (p : KalmanPredictor XR XR) (hx : Std p.xPredictor) (hy : Std p.yPredictor) :
    (U.kalmanPredictor p).getEstimatedState = p.getEstimatedState.map U.kst := by
  have hs : (U.kalmanPredictor p).isStable = p.isStable := rfl
  have hl : (U.kalmanPredictor p).sampleTimes = p.sampleTimes.map U.time := rfl
  simp only [KalmanPredictor.getEstimatedState, hs, hl, List.head?_map, List.getLast?_map, List.length_map]
  cases hst : p.isStable with
  | false => rfl
  | true =>
    simp only [KalmanPredictor.isStable, KalmanFilter.stable, Bool.and_eq_true, decide_eq_true_eq] at hst
    have h1 := hx.min
    have h2 := hy.min
    cases p.sampleTimes.head? <;> cases p.sampleTimes.getLast? <;> simp only [Option.map_none, Option.map_some] <;> try rfl
    rename_i a b
    rw [show (KalmanPredictor.averageDt (U.time a) (U.time b) p.sampleTimes.length : XR) =
      U.q 0 1 (KalmanPredictor.averageDt a b p.sampleTimes.length) by
        simp only [KalmanPredictor.averageDt, time_sub, narrow_eq, q_div], U.estimate_kalman p (by omega) (by omega)]
    rfl

theorem cubicPrediction_kst (dt : XR) (k : ℕ) : ∀ (s : KalmanState XR) (t : XR),
    KalmanPredictor.cubicPrediction (U.q 0 1 dt) k (U.kst s) (U.time t) =
      (KalmanPredictor.cubicPrediction dt k s t).map U.tip := by
  induction k with
  | zero => intro s t; rfl
  | succ k ih =>
    intro s t
    simp only [KalmanPredictor.cubicPrediction, evaluateCubic_kst, time_add, ih, List.map_cons]
    rfl

theorem connectorPoints_kst (last : TipState XR XR) (est : KalmanState XR) (p : KalmanParams XR XR) (dt : XR) :
    KalmanPredictor.connectorPoints (U.tip last) (U.kst est) (U.kalman p) (U.q 0 1 dt) =
      KalmanPredictor.connectorPoints last est p dt := by
  have hi : (inf false : XR) = U.q 1 0 (inf false) := (U.q_inf 1 0 false).symm
  simp only [KalmanPredictor.connectorPoints, tip, kst, kalman, distance_pos, qv_magnitude, q_stdMax, maxFinite_eq]
  conv_lhs => rw [hi]
  simp only [q_stdMin, q_div, div_q, q_q, widen_eq, narrow_eq, Int.reduceNeg, Int.reduceAdd, neg_zero, add_zero, neg_neg, q_one]

def cubic (c : KalmanPredictor.Cubic XR) : KalmanPredictor.Cubic XR :=
  { a := U.qv 1 0 c.a, b := U.qv 1 0 c.b, c := U.qv 1 0 c.c, d := U.pos c.d }

theorem smul_pos_sub (k : ℝ) (x y : Vec2 XR) : (fin k •ᵥ U.pos x) - (fin k •ᵥ U.pos y) = U.qv 1 0 ((fin k •ᵥ x) - (fin k •ᵥ y)) := by
  have h : ∀ (a b : XR) (v : ℝ), fin k * (U.q 1 0 a + fin v) - fin k * (U.q 1 0 b + fin v) = U.q 1 0 (fin k * a - fin k * b) := by
    intro a b v
    rw [fin_mul_off, fin_mul_off, off_sub_off, mul_q, mul_q, q_sub]
  exact congrArg₂ Vec2.mk (h _ _ _) (h _ _ _)

theorem smul_pos_add (j k : ℝ) (hjk : j + k = 0) (x y : Vec2 XR) :
    (fin j •ᵥ U.pos x) + (fin k •ᵥ U.pos y) = U.qv 1 0 ((fin j •ᵥ x) + (fin k •ᵥ y)) := by
  have h : ∀ (a b : XR) (v : ℝ), fin j * (U.q 1 0 a + fin v) + fin k * (U.q 1 0 b + fin v) = U.q 1 0 (fin j * a + fin k * b) := by
    intro a b v
    rw [fin_mul_off, fin_mul_off, off_add_off, mul_q, mul_q, q_add, ← add_mul, hjk, zero_mul, off_zero]
  exact congrArg₂ Vec2.mk (h _ _ _) (h _ _ _)

theorem connectorCubic_kst (last : TipState XR XR) (est : KalmanState XR) (d : XR) :
    KalmanPredictor.connectorCubic (U.tip last) (U.kst est) (U.q 0 1 d) = U.cubic (KalmanPredictor.connectorCubic last est d) := by
  have h2 : (2 : XR) = fin 2 := by simp
  have h3' : (3 : XR) = fin 3 := by simp
  simp only [KalmanPredictor.connectorCubic, tip, kst, cubic, h2, h3', fin_neg, smul_pos_sub, U.smul_pos_add (-3) 3 (by norm_num), q_smul,
    smul_qv, qv_qv, qv_add, qv_sub, Int.reduceNeg, Int.reduceAdd, add_zero]

theorem connectorPoint_cubic (c : KalmanPredictor.Cubic XR) (t d fd : XR) (n i : ℤ) :
    KalmanPredictor.connectorPoint (U.cubic c) (U.time t) (U.q 0 1 d) (U.q 0 1 fd) n i =
      U.tip (KalmanPredictor.connectorPoint c t d fd n i) := by
  have hc : ∀ x y : Vec2 XR, U.qv 1 0 x + U.pos y = U.pos (x + y) := by
    intro x y
    have h : ∀ (a b : XR) (v : ℝ), U.q 1 0 a + (U.q 1 0 b + fin v) = U.q 1 0 (a + b) + fin v := by
      intro a b v
      rw [← q_add]
      have := off_add_off 0 v (U.q 1 0 a) (U.q 1 0 b)
      rw [off_zero, zero_add] at this
      exact this
    exact congrArg₂ Vec2.mk (h _ _ _) (h _ _ _)
  simp only [KalmanPredictor.connectorPoint, cubic, smul_qv, qv_add, hc, qv_sdiv, sdiv_q, q_mul, mul_q, q_q, qv_qv, widen_eq, time_add,
    Int.reduceNeg, Int.reduceAdd, add_zero, zero_add, neg_zero, tip]

theorem connectorGo_cubic (c : KalmanPredictor.Cubic XR) (t d fd : XR) (n : ℤ) (k : ℕ) : ∀ i : ℤ,
    KalmanPredictor.connectorGo (U.cubic c) (U.time t) (U.q 0 1 d) (U.q 0 1 fd) n k i =
      (KalmanPredictor.connectorGo c t d fd n k i).map U.tip := by
  induction k with
  | zero => intro i; rfl
  | succ k ih => intro i; simp only [KalmanPredictor.connectorGo, connectorPoint_cubic, ih, List.map_cons]

theorem cubicConnector_kst (last : TipState XR XR) (est : KalmanState XR) (p : KalmanParams XR XR) (dt : XR) :
    KalmanPredictor.cubicConnector (U.tip last) (U.kst est) (U.kalman p) (U.q 0 1 dt) =
      (List.map U.tip) <$> KalmanPredictor.cubicConnector last est p dt := by
  simp only [KalmanPredictor.cubicConnector, connectorPoints_kst]
  cases KalmanPredictor.connectorPoints last est p dt with
  | ub w => rfl
  | diverge => rfl
  | ok n =>
    simp only [Outcome.ok_bind, Outcome.pure_eq, Outcome.map_ok, mul_q, narrow_eq, connectorCubic_kst]
    rw [show (U.tip last).time = U.time last.time from rfl, connectorGo_cubic]

theorem confidence_kst (p : KalmanPredictor XR XR) (z : Vec2 XR) (est : KalmanState XR) :
    (U.kalmanPredictor p).confidence (U.pos z) (U.kst est) = p.confidence z est := by
  have h1 : (U.kalmanPredictor p).params.predictionInterval = U.q 0 1 p.params.predictionInterval := rfl
  have h2 : (U.kalmanPredictor p).params.confidence = U.confidence p.params.confidence := rfl
  have h3 : (U.kst est).position = U.pos est.position := rfl
  have h4 : (U.kst est).velocity = U.qv 1 (-1) est.velocity := rfl
  have h5 : ∀ s, (U.kst s).position = U.pos s.position := fun _ => rfl
  have h0 : (0 : XR) = U.q 1 0 (fin 0) := by simp
  simp only [KalmanPredictor.confidence, h1, h2, h3, h4, h5, narrow_eq, evaluateCubic_kst, distance_pos, q_smul, smul_qv, qv_qv, q_div, div_q,
    q_q, Int.reduceNeg, Int.reduceAdd, add_zero, zero_add, neg_zero, pos_add, confidence, normalize01_q]
  have hn : ∀ x y, normalize01 (0 : XR) (U.q 1 0 x) (U.q 1 0 y) = normalize01 0 x y := by
    intro x y
    have := U.normalize01_q 1 0 (fin 0) x y
    rw [q_zero] at this
    simpa using this
  simp only [hn]
  rfl

theorem numberOfPoints_kst (p : KalmanPredictor XR XR) (est : KalmanState XR) :
    (U.kalmanPredictor p).numberOfPointsToPredict (U.kst est) = p.numberOfPointsToPredict est := by
  have h1 : (U.kalmanPredictor p).lastPositionReceived = p.lastPositionReceived.map U.pos := rfl
  have h2 : (U.kalmanPredictor p).params.predictionInterval = U.q 0 1 p.params.predictionInterval := rfl
  have h3 : (U.kalmanPredictor p).sampling.minOutputRate = U.q 0 (-1) p.sampling.minOutputRate := rfl
  simp only [KalmanPredictor.numberOfPointsToPredict, h1, h2, h3]
  cases p.lastPositionReceived with
  | none => rfl
  | some z => simp only [Option.map_some, confidence_kst, q_mul, mul_q, q_q, Int.reduceNeg, Int.reduceAdd, add_zero, q_one]

theorem constructPrediction_kalman (p : KalmanPredictor XR XR) (hx : Std p.xPredictor) (hy : Std p.yPredictor) (last : TipState XR XR) :
    (U.kalmanPredictor p).constructPrediction (U.tip last) = (List.map U.tip) <$> p.constructPrediction last := by
  have h1 : (U.kalmanPredictor p).lastPositionReceived = p.lastPositionReceived.map U.pos := rfl
  have h3 : (U.kalmanPredictor p).sampling.minOutputRate = U.q 0 (-1) p.sampling.minOutputRate := rfl
  have h4 : (U.kalmanPredictor p).params = U.kalman p.params := rfl
  have h5 : (U.tip last).time = U.time last.time := rfl
  simp only [KalmanPredictor.constructPrediction, U.getEstimatedState_kalman p hx hy, h1, h3, h4, h5]
  cases p.getEstimatedState with
  | none => rfl
  | some est =>
    cases p.lastPositionReceived with
    | none => rfl
    | some z =>
      simp only [Option.map_some, one_div_rate, cubicConnector_kst, numberOfPoints_kst]
      cases KalmanPredictor.cubicConnector last est p.params (1 / p.sampling.minOutputRate) with
      | ub w => rfl
      | diverge => rfl
      | ok l =>
        simp only [Outcome.map_ok, Outcome.ok_bind, List.getLast?_map]
        cases p.numberOfPointsToPredict est with
        | ub w => rfl
        | diverge => rfl
        | ok n =>
          simp only [Outcome.ok_bind, Outcome.pure_eq, Outcome.map_ok, List.map_append]
          cases l.getLast? with
          | none => simp only [Option.map_none, cubicPrediction_kst]
          | some s => simp only [Option.map_some, ← cubicPrediction_kst]; rfl

end Units
end
end XR
end Ink
