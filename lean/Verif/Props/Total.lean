import Verif.IEEE.Tame
import Verif.Lemmas.Predictor
import Verif.Props.Counts
import Verif.Props.Forecast
import Mathlib.Analysis.Real.Pi.Bounds
/-!
# Calls return: C20, C21, C22
-/
namespace Ink
open Scalar Arith

/-! ## C22 -/

namespace Fl
variable [Libm]

/-- A float is NaN or of magnitude at most 2^27. -/
def Moderate (a : Fl f32) : Prop := ∀ r, val a = some r → ((-2 ^ 27 : ℝ) : EReal) ≤ r ∧ r ≤ ((2 ^ 27 : ℝ) : EReal)

omit [Libm] in
theorem moderate_iff {a : Fl f32} : Moderate a ↔ Mild a := by
  have hh : (2 : ℝ) ^ 27 < f32.huge := two_pow_lt_huge (by decide)
  have hi : num (inf false : Fl f32) = f32.huge := by
    unfold num Fmt.huge; simp [key, sgn]
  have hi' : num (inf true : Fl f32) = -f32.huge := by
    unfold num Fmt.huge; simp [key, sgn]; ring
  have h0 : (0 : ℝ) < f32.huge := lt_trans (by positivity) hh
  cases a with
  | nan => simp [Moderate, Mild, isNaN, val]
  | inf a =>
    cases a
    · simp only [Moderate, Mild, isNaN, hi, val, Bool.false_eq_true, ↓reduceIte, Option.some.injEq, forall_eq', false_or,
        top_le_iff, EReal.coe_ne_top, and_false, false_iff, not_le, abs_of_pos h0]
      exact hh
    · simp only [Moderate, Mild, isNaN, hi', val, Bool.false_eq_true, ↓reduceIte, Option.some.injEq, forall_eq', false_or,
        le_bot_iff, EReal.coe_ne_bot, false_and, false_iff, not_le, abs_neg, abs_of_pos h0]
      exact hh
  | fin a k h =>
    have : val (fin a k h) = _ := val_num ⟨rfl, rfl⟩
    simp only [Moderate, this, Mild, isNaN, Bool.false_eq_true, Option.some.injEq, forall_eq', EReal.coe_le_coe_iff, false_or, abs_le]

omit [Libm] in
theorem tau_lt_two_pi : tau < 2 * Real.pi := by
  have := Real.pi_gt_d20
  unfold tau
  norm_num at this ⊢
  linarith

end Fl

section
open Fl
variable [Libm]

/-- C22: on floats, interpolating between two angles returns if and only if each of them is NaN or of magnitude at most
2^27; otherwise it loops forever. What it returns is NaN if an argument is, and an angle in [0, 2π) otherwise. -/
theorem C22_interpAngle_float (a b c : Fl f32) :
    (Moderate a ∧ Moderate b → ∃ z, interpAngle a b c = .ok z ∧ (val z = none ↔ val a = none ∨ val b = none ∨ val c = none) ∧
      ∀ r, val z = some r → 0 ≤ r ∧ r < ((2 * Real.pi : ℝ) : EReal)) ∧
    (¬ (Moderate a ∧ Moderate b) → interpAngle a b c = .diverge) := by
  rw [moderate_iff, moderate_iff]
  refine ⟨fun ⟨ha, hb⟩ => ?_, interpAngle_wild c⟩
  obtain ⟨z, h1, h2, h3⟩ := interpAngle_mild c ha hb
  have hv : ∀ x : Fl f32, val x = none ↔ Fl.isNaN x = true := by intro x; cases x <;> simp [val, Fl.isNaN]
  refine ⟨z, h1, by simpa only [hv] using h2, fun r hr => ?_⟩
  have hz : Fl.isNaN z = false := by
    cases hn : Fl.isNaN z
    · rfl
    · rw [(hv z).2 hn] at hr; cases hr
  obtain ⟨hf, h4, h5⟩ := h3 hz
  rw [val_num hf, Option.some.injEq] at hr
  rw [← hr]
  exact ⟨EReal.coe_nonneg.2 h4, EReal.coe_lt_coe_iff.2 (h5.trans tau_lt_two_pi)⟩

end

/-! ## C20 -/

section Float
open Fl
variable [Libm]

/-- The orientation passed by a call, if any, is NaN or at most 2^27 (all negative values mean "unknown"). -/
def Op.Oriented : Op (Fl f32) (Fl f64) → Prop
  | .update i _ => ∀ r, val i.orientation = some r → r ≤ ((2 ^ 27 : ℝ) : EReal)
  | _ => True

omit [Libm] in
theorem Op.Oriented.mild {op : Op (Fl f32) (Fl f64)} (h : op.Oriented) : op.Mild Tidy := by
  cases op <;> first | exact tidy_iff.2 h | trivial

/-- C20 (partial): after any calls with any arguments, including NaNs, infinities and whatever a client may pass in
whatever order, every further call except Predict returns, with a status and results.
Full statement: without the two hypotheses. The first, that no orientation exceeds 2^27, is needed, see `C20_refuted`.
The second, that with the Kalman predictor there have been fewer than 2^31 - 1 calls, keeps the counter of the Kalman
filter from overflowing. For Predict see C21. -/
theorem C20_calls_return_partial {ops : List (Op (Fl f32) (Fl f64))} {rs : List (Response (Fl f32) (Fl f64))}
    {m : StrokeModeler (Fl f32) (Fl f64)} (h : Session ops rs m)
    (ho : ∀ op ∈ ops, op.Oriented)
    (hk : (ops.length : ℤ) < 2 ^ 31 - 1 ∨ ∀ p, Op.resetParams p ∈ ops → ∀ k, p.prediction ≠ .kalman k)
    (op : Op (Fl f32) (Fl f64)) (hop : op.Oriented) (hp : ∀ v, op ≠ .predict v) :
    ∃ m' r, step m op = .ok (m', r) := by
  obtain ⟨k, hk', hs⟩ := h.safe Fl.tame (fun op ho' => (ho op ho').mild) hk
  have hf : op.Fine Tidy := by
    have := hop.mild
    cases op with
    | predict v => exact absurd rfl (hp v)
    | update i v => exact this
    | _ => trivial
  obtain ⟨m', r, h1, -⟩ := step_returns Fl.tame hs hk' op hf
  exact ⟨m', r, h1⟩

/-- C21 (partial): with the stroke-end predictor or without prediction, Predict returns too.
Full statement: also with the Kalman predictor. That is false, see `C21_refuted`; for exact numbers
`C21_kalman_exact` says when. `NoDisableAfterSave` excludes the predictor left over after prediction is switched off (C07). -/
theorem C21_predict_returns_partial {ops : List (Op (Fl f32) (Fl f64))} {rs : List (Response (Fl f32) (Fl f64))}
    {m : StrokeModeler (Fl f32) (Fl f64)} (h : Session ops rs m) (ho : ∀ op ∈ ops, op.Oriented)
    (hk : (ops.length : ℤ) < 2 ^ 31 - 1 ∨ ∀ p, Op.resetParams p ∈ ops → ∀ k, p.prediction ≠ .kalman k)
    (hn : NoDisableAfterSave ops)
    (hp : ∀ p, (known ops rs).params = some p → ∀ k, p.prediction ≠ .kalman k) (v : List (Result (Fl f32) (Fl f64))) :
    ∃ m' r, step m (.predict v) = .ok (m', r) := by
  obtain ⟨k, hk', hs⟩ := h.safe Fl.tame (fun op ho' => (ho op ho').mild) hk
  have hinv := h.predInv hn
  rw [← h.known] at hp
  obtain ⟨m', s, v', h1, -⟩ := predict_returns Fl.tame hs v (by
    intro pr hpr
    cases hmp : m.params with
    | none => rw [(hinv.uninit hmp).1] at hpr; cases hpr
    | some p =>
      have hl := hinv.live p hmp
      rw [hpr] at hl
      have hp := hp p hmp
      cases pr with
      | strokeEnd q => exact ⟨_, rfl⟩
      | kalman q =>
        exfalso
        unfold StrokeModeler.makePredictor at hl
        split at hl
        · rename_i k e; exact hp k e
        · simp [Predictor.reset] at hl
        · simp at hl)
  refine ⟨m', ⟨s, v'⟩, ?_⟩
  simp only [step, h1, Outcome.ok_bind, Outcome.pure_eq]

/-! ### orientations above 2^27 -/

theorem interpResult_wild {a b : Result (Fl f32) (Fl f64)} (c : Fl f32) (ha : Fl.isNaN a.orientation = false)
    (ha' : 2 ^ 27 < num a.orientation) (hb : Fl.isNaN b.orientation = false) (hb' : 0 ≤ num b.orientation) :
    interpResult a b c = .diverge := by
  unfold interpResult
  have h1 : (a.orientation <ᵇ (0 : Fl f32)) = false := by
    rw [lt_zero ha, decide_eq_false_iff_not, not_lt]
    exact le_trans (by positivity) ha'.le
  have h2 : (b.orientation <ᵇ (0 : Fl f32)) = false := by
    rw [lt_zero hb, decide_eq_false_iff_not, not_lt]
    exact hb'
  rw [h1, h2]
  have : ¬ (Mild a.orientation ∧ Mild b.orientation) := by
    rintro ⟨h, -⟩
    rcases h with h | h
    · rw [ha] at h; cases h
    · exact absurd (le_trans (le_abs_self _) h) (not_le.2 ha')
  simp [interpAngle_wild c this]

theorem modelStylus_wild {s : StylusModeler (Fl f32) (Fl f64)} (hne : s.state.inputs ≠ []) (hu : s.state.unknownOrientation = false)
    (hw : ∀ a ∈ s.state.inputs, Fl.isNaN a.orientation = false ∧ 2 ^ 27 < num a.orientation)
    {tips : List (TipState (Fl f32) (Fl f64))} (ht : tips ≠ []) (l : LoopModeler (Fl f32) (Fl f64)) (t : Fl f64) :
    modelStylus tips s l t = .diverge := by
  unfold modelStylus
  cases tips with
  | nil => exact absurd rfl ht
  | cons tip tips =>
    simp only [modelStylusGo]
    have : s.query tip (getStrokeNormal tip t) = .diverge ∨
        ∃ q, s.query tip (getStrokeNormal tip t) = .ok q ∧ Fl.isNaN q.orientation = false ∧ 2 ^ 27 < num q.orientation := by
      rw [StylusModeler.query_eq, if_neg (by simpa using hne)]
      obtain ⟨p, hp, hi⟩ := projection_returns s tip (getStrokeNormal tip t) hne
      rw [hp, Outcome.ok_bind]
      unfold StylusModeler.projectedResult
      cases p with
      | some b =>
        have hb := hi b rfl
        simp only [List.getElem?_eq_getElem hb, List.getElem?_eq_getElem (Nat.lt_of_succ_lt hb)]
        have h1 := hw _ (List.getElem_mem (Nat.lt_of_succ_lt hb))
        have h2 := hw _ (List.getElem_mem hb)
        left
        rw [interpResult_wild _ h1.1 h1.2 h2.1 (le_trans (by positivity) h2.2.le), Outcome.diverge_bind]
      | none =>
        right
        cases hh : s.state.inputs with
        | nil => exact absurd hh hne
        | cons a l =>
          have hl : ∃ b, (a :: l).getLast? = some b := ⟨(a :: l).getLast (by simp), List.getLast?_eq_some_getLast (by simp)⟩
          obtain ⟨b, hb⟩ := hl
          simp only [List.head?_cons, hb, Outcome.ok_bind]
          refine ⟨_, rfl, ?_⟩
          simp only [StylusModeler.strip, hu, Bool.false_eq_true, ↓reduceIte]
          split
          · exact hw a (by simp [hh])
          · exact hw b (by rw [hh]; exact List.mem_of_getLast? hb)
    rcases this with h | ⟨q, h, h1, h2⟩
    · rw [h, Outcome.diverge_bind]
    · rw [h, Outcome.ok_bind, interpResult_wild _ h1 h2 (b := makeResultFromTipState tip q) h1 (le_trans (by positivity) h2.le),
        Outcome.diverge_bind]

end Float

section Examples
open Ex
variable [Libm]

/-- A stroke with stylus data, a NaN as pressure and infinite tilt; then Save, Restore and calls out of order. -/
example : ∃ (ops : List (Op F32 F64)) (rs : List (Response F32 F64)) (m : StrokeModeler F32 F64), Session ops rs m ∧
    (∀ op ∈ ops, op.Oriented) ∧ (ops.length : ℤ) < 2 ^ 31 - 1 ∧ 5 < ops.length := by
  obtain ⟨rs, m, h, -⟩ := exists_session (ops := [.update (inp .up 1 1 0) [], .resetParams params,
      .update { inp .down 0 0 0 with pressure := .nan, tilt := .inf false } [], .save, .update (inp .down .nan 0 0) [], .restore,
      .update { inp .move 1 0 (d 1 180) with tilt := 1 } []]) (P := fun _ _ => true) (by kernel_rfl)
  refine ⟨_, rs, m, h, ?_, by simp, by simp⟩
  have ho : ∀ r, Fl.val (-1 : F32) = some r → r ≤ ((2 ^ 27 : ℝ) : EReal) := by
    apply Fl.tidy_iff.1
    right
    rw [Fl.num_neg, Fl.num_one]
    norm_num
  simpa [Op.Oriented, inp] using ho

/-- The full C20 is false: an Update with an orientation of 2^28 loops forever. -/
theorem C20_refuted : ∃ (ops : List (Op F32 F64)) (rs : List (Response F32 F64)) (m : StrokeModeler F32 F64) (i : Input F32 F64),
    Session ops rs m ∧ refusal (known ops rs) i = none ∧ step m (.update i []) = .diverge := by
  let ops : List (Op F32 F64) := [.resetParams params, .update { inp .down 0 0 0 with orientation := fl (2 ^ 28) 1 } []]
  let i : Input F32 F64 := { inp .up 1 0 (d 1 180) with orientation := fl (2 ^ 28) 1 }
  obtain ⟨rs, m, h, hP⟩ := exists_session (ops := ops)
    (P := fun _ m => decide (refusal m.known i = none) &&
      (match m.lastInput, m.params with
      | some last, some p =>
        (match numberOfStepsBetweenInputs m.position.state last.input i p.sampling p.position with
        | .ok (.ok _) => true
        | _ => false)
      | _, _ => false) &&
      (match m.stylus.update i.position i.time (stylusStateOf i) with
      | .ok s => decide (s.state.inputs.map (·.orientation) = [fl (2 ^ 28) 1, fl (2 ^ 28) 1] ∧ s.state.unknownOrientation = false)
      | _ => false)) (by kernel_rfl)
  simp only [Bool.and_eq_true, decide_eq_true_eq] at hP
  obtain ⟨⟨h1, h2⟩, h3⟩ := hP
  refine ⟨ops, rs, m, i, h, by rw [← h.known]; exact h1, ?_⟩
  obtain ⟨p, hp, ⟨he, -⟩ | ⟨he, -⟩ | ⟨-, ⟨last, hl⟩, hu⟩⟩ := update_not_refused m i h1
  · cases he
  · cases he
  simp only [hl, hp] at h2
  have hn : ∃ n, numberOfStepsBetweenInputs m.position.state last.input i p.sampling p.position = .ok (.ok n) := by
    split at h2
    · rename_i n hn; exact ⟨n, hn⟩
    · cases h2
  obtain ⟨n, hn⟩ := hn
  cases hs : m.stylus.update i.position i.time (stylusStateOf i) with
  | ub w => simp [hs] at h3
  | diverge => simp [hs] at h3
  | ok s =>
    simp only [hs, decide_eq_true_eq] at h3
    have hbig : Fl.isNaN (fl (2 ^ 28) 1) = false ∧ (2 : ℝ) ^ 27 < Fl.num (fl (2 ^ 28) 1) := by
      refine ⟨by decide +kernel, ?_⟩
      have hk : Fl.key (fl (2 ^ 28) 1) = 2 ^ 28 * 2 ^ f32.q := by decide +kernel
      unfold Fl.num
      rw [hk, lt_div_iff₀ (by positivity)]
      push_cast
      have : (0 : ℝ) < 2 ^ f32.q := by positivity
      nlinarith
    simp only [step, hu]
    unfold StrokeModeler.processUp
    rw [hl]
    simp only [hn, Outcome.ok_bind, hs]
    rw [modelStylus_wild]
    · simp only [Outcome.diverge_bind]
    · intro hc; simp [hc] at h3
    · exact h3.2
    · intro a ha
      have : a.orientation ∈ s.state.inputs.map (·.orientation) := List.mem_map_of_mem ha
      rw [h3.1] at this
      have : a.orientation = fl (2 ^ 28) 1 := by simpa using this
      rw [this]; exact hbig
    · split
      · simp
      · rename_i hc; intro hc'; simp [hc'] at hc

/-- A Kalman predictor with a horizon of 30000 years. -/
def Ex.farKalman : KalmanParams F32 F64 :=
  { kalman with
    predictionInterval := d 1000000000000 1
    confidence := { desiredNumberOfSamples := 1, maxEstimationDistance := fl 1000 1, minTravelSpeed := 0, maxTravelSpeed := 0
                    maxLinearDeviation := fl 1000 1, baselineLinearityConfidence := 1 } }

/-- The full C21 is false: with a prediction interval of 10^12 seconds, Predict converts a number of points that is out of
the range of `int`. -/
theorem C21_refuted : ∃ (ops : List (Op F32 F64)) (rs : List (Response F32 F64)) (m : StrokeModeler F32 F64) (w : String),
    Session ops rs m ∧ step m (.predict []) = .ub w := by
  obtain ⟨rs, m, h, hP⟩ := exists_session (ops := [.resetParams { params with prediction := .kalman farKalman },
      .update (inp .down 0 0 0) [], .update (inp .move (fl 1 50) 0 (d 1 200)) [], .update (inp .move (fl 2 50) 0 (d 2 200)) []])
    (P := fun _ m => match step m (.predict []) with
      | .ub _ => true
      | _ => false) (by kernel_rfl)
  cases hs : step m (.predict []) with
  | ok x => simp [hs] at hP
  | ub w => exact ⟨_, rs, m, w, h, hs⟩
  | diverge => simp [hs] at hP

end Examples

/-! ## C21 with the Kalman predictor, on exact numbers -/

section Exact
open XR
open Classical

/-- C21, on exact numbers: with the Kalman predictor, Predict returns if the two numbers of points that it computes, those on the
way to the estimate and those beyond it, both fit an `int`; it has undefined behaviour if one of them does not. (`Basis` says what
the numbers are computed from.) -/
theorem C21_kalman_exact {ops : List (Op XR XR)} {rs : List (Response XR XR)} {m : StrokeModeler XR XR} {p : StrokeModelParams XR XR}
    {k : KalmanParams XR XR} (h : Session ops rs m) (hr : Regular ops rs) (hp : (known ops rs).params = some p)
    (hk : p.prediction = .kalman k) (hi : (known ops rs).prev ≠ none) (ht : TimePasses k (acceptedOf (strokeOf ops rs)))
    (ho : ∀ i v, Op.update i v ∈ ops → i.orientation ≠ inf false) (hc : (ops.length : ℤ) < 2 ^ 31 - 1) (v : List (Result XR XR)) :
    ∃ P K ins q, Basis ops rs p k P K ins q ∧ let est := Ref.sight K ins
      let fits : Prop := (ins.length : ℤ) < K.stable ∨
        (⌈‖est.pos - q.pos‖ / max (max ‖q.vel‖ ‖est.vel‖) K.catchup * P.rate⌉ ≤ 2 ^ 31 - 1 ∧
          ⌈K.interval * P.rate * Ref.trust K ins.length ((ins.map Prod.fst).getLastD 0) est⌉ ≤ 2 ^ 31 - 1)
      (fits → ∃ m' r, step m (.predict v) = .ok (m', r)) ∧ (¬ fits → ∃ w, step m (.predict v) = .ub w) := by
  obtain ⟨P, K, e, rest, w⟩ := h.watched hr hp hk hi
  have hb : Basis ops rs p k P K (news P e rest) (state P e rest).tip :=
    ⟨w.realizes, w.valid, w.foresees, w.validK, ⟨e, rest, w.stroke, rfl⟩, w.times, w.positions, w.lastTime, w.lastKin⟩
  refine ⟨P, K, _, _, hb, ?_⟩
  obtain ⟨q, hq, hq'⟩ := w.kalman
  obtain ⟨h1, h2⟩ := constructPrediction_eq w.foresees w.validK w.valid.rate w.realizes.rate
    (show news P e rest ≠ [] by simp [news, Ref.known]) hq' (.inr (pace_ne w.foresees w.times ht)) (state P e rest).tip
  rw [← w.tip] at h1 h2
  obtain ⟨n, hn, hs⟩ := h.safe XR.tame (by
    intro op hop
    cases op <;> first | exact ho _ _ hop | trivial) (.inl hc)
  have hfit : Ref.catchUp K P.rate (state P e rest).tip (Ref.sight K (news P e rest)) ≤ 2147483647 ↔
      ⌈‖(Ref.sight K (news P e rest)).pos - (state P e rest).tip.pos‖ /
        max (max ‖(state P e rest).tip.vel‖ ‖(Ref.sight K (news P e rest)).vel‖) K.catchup * P.rate⌉ ≤ 2 ^ 31 - 1 := by
    rw [Ref.catchUp, max_le_iff]
    norm_num
  intro est fits
  have hfits : fits ↔ (((news P e rest).length : ℤ) < K.stable ∨
      (Ref.catchUp K P.rate (state P e rest).tip (Ref.sight K (news P e rest)) ≤ 2147483647 ∧
        Ref.beyond K P.rate (news P e rest) ≤ 2147483647)) := by rw [hfit]; rfl
  rw [hfits]
  constructor
  · intro hf
    obtain ⟨m', s, v', h3, -⟩ := predict_returns XR.tame hs v (by
      intro pr hpr
      rw [hq, Option.some.injEq] at hpr
      subst hpr
      exact ⟨_, h1 hf⟩)
    exact ⟨m', ⟨s, v'⟩, by simp only [step, h3, Outcome.ok_bind, Outcome.pure_eq]⟩
  · intro hf
    obtain ⟨msg, h3⟩ := h2 hf
    have hmp : m.params = some p := by rw [← h.known] at hp; exact hp
    have hl : ∃ last, m.lastInput = some last := by
      rw [← h.known] at hi
      cases hl : m.lastInput with
      | none => simp [StrokeModeler.known, hl] at hi
      | some l => exact ⟨l, rfl⟩
    obtain ⟨last, hl⟩ := hl
    refine ⟨msg, ?_⟩
    have h4 : (Predictor.kalman q).constructPrediction m.position.state = .ub msg := h3
    simp only [step, StrokeModeler.predict, hmp, hq, hl, h4, Outcome.ub_bind]

example : ∃ (ops : List (Op XR XR)) (rs : List (Response XR XR)) (m : StrokeModeler XR XR) (p : StrokeModelParams XR XR)
    (k : KalmanParams XR XR), Session ops rs m ∧ Regular ops rs ∧ (known ops rs).params = some p ∧ p.prediction = .kalman k ∧
    (known ops rs).prev ≠ none ∧ TimePasses k (acceptedOf (strokeOf ops rs)) ∧
    (∀ i v, Op.update i v ∈ ops → i.orientation ≠ inf false) ∧ (ops.length : ℤ) < 2 ^ 31 - 1 := by
  obtain ⟨rs, m, -, -, h1, h2, h3, h4, h5, -⟩ :=
    Ex.xtwo_predict Ex.xkalman_valid rfl rfl (c := 0.02) rfl (by norm_num) (x := 1) (by norm_num) le_rfl
  refine ⟨_, rs, m, _, _, h1, h2, h3, rfl, h4, ?_, ?_, ?_⟩
  · rw [h5]
    simp [TimePasses, Ex.xtwo, Ex.xin, lastN, Ex.xkalman]
  · intro i v hm
    simp only [calls, Ex.xtwo, Ex.xin, List.map_cons, List.map_nil, List.mem_cons, reduceCtorEq, Op.update.injEq, List.not_mem_nil,
      or_false, false_or] at hm
    rcases hm with ⟨rfl, -⟩ | ⟨rfl, -⟩ <;> simp
  · simp [calls, Ex.xtwo]

end Exact

end Ink
