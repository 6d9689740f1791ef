import Verif.Exact.XR
import Verif.Spec.Ref
import Verif.Lemmas.Tips
/-!
# The position model on exact numbers is the one of the README
-/
namespace Ink
open Scalar Arith XR
noncomputable section
open Classical

namespace XR

/-- The tip state as the code stores it. -/
def tip (q : Ref.Tip) : TipState XR XR := ⟨V q.pos, V q.vel, V q.acc, fin q.time⟩

@[simp] theorem tip_inj {a b : Ref.Tip} : tip a = tip b ↔ a = b := by
  constructor
  · intro h
    simp only [tip, TipState.mk.injEq, V_inj, fin_inj] at h
    cases a; cases b; simp_all
  · rintro rfl; rfl

theorem clamp_eq (x : ℝ) : XR.clamp x = Ref.clamp x := rfl

/-- The parameters `p` are the real numbers `P`. -/
structure Realizes (p : StrokeModelParams XR XR) (P : Ref.Params) : Prop where
  mass : p.position.springMassConstant = fin P.mass
  drag : p.position.dragConstant = fin P.drag
  rate : p.sampling.minOutputRate = fin P.rate
  stop : p.sampling.endOfStrokeStoppingDistance = fin P.stop
  maxIter : p.sampling.endOfStrokeMaxIterations = (P.maxIter : ℤ)
  maxOut : p.sampling.maxOutputsPerCall = P.maxOut
  maxAngle : match P.maxAngle with
    | none => p.sampling.maxEstimatedAngle = fin (-1)
    | some a => p.sampling.maxEstimatedAngle = fin a
  wobble : match P.wobble with
    | none => p.wobble.isEnabled = false
    | some (t, lo, hi) => p.wobble = ⟨true, fin t, fin lo, fin hi⟩

theorem pos_of {x : XR} (h : isFinite x = true ∧ (x ≤ᵇ 0) = false) : ∃ r, x = fin r ∧ 0 < r := by
  obtain ⟨r, rfl⟩ := isFinite_iff.1 h.1
  exact ⟨r, rfl, by simpa using h.2⟩

theorem nonneg_of {x : XR} (h : isFinite x = true ∧ (x <ᵇ 0) = false) : ∃ r, x = fin r ∧ 0 ≤ r := by
  obtain ⟨r, rfl⟩ := isFinite_iff.1 h.1
  exact ⟨r, rfl, by simpa using h.2⟩

theorem validWobbleParts {w : WobbleParams XR XR} (h : validateWobbleParams w = .ok) (he : w.isEnabled = true) :
    ∃ t lo hi, w = ⟨true, fin t, fin lo, fin hi⟩ ∧ 0 ≤ t ∧ 0 ≤ lo ∧ lo ≤ hi := by
  unfold validateWobbleParams at h
  simp only [he, Bool.not_true, Bool.false_eq_true, ↓reduceIte] at h
  obtain ⟨h1, h⟩ := andThen_ok h
  obtain ⟨h2, h⟩ := andThen_ok h
  obtain ⟨h3, h⟩ := andThen_ok h
  obtain ⟨t, ht, ht'⟩ := nonneg_of (validateGreaterThanOrEqualToZero_ok h1)
  obtain ⟨lo, hl, hl'⟩ := nonneg_of (validateGreaterThanOrEqualToZero_ok h2)
  obtain ⟨hi, hh⟩ := isFinite_iff.1 (validateIsFiniteNumber_ok h3)
  refine ⟨t, lo, hi, by cases w; simp_all, ht', hl', ?_⟩
  rw [hl, hh] at h
  simpa using h

/-- Valid parameters are real numbers in the documented ranges. -/
theorem realizes_of_valid {p : StrokeModelParams XR XR} (h : validateStrokeModelParams p = .ok) :
    ∃ P : Ref.Params, Realizes p P ∧ P.Valid := by
  obtain ⟨_, hw, hp, hs, _, _⟩ := validParts h
  unfold validatePositionModelerParams at hp
  obtain ⟨_, hp⟩ := andThen_ok hp
  obtain ⟨hm, hd⟩ := andThen_ok hp
  obtain ⟨M, hM, hM'⟩ := pos_of (validateGreaterThanZero_ok hm)
  obtain ⟨d, hd, hd'⟩ := pos_of (validateGreaterThanZero_ok hd)
  obtain ⟨h1, h2, h3, h4, h5⟩ := validSamplingParts hs
  obtain ⟨r, hr, hr'⟩ := pos_of h1
  obtain ⟨s, hs, hs'⟩ := pos_of h2
  have hang : ∃ o : Option ℝ, (match o with
    | none => p.sampling.maxEstimatedAngle = fin (-1)
    | some a => p.sampling.maxEstimatedAngle = fin a) ∧ ∀ a, o = some a → 0 < a ∧ a < Real.pi := by
    rcases h5 with h5 | ⟨h5, h6, h7⟩
    · refine ⟨none, ?_, by simp⟩
      cases hx : p.sampling.maxEstimatedAngle <;> rw [hx] at h5 <;> simp at h5
      · simp [Scalar.eq, XR.eq] at h5
      · simp [Scalar.eq, XR.eq] at h5
      · simp [h5]
    · obtain ⟨a, ha, ha'⟩ := pos_of ⟨h5, h6⟩
      refine ⟨some a, ha, ?_⟩
      rw [ha] at h7
      rintro _ ⟨⟩
      exact ⟨ha', by simpa using h7⟩
  obtain ⟨o, ho, ho'⟩ := hang
  have hwo : ∃ w : Option (ℝ × ℝ × ℝ), (match w with
    | none => p.wobble.isEnabled = false
    | some (t, lo, hi) => p.wobble = ⟨true, fin t, fin lo, fin hi⟩) ∧
      ∀ t lo hi, w = some (t, lo, hi) → 0 ≤ t ∧ 0 ≤ lo ∧ lo ≤ hi := by
    cases he : p.wobble.isEnabled with
    | false => exact ⟨none, rfl, by simp⟩
    | true =>
      obtain ⟨t, lo, hi, h1, h2⟩ := validWobbleParts hw he
      refine ⟨some (t, lo, hi), h1, ?_⟩
      rintro _ _ _ ⟨⟩
      exact h2
  obtain ⟨w, hw, hw'⟩ := hwo
  exact ⟨⟨M, d, r, s, p.sampling.endOfStrokeMaxIterations.toNat, p.sampling.maxOutputsPerCall, o, w⟩,
    ⟨hM, hd, hr, hs, by simp; omega, rfl, ho, hw⟩, ⟨hM', hd', hr', hs', by simp; omega, h4, ho', hw'⟩⟩

variable {p : StrokeModelParams XR XR} {P : Ref.Params}

theorem stepState_eq (h : Realizes p P) (hv : P.Valid) (q : Ref.Tip) (a : ℂ) (t : ℝ) :
    PositionModeler.stepState p.position (tip q) (V a) (fin t) = tip (Ref.spring P q (a, t)) := by
  simp only [PositionModeler.stepState, tip, Ref.spring, h.mass, h.drag, narrow_eq, fin_sub, V_sub,
    V_sdiv hv.mass.ne', V_smul, V_add]

theorem pathPoint_eq (a b : ℂ) (ta tb : ℝ) {n : ℕ} (k : ℕ) (hk : k < n) :
    PositionModeler.pathPoint (F := XR) (V a) (fin ta) (V b) (fin tb) (n : ℤ) ((k : ℤ) + 1) =
      (V (Ref.lerp a b ((k + 1 : ℝ) / n)), fin (Ref.lerp ta tb ((k + 1 : ℝ) / n))) := by
  have hn : (n : ℝ) ≠ 0 := by exact_mod_cast (by omega : n ≠ 0)
  have h0 : (0 : ℝ) ≤ (k + 1 : ℝ) / n := by positivity
  have h1 : (k + 1 : ℝ) / n ≤ 1 := by
    rw [div_le_one (by positivity)]; exact_mod_cast hk
  simp only [PositionModeler.pathPoint, ofInt_eq, Int.cast_add, Int.cast_natCast, Int.cast_one, fin_div _ hn, V_interp,
    interpTime_fin, clamp_of_mem h0 h1, Ref.lerp, smul_eq_mul, mul_comm]

theorem alongPathGo_eq (h : Realizes p P) (hv : P.Valid) (a b : ℂ) (ta tb : ℝ) (n k j : ℕ) (hn : j + k = n) (q : Ref.Tip) :
    PositionModeler.alongPathGo p.position (V a) (fin ta) (V b) (fin tb) (n : ℤ) k ((j : ℤ) + 1) (tip q) =
      (let l := Ref.follow P q (((List.range n).drop j).map fun k : ℕ =>
        (Ref.lerp a b ((k + 1 : ℝ) / n), Ref.lerp ta tb ((k + 1 : ℝ) / n)))
       (tip (l.getLastD q), l.map tip)) := by
  induction k generalizing j q with
  | zero =>
    have : (List.range n).drop j = [] := by rw [List.drop_eq_nil_iff]; simp; omega
    simp [PositionModeler.alongPathGo, this, Ref.follow]
  | succ k ih =>
    have hd : (List.range n).drop j = j :: (List.range n).drop (j + 1) := by
      rw [List.drop_eq_getElem_cons (by simp; omega)]; simp
    have := ih (j + 1) (by omega)
    simp only [Nat.cast_add, Nat.cast_one] at this
    simp only [PositionModeler.alongPathGo, pathPoint_eq a b ta tb j (by omega : j < n), stepState_eq h hv, this, hd,
      List.map_cons, Ref.follow, List.getLastD_cons]

theorem updateAlongLinearPath_eq (h : Realizes p P) (hv : P.Valid) (m : PositionModeler XR XR) (hp : m.params = p.position)
    (q : Ref.Tip) (hq : m.state = tip q) (a b : ℂ × ℝ) (n : ℤ) :
    m.updateAlongLinearPath (V a.1) (fin a.2) (V b.1) (fin b.2) n =
      (let l := Ref.follow P q (Ref.upsample a b n.toNat)
       ({ m with state := tip (l.getLastD q) }, l.map tip)) := by
  unfold PositionModeler.updateAlongLinearPath
  rcases lt_or_ge n 0 with hn | hn
  · have : n.toNat = 0 := by omega
    simp [this, PositionModeler.alongPathGo, Ref.upsample, Ref.follow, hq]
  · have hn' : (n.toNat : ℤ) = n := by omega
    have := alongPathGo_eq h hv a.1 b.1 a.2 b.2 n.toNat n.toNat 0 (by omega) q
    simp only [hn', Nat.cast_zero, zero_add, List.drop_zero] at this
    rw [hp, hq, this]
    rfl

/-! ### the end of the stroke -/

theorem dot_eq_inner (a b : ℂ) : dot a b = inner ℝ a b := by
  simp only [Complex.inner, dot, Complex.mul_re, Complex.conj_re, Complex.conj_im]; ring

/-- The nearest point of a segment is not its end exactly if the way overshoots. -/
theorem overshoots_iff (w a b : ℂ) : Ref.Overshoots w a b ↔ dot (w - b) (b - a) < 0 := by
  have key : ∀ c : ℝ, ‖w - (b + c • (a - b))‖ ^ 2 = ‖w - b‖ ^ 2 + 2 * c * dot (w - b) (b - a) + c ^ 2 * ‖b - a‖ ^ 2 := by
    intro c
    rw [← dot_self, ← dot_self, ← dot_self]
    simp only [dot, Complex.sub_re, Complex.sub_im, Complex.add_re, Complex.add_im, Complex.smul_re, Complex.smul_im,
      smul_eq_mul]
    ring
  constructor
  · rintro ⟨z, hz, hlt⟩
    rw [segment_symm, segment_eq_image_lineMap] at hz
    obtain ⟨c, ⟨h0, h1⟩, rfl⟩ := hz
    rw [AffineMap.lineMap_apply, vsub_eq_sub, vadd_eq_add, add_comm] at hlt
    have h2 : ‖w - (b + c • (a - b))‖ ^ 2 < ‖w - b‖ ^ 2 := by
      apply pow_lt_pow_left₀ hlt (norm_nonneg _) (by norm_num)
    rw [key] at h2
    by_contra hc
    push Not at hc
    have : 0 ≤ 2 * c * dot (w - b) (b - a) := by positivity
    have : 0 ≤ c ^ 2 * ‖b - a‖ ^ 2 := by positivity
    linarith
  · intro hd
    have hne : b - a ≠ 0 := by
      rintro hc
      rw [hc] at hd
      simp [dot] at hd
    have hpos : 0 < ‖b - a‖ ^ 2 := by positivity
    -- step back by a small multiple
    set e := min 1 (-dot (w - b) (b - a) / ‖b - a‖ ^ 2) with he
    have he0 : 0 < e := lt_min one_pos (div_pos (by linarith) hpos)
    have he1 : e ≤ 1 := min_le_left _ _
    have he2 : e * ‖b - a‖ ^ 2 ≤ -dot (w - b) (b - a) := by
      have : e ≤ -dot (w - b) (b - a) / ‖b - a‖ ^ 2 := min_le_right _ _
      rwa [le_div_iff₀ hpos] at this
    refine ⟨b + e • (a - b), ?_, ?_⟩
    · rw [segment_symm, segment_eq_image_lineMap]
      exact ⟨e, ⟨he0.le, he1⟩, by rw [AffineMap.lineMap_apply, vsub_eq_sub, vadd_eq_add, add_comm]⟩
    · apply lt_of_pow_lt_pow_left₀ 2 (norm_nonneg _)
      rw [key]
      nlinarith

theorem nearest_lt_one_iff {w a b : ℂ} (h : b ≠ a) :
    (nearestPointOnSegment (V a) (V b) (V w) <ᵇ (1 : XR)) = decide (Ref.Overshoots w a b) := by
  have hpos : 0 < dot (b - a) (b - a) := by
    rw [dot_self]; have := norm_pos_iff.2 (sub_ne_zero.2 h); positivity
  simp only [nearestPointOnSegment, V_eq, h.symm, decide_false, Bool.false_eq_true, ↓reduceIte, V_sub, V_dot,
    fin_div _ hpos.ne', clamp01_fin, lit1, fin_lt, overshoots_iff]
  congr 1
  have hsplit : dot (w - a) (b - a) = dot (w - b) (b - a) + dot (b - a) (b - a) := by
    simp only [dot, Complex.sub_re, Complex.sub_im]; ring
  rw [eq_iff_iff]
  constructor
  · intro hlt
    by_contra hc
    push Not at hc
    rw [clamp_of_one_le] at hlt
    · exact lt_irrefl _ hlt
    · rw [one_le_div hpos]; linarith
  · intro hlt
    have : dot (w - a) (b - a) / dot (b - a) (b - a) < 1 := by rw [div_lt_one hpos]; linarith
    exact max_lt one_pos (lt_of_le_of_lt (min_le_left _ _) this)

theorem endOfStrokeGo_eq (h : Realizes p P) (hv : P.Valid) (w : ℂ) (k : ℕ) (dt : ℝ) (q : Ref.Tip) :
    PositionModeler.endOfStrokeGo p.position (V w) p.sampling.endOfStrokeStoppingDistance k (fin dt) (tip q) =
      (tip (Ref.settle P w k dt q).1, (Ref.settle P w k dt q).2.map tip) := by
  induction k generalizing dt q with
  | zero => simp [PositionModeler.endOfStrokeGo, Ref.settle]
  | succ k ih =>
    simp only [PositionModeler.endOfStrokeGo, Ref.settle]
    have ht : (tip q).time + fin dt = fin (q.time + dt) := rfl
    rw [ht, stepState_eq h hv]
    generalize Ref.spring P q (w, q.time + dt) = c
    have e1 : (distance (tip q).position (tip c).position <ᵇ p.sampling.endOfStrokeStoppingDistance) =
        decide (‖c.pos - q.pos‖ < P.stop) := by
      simp [tip, h.stop]
    rw [e1]
    simp only [decide_eq_true_eq]
    split
    · rfl
    · rename_i h1
      have hne : c.pos ≠ q.pos := by
        intro hc
        rw [hc] at h1
        simp at h1
        linarith [hv.stop]
      have e2 : (nearestPointOnSegment (tip q).position (tip c).position (V w) <ᵇ (1 : XR)) =
          decide (Ref.Overshoots w q.pos c.pos) := nearest_lt_one_iff hne
      rw [e2]
      simp only [decide_eq_true_eq]
      split
      · have : (fin dt * ofRatio 1 2 : XR) = fin (dt / 2) := by simp [div_eq_mul_inv]
        rw [this, ih]
      · have e3 : (distance (tip c).position (V w) <ᵇ p.sampling.endOfStrokeStoppingDistance) =
            decide (‖w - c.pos‖ < P.stop) := by
          simp [tip, h.stop]
        rw [e3]
        simp only [decide_eq_true_eq]
        split
        · rfl
        · rw [ih]; rfl

theorem modelEndOfStroke_eq (h : Realizes p P) (hv : P.Valid) (m : PositionModeler XR XR) (hp : m.params = p.position)
    (q : Ref.Tip) (hq : m.state = tip q) (w : ℂ) (dt : ℝ) :
    m.modelEndOfStroke (V w) (fin dt) p.sampling.endOfStrokeMaxIterations p.sampling.endOfStrokeStoppingDistance =
      ({ m with state := tip (Ref.settle P w P.maxIter dt q).1 }, (Ref.settle P w P.maxIter dt q).2.map tip) := by
  unfold PositionModeler.modelEndOfStroke
  rw [hp, hq, h.maxIter, Int.toNat_natCast, endOfStrokeGo_eq h hv]

/-! ### the number of steps -/

theorem absoluteAngleTo_eq (v w : ℂ) : (V v).absoluteAngleTo (V w) = some (fin (Ref.turn v w)) := by
  unfold Vec2.absoluteAngleTo Ref.turn
  simp only [V_isFinite, Bool.not_true, Bool.or_self, Bool.false_eq_true, ↓reduceIte, V_magnitude, lit0, fin_eq,
    norm_eq_zero, Bool.or_eq_true, decide_eq_true_eq]
  split
  · simp
  · rename_i hc
    push Not at hc
    obtain ⟨hv, hw⟩ := hc
    have hv' := norm_ne_zero_iff.2 hv
    have hw' := norm_ne_zero_iff.2 hw
    rw [V_sdiv hv', V_sdiv hw', V_dot]
    have e : dot (‖v‖⁻¹ • v) (‖w‖⁻¹ • w) = inner ℝ v w / (‖v‖ * ‖w‖) := by
      rw [dot_eq_inner, real_inner_smul_left, real_inner_smul_right]
      field_simp
    have h1 := abs_real_inner_div_norm_mul_norm_le_one v w
    rw [abs_le] at h1
    rw [e]
    have hcl : stdClamp (fin (inner ℝ v w / (‖v‖ * ‖w‖))) (-fin 1) (fin 1) = fin (inner ℝ v w / (‖v‖ * ‖w‖)) := by
      rw [stdClamp, fin_neg, fin_lt, fin_lt, decide_eq_false (not_lt.2 h1.1), decide_eq_false (not_lt.2 h1.2)]
      rfl
    rw [lit1, hcl, fin_acos h1.1 h1.2]
    rfl

theorem turn_nonneg (v w : ℂ) : 0 ≤ Ref.turn v w := by
  unfold Ref.turn; split
  · exact le_rfl
  · exact InnerProductGeometry.angle_nonneg _ _

theorem toInt_min {n : ℤ} (h : 0 ≤ n) :
    toInt (stdMin (fin (n : ℝ)) (intMaxD : XR)) = .ok (min 2147483647 n) := by
  have e : (intMaxD : XR) = fin ((2147483647 : ℤ) : ℝ) := rfl
  rw [e, stdMin_fin, ← Int.cast_min, min_comm, toInt_int (by omega) (by omega)]

theorem numberOfSteps_eq (h : Realizes p P) (hv : P.Valid) (q : Ref.Tip) {last i : Input XR XR} {x : ℂ} {t₀ t : ℝ}
    (hx : i.position = V x) (ht₀ : last.time = fin t₀) (ht : i.time = fin t) (hle : t₀ ≤ t) :
    ∃ s, numberOfStepsBetweenInputs (tip q) last i p.sampling p.position =
      .ok (if Ref.steps P q x (t - t₀) ≤ P.maxOut then .ok (Ref.steps P q x (t - t₀)) else .error s) := by
  have hr : 0 ≤ (t - t₀) * P.rate := mul_nonneg (by linarith) hv.rate.le
  have hc : 0 ≤ ⌈(t - t₀) * P.rate⌉ := Int.ceil_nonneg hr
  refine ⟨.err .invalidArgument "Input events are too far apart", ?_⟩
  unfold numberOfStepsBetweenInputs
  simp only [ht, ht₀, fin_sub, narrow_eq, widen_eq, h.rate, fin_mul, fin_ceil, toInt_min hc, Outcome.ok_bind, hx, tip,
    V_sub, h.mass, V_sdiv hv.mass.ne', V_smul, V_add]
  have hg : q.vel + (t - t₀) • P.mass⁻¹ • (x - q.pos) = q.vel + Ref.velocityGain P q x (t - t₀) := by
    rw [Ref.velocityGain, smul_smul, div_eq_mul_inv]
  rw [hg, absoluteAngleTo_eq]
  dsimp only
  have hs : stepsForAngle p.sampling (fin (Ref.turn q.vel (q.vel + Ref.velocityGain P q x (t - t₀))))
      (min 2147483647 ⌈(t - t₀) * P.rate⌉) = .ok (Ref.steps P q x (t - t₀)) := by
    unfold stepsForAngle Ref.steps
    have hma := h.maxAngle
    have hva := hv.maxAngle
    cases ho : P.maxAngle with
    | none =>
      rw [ho] at hma
      dsimp only at hma
      rw [hma]
      simp only [lit0, fin_lt]
      rw [decide_eq_false (by norm_num)]
      simp only [Bool.false_eq_true, ↓reduceIte]
      rw [max_eq_left hc]
    | some a =>
      rw [ho] at hma
      dsimp only at hma
      obtain ⟨ha, _⟩ := hva a ho
      have hn : 0 ≤ ⌈Ref.turn q.vel (q.vel + Ref.velocityGain P q x (t - t₀)) / a⌉ :=
        Int.ceil_nonneg (div_nonneg (turn_nonneg _ _) ha.le)
      rw [hma]
      simp only [lit0, fin_lt, ha, decide_true, ↓reduceIte, widen_eq, fin_div _ ha.ne', fin_ceil, toInt_min hn,
        Outcome.ok_bind, Outcome.pure_eq]
      congr 1
      split <;> omega
  rw [hs]
  simp only [Outcome.ok_bind, h.maxOut]
  by_cases hle : Ref.steps P q x (t - t₀) ≤ P.maxOut
  · rw [if_neg (by omega), if_pos hle]; rfl
  · rw [if_pos (by omega), if_neg hle]; rfl

end XR
end
end Ink
