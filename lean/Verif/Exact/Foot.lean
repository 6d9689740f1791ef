import Verif.Exact.Stylus
import Verif.Spec.Foot
/-!
# Projections on exact numbers
-/
namespace Ink
open Scalar Arith XR
noncomputable section
open Classical

namespace XR

/-! ### the stroke normal -/

theorem unitVec_eq {z : ℂ} (h : z ≠ 0) : unitVec (V z) = V (Ref.unit z) := by
  simp only [unitVec, V_magnitude, V_sdiv (norm_ne_zero_iff.2 h), Ref.unit]

theorem parallel_inner {v a : ℂ} (c : ℝ) (h : v = c • a) : |(inner ℝ v a : ℝ)| = ‖v‖ * ‖a‖ := by
  rw [h, real_inner_smul_left, real_inner_self_eq_norm_sq, norm_smul, abs_mul, Real.norm_eq_abs,
    abs_of_nonneg (by positivity : 0 ≤ ‖a‖ ^ 2)]
  ring

theorem not_parallel {q : Ref.Tip} (hv : q.vel ≠ 0) (ha : q.acc ≠ 0)
    (h : ¬ 0.99996192 * ‖q.vel‖ * ‖q.acc‖ < |(inner ℝ q.vel q.acc : ℝ)|) (c : ℝ) : q.vel ≠ c • q.acc := by
  intro hc
  apply h
  rw [parallel_inner c hc]
  have h1 := norm_pos_iff.2 hv
  have h2 := norm_pos_iff.2 ha
  have h3 : 0 < ‖q.vel‖ * ‖q.acc‖ := by positivity
  nlinarith

theorem getStrokeNormal_eq (q : Ref.Tip) (t : ℝ) : getStrokeNormal (tip q) (fin t) = (Ref.normal q t).map V := by
  unfold getStrokeNormal Ref.normal
  have e1 : ∀ z : ℂ, (‖z‖ = 0) = (z = 0) := fun z => propext norm_eq_zero
  simp only [tip, V_magnitude, lit0, fin_eq, e1, Bool.and_eq_true, decide_eq_true_eq]
  by_cases h1 : q.vel = 0
  · by_cases h2 : q.acc = 0
    · simp [h1, h2]
    · simp [h1, h2, orthogonal_eq]
  · by_cases h2 : q.acc = 0
    · simp [h1, h2, orthogonal_eq]
    · obtain ⟨I, hI⟩ : ∃ I : ℝ, |(inner ℝ q.vel q.acc : ℝ)| = I := ⟨_, rfl⟩
      have e2 : (kCosineHalfDegree (F := XR) (D := XR) * fin ‖q.vel‖ * fin ‖q.acc‖ <ᵇ abs (Vec2.dot (V q.vel) (V q.acc))) =
          decide (0.99996192 * ‖q.vel‖ * ‖q.acc‖ < I) := by
        rw [← hI, ← dot_eq_inner]
        simp only [kCosineHalfDegree, ofRatio_eq, narrow_eq, fin_mul, V_dot, fin_abs, fin_lt]
        norm_num
      simp only [hI, e2, h1, h2, decide_eq_true_eq, false_and, false_or, ↓reduceIte]
      by_cases h3 : 0.99996192 * ‖q.vel‖ * ‖q.acc‖ < I
      · simp only [h3, ↓reduceIte, orthogonal_eq, Option.map_some]
      · have hne : q.vel + (q.time - t) • q.acc ≠ 0 := by
          intro hc
          refine not_parallel h1 h2 (by rw [hI]; exact h3) (-(q.time - t)) ?_
          rw [neg_smul]
          exact eq_neg_of_add_eq_zero_left hc
        simp only [h3, ↓reduceIte, fin_sub, narrow_eq, V_smul, V_add, unitVec_eq h1, unitVec_eq hne, orthogonal_eq, Option.map_some]

theorem unit_ne {z : ℂ} (h : z ≠ 0) : Ref.unit z ≠ 0 := by
  unfold Ref.unit
  exact smul_ne_zero (inv_ne_zero (norm_ne_zero_iff.2 h)) h

/-- The normal is never zero. -/
theorem normal_ne {q : Ref.Tip} {t : ℝ} {n : ℂ} (h : Ref.normal q t = some n) : n ≠ 0 := by
  unfold Ref.normal at h
  split at h
  · simp at h
  · rename_i h0
    split at h
    · rename_i h1
      rw [← Option.some.inj h]
      exact mul_ne_zero Complex.I_ne_zero fun hc => h0 ⟨h1, hc⟩
    · rename_i h1
      split at h
      · rw [← Option.some.inj h]
        exact mul_ne_zero Complex.I_ne_zero h1
      · rename_i h2
        rw [not_or] at h2
        rw [← Option.some.inj h]
        apply mul_ne_zero Complex.I_ne_zero
        intro hc
        set w := q.vel + (q.time - t) • q.acc with hw
        have hne : w ≠ 0 := by
          intro hc
          refine not_parallel h1 h2.1 h2.2 (-(q.time - t)) ?_
          rw [neg_smul]
          exact eq_neg_of_add_eq_zero_left hc
        -- w is a negative multiple of the velocity
        have hv := norm_pos_iff.2 h1
        have hn := norm_pos_iff.2 hne
        have e : w = (-(‖w‖ / ‖q.vel‖)) • q.vel := by
          have := eq_neg_of_add_eq_zero_right hc
          unfold Ref.unit at this
          have e2 : w = ‖w‖ • (‖w‖⁻¹ • w) := by rw [smul_smul, mul_inv_cancel₀ hn.ne', one_smul]
          rw [this, smul_neg, smul_smul, ← neg_smul] at e2
          exact e2
        have e3 : (1 + ‖w‖ / ‖q.vel‖) • q.vel = -((q.time - t) • q.acc) := by
          rw [add_smul, one_smul]
          have : (‖w‖ / ‖q.vel‖) • q.vel = -w := by
            rw [neg_smul] at e
            exact (neg_eq_iff_eq_neg.2 e).symm
          rw [this, hw]; abel
        have hpos : 0 < 1 + ‖w‖ / ‖q.vel‖ := by positivity
        refine not_parallel h1 h2.1 h2.2 ((1 + ‖w‖ / ‖q.vel‖)⁻¹ * -(q.time - t)) ?_
        rw [mul_smul, neg_smul, ← e3, smul_smul, inv_mul_cancel₀ hpos.ne', one_smul]

/-! ### the closest point -/

/-- The closest point of a segment. -/
theorem nearest_spec (a b x : ℂ) : ∃ u, nearestPointOnSegment (V a) (V b) (V x) = fin u ∧ 0 ≤ u ∧ u ≤ 1 ∧
    (a = b → u = 0) ∧ ∀ v, 0 ≤ v → v ≤ 1 → ‖x - Ref.lerp a b u‖ ≤ ‖x - Ref.lerp a b v‖ := by
  unfold nearestPointOnSegment
  rw [V_eq]
  by_cases hab : a = b
  · subst hab
    refine ⟨0, by simp, le_rfl, zero_le_one, fun _ => rfl, fun v _ _ => by simp [Ref.lerp]⟩
  · have hpos : 0 < dot (b - a) (b - a) := by
      rw [dot_self]; have := norm_pos_iff.2 (sub_ne_zero.2 (Ne.symm hab)); positivity
    refine ⟨clamp (dot (x - a) (b - a) / dot (b - a) (b - a)), by simp [hab, V_sub, fin_div _ hpos.ne'], clamp_nonneg _, clamp_le_one _,
      fun h => absurd h hab, ?_⟩
    intro v h0 h1
    set d := dot (b - a) (b - a) with hd
    set e := dot (x - a) (b - a) with he
    have key : ∀ w : ℝ, ‖x - Ref.lerp a b w‖ ^ 2 = ‖x - a‖ ^ 2 - 2 * w * e + w ^ 2 * d := by
      intro w
      have e1 : x - Ref.lerp a b w = (x - a) - w • (b - a) := by simp only [Ref.lerp]; abel
      rw [e1, norm_sub_sq_real, real_inner_smul_right, norm_smul, hd, dot_self, he, dot_eq_inner, Real.norm_eq_abs, mul_pow, sq_abs]
      ring
    rw [← abs_of_nonneg (norm_nonneg (x - Ref.lerp a b _)), ← abs_of_nonneg (norm_nonneg (x - Ref.lerp a b v)), ← sq_le_sq,
      key, key]
    have hm : e = (e / d) * d := by field_simp
    set r := e / d with hr
    rw [hm]
    rcases le_total r 0 with h | h
    · rw [clamp_of_nonpos h]; nlinarith [mul_nonneg h0 hpos.le, mul_nonneg (mul_nonneg h0 h0) hpos.le, mul_nonneg (mul_nonneg h0 hpos.le) (neg_nonneg.2 h)]
    · rcases le_total r 1 with h' | h'
      · rw [clamp_of_mem h h']; nlinarith [mul_nonneg (sq_nonneg (v - r)) hpos.le]
      · rw [clamp_of_one_le h']
        nlinarith [mul_nonneg (mul_nonneg (sub_nonneg.2 h1) hpos.le) (sub_nonneg.2 h'), mul_nonneg (mul_nonneg (sub_nonneg.2 h1) (sub_nonneg.2 h1)) hpos.le]

/-- What ProjectToClosestPoint knows after `i` segments. -/
def ClosestSoFar (l : List ℂ) (x : ℂ) (i : ℕ) : Option (RawInputProjection XR) → XR → Prop
  | none, d => i = 0 ∧ d = inf false
  | some b, d => ∃ u, b.ratio = fin u ∧ b.segmentIndex < i ∧ Ref.On l b.segmentIndex u ∧
    (l.getD b.segmentIndex 0 = l.getD (b.segmentIndex + 1) 0 → u = 0) ∧ d = fin ‖x - Ref.along l b.segmentIndex u‖ ∧
    ∀ k u', k < i → Ref.On l k u' → ‖x - Ref.along l b.segmentIndex u‖ ≤ ‖x - Ref.along l k u'‖ ∧
      (b.segmentIndex < k → ‖x - Ref.along l b.segmentIndex u‖ < ‖x - Ref.along l k u'‖)

theorem closestLoop_spec (l : List ℂ) (x : ℂ) (rs : List (Result XR XR)) (i : ℕ) (hi : i ≤ l.length)
    (hr : rs.map (·.position) = (l.drop i).map V) (best : Option (RawInputProjection XR)) (d : XR) (h : ClosestSoFar l x i best d) :
    ∃ d', ClosestSoFar l x (max i (l.length - 1)) (StylusModeler.closestLoop (V x) rs i best d) d' := by
  induction rs generalizing i best d with
  | nil =>
    have : l.length ≤ i := by
      have := congrArg List.length hr; simp only [List.map_nil, List.length_nil, List.length_map, List.length_drop] at this; omega
    rw [max_eq_left (by omega)]
    exact ⟨d, h⟩
  | cons a rs ih =>
    cases rs with
    | nil =>
      have : l.length = i + 1 := by
        have := congrArg List.length hr
        simp only [List.map_cons, List.map_nil, List.length_cons, List.length_nil, List.length_map, List.length_drop] at this; omega
      rw [max_eq_left (by omega)]
      exact ⟨d, h⟩
    | cons b rs =>
      have hlen := congrArg List.length hr
      simp only [List.map_cons, List.length_cons, List.length_map, List.length_drop] at hlen
      have h1 : i < l.length := by omega
      have h2 : i + 1 < l.length := by omega
      rw [List.drop_eq_getElem_cons h1, List.drop_eq_getElem_cons h2] at hr
      simp only [List.map_cons, List.cons.injEq] at hr
      obtain ⟨ha, hb, hr⟩ := hr
      simp only [StylusModeler.closestLoop]
      obtain ⟨u, hu, hu0, hu1, hz, hmin⟩ := nearest_spec l[i] l[i + 1] x
      have hA : ∀ v, Ref.along l i v = Ref.lerp l[i] l[i + 1] v := fun v => by simp [Ref.along, h1, h2]
      have hon : Ref.On l i u := ⟨h2, hu0, hu1⟩
      rw [ha, hb, hu]
      have hd : distance (V x) (interpVec (V l[i]) (V l[i + 1]) (fin u)) = fin ‖x - Ref.along l i u‖ := by
        rw [V_interp, V_distance, clamp_of_mem hu0 hu1, norm_sub_rev, hA]; rfl
      rw [hd]
      have hmax : max i (l.length - 1) = max (i + 1) (l.length - 1) := by omega
      rw [hmax]
      have hnew : ∀ u', Ref.On l i u' → ‖x - Ref.along l i u‖ ≤ ‖x - Ref.along l i u'‖ := fun u' ho => by
        rw [hA, hA]; exact hmin u' ho.nonneg ho.le
      have hr' : (b :: rs).map (·.position) = (l.drop (i + 1)).map V := by
        rw [List.drop_eq_getElem_cons h2, List.map_cons, List.map_cons, hb, hr]
      split
      · rename_i hle
        apply ih (i + 1) h2.le hr'
        refine ⟨u, rfl, Nat.lt_succ_self i, hon, by simpa [h1, h2] using hz, rfl, ?_⟩
        intro k u' hk ho
        refine ⟨?_, fun hlt => by simp only at hlt; omega⟩
        rcases Nat.lt_succ_iff_lt_or_eq.1 hk with hk | rfl
        · cases best with
          | none => rw [h.1] at hk; omega
          | some c =>
            obtain ⟨w, _, _, _, _, rfl, hw⟩ := h
            have hle : ‖x - Ref.along l i u‖ ≤ ‖x - Ref.along l c.segmentIndex w‖ := by simpa using hle
            exact hle.trans (hw k u' hk ho).1
        · exact hnew u' ho
      · rename_i hle
        apply ih (i + 1) h2.le hr'
        cases best with
        | none => rw [h.2] at hle; simp at hle
        | some c =>
          obtain ⟨w, hw0, hw1, hw2, hw3, rfl, hw⟩ := h
          have hle : ‖x - Ref.along l c.segmentIndex w‖ < ‖x - Ref.along l i u‖ := by simpa using hle
          refine ⟨w, hw0, hw1.trans (Nat.lt_succ_self i), hw2, hw3, rfl, ?_⟩
          intro k u' hk ho
          rcases Nat.lt_succ_iff_lt_or_eq.1 hk with hk | rfl
          · exact hw k u' hk ho
          · exact ⟨hle.le.trans (hnew u' ho), fun _ => hle.trans_le (hnew u' ho)⟩

/-! ### crossings of the normal -/

theorem cross_eq (a b : ℂ) : cross a b = Ref.cross a b := rfl

theorem cross_eq_zero {y n : ℂ} (hn : n ≠ 0) (h : cross y n = 0) : y = (dot y n / dot n n) • n := by
  have hpos : 0 < dot n n := by rw [dot_self]; have := norm_pos_iff.2 hn; positivity
  have hne := hpos.ne'
  apply Complex.ext
  · simp only [Complex.real_smul, Complex.mul_re, Complex.ofReal_re, Complex.ofReal_im, zero_mul, sub_zero]
    field_simp
    simp only [cross, dot] at *
    linear_combination n.im * h
  · simp only [Complex.real_smul, Complex.mul_im, Complex.ofReal_re, Complex.ofReal_im, zero_mul, add_zero]
    field_simp
    simp only [cross, dot] at *
    linear_combination (-n.re) * h

theorem cross_smul_self (s : ℝ) (n : ℂ) : cross (s • n) n = 0 := by
  simp [cross]; ring

theorem cross_lerp (a b x n : ℂ) (u : ℝ) : cross (Ref.lerp a b u - x) n = cross (a - x) n - u * cross n (b - a) := by
  simp [cross, Ref.lerp]; ring

theorem project_none {l : List ℂ} {x n : ℂ} {k : ℕ} (h1 : k < l.length) (h2 : k + 1 < l.length)
    (h : projectToSegmentAlongNormal (V l[k]) (V l[k + 1]) (V x) (V n) = none) : ∀ u s, ¬ Ref.Crossing l x n k u s := by
  intro u s hc
  have hac : cross n (l[k + 1] - l[k]) ≠ 0 := by have := hc.across; simpa [h1, h2, cross_eq] using this
  have he : Ref.lerp l[k] l[k + 1] u = x + s • n := by have := hc.eq; simpa [Ref.along, h1, h2] using this
  unfold projectToSegmentAlongNormal at h
  simp only [V_sub, V_cross, lit0, fin_eq, hac, decide_false, Bool.false_eq_true, ↓reduceIte, fin_div _ hac] at h
  have hu : cross (l[k] - x) n / cross n (l[k + 1] - l[k]) = u := by
    rw [div_eq_iff hac]
    have := cross_lerp l[k] l[k + 1] x n u
    rw [he, add_sub_cancel_left, cross_smul_self] at this
    linarith
  rw [hu] at h
  simp [not_lt.2 hc.nonneg, not_lt.2 hc.le] at h

theorem project_some {l : List ℂ} {x n : ℂ} (hn : n ≠ 0) {k : ℕ} (h1 : k < l.length) (h2 : k + 1 < l.length) {c : XR}
    (h : projectToSegmentAlongNormal (V l[k]) (V l[k + 1]) (V x) (V n) = some c) :
    ∃ u s, c = fin u ∧ Ref.Crossing l x n k u s ∧
      interpVec (V l[k]) (V l[k + 1]) c = V (x + s • n) ∧ ∀ u' s', Ref.Crossing l x n k u' s' → u' = u ∧ s' = s := by
  unfold projectToSegmentAlongNormal at h
  simp only [V_sub, V_cross] at h
  split at h
  · simp at h
  · rename_i h0
    have hac : cross n (l[k + 1] - l[k]) ≠ 0 := by simpa using h0
    split at h
    · simp at h
    · rename_i hb
      rw [fin_div _ hac] at h hb
      simp only [lit0, lit1, fin_lt, Bool.or_eq_true, decide_eq_true_eq, not_or, not_lt] at hb
      set u := cross (l[k] - x) n / cross n (l[k + 1] - l[k]) with hu
      have hz : cross (Ref.lerp l[k] l[k + 1] u - x) n = 0 := by
        rw [cross_lerp, hu, div_mul_cancel₀ _ hac, sub_self]
      have he := cross_eq_zero hn hz
      set s := dot (Ref.lerp l[k] l[k + 1] u - x) n / dot n n with hs
      have hal : Ref.along l k u = x + s • n := by
        rw [← he]; simp [Ref.along, h1, h2]
      refine ⟨u, s, (Option.some.inj h).symm, ⟨⟨h2, hb.1, hb.2⟩, by simpa [h1, h2, cross_eq] using hac, hal⟩, ?_, ?_⟩
      · rw [← Option.some.inj h, V_interp, clamp_of_mem hb.1 hb.2, ← he]
        simp [Ref.lerp]
      · intro u' s' hc
        have he' : Ref.lerp l[k] l[k + 1] u' = x + s' • n := by have := hc.eq; simpa [Ref.along, h1, h2] using this
        have hu' : u' = u := by
          rw [hu, eq_div_iff hac]
          have := cross_lerp l[k] l[k + 1] x n u'
          rw [he', add_sub_cancel_left, cross_smul_self] at this
          linarith
        refine ⟨hu', ?_⟩
        have h3 := hc.eq
        rw [hu', hal] at h3
        have h4 : s • n = s' • n := add_left_cancel h3
        exact (smul_left_injective ℝ hn h4).symm

/-- What ProjectAlongStrokeNormal knows of one side after `i` segments. -/
def NearestSoFar (l : List ℂ) (x n : ℂ) (side : ℝ → Prop) (i : ℕ) : Option (RawInputProjection XR) → XR → Prop
  | none, d => d = inf false ∧ ∀ k u s, k < i → Ref.Crossing l x n k u s → ¬ side s
  | some b, d => ∃ u s, b.ratio = fin u ∧ b.segmentIndex < i ∧ Ref.Crossing l x n b.segmentIndex u s ∧ side s ∧ d = fin (|s| * ‖n‖) ∧
    ∀ k u' s', k < i → Ref.Crossing l x n k u' s' → side s' → |s| ≤ |s'| ∧ (k < b.segmentIndex → |s| < |s'|)

theorem NearestSoFar.skip {l : List ℂ} {x n : ℂ} {side : ℝ → Prop} {i : ℕ} {best : Option (RawInputProjection XR)} {d : XR}
    (h : NearestSoFar l x n side i best d) (hi : ∀ u s, Ref.Crossing l x n i u s → ¬ side s) :
    NearestSoFar l x n side (i + 1) best d := by
  cases best with
  | none =>
    refine ⟨h.1, fun k u s hk hc => ?_⟩
    rcases Nat.lt_succ_iff_lt_or_eq.1 hk with hk | rfl
    · exact h.2 k u s hk hc
    · exact hi u s hc
  | some b =>
    obtain ⟨u, s, h1, h2, h3, h4, h5, h6⟩ := h
    refine ⟨u, s, h1, h2.trans (Nat.lt_succ_self i), h3, h4, h5, fun k u' s' hk hc hs => ?_⟩
    rcases Nat.lt_succ_iff_lt_or_eq.1 hk with hk | rfl
    · exact h6 k u' s' hk hc hs
    · exact absurd hs (hi u' s' hc)

/-- A crossing on the side in question replaces the best one if it is nearer. -/
theorem NearestSoFar.put {l : List ℂ} {x n : ℂ} (hn : n ≠ 0) {side : ℝ → Prop} {i : ℕ} {best : Option (RawInputProjection XR)} {d : XR}
    (h : NearestSoFar l x n side i best d) {u s : ℝ} (hc : Ref.Crossing l x n i u s) (hs : side s)
    (huniq : ∀ u' s', Ref.Crossing l x n i u' s' → u' = u ∧ s' = s) :
    NearestSoFar l x n side (i + 1) (if (fin (|s| * ‖n‖) <ᵇ d) = true then some ⟨i, fin u⟩ else best)
      (if (fin (|s| * ‖n‖) <ᵇ d) = true then fin (|s| * ‖n‖) else d) := by
  have hpos := norm_pos_iff.2 hn
  split
  · rename_i hlt
    refine ⟨u, s, rfl, Nat.lt_succ_self i, hc, hs, rfl, fun k u' s' hk hc' hs' => ?_⟩
    rcases Nat.lt_succ_iff_lt_or_eq.1 hk with hk | rfl
    · cases best with
      | none => exact absurd hs' (h.2 k u' s' hk hc')
      | some b =>
        obtain ⟨v, r, h1, h2, h3, h4, rfl, h6⟩ := h
        have hlt : |s| * ‖n‖ < |r| * ‖n‖ := by simpa using hlt
        have hlt := lt_of_mul_lt_mul_right hlt hpos.le
        have := (h6 k u' s' hk hc' hs').1
        exact ⟨hlt.le.trans this, fun _ => hlt.trans_le this⟩
    · rw [(huniq u' s' hc').2]
      exact ⟨le_rfl, fun hlt => by simp only at hlt; omega⟩
  · rename_i hlt
    cases best with
    | none => rw [h.1] at hlt; simp at hlt
    | some b =>
      obtain ⟨v, r, h1, h2, h3, h4, rfl, h6⟩ := h
      have hlt : |r| * ‖n‖ ≤ |s| * ‖n‖ := by simpa using hlt
      have hlt := le_of_mul_le_mul_right hlt hpos
      refine ⟨v, r, h1, h2.trans (Nat.lt_succ_self i), h3, h4, rfl, fun k u' s' hk hc' hs' => ?_⟩
      rcases Nat.lt_succ_iff_lt_or_eq.1 hk with hk | rfl
      · exact h6 k u' s' hk hc' hs'
      · rw [(huniq u' s' hc').2]
        exact ⟨hlt, fun h => by omega⟩

theorem normalRound_spec {l : List ℂ} {x n : ℂ} (hn : n ≠ 0) {i : ℕ} (h1 : i < l.length) (h2 : i + 1 < l.length)
    {b : StylusModeler.NormalBest XR} (hl : NearestSoFar l x n (0 ≤ ·) i b.left b.distLeft)
    (hr : NearestSoFar l x n (· < 0) i b.right b.distRight) :
    let b' := StylusModeler.normalRound (V x) (V n) (V l[i]) (V l[i + 1]) i b
    NearestSoFar l x n (0 ≤ ·) (i + 1) b'.left b'.distLeft ∧ NearestSoFar l x n (· < 0) (i + 1) b'.right b'.distRight := by
  dsimp only
  unfold StylusModeler.normalRound
  cases hp : projectToSegmentAlongNormal (V l[i]) (V l[i + 1]) (V x) (V n) with
  | none =>
    have := project_none h1 h2 hp
    exact ⟨hl.skip fun u s hc => absurd hc (this u s), hr.skip fun u s hc => absurd hc (this u s)⟩
  | some c =>
    obtain ⟨u, s, rfl, hc, hv, hq⟩ := project_some hn h1 h2 hp
    have hpos : 0 < dot n n := by rw [dot_self]; have := norm_pos_iff.2 hn; positivity
    have hside : (Vec2.dot (V (x + s • n) - V x) (V n) <ᵇ 0) = decide (s < 0) := by
      rw [V_sub, V_dot, add_sub_cancel_left, lit0, fin_lt]
      have : dot (s • n) n = s * dot n n := by rw [dot_eq_inner, dot_eq_inner, real_inner_smul_left]
      rw [this]
      congr 1
      exact propext ⟨fun h => by by_contra hh; have := mul_nonneg (not_lt.1 hh) hpos.le; linarith,
        fun h => mul_neg_of_neg_of_pos h hpos⟩
    have hdist : distance (V x) (V (x + s • n)) = fin (|s| * ‖n‖) := by
      rw [V_distance, add_sub_cancel_left, norm_smul, Real.norm_eq_abs]
    dsimp only
    rw [hv, hside, hdist]
    by_cases hs : s < 0
    · have hl' := hl.skip (fun u' s' hc' => by rw [(hq u' s' hc').2]; exact not_le.2 hs)
      have hr' := hr.put hn hc hs hq
      simp only [hs, decide_true, ↓reduceIte]
      split
      · rename_i h; rw [if_pos h, if_pos h] at hr'; exact ⟨hl', hr'⟩
      · rename_i h; rw [if_neg h, if_neg h] at hr'; exact ⟨hl', hr'⟩
    · have hr' := hr.skip (fun u' s' hc' => by rw [(hq u' s' hc').2]; exact hs)
      have hl' := hl.put hn hc (not_lt.1 hs) hq
      simp only [hs, decide_false, Bool.false_eq_true, ↓reduceIte]
      split
      · rename_i h; rw [if_pos h, if_pos h] at hl'; exact ⟨hl', hr'⟩
      · rename_i h; rw [if_neg h, if_neg h] at hl'; exact ⟨hl', hr'⟩

theorem normalLoop_spec {l : List ℂ} {x n : ℂ} (hn : n ≠ 0) (rs : List (Result XR XR)) (i : ℕ) (hi : i ≤ l.length)
    (hr : rs.map (·.position) = (l.drop i).map V) (b : StylusModeler.NormalBest XR)
    (hl : NearestSoFar l x n (0 ≤ ·) i b.left b.distLeft) (hri : NearestSoFar l x n (· < 0) i b.right b.distRight) :
    let b' := StylusModeler.normalLoop (V x) (V n) rs i b
    NearestSoFar l x n (0 ≤ ·) (max i (l.length - 1)) b'.left b'.distLeft ∧
    NearestSoFar l x n (· < 0) (max i (l.length - 1)) b'.right b'.distRight := by
  induction rs generalizing i b with
  | nil =>
    have : l.length ≤ i := by
      have := congrArg List.length hr; simp only [List.map_nil, List.length_nil, List.length_map, List.length_drop] at this; omega
    rw [max_eq_left (by omega)]
    exact ⟨hl, hri⟩
  | cons a rs ih =>
    cases rs with
    | nil =>
      have : l.length = i + 1 := by
        have := congrArg List.length hr
        simp only [List.map_cons, List.map_nil, List.length_cons, List.length_nil, List.length_map, List.length_drop] at this; omega
      rw [max_eq_left (by omega)]
      exact ⟨hl, hri⟩
    | cons c rs =>
      have hlen := congrArg List.length hr
      simp only [List.map_cons, List.length_cons, List.length_map, List.length_drop] at hlen
      have h1 : i < l.length := by omega
      have h2 : i + 1 < l.length := by omega
      have hr0 := hr
      rw [List.drop_eq_getElem_cons h1, List.drop_eq_getElem_cons h2] at hr
      simp only [List.map_cons, List.cons.injEq] at hr
      obtain ⟨ha, hb, hr⟩ := hr
      simp only [StylusModeler.normalLoop]
      rw [ha, hb]
      have hmax : max i (l.length - 1) = max (i + 1) (l.length - 1) := by omega
      rw [hmax]
      have := normalRound_spec hn h1 h2 hl hri
      refine ih (i + 1) h2.le ?_ _ this.1 this.2
      rw [List.drop_eq_getElem_cons h2, List.map_cons, List.map_cons, hb, hr]

theorem NearestSoFar.nearest {l : List ℂ} {x n : ℂ} {side : ℝ → Prop} {b : RawInputProjection XR} {d : XR}
    (h : NearestSoFar l x n side (max 0 (l.length - 1)) (some b) d) :
    ∃ u, b.ratio = fin u ∧ Ref.Nearest l x n side b.segmentIndex u := by
  obtain ⟨u, s, h1, h2, h3, h4, h5, h6⟩ := h
  exact ⟨u, h1, s, h3, h4, fun k' u' s' hc hs => h6 k' u' s' (by have := hc.lt; omega) hc hs⟩

theorem NearestSoFar.crosses {l : List ℂ} {x n : ℂ} {side : ℝ → Prop} {b : Option (RawInputProjection XR)} {d : XR}
    (h : NearestSoFar l x n side (max 0 (l.length - 1)) b d) : Ref.Crosses l x n side ↔ b.isSome := by
  cases b with
  | none =>
    simp only [Option.isSome_none, Bool.false_eq_true, iff_false]
    rintro ⟨k, u, s, hc, hs⟩
    exact h.2 k u s (by have := hc.lt; omega) hc hs
  | some b =>
    obtain ⟨u, s, h1, h2, h3, h4, _⟩ := h
    simpa using ⟨_, u, s, h3, h4⟩

/-! ### Query -/

/-- The projection as index and number. -/
def footOf (b : RawInputProjection XR) : ℕ × ℝ := (b.segmentIndex, match b.ratio with | fin u => u | _ => 0)

theorem projection_foot {s : StylusModeler XR XR} {l : List ℂ} (hl : s.state.inputs.map (·.position) = l.map V) (q : Ref.Tip) (t : ℝ)
    {b : Option (RawInputProjection XR)} (h : s.projection (tip q) (getStrokeNormal (tip q) (fin t)) = .ok b) :
    Ref.Foot s.params.useStrokeNormalProjection l q.pos q.acc (Ref.normal q t) (b.map footOf) ∧
    ∀ c, b = some c → c.ratio = fin (footOf c).2 ∧ Ref.On l (footOf c).1 (footOf c).2 := by
  have e : (tip q).position = V q.pos := rfl
  have e' : (tip q).acceleration = V q.acc := rfl
  have hlen := congrArg List.length hl
  simp only [List.length_map] at hlen
  have closest : ∀ {b}, StylusModeler.projectToClosestPoint (V q.pos) s.state.inputs = .ok b →
      (match b.map footOf with
      | none => l.length = 1
      | some (k, u) => Ref.Closest l q.pos k u) ∧
      ∀ c, b = some c → c.ratio = fin (footOf c).2 ∧ Ref.On l (footOf c).1 (footOf c).2 := by
    intro b h
    unfold StylusModeler.projectToClosestPoint at h
    split at h
    · simp at h
    · rename_i hne
      simp only [Outcome.ok.injEq] at h
      obtain ⟨d, hd⟩ := closestLoop_spec l q.pos s.state.inputs 0 (Nat.zero_le _) (by simpa using hl) none (inf false) ⟨rfl, rfl⟩
      rw [inf_eq] at h
      rw [h] at hd
      cases b with
      | none =>
        have h0 : s.state.inputs ≠ [] := by simpa using hne
        have : 0 < l.length := by rw [← hlen]; exact List.length_pos_iff.2 h0
        have := hd.1
        exact ⟨by simp only [Option.map_none]; omega, by simp⟩
      | some b =>
        obtain ⟨u, h1, h2, h3, hz, h4, h5⟩ := hd
        have hf : footOf b = (b.segmentIndex, u) := by simp [footOf, h1]
        refine ⟨?_, ?_⟩
        · rw [Option.map_some, hf]
          exact ⟨h3, fun k' u' ho => (h5 k' u' (by have := ho.lt; omega) ho).1,
            fun k' u' ho hlt => (h5 k' u' (by have := ho.lt; omega) ho).2 hlt, hz⟩
        · rintro _ ⟨⟩
          rw [hf]; exact ⟨h1, h3⟩
  unfold StylusModeler.projection at h
  rw [getStrokeNormal_eq] at h
  unfold Ref.Foot
  cases hu : s.params.useStrokeNormalProjection with
  | false =>
    rw [hu] at h
    exact closest h
  | true =>
    rw [hu] at h
    cases hn : Ref.normal q t with
    | none =>
      rw [hn] at h
      exact closest h
    | some n =>
      rw [hn] at h
      simp only [Option.map_some, e, e'] at h
      have hn0 := normal_ne hn
      unfold StylusModeler.projectAlongStrokeNormal at h
      split at h
      · simp at h
      · simp only [Outcome.ok.injEq] at h
        have := normalLoop_spec (x := q.pos) hn0 s.state.inputs 0 (Nat.zero_le _) (by simpa using hl)
          ⟨none, none, Arith.inf, Arith.inf⟩ ⟨by simp, by simp⟩ ⟨by simp, by simp⟩
        dsimp only at this
        set best := StylusModeler.normalLoop (V q.pos) (V n) s.state.inputs 0 ⟨none, none, Arith.inf, Arith.inf⟩ with hbest
        obtain ⟨hL, hR⟩ := this
        have cL := hL.crosses
        have cR := hR.crosses
        have hdot : (0 <ᵇ Vec2.dot (V n) (V q.acc)) = decide (0 < (inner ℝ n q.acc : ℝ)) := by
          rw [V_dot, lit0, fin_lt, dot_eq_inner]
        rw [hdot] at h
        have pick : ∀ {side : ℝ → Prop} {o : Option (RawInputProjection XR)} {d : XR} {c : RawInputProjection XR},
            NearestSoFar l q.pos n side (max 0 (l.length - 1)) o d → o = some c →
            Ref.Nearest l q.pos n side (footOf c).1 (footOf c).2 ∧ c.ratio = fin (footOf c).2 ∧ Ref.On l (footOf c).1 (footOf c).2 := by
          rintro side _ d c hN rfl
          obtain ⟨u, h1, h2⟩ := hN.nearest
          have hf : footOf c = (c.segmentIndex, u) := by simp [footOf, h1]
          rw [hf]
          obtain ⟨s, hs, _⟩ := id h2
          exact ⟨h2, h1, hs.toOn⟩
        dsimp only
        rw [cL, cR]
        cases b with
        | none =>
          refine ⟨?_, by simp⟩
          simp only [Option.map_none]
          rintro ⟨k, u, s, hc, _⟩
          rcases lt_or_ge s 0 with hs | hs
          · have h3 := cR.1 ⟨k, u, s, hc, hs⟩
            rw [h3] at h
            simp only [Bool.and_true, ↓reduceIte] at h
            split at h
            · rename_i h4
              split at h
              · rw [h] at h3; simp at h3
              · rw [h] at h4; simp at h4
            · rw [h] at h3; simp at h3
          · have h3 := cL.1 ⟨k, u, s, hc, hs⟩
            rw [h3] at h
            simp only [Bool.true_and] at h
            split at h
            · rename_i h4
              split at h
              · rw [h] at h4; simp at h4
              · rw [h] at h3; simp at h3
            · rw [h] at h3; simp at h3
        | some c =>
          simp only [Option.map_some]
          have hcase : (best.right = some c ∧ (best.right.isSome = true ∧ (¬ best.left.isSome = true ∨ 0 < (inner ℝ n q.acc : ℝ)))) ∨
              (best.left = some c ∧ ¬ (best.right.isSome = true ∧ (¬ best.left.isSome = true ∨ 0 < (inner ℝ n q.acc : ℝ)))) := by
            cases hl : best.left <;> cases hr : best.right <;> by_cases hi : 0 < (inner ℝ n q.acc : ℝ) <;>
              rw [hl, hr] at h <;> simp only [hi, decide_true, decide_false, Option.isSome_some, Option.isSome_none, Bool.and_true, Bool.and_false,
                Bool.false_eq_true, reduceCtorEq, ↓reduceIte] at h ⊢ <;> simp [h]
          rcases hcase with ⟨h1, h2⟩ | ⟨h1, h2⟩
          · rw [if_pos h2]
            obtain ⟨p1, p2⟩ := pick hR h1
            refine ⟨p1, ?_⟩
            rintro _ ⟨⟩; exact p2
          · rw [if_neg h2]
            obtain ⟨p1, p2⟩ := pick hL h1
            refine ⟨p1, ?_⟩
            rintro _ ⟨⟩; exact p2

end XR
end
end Ink
