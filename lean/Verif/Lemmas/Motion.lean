import Verif.Lemmas.Drift
import Verif.Spec.Motion
import Mathlib.Analysis.Calculus.MeanValue
import Mathlib.Analysis.Calculus.Deriv.Pow
import Mathlib.Analysis.Calculus.Deriv.Mul
/-!
# The spring model and the differential equation

The steps of the model are those of Euler's method. Here the method is shown to converge: the lag of the pen behind the anchor is
bounded by the speed of the anchor, hence so are the acceleration of the pen and its change; hence the error of each step is of the
order of the square of its length; and errors decay.
-/
namespace Ink.Ref
noncomputable section
open Set

variable {P : Params}

/-! ### one coordinate -/

/-- The equation of motion of one coordinate. -/
structure Line (P : Params) (φ : ℝ → ℝ) (t₀ T : ℝ) (x v : ℝ → ℝ) : Prop where
  pos : ∀ t ∈ Icc t₀ T, HasDerivWithinAt x (v t) (Icc t₀ T) t
  vel : ∀ t ∈ Icc t₀ T, HasDerivWithinAt v (P.mass⁻¹ * (φ t - x t) - P.drag * v t) (Icc t₀ T) t

theorem decay_drag (h : P.Stable) (hv : P.Valid) : 2 * P.decay * P.drag ≤ P.mass⁻¹ := by
  have hs : 0 < P.rate⁻¹ := inv_pos.2 hv.rate
  obtain ⟨k1, k2, k3, k4, k5⟩ := h.short hv hs (inv_mul_cancel₀ hv.rate.ne').le
  have k6 := (form_bounds k1 k2 k3 k4 k5).2.2.1
  refine le_of_mul_le_mul_right (a := P.rate⁻¹ ^ 2) ?_ (by positivity)
  linarith

/-- The change of the energy relative to an anchor of speed `σ`. -/
theorem lag_deriv {m B d e v σ : ℝ} (hm : 0 < m) (hB : 0 < B) (h1 : 2 * B ≤ d) (h2 : 2 * B * d ≤ m) :
    2 * v * (m * -e - d * v) + 2 * B * ((v - σ) * v + e * (m * -e - d * v)) + 2 * (m + B * d) * (e * (v - σ)) ≤
      -(B * (v ^ 2 + m * e ^ 2)) + (B + 9 / 4 * (m / B)) * σ ^ 2 := by
  have e1 : 2 * v * (m * -e - d * v) + 2 * B * ((v - σ) * v + e * (m * -e - d * v)) + 2 * (m + B * d) * (e * (v - σ)) =
      -(2 * (d - B) * v ^ 2) - 2 * B * m * e ^ 2 - 2 * B * (σ * v) - 2 * (m + B * d) * (σ * e) := by ring
  have i1 : -(2 * B * (σ * v)) ≤ B * v ^ 2 + B * σ ^ 2 := by nlinarith [mul_nonneg hB.le (sq_nonneg (v + σ))]
  have i2 : -(2 * (m + B * d) * (σ * e)) ≤ B * m * e ^ 2 + 9 / 4 * (m / B) * σ ^ 2 := by
    have j1 : 0 ≤ (2 * B * |e| - 3 * |σ|) ^ 2 := sq_nonneg _
    have j2 : -(2 * (m + B * d) * (σ * e)) ≤ 3 * m * (|σ| * |e|) := by
      have : -(σ * e) ≤ |σ| * |e| := by rw [← abs_mul]; exact neg_le_abs _
      have h3 : 0 ≤ m + B * d := by nlinarith
      calc -(2 * (m + B * d) * (σ * e)) = 2 * (m + B * d) * -(σ * e) := by ring
        _ ≤ 2 * (m + B * d) * (|σ| * |e|) := mul_le_mul_of_nonneg_left this (by positivity)
        _ ≤ 3 * m * (|σ| * |e|) := mul_le_mul_of_nonneg_right (by linarith) (by positivity)
    have j3 : B * m * e ^ 2 + 9 / 4 * (m / B) * σ ^ 2 - 3 * m * (|σ| * |e|) = m / (4 * B) * (2 * B * |e| - 3 * |σ|) ^ 2 := by
      rw [← sq_abs e, ← sq_abs σ]
      field_simp
      ring
    have j4 : 0 ≤ m / (4 * B) * (2 * B * |e| - 3 * |σ|) ^ 2 := by positivity
    linarith
  have i3 : -(2 * (d - B) * v ^ 2) ≤ -(2 * B * v ^ 2) := by nlinarith [sq_nonneg v]
  rw [e1]
  linarith

/-- The largest energy of the lag behind an anchor of speed `S`. -/
def lagCap (P : Params) (S : ℝ) : ℝ := (2 + 9 / 2 * (P.mass⁻¹ / P.decay ^ 2)) * S ^ 2

/-- While the anchor moves at constant speed the energy of the lag stays bounded. -/
theorem lag_segment (h : P.Stable) (hv : P.Valid) {φ x v : ℝ → ℝ} {t₀ T : ℝ} (hl : Line P φ t₀ T x v) {a b σ S : ℝ} (ha : t₀ ≤ a)
    (hb : b ≤ T) (hφ : ∀ t ∈ Icc a b, φ t = φ a + σ * (t - a)) (hσ : |σ| ≤ S)
    (h0 : P.part (x a - φ a) (v a) ≤ lagCap P S) : ∀ t ∈ Icc a b, P.part (x t - φ t) (v t) ≤ lagCap P S := by
  have hd := decay_pos hv
  have hm : 0 < P.mass⁻¹ := inv_pos.2 hv.mass
  intro t ht
  rw [hφ t ht]
  rw [show φ a = φ a + σ * (a - a) by ring] at h0
  refine le_of_forall_pos_le_add fun ε hε => ?_
  have hsub : Icc a b ⊆ Icc t₀ T := Icc_subset_Icc ha hb
  have hE : ∀ s ∈ Icc a b, HasDerivWithinAt (fun s => x s - (φ a + σ * (s - a))) (v s - σ) (Icc a b) s := by
    intro s hs
    have h1 := (hl.pos s (hsub hs)).mono hsub
    have h2 : HasDerivWithinAt (fun s => φ a + σ * (s - a)) (σ * 1) (Icc a b) s :=
      (((hasDerivWithinAt_id s _).sub_const a).const_mul σ).const_add _
    rw [mul_one] at h2
    exact h1.sub h2
  have hV : ∀ s ∈ Icc a b, HasDerivWithinAt v (P.mass⁻¹ * -(x s - (φ a + σ * (s - a))) - P.drag * v s) (Icc a b) s := by
    intro s hs
    have := (hl.vel s (hsub hs)).mono hsub
    rwa [hφ s hs, ← neg_sub (x s)] at this
  have hG : ∀ s ∈ Icc a b, HasDerivWithinAt (fun s => P.part (x s - (φ a + σ * (s - a))) (v s))
      (2 * v s * (P.mass⁻¹ * -(x s - (φ a + σ * (s - a))) - P.drag * v s) +
        2 * P.decay * ((v s - σ) * v s + (x s - (φ a + σ * (s - a))) * (P.mass⁻¹ * -(x s - (φ a + σ * (s - a))) - P.drag * v s)) +
        2 * (P.mass⁻¹ + P.decay * P.drag) * ((x s - (φ a + σ * (s - a))) * (v s - σ))) (Icc a b) s := by
    intro s hs
    have h1 := ((hV s hs).pow 2).add (((hE s hs).mul (hV s hs)).const_mul (2 * P.decay))
    have h2 := h1.add (((hE s hs).pow 2).const_mul (P.mass⁻¹ + P.decay * P.drag))
    refine (h2.congr_deriv ?_).congr_of_eventuallyEq ?_ ?_
    · norm_num; ring
    · refine Filter.Eventually.of_forall fun s => ?_
      simp only [Params.part, Pi.add_apply, Pi.mul_apply, Pi.pow_apply]; ring
    · simp only [Params.part, Pi.add_apply, Pi.mul_apply, Pi.pow_apply]; ring
  refine image_le_of_deriv_right_lt_deriv_boundary (B := fun _ => lagCap P S + ε) (B' := fun _ => 0)
    (fun s hs => (hG s hs).continuousWithinAt) (fun s hs => (hG s ⟨hs.1, hs.2.le⟩).mono_of_mem_nhdsWithin ?_) (by linarith)
    (fun s => hasDerivAt_const s _) ?_ ht
  · exact Filter.mem_of_superset (Icc_mem_nhdsGE hs.2) (Icc_subset_Icc hs.1 le_rfl)
  · intro s hs heq
    have h1 := lag_deriv (e := x s - (φ a + σ * (s - a))) (v := v s) (σ := σ) hm hd (decay_le hv) (decay_drag h hv)
    have h2 := part_le h hv (x s - (φ a + σ * (s - a))) (v s)
    have h3 : σ ^ 2 ≤ S ^ 2 := by rw [← sq_abs]; exact pow_le_pow_left₀ (abs_nonneg _) hσ 2
    have h4 : (P.decay + 9 / 4 * (P.mass⁻¹ / P.decay)) * σ ^ 2 ≤ (P.decay + 9 / 4 * (P.mass⁻¹ / P.decay)) * S ^ 2 :=
      mul_le_mul_of_nonneg_left h3 (by positivity)
    have h5 : P.decay / 2 * lagCap P S = (P.decay + 9 / 4 * (P.mass⁻¹ / P.decay)) * S ^ 2 := by
      unfold lagCap; field_simp; ring
    have h6 : P.decay / 2 * (lagCap P S + ε) ≤ P.decay / 2 * (2 * v s ^ 2 + 2 * P.mass⁻¹ * (x s - (φ a + σ * (s - a))) ^ 2) :=
      mul_le_mul_of_nonneg_left (heq ▸ h2) (by positivity)
    have h7 : 0 < P.decay / 2 * ε := by positivity
    refine lt_of_le_of_lt h1 ?_
    linarith

/-! ### the error of a step -/

/-- The root of the largest energy of the lag, per speed of the anchor. -/
def lagRoot (M d : ℝ) : ℝ := Real.sqrt (2 + 9 / 2 * (M⁻¹ / (d / (2 * (1 + M * d ^ 2))) ^ 2))

/-- The largest acceleration, per speed of the anchor. -/
def accRate (M d : ℝ) : ℝ := (Real.sqrt M⁻¹ + 11 / 10 * d) * lagRoot M d

/-- The largest change of the acceleration per time, per speed of the anchor. -/
def jerkRate (M d : ℝ) : ℝ := M⁻¹ * (1 + 11 / 10 * lagRoot M d) + d * accRate M d

/-- The largest error of a step per square of its length, per speed of the anchor. -/
def stepRate (M d : ℝ) : ℝ := 3 / 2 * (3 / 2 * (jerkRate M d + M⁻¹) + Real.sqrt M⁻¹ * accRate M d)

/-- The error that steps of length one cannot exceed, per speed of the anchor. -/
def errRate (M d : ℝ) : ℝ := 10 * stepRate M d / (d / (2 * (1 + M * d ^ 2)))

theorem lagRoot_nonneg (M d : ℝ) : 0 ≤ lagRoot M d := Real.sqrt_nonneg _

theorem gauge_lag (hv : P.Valid) {e v S : ℝ} (hS : 0 ≤ S) (h : P.part e v ≤ lagCap P S) : gauge P e v ≤ lagRoot P.mass P.drag * S := by
  have hm : 0 < P.mass⁻¹ := inv_pos.2 hv.mass
  have : 0 ≤ lagRoot P.mass P.drag * S := mul_nonneg (lagRoot_nonneg _ _) hS
  rw [gauge, Real.sqrt_le_left this, mul_pow, lagRoot, Real.sq_sqrt (by positivity)]
  exact h

section step
variable {φ x v : ℝ → ℝ} {t₀ T S : ℝ}

theorem line_acc (h : P.Stable) (hv : P.Valid) (hS : 0 ≤ S) (hlag : ∀ t ∈ Icc t₀ T, P.part (x t - φ t) (v t) ≤ lagCap P S) :
    ∀ t ∈ Icc t₀ T, |v t| ≤ 11 / 10 * lagRoot P.mass P.drag * S ∧
      |P.mass⁻¹ * (φ t - x t) - P.drag * v t| ≤ accRate P.mass P.drag * S := by
  intro t ht
  have hm : 0 < P.mass⁻¹ := inv_pos.2 hv.mass
  have hω := Real.sqrt_nonneg P.mass⁻¹
  have hωM : Real.sqrt P.mass⁻¹ ^ 2 = P.mass⁻¹ := Real.sq_sqrt hm.le
  have h1 := gauge_lag hv hS (hlag t ht)
  have h2 := pos_le_gauge h hv hωM (x t - φ t) (v t)
  have h3 := vel_le_gauge h hv (x t - φ t) (v t)
  have h4 : |v t| ≤ 11 / 10 * lagRoot P.mass P.drag * S := by linarith
  refine ⟨h4, ?_⟩
  have h5 : |P.mass⁻¹ * (φ t - x t)| ≤ Real.sqrt P.mass⁻¹ * (lagRoot P.mass P.drag * S) := by
    rw [abs_mul, abs_of_pos hm, abs_sub_comm]
    calc P.mass⁻¹ * |x t - φ t| = Real.sqrt P.mass⁻¹ * (Real.sqrt P.mass⁻¹ * |x t - φ t|) := by rw [← mul_assoc, ← sq, hωM]
      _ ≤ _ := mul_le_mul_of_nonneg_left (h2.trans h1) hω
  have h6 : |P.drag * v t| ≤ P.drag * (11 / 10 * lagRoot P.mass P.drag * S) := by
    rw [abs_mul, abs_of_pos hv.drag]
    exact mul_le_mul_of_nonneg_left h4 hv.drag.le
  refine (abs_sub _ _).trans ?_
  unfold accRate
  linarith

/-- How far a step of the equation of motion is from one of Euler's method. -/
theorem line_step (h : P.Stable) (hv : P.Valid) (hS : 0 ≤ S) (hl : Line P φ t₀ T x v)
    (hlag : ∀ t ∈ Icc t₀ T, P.part (x t - φ t) (v t) ≤ lagCap P S)
    (hφ : ∀ s t, t₀ ≤ s → s ≤ t → t ≤ T → |φ t - φ s| ≤ S * (t - s)) {p q : ℝ} (hp : t₀ ≤ p) (hpq : p ≤ q) (hq : q ≤ T) :
    |v q - (v p + (q - p) * (P.mass⁻¹ * (φ q - x p) - P.drag * v p))| ≤ (jerkRate P.mass P.drag + P.mass⁻¹) * S * (q - p) ^ 2 ∧
    |x q - (x p + (q - p) * v q)| ≤ accRate P.mass P.drag * S * (q - p) ^ 2 := by
  have hm : 0 < P.mass⁻¹ := inv_pos.2 hv.mass
  have hsub : Icc p q ⊆ Icc t₀ T := Icc_subset_Icc hp hq
  have hacc := line_acc h hv hS hlag
  have hpm : p ∈ Icc p q := ⟨le_rfl, hpq⟩
  have hqm : q ∈ Icc p q := ⟨hpq, le_rfl⟩
  have hX : ∀ t ∈ Icc p q, HasDerivWithinAt x (v t) (Icc p q) t := fun t ht => (hl.pos t (hsub ht)).mono hsub
  have hV : ∀ t ∈ Icc p q, HasDerivWithinAt v (P.mass⁻¹ * (φ t - x t) - P.drag * v t) (Icc p q) t :=
    fun t ht => (hl.vel t (hsub ht)).mono hsub
  have hA : 0 ≤ accRate P.mass P.drag * S := (abs_nonneg _).trans (hacc p (hsub hpm)).2
  have dX : ∀ t ∈ Icc p q, |x t - x p| ≤ 11 / 10 * lagRoot P.mass P.drag * S * (t - p) := by
    intro t ht
    have := (convex_Icc p q).norm_image_sub_le_of_norm_hasDerivWithin_le hX (fun t ht => (hacc t (hsub ht)).1) hpm ht
    rwa [Real.norm_eq_abs, Real.norm_eq_abs, abs_of_nonneg (sub_nonneg.2 ht.1)] at this
  have dV : ∀ s ∈ Icc p q, ∀ t ∈ Icc p q, |v t - v s| ≤ accRate P.mass P.drag * S * |t - s| := by
    intro s hs t ht
    have := (convex_Icc p q).norm_image_sub_le_of_norm_hasDerivWithin_le hV (fun t ht => (hacc t (hsub ht)).2) hs ht
    rwa [Real.norm_eq_abs, Real.norm_eq_abs] at this
  constructor
  · have hd : ∀ t ∈ Icc p q, HasDerivWithinAt (fun t => v t - t * (P.mass⁻¹ * (φ p - x p) - P.drag * v p))
        (P.mass⁻¹ * (φ t - x t) - P.drag * v t - 1 * (P.mass⁻¹ * (φ p - x p) - P.drag * v p)) (Icc p q) t :=
      fun t ht => (hV t ht).sub ((hasDerivWithinAt_id t _).mul_const _)
    have hb : ∀ t ∈ Icc p q, ‖P.mass⁻¹ * (φ t - x t) - P.drag * v t - 1 * (P.mass⁻¹ * (φ p - x p) - P.drag * v p)‖ ≤
        jerkRate P.mass P.drag * S * (q - p) := by
      intro t ht
      have e1 : P.mass⁻¹ * (φ t - x t) - P.drag * v t - 1 * (P.mass⁻¹ * (φ p - x p) - P.drag * v p) =
          P.mass⁻¹ * ((φ t - φ p) - (x t - x p)) - P.drag * (v t - v p) := by ring
      rw [e1, Real.norm_eq_abs]
      have i1 := hφ p t hp ht.1 (ht.2.trans hq)
      have i2 := dX t ht
      have i3 := dV p hpm t ht
      rw [abs_of_nonneg (sub_nonneg.2 ht.1)] at i3
      have i4 : |P.mass⁻¹ * ((φ t - φ p) - (x t - x p))| ≤ P.mass⁻¹ * ((1 + 11 / 10 * lagRoot P.mass P.drag) * S * (t - p)) := by
        rw [abs_mul, abs_of_pos hm]
        refine mul_le_mul_of_nonneg_left ((abs_sub _ _).trans ?_) hm.le
        linarith
      have i5 : |P.drag * (v t - v p)| ≤ P.drag * (accRate P.mass P.drag * S * (t - p)) := by
        rw [abs_mul, abs_of_pos hv.drag]
        exact mul_le_mul_of_nonneg_left i3 hv.drag.le
      have i6 : 0 ≤ jerkRate P.mass P.drag * S := by
        have := lagRoot_nonneg P.mass P.drag
        have e : jerkRate P.mass P.drag * S = P.mass⁻¹ * (1 + 11 / 10 * lagRoot P.mass P.drag) * S + P.drag * (accRate P.mass P.drag * S) := by
          unfold jerkRate; ring
        rw [e]
        have := hv.drag
        positivity
      have i7 : jerkRate P.mass P.drag * S * (t - p) ≤ jerkRate P.mass P.drag * S * (q - p) :=
        mul_le_mul_of_nonneg_left (by linarith [ht.2]) i6
      refine ((abs_sub _ _).trans (add_le_add i4 i5)).trans (le_trans (le_of_eq ?_) i7)
      unfold jerkRate; ring
    have := (convex_Icc p q).norm_image_sub_le_of_norm_hasDerivWithin_le hd hb hpm hqm
    rw [Real.norm_eq_abs, Real.norm_eq_abs, abs_of_nonneg (sub_nonneg.2 hpq)] at this
    have e2 : v q - (v p + (q - p) * (P.mass⁻¹ * (φ q - x p) - P.drag * v p)) =
        (v q - q * (P.mass⁻¹ * (φ p - x p) - P.drag * v p) - (v p - p * (P.mass⁻¹ * (φ p - x p) - P.drag * v p))) -
          (q - p) * (P.mass⁻¹ * (φ q - φ p)) := by ring
    rw [e2]
    refine (abs_sub _ _).trans ((add_le_add this (?_ : _ ≤ P.mass⁻¹ * S * (q - p) ^ 2)).trans (le_of_eq (by ring)))
    rw [abs_mul, abs_mul, abs_of_pos hm, abs_of_nonneg (sub_nonneg.2 hpq)]
    have := mul_le_mul_of_nonneg_left (hφ p q hp hpq hq) (mul_nonneg (sub_nonneg.2 hpq) hm.le)
    linarith
  · have hd : ∀ t ∈ Icc p q, HasDerivWithinAt (fun t => x t - t * v q) (v t - 1 * v q) (Icc p q) t :=
      fun t ht => (hX t ht).sub ((hasDerivWithinAt_id t _).mul_const _)
    have hb : ∀ t ∈ Icc p q, ‖v t - 1 * v q‖ ≤ accRate P.mass P.drag * S * (q - p) := by
      intro t ht
      rw [one_mul, Real.norm_eq_abs]
      refine (dV q hqm t ht).trans (mul_le_mul_of_nonneg_left ?_ hA)
      rw [abs_sub_comm, abs_of_nonneg (sub_nonneg.2 ht.2)]
      linarith [ht.1]
    have := (convex_Icc p q).norm_image_sub_le_of_norm_hasDerivWithin_le hd hb hpm hqm
    rw [Real.norm_eq_abs, Real.norm_eq_abs, abs_of_nonneg (sub_nonneg.2 hpq)] at this
    have e2 : x q - (x p + (q - p) * v q) = x q - q * v q - (x p - p * v q) := by ring
    rw [e2]
    exact this.trans (le_of_eq (by ring))

/-- The largest error. -/
def errCap (P : Params) (S : ℝ) : ℝ := errRate P.mass P.drag * S / P.rate

/-- Steps do not increase the error beyond it. -/
theorem line_error (h : P.Stable) (hv : P.Valid) (hS : 0 ≤ S) (hl : Line P φ t₀ T x v)
    (hlag : ∀ t ∈ Icc t₀ T, P.part (x t - φ t) (v t) ≤ lagCap P S)
    (hφ : ∀ s t, t₀ ≤ s → s ≤ t → t ≤ T → |φ t - φ s| ≤ S * (t - s)) {p q : ℝ} (hp : t₀ ≤ p) (hpq : p ≤ q) (hq : q ≤ T)
    (hs : (q - p) * P.rate ≤ 1) {y w : ℝ} (hg : gauge P (x p - y) (v p - w) ≤ errCap P S) :
    gauge P (x q - (y + (q - p) * (w + (q - p) * (P.mass⁻¹ * (φ q - y) - P.drag * w))))
      (v q - (w + (q - p) * (P.mass⁻¹ * (φ q - y) - P.drag * w))) ≤ errCap P S := by
  have hm : 0 < P.mass⁻¹ := inv_pos.2 hv.mass
  have hω := Real.sqrt_nonneg P.mass⁻¹
  have hωM : Real.sqrt P.mass⁻¹ ^ 2 = P.mass⁻¹ := Real.sq_sqrt hm.le
  have hB := decay_pos hv
  have hr := hv.rate
  obtain ⟨h1, h2⟩ := line_step h hv hS hl hlag hφ hp hpq hq
  have hs0 : 0 ≤ q - p := sub_nonneg.2 hpq
  refine (drift_step h hv hω hωM hs0 hs hg h1 h2 le_rfl).trans ?_
  have hA : 0 ≤ accRate P.mass P.drag := mul_nonneg (by have := hv.drag; positivity) (lagRoot_nonneg _ _)
  have hJ : 0 ≤ jerkRate P.mass P.drag := by
    have := lagRoot_nonneg P.mass P.drag
    have := hv.drag
    unfold jerkRate; positivity
  have hωs : Real.sqrt P.mass⁻¹ * (q - p) ≤ 1 / 2 := by
    refine abs_le_of_sq_le_sq' ?_ (by norm_num) |>.2
    rw [mul_pow, hωM]
    have k1 : P.mass⁻¹ * 4 ≤ P.drag * P.rate := by
      have := mul_le_mul_of_nonneg_left h.mass hm.le
      rwa [← mul_assoc, ← mul_assoc, inv_mul_cancel₀ hv.mass.ne', one_mul] at this
    have k2 : P.mass⁻¹ * 8 ≤ P.rate ^ 2 := by nlinarith [h.drag]
    have k3 : ((q - p) * P.rate) ^ 2 ≤ 1 := pow_le_one₀ (by positivity) hs
    nlinarith [mul_le_mul_of_nonneg_right k2 (sq_nonneg (q - p))]
  have hE : 3 / 2 * ((jerkRate P.mass P.drag + P.mass⁻¹) * S * (q - p) ^ 2 + Real.sqrt P.mass⁻¹ *
      (accRate P.mass P.drag * S * (q - p) ^ 2 + (q - p) * ((jerkRate P.mass P.drag + P.mass⁻¹) * S * (q - p) ^ 2))) ≤
      stepRate P.mass P.drag * S * (q - p) ^ 2 := by
    have k1 : Real.sqrt P.mass⁻¹ * (q - p) * ((jerkRate P.mass P.drag + P.mass⁻¹) * S * (q - p) ^ 2) ≤
        1 / 2 * ((jerkRate P.mass P.drag + P.mass⁻¹) * S * (q - p) ^ 2) := mul_le_mul_of_nonneg_right hωs (by positivity)
    unfold stepRate
    linarith
  have hK : 0 ≤ stepRate P.mass P.drag * S := by unfold stepRate; positivity
  have hE' : stepRate P.mass P.drag * S * (q - p) ^ 2 ≤ P.decay * (q - p) / 10 * errCap P S := by
    have e1 : P.decay * (q - p) / 10 * errCap P S = stepRate P.mass P.drag * S * ((q - p) * P.rate⁻¹) := by
      unfold errCap errRate
      rw [show P.drag / (2 * (1 + P.mass * P.drag ^ 2)) = P.decay from rfl]
      field_simp
    rw [e1]
    refine mul_le_mul_of_nonneg_left ?_ hK
    rw [sq]
    refine mul_le_mul_of_nonneg_left ?_ hs0
    rw [← one_div, le_div_iff₀ hr]; exact hs
  linarith

end step

/-! ### the anchor -/

section anchor
variable {S : ℝ} {a b : ℂ × ℝ} {l : List (ℂ × ℝ)}

theorem Slow.tail (h : Slow S a (b :: l)) : Slow S b l := (List.isChain_cons_cons.1 h).2

theorem Slow.head (h : Slow S a (b :: l)) : a.2 ≤ b.2 ∧ ‖b.1 - a.1‖ ≤ S * (b.2 - a.2) := (List.isChain_cons_cons.1 h).1

theorem anchorAt_late {t : ℝ} (h : b.2 ≤ t) : anchorAt a (b :: l) t = anchorAt b l t := if_neg (not_lt.2 h)

theorem anchorAt_start (h : Slow S a l) : anchorAt a l a.2 = a.1 := by
  induction l generalizing a with
  | nil => rfl
  | cons b l ih =>
    by_cases hlt : a.2 < b.2
    · rw [anchorAt, if_pos hlt]; simp [lerp]
    · have heq : a.2 = b.2 := le_antisymm h.head.1 (not_lt.1 hlt)
      rw [anchorAt_late heq.ge, heq, ih h.tail]
      have := h.head.2
      rw [heq, sub_self, mul_zero, norm_le_zero_iff, sub_eq_zero] at this
      exact this

/-- On the way to the next point. -/
theorem anchorAt_way (h : Slow S a (b :: l)) {t : ℝ} (ht : t ≤ b.2) : anchorAt a (b :: l) t = a.1 + ((t - a.2) / (b.2 - a.2)) • (b.1 - a.1) := by
  rcases ht.lt_or_eq with hlt | rfl
  · rw [anchorAt, if_pos hlt]; rfl
  · rw [anchorAt_late le_rfl, anchorAt_start h.tail]
    by_cases h0 : b.2 = a.2
    · have := h.head.2
      rw [h0, sub_self, mul_zero, norm_le_zero_iff, sub_eq_zero] at this
      rw [h0, this]; simp
    · rw [div_self (sub_ne_zero.2 h0), one_smul, add_sub_cancel]

theorem anchorAt_lipschitz (h : Slow S a l) (hS : 0 ≤ S) {s t : ℝ} (hs : a.2 ≤ s) (hst : s ≤ t) :
    ‖anchorAt a l t - anchorAt a l s‖ ≤ S * (t - s) := by
  induction l generalizing a s with
  | nil => simpa [anchorAt] using mul_nonneg hS (sub_nonneg.2 hst)
  | cons b l ih =>
    have hway : ∀ {s t : ℝ}, a.2 ≤ s → s ≤ t → t ≤ b.2 → ‖anchorAt a (b :: l) t - anchorAt a (b :: l) s‖ ≤ S * (t - s) := by
      intro s t hs hst ht
      rw [anchorAt_way h ht, anchorAt_way h (hst.trans ht), add_sub_add_left_eq_sub, ← sub_smul, norm_smul, Real.norm_eq_abs,
        div_sub_div_same, sub_sub_sub_cancel_right, abs_div, abs_of_nonneg (sub_nonneg.2 hst), abs_of_nonneg (sub_nonneg.2 h.head.1)]
      rcases h.head.1.eq_or_lt with h0 | h0
      · rw [h0]; simpa using mul_nonneg hS (sub_nonneg.2 hst)
      · rw [div_mul_eq_mul_div, div_le_iff₀ (sub_pos.2 h0)]
        nlinarith [mul_le_mul_of_nonneg_left h.head.2 (sub_nonneg.2 hst)]
    rcases le_total t b.2 with ht | ht
    · exact hway hs hst ht
    · rcases le_total b.2 s with hb | hb
      · rw [anchorAt_late ht, anchorAt_late hb]
        exact ih h.tail hb hst
      · have h1 := hway hs hb le_rfl
        have h2 := ih h.tail le_rfl ht
        rw [← anchorAt_late (a := a) ht, ← anchorAt_late (a := a) (l := l) le_rfl] at h2
        have := norm_add_le (anchorAt a (b :: l) t - anchorAt a (b :: l) b.2) (anchorAt a (b :: l) b.2 - anchorAt a (b :: l) s)
        rw [sub_add_sub_cancel] at this
        linarith

variable {t₀ T : ℝ} {φ x v : ℝ → ℝ}

/-- The lag of a coordinate. -/
theorem lag_bound (h : P.Stable) (hv : P.Valid) (hS : 0 ≤ S) (f : ℂ →ₗ[ℝ] ℝ) (hf : ∀ z, |f z| ≤ ‖z‖) (hl : Line P φ t₀ T x v)
    (hs : Slow S a l) (ha : t₀ ≤ a.2) (hφ : ∀ t, a.2 ≤ t → φ t = f (anchorAt a l t))
    (h0 : P.part (x a.2 - φ a.2) (v a.2) ≤ lagCap P S) : ∀ t ∈ Icc a.2 T, P.part (x t - φ t) (v t) ≤ lagCap P S := by
  induction l generalizing a with
  | nil =>
    refine lag_segment h hv hl (σ := 0) ha le_rfl ?_ (by simpa using hS) h0
    intro t ht
    rw [hφ t ht.1, hφ a.2 le_rfl]
    simp [anchorAt]
  | cons b l ih =>
    have hseg := lag_segment h hv hl (a := a.2) (b := min b.2 T) (σ := f (b.1 - a.1) / (b.2 - a.2)) (S := S) ha (min_le_right _ _) (by
      intro t ht
      rw [hφ t ht.1, hφ a.2 le_rfl, anchorAt_start hs, anchorAt_way hs (ht.2.trans (min_le_left _ _)), map_add, map_smul, smul_eq_mul]
      ring) (by
      rw [abs_div, abs_of_nonneg (sub_nonneg.2 hs.head.1)]
      rcases hs.head.1.eq_or_lt with h0 | h0
      · rw [h0]; simpa using hS
      · rw [div_le_iff₀ (sub_pos.2 h0)]
        exact (hf _).trans hs.head.2) h0
    intro t ht
    rcases le_total t b.2 with htb | htb
    · exact hseg t ⟨ht.1, le_min htb ht.2⟩
    · refine ih hs.tail (ha.trans hs.head.1) (fun t ht => ?_) ?_ t ⟨htb, ht.2⟩
      · rw [hφ t (hs.head.1.trans ht), anchorAt_late ht]
      · exact hseg b.2 ⟨hs.head.1, le_min le_rfl (htb.trans ht.2)⟩

end anchor

/-! ### strokes -/

/-- The error of a tip in each coordinate. -/
def Near (P : Params) (S : ℝ) (T : ℝ) (x v : ℝ → ℂ) (q : Tip) : Prop :=
  q.time ≤ T → gauge P ((x q.time).re - q.pos.re) ((v q.time).re - q.vel.re) ≤ errCap P S ∧
    gauge P ((x q.time).im - q.pos.im) ((v q.time).im - q.vel.im) ≤ errCap P S

theorem Obeys.re {Φ x v : ℝ → ℂ} {t₀ T : ℝ} (h : Obeys P.mass P.drag Φ t₀ T x v) :
    Line P (fun t => (Φ t).re) t₀ T (fun t => (x t).re) (fun t => (v t).re) where
  pos t ht := (Complex.reCLM.hasFDerivAt.comp_hasDerivWithinAt t (h.pos t ht) :)
  vel t ht := by
    have := (Complex.reCLM.hasFDerivAt.comp_hasDerivWithinAt t (h.vel t ht) :)
    simpa [Function.comp_def] using this

theorem Obeys.im {Φ x v : ℝ → ℂ} {t₀ T : ℝ} (h : Obeys P.mass P.drag Φ t₀ T x v) :
    Line P (fun t => (Φ t).im) t₀ T (fun t => (x t).im) (fun t => (v t).im) where
  pos t ht := (Complex.imCLM.hasFDerivAt.comp_hasDerivWithinAt t (h.pos t ht) :)
  vel t ht := by
    have := (Complex.imCLM.hasFDerivAt.comp_hasDerivWithinAt t (h.vel t ht) :)
    simpa [Function.comp_def] using this

/-- A step towards the anchor keeps the error. -/
theorem near_step (h : P.Stable) (hv : P.Valid) {S : ℝ} (hS : 0 ≤ S) {a : ℂ × ℝ} {l : List (ℂ × ℝ)} (hs : Slow S a l) {T : ℝ}
    {x v : ℝ → ℂ} (hm : Obeys P.mass P.drag (anchorAt a l) a.2 T x v) (hx : x a.2 = a.1) (hv0 : v a.2 = 0) {q : Tip} (hq : Near P S T x v q)
    (hq0 : a.2 ≤ q.time) {t : ℝ} (ht : q.time ≤ t) (ht' : (t - q.time) * P.rate ≤ 1) :
    Near P S T x v (spring P q (anchorAt a l t, t)) := by
  intro (hT : t ≤ T)
  obtain ⟨h1, h2⟩ := hq (ht.trans hT)
  have hcap : 0 ≤ lagCap P S := by
    have := decay_pos hv
    have := hv.mass
    unfold lagCap; positivity
  have hlip := fun s t (hs' : a.2 ≤ s) (hst : s ≤ t) => anchorAt_lipschitz hs hS hs' hst
  have hre := lag_bound h hv hS Complex.reLm Complex.abs_re_le_norm hm.re hs le_rfl (fun _ _ => rfl)
    (by simp only [anchorAt_start hs, hx, hv0, sub_self]; simpa [Params.part] using hcap)
  have him := lag_bound h hv hS Complex.imLm Complex.abs_im_le_norm hm.im hs le_rfl (fun _ _ => rfl)
    (by simp only [anchorAt_start hs, hx, hv0, sub_self]; simpa [Params.part] using hcap)
  have k1 := line_error h hv hS hm.re hre (fun s t h1 h2 _ => by
    rw [← Complex.sub_re]; exact (Complex.abs_re_le_norm _).trans (hlip s t h1 h2)) hq0 ht hT ht' h1
  have k2 := line_error h hv hS hm.im him (fun s t h1 h2 _ => by
    rw [← Complex.sub_im]; exact (Complex.abs_im_le_norm _).trans (hlip s t h1 h2)) hq0 ht hT ht' h2
  constructor
  · refine le_of_eq_of_le ?_ k1
    simp [spring, mul_add]
  · refine le_of_eq_of_le ?_ k2
    simp [spring, mul_add]

/-- A property of tips that short steps towards the anchors in `A` preserve. -/
def Drawn (P : Params) (A : Set (ℂ × ℝ)) (I : Tip → Prop) : Prop :=
  ∀ q i, I q → i ∈ A → q.time ≤ i.2 → (i.2 - q.time) * P.rate ≤ 1 → I (spring P q i)

/-- Where those of the inputs that are not too far from the ones before are taken to be. -/
def track (P : Params) : State → List Touch → List (ℂ × ℝ)
  | _, [] => []
  | s, i :: is => if (advance P s i).2.isSome then place P s i :: track P (advance P s i).1 is else track P (advance P s i).1 is

section Drawn
variable {A : Set (ℂ × ℝ)} {I : Tip → Prop}

theorem Drawn.follow (hk : Drawn P A I) {l : List (ℂ × ℝ)} (hl : ∀ i ∈ l, i ∈ A) {q : Tip} (hq : I q)
    (hc : (q.time :: l.map Prod.snd).IsChain fun u v => u ≤ v ∧ (v - u) * P.rate ≤ 1) : ∀ u ∈ Ref.follow P q l, I u := by
  induction l generalizing q with
  | nil => simp [Ref.follow]
  | cons i l ih =>
    rw [List.map_cons, List.isChain_cons_cons] at hc
    have h1 := hk q i hq (hl i (by simp)) hc.1.1 hc.1.2
    intro u hu
    rcases List.mem_cons.1 hu with rfl | hu
    · exact h1
    · exact ih (fun i hi => hl i (by simp [hi])) h1 hc.2 u hu

/-- The way from one anchor to the next. -/
theorem Drawn.path (hk : Drawn P A I) (hv : P.Valid) {s : State} (hs : Synced s) (hq : I s.tip) {y z : ℂ} {t : ℝ}
    (hA : ∀ c : ℝ, 0 ≤ c → c ≤ 1 → (lerp s.anchor.1 y c, lerp s.anchor.2 t c) ∈ A) (ht : s.anchor.2 ≤ t) (hcap : P.maxOut < 2147483647)
    (hn : steps P s.tip z (t - s.anchor.2) ≤ P.maxOut) :
    ∀ u ∈ Ref.follow P s.tip (upsample s.anchor (y, t) (steps P s.tip z (t - s.anchor.2)).toNat), I u := by
  have hrate := steps_rate (P := P) s.tip z (dt := t - s.anchor.2) (.inl (by omega))
  have hn0 := steps_nonneg hv s.tip z (sub_nonneg.2 ht)
  generalize steps P s.tip z (t - s.anchor.2) = n at *
  obtain ⟨k, rfl⟩ := Int.eq_ofNat_of_zero_le hn0
  rw [Int.toNat_natCast]
  refine hk.follow ?_ hq ?_
  · intro i hi
    simp only [upsample, List.mem_map, List.mem_range] at hi
    obtain ⟨j, hj, rfl⟩ := hi
    have hk0 : (0 : ℝ) < k := by exact_mod_cast (by omega : 0 < k)
    refine hA _ (by positivity) ?_
    rw [div_le_one hk0]
    exact_mod_cast hj
  · have hc := follow_chain (P := P) (q := s.tip) (a := s.anchor) (b := (y, t)) (n := k) hs
    rw [← List.isChain_map Tip.time (R := fun u v => v - u = (t - s.anchor.2) / k), List.map_cons, follow_time] at hc
    cases k with
    | zero => simp [upsample]
    | succ k =>
      refine hc.imp fun u v huv => ?_
      have hk0 : (0 : ℝ) < ((k + 1 : ℕ) : ℝ) := by positivity
      constructor
      · have := div_nonneg (sub_nonneg.2 ht) hk0.le
        linarith
      · rw [huv, div_mul_eq_mul_div, div_le_one hk0]
        exact_mod_cast hrate

theorem Drawn.settle (hk : Drawn P A I) (hv : P.Valid) {w : ℂ} {t : ℝ} (hw : ∀ t', t ≤ t' → (w, t') ∈ A) (k : ℕ) {dt : ℝ} (h0 : 0 < dt)
    (h1 : dt * P.rate ≤ 1) {q : Tip} (hqt : t ≤ q.time) (hq : I q) : I (settle P w k dt q).1 ∧ ∀ u ∈ (settle P w k dt q).2, I u := by
  induction k generalizing dt q with
  | zero => exact ⟨hq, by simp [Ref.settle]⟩
  | succ k ih =>
    have hc : I (spring P q (w, q.time + dt)) := hk q (w, q.time + dt) hq (hw _ (by linarith)) (by show q.time ≤ q.time + dt; linarith)
      (by show (q.time + dt - q.time) * _ ≤ 1; rw [add_sub_cancel_left]; exact h1)
    have hct : t ≤ (spring P q (w, q.time + dt)).time := by show t ≤ q.time + dt; linarith
    simp only [Ref.settle]
    split
    · exact ⟨hc, by simp⟩
    · split
      · exact ih (by linarith) (by have := mul_pos h0 hv.rate; linarith) hqt hq
      · split
        · exact ⟨hc, by simpa using hc⟩
        · obtain ⟨i1, i2⟩ := ih h0 h1 hct hc
          exact ⟨i1, by simpa using ⟨hc, i2⟩⟩

theorem anchorAt_lerp {S : ℝ} {a b : ℂ × ℝ} {l : List (ℂ × ℝ)} (h : Slow S a (b :: l)) {c : ℝ} (h1 : c ≤ 1) :
    anchorAt a (b :: l) (lerp a.2 b.2 c) = lerp a.1 b.1 c := by
  have hle := h.head.1
  have e : lerp a.2 b.2 c - a.2 = c * (b.2 - a.2) := by simp [lerp]
  rw [anchorAt_way h (by nlinarith), e]
  rcases hle.eq_or_lt with h0 | h0
  · have := h.head.2
    rw [h0, sub_self, mul_zero, norm_le_zero_iff, sub_eq_zero] at this
    rw [lerp, this]; simp
  · rw [mul_div_cancel_right₀ _ (sub_pos.2 h0).ne', lerp]

/-- All tip states of a sequence of inputs that go along a path in `A`. -/
theorem Drawn.answers (hk : Drawn P A I) (hv : P.Valid) (hcap : P.maxOut < 2147483647) {S : ℝ} {s : State} (hs : Synced s) (hq : I s.tip)
    {is : List Touch} (ho : Ordered P s is) (hmv : ∀ l i l', is = l ++ i :: l' → l' ≠ [] → i.IsMove)
    (hsl : Slow S s.anchor (track P s is)) (hA : ∀ t, s.anchor.2 ≤ t → (anchorAt s.anchor (track P s is) t, t) ∈ A) :
    ∀ o ∈ Ref.answers P s is, ∀ u ∈ o.getD [], I u := by
  induction is generalizing s with
  | nil => simp [Ref.answers]
  | cons i is ih =>
    have hmv' : ∀ l j l', is = l ++ j :: l' → l' ≠ [] → j.IsMove := fun l j l' h => hmv (i :: l) j l' (by rw [h]; rfl)
    have hsy := synced_advance hv hs ho.1
    have hway : ∀ {y : ℂ} {t : ℝ} {l : List (ℂ × ℝ)}, track P s (i :: is) = (y, t) :: l → s.anchor.2 ≤ t →
        ∀ c : ℝ, 0 ≤ c → c ≤ 1 → (lerp s.anchor.1 y c, lerp s.anchor.2 t c) ∈ A := by
      intro y t l hl ht c h0 h1
      rw [hl] at hsl hA
      rw [← anchorAt_lerp hsl h1]
      refine hA _ ?_
      simp only [lerp, smul_eq_mul]
      nlinarith
    intro o hmem u hu
    rw [Ref.answers, List.mem_cons] at hmem
    cases i with
    | move x t =>
      cases h : (advance P s (.move x t)).2 with
      | none =>
        rw [h] at hmem
        obtain ⟨_, h2⟩ := move_late h
        have e1 : track P s (.move x t :: is) = track P (advance P s (.move x t)).1 is := by rw [track, h]; rfl
        rcases hmem with rfl | hmem
        · simp at hu
        · rw [e1] at hsl hA
          refine ih hsy ?_ ho.2 hmv' ?_ ?_ o hmem u hu
          · rw [h2]; exact hq
          · have : (advance P s (.move x t)).1.anchor = s.anchor := by rw [h2]
            rw [this]; exact hsl
          · have : (advance P s (.move x t)).1.anchor = s.anchor := by rw [h2]
            rw [this]; exact hA
      | some tips =>
        obtain ⟨n, h1, h2, h3, h4⟩ := move_answer h
        have e1 : track P s (.move x t :: is) = ((smooth P s x t).2, t) :: track P (advance P s (.move x t)).1 is := by
          rw [track, h]; rfl
        have hall : ∀ u ∈ tips, I u := by
          rw [h3, h1]
          exact hk.path hv hs hq (hway e1 ho.1) ho.1 hcap (h1 ▸ h2)
        rcases hmem with rfl | hmem
        · rw [h] at hu; exact hall u hu
        · rw [e1] at hsl hA
          have ha : (advance P s (.move x t)).1.anchor = ((smooth P s x t).2, t) := by rw [h4]
          refine ih hsy ?_ ho.2 hmv' ?_ ?_ o hmem u hu
          · rw [h4]
            rcases getLastD_mem tips s.tip with h5 | h5
            · simp only [h5]; exact hq
            · exact hall _ h5
          · rw [ha]; exact hsl.tail
          · rw [ha]
            intro t' ht'
            have hle : s.anchor.2 ≤ t := ho.1
            have := hA t' (hle.trans ht')
            rwa [anchorAt_late ht'] at this
    | up x t =>
      obtain rfl : is = [] := by
        by_contra hne
        exact hmv [] (.up x t) is rfl hne
      simp only [Ref.answers, List.not_mem_nil, or_false] at hmem
      subst hmem
      cases h : (advance P s (.up x t)).2 with
      | none => rw [h] at hu; simp at hu
      | some tips =>
        rw [h] at hu
        have e1 : track P s [.up x t] = [(x, t)] := by rw [track, h]; rfl
        obtain ⟨n, h1, h2, path, h3, ending, cand, h4, h5⟩ := up_answer h
        have hall : ∀ u ∈ path, I u := by
          rw [h3, h1]
          exact hk.path hv hs hq (hway e1 ho.1) ho.1 hcap (h1 ▸ h2)
        have hlast : I (path.getLastD s.tip) := by
          rcases getLastD_mem path s.tip with h6 | h6
          · rw [h6]; exact hq
          · exact hall _ h6
        have htime : (path.getLastD s.tip).time = t := by
          rw [h3, h1]; exact follow_last_time (no_step hv hs ho.1)
        have hend := hk.settle hv (w := x) (t := t) (by
            intro t' ht'
            have hle : s.anchor.2 ≤ t := ho.1
            have := hA t' (hle.trans ht')
            rw [e1, anchorAt_late ht'] at this
            exact this) P.maxIter (dt := 1 / P.rate) (one_div_pos.2 hv.rate) (by rw [one_div, inv_mul_cancel₀ hv.rate.ne']) htime.ge hlast
        rw [← h4] at hend
        change u ∈ tips at hu
        rw [h5] at hu
        split at hu
        · rw [List.mem_singleton] at hu; rw [hu]; exact hend.1
        · rcases List.mem_append.1 hu with hu | hu
          · exact hall u hu
          · exact hend.2 u hu

end Drawn

/-- Position and velocity from the errors of the coordinates. -/
theorem near_dist (h : P.Stable) (hv : P.Valid) {S T : ℝ} {x v : ℝ → ℂ} {q : Tip} (hq : Near P S T x v q) (hT : q.time ≤ T) :
    ‖q.pos - x q.time‖ ≤ 2 * Real.sqrt P.mass * errCap P S ∧ ‖q.vel - v q.time‖ ≤ 11 / 5 * errCap P S := by
  obtain ⟨h1, h2⟩ := hq hT
  have hm : 0 < P.mass⁻¹ := inv_pos.2 hv.mass
  have hωM : Real.sqrt P.mass⁻¹ ^ 2 = P.mass⁻¹ := Real.sq_sqrt hm.le
  have hω : Real.sqrt P.mass * Real.sqrt P.mass⁻¹ = 1 := by
    rw [← Real.sqrt_mul hv.mass.le, mul_inv_cancel₀ hv.mass.ne', Real.sqrt_one]
  have hpos : ∀ e w, gauge P e w ≤ errCap P S → |e| ≤ Real.sqrt P.mass * errCap P S := by
    intro e w hg
    have := mul_le_mul_of_nonneg_left ((pos_le_gauge h hv hωM e w).trans hg) (Real.sqrt_nonneg P.mass)
    rwa [← mul_assoc, hω, one_mul] at this
  have hvel : ∀ e w, gauge P e w ≤ errCap P S → |w| ≤ 11 / 10 * errCap P S := fun e w hg => by
    have := vel_le_gauge h hv e w
    linarith
  rw [norm_sub_rev q.pos, norm_sub_rev q.vel]
  constructor
  · refine (Complex.norm_le_abs_re_add_abs_im _).trans ?_
    rw [Complex.sub_re, Complex.sub_im]
    linarith [hpos _ _ h1, hpos _ _ h2]
  · refine (Complex.norm_le_abs_re_add_abs_im _).trans ?_
    rw [Complex.sub_re, Complex.sub_im]
    linarith [hvel _ _ h1, hvel _ _ h2]

/-- All tip states of a stroke are close to the solution of the equation of motion. -/
theorem stroke_motion (h : P.Stable) (hv : P.Valid) (hcap : P.maxOut < 2147483647) {S : ℝ} (hS : 0 ≤ S) {pos : ℂ} {t₀ T : ℝ}
    {is : List Touch} (ho : Ordered P (start pos t₀) is) (hmv : ∀ l i l', is = l ++ i :: l' → l' ≠ [] → i.IsMove)
    (hsl : Slow S (pos, t₀) (track P (start pos t₀) is)) {x v : ℝ → ℂ}
    (hm : Obeys P.mass P.drag (anchorAt (pos, t₀) (track P (start pos t₀) is)) t₀ T x v) (hx : x t₀ = pos) (hv0 : v t₀ = 0) :
    ∀ o ∈ Ref.answers P (start pos t₀) is, ∀ u ∈ o.getD [], Near P S T x v u := by
  intro o ho' u hu
  have hk : Drawn P {i | i.1 = anchorAt (pos, t₀) (track P (start pos t₀) is) i.2} (fun q => t₀ ≤ q.time ∧ Near P S T x v q) := by
    rintro q ⟨y, t⟩ ⟨hq0, hq⟩ (hy : y = anchorAt (pos, t₀) (track P (start pos t₀) is) t) ht ht'
    change q.time ≤ t at ht
    change (t - q.time) * P.rate ≤ 1 at ht'
    subst hy
    exact ⟨le_trans hq0 ht, near_step h hv hS hsl hm hx hv0 hq hq0 ht ht'⟩
  have hC : 0 ≤ errCap P S := by
    have := lagRoot_nonneg P.mass P.drag
    have := hv.mass
    have := hv.drag
    have := hv.rate
    unfold errCap errRate stepRate jerkRate accRate
    positivity
  refine (hk.answers hv hcap (synced_start pos t₀) ⟨le_rfl, fun _ => ?_⟩ ho hmv hsl (fun t _ => rfl) o ho' u hu).2
  simp only [start, hx, hv0, sub_self, gauge_zero]
  exact ⟨hC, hC⟩

end
end Ink.Ref
