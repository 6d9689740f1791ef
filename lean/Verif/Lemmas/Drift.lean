import Verif.Lemmas.Settle
/-!
# The spring model with small errors

The root of the energy of a coordinate is a norm; steps do not increase it. So errors at most add up.
-/
namespace Ink.Ref
noncomputable section

variable {P : Params}

theorem decay_le (hv : P.Valid) : 2 * P.decay ≤ P.drag := by
  have h1 := hv.mass
  have h2 := hv.drag
  unfold Params.decay
  rw [mul_div_assoc', div_le_iff₀ (by positivity)]
  nlinarith [mul_pos h1 (pow_pos h2 3)]

/-- The root of the energy of a coordinate. -/
def gauge (P : Params) (e v : ℝ) : ℝ := Real.sqrt (P.part e v)

/-- The energy as the square of the length of a vector. -/
theorem part_eq (hv : P.Valid) (e v : ℝ) : P.part e v =
    ‖(⟨v + P.decay * e, Real.sqrt (P.mass⁻¹ + P.decay * P.drag - P.decay ^ 2) * e⟩ : ℂ)‖ ^ 2 := by
  have h1 := decay_le hv
  have h2 := decay_pos hv
  have h3 := hv.mass
  have h0 : 0 ≤ P.mass⁻¹ + P.decay * P.drag - P.decay ^ 2 := by
    have : 0 < P.mass⁻¹ := by positivity
    nlinarith
  rw [norm_sq_eq, mul_pow, Real.sq_sqrt h0, Params.part]
  ring

theorem gauge_eq (hv : P.Valid) (e v : ℝ) : gauge P e v =
    ‖(⟨v + P.decay * e, Real.sqrt (P.mass⁻¹ + P.decay * P.drag - P.decay ^ 2) * e⟩ : ℂ)‖ := by
  rw [gauge, part_eq hv, Real.sqrt_sq (norm_nonneg _)]

theorem gauge_nonneg (P : Params) (e v : ℝ) : 0 ≤ gauge P e v := Real.sqrt_nonneg _

theorem part_pos (hv : P.Valid) (e v : ℝ) : 0 ≤ P.part e v := by rw [part_eq hv]; positivity

theorem gauge_sq (hv : P.Valid) (e v : ℝ) : gauge P e v ^ 2 = P.part e v := Real.sq_sqrt (part_pos hv e v)

theorem gauge_add (hv : P.Valid) (e v e' v' : ℝ) : gauge P (e + e') (v + v') ≤ gauge P e v + gauge P e' v' := by
  rw [gauge_eq hv, gauge_eq hv, gauge_eq hv]
  refine le_trans (le_of_eq ?_) (norm_add_le _ _)
  congr 1
  apply Complex.ext <;> simp <;> ring

theorem gauge_zero (P : Params) : gauge P 0 0 = 0 := by simp [gauge, Params.part]

theorem decay_short (h : P.Stable) (hv : P.Valid) {s : ℝ} (hs : 0 ≤ s) (hs' : s * P.rate ≤ 1) : 0 ≤ 1 - P.decay * s / 10 := by
  rcases hs.eq_or_lt with rfl | hs0
  · simp
  · obtain ⟨k1, k2, k3, k4, k5⟩ := h.short hv hs0 hs'
    have := (form_bounds k1 k2 k3 k4 k5).2.2.2
    linarith

/-- A step towards an anchor at the origin. -/
theorem gauge_step (h : P.Stable) (hv : P.Valid) {s : ℝ} (hs : 0 ≤ s) (hs' : s * P.rate ≤ 1) (e v : ℝ) :
    gauge P (e + s * (v + s * (P.mass⁻¹ * (-e) - P.drag * v))) (v + s * (P.mass⁻¹ * (-e) - P.drag * v)) ≤
      (1 - P.decay * s / 10) * gauge P e v := by
  have h1 := decay_short h hv hs hs'
  refine Real.sqrt_le_iff.2 ⟨mul_nonneg h1 (gauge_nonneg _ _ _), (part_step h hv hs hs' e v).trans ?_⟩
  rw [mul_pow, gauge_sq hv]
  refine mul_le_mul_of_nonneg_right ?_ (part_pos hv e v)
  nlinarith [sq_nonneg (P.decay * s / 10)]

/-- The root of the largest energy. -/
def peak (P : Params) (R : ℝ) : ℝ := Real.sqrt (cap P R)

theorem cap_nonneg (P : Params) (R : ℝ) : 0 ≤ cap P R := by unfold cap; positivity

theorem peak_sq (P : Params) (R : ℝ) : peak P R ^ 2 = cap P R := Real.sq_sqrt (cap_nonneg P R)

/-- A step towards an anchor near the origin. -/
theorem gauge_step_off (h : P.Stable) (hv : P.Valid) {s : ℝ} (hs : 0 ≤ s) (hs' : s * P.rate ≤ 1) {e v r R : ℝ} (hr : |r| ≤ R)
    (hg : gauge P e v ≤ peak P R) :
    gauge P (e + s * (v + s * (P.mass⁻¹ * (r - e) - P.drag * v))) (v + s * (P.mass⁻¹ * (r - e) - P.drag * v)) ≤ peak P R := by
  have h1 := part_step_off h hv hs hs' e v r
  have h2 : P.part e v ≤ cap P R := by
    rw [← gauge_sq hv, ← peak_sq]
    exact pow_le_pow_left₀ (gauge_nonneg _ _ _) hg 2
  have hd := decay_pos hv
  have h3 : 160 * (P.mass⁻¹ ^ 2 / P.decay ^ 2 * r ^ 2) ≤ cap P R := by
    unfold cap
    have : r ^ 2 ≤ R ^ 2 := by rw [← sq_abs]; exact pow_le_pow_left₀ (abs_nonneg _) hr 2
    have h0 : 0 ≤ P.mass⁻¹ ^ 2 / P.decay ^ 2 := by positivity
    linarith [mul_le_mul_of_nonneg_left this h0]
  have h4 : 0 ≤ P.decay * s / 10 := by positivity
  have h5 := decay_short h hv hs hs'
  refine Real.sqrt_le_sqrt (h1.trans ?_)
  calc _ ≤ (1 - P.decay * s / 10) * cap P R + P.decay * s / 10 * cap P R :=
      add_le_add (mul_le_mul_of_nonneg_left h2 h5) (mul_le_mul_of_nonneg_left h3 h4)
    _ = cap P R := by ring

variable {ω : ℝ}

theorem gauge_le (h : P.Stable) (hv : P.Valid) (hω : 0 ≤ ω) (hωM : ω ^ 2 = P.mass⁻¹) (e v : ℝ) :
    gauge P e v ≤ 3 / 2 * (|v| + ω * |e|) := by
  have h1 := part_le h hv e v
  have h0 : 0 ≤ |v| + ω * |e| := by positivity
  rw [gauge, Real.sqrt_le_left (by positivity)]
  have h2 : (3 / 2 * (|v| + ω * |e|)) ^ 2 = 9 / 4 * (v ^ 2 + 2 * (|v| * (ω * |e|)) + P.mass⁻¹ * e ^ 2) := by
    rw [← hωM, ← sq_abs v, ← sq_abs e]; ring
  have h3 : 0 ≤ |v| * (ω * |e|) := by positivity
  have h4 : 0 ≤ P.mass⁻¹ * e ^ 2 := by rw [← hωM]; positivity
  rw [h2]
  nlinarith [sq_nonneg v]

theorem pos_le_gauge (h : P.Stable) (hv : P.Valid) (hωM : ω ^ 2 = P.mass⁻¹) (e v : ℝ) : ω * |e| ≤ gauge P e v := by
  refine Real.le_sqrt_of_sq_le ?_
  rw [mul_pow, hωM, sq_abs]
  exact part_nonneg h hv e v

theorem vel_le_gauge (h : P.Stable) (hv : P.Valid) (e v : ℝ) : |v| ≤ 11 / 10 * gauge P e v := by
  have hd := decay_pos hv
  have hd' := decay_le hv
  have hs : 0 < P.rate⁻¹ := inv_pos.2 hv.rate
  obtain ⟨k1, k2, k3, k4, k5⟩ := h.short hv hs (inv_mul_cancel₀ hv.rate.ne').le
  have k6 := (form_bounds k1 k2 k3 k4 k5).2.2.1
  -- twice decay times drag is at most the inverse of the mass
  have h1 : 2 * P.decay * P.drag ≤ P.mass⁻¹ := by
    refine le_of_mul_le_mul_right (a := P.rate⁻¹ ^ 2) ?_ (by positivity)
    linarith
  have hc : 0 < P.mass⁻¹ + P.decay * P.drag := by have := hv.mass; have := hv.drag; positivity
  have h2 : P.decay ^ 2 ≤ 1 / 6 * (P.mass⁻¹ + P.decay * P.drag) := by nlinarith
  have h3 : 5 / 6 * v ^ 2 ≤ P.part e v := by
    have e1 : (P.mass⁻¹ + P.decay * P.drag) * (P.part e v - 5 / 6 * v ^ 2) =
        ((P.mass⁻¹ + P.decay * P.drag) * e + P.decay * v) ^ 2 + (1 / 6 * (P.mass⁻¹ + P.decay * P.drag) - P.decay ^ 2) * v ^ 2 := by
      unfold Params.part; ring
    have e2 : 0 ≤ (P.mass⁻¹ + P.decay * P.drag) * (P.part e v - 5 / 6 * v ^ 2) := by
      rw [e1]
      have := mul_nonneg (sub_nonneg.2 h2) (sq_nonneg v)
      positivity
    have := nonneg_of_mul_nonneg_right e2 hc
    linarith
  have h4 : v ^ 2 ≤ (11 / 10 * gauge P e v) ^ 2 := by
    rw [mul_pow, gauge_sq hv]
    nlinarith [part_pos hv e v]
  exact abs_le_of_sq_le_sq h4 (by have := gauge_nonneg P e v; positivity)

/-- A step of the spring with errors, in one coordinate. -/
theorem drift_step (h : P.Stable) (hv : P.Valid) (hω : 0 ≤ ω) (hωM : ω ^ 2 = P.mass⁻¹) {s : ℝ} (hs : 0 ≤ s) (hs' : s * P.rate ≤ 1)
    {x v x' v' y w r c E dx dv : ℝ} (hg : gauge P (x - y) (v - w) ≤ c)
    (hdv : |v' - (v + s * (P.mass⁻¹ * (r - x) - P.drag * v))| ≤ dv) (hdx : |x' - (x + s * v')| ≤ dx)
    (hE : 3 / 2 * (dv + ω * (dx + s * dv)) ≤ E) :
    gauge P (x' - (y + s * (w + s * (P.mass⁻¹ * (r - y) - P.drag * w)))) (v' - (w + s * (P.mass⁻¹ * (r - y) - P.drag * w))) ≤
      (1 - P.decay * s / 10) * c + E := by
  obtain ⟨δ, hδ⟩ : ∃ δ, v' - (v + s * (P.mass⁻¹ * (r - x) - P.drag * v)) = δ := ⟨_, rfl⟩
  obtain ⟨γ, hγ⟩ : ∃ γ, x' - (x + s * v') = γ := ⟨_, rfl⟩
  rw [hδ] at hdv
  rw [hγ] at hdx
  have h1 := gauge_step h hv hs hs' (x - y) (v - w)
  have h2 := gauge_le h hv hω hωM (γ + s * δ) δ
  have h3 := gauge_add hv ((x - y) + s * ((v - w) + s * (P.mass⁻¹ * (-(x - y)) - P.drag * (v - w))))
    ((v - w) + s * (P.mass⁻¹ * (-(x - y)) - P.drag * (v - w))) (γ + s * δ) δ
  have e1 : (v - w) + s * (P.mass⁻¹ * (-(x - y)) - P.drag * (v - w)) + δ = v' - (w + s * (P.mass⁻¹ * (r - y) - P.drag * w)) := by
    rw [← hδ]; ring
  have e2 : (x - y) + s * ((v - w) + s * (P.mass⁻¹ * (-(x - y)) - P.drag * (v - w))) + (γ + s * δ) =
      x' - (y + s * (w + s * (P.mass⁻¹ * (r - y) - P.drag * w))) := by
    rw [← hγ, ← hδ]; ring
  rw [e1, e2] at h3
  have h4 : |γ + s * δ| ≤ dx + s * dv := by
    refine (abs_add_le _ _).trans (add_le_add hdx ?_)
    rw [abs_mul, abs_of_nonneg hs]
    exact mul_le_mul_of_nonneg_left hdv hs
  have h5 := mul_le_mul_of_nonneg_left h4 hω
  have h6 := mul_le_mul_of_nonneg_left hg (decay_short h hv hs hs')
  linarith

end
end Ink.Ref
