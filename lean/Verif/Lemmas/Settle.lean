import Verif.Lemmas.Ref
import Verif.Spec.Average
import Verif.Spec.Foot
import Mathlib.Analysis.SpecialFunctions.Exp
/-!
# Stability of the spring model

An energy of the tip that decays while the anchor rests, for any sequence of steps that are short enough.
-/
namespace Ink.Ref
noncomputable section
open Classical

/-! ### one coordinate -/

/-- The energy in units of the step: `p` is drag times step, `q` step squared by mass, `V` the velocity times the step. -/
def form (p q B e V : ℝ) : ℝ := V ^ 2 + 2 * B * e * V + (q + B * p) * e ^ 2

section Form
variable {p q B : ℝ}

theorem form_bounds (hp : 0 < p) (hp' : p ≤ 1 / 2) (hq : 0 < q) (hq' : q ≤ p / 4) (hB : 2 * B * (q + p ^ 2) = p * q) :
    0 < B ∧ 2 * B ≤ p ∧ 2 * B * p ≤ q ∧ 2 * B ≤ 1 / 4 := by
  have hs : 0 < q + p ^ 2 := by positivity
  have h0 : 0 < B := by
    by_contra h
    have : 0 < p * q := by positivity
    nlinarith
  have h1 : 2 * B ≤ p := by
    by_contra h
    have : p * (q + p ^ 2) < 2 * B * (q + p ^ 2) := by nlinarith
    nlinarith [pow_pos hp 3]
  have h2 : 2 * B * p ≤ q := by
    have : p * (2 * B * p) ≤ p * q := by nlinarith
    exact le_of_mul_le_mul_left this hp
  refine ⟨h0, h1, h2, ?_⟩
  have : p * (2 * B) ≤ p * (1 / 4) := by nlinarith
  exact le_of_mul_le_mul_left this hp

theorem form_nonneg (hp : 0 < p) (hp' : p ≤ 1 / 2) (hq : 0 < q) (hq' : q ≤ p / 4) (hB : 2 * B * (q + p ^ 2) = p * q) (e V : ℝ) :
    q * e ^ 2 ≤ form p q B e V := by
  obtain ⟨h0, h1, h2, h3⟩ := form_bounds hp hp' hq hq' hB
  have : form p q B e V = (V + B * e) ^ 2 + (q + B * (p - B)) * e ^ 2 := by unfold form; ring
  rw [this]
  nlinarith [sq_nonneg (V + B * e), mul_nonneg (mul_nonneg h0.le (by linarith : 0 ≤ p - B)) (sq_nonneg e)]

theorem form_le (hp : 0 < p) (hp' : p ≤ 1 / 2) (hq : 0 < q) (hq' : q ≤ p / 4) (hB : 2 * B * (q + p ^ 2) = p * q) (e V : ℝ) :
    form p q B e V ≤ 2 * V ^ 2 + 2 * q * e ^ 2 := by
  obtain ⟨h0, h1, h2, h3⟩ := form_bounds hp hp' hq hq' hB
  have e1 : 2 * V ^ 2 + 2 * q * e ^ 2 - form p q B e V = (V - B * e) ^ 2 + (q - B * p - B ^ 2) * e ^ 2 := by unfold form; ring
  have e2 : 0 ≤ q - B * p - B ^ 2 := by nlinarith
  nlinarith [sq_nonneg (V - B * e), mul_nonneg e2 (sq_nonneg e)]

/-- A quadratic form in two variables. -/
theorem quad_nonneg {X Y Z : ℝ} (hX : 0 < X) (h : Y ^ 2 ≤ 4 * X * Z) (e V : ℝ) : 0 ≤ X * V ^ 2 + Y * (e * V) + Z * e ^ 2 := by
  have : 0 ≤ 4 * X * (X * V ^ 2 + Y * (e * V) + Z * e ^ 2) := by
    have e1 : 4 * X * (X * V ^ 2 + Y * (e * V) + Z * e ^ 2) = (2 * X * V + Y * e) ^ 2 + (4 * X * Z - Y ^ 2) * e ^ 2 := by ring
    rw [e1]
    have := mul_nonneg (sub_nonneg.2 h) (sq_nonneg e)
    positivity
  exact nonneg_of_mul_nonneg_right this (by positivity)

theorem coef_vel (hp : 0 < p) (hp' : p ≤ 1 / 2) (hq : 0 < q) (hq' : q ≤ p / 4) (h1 : 2 * B ≤ p) :
    13 / 20 * p ≤ 1 - (1 - p) ^ 2 * (1 + 2 * B + q + B * p) - B / 5 := by
  have i1 : B * p ≤ p / 2 * p := mul_le_mul_of_nonneg_right (by linarith) hp.le
  have i2 : (1 - p) ^ 2 * (1 + 2 * B + q + B * p) ≤ (1 - p) ^ 2 * (1 + p + p / 2 * p + q) :=
    mul_le_mul_of_nonneg_left (by linarith) (sq_nonneg _)
  have i3 : (1 - p) ^ 2 * q ≤ 1 * q := mul_le_mul_of_nonneg_right (pow_le_one₀ (by linarith) (by linarith)) hq.le
  have i4 : (1 - p) ^ 2 * (1 + p + p / 2 * p + q) = 1 - p - p ^ 2 / 2 + p ^ 4 / 2 + (1 - p) ^ 2 * q := by ring
  have i5 : p ^ 4 ≤ p ^ 2 := pow_le_pow_of_le_one hp.le (by linarith) (by norm_num)
  linarith

theorem coef_pos (hp : 0 < p) (hp' : p ≤ 1 / 2) (hq : 0 < q) (hq' : q ≤ p / 4) (h0 : 0 < B) (h2 : 2 * B * p ≤ q) :
    29 / 40 * (q * (2 * B + q)) ≤ q * (2 * B + 2 * B * p + q - q * (2 * B + q + B * p)) - B / 5 * (q + B * p) := by
  have hBp : 0 < B * p := by positivity
  have i1 : q * (2 * B + q + B * p) ≤ 1 / 8 * (2 * B + q + B * p) := mul_le_mul_of_nonneg_right (by linarith) (by positivity)
  have i2 : q * (7 / 8 * (2 * B + q)) ≤ q * (2 * B + 2 * B * p + q - q * (2 * B + q + B * p)) :=
    mul_le_mul_of_nonneg_left (by linarith) hq.le
  have i3 : B / 5 * (q + B * p) ≤ (2 * B + q) / 10 * (3 / 2 * q) :=
    mul_le_mul (by linarith) (by linarith) (by positivity) (by positivity)
  linarith

theorem coef_mixed (hp : 0 < p) (hp' : p ≤ 1 / 2) (hq : 0 < q) (hq' : q ≤ p / 4) (h0 : 0 < B) (h1 : 2 * B ≤ p) (h2 : 2 * B * p ≤ q)
    (h3 : 2 * B ≤ 1 / 4) : (2 * B * p ^ 2 + 2 * (1 - p) * q * (2 * B + q + B * p) - 2 * B ^ 2 / 5) ^ 2 ≤
      5 / 4 * (q * (2 * B + q) * p) := by
  obtain ⟨m, hm⟩ : ∃ m, m = 2 * B + q := ⟨_, rfl⟩
  have hm0 : 0 < m := by rw [hm]; positivity
  have hm1 : m ≤ 3 / 8 := by linarith
  have hBm : 2 * B ≤ m := by linarith
  have hBp : 0 < B * p := by positivity
  have hqm : 0 < q * m := by positivity
  have hp1 : 0 ≤ 1 - p := by linarith
  have hb2 : (2 * B * p ^ 2) ^ 2 ≤ q * m * (p / 4) := by
    have i1 : 2 * B * p * (2 * B) ≤ q * m := mul_le_mul h2 hBm (by positivity) hq.le
    have i2 : p ^ 3 ≤ p / 4 := by
      have : p ^ 2 ≤ (1 / 2) ^ 2 := pow_le_pow_left₀ hp.le hp' 2
      have := mul_le_mul_of_nonneg_right this hp.le
      calc p ^ 3 = p ^ 2 * p := by ring
        _ ≤ _ := this
        _ = p / 4 := by ring
    have i3 : (2 * B * p ^ 2) ^ 2 = (2 * B * p * (2 * B)) * p ^ 3 := by ring
    rw [i3]
    exact mul_le_mul i1 i2 (by positivity) hqm.le
  have hq2 : (2 * (q * m)) ^ 2 ≤ 3 / 8 * (q * m * p) := by
    have h : q * m ≤ p / 4 * (3 / 8) := mul_le_mul hq' hm1 hm0.le (by positivity)
    have h' := mul_le_mul_of_nonneg_left h hqm.le
    calc (2 * (q * m)) ^ 2 = 4 * (q * m * (q * m)) := by ring
      _ ≤ 4 * (q * m * (p / 4 * (3 / 8))) := by linarith
      _ = 3 / 8 * (q * m * p) := by ring
  obtain ⟨W, hW⟩ : ∃ W, W = 2 * B * p ^ 2 + 2 * (1 - p) * q * (2 * B + q + B * p) := ⟨_, rfl⟩
  have hW0 : 0 ≤ W := by rw [hW]; positivity
  have hWl : W ≤ 2 * B * p ^ 2 + 2 * (q * m) := by
    have i1 : (1 - p) * (2 * B + q + B * p) ≤ m := by
      have e : m - (1 - p) * (2 * B + q + B * p) = B * p + p * q + p * (B * p) := by rw [hm]; ring
      have : 0 ≤ B * p + p * q + p * (B * p) := by positivity
      linarith
    have i2 := mul_le_mul_of_nonneg_left i1 (by positivity : 0 ≤ 2 * q)
    have e : 2 * (1 - p) * q * (2 * B + q + B * p) = 2 * q * ((1 - p) * (2 * B + q + B * p)) := by ring
    rw [hW, e]; linarith
  rw [← hW, ← hm]
  have hpos : 0 < q * m * p := by positivity
  have i1 : W ^ 2 ≤ 5 / 4 * (q * m * p) := by
    have j1 : W ^ 2 ≤ (2 * B * p ^ 2 + 2 * (q * m)) ^ 2 := pow_le_pow_left₀ hW0 hWl 2
    have j2 := add_sq_le (a := 2 * B * p ^ 2) (b := 2 * (q * m))
    linarith
  have i2 : (2 * B ^ 2 / 5) ^ 2 ≤ 5 / 4 * (q * m * p) := by
    have j1 : 2 * B * (2 * B) ≤ m * p := mul_le_mul hBm h1 (by positivity) hm0.le
    have j2 : 2 * B * (2 * B) ≤ q := (mul_le_mul_of_nonneg_left h1 (by positivity)).trans h2
    have j3 : (2 * B ^ 2 / 5) ^ 2 = (2 * B * (2 * B)) * (2 * B * (2 * B)) / 100 := by ring
    have j4 : (2 * B * (2 * B)) * (2 * B * (2 * B)) ≤ (m * p) * q := mul_le_mul j1 j2 (by positivity) (by positivity)
    have j5 : m * p * q = q * m * p := by ring
    rw [j3]; linarith
  have i3 : 0 ≤ 2 * B ^ 2 / 5 := by positivity
  rcases le_total (2 * B ^ 2 / 5) W with h | h
  · exact (pow_le_pow_left₀ (by linarith) (by linarith) 2).trans i1
  · refine le_trans ?_ i2
    rw [← neg_sq]
    exact pow_le_pow_left₀ (by linarith) (by linarith) 2

/-- The step of one coordinate. -/
theorem form_step (hp : 0 < p) (hp' : p ≤ 1 / 2) (hq : 0 < q) (hq' : q ≤ p / 4) (hB : 2 * B * (q + p ^ 2) = p * q) (e V : ℝ) :
    form p q B (e + ((1 - p) * V - q * e)) ((1 - p) * V - q * e) ≤ (1 - B / 5) * form p q B e V := by
  obtain ⟨h0, h1, h2, h3⟩ := form_bounds hp hp' hq hq' hB
  have hX := coef_vel hp hp' hq hq' h1
  have hZ := coef_pos hp hp' hq hq' h0 h2
  have hY := coef_mixed hp hp' hq hq' h0 h1 h2 h3
  have key : (1 - B / 5) * form p q B e V - form p q B (e + ((1 - p) * V - q * e)) ((1 - p) * V - q * e) =
      (1 - (1 - p) ^ 2 * (1 + 2 * B + q + B * p) - B / 5) * V ^ 2 +
      (2 * B * p ^ 2 + 2 * (1 - p) * q * (2 * B + q + B * p) - 2 * B ^ 2 / 5) * (e * V) +
      (q * (2 * B + 2 * B * p + q - q * (2 * B + q + B * p)) - B / 5 * (q + B * p)) * e ^ 2 := by
    simp only [form]; ring
  generalize 1 - (1 - p) ^ 2 * (1 + 2 * B + q + B * p) - B / 5 = X at *
  generalize q * (2 * B + 2 * B * p + q - q * (2 * B + q + B * p)) - B / 5 * (q + B * p) = Z at *
  generalize 2 * B * p ^ 2 + 2 * (1 - p) * q * (2 * B + q + B * p) - 2 * B ^ 2 / 5 = Y at *
  have hX0 : 0 < X := by linarith
  have hdisc : Y ^ 2 ≤ 4 * X * Z := by
    have i1 : 13 / 20 * p * (29 / 40 * (q * (2 * B + q))) ≤ X * Z := mul_le_mul hX hZ (by positivity) hX0.le
    have i2 : 0 < q * (2 * B + q) * p := by positivity
    have i3 : 13 / 20 * p * (29 / 40 * (q * (2 * B + q))) = 377 / 800 * (q * (2 * B + q) * p) := by ring
    have i4 : 4 * X * Z = 4 * (X * Z) := by ring
    linarith
  have := quad_nonneg hX0 hdisc e V
  linarith

/-- The step of one coordinate if the anchor is off by `r`. -/
theorem form_step_off (hp : 0 < p) (hp' : p ≤ 1 / 2) (hq : 0 < q) (hq' : q ≤ p / 4) (hB : 2 * B * (q + p ^ 2) = p * q) (e V r : ℝ) :
    form p q B (e + ((1 - p) * V - q * (e - r))) ((1 - p) * V - q * (e - r)) ≤
      (1 - B / 10) * form p q B e V + 16 * q ^ 2 / B * r ^ 2 := by
  obtain ⟨h0, h1, h2, h3⟩ := form_bounds hp hp' hq hq' hB
  set z := e + ((1 - p) * V - q * e) with hz
  set Z := (1 - p) * V - q * e with hZ
  have hs := form_step hp hp' hq hq' hB e V
  rw [← hZ, ← hz] at hs
  have e1 : e + ((1 - p) * V - q * (e - r)) = z + q * r := by rw [hz, hZ]; ring
  have e2 : (1 - p) * V - q * (e - r) = Z + q * r := by rw [hZ]; ring
  rw [e1, e2]
  -- Young's inequality
  have hy : form p q B (z + q * r) (Z + q * r) ≤ (1 + B / 10) * form p q B z Z + (1 + 10 / B) * form p q B (q * r) (q * r) := by
    have hn := (mul_nonneg hq.le (sq_nonneg (B / 10 * z - q * r))).trans
      (form_nonneg hp hp' hq hq' hB (B / 10 * z - q * r) (B / 10 * Z - q * r))
    have e3 : (1 + B / 10) * form p q B z Z + (1 + 10 / B) * form p q B (q * r) (q * r) - form p q B (z + q * r) (Z + q * r) =
        10 / B * form p q B (B / 10 * z - q * r) (B / 10 * Z - q * r) := by
      unfold form
      field_simp
      ring
    have := mul_nonneg (by positivity : 0 ≤ 10 / B) hn
    linarith
  have hf : 0 ≤ form p q B e V := (mul_nonneg hq.le (sq_nonneg e)).trans (form_nonneg hp hp' hq hq' hB e V)
  have i1 : (1 + B / 10) * form p q B z Z ≤ (1 - B / 10) * form p q B e V := by
    calc (1 + B / 10) * form p q B z Z ≤ (1 + B / 10) * ((1 - B / 5) * form p q B e V) := mul_le_mul_of_nonneg_left hs (by positivity)
      _ = ((1 + B / 10) * (1 - B / 5)) * form p q B e V := by ring
      _ ≤ (1 - B / 10) * form p q B e V := mul_le_mul_of_nonneg_right (by nlinarith) hf
  have i2 : form p q B (q * r) (q * r) ≤ 3 / 2 * (q ^ 2 * r ^ 2) := by
    have : form p q B (q * r) (q * r) = (1 + 2 * B + q + B * p) * (q ^ 2 * r ^ 2) := by unfold form; ring
    rw [this]
    refine mul_le_mul_of_nonneg_right ?_ (by positivity)
    nlinarith
  have i3 : (1 + 10 / B) * form p q B (q * r) (q * r) ≤ 16 * q ^ 2 / B * r ^ 2 := by
    have j1 : 1 + 10 / B ≤ (81 / 8) / B := by
      rw [le_div_iff₀ h0, add_mul, div_mul_cancel₀ _ h0.ne']
      linarith
    calc (1 + 10 / B) * form p q B (q * r) (q * r) ≤ (81 / 8) / B * (3 / 2 * (q ^ 2 * r ^ 2)) :=
          mul_le_mul j1 i2 ((mul_nonneg hq.le (sq_nonneg _)).trans (form_nonneg hp hp' hq hq' hB _ _)) (by positivity)
      _ = (243 / 16) * (q ^ 2 * r ^ 2) / B := by ring
      _ ≤ 16 * (q ^ 2 * r ^ 2) / B := by
          refine div_le_div_of_nonneg_right ?_ h0.le
          refine mul_le_mul_of_nonneg_right (by norm_num) (by positivity)
      _ = 16 * q ^ 2 / B * r ^ 2 := by ring
  linarith

end Form

/-! ### the plane -/

/-- The steps are short enough for the spring and the drag. -/
structure Params.Stable (P : Params) : Prop where
  drag : 2 * P.drag ≤ P.rate
  mass : 4 ≤ P.mass * P.drag * P.rate

/-- The rate at which the energy decays is a fifth of this. -/
def Params.decay (P : Params) : ℝ := P.drag / (2 * (1 + P.mass * P.drag ^ 2))

/-- The energy of a coordinate. -/
def Params.part (P : Params) (e v : ℝ) : ℝ := v ^ 2 + 2 * P.decay * e * v + (P.mass⁻¹ + P.decay * P.drag) * e ^ 2

/-- The energy of the tip relative to an anchor. -/
def energy (P : Params) (x : ℂ) (q : Tip) : ℝ := P.part (q.pos.re - x.re) q.vel.re + P.part (q.pos.im - x.im) q.vel.im

variable {P : Params}

theorem decay_pos (hv : P.Valid) : 0 < P.decay := by
  have := hv.mass
  have := hv.drag
  unfold Params.decay; positivity

theorem form_eq (e v s : ℝ) : form (P.drag * s) (P.mass⁻¹ * s ^ 2) (P.decay * s) e (s * v) = s ^ 2 * P.part e v := by
  unfold form Params.part; ring

/-- The bounds needed above. -/
theorem Params.Stable.short (h : P.Stable) (hv : P.Valid) {s : ℝ} (hs : 0 < s) (hs' : s * P.rate ≤ 1) :
    0 < P.drag * s ∧ P.drag * s ≤ 1 / 2 ∧ 0 < P.mass⁻¹ * s ^ 2 ∧ P.mass⁻¹ * s ^ 2 ≤ P.drag * s / 4 ∧
      2 * (P.decay * s) * (P.mass⁻¹ * s ^ 2 + (P.drag * s) ^ 2) = P.drag * s * (P.mass⁻¹ * s ^ 2) := by
  have h1 := hv.mass
  have h2 := hv.drag
  have h3 := hv.rate
  have h4 := mul_le_mul_of_nonneg_left h.drag hs.le
  have h5 := mul_le_mul_of_nonneg_left h.mass hs.le
  have h6 : s * (P.mass * P.drag * P.rate) ≤ P.mass * P.drag := by
    calc s * (P.mass * P.drag * P.rate) = P.mass * P.drag * (s * P.rate) := by ring
      _ ≤ P.mass * P.drag * 1 := mul_le_mul_of_nonneg_left hs' (by positivity)
      _ = _ := mul_one _
  refine ⟨by positivity, by linarith, by positivity, ?_, ?_⟩
  · rw [inv_mul_le_iff₀ h1]
    have : s * (s * 4) ≤ s * (P.mass * P.drag) := mul_le_mul_of_nonneg_left (h5.trans h6) hs.le
    linarith
  · unfold Params.decay
    have : 1 + P.mass * P.drag ^ 2 ≠ 0 := by positivity
    field_simp

theorem part_nonneg (h : P.Stable) (hv : P.Valid) (e v : ℝ) : P.mass⁻¹ * e ^ 2 ≤ P.part e v := by
  have hs : 0 < P.rate⁻¹ := inv_pos.2 hv.rate
  obtain ⟨h1, h2, h3, h4, h5⟩ := h.short hv hs (inv_mul_cancel₀ hv.rate.ne').le
  have := form_nonneg h1 h2 h3 h4 h5 e (P.rate⁻¹ * v)
  rw [form_eq] at this
  refine le_of_mul_le_mul_left (a := P.rate⁻¹ ^ 2) ?_ (by positivity)
  linarith

theorem part_le (h : P.Stable) (hv : P.Valid) (e v : ℝ) : P.part e v ≤ 2 * v ^ 2 + 2 * P.mass⁻¹ * e ^ 2 := by
  have hs : 0 < P.rate⁻¹ := inv_pos.2 hv.rate
  obtain ⟨h1, h2, h3, h4, h5⟩ := h.short hv hs (inv_mul_cancel₀ hv.rate.ne').le
  have := form_le h1 h2 h3 h4 h5 e (P.rate⁻¹ * v)
  rw [form_eq] at this
  refine le_of_mul_le_mul_left (a := P.rate⁻¹ ^ 2) ?_ (by positivity)
  linarith

theorem part_step (h : P.Stable) (hv : P.Valid) {s : ℝ} (hs : 0 ≤ s) (hs' : s * P.rate ≤ 1) (e v : ℝ) :
    P.part (e + s * (v + s * (P.mass⁻¹ * (-e) - P.drag * v))) (v + s * (P.mass⁻¹ * (-e) - P.drag * v)) ≤
      (1 - P.decay * s / 5) * P.part e v := by
  rcases hs.eq_or_lt with rfl | hs
  · simp
  obtain ⟨h1, h2, h3, h4, h5⟩ := h.short hv hs hs'
  have := form_step h1 h2 h3 h4 h5 e (s * v)
  have e1 : (1 - P.drag * s) * (s * v) - P.mass⁻¹ * s ^ 2 * e = s * (v + s * (P.mass⁻¹ * (-e) - P.drag * v)) := by ring
  rw [e1, form_eq, form_eq] at this
  refine le_of_mul_le_mul_left (a := s ^ 2) ?_ (by positivity)
  linarith

theorem part_step_off (h : P.Stable) (hv : P.Valid) {s : ℝ} (hs : 0 ≤ s) (hs' : s * P.rate ≤ 1) (e v r : ℝ) :
    P.part (e + s * (v + s * (P.mass⁻¹ * (r - e) - P.drag * v))) (v + s * (P.mass⁻¹ * (r - e) - P.drag * v)) ≤
      (1 - P.decay * s / 10) * P.part e v + P.decay * s / 10 * (160 * (P.mass⁻¹ ^ 2 / P.decay ^ 2 * r ^ 2)) := by
  rcases hs.eq_or_lt with rfl | hs
  · simp
  obtain ⟨h1, h2, h3, h4, h5⟩ := h.short hv hs hs'
  have := form_step_off h1 h2 h3 h4 h5 e (s * v) r
  have e1 : (1 - P.drag * s) * (s * v) - P.mass⁻¹ * s ^ 2 * (e - r) = s * (v + s * (P.mass⁻¹ * (r - e) - P.drag * v)) := by ring
  rw [e1, form_eq, form_eq] at this
  refine le_of_mul_le_mul_left (a := s ^ 2) ?_ (by positivity)
  have hd := decay_pos hv
  have hm := hv.mass
  have e2 : 16 * (P.mass⁻¹ * s ^ 2) ^ 2 / (P.decay * s) * r ^ 2 =
      s ^ 2 * (P.decay * s / 10 * (160 * (P.mass⁻¹ ^ 2 / P.decay ^ 2 * r ^ 2))) := by
    field_simp
    ring
  rw [e2] at this
  linarith

theorem norm_sq_eq (z : ℂ) : ‖z‖ ^ 2 = z.re ^ 2 + z.im ^ 2 := by
  rw [← Complex.normSq_eq_norm_sq, Complex.normSq_apply]; ring

/-- The distance from the anchor by the energy. -/
theorem dist_le_energy (h : P.Stable) (hv : P.Valid) (x : ℂ) (q : Tip) : ‖q.pos - x‖ ^ 2 ≤ P.mass * energy P x q := by
  have h1 := part_nonneg h hv (q.pos.re - x.re) q.vel.re
  have h2 := part_nonneg h hv (q.pos.im - x.im) q.vel.im
  rw [inv_mul_le_iff₀ hv.mass] at h1 h2
  rw [norm_sq_eq, Complex.sub_re, Complex.sub_im, energy, mul_add]
  exact add_le_add h1 h2

/-- The energy by the distance from the anchor and the velocity. -/
theorem energy_le (h : P.Stable) (hv : P.Valid) (x : ℂ) (q : Tip) :
    P.mass * energy P x q ≤ 2 * ‖q.pos - x‖ ^ 2 + 2 * P.mass * ‖q.vel‖ ^ 2 := by
  have h1 := part_le h hv (q.pos.re - x.re) q.vel.re
  have h2 := part_le h hv (q.pos.im - x.im) q.vel.im
  have h3 := mul_le_mul_of_nonneg_left (add_le_add h1 h2) hv.mass.le
  refine h3.trans (le_of_eq ?_)
  rw [norm_sq_eq, norm_sq_eq, Complex.sub_re, Complex.sub_im]
  have := hv.mass.ne'
  field_simp
  ring

theorem energy_nonneg (h : P.Stable) (hv : P.Valid) (x : ℂ) (q : Tip) : 0 ≤ energy P x q := by
  have := (sq_nonneg _).trans (dist_le_energy h hv x q)
  exact nonneg_of_mul_nonneg_right this hv.mass

/-- A step towards the anchor. -/
theorem energy_step (h : P.Stable) (hv : P.Valid) (x : ℂ) (q : Tip) {t : ℝ} (hs : q.time ≤ t) (hs' : (t - q.time) * P.rate ≤ 1) :
    energy P x (spring P q (x, t)) ≤ (1 - P.decay * (t - q.time) / 5) * energy P x q := by
  have h1 := part_step h hv (sub_nonneg.2 hs) hs' (q.pos.re - x.re) q.vel.re
  have h2 := part_step h hv (sub_nonneg.2 hs) hs' (q.pos.im - x.im) q.vel.im
  refine le_trans (le_of_eq ?_) ((add_le_add h1 h2).trans (le_of_eq (mul_add _ _ _).symm))
  simp only [energy, spring, Complex.add_re, Complex.add_im, Complex.sub_re, Complex.sub_im, Complex.real_smul, Complex.mul_re,
    Complex.mul_im, Complex.ofReal_re, Complex.ofReal_im, zero_mul, sub_zero, add_zero]
  congr 2 <;> ring

/-- The largest energy with anchors up to `R` away from `x`. -/
def cap (P : Params) (R : ℝ) : ℝ := 160 * (P.mass⁻¹ ^ 2 / P.decay ^ 2 * R ^ 2)

/-- A step towards an anchor near `x`. -/
theorem energy_step_off (h : P.Stable) (hv : P.Valid) {x y : ℂ} {R : ℝ} (hy : ‖y - x‖ ≤ R) {q : Tip} {t : ℝ} (hs : q.time ≤ t)
    (hs' : (t - q.time) * P.rate ≤ 1) (hq : energy P x q ≤ cap P R) : energy P x (spring P q (y, t)) ≤ cap P R := by
  have h1 := part_step_off h hv (sub_nonneg.2 hs) hs' (q.pos.re - x.re) q.vel.re (y.re - x.re)
  have h2 := part_step_off h hv (sub_nonneg.2 hs) hs' (q.pos.im - x.im) q.vel.im (y.im - x.im)
  have hd := decay_pos hv
  have e1 : energy P x (spring P q (y, t)) ≤ (1 - P.decay * (t - q.time) / 10) * energy P x q +
      P.decay * (t - q.time) / 10 * cap P ‖y - x‖ := by
    refine le_trans (le_of_eq ?_) ((add_le_add h1 h2).trans (le_of_eq ?_))
    · simp only [energy, spring, Complex.add_re, Complex.add_im, Complex.sub_re, Complex.sub_im, Complex.real_smul, Complex.mul_re,
        Complex.mul_im, Complex.ofReal_re, Complex.ofReal_im, zero_mul, sub_zero, add_zero]
      congr 2 <;> ring
    · rw [cap, norm_sq_eq, Complex.sub_re, Complex.sub_im, energy]; ring
  have e2 : cap P ‖y - x‖ ≤ cap P R := by
    unfold cap
    have : ‖y - x‖ ^ 2 ≤ R ^ 2 := pow_le_pow_left₀ (norm_nonneg _) hy 2
    have h0 : 0 ≤ P.mass⁻¹ ^ 2 / P.decay ^ 2 := by positivity
    linarith [mul_le_mul_of_nonneg_left this h0]
  have hb : 0 ≤ P.decay * (t - q.time) / 10 := by have := sub_nonneg.2 hs; positivity
  have hb1 : 0 ≤ 1 - P.decay * (t - q.time) / 10 := by
    rcases hs.eq_or_lt with hs0 | hs0
    · rw [hs0]; simp
    · obtain ⟨k1, k2, k3, k4, k5⟩ := h.short hv (sub_pos.2 hs0) hs'
      have := (form_bounds k1 k2 k3 k4 k5).2.2.2
      linarith
  calc _ ≤ _ := e1
    _ ≤ (1 - P.decay * (t - q.time) / 10) * cap P R + P.decay * (t - q.time) / 10 * cap P R :=
      add_le_add (mul_le_mul_of_nonneg_left hq hb1) (mul_le_mul_of_nonneg_left e2 hb)
    _ = cap P R := by ring

/-- The energy, scaled up by what it has to decay. -/
def scaled (P : Params) (x : ℂ) (q : Tip) : ℝ := energy P x q * Real.exp (P.decay / 5 * q.time)

theorem scaled_step (h : P.Stable) (hv : P.Valid) (x : ℂ) (q : Tip) {t : ℝ} (hs : q.time ≤ t) (hs' : (t - q.time) * P.rate ≤ 1) :
    scaled P x (spring P q (x, t)) ≤ scaled P x q := by
  have h1 := energy_step h hv x q hs hs'
  have h2 : 1 - P.decay * (t - q.time) / 5 ≤ Real.exp (P.decay / 5 * (q.time - t)) := by
    have := Real.add_one_le_exp (P.decay / 5 * (q.time - t))
    linarith
  have h3 := h1.trans (mul_le_mul_of_nonneg_right h2 (energy_nonneg h hv x q))
  have h4 := mul_le_mul_of_nonneg_right h3 (Real.exp_pos (P.decay / 5 * t)).le
  refine h4.trans (le_of_eq ?_)
  rw [scaled, mul_comm (Real.exp _) (energy P x q), mul_assoc, ← Real.exp_add]
  congr 2; ring

/-! ### strokes -/

/-- A property of tips that steps towards anchors in `S` preserve if they are short enough. -/
def Kept (P : Params) (S : Set ℂ) (I : Tip → Prop) : Prop :=
  ∀ q y t, I q → y ∈ S → q.time ≤ t → (t - q.time) * P.rate ≤ 1 → I (spring P q (y, t))

theorem kept_rest (h : P.Stable) (hv : P.Valid) (x : ℂ) (K : ℝ) : Kept P {x} fun q => scaled P x q ≤ K := by
  rintro q y t hq rfl hs hs'
  exact (scaled_step h hv y q hs hs').trans hq

theorem kept_near (h : P.Stable) (hv : P.Valid) (x : ℂ) (R : ℝ) : Kept P {y | ‖y - x‖ ≤ R} fun q => energy P x q ≤ cap P R :=
  fun _ _ _ hq hy hs hs' => energy_step_off h hv hy hs hs' hq

section Kept
variable {S : Set ℂ} {I : Tip → Prop}

theorem Kept.follow (hk : Kept P S I) {l : List (ℂ × ℝ)} (hl : ∀ i ∈ l, i.1 ∈ S) {q : Tip} (hq : I q)
    (hc : (q.time :: l.map Prod.snd).IsChain fun u v => u ≤ v ∧ (v - u) * P.rate ≤ 1) : ∀ u ∈ Ref.follow P q l, I u := by
  induction l generalizing q with
  | nil => simp [Ref.follow]
  | cons i l ih =>
    rw [List.map_cons, List.isChain_cons_cons] at hc
    have h1 := hk q i.1 i.2 hq (hl i (by simp)) hc.1.1 hc.1.2
    intro u hu
    rcases List.mem_cons.1 hu with rfl | hu
    · exact h1
    · exact ih (fun i hi => hl i (by simp [hi])) h1 hc.2 u hu

theorem getLastD_mem {α : Type} (l : List α) (d : α) : l.getLastD d = d ∨ l.getLastD d ∈ l := by
  cases l with
  | nil => exact .inl rfl
  | cons a l => right; rw [List.getLastD_eq_getLast?, List.getLast?_eq_getLast_of_ne_nil (by simp)]; simp

/-- The way from one anchor to the next. -/
theorem Kept.path (hk : Kept P S I) (hS : Convex ℝ S) (hv : P.Valid) {s : State} (hs : Synced s) (ha : s.anchor.1 ∈ S) (hq : I s.tip)
    {y z : ℂ} {t : ℝ} (hy : y ∈ S) (ht : s.anchor.2 ≤ t) (hcap : P.maxOut < 2147483647)
    (hn : steps P s.tip z (t - s.anchor.2) ≤ P.maxOut) :
    ∀ u ∈ Ref.follow P s.tip (upsample s.anchor (y, t) (steps P s.tip z (t - s.anchor.2)).toNat), I u := by
  have hrate := steps_rate (P := P) s.tip z (dt := t - s.anchor.2) (.inl (by omega))
  have hn0 := steps_nonneg hv s.tip z (sub_nonneg.2 ht)
  generalize steps P s.tip z (t - s.anchor.2) = n at *
  obtain ⟨k, rfl⟩ := Int.eq_ofNat_of_zero_le hn0
  rw [Int.toNat_natCast]
  refine hk.follow ?_ hq ?_
  · intro i hi
    simp only [upsample, List.mem_map, List.mem_range] at hi
    obtain ⟨j, hj, rfl⟩ := hi
    have hk0 : (0 : ℝ) < k := by exact_mod_cast (by omega : 0 < k)
    refine lerp_mem hS ha hy (by positivity) ?_
    rw [div_le_one hk0]
    exact_mod_cast hj
  · have hc := follow_chain (P := P) (q := s.tip) (a := s.anchor) (b := (y, t)) (n := k) hs
    rw [← List.isChain_map Tip.time (R := fun u v => v - u = (t - s.anchor.2) / k), List.map_cons, follow_time] at hc
    cases k with
    | zero => simp [upsample]
    | succ k =>
      refine hc.imp fun u v huv => ?_
      have hk0 : (0 : ℝ) < ((k + 1 : ℕ) : ℝ) := by positivity
      constructor
      · have := div_nonneg (sub_nonneg.2 ht) hk0.le
        linarith
      · rw [huv, div_mul_eq_mul_div, div_le_one hk0]
        exact_mod_cast hrate

/-- A Move. -/
theorem Kept.move (hk : Kept P S I) (hS : Convex ℝ S) (hv : P.Valid) {s : State} (hs : Synced s) (ha : s.anchor.1 ∈ S) (hq : I s.tip)
    {x : ℂ} {t : ℝ} (hy : (place P s (.move x t)).1 ∈ S) (ht : s.anchor.2 ≤ t) (hcap : P.maxOut < 2147483647) :
    (∀ tips, (advance P s (.move x t)).2 = some tips → ∀ u ∈ tips, I u) ∧ (advance P s (.move x t)).1.anchor.1 ∈ S ∧
      I (advance P s (.move x t)).1.tip := by
  cases h : (advance P s (.move x t)).2 with
  | none =>
    obtain ⟨_, h2⟩ := move_late h
    rw [h2]
    exact ⟨by simp, ha, hq⟩
  | some tips =>
    obtain ⟨n, h1, h2, h3, h4⟩ := move_answer h
    have hall : ∀ u ∈ tips, I u := by
      rw [h3, h1]
      exact hk.path hS hv hs ha hq hy ht hcap (h1 ▸ h2)
    refine ⟨by simpa using hall, ?_, ?_⟩
    · rw [h4]; exact hy
    · rw [h4]
      rcases getLastD_mem tips s.tip with h5 | h5
      · simp only [h5]; exact hq
      · exact hall _ h5

theorem Kept.settle (hk : Kept P S I) (hv : P.Valid) {w : ℂ} (hw : w ∈ S) (k : ℕ) {dt : ℝ} (h0 : 0 < dt) (h1 : dt * P.rate ≤ 1) {q : Tip}
    (hq : I q) : I (settle P w k dt q).1 ∧ ∀ u ∈ (settle P w k dt q).2, I u := by
  induction k generalizing dt q with
  | zero => exact ⟨hq, by simp [Ref.settle]⟩
  | succ k ih =>
    have hc : I (spring P q (w, q.time + dt)) := hk q w _ hq hw (by linarith) (by rw [add_sub_cancel_left]; exact h1)
    simp only [Ref.settle]
    split
    · exact ⟨hc, by simp⟩
    · split
      · exact ih (by linarith) (by have := mul_pos h0 hv.rate; linarith) hq
      · split
        · exact ⟨hc, by simpa using hc⟩
        · obtain ⟨i1, i2⟩ := ih h0 h1 hc
          exact ⟨i1, by simpa using ⟨hc, i2⟩⟩

/-- An Up. -/
theorem Kept.up (hk : Kept P S I) (hS : Convex ℝ S) (hv : P.Valid) {s : State} (hs : Synced s) (ha : s.anchor.1 ∈ S) (hq : I s.tip)
    {x : ℂ} {t : ℝ} (hy : x ∈ S) (ht : s.anchor.2 ≤ t) (hcap : P.maxOut < 2147483647) :
    ∀ tips, (advance P s (.up x t)).2 = some tips → ∀ u ∈ tips, I u := by
  intro tips h
  obtain ⟨n, h1, h2, path, h3, ending, cand, h4, h5⟩ := up_answer h
  have hall : ∀ u ∈ path, I u := by
    rw [h3, h1]
    exact hk.path hS hv hs ha hq hy ht hcap (h1 ▸ h2)
  have hlast : I (path.getLastD s.tip) := by
    rcases getLastD_mem path s.tip with h6 | h6
    · rw [h6]; exact hq
    · exact hall _ h6
  have hend := hk.settle hv hy P.maxIter (dt := 1 / P.rate) (one_div_pos.2 hv.rate) (by rw [one_div, inv_mul_cancel₀ hv.rate.ne']) hlast
  rw [← h4] at hend
  intro u hu
  rw [h5] at hu
  split at hu
  · rw [List.mem_singleton] at hu; rw [hu]; exact hend.1
  · rcases List.mem_append.1 hu with hu | hu
    · exact hall u hu
    · exact hend.2 u hu

/-- All tip states of a sequence of inputs. -/
theorem Kept.answers (hk : Kept P S I) (hS : Convex ℝ S) (hv : P.Valid) (hcap : P.maxOut < 2147483647) {s : State} (hs : Synced s)
    (ha : s.anchor.1 ∈ S) (hq : I s.tip) {is : List Touch} (ho : Ordered P s is)
    (hpl : ∀ l i l', is = l ++ i :: l' → (place P (after P s l) i).1 ∈ S) :
    ∀ o ∈ Ref.answers P s is, ∀ u ∈ o.getD [], I u := by
  induction is generalizing s with
  | nil => simp [Ref.answers]
  | cons i is ih =>
    have hi := hpl [] i is rfl
    have hrest : ∀ l j l', is = l ++ j :: l' → (place P (after P (advance P s i).1 l) j).1 ∈ S := by
      intro l j l' h
      exact hpl (i :: l) j l' (by rw [h]; rfl)
    have hsy := synced_advance hv hs ho.1
    have key : (∀ tips, (advance P s i).2 = some tips → ∀ u ∈ tips, I u) ∧ (advance P s i).1.anchor.1 ∈ S ∧ I (advance P s i).1.tip := by
      cases i with
      | move x t => exact hk.move hS hv hs ha hq hi ho.1 hcap
      | up x t => exact ⟨hk.up hS hv hs ha hq hi ho.1 hcap, ha, hq⟩
    intro o hmem u hu
    rw [Ref.answers, List.mem_cons] at hmem
    rcases hmem with rfl | hmem
    · cases h : (advance P s i).2 with
      | none => rw [h] at hu; simp at hu
      | some tips => rw [h] at hu; exact key.1 tips h u hu
    · exact ih hsy key.2.1 key.2.2 ho.2 hrest o hmem u hu

/-- The state after a sequence of Moves. -/
theorem Kept.after (hk : Kept P S I) (hS : Convex ℝ S) (hv : P.Valid) (hcap : P.maxOut < 2147483647) {s : State} (hs : Synced s)
    (ha : s.anchor.1 ∈ S) (hq : I s.tip) {is : List Touch} (ho : Ordered P s is)
    (hpl : ∀ l i l', is = l ++ i :: l' → (place P (Ref.after P s l) i).1 ∈ S) :
    (Ref.after P s is).anchor.1 ∈ S ∧ I (Ref.after P s is).tip := by
  induction is generalizing s with
  | nil => exact ⟨ha, hq⟩
  | cons i is ih =>
    have hi := hpl [] i is rfl
    have hrest : ∀ l j l', is = l ++ j :: l' → (place P (Ref.after P (advance P s i).1 l) j).1 ∈ S := by
      intro l j l' h
      exact hpl (i :: l) j l' (by rw [h]; rfl)
    have key : (advance P s i).1.anchor.1 ∈ S ∧ I (advance P s i).1.tip := by
      cases i with
      | move x t => exact (hk.move hS hv hs ha hq hi ho.1 hcap).2
      | up x t => exact ⟨ha, hq⟩
    exact ih (synced_advance hv hs ho.1) key.1 key.2 ho.2 hrest

end Kept

theorem raws_pos (l : List (ℂ × ℝ)) : (raws l).map Tip.pos = l.map Prod.fst := by
  induction l using List.reverseRecOn with
  | nil => rfl
  | append_singleton l i ih =>
    rw [raws_append, List.map_append, List.map_append, ih, List.map_singleton, List.map_singleton]
    congr 2
    unfold raw
    split
    · rfl
    · split <;> rfl

/-- The points of the polyline are where the inputs are taken to be. -/
theorem polyline_mem {S : Set ℂ} {pos : ℂ} {time : ℝ} (h0 : pos ∈ S) {is : List Touch}
    (hpl : ∀ l i l', is = l ++ i :: l' → (place P (after P (start pos time) l) i).1 ∈ S) :
    ∀ q ∈ polyline P pos time is, q.pos ∈ S := by
  intro q hq
  have h1 : q.pos ∈ (polyline P pos time is).map Tip.pos := List.mem_map_of_mem hq
  rw [polyline, raws_pos, List.map_cons, List.mem_cons] at h1
  rcases h1 with h1 | h1
  · rw [h1]; exact h0
  · generalize start pos time = s at hpl h1
    clear hq
    induction is generalizing s with
    | nil => simp [places] at h1
    | cons i is ih =>
      rw [places, List.map_cons, List.mem_cons] at h1
      rcases h1 with h1 | h1
      · rw [h1]; exact hpl [] i is rfl
      · exact ih _ (fun l j l' h => hpl (i :: l) j l' (by rw [h]; rfl)) h1

theorem polyline_time (pos : ℂ) (time : ℝ) (is : List Touch) : (polyline P pos time is).map Tip.time = time :: is.map Touch.time := by
  induction is using List.reverseRecOn with
  | nil => rfl
  | append_singleton l i ih =>
    rw [polyline_append, List.map_append, ih, List.map_append, List.map_singleton, List.map_singleton, List.cons_append]
    congr 3
    have : (place P (after P (start pos time) l) i).2 = i.time := by cases i <;> rfl
    rw [← this]
    unfold raw
    split
    · rfl
    · split <;> rfl

/-- The points of the polyline from the `n`-th input on. -/
theorem polyline_drop {S : Set ℂ} {pos : ℂ} {time : ℝ} {n : ℕ} (h0 : n = 0 → pos ∈ S) {is : List Touch}
    (hpl : ∀ l i l', is = l ++ i :: l' → n ≤ l.length + 1 → (place P (after P (start pos time) l) i).1 ∈ S) :
    ∀ q ∈ (polyline P pos time is).drop n, q.pos ∈ S := by
  induction is using List.reverseRecOn with
  | nil =>
    intro q hq
    cases n with
    | zero =>
      obtain rfl : q = ⟨pos, 0, 0, time⟩ := by simpa [polyline, places, raws, raw] using hq
      exact h0 rfl
    | succ n => simp [polyline, places, raws, raw] at hq
  | append_singleton l i ih =>
    intro q hq
    have hlen : (polyline P pos time l).length = l.length + 1 := by
      have := congrArg List.length (polyline_time (P := P) pos time l)
      simpa using this
    rw [polyline_append, List.drop_append, List.mem_append] at hq
    rcases hq with hq | hq
    · exact ih (fun l₁ j l₂ h => hpl l₁ j (l₂ ++ [i]) (by rw [h]; simp)) q hq
    · have hn : n ≤ l.length + 1 := by
        by_contra hlt
        have : ∃ m, n - (polyline P pos time l).length = m + 1 := ⟨n - (polyline P pos time l).length - 1, by omega⟩
        obtain ⟨m, hm⟩ := this
        rw [hm] at hq
        simp at hq
      rw [hlen, Nat.sub_eq_zero_of_le hn, List.drop_zero, List.mem_singleton] at hq
      rw [hq]
      have := hpl l i [] rfl hn
      unfold raw
      split
      · exact this
      · split <;> exact this

theorem answers_split (s : State) (l l' : List Touch) : answers P s (l ++ l') = answers P s l ++ answers P (after P s l) l' := by
  induction l generalizing s with
  | nil => rfl
  | cons i l ih => simp [answers, ih, after]

theorem ordered_split (s : State) (l l' : List Touch) : Ordered P s (l ++ l') ↔ Ordered P s l ∧ Ordered P (after P s l) l' := by
  induction l generalizing s with
  | nil => simp [Ordered, after]
  | cons i l ih => simp [Ordered, ih, after, and_assoc]

theorem after_split (s : State) (l l' : List Touch) : after P s (l ++ l') = after P (after P s l) l' := by
  simp [after]

/-- A Move is taken to be where the recent inputs are. -/
theorem place_mem {S : Set ℂ} (hS : Convex ℝ S) (hv : P.Valid) (pos : ℂ) (time : ℝ) (is : List Touch) (hm : ∀ i ∈ is, i.IsMove) {x : ℂ}
    (t : ℝ) (hx : x ∈ S)
    (hw : ∀ timeout lo hi, P.wobble = some (timeout, lo, hi) →
      (path pos time (is ++ [.move x t])).Pairwise (fun a b => a.2 ≤ b.2) ∧
      ∀ a ∈ path pos time (is ++ [.move x t]), t - a.2 ≤ timeout → a.1 ∈ S) :
    (place P (after P (start pos time) is) (.move x t)).1 ∈ S := by
  cases hP : P.wobble with
  | none => simpa [place, smooth, hP] using hx
  | some w =>
    obtain ⟨timeout, lo, hi⟩ := w
    obtain ⟨ho, hin⟩ := hw _ _ _ hP
    have hm' : ∀ i ∈ is, ∃ x t, i = .move x t := by
      intro i hi
      have := hm i hi
      cases i with
      | move x t => exact ⟨x, t, rfl⟩
      | up x t => exact this.elim
    rw [place_eq hP (hv.wobble _ _ _ hP).1 pos time is hm' x t ho]
    have hmem : ∀ s ∈ recent timeout t (path pos time (is ++ [.move x t])), 0 ≤ s.dur ∧ s.pos ∈ S := by
      intro s hs
      rw [recent, List.mem_filter] at hs
      refine ⟨legs_dur _ ho s hs.1, ?_⟩
      have h2 : (s.pos, s.time) ∈ (is ++ [Touch.move x t]).map Touch.at := by
        rw [← legs_pos (pos, time) ((is ++ [Touch.move x t]).map Touch.at)]
        exact List.mem_map.2 ⟨s, hs.1, rfl⟩
      exact hin (s.pos, s.time) (List.mem_cons_of_mem _ h2) (by simpa using hs.2)
    unfold average
    split
    · exact hx
    · rename_i h0
      have hpos : 0 < totalDur (recent timeout t (path pos time (is ++ [.move x t]))) :=
        lt_of_le_of_ne (List.sum_nonneg (by simpa using fun s hs => (hmem s hs).1)) (Ne.symm h0)
      have hr : ∀ lo hi v, 0 ≤ speedRatio lo hi v ∧ speedRatio lo hi v ≤ 1 := by
        intro lo hi v
        unfold speedRatio
        split
        · split <;> norm_num
        · exact clamp_mem _
      exact lerp_mem hS (mean_mem hS hmem hpos) hx (hr _ _ _).1 (hr _ _ _).2

end
end Ink.Ref
