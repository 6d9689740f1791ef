import Verif.Lemmas.Drift
import Verif.Spec.Shadow
import Verif.Spec.Spring
import Verif.IEEE.Spring
/-!
# Tips on floats follow the exact ones
-/
namespace Ink
noncomputable section
open Scalar Arith

/-- The spring with the given mass and drag constant, for steps of length at most `h`. -/
def springOf (M d h : ℝ) : Ref.Params := ⟨M, d, h⁻¹, 1, 1, 1, none, none⟩

variable {M d h R ω : ℝ}

theorem Suits.pos (hS : Suits M d h R) : 0 < M ∧ 0 < d ∧ 0 < R :=
  ⟨lt_of_lt_of_le (by positivity) hS.mass.1, lt_of_lt_of_le (by positivity) hS.drag.1, lt_of_lt_of_le (by positivity) hS.size.1⟩

theorem Suits.valid (hS : Suits M d h R) : (springOf M d h).Valid := by
  obtain ⟨h1, h2, _⟩ := hS.pos
  exact ⟨h1, h2, inv_pos.2 hS.step.1, one_pos, one_pos, one_pos, by simp [springOf], by simp [springOf]⟩

theorem Suits.stable (hS : Suits M d h R) : (springOf M d h).Stable := by
  obtain ⟨h0, h1, h2⟩ := hS.step
  constructor
  · change 2 * d ≤ h⁻¹
    rw [← one_div, le_div_iff₀ h0]; exact h1
  · change 4 ≤ M * d * h⁻¹
    rw [← div_eq_mul_inv, le_div_iff₀ h0]; exact h2

/-- A step is short compared with the spring. -/
theorem Suits.short (hS : Suits M d h R) (hωM : ω ^ 2 = M⁻¹) {s : ℝ} (hs : 0 ≤ s) (hsh : s ≤ h) :
    s * ω ≤ 354 / 1000 ∧ s * d ≤ 1 / 2 ∧ s ≤ 2 ^ 60 ∧ s * (springOf M d h).rate ≤ 1 := by
  obtain ⟨h0, h1, h2⟩ := hS.step
  obtain ⟨hM, hd, _⟩ := hS.pos
  have i1 : s * d ≤ 1 / 2 := by nlinarith
  have i2 : (s * ω) ^ 2 ≤ 1 / 8 := by
    rw [mul_pow, hωM, mul_inv_le_iff₀ hM]
    have j1 : s * s ≤ s * h := mul_le_mul_of_nonneg_left hsh hs
    have j2 : s * (4 * h) ≤ s * (M * d) := mul_le_mul_of_nonneg_left h2 hs
    have j3 : M * (s * d) ≤ M * (1 / 2) := mul_le_mul_of_nonneg_left i1 hM.le
    nlinarith
  refine ⟨?_, i1, ?_, ?_⟩
  · exact (abs_le_of_sq_le_sq' (i2.trans (by norm_num)) (by norm_num : (0 : ℝ) ≤ 354 / 1000)).2
  · have := hS.drag.1
    have j1 : s * (1 / 2 ^ 16) ≤ s * d := mul_le_mul_of_nonneg_left this hs
    have j2 : s ≤ 2 ^ 16 := by
      have : s * (1 / 2 ^ 16) ≤ 1 := by linarith
      rwa [mul_one_div, div_le_one (by positivity)] at this
    exact j2.trans (by norm_num)
  · change s * h⁻¹ ≤ 1
    rw [← div_eq_mul_inv, div_le_one h0]; exact hsh

/-- The peak of the energy in terms of the parameters. -/
theorem peak_eq (hS : Suits M d h R) :
    Ref.peak (springOf M d h) R ^ 2 = 640 * (((M * d)⁻¹ + d) * R) ^ 2 := by
  obtain ⟨hM, hd, hR⟩ := hS.pos
  rw [Ref.peak_sq, Ref.cap, Ref.Params.decay]
  simp only [springOf]
  field_simp
  ring

theorem Suits.peak (hS : Suits M d h R) (hω : 0 < ω) (hωM : ω ^ 2 = M⁻¹) :
    0 < Ref.peak (springOf M d h) R ∧ 50 * (ω * R) ≤ Ref.peak (springOf M d h) R ∧ Ref.peak (springOf M d h) R ≤ 2 ^ 38 * R := by
  obtain ⟨hM, hd, hR⟩ := hS.pos
  have h0 : 0 ≤ Ref.peak (springOf M d h) R := Real.sqrt_nonneg _
  have e := peak_eq hS
  have hMd : 0 < (M * d)⁻¹ := by positivity
  have h1 : 50 * (ω * R) ≤ Ref.peak (springOf M d h) R := by
    refine (abs_le_of_sq_le_sq' ?_ h0).2
    rw [e, mul_pow, mul_pow, hωM, mul_pow]
    have i1 : 4 * M⁻¹ ≤ ((M * d)⁻¹ + d) ^ 2 := by
      have : (M * d)⁻¹ * d = M⁻¹ := by field_simp
      nlinarith [sq_nonneg ((M * d)⁻¹ - d)]
    nlinarith [mul_le_mul_of_nonneg_right i1 (sq_nonneg R), sq_nonneg R, mul_pos (inv_pos.2 hM) (pow_pos hR 2)]
  refine ⟨lt_of_lt_of_le (by positivity) h1, h1, ?_⟩
  refine (abs_le_of_sq_le_sq' ?_ (by positivity)).2
  rw [e, mul_pow, mul_pow _ R]
  have i1 : (M * d)⁻¹ ≤ 2 ^ 32 := by
    rw [inv_le_comm₀ (by positivity) (by positivity)]
    calc ((2 : ℝ) ^ 32)⁻¹ = 1 / 2 ^ 16 * (1 / 2 ^ 16) := by norm_num
      _ ≤ M * d := mul_le_mul hS.mass.1 hS.drag.1 (by positivity) hM.le
  have i2 : ((M * d)⁻¹ + d) ^ 2 ≤ (2 ^ 33) ^ 2 := pow_le_pow_left₀ (by positivity) (by
    have := hS.drag.2
    calc (M * d)⁻¹ + d ≤ 2 ^ 32 + 2 ^ 16 := add_le_add i1 this
      _ ≤ 2 ^ 33 := by norm_num) 2
  nlinarith [mul_le_mul_of_nonneg_right i2 (sq_nonneg R), sq_nonneg R]

theorem Suits.freq (hS : Suits M d h R) (hω : 0 < ω) (hωM : ω ^ 2 = M⁻¹) : ω ≤ 2 ^ 8 ∧ 1 / 2 ^ 8 ≤ ω := by
  obtain ⟨hM, hd, hR⟩ := hS.pos
  constructor
  · refine (abs_le_of_sq_le_sq' ?_ (by positivity)).2
    rw [hωM, inv_le_comm₀ hM (by positivity)]
    calc (((2 : ℝ) ^ 8) ^ 2)⁻¹ = 1 / 2 ^ 16 := by norm_num
      _ ≤ M := hS.mass.1
  · refine (abs_le_of_sq_le_sq' ?_ hω.le).2
    rw [hωM, le_inv_comm₀ (by positivity) hM]
    calc M ≤ 2 ^ 16 := hS.mass.2
      _ = ((1 / 2 ^ 8) ^ 2)⁻¹ := by norm_num

theorem Suits.scales (hS : Suits M d h R) (hω : 0 < ω) (hωM : ω ^ 2 = M⁻¹) :
    Scales ω d (2 * Ref.peak (springOf M d h) R / ω) (2 * Ref.peak (springOf M d h) R) := by
  obtain ⟨hM, hd, hR⟩ := hS.pos
  obtain ⟨p0, p1, p2⟩ := hS.peak hω hωM
  generalize Ref.peak (springOf M d h) R = p at *
  obtain ⟨hω1, hω2⟩ := hS.freq hω hωM
  have hpu : p ≤ 2 ^ 88 := p2.trans (by
    calc 2 ^ 38 * R ≤ 2 ^ 38 * 2 ^ 50 := mul_le_mul_of_nonneg_left hS.size.2 (by positivity)
      _ = 2 ^ 88 := by norm_num)
  have hpl : 1 / 2 ^ 53 ≤ p := by
    refine le_trans ?_ p1
    calc (1 : ℝ) / 2 ^ 53 ≤ 50 * (1 / 2 ^ 8 * (1 / 2 ^ 50)) := by norm_num
      _ ≤ _ := by gcongr; exact hS.size.1
  refine ⟨hω, hd, by field_simp, ⟨?_, ?_⟩, ⟨?_, ?_⟩, ⟨?_, ?_⟩, ⟨?_, ?_⟩, ?_, ?_⟩
  · rw [le_div_iff₀ hω]
    calc (1 : ℝ) / 2 ^ 80 * ω ≤ 1 / 2 ^ 80 * 2 ^ 8 := by gcongr
      _ ≤ 2 * (1 / 2 ^ 53) := by norm_num
      _ ≤ _ := by linarith
  · rw [div_le_iff₀ hω]
    calc 2 * p ≤ 2 * 2 ^ 88 := by linarith
      _ ≤ 2 ^ 110 * (1 / 2 ^ 8) := by norm_num
      _ ≤ _ := by gcongr
  · calc (1 : ℝ) / 2 ^ 80 ≤ 2 * (1 / 2 ^ 53) := by norm_num
      _ ≤ _ := by linarith
  · calc 2 * p ≤ 2 * 2 ^ 88 := by linarith
      _ ≤ 2 ^ 110 := by norm_num
  · calc (1 : ℝ) / 2 ^ 80 ≤ 1 / 2 ^ 8 * (2 * (1 / 2 ^ 53)) := by norm_num
      _ ≤ _ := by gcongr
  · calc ω * (2 * p) ≤ 2 ^ 8 * (2 * 2 ^ 88) := by gcongr
      _ ≤ 2 ^ 110 := by norm_num
  · calc (1 : ℝ) / 2 ^ 80 ≤ 1 / 2 ^ 16 * (2 * (1 / 2 ^ 53)) := by norm_num
      _ ≤ _ := by gcongr; exact hS.drag.1
  · calc d * (2 * p) ≤ 2 ^ 16 * (2 * 2 ^ 88) := by gcongr; exact hS.drag.2
      _ ≤ 2 ^ 110 := by norm_num
  · exact hω1.trans (by norm_num)
  · exact hS.drag.2.trans (by norm_num)

theorem Suits.scales' (hS : Suits M d h R) (hω : 0 < ω) (hωM : ω ^ 2 = M⁻¹) : Scales ω d (101 / 100 * R) (ω * (101 / 100 * R)) := by
  obtain ⟨hM, hd, hR⟩ := hS.pos
  obtain ⟨hω1, hω2⟩ := hS.freq hω hωM
  obtain ⟨h1, h2⟩ := hS.size
  have hu : 101 / 100 * R ≤ 2 ^ 51 := by
    calc 101 / 100 * R ≤ 101 / 100 * 2 ^ 50 := by gcongr
      _ ≤ 2 ^ 51 := by norm_num
  have hl : 1 / 2 ^ 50 ≤ 101 / 100 * R := by linarith
  refine ⟨hω, hd, rfl, ⟨?_, ?_⟩, ⟨?_, ?_⟩, ⟨?_, ?_⟩, ⟨?_, ?_⟩, ?_, ?_⟩
  · exact le_trans (by norm_num) hl
  · exact hu.trans (by norm_num)
  · calc (1 : ℝ) / 2 ^ 80 ≤ 1 / 2 ^ 8 * (1 / 2 ^ 50) := by norm_num
      _ ≤ _ := by gcongr
  · calc ω * (101 / 100 * R) ≤ 2 ^ 8 * 2 ^ 51 := by gcongr
      _ ≤ 2 ^ 110 := by norm_num
  · calc (1 : ℝ) / 2 ^ 80 ≤ 1 / 2 ^ 8 * (1 / 2 ^ 8 * (1 / 2 ^ 50)) := by norm_num
      _ ≤ _ := by gcongr
  · calc ω * (ω * (101 / 100 * R)) ≤ 2 ^ 8 * (2 ^ 8 * 2 ^ 51) := by gcongr
      _ ≤ 2 ^ 110 := by norm_num
  · calc (1 : ℝ) / 2 ^ 80 ≤ 1 / 2 ^ 16 * (1 / 2 ^ 8 * (1 / 2 ^ 50)) := by norm_num
      _ ≤ _ := by gcongr; exact hS.drag.1
  · calc d * (ω * (101 / 100 * R)) ≤ 2 ^ 16 * (2 ^ 8 * 2 ^ 51) := by gcongr; exact hS.drag.2
      _ ≤ 2 ^ 110 := by norm_num
  · exact hω1.trans (by norm_num)
  · exact hS.drag.2.trans (by norm_num)

namespace Fl

variable [Libm]

/-- A step of the spring, in one coordinate: the rounded numbers stay near the exact ones. -/
theorem coord_step {Mf df A x v : Fl f32} (hMf : Finite Mf) (hdf : Finite df) (hS : Suits (num Mf) (num df) h R) (hω : 0 < ω)
    (hωM : ω ^ 2 = (num Mf)⁻¹) {P : Ref.Params} (hP : P = springOf (num Mf) (num df) h) {X : ℝ}
    (hsc : Scales ω (num df) X (ω * X)) (hRX : 101 / 100 * R ≤ X) (hx : Finite x) (hv : Finite v) (hxX : |num x| ≤ X)
    (hvX : |num v| ≤ 11 / 10 * (ω * X)) {c y w r : ℝ} (hc : Ref.gauge P (num x - y) (num v - w) ≤ c) (hA : Finite A) (hr : |r| ≤ R)
    (hAr : |num A - r| ≤ 10 * eps * R) {t₀ t : Fl f64} (ht₀ : Finite t₀) (ht : Finite t) (hs : 0 ≤ num t - num t₀)
    (hsh : num t - num t₀ ≤ h) {a v' x' : Fl f32} (ha : a = (A - x) / Mf - df * v) (hv' : v' = v + narrow (t - t₀) * a)
    (hx' : x' = x + narrow (t - t₀) * v') :
    Finite a ∧ Finite v' ∧ Finite x' ∧ |num a| ≤ 203 / 100 * (ω * (ω * X)) + 112 / 100 * (num df * (ω * X)) ∧
      Ref.gauge P (num x' - (y + (num t - num t₀) * (w + (num t - num t₀) * (P.mass⁻¹ * (r - y) - P.drag * w))))
        (num v' - (w + (num t - num t₀) * (P.mass⁻¹ * (r - y) - P.drag * w))) ≤
          (1 - P.decay * (num t - num t₀) / 10) * c + 30 * eps * (ω * X) := by
  subst hP
  obtain ⟨hM, hd, hR⟩ := hS.pos
  have hst := hS.stable
  have hval := hS.valid
  obtain ⟨s1, s2, s3, s4⟩ := hS.short hωM hs hsh
  have hωM' : ω ^ 2 = (springOf (num Mf) (num df) h).mass⁻¹ := hωM
  have heps : eps = 1 / 16000000 := rfl
  generalize hPd : springOf (num Mf) (num df) h = P at *
  have em : P.mass = num Mf := by rw [← hPd]; rfl
  have ed : P.drag = num df := by rw [← hPd]; rfl
  have X0 : 0 < X := by linarith
  have hAX : |num A| ≤ X := (abs_of_near hAr hr).trans (by rw [heps]; linarith)
  obtain ⟨f1, f2, f3, e0, e1, e2⟩ := spring_near hA hx hv hMf hdf ht₀ ht hsc hωM hAX hxX hvX hs s1 s2 s3 ha hv' hx'
  refine ⟨f1, f2, f3, e0, ?_⟩
  generalize num t - num t₀ = s at *
  have L0 : 0 < ω * X := by positivity
  -- the velocity with the exact anchor
  have e1' : |num v' - (num v + s * (P.mass⁻¹ * (r - num x) - P.drag * num v))| ≤ 1194 / 100 * eps * (ω * X) := by
    have h1 : num v' - (num v + s * (P.mass⁻¹ * (r - num x) - P.drag * num v)) =
        (num v' - (num v + s * ((num Mf)⁻¹ * (num A - num x) - num df * num v))) + s * (num Mf)⁻¹ * (num A - r) := by
      rw [em, ed]; ring
    have h2 : |s * (num Mf)⁻¹ * (num A - r)| ≤ 354 / 1000 * (10 * eps) * (ω * X) := by
      rw [← hωM, abs_mul, abs_of_nonneg (by positivity)]
      calc s * ω ^ 2 * |num A - r| ≤ s * ω ^ 2 * (10 * eps * X) := by
            refine mul_le_mul_of_nonneg_left (hAr.trans ?_) (by positivity)
            rw [heps]; linarith
        _ = s * ω * (10 * eps) * (ω * X) := by ring
        _ ≤ 354 / 1000 * (10 * eps) * (ω * X) := by
            refine mul_le_mul_of_nonneg_right (mul_le_mul_of_nonneg_right s1 ?_) (by positivity)
            rw [heps]; norm_num
    rw [h1]
    refine (abs_add_le _ _).trans ?_
    rw [heps] at *
    linarith
  refine Ref.drift_step hst hval hω.le hωM' hs s4 hc e1' e2 ?_
  have h3 : ω * (38 / 10 * eps * X + s * (1194 / 100 * eps * (ω * X))) =
      38 / 10 * eps * (ω * X) + s * ω * (1194 / 100 * eps * (ω * X)) := by ring
  have h4 : s * ω * (1194 / 100 * eps * (ω * X)) ≤ 354 / 1000 * (1194 / 100 * eps * (ω * X)) :=
    mul_le_mul_of_nonneg_right s1 (by rw [heps]; positivity)
  rw [h3]
  rw [heps] at *
  linarith

end Fl
end
end Ink
