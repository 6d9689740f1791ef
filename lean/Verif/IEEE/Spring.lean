import Verif.IEEE.Error
/-!
# Rounding errors of a step of the spring model
-/
namespace Ink
open Scalar Arith

theorem abs_of_near {a b e B : ℝ} (h : |a - b| ≤ e) (hb : |b| ≤ B) : |a| ≤ B + e := by
  have := abs_add_le b (a - b)
  rw [add_sub_cancel] at this
  linarith

/-- The scales of a coordinate: positions `X`, velocities `L`, the frequency `ω` of the spring, the drag constant. -/
structure Scales (ω d X L : ℝ) : Prop where
  freq : 0 < ω
  drag : 0 < d
  vel : L = ω * X
  pos : 1 / 2 ^ 80 ≤ X ∧ X ≤ 2 ^ 110
  velocity : 1 / 2 ^ 80 ≤ L ∧ L ≤ 2 ^ 110
  force : 1 / 2 ^ 80 ≤ ω * L ∧ ω * L ≤ 2 ^ 110
  friction : 1 / 2 ^ 80 ≤ d * L ∧ d * L ≤ 2 ^ 110
  freq_le : ω ≤ 2 ^ 30
  drag_le : d ≤ 2 ^ 30

theorem usual_of {B C k : ℝ} (h : 1 / 2 ^ 80 ≤ B ∧ B ≤ 2 ^ 110) (hC : C = k * B) (hk : 1 / 2 ≤ k) (hk' : k ≤ 4) : Usual C := by
  obtain ⟨h1, h2⟩ := h
  subst hC
  have h0 : 0 < B := lt_of_lt_of_le (by positivity) h1
  constructor
  · calc (1 : ℝ) / 2 ^ 100 ≤ 1 / 2 * (1 / 2 ^ 80) := by norm_num
      _ ≤ k * B := mul_le_mul hk h1 (by positivity) (by linarith)
  · calc k * B ≤ 4 * 2 ^ 110 := mul_le_mul hk' h2 h0.le (by norm_num)
      _ ≤ 2 ^ 125 := by norm_num

namespace Fl
variable [Libm]

/-- One step: the velocity and the position differ little from those of an exact step from the same state. -/
theorem spring_near {A x v M d : Fl f32} {t₀ t : Fl f64} (hA : Finite A) (hx : Finite x) (hv : Finite v) (hM : Finite M) (hd : Finite d)
    (ht₀ : Finite t₀) (ht : Finite t) {ω X L : ℝ} (hS : Scales ω (num d) X L) (hωM : ω ^ 2 = (num M)⁻¹)
    (hAX : |num A| ≤ X) (hxX : |num x| ≤ X) (hvL : |num v| ≤ 11 / 10 * L) (hs : 0 ≤ num t - num t₀)
    (hs1 : (num t - num t₀) * ω ≤ 354 / 1000) (hs2 : (num t - num t₀) * num d ≤ 1 / 2) (hs3 : num t - num t₀ ≤ 2 ^ 60)
    {a v' x' : Fl f32} (ha : a = (A - x) / M - d * v) (hv' : v' = v + narrow (t - t₀) * a) (hx' : x' = x + narrow (t - t₀) * v') :
    Finite a ∧ Finite v' ∧ Finite x' ∧ |num a| ≤ 203 / 100 * (ω * L) + 112 / 100 * (num d * L) ∧
      |num v' - (num v + (num t - num t₀) * ((num M)⁻¹ * (num A - num x) - num d * num v))| ≤ 84 / 10 * eps * L ∧
      |num x' - (num x + (num t - num t₀) * num v')| ≤ 38 / 10 * eps * X := by
  have X0 : 0 < X := lt_of_lt_of_le (by positivity) hS.pos.1
  have L0 : 0 < L := lt_of_lt_of_le (by positivity) hS.velocity.1
  have W0 : 0 < ω * L := mul_pos hS.freq L0
  have F0 : 0 < num d * L := mul_pos hS.drag L0
  have hM0 : num M ≠ 0 := by
    intro h0
    rw [h0, inv_zero] at hωM
    exact absurd hωM (by have := hS.freq; positivity)
  have hXM : (num M)⁻¹ * X = ω * L := by rw [← hωM, hS.vel]; ring
  have hM1 : 0 < (num M)⁻¹ := by rw [← hωM]; have := hS.freq; positivity
  obtain ⟨s, hs_def⟩ : ∃ s, s = num t - num t₀ := ⟨_, rfl⟩
  rw [← hs_def] at hs hs1 hs2 hs3 ⊢
  have heps : eps = 1 / 16000000 := rfl
  -- the pull of the spring
  have hr1 : |num A - num x| ≤ 2 * X := (abs_sub _ _).trans (by linarith)
  obtain ⟨f1, e1⟩ := sub_near hA hx (usual_of (k := 2) hS.pos rfl (by norm_num) (by norm_num)) hr1
  have b1 := abs_of_near e1 hr1
  have b1' : |num (A - x)| ≤ 201 / 100 * X := b1.trans (by rw [heps]; linarith)
  have hr2 : |num (A - x) / num M| ≤ 201 / 100 * (ω * L) := by
    rw [div_eq_inv_mul, abs_mul, abs_of_pos hM1, ← hXM]
    calc (num M)⁻¹ * |num (A - x)| ≤ (num M)⁻¹ * (201 / 100 * X) := mul_le_mul_of_nonneg_left b1' hM1.le
      _ = _ := by ring
  obtain ⟨f2, e2⟩ := div_near f1 hM hM0 (usual_of (k := 201 / 100) hS.force rfl (by norm_num) (by norm_num)) hr2
  have e2' : |num ((A - x) / M) - (num M)⁻¹ * (num A - num x)| ≤ 401 / 100 * eps * (ω * L) := by
    have h1 : |num (A - x) / num M - (num M)⁻¹ * (num A - num x)| ≤ 2 * eps * (ω * L) := by
      have : num (A - x) / num M - (num M)⁻¹ * (num A - num x) = (num M)⁻¹ * (num (A - x) - (num A - num x)) := by ring
      rw [this, abs_mul, abs_of_pos hM1, ← hXM]
      calc (num M)⁻¹ * |num (A - x) - (num A - num x)| ≤ (num M)⁻¹ * (eps * (2 * X)) := mul_le_mul_of_nonneg_left e1 hM1.le
        _ = _ := by ring
    have := abs_sub_le (num ((A - x) / M)) (num (A - x) / num M) ((num M)⁻¹ * (num A - num x))
    linarith
  have b2 : |num ((A - x) / M)| ≤ 202 / 100 * (ω * L) := (abs_of_near e2 hr2).trans (by rw [heps]; linarith)
  -- the drag
  have hr3 : |num d * num v| ≤ 11 / 10 * (num d * L) := by
    rw [abs_mul, abs_of_pos hS.drag]
    calc num d * |num v| ≤ num d * (11 / 10 * L) := mul_le_mul_of_nonneg_left hvL hS.drag.le
      _ = _ := by ring
  obtain ⟨f3, e3⟩ := mul_near hd hv (usual_of (k := 11 / 10) hS.friction rfl (by norm_num) (by norm_num)) hr3
  have b3 : |num (d * v)| ≤ 111 / 100 * (num d * L) := (abs_of_near e3 hr3).trans (by rw [heps]; linarith)
  -- the acceleration
  have hr4 : |num ((A - x) / M) - num (d * v)| ≤ 202 / 100 * (ω * L) + 111 / 100 * (num d * L) := (abs_sub _ _).trans (add_le_add b2 b3)
  have hU4 : Usual (202 / 100 * (ω * L) + 111 / 100 * (num d * L)) := by
    have h1 := usual_of (k := 202 / 100) hS.force rfl (by norm_num) (by norm_num)
    refine ⟨h1.lower.trans (by linarith), ?_⟩
    have := hS.force.2
    have := hS.friction.2
    calc _ ≤ (202 / 100 * 2 ^ 110 + 111 / 100 * 2 ^ 110 : ℝ) := by linarith
      _ ≤ 2 ^ 125 := by norm_num
  obtain ⟨f4, e4⟩ := sub_near f2 f3 hU4 hr4
  rw [← ha] at f4 e4
  obtain ⟨acc, hacc⟩ : ∃ acc, acc = (num M)⁻¹ * (num A - num x) - num d * num v := ⟨_, rfl⟩
  rw [← hacc]
  have e4' : |num a - acc| ≤ eps * (604 / 100 * (ω * L) + 222 / 100 * (num d * L)) := by
    have h1 : |(num ((A - x) / M) - num (d * v)) - acc| ≤ 401 / 100 * eps * (ω * L) + eps * (11 / 10 * (num d * L)) := by
      have : (num ((A - x) / M) - num (d * v)) - acc =
          (num ((A - x) / M) - (num M)⁻¹ * (num A - num x)) - (num (d * v) - num d * num v) := by rw [hacc]; ring
      rw [this]
      exact (abs_sub _ _).trans (add_le_add e2' e3)
    have h2 := abs_sub_le (num a) (num ((A - x) / M) - num (d * v)) acc
    rw [heps] at *
    linarith
  have b4 : |num a| ≤ 203 / 100 * (ω * L) + 112 / 100 * (num d * L) := (abs_of_near e4 hr4).trans (by rw [heps]; linarith)
  -- the length of the step
  obtain ⟨f5, e5⟩ := narrow_near ht₀ ht (by rw [← hs_def, abs_of_nonneg hs]; exact hs3)
  rw [← hs_def, abs_of_nonneg hs] at e5
  obtain ⟨σ, hσ⟩ : ∃ σ : Fl f32, σ = narrow (t - t₀) := ⟨_, rfl⟩
  rw [← hσ] at hv' hx' f5 e5
  have c1 : s * (ω * L) ≤ 354 / 1000 * L := by
    calc s * (ω * L) = s * ω * L := by ring
      _ ≤ _ := mul_le_mul_of_nonneg_right hs1 L0.le
  have c2 : s * (num d * L) ≤ 1 / 2 * L := by
    calc s * (num d * L) = s * num d * L := by ring
      _ ≤ _ := mul_le_mul_of_nonneg_right hs2 L0.le
  have c3 : s * L ≤ 354 / 1000 * X := by
    rw [hS.vel]
    calc s * (ω * X) = s * ω * X := by ring
      _ ≤ _ := mul_le_mul_of_nonneg_right hs1 X0.le
  have c1' : 0 ≤ s * (ω * L) := by positivity
  have c2' : 0 ≤ s * (num d * L) := mul_nonneg hs F0.le
  have c3' : 0 ≤ s * L := by positivity
  have d1 : 1 / 2 ^ 140 * (ω * L) ≤ 1 / 2 ^ 100 * L := by
    calc (1 : ℝ) / 2 ^ 140 * (ω * L) ≤ 1 / 2 ^ 140 * (2 ^ 30 * L) := by have := hS.freq_le; gcongr
      _ = 1 / 2 ^ 110 * L := by ring
      _ ≤ _ := mul_le_mul_of_nonneg_right (by norm_num) L0.le
  have d2 : 1 / 2 ^ 140 * (num d * L) ≤ 1 / 2 ^ 100 * L := by
    calc (1 : ℝ) / 2 ^ 140 * (num d * L) ≤ 1 / 2 ^ 140 * (2 ^ 30 * L) := by have := hS.drag_le; gcongr
      _ = 1 / 2 ^ 110 * L := by ring
      _ ≤ _ := mul_le_mul_of_nonneg_right (by norm_num) L0.le
  have d3 : 1 / 2 ^ 140 * L ≤ 1 / 2 ^ 100 * X := by
    rw [hS.vel]
    calc (1 : ℝ) / 2 ^ 140 * (ω * X) ≤ 1 / 2 ^ 140 * (2 ^ 30 * X) := by have := hS.freq_le; gcongr
      _ = 1 / 2 ^ 110 * X := by ring
      _ ≤ _ := mul_le_mul_of_nonneg_right (by norm_num) X0.le
  -- what the velocity gains
  have e6 : |num σ * num a - s * acc| ≤ eps * (81 / 10 * (s * (ω * L)) + 335 / 100 * (s * (num d * L))) + 4 / 2 ^ 100 * L := by
    have h1 : num σ * num a - s * acc = (num σ - s) * num a + s * (num a - acc) := by ring
    have h2 : |(num σ - s) * num a| ≤ (eps * s + 1 / 2 ^ 140) * (203 / 100 * (ω * L) + 112 / 100 * (num d * L)) := by
      rw [abs_mul]
      exact mul_le_mul e5 b4 (abs_nonneg _) (by rw [heps]; positivity)
    have h3 : |s * (num a - acc)| ≤ s * (eps * (604 / 100 * (ω * L) + 222 / 100 * (num d * L))) := by
      rw [abs_mul, abs_of_nonneg hs]
      exact mul_le_mul_of_nonneg_left e4' hs
    have h4 : (eps * s + 1 / 2 ^ 140) * (203 / 100 * (ω * L) + 112 / 100 * (num d * L)) +
        s * (eps * (604 / 100 * (ω * L) + 222 / 100 * (num d * L))) =
        eps * (807 / 100 * (s * (ω * L)) + 334 / 100 * (s * (num d * L))) +
          (203 / 100 * (1 / 2 ^ 140 * (ω * L)) + 112 / 100 * (1 / 2 ^ 140 * (num d * L))) := by ring
    rw [h1]
    refine (abs_add_le _ _).trans ((add_le_add h2 h3).trans ?_)
    rw [h4]
    generalize 1 / 2 ^ 140 * (ω * L) = z1 at *
    generalize 1 / 2 ^ 140 * (num d * L) = z2 at *
    rw [heps]
    linarith
  have r6 : |s * acc| ≤ 2 * (s * (ω * L)) + 11 / 10 * (s * (num d * L)) := by
    have h1 : |acc| ≤ 2 * (ω * L) + 11 / 10 * (num d * L) := by
      rw [hacc]
      refine (abs_sub _ _).trans (add_le_add ?_ hr3)
      rw [abs_mul, abs_of_pos hM1, ← hXM]
      calc (num M)⁻¹ * |num A - num x| ≤ (num M)⁻¹ * (2 * X) := mul_le_mul_of_nonneg_left hr1 hM1.le
        _ = _ := by ring
    rw [abs_mul, abs_of_nonneg hs]
    calc s * |acc| ≤ s * (2 * (ω * L) + 11 / 10 * (num d * L)) := mul_le_mul_of_nonneg_left h1 hs
      _ = _ := by ring
  have b6 : |num σ * num a| ≤ 13 / 10 * L := (abs_of_near e6 r6).trans (by
    rw [heps]
    have : (4 : ℝ) / 2 ^ 100 * L ≤ 1 / 1000000 * L := mul_le_mul_of_nonneg_right (by norm_num) L0.le
    linarith)
  obtain ⟨f7, e7⟩ := mul_near f5 f4 (usual_of (k := 13 / 10) hS.velocity rfl (by norm_num) (by norm_num)) b6
  have b7 : |num (σ * a)| ≤ 131 / 100 * L := (abs_of_near e7 b6).trans (by rw [heps]; linarith)
  have hr8 : |num v + num (σ * a)| ≤ 241 / 100 * L := (abs_add_le _ _).trans (by linarith)
  obtain ⟨f8, e8⟩ := add_near hv f7 (usual_of (k := 241 / 100) hS.velocity rfl (by norm_num) (by norm_num)) hr8
  rw [← hv'] at f8 e8
  have b8 : |num v'| ≤ 242 / 100 * L := (abs_of_near e8 hr8).trans (by rw [heps]; linarith)
  have e8' : |num v' - (num v + s * acc)| ≤ 84 / 10 * eps * L := by
    have h1 : num v' - (num v + s * acc) =
        (num v' - (num v + num (σ * a))) + (num (σ * a) - num σ * num a) + (num σ * num a - s * acc) := by ring
    rw [h1]
    refine ((abs_add_le _ _).trans (add_le_add_left (abs_add_le _ _) _)).trans ?_
    have : (4 : ℝ) / 2 ^ 100 * L ≤ 1 / 1000000 * eps * L := mul_le_mul_of_nonneg_right (by rw [heps]; norm_num) L0.le
    rw [heps] at *
    linarith
  -- what the position gains
  have e9 : |num σ * num v' - s * num v'| ≤ 87 / 100 * eps * X := by
    rw [← sub_mul, abs_mul]
    have h1 : |num σ - s| * |num v'| ≤ (eps * s + 1 / 2 ^ 140) * (242 / 100 * L) :=
      mul_le_mul e5 b8 (abs_nonneg _) (by rw [heps]; positivity)
    have h2 : (eps * s + 1 / 2 ^ 140) * (242 / 100 * L) = 242 / 100 * eps * (s * L) + 242 / 100 * (1 / 2 ^ 140 * L) := by ring
    have h3 : (1 : ℝ) / 2 ^ 100 * X ≤ 1 / 1000000 * eps * X := mul_le_mul_of_nonneg_right (by rw [heps]; norm_num) X0.le
    rw [h2] at h1
    generalize 1 / 2 ^ 140 * L = z1 at *
    rw [heps] at *
    linarith
  have r9 : |s * num v'| ≤ 86 / 100 * X := by
    rw [abs_mul, abs_of_nonneg hs]
    calc s * |num v'| ≤ s * (242 / 100 * L) := mul_le_mul_of_nonneg_left b8 hs
      _ = 242 / 100 * (s * L) := by ring
      _ ≤ _ := by linarith
  have b9 : |num σ * num v'| ≤ 87 / 100 * X := (abs_of_near e9 r9).trans (by rw [heps]; linarith)
  obtain ⟨f10, e10⟩ := mul_near f5 f8 (usual_of (k := 87 / 100) hS.pos rfl (by norm_num) (by norm_num)) b9
  have b10 : |num (σ * v')| ≤ 88 / 100 * X := (abs_of_near e10 b9).trans (by rw [heps]; linarith)
  have hr11 : |num x + num (σ * v')| ≤ 188 / 100 * X := (abs_add_le _ _).trans (by linarith)
  obtain ⟨f11, e11⟩ := add_near hx f10 (usual_of (k := 188 / 100) hS.pos rfl (by norm_num) (by norm_num)) hr11
  rw [← hx'] at f11 e11
  refine ⟨f4, f8, f11, b4, e8', ?_⟩
  have h1 : num x' - (num x + s * num v') =
      (num x' - (num x + num (σ * v'))) + (num (σ * v') - num σ * num v') + (num σ * num v' - s * num v') := by ring
  rw [h1]
  refine ((abs_add_le _ _).trans (add_le_add_left (abs_add_le _ _) _)).trans ?_
  rw [heps] at *
  linarith

omit [Libm] in
/-- The fractions of a path of not too many steps. -/
theorem frac_near {i n : ℤ} (h1 : 1 ≤ i) (h2 : i ≤ n) (h3 : n ≤ 2 ^ 20) :
    |num ((ofInt i : Fl f32) / ofInt n) - (i : ℝ) / n| ≤ eps := by
  obtain ⟨a1, a2, a3⟩ := ofInt_spec h1 (h2.trans (h3.trans (by norm_num)))
  obtain ⟨b1, b2, b3⟩ := ofInt_spec (h1.trans h2) (h3.trans (by norm_num))
  have exact : ∀ k : ℤ, 1 ≤ k → k ≤ 2 ^ 20 → num (ofInt k : Fl f32) = k := by
    intro k k1 k2
    rw [num_ofInt]
    obtain ⟨m, rfl⟩ := Int.eq_ofNat_of_zero_le (by omega : 0 ≤ k)
    rw [Int.cast_natCast]
    refine rd_nat (f := f32) ?_
    have : m ≤ 2 ^ 20 := by exact_mod_cast k2
    exact lt_of_le_of_lt this (by decide)
  rw [num_div a1 b1 (by linarith), exact i h1 (h2.trans h3), exact n (h1.trans h2) h3]
  have hn : (0 : ℝ) < n := by exact_mod_cast (by omega : 0 < n)
  have hi : (0 : ℝ) ≤ i := by exact_mod_cast (by omega : 0 ≤ i)
  have h4 : |(i : ℝ) / n| ≤ 1 := by
    rw [abs_of_nonneg (by positivity), div_le_one hn]
    exact_mod_cast h2
  have := rd32_err (B := 1) ⟨by norm_num, by norm_num⟩ h4
  linarith

omit [Libm] in
/-- The anchors of a path. -/
theorem anchor_near {x₀ x₁ : Fl f32} (h₀ : Finite x₀) (h₁ : Finite x₁) {R : ℝ} (hR : 1 / 2 ^ 80 ≤ R ∧ R ≤ 2 ^ 110) (hx₀ : |num x₀| ≤ R)
    (hx₁ : |num x₁| ≤ R) {i n : ℤ} (h1 : 1 ≤ i) (h2 : i ≤ n) (h3 : n ≤ 2 ^ 20) {A : Fl f32}
    (hA : A = x₀ + clamp01 ((ofInt i : Fl f32) / ofInt n) * (x₁ - x₀)) :
    Finite A ∧ |num A - (num x₀ + (i : ℝ) / n * (num x₁ - num x₀))| ≤ 10 * eps * R := by
  have R0 : 0 < R := lt_of_lt_of_le (by positivity) hR.1
  have heps : eps = 1 / 16000000 := rfl
  obtain ⟨g1, g2, g3⟩ := frac_spec h1 h2 (h3.trans (by norm_num))
  have g4 := frac_near h1 h2 h3
  obtain ⟨c1, c2⟩ := (clamp01_spec ((ofInt i : Fl f32) / ofInt n)).2 g1.1
  rw [min_eq_right g3, max_eq_right g2.le] at c2
  rw [← c2] at g2 g3 g4
  generalize clamp01 ((ofInt i : Fl f32) / ofInt n) = c at *
  obtain ⟨w, hw⟩ : ∃ w, w = (i : ℝ) / n := ⟨_, rfl⟩
  rw [← hw] at g4 ⊢
  have hr1 : |num x₁ - num x₀| ≤ 2 * R := (abs_sub _ _).trans (by linarith)
  obtain ⟨f1, e1⟩ := sub_near h₁ h₀ (usual_of (k := 2) hR rfl (by norm_num) (by norm_num)) hr1
  have b1 : |num (x₁ - x₀)| ≤ 201 / 100 * R := (abs_of_near e1 hr1).trans (by rw [heps]; linarith)
  have hr2 : |num c * num (x₁ - x₀)| ≤ 201 / 100 * R := by
    rw [abs_mul, abs_of_pos g2]
    exact (mul_le_of_le_one_left (abs_nonneg _) g3).trans b1
  obtain ⟨f2, e2⟩ := mul_near c1 f1 (usual_of (k := 201 / 100) hR rfl (by norm_num) (by norm_num)) hr2
  have b2 : |num (c * (x₁ - x₀))| ≤ 202 / 100 * R := (abs_of_near e2 hr2).trans (by rw [heps]; linarith)
  have hr3 : |num x₀ + num (c * (x₁ - x₀))| ≤ 302 / 100 * R := (abs_add_le _ _).trans (by linarith)
  obtain ⟨f3, e3⟩ := add_near h₀ f2 (usual_of (k := 302 / 100) hR rfl (by norm_num) (by norm_num)) hr3
  rw [← hA] at f3 e3
  refine ⟨f3, ?_⟩
  have e4 : |num c * num (x₁ - x₀) - w * (num x₁ - num x₀)| ≤ 4 * eps * R := by
    have : num c * num (x₁ - x₀) - w * (num x₁ - num x₀) =
        num c * (num (x₁ - x₀) - (num x₁ - num x₀)) + (num c - w) * (num x₁ - num x₀) := by ring
    rw [this]
    refine (abs_add_le _ _).trans ?_
    have i1 : |num c * (num (x₁ - x₀) - (num x₁ - num x₀))| ≤ eps * (2 * R) := by
      rw [abs_mul, abs_of_pos g2]
      exact (mul_le_of_le_one_left (abs_nonneg _) g3).trans e1
    have i2 : |(num c - w) * (num x₁ - num x₀)| ≤ eps * (2 * R) := by
      rw [abs_mul]
      exact mul_le_mul g4 hr1 (abs_nonneg _) (by rw [heps]; norm_num)
    linarith
  have h4 : num A - (num x₀ + w * (num x₁ - num x₀)) =
      (num A - (num x₀ + num (c * (x₁ - x₀)))) + (num (c * (x₁ - x₀)) - num c * num (x₁ - x₀)) +
        (num c * num (x₁ - x₀) - w * (num x₁ - num x₀)) := by ring
  rw [h4]
  refine ((abs_add_le _ _).trans (add_le_add_left (abs_add_le _ _) _)).trans ?_
  rw [heps] at *
  linarith

end Fl
end Ink
