import Verif.IEEE.Fair
import Verif.IEEE.Interp
import Verif.IEEE.Times
import Verif.IEEE.Tame
import Verif.IEEE.Rate
import Verif.IEEE.Double
import Verif.Model.Kalman
/-!
# The numbers of points of a Kalman prediction, on floats
-/
namespace Ink
open Scalar Arith
namespace Fl
noncomputable section

theorem num_mk' {f : Fmt} (n : ℕ) : num (mk' f false (n * 2 ^ f.q) 1) = rd f n := by
  unfold num rd
  rw [key_mk' _ _ _ one_pos]
  simp

theorem ceil_num {x : Fl f32} (hx : Finite x) (h0 : 0 ≤ num x) : isNaN (ceil x) = false ∧ ∃ c : ℕ, num (ceil x) = rd f32 c ∧ (c : ℝ) ≤ num x + 1 := by
  refine ⟨ceil_not_nan hx.1, ?_⟩
  obtain ⟨a, k, hk, rfl⟩ := finite_iff.1 hx
  have hq : (0 : ℝ) < 2 ^ f32.q := by positivity
  cases a
  · refine ⟨(k + (2 ^ f32.q - 1)) / 2 ^ f32.q, num_mk' _, ?_⟩
    have h1 : (((k + (2 ^ f32.q - 1)) / 2 ^ f32.q : ℕ) : ℝ) ≤ ((k + (2 ^ f32.q - 1) : ℕ) : ℝ) / (2 ^ f32.q : ℕ) := Nat.cast_div_le
    have h2 : ((k + (2 ^ f32.q - 1) : ℕ) : ℝ) ≤ k + 2 ^ f32.q := by
      have : k + (2 ^ f32.q - 1) ≤ k + 2 ^ f32.q := Nat.add_le_add_left (Nat.sub_le _ _) _
      exact_mod_cast this
    refine h1.trans ?_
    change _ ≤ ((k : ℤ) : ℝ) / 2 ^ f32.q + 1
    rw [Nat.cast_pow, Nat.cast_ofNat, Int.cast_natCast, div_add_one hq.ne']
    exact div_le_div_of_nonneg_right h2 hq.le
  · have h0' : 0 ≤ ((-(k : ℤ) : ℤ) : ℝ) / 2 ^ f32.q := h0
    have : k = 0 := by
      rw [le_div_iff₀ hq, zero_mul] at h0'
      have : 0 ≤ -(k : ℤ) := by exact_mod_cast h0'
      omega
    subst this
    refine ⟨0, ?_, by rw [Nat.cast_zero]; linarith⟩
    unfold num
    change (key (mk' f32 true (0 / 2 ^ f32.q * 2 ^ f32.q) 1) : ℝ) / _ = _
    rw [key_mk' _ _ _ one_pos]
    simp [RK_zero, rd_zero]

theorem toInt_num {x : Fl f32} (hx : Finite x) (h0 : 0 ≤ num x) (h1 : num x ≤ 2 ^ 30) : ∃ n : ℤ, toInt x = .ok n ∧ 0 ≤ n ∧ (n : ℝ) ≤ num x := by
  obtain ⟨a, k, hk, rfl⟩ := finite_iff.1 hx
  have hq : (0 : ℝ) < 2 ^ f32.q := by positivity
  have key : ∀ (n : ℕ) (z : ℤ), z = n → (n : ℝ) ≤ num (fin a k hk) → Scalar.trunc? (fin a k hk : Fl f32) = some z →
      ∃ n : ℤ, toInt (fin a k hk : Fl f32) = .ok n ∧ 0 ≤ n ∧ (n : ℝ) ≤ num (fin a k hk) := by
    rintro n z rfl hn ht
    have : n ≤ 2 ^ 30 := by exact_mod_cast hn.trans h1
    refine ⟨n, ?_, by omega, by simpa using hn⟩
    unfold toInt
    rw [ht]
    exact if_pos (by unfold intMax; omega)
  cases a
  · refine key (k / 2 ^ f32.q) _ rfl ?_ rfl
    have := Nat.cast_div_le (α := ℝ) (m := k) (n := 2 ^ f32.q)
    refine this.trans (le_of_eq ?_)
    rw [Nat.cast_pow, Nat.cast_ofNat]
    rfl
  · have h0' : 0 ≤ ((-(k : ℤ) : ℤ) : ℝ) / 2 ^ f32.q := h0
    have : k = 0 := by
      rw [le_div_iff₀ hq, zero_mul] at h0'
      have : 0 ≤ -(k : ℤ) := by exact_mod_cast h0'
      omega
    subst this
    exact key 0 _ (by simp [sgn]) (by simpa using h0) rfl

theorem ceil_count {x : Fl f32} (hx : Finite x) (h0 : 0 ≤ num x) {X : ℝ} (hX : 1 ≤ X ∧ X ≤ 2 ^ 28) (h1 : num x ≤ X) :
    Finite (ceil x) ∧ 0 ≤ num (ceil x) ∧ num (ceil x) ≤ 2 * X + 1 := by
  obtain ⟨c1, c, c2, c3⟩ := ceil_num hx h0
  have hc : (0 : ℝ) ≤ c := Nat.cast_nonneg _
  have hle : num (ceil x) ≤ 2 * X + 1 := by
    have hB : Usual (X + 1) := ⟨by norm_num; linarith, by norm_num; linarith⟩
    have := rd32_err hB (r := c) (by rw [abs_of_nonneg hc]; linarith)
    rw [abs_le] at this
    rw [c2]
    unfold eps at this
    linarith
  have h0 : 0 ≤ num (ceil x) := by rw [c2]; exact rd_nonneg hc
  exact ⟨finite_of_num_le (j := 30) c1 (by decide) (by rw [abs_of_nonneg h0]; norm_num at *; linarith), h0, hle⟩

/-- The points of the connector. -/
theorem count_one {x : Fl f32} (hx : Finite x) (h0 : 0 ≤ num x) {X : ℝ} (hX : 1 ≤ X ∧ X ≤ 2 ^ 28) (h1 : num x ≤ X) :
    ∃ n : ℤ, toInt (fmax (ceil x) 1) = .ok n ∧ 0 ≤ n ∧ (n : ℝ) ≤ 2 * X + 1 := by
  obtain ⟨f, c0, c1⟩ := ceil_count hx h0 hX h1
  have key : ∀ y : Fl f32, Finite y → 0 ≤ num y → num y ≤ 2 * X + 1 → ∃ n : ℤ, toInt y = .ok n ∧ 0 ≤ n ∧ (n : ℝ) ≤ 2 * X + 1 := by
    intro y hy y0 y1
    obtain ⟨n, h1, h2, h3⟩ := toInt_num hy y0 (by norm_num at *; linarith)
    exact ⟨n, h1, h2, h3.trans y1⟩
  unfold fmax
  split_ifs
  · exact key _ (finite_lit one_lt_two_pow) (by rw [num_one]; norm_num) (by rw [num_one]; linarith)
  · exact key _ f c0 c1
  · exact key _ (finite_lit one_lt_two_pow) (by rw [num_one]; norm_num) (by rw [num_one]; linarith)
  · exact key _ f c0 c1

/-- A number between 0 and `u`, or NaN. -/
def Part (u : ℝ) (x : Fl f32) : Prop := isNaN x = false → Within u x

/-- The points beyond the estimate. -/
theorem count_zero {x : Fl f32} {X : ℝ} (hx : Part X x) (hX : 1 ≤ X ∧ X ≤ 2 ^ 28) :
    ∃ n : ℤ, toInt (fmax 0 (ceil x)) = .ok n ∧ 0 ≤ n ∧ (n : ℝ) ≤ 2 * X + 1 := by
  have key : ∀ y : Fl f32, Finite y → 0 ≤ num y → num y ≤ 2 * X + 1 → ∃ n : ℤ, toInt y = .ok n ∧ 0 ≤ n ∧ (n : ℝ) ≤ 2 * X + 1 := by
    intro y hy y0 y1
    obtain ⟨n, h1, h2, h3⟩ := toInt_num hy y0 (by norm_num at *; linarith)
    exact ⟨n, h1, h2, h3.trans y1⟩
  have zero := key 0 finite_zero (by rw [num_zero]) (by rw [num_zero]; linarith)
  unfold fmax
  split_ifs with h1 h2 h3
  · exact absurd h1 (by decide +kernel)
  · exact zero
  · have hn : isNaN x = false := by
      cases x <;> first | rfl | exact absurd rfl h2
    obtain ⟨w1, w2, w3⟩ := hx hn
    obtain ⟨f, c0, c1⟩ := ceil_count w1 w2 hX w3
    exact key _ f c0 c1
  · exact zero

theorem Part.mul {x y : Fl f32} {u : ℝ} (hx : Part u x) (hy : Part 1 y) (hu : u ≤ 2 ^ 100) (hr : ∀ r, r ≤ u → rd f32 r ≤ u) : Part u (x * y) := by
  intro hn
  by_cases h1 : isNaN x = true
  · exact absurd hn (by cases x <;> first | (cases y <;> simp [isNaN] <;> rfl) | simp [isNaN] at h1)
  by_cases h2 : isNaN y = true
  · exact absurd hn (by cases y <;> first | (cases x <;> simp [isNaN] <;> rfl) | simp [isNaN] at h2)
  obtain ⟨x1, x2, x3⟩ := hx (by simpa using h1)
  obtain ⟨y1, y2, y3⟩ := hy (by simpa using h2)
  have e := num_mul x1 y1
  have h0 : 0 ≤ num (x * y) := by rw [e]; exact rd_nonneg (mul_nonneg x2 y2)
  have hle : num (x * y) ≤ u := by rw [e]; exact hr _ ((mul_le_of_le_one_right x2 y3).trans x3)
  exact ⟨finite_of_num_le (j := 100) hn (by decide) (by rw [abs_of_nonneg h0]; linarith), h0, hle⟩

theorem rd_one_le (r : ℝ) (h : r ≤ 1) : rd f32 r ≤ 1 := rd_top_one (by linarith [show (0 : ℝ) < 1 / 2 ^ 25 by norm_num])

theorem part_clamp (x : Fl f32) : Part 1 (clamp01 x) := by
  intro hn
  have hx : isNaN x = false := by
    by_contra h
    cases x <;> simp [isNaN] at h
    exact absurd hn (by decide +kernel)
  obtain ⟨c1, c2⟩ := (clamp01_spec x).2 hx
  exact ⟨c1, by rw [c2]; exact le_max_left _ _, by rw [c2]; exact max_le zero_le_one (min_le_left _ _)⟩

theorem within_one : Within 1 (1 : Fl f32) := ⟨finite_lit one_lt_two_pow, by rw [num_one]; norm_num, by rw [num_one]⟩
theorem within_zero : Within 1 (0 : Fl f32) := ⟨finite_zero, by rw [num_zero], by rw [num_zero]; norm_num⟩

theorem part_normalize (a b v : Fl f32) : Part 1 (normalize01 a b v) := by
  unfold normalize01
  split_ifs
  · exact fun _ => within_one
  · exact fun _ => within_zero
  · exact part_clamp _

theorem Part.flip {x : Fl f32} (h : Part 1 x) : Part 1 (1 - x) := by
  intro hn
  by_cases h1 : isNaN x = true
  · exact absurd hn (by cases x <;> first | (simp [isNaN] at h1; done) | decide +kernel)
  obtain ⟨x1, x2, x3⟩ := h (by simpa using h1)
  have e := num_sub (finite_lit (f := f32) one_lt_two_pow) x1
  have e : num (1 - x) = rd f32 (1 - num x) := by rw [← num_one (f := f32)]; exact e
  have h0 : 0 ≤ num (1 - x) := by rw [e]; exact rd_nonneg (by linarith)
  have hle : num (1 - x) ≤ 1 := by rw [e]; exact rd_one_le _ (by linarith)
  exact ⟨finite_of_num_le (j := 1) hn (by decide) (by rw [abs_of_nonneg h0]; linarith), h0, hle⟩

theorem part_interp {a c : Fl f32} (ha : Part 1 a) : Part 1 (interp a 1 c) := by
  intro hn
  have hc : isNaN c = false := by
    by_contra h
    have : c = nan := by cases c <;> simp [isNaN] at h ⊢
    subst this
    have e : clamp01 (nan : Fl f32) = nan := by decide +kernel
    unfold interp at hn
    rw [e] at hn
    generalize (1 : Fl f32) - a = d at hn
    have : d * (nan : Fl f32) = nan := by cases d <;> rfl
    rw [this] at hn
    cases a <;> cases hn
  have ha' : isNaN a = false := by
    by_contra h
    have : a = nan := by cases a <;> simp [isNaN] at h ⊢
    subst this
    unfold interp at hn
    generalize ((1 : Fl f32) - nan) * clamp01 c = d at hn
    cases d <;> cases hn
  have := interp_within (j := 0) (.inl rfl) (a := a) (b := 1) (c := c) (by simpa using ha ha') (by simpa using within_one) hc
  simpa using this

theorem div_inf {d : Fl f32} (hd : Finite d) (a : Bool) : num (d / inf a) = 0 ∧ Finite (d / inf a) := by
  obtain ⟨b, k, hk, rfl⟩ := finite_iff.1 hd
  refine ⟨?_, rfl, rfl⟩
  unfold num
  have : Fl.key ((fin b k hk : Fl f32) / inf a) = 0 := by
    change Fl.key (fin _ 0 _ : Fl f32) = 0
    cases a <;> cases b <;> rfl
  rw [this]
  simp

/-- A quotient of a distance and a speed that is not NaN. -/
theorem quotient {d v c : Fl f32} (hd : Finite d) (d0 : 0 ≤ num d) (hv : isNaN v = false) (hc : Finite c) (c0 : 0 < num c) {B : ℝ}
    (hB : Usual B) (h : num d / num c ≤ B) : Finite (d / stdMax v c) ∧ 0 ≤ num (d / stdMax v c) ∧ num (d / stdMax v c) ≤ (1 + eps) * B := by
  have key : ∀ w : Fl f32, Finite w → num c ≤ num w → Finite (d / w) ∧ 0 ≤ num (d / w) ∧ num (d / w) ≤ (1 + eps) * B := by
    intro w hw hcw
    have w0 : 0 < num w := lt_of_lt_of_le c0 hcw
    have h1 : num d / num w ≤ B := (div_le_div_of_nonneg_left d0 c0 hcw).trans h
    have h2 : 0 ≤ num d / num w := div_nonneg d0 w0.le
    obtain ⟨f, e⟩ := div_near hd hw w0.ne' hB (by rwa [abs_of_nonneg h2])
    refine ⟨f, ?_, ?_⟩
    · rw [num_div hd hw w0.ne']; exact rd_nonneg h2
    · rw [abs_le] at e; linarith [e.2]
  unfold stdMax
  rw [lt_num hv hc.1]
  split_ifs with hlt
  · exact key c hc le_rfl
  · simp only [decide_eq_true_eq, not_lt] at hlt
    cases v with
    | nan => simp [isNaN] at hv
    | fin a k hk => exact key _ (finite_fin _ _ _) hlt
    | inf a =>
      have hz := div_inf hd a
      refine ⟨hz.2, by rw [hz.1], ?_⟩
      rw [hz.1]
      have := hB.pos
      unfold eps
      linarith

theorem sample_dt {rate : Fl f64} (hr : Finite rate) (hr1 : 1 ≤ num rate ∧ num rate ≤ 2 ^ 60) :
    Finite (1 / rate) ∧ 0.999 / num rate ≤ num (1 / rate) ∧ num (1 / rate) ≤ 1.001 / num rate := by
  have hr0 : 0 < num rate := by linarith [hr1.1]
  have hA : Decent (1 / num rate) := ⟨by
    refine le_trans ?_ (one_div_le_one_div_of_le hr0 hr1.2)
    norm_num, by
    refine (one_div_le_one_div_of_le one_pos hr1.1).trans ?_
    norm_num⟩
  have e : num (1 / rate) = rd f64 (1 / num rate) := by
    have := num_div (finite_lit (f := f64) (n := 1) one_lt_two_pow) hr hr0.ne'
    rwa [num_one] at this
  have h1 := rdA hA (r := 1 / num rate) (by rw [abs_of_pos hA.pos]; linarith [hA.pos])
  rw [← e, abs_le] at h1
  have hp := hA.pos
  have g1 : 0.999 / num rate ≤ num (1 / rate) := by
    rw [show (0.999 : ℝ) / num rate = 0.999 * (1 / num rate) by ring]
    linarith [h1.1]
  have g2 : num (1 / rate) ≤ 1.001 / num rate := by
    rw [show (1.001 : ℝ) / num rate = 1.001 * (1 / num rate) by ring]
    linarith [h1.2]
  have g3 : 1 / num rate ≤ 1 := by rw [div_le_one hr0]; exact hr1.1
  have hk : Fl.key rate ≠ 0 := by intro hk; apply hr0.ne'; simp [num, hk]
  refine ⟨finite_of_num_le (j := 1) (div_not_nan (finite_lit (f := f64) (n := 1) one_lt_two_pow) hr hk) (by decide) ?_, g1, g2⟩
  rw [abs_le]
  have : (1.001 : ℝ) / num rate ≤ 1.001 := by rw [div_le_iff₀ hr0]; linarith [hr1.1]
  have : (0 : ℝ) < 0.999 / num rate := by positivity
  constructor <;> linarith

variable [Libm]

/-- Rounding a double of moderate size to single precision. -/
theorem narrow_size {x : Fl f64} (hx : Finite x) (h0 : 0 ≤ num x) {B : ℝ} (hB : Usual B) (h : num x ≤ B) :
    Finite (narrow x : Fl f32) ∧ 0 ≤ num (narrow x : Fl f32) ∧ num (narrow x : Fl f32) ≤ (1 + eps) * B := by
  have e : num (narrow x : Fl f32) = rd f32 (num x) := num_convert hx
  have hab : |num x| ≤ B := by rwa [abs_of_nonneg h0]
  have h1 := rd32_err hB hab
  refine ⟨finite_of_num_le (j := 126) (by rw [show (narrow x : Fl f32) = convert f32 x from rfl, convert_isNaN]; exact hx.1) (by decide)
    (by rw [e]; exact rd32_small hB hab), by rw [e]; exact rd_nonneg h0, ?_⟩
  rw [e]
  rw [abs_le] at h1
  linarith [h1.2]

/-- How many points the connector has. -/
theorem connector_count {last : TipState (Fl f32) (Fl f64)} {est : KalmanState (Fl f32)} {k : KalmanParams (Fl f32) (Fl f64)} {rate : Fl f64} {D : ℝ}
    (hd : Finite (distance last.position est.position)) (d0 : 0 ≤ num (distance last.position est.position))
    (hD : num (distance last.position est.position) ≤ D) (hv : isNaN last.velocity.magnitude = false) (hc : Finite k.minCatchupVelocity)
    (c0 : 0 < num k.minCatchupVelocity) (hr : Finite rate) (hr1 : 1 ≤ num rate ∧ num rate ≤ 2 ^ 60)
    (hX : D / num k.minCatchupVelocity * num rate ≤ 2 ^ 27) :
    ∃ n : ℤ, KalmanPredictor.connectorPoints last est k (1 / rate) = .ok n ∧ 0 ≤ n ∧ (n : ℝ) ≤ 3 * (D / num k.minCatchupVelocity * num rate) + 4 := by
  unfold KalmanPredictor.connectorPoints
  dsimp only
  generalize distance last.position est.position = d at hd d0 hD
  have hr0 : 0 < num rate := by linarith [hr1.1]
  obtain ⟨d', hd', f1, f2, f3⟩ : ∃ d', stdMin d maxFinite = d' ∧ Finite d' ∧ 0 ≤ num d' ∧ num d' ≤ D := by
    unfold stdMin
    have hm : Finite (maxFinite : Fl f32) := ⟨rfl, rfl⟩
    split_ifs with h
    · rw [lt_num hm.1 hd.1, decide_eq_true_eq] at h
      refine ⟨_, rfl, hm, ?_, h.le.trans hD⟩
      unfold num
      have h0 : (0 : ℤ) ≤ Fl.key (fin false f32.maxMag (by decide +kernel) : Fl f32) := by decide +kernel
      exact div_nonneg (Int.cast_nonneg h0) (by positivity)
    · exact ⟨_, rfl, hd, d0, hD⟩
  rw [hd']
  obtain ⟨v, hv', hvn⟩ : ∃ v, stdMax last.velocity.magnitude est.velocity.magnitude = v ∧ isNaN v = false := by
    unfold stdMax
    split_ifs with h
    · exact ⟨_, rfl, (lt_iff.1 h).2.1⟩
    · exact ⟨_, rfl, hv⟩
  rw [hv']
  have hD0 : 0 ≤ D := f2.trans f3
  set X := D / num k.minCatchupVelocity * num rate with hXdef
  have hX0 : 0 ≤ X := by positivity
  have hB : Usual ((X + 1) / num rate) := by
    have hlow : 1 / num rate ≤ (X + 1) / num rate := div_le_div_of_nonneg_right (by linarith) hr0.le
    have h60 := one_div_le_one_div_of_le hr0 hr1.2
    have hup : (X + 1) / num rate ≤ X + 1 := div_le_self (by linarith) hr1.1
    constructor
    · refine le_trans ?_ (h60.trans hlow)
      norm_num
    · refine hup.trans ?_
      norm_num at hX ⊢
      linarith
  have hq := quotient f1 f2 hvn hc c0 hB (by
    refine (div_le_div_of_nonneg_right f3 c0.le).trans ?_
    rw [le_div_iff₀ hr0, ← hXdef]
    linarith)
  obtain ⟨q1, q2, q3⟩ := hq
  generalize d' / stdMax v k.minCatchupVelocity = q at q1 q2 q3
  obtain ⟨t1, t2, t3⟩ := sample_dt hr hr1
  have ht0 : 0 < num (1 / rate) := lt_of_lt_of_le (by positivity) t2
  have hw := finite_widen q1
  have e := num_div hw t1 ht0.ne'
  rw [num_widen q1] at e
  have h1 : num q / num (1 / rate) ≤ 1.01 * (X + 1) := by
    rw [div_le_iff₀ ht0]
    refine q3.trans ?_
    have : 1.01 * (X + 1) * (0.999 / num rate) ≤ 1.01 * (X + 1) * num (1 / rate) := mul_le_mul_of_nonneg_left t2 (by linarith)
    refine le_trans ?_ this
    rw [show 1.01 * (X + 1) * (0.999 / num rate) = 1.01 * 0.999 * ((X + 1) / num rate) by ring]
    refine mul_le_mul_of_nonneg_right ?_ hB.pos.le
    unfold eps
    norm_num
  have h0 : 0 ≤ num q / num (1 / rate) := div_nonneg q2 ht0.le
  have hA : Decent (X + 1) := ⟨by norm_num; linarith, by norm_num at hX ⊢; linarith⟩
  have e2 := rdA hA (r := num q / num (1 / rate)) (by rw [abs_of_nonneg h0]; linarith)
  rw [← e, abs_le] at e2
  have h2 : num ((widen q : Fl f64) / (1 / rate)) ≤ 1.02 * (X + 1) := by linarith [e2.2]
  have h3 : 0 ≤ num ((widen q : Fl f64) / (1 / rate)) := by rw [e]; exact rd_nonneg h0
  have hk : Fl.key (1 / rate) ≠ 0 := by intro hk; apply ht0.ne'; simp [num, hk]
  have hf : Finite ((widen q : Fl f64) / (1 / rate)) :=
    finite_of_num_le (j := 30) (div_not_nan hw t1 hk) (by decide) (by rw [abs_of_nonneg h3]; norm_num at hX ⊢; linarith)
  obtain ⟨n1, n2, n3⟩ := narrow_size hf h3 (B := 1.02 * (X + 1)) ⟨by norm_num; linarith, by norm_num at hX ⊢; linarith⟩ h2
  obtain ⟨n, g1, g2, g3⟩ := count_one n1 n2 (X := 1.03 * (X + 1)) ⟨by linarith, by norm_num at hX ⊢; linarith⟩ (by
    refine n3.trans ?_
    unfold eps
    linarith)
  refine ⟨n, g1, g2, g3.trans ?_⟩
  linarith

/-- How many points lie beyond the estimate. -/
theorem beyond_count {q : KalmanPredictor (Fl f32) (Fl f64)} {est : KalmanState (Fl f32)} {x : Vec2 (Fl f32)} (hx : q.lastPositionReceived = some x)
    (hi : Finite q.params.predictionInterval) (i0 : 0 < num q.params.predictionInterval) (hr : Finite q.sampling.minOutputRate)
    (hr1 : 1 ≤ num q.sampling.minOutputRate ∧ num q.sampling.minOutputRate ≤ 2 ^ 60)
    (hY : num q.params.predictionInterval * num q.sampling.minOutputRate ≤ 2 ^ 27)
    (hn : 1 ≤ q.xPredictor.iterNum ∧ q.xPredictor.iterNum ≤ 2147483647) (hd : 1 ≤ q.params.confidence.desiredNumberOfSamples)
    (hl : Part 1 q.params.confidence.baselineLinearityConfidence) :
    ∃ n : ℤ, q.numberOfPointsToPredict est = .ok n ∧ 0 ≤ n ∧
      (n : ℝ) ≤ 3 * (num q.params.predictionInterval * num q.sampling.minOutputRate) + 4 := by
  have hr0 : 0 < num q.sampling.minOutputRate := by linarith [hr1.1]
  unfold KalmanPredictor.numberOfPointsToPredict
  rw [hx]
  dsimp only
  set Y := num q.params.predictionInterval * num q.sampling.minOutputRate with hYdef
  have hY0 : 0 < Y := by positivity
  have hA : Decent (Y + 1) := ⟨by norm_num; linarith, by norm_num at hY ⊢; linarith⟩
  have e := num_mul hi hr
  have e2 := rdA hA (r := Y) (by rw [abs_of_pos hY0]; linarith)
  rw [hYdef, ← e, abs_le] at e2
  rw [← hYdef] at e2
  have h0 : 0 ≤ num (q.params.predictionInterval * q.sampling.minOutputRate) := by rw [e]; exact rd_nonneg hY0.le
  have h1 : num (q.params.predictionInterval * q.sampling.minOutputRate) ≤ 1.02 * (Y + 1) := by linarith [e2.2]
  have hf : Finite (q.params.predictionInterval * q.sampling.minOutputRate) :=
    finite_of_num_le (j := 30) (mul_not_nan hi hr) (by decide) (by rw [abs_of_nonneg h0]; norm_num at hY ⊢; linarith)
  obtain ⟨n1, n2, n3⟩ := narrow_size hf h0 (B := 1.02 * (Y + 1)) ⟨by norm_num; linarith, by norm_num at hY ⊢; linarith⟩ h1
  have n3 : num (narrow (q.params.predictionInterval * q.sampling.minOutputRate) : Fl f32) ≤ 1.03 * (Y + 1) := by
    refine n3.trans ?_
    unfold eps
    linarith
  generalize (narrow (q.params.predictionInterval * q.sampling.minOutputRate) : Fl f32) = t at n1 n2 n3
  have c1 : Part 1 (q.confidence x est).sampleRatio := by
    intro hnn
    change isNaN (stdMin _ _) = false at hnn
    change Within 1 (stdMin _ _)
    unfold stdMin at hnn ⊢
    split_ifs at hnn ⊢ with hlt
    · obtain ⟨a1, a2, -⟩ := ofInt_spec hn.1 hn.2
      have hlt' := (lt_iff.1 hlt).2.2
      have hlt2 : num ((Scalar.ofInt q.xPredictor.iterNum : Fl f32) / Scalar.ofInt q.params.confidence.desiredNumberOfSamples) < 1 := by
        rw [← num_one (f := f32), num_lt]; exact hlt'
      have hge : 0 ≤ num ((Scalar.ofInt q.xPredictor.iterNum : Fl f32) / Scalar.ofInt q.params.confidence.desiredNumberOfSamples) := by
        have b0 : isNaN (Scalar.ofInt q.params.confidence.desiredNumberOfSamples : Fl f32) = false := ofInt_not_nan _
        have b1 : 1 ≤ num (Scalar.ofInt q.params.confidence.desiredNumberOfSamples : Fl f32) := by
          change 1 ≤ num (ofInt q.params.confidence.desiredNumberOfSamples : Fl f32)
          rw [num_ofInt]
          have := rd_mono (f := f32) (r := ((1 : ℕ) : ℝ)) (s := (q.params.confidence.desiredNumberOfSamples : ℝ)) (by exact_mod_cast hd)
          rwa [rd_nat (by decide), Nat.cast_one] at this
        generalize (Scalar.ofInt q.params.confidence.desiredNumberOfSamples : Fl f32) = b at b0 b1
        cases b with
        | nan => simp [isNaN] at b0
        | inf a => exact (div_inf a1 a).1.ge
        | fin a k hk =>
          have := num_div a1 (finite_fin a k hk) (by linarith)
          refine le_of_le_of_eq ?_ this.symm
          exact rd_nonneg (div_nonneg (by linarith) (by linarith))
      exact ⟨finite_of_num_le (j := 1) hnn (by decide) (by rw [abs_of_nonneg hge]; linarith), hge, hlt2.le⟩
    · exact within_one
  have c2 : Part 1 (q.confidence x est).normalizedError := (part_normalize _ _ _).flip
  have c3 : Part 1 (q.confidence x est).normalizedDistance := part_normalize _ _ _
  have c4 : Part 1 (q.confidence x est).linearity := part_interp hl
  have one : (1 : ℝ) ≤ 2 ^ 100 := by norm_num
  have c := ((c1.mul c2 one rd_one_le).mul c3 one rd_one_le).mul c4 one rd_one_le
  have ht : Part (num t) t := fun _ => ⟨n1, n2, le_rfl⟩
  have := ht.mul c (by norm_num at hY ⊢; linarith) (fun r hr => by rw [← rd_num n1]; exact rd_mono hr)
  obtain ⟨n, g1, g2, g3⟩ := count_zero (X := 1.03 * (Y + 1)) (fun hn => ⟨(this hn).finite, (this hn).low, (this hn).high.trans n3⟩)
    ⟨by linarith, by norm_num at hY ⊢; linarith⟩
  exact ⟨n, g1, g2, g3.trans (by linarith)⟩

end
end Fl
end Ink
