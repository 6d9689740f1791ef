import Verif.IEEE.Real
import Verif.IEEE.Libm
import Verif.Model.Utils
/-!
# Normalisation of angles on floats
-/
namespace Ink
open Scalar Arith

namespace Fl
variable [Libm]

/-- `2 * kPi` -/
noncomputable def tau : ℝ := 884279719003555 / 2 ^ 47

theorem twoPi_eq : (twoPi (Fl f32) : Fl f64) = 2 * ofRatio 884279719003555 281474976710656 := rfl

theorem finite_twoPi : Finite (twoPi (Fl f32) : Fl f64) := by
  rw [twoPi_eq]
  constructor <;> decide +kernel

theorem num_twoPi : num (twoPi (Fl f32) : Fl f64) = tau := by
  have h : key (twoPi (Fl f32) : Fl f64) = 884279719003555 * 2 ^ 1027 := by rw [twoPi_eq]; decide +kernel
  unfold num tau
  rw [h]
  change ((884279719003555 * 2 ^ 1027 : ℤ) : ℝ) / 2 ^ 1074 = _
  push_cast
  rw [show (1074 : ℕ) = 1027 + 47 from rfl, pow_add]
  field_simp

omit [Libm] in
theorem tau_bounds : 6.283185 < tau ∧ tau < 6.283186 := by unfold tau; norm_num

theorem pi_eq : (Arith.pi (Fl f32) : Fl f64) = ofRatio 884279719003555 281474976710656 := rfl

theorem finite_pi : Finite (Arith.pi (Fl f32) : Fl f64) := by
  rw [pi_eq]
  constructor <;> decide +kernel

theorem num_pi : num (Arith.pi (Fl f32) : Fl f64) = tau / 2 := by
  have h : key (Arith.pi (Fl f32) : Fl f64) = 884279719003555 * 2 ^ 1026 := by rw [pi_eq]; decide +kernel
  unfold num tau
  rw [h]
  change ((884279719003555 * 2 ^ 1026 : ℤ) : ℝ) / 2 ^ 1074 = _
  push_cast
  rw [show (1074 : ℕ) = 1026 + 48 from rfl, pow_add]
  field_simp

omit [Libm] in
/-- Every float is a double. -/
theorem rep_widen {k : ℕ} (h : f32.Rep k) : f64.Rep (k * 2 ^ 925) := by
  obtain ⟨h1, c, hc⟩ := h
  have hlt := Fmt.lt_two_pow_ulpExp (f := f32) k
  have hc' : c < 2 ^ 53 := by
    have h24 : c < 2 ^ 24 := by
      rw [pow_add] at hlt
      have : f32.p = 24 := rfl
      rw [this] at hlt
      have h0 := Nat.two_pow_pos (f32.ulpExp k)
      by_contra hcon
      push Not at hcon
      have := Nat.mul_le_mul_left (2 ^ f32.ulpExp k) hcon
      rw [← hc] at this
      rw [Nat.mul_comm] at hlt
      omega
    omega
  have he : f32.ulpExp k ≤ 253 := by
    have h2 : k < 2 ^ 277 := lt_of_le_of_lt h1 (by decide +kernel)
    unfold Fmt.ulpExp
    change k.log2 + 1 - 24 ≤ 253
    rcases Nat.eq_zero_or_pos k with rfl | h0
    · simp
    · have := (Nat.log2_lt (by omega)).2 h2
      omega
  have := Fmt.rep_small (f := f64) (k := c) (e := f32.ulpExp k + 925) hc' (by change _ ≤ 2045; omega)
  rw [hc]
  convert this using 1
  generalize f32.ulpExp k = e
  rw [pow_add]; ring

omit [Libm] in
theorem rd_widen {x : Fl f32} (h : Finite x) : rd f64 (num x) = num x := by
  obtain ⟨a, k, hk, rfl⟩ := finite_iff.1 h
  have h64 := RK_natCast (rep_widen hk)
  have e : num (fin a k hk) * 2 ^ 1074 = if a then -((k * 2 ^ 925 : ℕ) : ℝ) else ((k * 2 ^ 925 : ℕ) : ℝ) := by
    unfold num
    rw [key_fin_real]
    change (if a then -(k : ℝ) else (k : ℝ)) / 2 ^ 149 * 2 ^ 1074 = _
    rw [show (1074 : ℕ) = 149 + 925 from rfl, pow_add]
    push_cast
    split <;> field_simp
  unfold rd
  change (RK f64 (num (fin a k hk) * 2 ^ 1074) : ℝ) / 2 ^ 1074 = _
  have : (RK f64 (num (fin a k hk) * 2 ^ 1074) : ℝ) = num (fin a k hk) * 2 ^ 1074 := by
    rw [e]
    cases a
    · simp only [Bool.false_eq_true, ↓reduceIte]; rw [h64]; exact Int.cast_natCast _
    · simp only [↓reduceIte]; rw [RK_neg, h64]; push_cast; rfl
  rw [this]
  field_simp

theorem num_widen {x : Fl f32} (h : Finite x) : num (widen x : Fl f64) = num x :=
  (num_convert (g := f64) h).trans (rd_widen h)

theorem widen_not_nan {x : Fl f32} (h : isNaN x = false) : isNaN (widen x : Fl f64) = false :=
  (convert_isNaN (g := f64) x).trans h

theorem widen_nan {x : Fl f32} (h : isNaN x = true) : isNaN (widen x : Fl f64) = true :=
  (convert_isNaN (g := f64) x).trans h

omit [Libm] in
theorem huge64 : (2 : ℝ) ^ 1000 < f64.huge := two_pow_lt_huge (by decide)

omit [Libm] in
theorem num_lt_128 {x : Fl f32} (h : Finite x) : |num x| < 2 ^ 128 := by
  refine (abs_num_lt h).trans_le ?_
  unfold Fmt.huge
  rw [div_le_iff₀ (by positivity)]
  have : f32.maxMag + 1 ≤ 2 ^ 128 * 2 ^ f32.q := by decide +kernel
  exact_mod_cast this

theorem finite_widen {x : Fl f32} (h : Finite x) : Finite (widen x : Fl f64) := by
  apply finite_of_num_le (widen_not_nan h.1) (j := 128) (by decide)
  rw [num_widen h]
  exact (num_lt_128 h).le

/-- The subtraction of `2 * kPi`, rounded twice. -/
theorem num_subTwoPi {x : Fl f32} (h : Finite x) :
    isNaN (subTwoPi x) = false ∧ num (subTwoPi x) = rd f32 (rd f64 (num x - tau)) := by
  have hn := sub_not_nan (finite_widen h) finite_twoPi
  have hs := num_sub (finite_widen h) finite_twoPi
  rw [num_widen h, num_twoPi] at hs
  have hf : Finite (widen x - twoPi (Fl f32) : Fl f64) := by
    apply finite_of_num_le hn (j := 129) (by decide)
    rw [hs, abs_rd]
    rw [← rd_two_pow (f := f64) (j := 129) (by decide)]
    apply rd_mono
    have h1 := num_lt_128 h
    have h2 := tau_bounds
    rw [abs_lt] at h1
    rw [abs_le]
    constructor <;> norm_num at h1 ⊢ <;> linarith
  exact ⟨(convert_isNaN (g := f32) _).trans hn, (num_convert (g := f32) hf).trans (by rw [hs])⟩

/-- The addition of `2 * kPi`, rounded twice. -/
theorem num_addTwoPi {x : Fl f32} (h : Finite x) :
    isNaN (addTwoPi x) = false ∧ num (addTwoPi x) = rd f32 (rd f64 (num x + tau)) := by
  have hn := add_not_nan (finite_widen h) finite_twoPi
  have hs := num_add (finite_widen h) finite_twoPi
  rw [num_widen h, num_twoPi] at hs
  have hf : Finite (widen x + twoPi (Fl f32) : Fl f64) := by
    apply finite_of_num_le hn (j := 129) (by decide)
    rw [hs, abs_rd]
    rw [← rd_two_pow (f := f64) (j := 129) (by decide)]
    apply rd_mono
    have h1 := num_lt_128 h
    have h2 := tau_bounds
    rw [abs_lt] at h1
    rw [abs_le]
    constructor <;> norm_num at h1 ⊢ <;> linarith
  exact ⟨(convert_isNaN (g := f32) _).trans hn, (num_convert (g := f32) hf).trans (by rw [hs])⟩

omit [Libm] in
/-- Rounding twice a number below `2^27` changes it by little more than 4. -/
theorem rd_rd_err {r : ℝ} (h : |r| ≤ 2 ^ 27 - 1) : |rd f32 (rd f64 r) - r| ≤ 4.01 ∧ |rd f32 (rd f64 r)| ≤ 2 ^ 27 := by
  have h1 : |rd f64 r - r| ≤ 2 ^ 27 / 2 ^ 54 := rd_err (f := f64) (j := 27) (by linarith) (by decide)
  have h2 : |rd f64 r| < 2 ^ 27 := by
    have := abs_sub_abs_le_abs_sub (rd f64 r) r
    norm_num at h1 h ⊢
    linarith
  have h3 : |rd f32 (rd f64 r) - rd f64 r| ≤ 2 ^ 27 / 2 ^ 25 := rd_err (f := f32) (j := 27) h2 (by decide)
  constructor
  · have := abs_sub_le (rd f32 (rd f64 r)) (rd f64 r) r
    norm_num at h1 h3 ⊢
    linarith
  · rw [abs_rd, ← rd_two_pow (f := f32) (j := 27) (by decide)]
    exact rd_mono h2.le

omit [Libm] in
theorem finite32 {x : Fl f32} (hn : isNaN x = false) (h : |num x| ≤ 2 ^ 27) : Finite x :=
  finite_of_num_le hn (j := 27) (by decide) h

omit [Libm] in
theorem lt_zero {x : Fl f32} (h : isNaN x = false) : (x <ᵇ 0) = decide (num x < 0) := by
  rw [lt_num h finite_zero.1, num_zero]

theorem tau_lt {x : Fl f32} (h : Finite x) : (twoPi (Fl f32) <ᵇ (widen x : Fl f64)) = decide (tau < num x) := by
  rw [lt_num finite_twoPi.1 (finite_widen h).1, num_widen h, num_twoPi]

/-- `while (angle < 0) angle += 2 * kPi` ends on angles down to -2^27. -/
theorem normalizeUp_returns {x : Fl f32} (hx : Finite x) (h : -2 ^ 27 ≤ num x) :
    ∃ z, normalizeUp x = .ok z ∧ Finite z ∧ 0 ≤ num z ∧ (0 ≤ num x → z = x) ∧ (num x < 0 → num z ≤ 11) := by
  have main : ∀ (n : ℕ) (x : Fl f32), Finite x → -2 ^ 27 ≤ num x → -(2 * n : ℝ) ≤ num x →
      ∃ z, normalizeUp x = .ok z ∧ Finite z ∧ 0 ≤ num z ∧ (0 ≤ num x → z = x) ∧ (num x < 0 → num z ≤ 11) := by
    intro n
    induction n with
    | zero =>
      intro x hx h hn
      have hx0 : 0 ≤ num x := by simpa using hn
      refine ⟨x, ?_, hx, hx0, fun _ => rfl, fun h' => by linarith⟩
      rw [normalizeUp, lt_zero hx.1, if_neg (by simpa using hx0)]
    | succ n ih =>
      intro x hx h hn
      rcases le_or_gt 0 (num x) with hx0 | hx0
      · refine ⟨x, ?_, hx, hx0, fun _ => rfl, fun h' => by linarith⟩
        rw [normalizeUp, lt_zero hx.1, if_neg (by simpa using hx0)]
      · obtain ⟨g1, g2⟩ := num_addTwoPi hx
        have ht := tau_bounds
        obtain ⟨e1, e2⟩ := rd_rd_err (r := num x + tau) (by
          rw [abs_le]; constructor <;> norm_num at h ⊢ <;> linarith)
        rw [← g2] at e1 e2
        have hf := finite32 g1 e2
        rw [abs_le] at e1
        obtain ⟨z, z1, z2, z3, z4, z5⟩ := ih (addTwoPi x) hf (abs_le.1 e2).1 (by push_cast at hn; linarith)
        refine ⟨z, ?_, z2, z3, fun h' => by linarith, fun _ => ?_⟩
        · rw [normalizeUp, lt_zero hx.1, if_pos (by simpa using hx0), z1]
        · rcases le_or_gt 0 (num (addTwoPi x)) with h0 | h0
          · rw [z4 h0]; linarith
          · exact z5 h0
  exact main (2 ^ 27) x hx h (by push_cast; linarith)

/-- `while (angle > 2 * kPi) angle -= 2 * kPi` ends on angles up to 2^27. -/
theorem normalizeDown_returns {x : Fl f32} (hx : Finite x) (h0 : 0 ≤ num x) (h : num x ≤ 2 ^ 27) :
    ∃ z, normalizeDown x = .ok z ∧ Finite z ∧ 0 ≤ num z ∧ num z ≤ tau ∧ (num x ≤ tau → z = x) := by
  have main : ∀ (n : ℕ) (x : Fl f32), Finite x → 0 ≤ num x → num x ≤ 2 ^ 27 → num x ≤ 2 * n →
      ∃ z, normalizeDown x = .ok z ∧ Finite z ∧ 0 ≤ num z ∧ num z ≤ tau ∧ (num x ≤ tau → z = x) := by
    intro n
    induction n with
    | zero =>
      intro x hx h0 h hn
      have ht := tau_bounds
      have hx0 : num x ≤ tau := by simp at hn; linarith
      refine ⟨x, ?_, hx, h0, hx0, fun _ => rfl⟩
      rw [normalizeDown, tau_lt hx, if_neg (by simpa using hx0)]
    | succ n ih =>
      intro x hx h0 h hn
      rcases le_or_gt (num x) tau with hx0 | hx0
      · refine ⟨x, ?_, hx, h0, hx0, fun _ => rfl⟩
        rw [normalizeDown, tau_lt hx, if_neg (by simpa using hx0)]
      · obtain ⟨g1, g2⟩ := num_subTwoPi hx
        have ht := tau_bounds
        obtain ⟨e1, e2⟩ := rd_rd_err (r := num x - tau) (by
          rw [abs_le]; constructor <;> norm_num at h ⊢ <;> linarith)
        have g3 : 0 ≤ num (subTwoPi x) := by
          rw [g2]; exact rd_nonneg (rd_nonneg (by linarith))
        rw [← g2] at e1 e2
        have hf := finite32 g1 e2
        rw [abs_le] at e1
        obtain ⟨z, z1, z2, z3, z4, z5⟩ := ih (subTwoPi x) hf g3 (abs_le.1 e2).2 (by push_cast at hn; linarith)
        refine ⟨z, ?_, z2, z3, z4, fun h' => by linarith⟩
        rw [normalizeDown, tau_lt hx, if_pos (by simpa using hx0), z1]
  exact main (2 ^ 27) x hx h0 h (by push_cast; linarith)

omit [Libm] in
/-- `2 * kPi` is not a float. -/
theorem num_ne_tau (x : Fl f32) : num x ≠ tau := by
  intro h
  unfold num tau at h
  rw [div_eq_div_iff (by positivity) (by positivity)] at h
  change (key x : ℝ) * 2 ^ 47 = 884279719003555 * 2 ^ 149 at h
  have h' : key x * 2 ^ 47 = 884279719003555 * 2 ^ 149 := by exact_mod_cast h
  have hk : key x = ((884279719003555 * 2 ^ 102 : ℕ) : ℤ) := by push_cast; omega
  cases x with
  | nan => simp [key] at hk
  | inf a =>
    cases a
    · have : f32.maxMag + 1 ≠ 884279719003555 * 2 ^ 102 := by decide +kernel
      apply this
      have : key (inf false : Fl f32) = ((f32.maxMag + 1 : ℕ) : ℤ) := rfl
      rw [this] at hk
      exact_mod_cast hk
    · simp [key, sgn] at hk
      omega
  | fin a k hr =>
    have : ¬ f32.Rep (884279719003555 * 2 ^ 102) := by decide +kernel
    apply this
    have : k = 884279719003555 * 2 ^ 102 := by
      cases a <;> simp [key, sgn] at hk <;> omega
    rwa [this] at hr

theorem normalizeAngle_returns {x : Fl f32} (hx : Finite x) (h : |num x| ≤ 2 ^ 27) :
    ∃ z, normalizeAngle x = .ok z ∧ Finite z ∧ 0 ≤ num z ∧ num z ≤ tau ∧ (0 ≤ num x → num x ≤ tau → z = x) := by
  rw [abs_le] at h
  obtain ⟨y, y1, y2, y3, y4, y5⟩ := normalizeUp_returns hx h.1
  have hy : num y ≤ 2 ^ 27 := by
    rcases le_or_gt 0 (num x) with h0 | h0
    · rw [y4 h0]; exact h.2
    · refine (y5 h0).trans (by norm_num)
  obtain ⟨z, z1, z2, z3, z4, z5⟩ := normalizeDown_returns y2 y3 hy
  refine ⟨z, ?_, z2, z3, z4, fun h0 h1 => ?_⟩
  · unfold normalizeAngle
    rw [y1, Outcome.ok_bind, z1]
  · rw [y4 h0] at z5
    exact z5 h1

theorem normalizeAngle_nan {x : Fl f32} (hx : isNaN x = true) : normalizeAngle x = .ok x := by
  unfold normalizeAngle
  rw [normalizeUp, lt_nan_left hx, if_neg (by simp), Outcome.ok_bind, normalizeDown, lt_nan_right (widen_nan hx), if_neg (by simp)]

/-! ### larger angles -/

omit [Libm] in
theorem rne_eq {x : ℝ} {n : ℤ} (h : |x - n| < 1 / 2) : rne x = n := by
  have h1 := abs_rne_sub_le x
  rw [abs_le] at h1
  rw [abs_lt] at h
  have h2 : |(rne x : ℝ) - n| < 1 := by rw [abs_lt]; constructor <;> linarith [h1.1, h1.2]
  have h3 : |rne x - n| < 1 := by exact_mod_cast h2
  rw [abs_lt] at h3
  omega

omit [Libm] in
/-- Beyond 2^27 subtracting `2 * kPi` from a float changes nothing. -/
theorem rd_stuck {x : Fl f32} (hx : Finite x) (h : 2 ^ 27 < num x) : rd f32 (rd f64 (num x - tau)) = num x := by
  obtain ⟨a, k, hk, rfl⟩ := finite_iff.1 hx
  have ha : a = false := by
    cases a
    · rfl
    · exfalso
      unfold num at h
      rw [key_fin_real, lt_div_iff₀ (by positivity)] at h
      have : (0 : ℝ) ≤ k := by positivity
      have : (0 : ℝ) < 2 ^ 27 * 2 ^ f32.q := by positivity
      simp at h
      linarith
  subst ha
  have hnum : num (fin false k hk) = k / 2 ^ 149 := by
    unfold num; rw [key_fin_real]; simp; rfl
  rw [hnum] at h ⊢
  have hk27 : 2 ^ 176 < k := by
    rw [lt_div_iff₀ (by positivity), ← pow_add] at h
    exact_mod_cast h
  have hk0 : k ≠ 0 := by omega
  -- the binade of the angle
  obtain ⟨L, hL⟩ : ∃ L, L = k.log2 := ⟨_, rfl⟩
  have hL1 : 2 ^ L ≤ k := hL ▸ Nat.log2_self_le hk0
  have hL2 : k < 2 ^ (L + 1) := hL ▸ Fmt.log2_lt_pow k
  have hL176 : 176 ≤ L := by rw [hL, Nat.le_log2 hk0]; omega
  have hE : f32.ulpExp k = L - 23 := by unfold Fmt.ulpExp; rw [← hL]; change L + 1 - 24 = _; omega
  have hLmax : L ≤ 276 := by
    have h1 : k < 2 ^ 277 := lt_of_le_of_lt hk.1 (by decide +kernel)
    have := (Nat.log2_lt hk0).2 h1
    omega
  have hdvd : 2 ^ (L - 23) ∣ k := hE ▸ hk.2
  have hgap : 2 ^ 176 + 2 ^ 153 ≤ k := by
    obtain ⟨c, hc⟩ := (Nat.pow_dvd_pow 2 (show 153 ≤ L - 23 by omega)).trans hdvd
    have : 2 ^ 176 = 2 ^ 153 * 2 ^ 23 := by norm_num
    rw [hc, this] at hk27 ⊢
    have := Nat.lt_of_mul_lt_mul_left hk27
    calc _ = 2 ^ 153 * (2 ^ 23 + 1) := by ring
      _ ≤ _ := Nat.mul_le_mul_left _ this
  have ht := tau_bounds
  -- the difference in double
  set w : ℝ := rd f64 (k / 2 ^ 149 - tau) with hw
  have hL1R : (2 : ℝ) ^ L ≤ k := by exact_mod_cast hL1
  have hL2R : (k : ℝ) < 2 ^ (L + 1) := by exact_mod_cast hL2
  have hgapR : (2 : ℝ) ^ 176 + 2 ^ 153 ≤ k := by exact_mod_cast hgap
  obtain ⟨j, rfl⟩ : ∃ j, L = 149 + j := ⟨L - 149, by omega⟩
  have hr1 : (2 : ℝ) ^ j ≤ k / 2 ^ 149 := by rw [le_div_iff₀ (by positivity), ← pow_add, add_comm]; exact hL1R
  have hr2 : (k : ℝ) / 2 ^ 149 < 2 ^ (j + 1) := by
    rw [div_lt_iff₀ (by positivity), ← pow_add]
    rwa [show j + 1 + 149 = 149 + j + 1 by omega]
  have hj : (2 : ℝ) ^ 27 ≤ 2 ^ j := pow_le_pow_right₀ (by norm_num) (by omega)
  have hr3 : (2 : ℝ) ^ 27 + 16 ≤ k / 2 ^ 149 := by
    rw [le_div_iff₀ (by positivity)]
    calc _ = (2 : ℝ) ^ 176 + 2 ^ 153 := by norm_num
      _ ≤ _ := hgapR
  have herr : |w - (k / 2 ^ 149 - tau)| ≤ 2 ^ (j + 1) / 2 ^ 54 := by
    apply rd_err (f := f64)
    · rw [abs_lt]
      constructor
      · have : (0 : ℝ) < 2 ^ (j + 1) := by positivity
        norm_num at hr3
        linarith
      · linarith
    · change j + 1 + 1074 < 53 + 2045; omega
  have hwle : w ≤ k / 2 ^ 149 := by
    have : rd f64 (num (fin false k hk)) = num (fin false k hk) := rd_widen hx
    rw [hnum] at this
    rw [← this, hw]
    apply rd_mono
    linarith
  have hsmall : (2 : ℝ) ^ (j + 1) / 2 ^ 54 = 2 ^ j / 2 ^ 53 := by rw [pow_succ]; ring
  rw [hsmall] at herr
  -- the difference in float, in units
  set z : ℝ := w * 2 ^ 149 with hz
  have hzle : z ≤ k := by
    rw [hz]
    calc _ ≤ (k : ℝ) / 2 ^ 149 * 2 ^ 149 := by gcongr
      _ = _ := by field_simp
  have hzd : (k : ℝ) - z ≤ 6.3 * 2 ^ 149 + 2 ^ j / 2 ^ 53 * 2 ^ 149 := by
    have h1 := (abs_le.1 herr).1
    have h2 : (k : ℝ) = k / 2 ^ 149 * 2 ^ 149 := by field_simp
    rw [h2, hz, ← sub_mul, ← add_mul]
    gcongr
    linarith
  have hz176 : (2 : ℝ) ^ 176 ≤ z ∧ (2 : ℝ) ^ (149 + j - 1) ≤ z := by
    have hp : (2 : ℝ) ^ (149 + j - 1) = 2 ^ j * 2 ^ 149 / 2 := by
      rw [show 149 + j - 1 = j + 148 by omega, pow_add]; norm_num; ring
    have hk' : (2 : ℝ) ^ j * 2 ^ 149 ≤ k := by rw [← pow_add, add_comm]; exact hL1R
    have hj' : (2 : ℝ) ^ 27 * 2 ^ 149 ≤ 2 ^ j * 2 ^ 149 := by gcongr
    have e0 : (2 : ℝ) ^ j / 2 ^ 53 * 2 ^ 149 = 2 ^ j * 2 ^ 149 / 2 ^ 53 := by ring
    rw [e0] at hzd
    have hA : j < 28 → (2 : ℝ) ^ j * 2 ^ 149 = 2 ^ 27 * 2 ^ 149 := by
      intro h28
      rw [show j = 27 by omega]
    generalize (2 : ℝ) ^ j * 2 ^ 149 = A at *
    have h2 : (2 : ℝ) ^ (149 + j - 1) ≤ z := by
      rw [hp]
      norm_num at hzd hj' ⊢
      linarith
    refine ⟨?_, h2⟩
    rcases Nat.lt_or_ge j 28 with hj28 | hj28
    · have hA := hA hj28
      norm_num at hzd hgapR hA ⊢
      linarith
    · refine le_trans ?_ h2
      exact pow_le_pow_right₀ (by norm_num) (by omega)
  have hz0 : 0 ≤ z := le_trans (by positivity) hz176.1
  obtain ⟨e, he⟩ : ∃ e, e = f32.ulpExp ⌊z⌋₊ := ⟨_, rfl⟩
  have hfl1 : 2 ^ 176 ≤ ⌊z⌋₊ := Nat.le_floor (by rw [Nat.cast_pow]; exact hz176.1)
  have hfl2 : 2 ^ (149 + j - 1) ≤ ⌊z⌋₊ := Nat.le_floor (by push_cast; exact hz176.2)
  have hfl3 : ⌊z⌋₊ ≤ k := by
    have := Nat.floor_le_floor hzle
    simpa using this
  have he1 : 153 ≤ e := by
    have := Fmt.ulpExp_mono (f := f32) hfl1
    rw [← he] at this
    refine le_trans ?_ this
    unfold Fmt.ulpExp
    rw [Nat.log2_two_pow]
    decide
  have he2 : 149 + j - 24 ≤ e := by
    have := Fmt.ulpExp_mono (f := f32) hfl2
    rw [← he] at this
    refine le_trans ?_ this
    unfold Fmt.ulpExp
    rw [Nat.log2_two_pow]
    change _ ≤ 149 + j - 1 + 1 - 24
    omega
  have he3 : e ≤ 149 + j - 23 := by
    have := Fmt.ulpExp_mono (f := f32) hfl3
    rwa [← he, hE] at this
  obtain ⟨c, hc⟩ := (Nat.pow_dvd_pow 2 he3).trans hdvd
  have hround : f32.roundR z = k := by
    unfold Fmt.roundR
    rw [← he]
    have : rne (z / 2 ^ e) = (c : ℤ) := by
      apply rne_eq
      have hpe : (0 : ℝ) < 2 ^ e := by positivity
      have hcR : (k : ℝ) = 2 ^ e * c := by exact_mod_cast hc
      have e1 : z / 2 ^ e - ((c : ℤ) : ℝ) = -((k - z) / 2 ^ e) := by
        rw [hcR]; push_cast; field_simp; ring
      rw [e1, abs_neg, abs_of_nonneg (div_nonneg (by linarith) hpe.le), div_lt_iff₀ hpe]
      have hb1 : (2 : ℝ) ^ 149 ≤ 2 ^ e / 16 := by
        rw [le_div_iff₀ (by norm_num)]
        calc (2 : ℝ) ^ 149 * 16 = 2 ^ 153 := by norm_num
          _ ≤ _ := pow_le_pow_right₀ (by norm_num) he1
      have hb2 : (2 : ℝ) ^ j / 2 ^ 53 * 2 ^ 149 ≤ 2 ^ e / 2 ^ 29 := by
        have : (2 : ℝ) ^ (149 + j - 24) ≤ 2 ^ e := pow_le_pow_right₀ (by norm_num) he2
        have e2 : (2 : ℝ) ^ j * 2 ^ 149 = 2 ^ (149 + j - 24) * 2 ^ 24 := by
          rw [← pow_add, ← pow_add]; congr 1; omega
        have e3 : (2 : ℝ) ^ j / 2 ^ 53 * 2 ^ 149 = 2 ^ j * 2 ^ 149 / 2 ^ 53 := by ring
        rw [e3, e2]
        norm_num at this ⊢
        linarith
      norm_num at hzd hb1 hb2 hpe ⊢
      linarith
    rw [this, hc]
    push_cast; ring
  unfold rd
  change (RK f32 z : ℝ) / 2 ^ 149 = _
  rw [RK_of_nonneg hz0, hround, min_eq_left]
  · push_cast; rfl
  · have := hk.1
    have : (k : ℤ) ≤ f32.maxMag := by exact_mod_cast this
    omega

theorem subTwoPi_stuck {x : Fl f32} (hn : isNaN x = false) (h : 2 ^ 27 < num x) : subTwoPi x = x := by
  cases x with
  | nan => simp [isNaN] at hn
  | inf a =>
    obtain ⟨b, k, hk, ht⟩ := finite_iff.1 finite_twoPi
    unfold subTwoPi
    rw [ht]
    cases a <;> cases b <;> rfl
  | fin a k hk =>
    have hx : Finite (fin a k hk) := ⟨rfl, rfl⟩
    obtain ⟨g1, g2⟩ := num_subTwoPi hx
    rw [rd_stuck hx h] at g2
    exact ext_num (finite_of_num g1 (g2 ▸ abs_num_lt hx)) hx g2 (by rw [g2]; intro h0; rw [h0] at h; norm_num at h)

theorem addTwoPi_stuck {x : Fl f32} (hn : isNaN x = false) (h : num x < -2 ^ 27) : addTwoPi x = x := by
  cases x with
  | nan => simp [isNaN] at hn
  | inf a =>
    obtain ⟨b, k, hk, ht⟩ := finite_iff.1 finite_twoPi
    unfold addTwoPi
    rw [ht]
    cases a <;> cases b <;> rfl
  | fin a k hk =>
    have hx : Finite (fin a k hk) := ⟨rfl, rfl⟩
    obtain ⟨g1, g2⟩ := num_addTwoPi hx
    have := rd_stuck hx.neg (by rw [num_neg]; linarith)
    rw [num_neg, show -num (fin a k hk) - tau = -(num (fin a k hk) + tau) by ring, rd_neg, rd_neg, neg_inj] at this
    rw [this] at g2
    exact ext_num (finite_of_num g1 (g2 ▸ abs_num_lt hx)) hx g2 (by rw [g2]; intro h0; rw [h0] at h; norm_num at h)

theorem normalizeDown_diverges {x : Fl f32} (hn : isNaN x = false) (h : 2 ^ 27 < num x) : normalizeDown x = .diverge := by
  have hlt : (twoPi (Fl f32) <ᵇ (widen x : Fl f64)) = true := by
    have ht := tau_bounds
    cases x with
    | nan => simp [isNaN] at hn
    | inf a =>
      cases a
      · rw [twoPi_eq]
        change Fl.lt (2 * ofRatio 884279719003555 281474976710656 : Fl f64) (inf false) = true
        decide +kernel
      · exfalso
        have : num (inf true : Fl f32) < 0 := by
          unfold num
          have : key (inf true : Fl f32) < 0 := by decide +kernel
          have : (key (inf true : Fl f32) : ℝ) < 0 := by exact_mod_cast this
          exact div_neg_of_neg_of_pos this (by positivity)
        norm_num at h
        linarith
    | fin a k hk =>
      rw [tau_lt ⟨rfl, rfl⟩]
      norm_num at h
      simp only [decide_eq_true_eq]
      linarith
  have hs := subTwoPi_stuck hn h
  refine normalizeDown.fixpoint_induct (F := Fl f32) (D := Fl f64) (fun g => g x = .diverge) ?_ ?_
  · apply Lean.Order.admissible_apply (fun _ (y : Outcome (Fl f32)) => y = .diverge)
    exact Lean.Order.admissible_flatOrder (b := (Outcome.diverge : Outcome (Fl f32))) (fun y => y = .diverge) rfl
  · intro g hg
    beta_reduce
    rw [if_pos hlt, hs, hg]

theorem normalizeUp_diverges {x : Fl f32} (hn : isNaN x = false) (h : num x < -2 ^ 27) : normalizeUp x = .diverge := by
  have hlt : (x <ᵇ 0) = true := by
    rw [lt_zero hn, decide_eq_true_eq]
    norm_num at h
    linarith
  have hs := addTwoPi_stuck hn h
  refine normalizeUp.fixpoint_induct (F := Fl f32) (D := Fl f64) (fun g => g x = .diverge) ?_ ?_
  · apply Lean.Order.admissible_apply (fun _ (y : Outcome (Fl f32)) => y = .diverge)
    exact Lean.Order.admissible_flatOrder (b := (Outcome.diverge : Outcome (Fl f32))) (fun y => y = .diverge) rfl
  · intro g hg
    beta_reduce
    rw [if_pos hlt, hs, hg]

/-- NaN, or of magnitude at most 2^27. -/
def Mild (x : Fl f32) : Prop := isNaN x = true ∨ |num x| ≤ 2 ^ 27

theorem normalizeAngle_diverges {x : Fl f32} (h : ¬ Mild x) : normalizeAngle x = .diverge := by
  unfold Mild at h
  push Not at h
  obtain ⟨hn, h⟩ := h
  have hn : isNaN x = false := by simpa using hn
  unfold normalizeAngle
  rcases lt_abs.1 h with h | h
  · have : normalizeUp x = .ok x := by
      rw [normalizeUp, lt_zero hn, if_neg]
      simp only [decide_eq_true_eq, not_lt]
      exact le_trans (by positivity) h.le
    rw [this, Outcome.ok_bind, normalizeDown_diverges hn h]
  · rw [normalizeUp_diverges hn (by linarith), Outcome.diverge_bind]

omit [Libm] in
theorem Mild.finite {x : Fl f32} (h : Mild x) (hn : isNaN x = false) : Finite x ∧ |num x| ≤ 2 ^ 27 := by
  rcases h with h | h
  · rw [hn] at h; cases h
  · exact ⟨finite32 hn h, h⟩

/-- The result of normalisation: NaN, or at least 0 and below 2π. -/
theorem normalizeAngle_mild {x : Fl f32} (h : Mild x) : ∃ z, normalizeAngle x = .ok z ∧ isNaN z = isNaN x ∧
    (isNaN z = false → Finite z ∧ 0 ≤ num z ∧ num z < tau) := by
  cases hn : isNaN x with
  | true => exact ⟨x, normalizeAngle_nan hn, hn, by rw [hn]; simp⟩
  | false =>
    obtain ⟨hf, hm⟩ := h.finite hn
    obtain ⟨z, z1, z2, z3, z4, _⟩ := normalizeAngle_returns hf hm
    exact ⟨z, z1, z2.1, fun _ => ⟨z2, z3, lt_of_le_of_ne z4 (num_ne_tau z)⟩⟩

/-! ### interpolation -/

omit [Libm] in
theorem add_nan_left {f : Fmt} {x : Fl f} (y : Fl f) (h : isNaN x = true) : isNaN (x + y) = true := by
  cases x <;> simp [isNaN] at h
  rfl

omit [Libm] in
theorem add_nan_right {f : Fmt} (x : Fl f) {y : Fl f} (h : isNaN y = true) : isNaN (x + y) = true := by
  cases y <;> simp [isNaN] at h
  cases x <;> rfl

omit [Libm] in
theorem sub_nan_left {f : Fmt} {x : Fl f} (y : Fl f) (h : isNaN x = true) : isNaN (x - y) = true := add_nan_left _ h

omit [Libm] in
theorem sub_nan_right {f : Fmt} (x : Fl f) {y : Fl f} (h : isNaN y = true) : isNaN (x - y) = true :=
  by rw [sub_eq]; exact add_nan_right _ (by rw [neg_isNaN, h])

omit [Libm] in
theorem mul_nan_left {f : Fmt} {x : Fl f} (y : Fl f) (h : isNaN x = true) : isNaN (x * y) = true := by
  cases x <;> simp [isNaN] at h
  rfl

omit [Libm] in
theorem mul_nan_right {f : Fmt} (x : Fl f) {y : Fl f} (h : isNaN y = true) : isNaN (x * y) = true := by
  cases y <;> simp [isNaN] at h
  cases x <;> rfl

omit [Libm] in
/-- Clamp01 is NaN on NaN and otherwise lies in [0, 1]. -/
theorem clamp01_spec {f : Fmt} (c : Fl f) : isNaN (clamp01 c) = isNaN c ∧
    (isNaN c = false → Finite (clamp01 c) ∧ num (clamp01 c) = max 0 (min 1 (num c))) := by
  unfold clamp01 stdClamp
  cases hn : isNaN c with
  | true =>
    rw [lt_nan_left hn, lt_nan_right hn]
    simp [hn]
  | false =>
    have h1 : Finite (1 : Fl f) := finite_lit one_lt_two_pow
    rw [lt_num hn finite_zero.1, lt_num h1.1 hn, num_zero, num_one]
    simp only [decide_eq_true_eq, forall_true_left]
    split
    · rename_i h
      refine ⟨finite_zero.1, finite_zero, ?_⟩
      rw [num_zero, max_eq_left]
      exact (min_le_right _ _).trans h.le
    · rename_i h
      push Not at h
      split
      · rename_i h'
        refine ⟨h1.1, h1, ?_⟩
        rw [num_one, min_eq_left h'.le]; simp
      · rename_i h'
        push Not at h'
        refine ⟨hn, finite_of_num_le hn (j := 0) (by have := f.hq; have := f.hp; omega) ?_, ?_⟩
        · rw [abs_of_nonneg h]; simpa using h'
        · rw [min_eq_right h', max_eq_right h]

omit [Libm] in
theorem rd32_le {r : ℝ} {j : ℕ} (hj : j ≤ 27) (h : |r| ≤ 2 ^ j) : |rd f32 r| ≤ 2 ^ j := by
  rw [abs_rd, ← rd_two_pow (f := f32) (j := j) (by change j + 149 < 24 + 253; omega)]
  exact rd_mono h

theorem interp_mild {s e c : Fl f32} (hs : isNaN s = false → Finite s ∧ |num s| ≤ 32) (he : isNaN e = false → Finite e ∧ |num e| ≤ 32) :
    Mild (interp s e c) ∧ (isNaN (interp s e c) = true ↔ isNaN s = true ∨ isNaN e = true ∨ isNaN c = true) := by
  obtain ⟨c1, c2⟩ := clamp01_spec c
  unfold interp
  cases hsn : isNaN s with
  | true =>
    have := add_nan_left ((e - s) * clamp01 c) hsn
    exact ⟨.inl this, by simp [this]⟩
  | false =>
    cases hen : isNaN e with
    | true =>
      have := add_nan_right s (mul_nan_left (clamp01 c) (sub_nan_left s hen))
      exact ⟨.inl this, by simp [this]⟩
    | false =>
      cases hcn : isNaN c with
      | true =>
        have := add_nan_right s (mul_nan_right (e - s) (c1.trans hcn))
        exact ⟨.inl this, by simp [this]⟩
      | false =>
        obtain ⟨sf, sb⟩ := hs hsn
        obtain ⟨ef, eb⟩ := he hen
        obtain ⟨cf, cb⟩ := c2 hcn
        have h1 : |num (e - s)| ≤ 2 ^ 6 := by
          rw [num_sub ef sf]
          apply rd32_le (by norm_num)
          rw [abs_le] at *
          constructor <;> norm_num <;> linarith [sb.1, sb.2, eb.1, eb.2]
        have f1 := finite_of_num_le (sub_not_nan ef sf) (j := 6) (by decide) h1
        have h2 : |num ((e - s) * clamp01 c)| ≤ 2 ^ 6 := by
          rw [num_mul f1 cf]
          apply rd32_le (by norm_num)
          rw [abs_mul, cb]
          have hc0 : (0 : ℝ) ≤ max 0 (min 1 (num c)) := le_max_left _ _
          have hc1 : max 0 (min 1 (num c)) ≤ (1 : ℝ) := max_le (by norm_num) (min_le_left _ _)
          rw [abs_of_nonneg hc0]
          calc _ ≤ (2 : ℝ) ^ 6 * 1 := by gcongr
            _ = _ := by ring
        have f2 := finite_of_num_le (mul_not_nan f1 cf) (j := 6) (by decide) h2
        have h3 : |num (s + (e - s) * clamp01 c)| ≤ 2 ^ 7 := by
          rw [num_add sf f2]
          apply rd32_le (by norm_num)
          refine (abs_add_le _ _).trans ?_
          norm_num at h2 ⊢
          linarith
        have n3 := add_not_nan sf f2
        refine ⟨.inr (h3.trans (by norm_num)), ?_⟩
        rw [n3]
        simp

theorem shift_bound {x : Fl f32} (h : isNaN x = false → Finite x ∧ 0 ≤ num x ∧ num x < tau) :
    (isNaN (addTwoPi x) = isNaN x ∧ (isNaN (addTwoPi x) = false → Finite (addTwoPi x) ∧ |num (addTwoPi x)| ≤ 32)) ∧
    (isNaN (subTwoPi x) = isNaN x ∧ (isNaN (subTwoPi x) = false → Finite (subTwoPi x) ∧ |num (subTwoPi x)| ≤ 32)) := by
  cases hn : isNaN x with
  | true =>
    have h1 : isNaN (addTwoPi x) = true :=
      (convert_isNaN (g := f32) _).trans (add_nan_left (twoPi (Fl f32)) (widen_nan hn))
    have h2 : isNaN (subTwoPi x) = true :=
      (convert_isNaN (g := f32) _).trans (sub_nan_left (twoPi (Fl f32)) (widen_nan hn))
    simp [h1, h2]
  | false =>
    obtain ⟨hf, h0, h1⟩ := h hn
    have ht := tau_bounds
    obtain ⟨a1, a2⟩ := num_addTwoPi hf
    obtain ⟨b1, b2⟩ := num_subTwoPi hf
    obtain ⟨e1, e2⟩ := rd_rd_err (r := num x + tau) (by rw [abs_le]; constructor <;> norm_num <;> linarith)
    obtain ⟨e3, e4⟩ := rd_rd_err (r := num x - tau) (by rw [abs_le]; constructor <;> norm_num <;> linarith)
    rw [← a2] at e1 e2
    rw [← b2] at e3 e4
    rw [abs_le] at e1 e3
    refine ⟨⟨a1, fun _ => ⟨finite32 a1 e2, ?_⟩⟩, ⟨b1, fun _ => ⟨finite32 b1 e4, ?_⟩⟩⟩
    · rw [abs_le]; constructor <;> linarith [e1.1, e1.2]
    · rw [abs_le]; constructor <;> linarith [e3.1, e3.2]

/-- InterpAngle returns on angles of magnitude at most 2^27. -/
theorem interpAngle_mild {a b : Fl f32} (c : Fl f32) (ha : Mild a) (hb : Mild b) : ∃ z, interpAngle a b c = .ok z ∧
    (isNaN z = true ↔ isNaN a = true ∨ isNaN b = true ∨ isNaN c = true) ∧
    (isNaN z = false → Finite z ∧ 0 ≤ num z ∧ num z < tau) := by
  obtain ⟨x, x1, x2, x3⟩ := normalizeAngle_mild ha
  obtain ⟨y, y1, y2, y3⟩ := normalizeAngle_mild hb
  have ht := tau_bounds
  have hx : isNaN x = false → Finite x ∧ |num x| ≤ 32 := fun h => by
    obtain ⟨h1, h2, h3⟩ := x3 h
    refine ⟨h1, ?_⟩
    rw [abs_of_nonneg h2]; linarith
  have hy : isNaN y = false → Finite y ∧ |num y| ≤ 32 := fun h => by
    obtain ⟨h1, h2, h3⟩ := y3 h
    refine ⟨h1, ?_⟩
    rw [abs_of_nonneg h2]; linarith
  obtain ⟨s1, s2⟩ := shift_bound y3
  have key : ∀ e : Fl f32, isNaN e = isNaN y → (isNaN e = false → Finite e ∧ |num e| ≤ 32) →
      ∃ z, normalizeAngle (interp x e c) = .ok z ∧ (isNaN z = true ↔ isNaN a = true ∨ isNaN b = true ∨ isNaN c = true) ∧
        (isNaN z = false → Finite z ∧ 0 ≤ num z ∧ num z < tau) := by
    intro e he he'
    obtain ⟨i1, i2⟩ := interp_mild (c := c) hx he'
    obtain ⟨z, z1, z2, z3⟩ := normalizeAngle_mild i1
    exact ⟨z, z1, by rw [z2, i2, he, x2, y2], z3⟩
  unfold interpAngle
  simp only [x1, y1, Outcome.ok_bind]
  split
  · exact key _ s1.1 s1.2
  · split
    · exact key _ s2.1 s2.2
    · exact key _ rfl hy

theorem interpAngle_wild {a b : Fl f32} (c : Fl f32) (h : ¬ (Mild a ∧ Mild b)) : interpAngle a b c = .diverge := by
  unfold interpAngle
  by_cases ha : Mild a
  · obtain ⟨x, x1, -⟩ := normalizeAngle_mild ha
    rw [x1, Outcome.ok_bind, normalizeAngle_diverges (fun hb => h ⟨ha, hb⟩), Outcome.diverge_bind]
  · rw [normalizeAngle_diverges ha, Outcome.diverge_bind]

end Fl
end Ink
