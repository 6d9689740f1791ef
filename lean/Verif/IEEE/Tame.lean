import Verif.IEEE.Angle
import Verif.Lemmas.Total
import Verif.Props.Turn
/-!
# What calls need in order to return, on IEEE floats
-/
namespace Ink
open Scalar Arith

namespace Fl
variable [Libm]

/-- NaN, or at most 2^27. -/
def Tidy (o : Fl f32) : Prop := isNaN o = true ∨ num o ≤ 2 ^ 27

omit [Libm] in
theorem tidy_iff {o : Fl f32} : Tidy o ↔ ∀ r, val o = some r → r ≤ ((2 ^ 27 : ℝ) : EReal) := by
  have hh : (2 : ℝ) ^ 27 < f32.huge := two_pow_lt_huge (by decide)
  have hi : num (inf false : Fl f32) = f32.huge := by
    unfold num Fmt.huge; simp [key, sgn]
  have hi' : num (inf true : Fl f32) = -f32.huge := by
    unfold num Fmt.huge; simp [key, sgn]; ring
  cases o with
  | nan => simp [Tidy, isNaN, val]
  | inf a =>
    cases a
    · simp only [Tidy, isNaN, hi, val, Bool.false_eq_true, ↓reduceIte, Option.some.injEq, forall_eq', false_or, top_le_iff,
        EReal.coe_ne_top, iff_false, not_le]
      exact hh
    · simp only [Tidy, isNaN, hi', val, ↓reduceIte, Option.some.injEq, forall_eq', bot_le, iff_true]
      right
      have : (0 : ℝ) < 2 ^ 27 := by positivity
      linarith
  | fin a k h =>
    have : val (fin a k h) = _ := val_num ⟨rfl, rfl⟩
    rw [this]
    simp only [Tidy, isNaN, Bool.false_eq_true, Option.some.injEq, forall_eq', EReal.coe_le_coe_iff, false_or]

theorem angle_tame {a b : Fl f32} (c : Fl f32) (ha : Tidy a) (hb : Tidy b) (ha0 : (a <ᵇ 0) = false) (hb0 : (b <ᵇ 0) = false) :
    ∃ z, interpAngle a b c = .ok z ∧ Tidy z := by
  have mild : ∀ {a : Fl f32}, Tidy a → (a <ᵇ 0) = false → Mild a := by
    intro a ha ha0
    rcases ha with ha | ha
    · exact .inl ha
    · cases hn : isNaN a with
      | true => exact .inl hn
      | false =>
        right
        rw [lt_zero hn] at ha0
        rw [abs_of_nonneg (by simpa using ha0)]
        exact ha
  obtain ⟨z, z1, -, z3⟩ := interpAngle_mild c (mild ha ha0) (mild hb hb0)
  refine ⟨z, z1, ?_⟩
  cases hn : isNaN z with
  | true => exact .inl hn
  | false =>
    right
    have := tau_bounds
    exact ((z3 hn).2.2.le.trans this.2.le).trans (by norm_num)

omit [Libm] in
theorem evict_tame {t s : Fl f64} (ht : isFinite t = true) (hs : isFinite s = true) (h0 : (s <ᵇ 0) = false) :
    (t <ᵇ t - s) = false := by
  have ht := finite_of_isFinite ht
  have hs := finite_of_isFinite hs
  rw [lt_num hs.1 finite_zero.1, num_zero] at h0
  have h0 : 0 ≤ num s := by simpa using h0
  rw [lt_num ht.1 (sub_not_nan ht hs), num_sub ht hs, decide_eq_false_iff_not, not_lt]
  calc _ ≤ rd f64 (num t) := rd_mono (by linarith)
    _ = _ := rd_num ht

omit [Libm] in
theorem ceil_not_nan {f : Fmt} {x : Fl f} (h : isNaN x = false) : isNaN (ceil x) = false := by
  cases x with
  | nan => exact h
  | inf a => rfl
  | fin a k hk => cases a <;> exact mk'_not_nan _ _ _

omit [Libm] in
theorem ceil_nonneg {f : Fmt} {x : Fl f} (h : 0 ≤ key x) : 0 ≤ key (ceil x) := by
  cases x with
  | nan => exact h
  | inf a => exact h
  | fin a k hk =>
    cases a
    · change 0 ≤ key (mk' f false _ 1)
      rw [key_mk' _ _ _ one_pos]
      apply RK_nonneg
      simp only [Bool.false_eq_true, ↓reduceIte]
      positivity
    · have : k = 0 := by simp [key, sgn] at h; omega
      subst this
      change 0 ≤ key (mk' f true (0 / 2 ^ f.q * 2 ^ f.q) 1)
      rw [key_mk' _ _ _ one_pos]
      simp [RK_zero]

omit [Libm] in
theorem not_key_inf {f : Fmt} : ¬ 0 ≤ key (inf true : Fl f) := by simp [key, sgn]; omega

omit [Libm] in
/-- The conversion of a number, at least 0 and cut off at INT_MAX, is defined. -/
theorem toInt_tame {x : Fl f64} (hn : isNaN x = false) (h0 : 0 ≤ key x) : ∃ n, toInt (stdMin (ceil x) intMaxD) = .ok n := by
  have hmax : key (intMaxD : Fl f64) = 2147483647 * 2 ^ 1074 := by decide +kernel
  have hmaxn : isNaN (intMaxD : Fl f64) = false := by decide +kernel
  obtain ⟨y, hy, y1, y2, y3⟩ : ∃ y : Fl f64, stdMin (ceil x) intMaxD = y ∧ isNaN y = false ∧ 0 ≤ key y ∧ key y ≤ 2147483647 * 2 ^ 1074 := by
    unfold stdMin
    have hc := ceil_not_nan hn
    have hc0 := ceil_nonneg h0
    split
    · exact ⟨_, rfl, hmaxn, by rw [hmax]; positivity, hmax.le⟩
    · rename_i hlt
      refine ⟨_, rfl, hc, hc0, ?_⟩
      have : ¬ (lt (intMaxD : Fl f64) (ceil x) = true) := hlt
      rw [lt_iff] at this
      rw [← hmax]
      by_contra hcon
      exact this ⟨hmaxn, hc, not_le.1 hcon⟩
  rw [hy]
  cases y with
  | nan => simp [isNaN] at y1
  | inf a =>
    exfalso
    have : ¬ ((f64.maxMag + 1 : ℕ) : ℤ) ≤ 2147483647 * 2 ^ 1074 := by decide +kernel
    cases a
    · exact this y3
    · exact not_key_inf y2
  | fin a k hk =>
    have hk' : (k : ℤ) ≤ 2147483647 * 2 ^ 1074 := by
      cases a
      · exact y3
      · have : k = 0 := by simp [key, sgn] at y2; omega
        rw [this]; positivity
    have hk2 : k / 2 ^ 1074 ≤ 2147483647 := by
      have : k ≤ 2147483647 * 2 ^ 1074 := by exact_mod_cast hk'
      exact Nat.div_le_of_le_mul (by rw [Nat.mul_comm]; exact this)
    unfold toInt
    have htr : Scalar.trunc? (fin a k hk : Fl f64) = some (sgn a (k / 2 ^ 1074)) := rfl
    rw [htr]
    refine ⟨_, if_pos ?_⟩
    unfold intMax sgn
    split <;> omega

omit [Libm] in
/-- The product of a nonnegative number and a positive finite one is not NaN and not negative. -/
theorem mul_tame {x y : Fl f64} (hx : isNaN x = false) (hx0 : 0 ≤ key x) (hy : Finite y) (hy0 : 0 < key y) :
    isNaN (x * y) = false ∧ 0 ≤ key (x * y) := by
  cases x with
  | nan => simp [isNaN] at hx
  | inf a =>
    have ha : a = false := by
      cases a
      · rfl
      · exact absurd hx0 not_key_inf
    subst ha
    obtain ⟨b, k, hk, rfl⟩ := finite_iff.1 hy
    have hb : b = false ∧ k ≠ 0 := by cases b <;> simp [key, sgn] at hy0 ⊢ <;> omega
    obtain ⟨rfl, hk0⟩ := hb
    have : (inf false : Fl f64) * fin false k hk = inf false := by
      change mul _ _ = _
      simp [mul, hk0]
    rw [this]
    exact ⟨rfl, by decide +kernel⟩
  | fin a k hk =>
    have hf : Finite (fin a k hk) := ⟨rfl, rfl⟩
    refine ⟨mul_not_nan hf hy, ?_⟩
    rw [key_mul hf hy]
    apply RK_nonneg
    have h1 : (0 : ℝ) ≤ key (fin a k hk) := by exact_mod_cast hx0
    have h2 : (0 : ℝ) < key y := by exact_mod_cast hy0
    positivity

omit [Libm] in
theorem key_pos_of {f : Fmt} {x : Fl f} (h : isFinite x = true ∧ (x ≤ᵇ 0) = false) : Finite x ∧ 0 < key x := by
  have hf := finite_of_isFinite h.1
  have h2 := h.2
  rw [le_num hf.1 finite_zero.1, num_zero, decide_eq_false_iff_not, not_le, ← num_zero, num_lt] at h2
  have : key (0 : Fl f) = 0 := by
    have := num_zero (f := f)
    unfold num at this
    rw [div_eq_zero_iff] at this
    rcases this with h | h
    · exact_mod_cast h
    · exfalso; revert h; positivity
  rw [this] at h2
  exact ⟨hf, h2⟩

omit [Libm] in
theorem convert_nonneg {f g : Fmt} {x : Fl f} (hn : isNaN x = false) (h : 0 ≤ key x) :
    isNaN (convert g x) = false ∧ 0 ≤ key (convert g x) := by
  refine ⟨(convert_isNaN x).trans hn, ?_⟩
  cases x with
  | nan => simp [isNaN] at hn
  | inf a =>
    have ha : a = false := by
      cases a
      · rfl
      · exact absurd h not_key_inf
    subst ha
    change 0 ≤ key (inf false : Fl g)
    simp [key, sgn]; omega
  | fin a k hk =>
    rw [key_convert ⟨rfl, rfl⟩]
    apply RK_nonneg
    have h1 : (0 : ℝ) ≤ key (fin a k hk) := by exact_mod_cast h
    positivity

theorem steps_tame {p : StrokeModelParams (Fl f32) (Fl f64)} (q : TipState (Fl f32) (Fl f64)) {last i : Input (Fl f32) (Fl f64)}
    (hv : validateStrokeModelParams p = .ok) (hl : FiniteInput last) (hi : Fits last i) :
    ∃ r, numberOfStepsBetweenInputs q last i p.sampling p.position = .ok r := by
  obtain ⟨hrate, -, -, -, hang⟩ := validSamplingParts (validParts hv).2.2.2.1
  have t1 := finite_of_isFinite hl.time
  have t2 := finite_of_isFinite hi.time
  have hle : key last.time ≤ key i.time := by
    have := hi.later
    rw [lt_num t2.1 t1.1, decide_eq_false_iff_not, not_lt, num_le] at this
    exact this
  obtain ⟨r1, r2⟩ := key_pos_of hrate
  have d1 : isNaN (i.time - last.time) = false := sub_not_nan t2 t1
  have d2 : 0 ≤ key (i.time - last.time) := by
    rw [key_sub t2 t1]
    apply RK_nonneg
    have : (key last.time : ℝ) ≤ key i.time := by exact_mod_cast hle
    linarith
  obtain ⟨e1, e2⟩ := convert_nonneg (g := f32) d1 d2
  obtain ⟨g1, g2⟩ := convert_nonneg (g := f64) e1 e2
  obtain ⟨m1, m2⟩ := mul_tame g1 g2 r1 r2
  obtain ⟨n, hn⟩ := toInt_tame m1 m2
  unfold numberOfStepsBetweenInputs
  dsimp only
  have hn' : toInt (stdMin (Scalar.ceil (widen (narrow (i.time - last.time) : Fl f32) * p.sampling.minOutputRate)) intMaxD) = .ok n := hn
  rw [hn', Outcome.ok_bind]
  split
  · exact ⟨_, rfl⟩
  · rename_i angle hangle
    obtain ⟨hnone, hsome⟩ := C50_angle_float q.velocity
      (q.velocity + ((narrow (i.time - last.time) : Fl f32) •ᵥ ((i.position - q.position) /ᵥ p.position.springMassConstant)))
    have hreal := Classical.not_not.1 (fun hc => by
      have := hnone.2 hc
      rw [hangle] at this
      cases this)
    obtain ⟨θ, h1, h2, h3, -, -⟩ := hsome hreal.1 hreal.2.1 hreal.2.2.1 hreal.2.2.2
    rw [hangle] at h1
    cases h1
    have hθ : ∃ k, stepsForAngle p.sampling angle n = .ok k := by
      unfold stepsForAngle
      split
      · rename_i hpos
        have hpos' : Finite p.sampling.maxEstimatedAngle ∧ 0 < key p.sampling.maxEstimatedAngle := by
          rcases hang with hang | hang
          · exfalso
            have hlt := lt_iff.1 (show lt 0 p.sampling.maxEstimatedAngle = true from hpos)
            have heq := eq_iff.1 (show eq p.sampling.maxEstimatedAngle (-1) = true from hang)
            have : key (-1 : Fl f64) < key (0 : Fl f64) := by decide +kernel
            omega
          · exact key_pos_of ⟨hang.1, hang.2.1⟩
        have l1 := le_iff.1 (show le 0 angle = true from le_val.2 h2)
        have l2 := le_iff.1 (show le angle (Scalar.ofRatio 13176795 4194304) = true from le_val.2 h3)
        have hk0 : key (0 : Fl f32) = 0 := by decide +kernel
        have hkpi : key (Scalar.ofRatio 13176795 4194304 : Fl f32) ≤ f32.maxMag := by decide +kernel
        have fa : Finite angle := finite_of_key l1.2.1 (by rw [abs_of_nonneg (by omega)]; omega)
        have ha0 : 0 ≤ key angle := by omega
        obtain ⟨w1, w2⟩ := convert_nonneg (g := f64) fa.1 ha0
        have fw : Finite (convert f64 angle) := finite_widen fa
        have hdiv0 : 0 ≤ key (convert f64 angle / p.sampling.maxEstimatedAngle) := by
          rw [key_div fw hpos'.1 hpos'.2.ne']
          apply RK_nonneg
          have h1 : (0 : ℝ) ≤ key (convert f64 angle) := by exact_mod_cast w2
          have h2 : (0 : ℝ) < key p.sampling.maxEstimatedAngle := by exact_mod_cast hpos'.2
          positivity
        obtain ⟨k, hk⟩ := toInt_tame (div_not_nan fw hpos'.1 hpos'.2.ne') hdiv0
        have hk' : toInt (stdMin (Scalar.ceil (widen angle / p.sampling.maxEstimatedAngle)) intMaxD) = .ok k := hk
        rw [hk', Outcome.ok_bind]
        exact ⟨_, rfl⟩
      · exact ⟨_, rfl⟩
    obtain ⟨k, hk⟩ := hθ
    rw [hk, Outcome.ok_bind]
    split
    · exact ⟨_, rfl⟩
    · exact ⟨_, rfl⟩

/-- Floats provide what is needed for calls to return. -/
theorem tame : Tame (Fl f32) (Fl f64) Tidy where
  unknown := by
    right
    rw [num_neg, num_one]
    norm_num
  angle := fun c ha hb ha0 hb0 => angle_tame c ha hb ha0 hb0
  evict := fun ht hd h0 => evict_tame ht hd h0
  steps := fun q _ _ hv hl hi => steps_tame q hv hl hi

end Fl
end Ink
