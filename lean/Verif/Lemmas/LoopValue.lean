import Verif.IEEE.Fair
import Verif.Props.FloatTimes
/-!
# The value of the loop mitigation on floats

It is a number as long as the speeds are, unless the parameters are not.
-/
namespace Ink
noncomputable section
open Scalar Arith Fl

variable [Libm]

/-- The speeds of the samples are numbers, possibly infinite, and there are at most `k`. -/
structure Speeds (l : LoopModeler (Fl f32) (Fl f64)) (k : ℕ) : Prop where
  speeds : ∀ s ∈ l.samples, Clock s.speed ∧ 0 ≤ num s.speed
  count : l.samples.length ≤ k

/-- Finite parameters of the loop mitigation. -/
structure FiniteLoop (p : LoopParams (Fl f32) (Fl f64)) : Prop where
  lower : Finite p.speedLowerBound
  upper : Finite p.speedUpperBound
  strong : Finite p.strengthAtLower
  weak : Finite p.strengthAtUpper

omit [Libm] in
theorem clock_div {x y : Fl f32} (hx : Clock x) (h0 : 0 ≤ num x) (hy : Finite y) (y0 : 0 < num y) : Clock (x / y) ∧ 0 ≤ num (x / y) := by
  have hk : key y ≠ 0 := by
    intro h
    unfold num at y0
    rw [h] at y0
    simp at y0
  rcases hx with hx | rfl
  · have hn := div_not_nan hx hy hk
    have : 0 ≤ num (x / y) := by
      rw [num_div hx hy y0.ne']
      exact rd_nonneg (div_nonneg h0 y0.le)
    exact ⟨clock_of_le (t := (0 : Fl f32)) (.inl finite_zero) hn (by rw [num_zero]; exact this), this⟩
  · obtain ⟨a, k, hk', rfl⟩ := finite_iff.1 hy
    cases a with
    | true =>
      exfalso
      unfold num at y0
      have : (key (fin true k hk' : Fl f32) : ℝ) ≤ 0 := by simp [key, sgn]
      have := div_nonpos_of_nonpos_of_nonneg this (by positivity : (0 : ℝ) ≤ 2 ^ f32.q)
      linarith
    | false => exact ⟨.inr rfl, h0⟩

omit [Libm] in
theorem div_number {x y : Fl f32} (hx : Fl.isNaN x = false) (hy : Finite y) (y0 : num y ≠ 0) : Fl.isNaN (x / y) = false := by
  have hk : key y ≠ 0 := by
    intro h
    unfold num at y0
    rw [h] at y0
    simp at y0
  cases x with
  | nan => cases hx
  | fin a k hk' => exact div_not_nan ⟨rfl, rfl⟩ hy hk
  | inf a => obtain ⟨b, k, hk', rfl⟩ := finite_iff.1 hy; rfl

omit [Libm] in
theorem speedSum_clock {ss : List (SpeedSample (Fl f32) (Fl f64))} (h : ∀ s ∈ ss, Clock s.speed ∧ 0 ≤ num s.speed) {x : Fl f32} (hx : Clock x)
    (h0 : 0 ≤ num x) : Clock (ss.foldl (fun s x => s + x.speed) x) ∧ 0 ≤ num (ss.foldl (fun s x => s + x.speed) x) := by
  induction ss generalizing x with
  | nil => exact ⟨hx, h0⟩
  | cons s ss ih =>
    obtain ⟨s1, s2⟩ := h s List.mem_cons_self
    obtain ⟨c1, c2⟩ := clock_add hx s1 s2
    exact ih (fun s hs => h s (List.mem_cons_of_mem _ hs)) c1 (h0.trans c2)

omit [Libm] in
theorem sub_number {x y : Fl f32} (hx : Clock x) (hy : Finite y) : Fl.isNaN (x - y) = false := by
  rcases hx with hx | rfl
  · exact sub_not_nan hx hy
  · obtain ⟨b, k, hk', rfl⟩ := finite_iff.1 hy
    rfl

omit [Libm] in
/-- What validation says of the parameters of the loop mitigation. -/
theorem loop_bounds {p : LoopParams (Fl f32) (Fl f64)} (h : validateLoopParams p = .ok) (hon : p.isEnabled = true) (hf : FiniteLoop p) :
    0 ≤ num p.speedLowerBound ∧ num p.speedLowerBound ≤ num p.speedUpperBound ∧ 0 ≤ num p.strengthAtUpper ∧
      num p.strengthAtUpper ≤ num p.strengthAtLower ∧ num p.strengthAtLower ≤ 1 := by
  unfold validateLoopParams at h
  have h1 : Finite (1 : Fl f32) := finite_lit one_lt_two_pow
  simp only [hon, Bool.not_true, Bool.false_eq_true, ↓reduceIte] at h
  split at h
  · cases h
  · rename_i a
    split at h
    · cases h
    · rename_i b
      rw [lt_num hf.upper.1 hf.lower.1, lt_num hf.lower.1 finite_zero.1, num_zero] at a
      rw [lt_num hf.strong.1 hf.weak.1, lt_num h1.1 hf.strong.1, lt_num hf.weak.1 finite_zero.1, num_zero, num_one] at b
      simp only [Bool.or_eq_true, decide_eq_true_eq, not_or, not_lt] at a b
      exact ⟨a.2, a.1, b.2, b.1.1, b.1.2⟩

omit [Libm] in
/-- The value is a number. -/
theorem loop_number {l : LoopModeler (Fl f32) (Fl f64)} {k : ℕ} (hv : validateLoopParams l.params = .ok)
    (hf : l.params.isEnabled = true → FiniteLoop l.params) (hs : Speeds l k) (hk : k ≤ 2147483647) : Fl.isNaN l.getInterpolationValue = false := by
  unfold LoopModeler.getInterpolationValue
  split
  · exact (finite_lit one_lt_two_pow : Finite (1 : Fl f32)).1
  · rename_i hc
    simp only [Bool.or_eq_true, List.isEmpty_iff, Bool.not_eq_eq_eq_not, Bool.not_true, not_or, Bool.not_eq_false] at hc
    obtain ⟨hne, hon⟩ := hc
    have hf := hf hon
    obtain ⟨b1, b2, b3, b4, b5⟩ := loop_bounds hv hon hf
    have hlen : 1 ≤ l.samples.length := List.length_pos_iff.2 hne
    have hcount := hs.count
    obtain ⟨n1, n2, -⟩ := ofInt_spec (i := (l.samples.length : ℤ)) (by omega) (by omega)
    obtain ⟨s1, s2⟩ := speedSum_clock hs.speeds (x := (0 : Fl f32)) (.inl finite_zero) num_zero.ge
    obtain ⟨a1, -⟩ := clock_div (y := Scalar.ofInt (l.samples.length : ℤ)) s1 s2 n1 (zero_lt_one.trans_le n2)
    have hd : Finite (l.params.speedUpperBound - l.params.speedLowerBound) := by
      refine finite_of_num (sub_not_nan hf.upper hf.lower) (lt_of_le_of_lt ?_ (abs_num_lt hf.upper))
      rw [num_sub hf.upper hf.lower, abs_of_nonneg (rd_nonneg (by linarith)), abs_of_nonneg (by linarith)]
      calc _ ≤ rd f32 (num l.params.speedUpperBound) := rd_mono (by linarith)
        _ = _ := rd_num hf.upper
    have hratio : Fl.isNaN (inverseLerp l.params.speedLowerBound l.params.speedUpperBound
        (LoopModeler.speedSum l.samples / Scalar.ofInt (l.samples.length : ℤ))) = false := by
      unfold inverseLerp
      split
      · exact finite_zero.1
      · rename_i h0
        rw [eq_num hd.1 finite_zero.1, num_zero, decide_eq_true_eq] at h0
        exact div_number (sub_number a1 hf.lower) hd h0
    obtain ⟨r1, -⟩ := clamp01_spec (inverseLerp l.params.speedLowerBound l.params.speedUpperBound
        (LoopModeler.speedSum l.samples / Scalar.ofInt (l.samples.length : ℤ)))
    dsimp only
    generalize clamp01 (inverseLerp l.params.speedLowerBound l.params.speedUpperBound
        (LoopModeler.speedSum l.samples / Scalar.ofInt (l.samples.length : ℤ))) = ratio at *
    rw [hratio] at r1
    obtain ⟨c1, c2⟩ := (clamp01_spec ratio).2 r1
    have t0 : 0 ≤ num (clamp01 ratio) := by rw [c2]; exact le_max_left _ _
    have t1 : num (clamp01 ratio) ≤ 1 := by rw [c2]; exact max_le zero_le_one (min_le_left _ _)
    have hu : Usual 1 := usual_of (B := 1) (k := 1) (by norm_num) (by norm_num) (by norm_num) (by norm_num)
    have h3 : |num l.params.strengthAtUpper - num l.params.strengthAtLower| ≤ 1 := by rw [abs_le]; constructor <;> linarith
    obtain ⟨d1, d2⟩ := sub_near hf.weak hf.strong hu h3
    have h4 : |num (l.params.strengthAtUpper - l.params.strengthAtLower) * num (clamp01 ratio)| ≤ 2 := by
      have e := abs_of_near d2 h3
      have heps : eps = 1 / 16000000 := rfl
      rw [abs_mul, abs_of_nonneg t0]
      calc _ ≤ 2 * 1 := mul_le_mul (by rw [heps] at e; linarith) t1 t0 (by norm_num)
        _ = 2 := by norm_num
    have hu2 : Usual 2 := usual_of (B := 1) (k := 2) (by norm_num) (by norm_num) (by norm_num) (by norm_num)
    obtain ⟨m1, -⟩ := mul_near d1 c1 hu2 h4
    exact add_not_nan hf.strong m1

/-- A time between a time and itself. -/
theorem interpTime_same_finite {t : Fl f64} (ht : Finite t) {c : Fl f32} (hc : Fl.isNaN c = false) : Finite (interpTime t t c) := by
  obtain ⟨g1, g2⟩ := (clamp01_spec c).2 hc
  have hw := finite_widen g1
  have d0 : num (t - t) = 0 := by rw [num_sub ht ht, sub_self, rd_zero]
  have df : Finite (t - t) := finite_of_num_le (sub_not_nan ht ht) (j := 0) (by decide) (by rw [d0]; norm_num)
  have m0 : num ((t - t) * (widen (clamp01 c) : Fl f64)) = 0 := by rw [num_mul df hw, d0, zero_mul, rd_zero]
  have mf : Finite ((t - t) * (widen (clamp01 c) : Fl f64)) :=
    finite_of_num_le (mul_not_nan df hw) (j := 0) (by decide) (by rw [m0]; norm_num)
  have hn : Fl.isNaN (interpTime t t c) = false := add_not_nan ht mf
  refine finite_of_num hn ?_
  rw [(interpTime_same c).resolve_left (by rw [hn]; simp)]
  exact abs_num_lt ht

omit [Libm] in
theorem evict_sub {p : LoopParams (Fl f32) (Fl f64)} {t : Fl f64} (l : List (SpeedSample (Fl f32) (Fl f64))) : LoopModeler.evict p t l <:+ l := by
  induction l with
  | nil => exact List.suffix_refl _
  | cons s l ih =>
    unfold LoopModeler.evict
    split
    · exact ih.trans (List.suffix_cons _ _)
    · exact List.suffix_refl _

theorem Speeds.update {l : LoopModeler (Fl f32) (Fl f64)} {k : ℕ} (h : Speeds l k) {v : Vec2 (Fl f32)}
    (hv : Clock v.magnitude ∧ 0 ≤ num v.magnitude) (t : Fl f64) : Speeds (l.update v t).1 (k + 1) := by
  unfold LoopModeler.update
  split
  · exact ⟨h.speeds, h.count.trans (Nat.le_succ _)⟩
  · have hs := evict_sub (p := l.params) (t := t) (l.samples ++ [{ speed := v.magnitude, time := t }])
    constructor
    · intro s hm
      rcases List.mem_append.1 (hs.subset hm) with hm | hm
      · exact h.speeds s hm
      · rw [List.mem_singleton] at hm
        rw [hm]
        exact hv
    · have := hs.length_le
      rw [List.length_append, List.length_singleton] at this
      exact this.trans (Nat.succ_le_succ h.count)

end
end Ink
