import Verif.IEEE.Tame
import Verif.Lemmas.Window
import Verif.Lemmas.Query
/-!
# Times on floats

The times of the tip states of one call never go backwards. They lie between the times of the two inputs if the difference of
these is exact.
-/
namespace Ink
open Scalar Arith

section any
variable {F D : Type} [Scalar F] [Scalar D] [Arith F D]

theorem alongPathGo_times (pp : PositionModelerParams F D) (a : Vec2 F) (ta : D) (b : Vec2 F) (tb : D) (n : ℤ) (k : ℕ) (i : ℤ)
    (st : TipState F D) : (PositionModeler.alongPathGo pp a ta b tb n k i st).2.map (·.time) =
      (List.range k).map fun j : ℕ => interpTime ta tb ((ofInt (i + (j : ℤ)) : F) / ofInt n) := by
  induction k generalizing i st with
  | zero => rfl
  | succ k ih =>
    rw [List.range_succ_eq_map]
    simp only [PositionModeler.alongPathGo, List.map_cons, List.map_map, ih]
    congr 1
    · simp [PositionModeler.stepState, PositionModeler.pathPoint]
    · apply List.map_congr_left
      intro j _
      simp only [Function.comp_apply]
      rw [show i + 1 + (j : ℤ) = i + ((j + 1 : ℕ) : ℤ) by push_cast; ring]

theorem alongPathGo_state (pp : PositionModelerParams F D) (a : Vec2 F) (ta : D) (b : Vec2 F) (tb : D) (n : ℤ) (k : ℕ) (i : ℤ)
    (st : TipState F D) : (PositionModeler.alongPathGo pp a ta b tb n k i st).1 =
      (PositionModeler.alongPathGo pp a ta b tb n k i st).2.getLast?.getD st := by
  induction k generalizing i st with
  | zero => rfl
  | succ k ih =>
    simp only [PositionModeler.alongPathGo]
    rw [ih, List.getLast?_cons]
    rfl

theorem toInt_le {α : Type} [Scalar α] {x : α} {n : ℤ} (h : toInt x = .ok n) : n ≤ 2147483647 := by
  unfold toInt at h
  split at h
  · cases h
  · split at h
    · rename_i hb
      have h := Outcome.ok.inj h
      unfold intMax at hb
      omega
    · cases h

theorem numberOfSteps_le_intMax {tip : TipState F D} {a b : Input F D} {sp : SamplingParams F D}
    {pp : PositionModelerParams F D} {n : ℤ} (h : numberOfStepsBetweenInputs tip a b sp pp = .ok (.ok n)) : n ≤ 2147483647 := by
  unfold numberOfStepsBetweenInputs at h
  obtain ⟨k, hk, h⟩ := Outcome.bind_eq_ok.1 h
  have h1 := toInt_le hk
  dsimp only at h
  split at h
  · simp at h
  · obtain ⟨n', hn, h⟩ := Outcome.bind_eq_ok.1 h
    have h2 : n' ≤ 2147483647 := by
      unfold stepsForAngle at hn
      split at hn
      · obtain ⟨j, hj, hn⟩ := Outcome.bind_eq_ok.1 hn
        have := toInt_le hj
        simp only [Outcome.pure_eq, Outcome.ok.injEq] at hn
        split at hn <;> omega
      · simp only [Outcome.ok.injEq] at hn
        omega
    split at h
    · simp at h
    · simp only [Outcome.pure_eq, Outcome.ok.injEq, Except.ok.injEq] at h
      omega

end any

namespace Fl

/-- A number or infinity, but not minus infinity: what times can be. -/
def Clock {f : Fmt} (t : Fl f) : Prop := Finite t ∨ t = inf false

theorem Clock.not_nan {f : Fmt} {t : Fl f} (h : Clock t) : Fl.isNaN t = false := by
  rcases h with h | rfl
  · exact h.1
  · rfl

theorem clock_of_le {f : Fmt} {t x : Fl f} (ht : Clock t) (hn : Fl.isNaN x = false) (h : num t ≤ num x) : Clock x := by
  cases x with
  | nan => simp [Fl.isNaN] at hn
  | fin a k hk => exact .inl ⟨rfl, rfl⟩
  | inf a =>
    cases a
    · exact .inr rfl
    · exfalso
      rw [num_le] at h
      have h0 : -((f.maxMag : ℤ) + 1) < key t := by
        rcases ht with ht | rfl
        · obtain ⟨b, k, hk, rfl⟩ := finite_iff.1 ht
          have := hk.1
          cases b <;> simp [key, sgn] <;> omega
        · simp [key, sgn]; omega
      have : key (inf true : Fl f) = -((f.maxMag : ℤ) + 1) := by simp [key, sgn]
      omega

theorem num_le_inf {f : Fmt} (x : Fl f) : num x ≤ num (inf false : Fl f) := by
  rw [num_le]
  exact (key_bounds x).2

theorem num_ofInt {f : Fmt} (i : ℤ) : num (ofInt i : Fl f) = rd f i := by
  unfold num rd
  change (key (ofUnits f false (i * (2 ^ f.q : ℕ)) 1) : ℝ) / _ = _
  rw [key_ofUnits _ _ _ one_pos]
  congr 3
  push_cast
  ring

theorem ofInt_not_nan {f : Fmt} (i : ℤ) : Fl.isNaN (ofInt i : Fl f) = false := mk'_not_nan _ _ _

theorem rd_pos {f : Fmt} {r : ℝ} (h : 1 / 2 ^ f.q ≤ r) : 0 < rd f r := by
  have h1 : RK f ((1 : ℕ) : ℝ) = (1 : ℕ) := RK_natCast (by
    have := Fmt.rep_small (f := f) (k := 1) (e := 0) one_lt_two_pow (Nat.zero_le _)
    simpa using this)
  have : RK f ((1 : ℕ) : ℝ) ≤ RK f (r * 2 ^ f.q) := RK_mono (by
    rw [Nat.cast_one]
    have := mul_le_mul_of_nonneg_right h (show (0 : ℝ) ≤ 2 ^ f.q by positivity)
    rwa [one_div, inv_mul_cancel₀ (by positivity)] at this)
  rw [h1] at this
  unfold rd
  have : (1 : ℝ) ≤ RK f (r * 2 ^ f.q) := by exact_mod_cast this
  positivity

variable [Libm]

omit [Libm] in
theorem ofInt_spec {i : ℤ} (h1 : 1 ≤ i) (h2 : i ≤ 2147483647) : Finite (ofInt i : Fl f32) ∧ 1 ≤ num (ofInt i : Fl f32) ∧
    num (ofInt i : Fl f32) ≤ 2 ^ 31 := by
  have e1 : (1 : ℝ) ≤ rd f32 i := by
    have := rd_nat (f := f32) (k := 1) (by decide)
    rw [Nat.cast_one] at this
    rw [← this]
    exact rd_mono (by exact_mod_cast h1)
  have e2 : rd f32 i ≤ 2 ^ 31 := by
    rw [← rd_two_pow (f := f32) (j := 31) (by decide)]
    apply rd_mono
    have : (i : ℝ) ≤ 2147483647 := by exact_mod_cast h2
    exact this.trans (by norm_num)
  rw [num_ofInt]
  refine ⟨finite_of_num_le (ofInt_not_nan i) (j := 31) (by decide) ?_, e1, e2⟩
  rw [num_ofInt, abs_of_nonneg (by linarith)]
  exact e2

omit [Libm] in
/-- The fractions of the path. -/
theorem frac_spec {i n : ℤ} (h1 : 1 ≤ i) (h2 : i ≤ n) (h3 : n ≤ 2147483647) :
    Finite ((ofInt i : Fl f32) / ofInt n) ∧ 0 < num ((ofInt i : Fl f32) / ofInt n) ∧ num ((ofInt i : Fl f32) / ofInt n) ≤ 1 := by
  obtain ⟨a1, a2, a3⟩ := ofInt_spec h1 (h2.trans h3)
  obtain ⟨b1, b2, b3⟩ := ofInt_spec (h1.trans h2) h3
  have hb : key (ofInt n : Fl f32) ≠ 0 := by
    intro hc
    have : num (ofInt n : Fl f32) = 0 := by unfold num; rw [hc]; simp
    linarith
  have hn : Fl.isNaN ((ofInt i : Fl f32) / ofInt n) = false := div_not_nan a1 b1 hb
  have e := num_div a1 b1 (by linarith)
  have hle : num (ofInt i : Fl f32) ≤ num (ofInt n : Fl f32) := by
    rw [num_ofInt, num_ofInt]; exact rd_mono (by exact_mod_cast h2)
  have hle1 : num ((ofInt i : Fl f32) / ofInt n) ≤ 1 := by
    have := rd_nat (f := f32) (k := 1) (by decide)
    rw [Nat.cast_one] at this
    rw [e, ← this]
    exact rd_mono (div_le_one_of_le₀ hle (by linarith))
  have hpos : 0 < num ((ofInt i : Fl f32) / ofInt n) := by
    rw [e]
    apply rd_pos
    rw [div_le_div_iff₀ (by positivity) (by linarith), one_mul]
    have hq : f32.q = 149 := rfl
    rw [hq]
    calc num (ofInt n : Fl f32) ≤ 2 ^ 31 := b3
      _ ≤ 1 * 2 ^ 149 := by norm_num
      _ ≤ _ := by gcongr
  exact ⟨finite_of_num_le hn (j := 0) (by decide) (by rw [abs_of_pos hpos]; simpa using hle1), hpos, hle1⟩

omit [Libm] in
theorem frac_mono {i j n : ℤ} (h1 : 1 ≤ i) (hij : i ≤ j) (h2 : j ≤ n) (h3 : n ≤ 2147483647) :
    num ((ofInt i : Fl f32) / ofInt n) ≤ num ((ofInt j : Fl f32) / ofInt n) := by
  obtain ⟨a1, a2, a3⟩ := ofInt_spec h1 (hij.trans (h2.trans h3))
  obtain ⟨c1, c2, c3⟩ := ofInt_spec (h1.trans hij) (h2.trans h3)
  obtain ⟨b1, b2, b3⟩ := ofInt_spec ((h1.trans hij).trans h2) h3
  rw [num_div a1 b1 (by linarith), num_div c1 b1 (by linarith)]
  apply rd_mono
  have : num (ofInt i : Fl f32) ≤ num (ofInt j : Fl f32) := by
    rw [num_ofInt, num_ofInt]; exact rd_mono (by exact_mod_cast hij)
  gcongr

omit [Libm] in
theorem frac_self {n : ℤ} (h1 : 1 ≤ n) (h3 : n ≤ 2147483647) : num ((ofInt n : Fl f32) / ofInt n) = 1 := by
  obtain ⟨b1, b2, b3⟩ := ofInt_spec h1 h3
  rw [num_div b1 b1 (by linarith), div_self (by linarith)]
  have := rd_nat (f := f32) (k := 1) (by decide)
  rwa [Nat.cast_one] at this

omit [Libm] in
theorem clock_add {f : Fmt} {t d : Fl f} (ht : Clock t) (hd : Clock d) (h0 : 0 ≤ num d) : Clock (t + d) ∧ num t ≤ num (t + d) := by
  suffices h : Fl.isNaN (t + d) = false ∧ num t ≤ num (t + d) from ⟨clock_of_le ht h.1 h.2, h.2⟩
  rcases ht with ht | rfl
  · rcases hd with hd | rfl
    · refine ⟨add_not_nan ht hd, ?_⟩
      rw [num_add ht hd]
      calc num t = rd f (num t) := (rd_num ht).symm
        _ ≤ _ := rd_mono (by linarith)
    · obtain ⟨b, k, hk, rfl⟩ := finite_iff.1 ht
      exact ⟨rfl, num_le_inf _⟩
  · rcases hd with hd | rfl
    · obtain ⟨b, k, hk, rfl⟩ := finite_iff.1 hd
      exact ⟨rfl, le_refl _⟩
    · exact ⟨rfl, le_refl _⟩

omit [Libm] in
/-- The difference of two times. -/
theorem clock_sub {s t : Fl f64} (hs : Finite s) (ht : Finite t) (h : num s ≤ num t) : Clock (t - s) ∧ 0 ≤ num (t - s) := by
  have hn := sub_not_nan ht hs
  have h0 : 0 ≤ num (t - s) := by
    rw [num_sub ht hs]; exact rd_nonneg (by linarith)
  exact ⟨clock_of_le (t := (0 : Fl f64)) (.inl finite_zero) hn (by rw [num_zero]; exact h0), h0⟩

theorem clamp_frac {c : Fl f32} (hc : Fl.isNaN c = false) (h0 : 0 < num c) (h1 : num c ≤ 1) :
    Finite (widen (clamp01 c) : Fl f64) ∧ num (widen (clamp01 c) : Fl f64) = num c := by
  obtain ⟨g1, g2⟩ := clamp01_spec c
  obtain ⟨g2, g3⟩ := g2 hc
  refine ⟨finite_widen g2, ?_⟩
  rw [num_widen g2, g3, min_eq_right h1, max_eq_right h0.le]

omit [Libm] in
theorem inf_mul {w : Fl f64} (hw : Finite w) (w0 : 0 < num w) : (inf false : Fl f64) * w = inf false := by
  obtain ⟨b, k, hk, rfl⟩ := finite_iff.1 hw
  have hk0 : 0 < key (fin b k hk) := by
    rw [← num_zero (f := f64), num_lt] at w0
    have : key (0 : Fl f64) = 0 := by decide +kernel
    omega
  have hb : b = false ∧ k ≠ 0 := by cases b <;> simp [key, sgn] at hk0 ⊢ <;> omega
  obtain ⟨rfl, hk1⟩ := hb
  change mul (inf false) _ = _
  simp [mul, hk1]

omit [Libm] in
/-- A number times a fraction. -/
theorem clock_mul {d : Fl f64} {w : Fl f64} (hd : Clock d) (h0 : 0 ≤ num d) (hw : Finite w) (w0 : 0 < num w) (w1 : num w ≤ 1) :
    Clock (d * w) ∧ 0 ≤ num (d * w) ∧ (Finite d → Finite (d * w) ∧ num (d * w) = rd f64 (num d * num w)) := by
  rcases hd with hd | rfl
  · have hn := mul_not_nan hd hw
    have e := num_mul hd hw
    have hle : rd f64 (num d * num w) ≤ num d := by
      rw [← rd_num hd]
      conv_rhs => rw [rd_num hd, ← rd_num hd]
      apply rd_mono
      rw [rd_num hd]
      exact mul_le_of_le_one_right h0 w1
    have hge : 0 ≤ rd f64 (num d * num w) := rd_nonneg (mul_nonneg h0 w0.le)
    have hfin : Finite (d * w) := finite_of_num hn (by
      rw [e, abs_of_nonneg hge]
      exact hle.trans_lt ((le_abs_self _).trans_lt (abs_num_lt hd)))
    exact ⟨.inl hfin, by rw [e]; exact hge, fun _ => ⟨hfin, e⟩⟩
  · rw [inf_mul hw w0]
    refine ⟨.inr rfl, ?_, fun h => ?_⟩
    · rw [← num_zero (f := f64)]; exact num_le_inf _
    · exact absurd h.2 (by decide)

/-- The times of the path are not before its start. -/
theorem interpTime_clock {s t : Fl f64} {c : Fl f32} (hs : Finite s) (ht : Finite t) (h : num s ≤ num t) (hc : Finite c) (h0 : 0 < num c)
    (h1 : num c ≤ 1) : Clock (interpTime s t c) ∧ num s ≤ num (interpTime s t c) := by
  obtain ⟨d1, d2⟩ := clock_sub hs ht h
  obtain ⟨w1, w2⟩ := clamp_frac hc.1 h0 h1
  obtain ⟨m1, m2, -⟩ := clock_mul d1 d2 w1 (by rw [w2]; exact h0) (by rw [w2]; exact h1)
  exact clock_add (.inl hs) m1 m2

theorem interpTime_mono {s t : Fl f64} {c c' : Fl f32} (hs : Finite s) (ht : Finite t) (h : num s ≤ num t) (hc : Finite c) (h0 : 0 < num c)
    (hc' : Finite c') (hcc : num c ≤ num c') (h1 : num c' ≤ 1) : num (interpTime s t c) ≤ num (interpTime s t c') := by
  obtain ⟨d1, d2⟩ := clock_sub hs ht h
  obtain ⟨w1, w2⟩ := clamp_frac hc.1 h0 (hcc.trans h1)
  obtain ⟨w1', w2'⟩ := clamp_frac hc'.1 (h0.trans_le hcc) h1
  obtain ⟨m1, m2, m3⟩ := clock_mul d1 d2 w1 (by rw [w2]; exact h0) (by rw [w2]; exact hcc.trans h1)
  obtain ⟨m1', m2', m3'⟩ := clock_mul d1 d2 w1' (by rw [w2']; exact h0.trans_le hcc) (by rw [w2']; exact h1)
  unfold interpTime
  rcases d1 with d1 | d1
  · obtain ⟨f1, f2⟩ := m3 d1
    obtain ⟨f1', f2'⟩ := m3' d1
    rw [num_add hs f1, num_add hs f1', f2, f2', w2, w2']
    apply rd_mono
    have := rd_mono (f := f64) (mul_le_mul_of_nonneg_left hcc d2)
    linarith
  · have hm : (t - s) * (widen (clamp01 c') : Fl f64) = inf false := by rw [d1, inf_mul w1' (by rw [w2']; exact h0.trans_le hcc)]
    rw [hm]
    obtain ⟨b, k, hk, rfl⟩ := finite_iff.1 hs
    exact num_le_inf _

/-- The difference of the times is a number and exact. -/
def ExactStep (s t : Fl f64) : Prop := Finite (t - s) ∧ num (t - s) = num t - num s

theorem interpTime_le {s t : Fl f64} {c : Fl f32} (hs : Finite s) (ht : Finite t) (h : num s ≤ num t) (hx : ExactStep s t) (hc : Finite c)
    (h0 : 0 < num c) (h1 : num c ≤ 1) : num (interpTime s t c) ≤ num t := by
  obtain ⟨d1, d2⟩ := clock_sub hs ht h
  obtain ⟨w1, w2⟩ := clamp_frac hc.1 h0 h1
  obtain ⟨m1, m2, m3⟩ := clock_mul d1 d2 w1 (by rw [w2]; exact h0) (by rw [w2]; exact h1)
  obtain ⟨f1, f2⟩ := m3 hx.1
  unfold interpTime
  rw [num_add hs f1, f2, w2]
  have hle : rd f64 (num (t - s) * num c) ≤ num (t - s) := by
    calc _ ≤ rd f64 (num (t - s)) := rd_mono (mul_le_of_le_one_right d2 h1)
      _ = _ := rd_num hx.1
  rw [hx.2] at hle
  calc _ ≤ rd f64 (num t) := rd_mono (by rw [hx.2]; linarith)
    _ = _ := rd_num ht

theorem interpTime_end {s t : Fl f64} {c : Fl f32} (hs : Finite s) (ht : Finite t) (h : num s ≤ num t) (hx : ExactStep s t) (hc : Finite c)
    (h1 : num c = 1) : num (interpTime s t c) = num t := by
  obtain ⟨d1, d2⟩ := clock_sub hs ht h
  obtain ⟨w1, w2⟩ := clamp_frac hc.1 (by rw [h1]; norm_num) h1.le
  obtain ⟨m1, m2, m3⟩ := clock_mul d1 d2 w1 (by rw [w2, h1]; norm_num) (by rw [w2]; exact h1.le)
  obtain ⟨f1, f2⟩ := m3 hx.1
  unfold interpTime
  rw [num_add hs f1, f2, w2, h1, mul_one, rd_num hx.1, hx.2]
  rw [show num s + (num t - num s) = num t by ring, rd_num ht]

end Fl
end Ink
