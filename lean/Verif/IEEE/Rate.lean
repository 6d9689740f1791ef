import Verif.IEEE.Spring
import Verif.Props.MoveCount
import Verif.Props.FloatTimes
/-!
# How far results are apart, on floats
-/
namespace Ink
open Scalar Arith

namespace Fl

/-- Rounding up does not pass by a whole number. -/
theorem ceil_ge {f : Fmt} {j : ℕ} (hj : j < 2 ^ f.p) (hq : f.q ≤ f.top)
    (hm : j * 2 ^ f.q ≤ f.maxMag + 1) {x : Fl f}
    (h1 : 1 ≤ j) (h : (((j - 1 : ℕ) * 2 ^ f.q : ℕ) : ℤ) < key x) : ((j * 2 ^ f.q : ℕ) : ℤ) ≤ key (ceil x) := by
  have hpos : 0 < key x := lt_of_le_of_lt (by positivity) h
  cases x with
  | nan => simp [key] at hpos
  | inf a =>
    obtain rfl := key_pos_inf hpos
    change ((j * 2 ^ f.q : ℕ) : ℤ) ≤ key (inf false : Fl f)
    have : ((j * 2 ^ f.q : ℕ) : ℤ) ≤ ((f.maxMag + 1 : ℕ) : ℤ) := by exact_mod_cast hm
    exact this
  | fin a k hk =>
    cases a
    · change ((j * 2 ^ f.q : ℕ) : ℤ) ≤ key (mk' f false _ 1)
      rw [key_mk' _ _ _ one_pos]
      have hk0 : (j - 1) * 2 ^ f.q < k := by
        have : (((j - 1 : ℕ) * 2 ^ f.q : ℕ) : ℤ) < (k : ℤ) := h
        exact_mod_cast this
      have h1 : j ≤ (k + (2 ^ f.q - 1)) / 2 ^ f.q := by
        rw [Nat.le_div_iff_mul_le (by positivity)]
        have : 0 < 2 ^ f.q := by positivity
        obtain ⟨j', rfl⟩ : ∃ j', j = j' + 1 := ⟨j - 1, by omega⟩
        rw [Nat.add_sub_cancel] at hk0
        rw [Nat.add_mul, Nat.one_mul]
        omega
      have hrep : RK f ((j * 2 ^ f.q : ℕ) : ℝ) = (j * 2 ^ f.q : ℕ) := RK_natCast (Fmt.rep_small (f := f) hj (by omega))
      have : RK f ((j * 2 ^ f.q : ℕ) : ℝ) ≤ RK f (((k + (2 ^ f.q - 1)) / 2 ^ f.q * 2 ^ f.q : ℕ) / (1 : ℕ) : ℝ) := by
        apply RK_mono
        rw [Nat.cast_one, div_one]
        exact_mod_cast Nat.mul_le_mul_right _ h1
      rw [hrep] at this
      simpa using this
    · exfalso
      have : (0 : ℤ) < -(k : ℤ) := hpos
      omega

/-- The number of steps is at least the demand. -/
theorem toInt_ge {x : Fl f64} {n : ℤ} (h : toInt (stdMin (ceil x) intMaxD) = .ok n) {j : ℕ} (hj : 1 ≤ j)
    (hj2 : j ≤ 2147483647) (h0 : (((j - 1 : ℕ) * 2 ^ 1074 : ℕ) : ℤ) < key x) : (j : ℤ) ≤ n := by
  have hmax : key (intMaxD : Fl f64) = ((2147483647 * 2 ^ 1074 : ℕ) : ℤ) := by decide +kernel
  have hc1 : ((j * 2 ^ 1074 : ℕ) : ℤ) ≤ key (ceil x) := by
    refine ceil_ge (f := f64) (lt_of_le_of_lt hj2 (by decide)) (by decide) ?_ hj h0
    refine (Nat.mul_le_mul_right _ hj2).trans ?_
    decide +kernel
  have hy : ((j * 2 ^ 1074 : ℕ) : ℤ) ≤ key (stdMin (ceil x) intMaxD) := by
    unfold stdMin
    split
    · rw [hmax]
      exact Int.ofNat_le.2 (Nat.mul_le_mul_right _ hj2)
    · exact hc1
  generalize stdMin (ceil x) intMaxD = y at h hy
  cases y with
  | nan => simp [toInt, Scalar.trunc?, trunc?] at h
  | inf a => simp [toInt, Scalar.trunc?, trunc?] at h
  | fin a k hk =>
    have htr : Scalar.trunc? (fin a k hk : Fl f64) = some (sgn a (k / 2 ^ 1074)) := rfl
    unfold toInt at h
    rw [htr] at h
    dsimp only at h
    split_ifs at h with hif
    have h := Outcome.ok.inj h
    cases a
    · have h1 : j ≤ k / 2 ^ 1074 := by
        rw [Nat.le_div_iff_mul_le (by positivity)]
        have hy : ((j * 2 ^ 1074 : ℕ) : ℤ) ≤ (k : ℤ) := hy
        exact_mod_cast hy
      rw [← h]
      change (j : ℤ) ≤ ((k / 2 ^ 1074 : ℕ) : ℤ)
      exact_mod_cast h1
    · exfalso
      have hy : ((j * 2 ^ 1074 : ℕ) : ℤ) ≤ -(k : ℤ) := hy
      have h2 : (0 : ℤ) < ((j * 2 ^ 1074 : ℕ) : ℤ) := by exact_mod_cast Nat.mul_pos hj (by positivity)
      generalize ((j * 2 ^ 1074 : ℕ) : ℤ) = z at hy h2
      omega

/-- The same in terms of real numbers. -/
theorem toInt_ge_num {x : Fl f64} {n : ℤ} (h : toInt (stdMin (ceil x) intMaxD) = .ok n) (h0 : 0 ≤ n)
    (hlt : n < 2147483647) : num x ≤ n := by
  by_contra hc
  rw [not_le] at hc
  obtain ⟨n, rfl⟩ := Int.eq_ofNat_of_zero_le h0
  have hk : ((n * 2 ^ 1074 : ℕ) : ℤ) < key x := by
    have e : f64.q = 1074 := rfl
    unfold num at hc
    rw [e] at hc
    generalize hz : 1074 = z at hc ⊢
    rw [lt_div_iff₀ (by positivity)] at hc
    have : (((n * 2 ^ z : ℕ) : ℤ) : ℝ) < (key x : ℝ) := by push_cast; simpa using hc
    exact_mod_cast this
  have := toInt_ge h (j := n + 1) (by omega) (by omega) (by rwa [Nat.add_sub_cancel])
  omega

/-- Rounding to double precision. -/
theorem rd64_err {r B : ℝ} (h : |r| ≤ B) (h1 : 1 / 2 ≤ B) (h2 : B ≤ 2 ^ 200) : |rd f64 r - r| ≤ 51 / 100 * (B / 2 ^ 52) := by
  have hlt : |r| < 2 ^ 201 := lt_of_le_of_lt (h.trans h2) (by norm_num)
  have e := rd_err_rel (f := f64) hlt (by decide)
  have t1 : (1 : ℝ) / 2 ^ (f64.q + 1) ≤ 1 / 2 ^ 100 := one_div_pow_le_one_div_pow_of_le (by norm_num) (by decide)
  generalize (1 : ℝ) / 2 ^ (f64.q + 1) = τ at *
  have hp : f64.p = 53 := rfl
  rw [hp] at e
  have h3 : |r| / 2 ^ 53 ≤ B / 2 ^ 53 := by gcongr
  have h4 : (1 : ℝ) / 2 ^ 100 ≤ 1 / 100 * (B / 2 ^ 52) := by
    rw [div_eq_mul_one_div B]
    have : (1 / 2 : ℝ) * (1 / 2 ^ 52) ≤ B * (1 / 2 ^ 52) := by gcongr
    norm_num at this ⊢
    linarith
  have h5 : B / 2 ^ 53 = 1 / 2 * (B / 2 ^ 52) := by ring
  linarith

variable [Libm]

/-- A time on the path. -/
theorem interpTime_near {s t : Fl f64} {c : Fl f32} (hs : Finite s) (ht : Finite t) (h : num s ≤ num t) (hx : ExactStep s t) (hc : Finite c)
    (h0 : 0 < num c) (h1 : num c ≤ 1) {T : ℝ} (hT : 1 ≤ T) (hT' : T ≤ 2 ^ 59) (hsT : |num s| ≤ T) (htT : |num t| ≤ T) :
    |num (interpTime s t c) - (num s + (num t - num s) * num c)| ≤ 153 / 100 * (T / 2 ^ 52) := by
  obtain ⟨d1, d2⟩ := clock_sub hs ht h
  obtain ⟨w1, w2⟩ := clamp_frac hc.1 h0 h1
  obtain ⟨m1, m2, m3⟩ := clock_mul d1 d2 w1 (by rw [w2]; exact h0) (by rw [w2]; exact h1)
  obtain ⟨f1, f2⟩ := m3 hx.1
  unfold interpTime
  rw [num_add hs f1, f2, w2]
  have hle : rd f64 (num (t - s) * num c) ≤ num (t - s) := by
    calc _ ≤ rd f64 (num (t - s)) := rd_mono (mul_le_of_le_one_right d2 h1)
      _ = _ := rd_num hx.1
  have hge : 0 ≤ rd f64 (num (t - s) * num c) := rd_nonneg (by positivity)
  rw [hx.2] at hle hge ⊢
  have hD : |(num t - num s) * num c| ≤ 2 * T := by
    rw [abs_of_nonneg (by rw [hx.2] at d2; positivity)]
    rw [abs_le] at hsT htT
    have : (num t - num s) * num c ≤ num t - num s := mul_le_of_le_one_right (by linarith) h1
    linarith
  have e1 := rd64_err hD (by linarith) (by linarith)
  have hB : |num s + rd f64 ((num t - num s) * num c)| ≤ T := by
    rw [abs_le] at hsT htT ⊢
    constructor <;> linarith
  have e2 := rd64_err hB (by linarith) (by linarith)
  rw [abs_le] at e1 e2 ⊢
  constructor <;> linarith [e1.1, e1.2, e2.1, e2.2]

/-- The number of steps of a path that takes longer than a period of the output rate is nearly enough. -/
theorem steps_enough {s t r : Fl f64} (hs : Finite s) (ht : Finite t) (hr : Finite r) (h1 : 1 ≤ num r) (h2 : num r ≤ 2 ^ 60)
    (hD : 1 / num r < num t - num s) (hD' : num t - num s ≤ 2 ^ 60) {k : ℤ}
    (hk : toInt (stdMin (ceil (widen (narrow (t - s) : Fl f32) * r)) intMaxD) = .ok k) (hk1 : k ≤ 2 ^ 20) :
    (num t - num s) * num r * (1 - 1 / 2 ^ 23) ≤ k := by
  have hr0 : 0 < num r := by linarith
  have hD0 : 0 < num t - num s := lt_trans (by positivity) hD
  have habs : |num t - num s| = num t - num s := abs_of_pos hD0
  obtain ⟨y1, y2⟩ := narrow_near hs ht (by rw [habs]; exact hD')
  rw [habs] at y2
  have hlow : 1 / 2 ^ 60 ≤ num t - num s := by
    refine le_trans ?_ hD.le
    exact one_div_le_one_div_of_le hr0 h2
  have hlow' : (1 : ℝ) / 2 ^ 140 ≤ 1 / 2 ^ 70 * (num t - num s) := by
    have : (1 : ℝ) / 2 ^ 70 * (1 / 2 ^ 60) ≤ 1 / 2 ^ 70 * (num t - num s) := by gcongr
    refine le_trans ?_ this
    norm_num
  have hpos := demand_pos hs ht hr h1 (le_trans (by norm_num) hlow)
  have hk0 := toInt_pos hpos.1 hpos.2 hk
  have hx := toInt_ge_num hk (by omega) (by omega)
  have hw := finite_widen y1
  rw [num_mul hw hr, num_widen y1] at hx
  generalize num (narrow (t - s) : Fl f32) = y at *
  generalize num t - num s = D at *
  generalize num r = R at *
  have hDR : 1 < D * R := by rwa [div_lt_iff₀ hr0] at hD
  have hy : D * (1 - 1 / 15000000) ≤ y := by
    rw [abs_le] at y2
    have := y2.1
    unfold eps at this
    norm_num at this hlow' ⊢
    linarith
  have hy' : y ≤ 2 * D := by
    rw [abs_le] at y2
    have := y2.2
    unfold eps at this
    norm_num at this hlow' ⊢
    linarith
  have hyR : D * (1 - 1 / 15000000) * R ≤ y * R := by gcongr
  have hyR1 : 1 / 2 ≤ y * R := by
    have : D * (1 - 1 / 15000000) * R = (D * R) * (1 - 1 / 15000000) := by ring
    rw [this] at hyR
    norm_num at hyR ⊢
    linarith
  have hyR2 : y * R ≤ 2 ^ 200 := by
    calc y * R ≤ (2 * 2 ^ 60) * 2 ^ 60 := by
          refine mul_le_mul (hy'.trans (by linarith)) h2 hr0.le (by positivity)
      _ ≤ _ := by norm_num
  have e := rd64_err (r := y * R) (B := y * R) (by rw [abs_of_nonneg (by linarith)]) hyR1 hyR2
  rw [abs_le] at e
  have e := e.1
  have : D * (1 - 1 / 15000000) * R = (D * R) * (1 - 1 / 15000000) := by ring
  rw [this] at hyR
  norm_num at e hyR ⊢
  linarith

end Fl

/-- How far apart results may be if the output rate is `rate`, no call returns more than `n` results, and no time is farther from zero
than `T`: a period of the output rate and a little more for rounding. -/
noncomputable def spacing (n : ℕ) (rate T : ℝ) : ℝ := (1 + n / 2 ^ 21) / rate + T / 2 ^ 50

namespace Fl
variable [Libm]

/-- The times of a path are not far apart. -/
theorem path_gaps (pm : PositionModeler (Fl f32) (Fl f64)) (a b : Vec2 (Fl f32)) {s t r : Fl f64} {n k : ℤ} (hs : Finite s) (ht : Finite t)
    (h : num s ≤ num t) (hx : ExactStep s t) (hst : num s = num t ∨ 1 / 2 ^ 149 ≤ num t - num s) (hr : Finite r) (h1 : 1 ≤ num r)
    (h2 : num r ≤ 2 ^ 60) {T : ℝ} (hT : 1 ≤ T) (hT' : T ≤ 2 ^ 59) (hsT : |num s| ≤ T) (htT : |num t| ≤ T)
    (hk : toInt (stdMin (ceil (widen (narrow (t - s) : Fl f32) * r)) intMaxD) = .ok k) (hkn : k ≤ n) {N : ℕ}
    (hN : n ≤ N) (hN' : N ≤ 2 ^ 20) :
    (num s :: (pm.updateAlongLinearPath a s b t n).2.map fun q => num q.time).IsChain (fun x y => y - x ≤ spacing N (num r) T) ∧
    ((pm.updateAlongLinearPath a s b t n).2 = [] → num s = num t) := by
  have hr0 : 0 < num r := by linarith
  have htimes : (pm.updateAlongLinearPath a s b t n).2.map (·.time) = _ := alongPathGo_times pm.params a s b t n n.toNat 1 pm.state
  have hN20 : n ≤ 2 ^ 20 := hN.trans (by exact_mod_cast hN')
  constructor
  · have e : (num s :: (pm.updateAlongLinearPath a s b t n).2.map fun q => num q.time) =
        (List.range (n.toNat + 1)).map fun i : ℕ => if i = 0 then num s else num (interpTime s t ((ofInt (i : ℤ) : Fl f32) / ofInt n)) := by
      rw [List.range_succ_eq_map, List.map_cons, if_pos rfl, List.map_map]
      have : ((pm.updateAlongLinearPath a s b t n).2.map fun q => num q.time) =
          ((pm.updateAlongLinearPath a s b t n).2.map (·.time)).map num := by simp
      rw [this, htimes, List.map_map]
      refine congrArg _ (List.map_congr_left fun i _ => ?_)
      have e1 : ((i.succ : ℕ) : ℤ) = 1 + i := by push_cast; ring
      simp only [Function.comp, if_neg (Nat.succ_ne_zero i), e1]
      rfl
    rw [e, List.isChain_map, List.isChain_range_succ]
    intro i hi
    rw [if_neg (by omega : ¬ i.succ = 0)]
    have hn1 : 1 ≤ n := by omega
    have hn0 : (0 : ℝ) < n := by exact_mod_cast hn1
    obtain ⟨c1, c2, c3⟩ := frac_spec (i := (i.succ : ℕ)) (n := n) (by omega) (by omega) (by omega)
    have cn := frac_near (i := (i.succ : ℕ)) (n := n) (by omega) (by omega) hN20
    have hlow : num s ≤ (if i = 0 then num s else num (interpTime s t ((ofInt (i : ℤ) : Fl f32) / ofInt n))) := by
      split
      · exact le_refl _
      · obtain ⟨b1, b2, b3⟩ := frac_spec (i := (i : ℕ)) (n := n) (by omega) (by omega) (by omega)
        exact (interpTime_clock hs ht h b1 b2 b3).2
    have hup := interpTime_le hs ht h hx c1 c2 c3
    have hsp : 1 / num r ≤ spacing N (num r) T := by
      unfold spacing
      have : (1 : ℝ) / num r ≤ (1 + N / 2 ^ 21) / num r := by
        gcongr
        have : (0 : ℝ) ≤ N / 2 ^ 21 := by positivity
        linarith
      have : 0 ≤ T / 2 ^ 50 := by positivity
      linarith
    rcases le_or_gt (num t - num s) (1 / num r) with hD | hD
    · linarith
    · have hD' : num t - num s ≤ 2 ^ 60 := by
        rw [abs_le] at hsT htT
        norm_num at hT' ⊢
        linarith
      have hen := steps_enough hs ht hr h1 h2 hD hD' hk (hkn.trans hN20)
      have hD0 : 0 < num t - num s := lt_trans (by positivity) hD
      have near := interpTime_near hs ht h hx c1 c2 c3 hT hT' hsT htT
      have hlow2 : num s + (num t - num s) * (i / n) - (153 / 100 * (T / 2 ^ 52) + eps * (num t - num s)) ≤
          (if i = 0 then num s else num (interpTime s t ((ofInt (i : ℤ) : Fl f32) / ofInt n))) := by
        have he : 0 ≤ eps * (num t - num s) := mul_nonneg (by unfold eps; positivity) hD0.le
        split
        · rename_i hi0
          rw [hi0, Nat.cast_zero, zero_div, mul_zero]
          have : 0 ≤ T / 2 ^ 52 := by positivity
          linarith
        · obtain ⟨b1, b2, b3⟩ := frac_spec (i := (i : ℕ)) (n := n) (by omega) (by omega) (by omega)
          have bn := frac_near (i := (i : ℕ)) (n := n) (by omega) (by omega) hN20
          have bnear := interpTime_near hs ht h hx b1 b2 b3 hT hT' hsT htT
          rw [abs_le] at bn bnear
          have := mul_le_mul_of_nonneg_left bn.1 hD0.le
          rw [Int.cast_natCast] at this
          linarith [bnear.1]
      have hup2 : num (interpTime s t ((ofInt (i.succ : ℤ) : Fl f32) / ofInt n)) ≤
          num s + (num t - num s) * ((i + 1) / n) + (153 / 100 * (T / 2 ^ 52) + eps * (num t - num s)) := by
        rw [abs_le] at cn near
        have := mul_le_mul_of_nonneg_left cn.2 hD0.le
        have es : (((i.succ : ℕ) : ℤ) : ℝ) = i + 1 := by push_cast; ring
        rw [es] at this
        linarith [near.2]
      have hfr : (num t - num s) * (((i : ℝ) + 1) / n) = (num t - num s) * (i / n) + (num t - num s) / n := by ring
      rw [hfr] at hup2
      have hgap : (num t - num s) / n + 2 * (eps * (num t - num s)) ≤ (1 + N / 2 ^ 21) / num r := by
        have hkn' : (k : ℝ) ≤ n := by exact_mod_cast hkn
        have hnN : (n : ℝ) ≤ N := by exact_mod_cast hN
        have hone : (1 : ℝ) ≤ n := by exact_mod_cast hn1
        have hDR : (num t - num s) * num r ≤ n * (1 + 1 / 2 ^ 22) := by
          have : (num t - num s) * num r * (1 - 1 / 2 ^ 23) ≤ n := hen.trans hkn'
          norm_num at this ⊢
          linarith
        rw [le_div_iff₀ hr0, add_mul, div_mul_eq_mul_div]
        have g1 : (num t - num s) * num r / n ≤ 1 + 1 / 2 ^ 22 := by
          rw [div_le_iff₀ hn0]; linarith
        have g2 : 2 * (eps * (num t - num s)) * num r = 2 * eps * ((num t - num s) * num r) := by ring
        rw [g2]
        have g3 : 2 * eps * ((num t - num s) * num r) ≤ 2 * eps * (n * (1 + 1 / 2 ^ 22)) :=
          mul_le_mul_of_nonneg_left hDR (by unfold eps; positivity)
        unfold eps at g3 ⊢
        norm_num at g1 g3 ⊢
        linarith
      unfold spacing
      have : T / 2 ^ 50 = 4 * (T / 2 ^ 52) := by ring
      have : 0 ≤ T / 2 ^ 52 := by positivity
      linarith
  · intro hnil
    rcases hst with hst | hst
    · exact hst
    · exfalso
      obtain ⟨g1, g2⟩ := demand_pos hs ht hr h1 hst
      have := toInt_pos g1 g2 hk
      rw [hnil, List.map_nil] at htimes
      have := congrArg List.length htimes
      simp at this
      omega

omit [Libm] in
/-- A step of the end of a stroke. -/
theorem add_step {t d : Fl f64} {R T : ℝ} (ht : Finite t) (hd : Finite d) (hR : 1 ≤ R) (hT : 1 ≤ T) (hT' : T ≤ 2 ^ 59) (h : |num t| ≤ T)
    (h0 : 0 ≤ num d) (h1 : num d ≤ 1 / R + 51 / 100 * (T / 2 ^ 52)) (N : ℕ) : num (t + d) - num t ≤ spacing N R T := by
  have hR1 : 1 / R ≤ 1 := by rw [div_le_one (by linarith)]; exact hR
  have hsp : 1 / R + 4 * (T / 2 ^ 52) ≤ spacing N R T := by
    unfold spacing
    have : (1 : ℝ) / R ≤ (1 + N / 2 ^ 21) / R := by
      gcongr
      have : (0 : ℝ) ≤ N / 2 ^ 21 := by positivity
      linarith
    have : T / 2 ^ 50 = 4 * (T / 2 ^ 52) := by ring
    linarith
  have hB : |num t + num d| ≤ 3 * T := by
    rw [abs_le] at h ⊢
    have : T / 2 ^ 52 ≤ T := div_le_self (by linarith) (by norm_num)
    constructor <;> linarith
  have e := rd64_err hB (by linarith) (by norm_num at hT' ⊢; linarith)
  rw [num_add ht hd]
  rw [abs_le] at e
  have : 0 ≤ T / 2 ^ 52 := by positivity
  have : 3 * T / 2 ^ 52 = 3 * (T / 2 ^ 52) := by ring
  linarith [e.2]

omit [Libm] in
theorem Clock.finite {t : Fl f64} (h : Clock t) {T : ℝ} (hT : T ≤ 2 ^ 59) (ht : |num t| ≤ T) : Finite t :=
  finite_of_num_le (j := 59) h.not_nan (by decide) (ht.trans hT)

/-- The times of the end of a stroke are not far apart. -/
theorem end_gaps (pp : PositionModelerParams (Fl f32) (Fl f64)) (a : Vec2 (Fl f32)) (stop : Fl f32) (k : ℕ) {dt : Fl f64}
    {st : TipState (Fl f32) (Fl f64)} {R T : ℝ} (hst : Clock st.time) (hdt : Finite dt) (h0 : 0 ≤ num dt) (hR : 1 ≤ R) (hT : 1 ≤ T)
    (hT' : T ≤ 2 ^ 59) (h : |num st.time| ≤ T) (h1 : num dt ≤ 1 / R + 51 / 100 * (T / 2 ^ 52)) (N : ℕ)
    (hq : ∀ q ∈ (PositionModeler.endOfStrokeGo pp a stop k dt st).2, |num q.time| ≤ T) :
    (num st.time :: (PositionModeler.endOfStrokeGo pp a stop k dt st).2.map fun q => num q.time).IsChain (fun x y => y - x ≤ spacing N R T) ∧
    ((PositionModeler.endOfStrokeGo pp a stop k dt st).2 = [] →
      num (PositionModeler.endOfStrokeGo pp a stop k dt st).1.time - num st.time ≤ spacing N R T) := by
  have hsp : 0 ≤ spacing N R T := by unfold spacing; positivity
  induction k generalizing dt st with
  | zero => exact ⟨List.isChain_singleton _, fun _ => by simpa [PositionModeler.endOfStrokeGo] using hsp⟩
  | succ k ih =>
    have hstf := hst.finite hT' h
    have c := add_step hstf hdt hR hT hT' h h0 h1 N
    obtain ⟨c1, c2⟩ := clock_add hst (.inl hdt) h0
    simp only [PositionModeler.endOfStrokeGo] at hq ⊢
    generalize hcand : PositionModeler.stepState pp st a (st.time + dt) = cand at *
    have hct : cand.time = st.time + dt := by rw [← hcand]; rfl
    rw [← hct] at c c1 c2
    split at hq
    · rename_i hb
      rw [if_pos hb]
      exact ⟨List.isChain_singleton _, fun _ => c⟩
    · rename_i hb
      rw [if_neg hb]
      split at hq
      · rename_i hb'
        rw [if_pos hb']
        obtain ⟨m1, m2, m3⟩ := clock_mul (.inl hdt) h0 half_spec.1 half_spec.2.1 half_spec.2.2
        obtain ⟨f1, f2⟩ := m3 hdt
        refine ih hst f1 m2 h (le_trans ?_ h1) hq
        change num (dt * ofRatio 1 2) ≤ _
        rw [f2]
        calc _ ≤ rd f64 (num dt) := rd_mono (mul_le_of_le_one_right h0 half_spec.2.2)
          _ = _ := rd_num hdt
      · rename_i hb'
        rw [if_neg hb']
        split at hq
        · rename_i hb''
          rw [if_pos hb'']
          refine ⟨?_, by simp⟩
          simpa using c
        · rename_i hb''
          rw [if_neg hb'']
          have hcT : |num cand.time| ≤ T := hq cand (by simp)
          obtain ⟨g1, g2⟩ := ih c1 hdt h0 hcT h1 fun q hq' => hq q (by simp [hq'])
          refine ⟨?_, by simp⟩
          simp only [List.map_cons]
          exact List.isChain_cons_cons.2 ⟨c, g1⟩

end Fl
end Ink
