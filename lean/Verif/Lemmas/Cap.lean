import Verif.Lemmas.Reckon
import Verif.Lemmas.Forecast
import Verif.Lemmas.Window
import Verif.Spec.Shadow
/-!
# Powers of two as bounds

Rounding does not exceed a bound that is a float. Used to bound what the Kalman predictor computes.
-/
namespace Ink
noncomputable section
open Scalar Arith

namespace Fl

/-- A finite number of at most `B`. -/
structure Cap {f : Fmt} (B : ℝ) (x : Fl f) : Prop where
  fin : Finite x
  le : |num x| ≤ B

theorem Cap.mono {f : Fmt} {A B : ℝ} {x : Fl f} (h : Cap A x) (hAB : A ≤ B) : Cap B x := ⟨h.fin, h.le.trans hAB⟩

theorem rd_cap {k : ℕ} {r : ℝ} (h : |r| ≤ 2 ^ k) (hk : k ≤ 126) : |rd f32 r| ≤ 2 ^ k := by
  have hk' : k + f32.q < f32.p + f32.top := by change k + 149 < 24 + 253; omega
  rw [abs_rd, ← rd_two_pow (f := f32) hk']
  exact rd_mono h

theorem cap_of {x : Fl f32} {k : ℕ} {r : ℝ} (hn : isNaN x = false) (e : num x = rd f32 r) (h : |r| ≤ 2 ^ k) (hk : k ≤ 126) : Cap (2 ^ k) x := by
  have h1 := rd_cap h hk
  rw [← e] at h1
  exact ⟨finite_of_num_le hn (by change k + 149 < 24 + 253; omega) h1, h1⟩

theorem Cap.add {x y : Fl f32} {k l m : ℕ} (hx : Cap (2 ^ k) x) (hy : Cap (2 ^ l) y) (hk : k < m) (hl : l < m) (hm : m ≤ 126) : Cap (2 ^ m) (x + y) := by
  refine cap_of (add_not_nan hx.fin hy.fin) (num_add hx.fin hy.fin) ?_ hm
  obtain ⟨m, rfl⟩ : ∃ n, m = n + 1 := ⟨m - 1, by omega⟩
  have h1 : (2 : ℝ) ^ k ≤ 2 ^ m := pow_le_pow_right₀ (by norm_num) (by omega)
  have h2 : (2 : ℝ) ^ l ≤ 2 ^ m := pow_le_pow_right₀ (by norm_num) (by omega)
  refine (abs_add_le _ _).trans ?_
  rw [pow_succ]
  linarith [hx.le, hy.le]

theorem Cap.sub {x y : Fl f32} {k l m : ℕ} (hx : Cap (2 ^ k) x) (hy : Cap (2 ^ l) y) (hk : k < m) (hl : l < m) (hm : m ≤ 126) : Cap (2 ^ m) (x - y) := by
  refine cap_of (sub_not_nan hx.fin hy.fin) (num_sub hx.fin hy.fin) ?_ hm
  obtain ⟨m, rfl⟩ : ∃ n, m = n + 1 := ⟨m - 1, by omega⟩
  have h1 : (2 : ℝ) ^ k ≤ 2 ^ m := pow_le_pow_right₀ (by norm_num) (by omega)
  have h2 : (2 : ℝ) ^ l ≤ 2 ^ m := pow_le_pow_right₀ (by norm_num) (by omega)
  refine (abs_sub _ _).trans ?_
  rw [pow_succ]
  linarith [hx.le, hy.le]

theorem Cap.mul {x y : Fl f32} {k l m : ℕ} (hx : Cap (2 ^ k) x) (hy : Cap (2 ^ l) y) (hk : k + l ≤ m) (hm : m ≤ 126) : Cap (2 ^ m) (x * y) := by
  refine cap_of (mul_not_nan hx.fin hy.fin) (num_mul hx.fin hy.fin) ?_ hm
  rw [abs_mul]
  calc |num x| * |num y| ≤ 2 ^ k * 2 ^ l := mul_le_mul hx.le hy.le (abs_nonneg _) (by positivity)
    _ = 2 ^ (k + l) := (pow_add _ _ _).symm
    _ ≤ 2 ^ m := pow_le_pow_right₀ (by norm_num) hk

/-- A finite number of at least 1/2^l. -/
structure Big (l : ℕ) (y : Fl f32) : Prop where
  fin : Finite y
  le : 1 / 2 ^ l ≤ num y

theorem Cap.div {x y : Fl f32} {k l m : ℕ} (hx : Cap (2 ^ k) x) (hy : Big l y) (hk : k + l ≤ m) (hm : m ≤ 126) : Cap (2 ^ m) (x / y) := by
  have y0 : 0 < num y := lt_of_lt_of_le (by positivity) hy.le
  have hkey : key y ≠ 0 := by intro h; apply y0.ne'; simp [num, h]
  refine cap_of (div_not_nan hx.fin hy.fin hkey) (num_div hx.fin hy.fin y0.ne') ?_ hm
  rw [abs_div, abs_of_pos y0, div_le_iff₀ y0]
  have : (2 : ℝ) ^ k ≤ 2 ^ m * (1 / 2 ^ l) := by
    rw [mul_one_div, le_div_iff₀ (by positivity), ← pow_add]
    exact pow_le_pow_right₀ (by norm_num) hk
  exact hx.le.trans (this.trans (mul_le_mul_of_nonneg_left hy.le (by positivity)))

theorem cap_two : Cap (2 ^ 1) (2 : Fl f32) := ⟨finite_lit (by decide), by rw [num_lit (f := f32) (n := 2) (by decide)]; norm_num⟩
theorem cap_three : Cap (2 ^ 2) (3 : Fl f32) := ⟨finite_lit (by decide), by rw [num_lit (f := f32) (n := 3) (by decide)]; norm_num⟩
theorem cap_six : Cap (2 ^ 3) (6 : Fl f32) := ⟨finite_lit (by decide), by rw [num_lit (f := f32) (n := 6) (by decide)]; norm_num⟩
theorem cap_neg_three : Cap (2 ^ 2) (-3 : Fl f32) :=
  ⟨by decide +kernel, by rw [num_neg, num_lit (f := f32) (n := 3) (by decide)]; norm_num⟩
theorem big_two : Big 0 (2 : Fl f32) := ⟨finite_lit (by decide), by rw [num_lit (f := f32) (n := 2) (by decide)]; norm_num⟩
theorem big_six : Big 0 (6 : Fl f32) := ⟨finite_lit (by decide), by rw [num_lit (f := f32) (n := 6) (by decide)]; norm_num⟩

/-- Both coordinates are. -/
structure CapV (B : ℝ) (v : Vec2 (Fl f32)) : Prop where
  x : Cap B v.x
  y : Cap B v.y

theorem CapV.reach {B : ℝ} {v : Vec2 (Fl f32)} (h : CapV B v) : InReach B v := ⟨h.x.fin, h.y.fin, h.x.le, h.y.le⟩
theorem capV_of {B : ℝ} {v : Vec2 (Fl f32)} (h : InReach B v) : CapV B v := ⟨⟨h.finx, h.x⟩, ⟨h.finy, h.y⟩⟩
theorem CapV.mono {A B : ℝ} {v : Vec2 (Fl f32)} (h : CapV A v) (hAB : A ≤ B) : CapV B v := ⟨h.x.mono hAB, h.y.mono hAB⟩

theorem CapV.add {u v : Vec2 (Fl f32)} {k l m : ℕ} (hu : CapV (2 ^ k) u) (hv : CapV (2 ^ l) v) (hk : k < m) (hl : l < m) (hm : m ≤ 126) :
    CapV (2 ^ m) (u + v) := ⟨hu.x.add hv.x hk hl hm, hu.y.add hv.y hk hl hm⟩
theorem CapV.sub {u v : Vec2 (Fl f32)} {k l m : ℕ} (hu : CapV (2 ^ k) u) (hv : CapV (2 ^ l) v) (hk : k < m) (hl : l < m) (hm : m ≤ 126) :
    CapV (2 ^ m) (u - v) := ⟨hu.x.sub hv.x hk hl hm, hu.y.sub hv.y hk hl hm⟩
theorem CapV.smul {c : Fl f32} {v : Vec2 (Fl f32)} {k l m : ℕ} (hc : Cap (2 ^ k) c) (hv : CapV (2 ^ l) v) (hk : k + l ≤ m) (hm : m ≤ 126) :
    CapV (2 ^ m) (c •ᵥ v) := ⟨hc.mul hv.x hk hm, hc.mul hv.y hk hm⟩
theorem CapV.div {c : Fl f32} {v : Vec2 (Fl f32)} {k l m : ℕ} (hv : CapV (2 ^ k) v) (hc : Big l c) (hk : k + l ≤ m) (hm : m ≤ 126) :
    CapV (2 ^ m) (v /ᵥ c) := ⟨hv.x.div hc hk hm, hv.y.div hc hk hm⟩

/-- One more step of at most `2^e`. -/
theorem Cap.step {f : Fmt} {x y : Fl f} {i e : ℕ} (hx : Cap (i * 2 ^ e) x) (hy : Cap (2 ^ e) y) (hi : i + 1 < 2 ^ f.p) (he : e + f.q < f.top) :
    Cap ((i + 1 : ℕ) * 2 ^ e) (x + y) := by
  have h : |num (x + y)| ≤ (i + 1 : ℕ) * 2 ^ e := by
    rw [num_add hx.fin hy.fin, abs_rd, ← rd_natCast_two_pow (f := f) hi he.le]
    refine rd_mono ((abs_add_le _ _).trans ?_)
    push_cast
    linarith [hx.le, hy.le]
  refine ⟨finite_of_num_le (j := f.p + e) (add_not_nan hx.fin hy.fin) (by omega) (h.trans ?_), h⟩
  rw [pow_add]
  refine mul_le_mul_of_nonneg_right ?_ (by positivity)
  exact_mod_cast hi.le

theorem CapV.step {u v : Vec2 (Fl f32)} {i e : ℕ} (hu : CapV (i * 2 ^ e) u) (hv : CapV (2 ^ e) v) (hi : i + 1 < 2 ^ 24) (he : e < 104) :
    CapV ((i + 1 : ℕ) * 2 ^ e) (u + v) :=
  ⟨hu.x.step hv.x hi (by change e + 149 < 253; omega), hu.y.step hv.y hi (by change e + 149 < 253; omega)⟩

/-- A state of the prediction after `i` steps. -/
structure Flight (i : ℕ) (s : KalmanState (Fl f32)) : Prop where
  position : CapV ((3 * i + 1 : ℕ) * 2 ^ 86) s.position
  velocity : CapV ((2 * i + 1 : ℕ) * 2 ^ 73) s.velocity
  acceleration : CapV ((i + 1 : ℕ) * 2 ^ 61) s.acceleration
  jerk : CapV (2 ^ 60) s.jerk

theorem CapV.few {v : Vec2 (Fl f32)} {i a e : ℕ} (h : CapV (i * 2 ^ e) v) (hi : i ≤ 2 ^ a) : CapV (2 ^ (a + e)) v := by
  refine h.mono ?_
  rw [pow_add]
  refine mul_le_mul_of_nonneg_right ?_ (by positivity)
  exact_mod_cast hi

theorem Flight.size {i : ℕ} {s : KalmanState (Fl f32)} (h : Flight i s) (hi : i ≤ 2 ^ 10) :
    CapV (2 ^ 98) s.position ∧ CapV (2 ^ 85) s.velocity ∧ CapV (2 ^ 72) s.acceleration :=
  ⟨h.position.few (a := 12) (by omega), h.velocity.few (a := 12) (by omega), h.acceleration.few (a := 11) (by omega)⟩

theorem rd_floor {l : ℕ} {r : ℝ} (hl : l ≤ 149) (h : 1 / 2 ^ l ≤ r) : 1 / 2 ^ l ≤ rd f32 r := by
  have e : rd f32 (1 / 2 ^ l : ℝ) = 1 / 2 ^ l := by
    unfold rd
    have h1 : (1 / 2 ^ l * 2 ^ f32.q : ℝ) = ((1 * 2 ^ (149 - l) : ℕ) : ℝ) := by
      push_cast
      rw [show f32.q = l + (149 - l) by change 149 = _; omega, pow_add]
      field_simp
    rw [h1, RK_natCast (Fmt.rep_small (f := f32) one_lt_two_pow (by change 149 - l ≤ 253; omega)), Int.cast_natCast, ← h1]
    field_simp
  rw [← e]
  exact rd_mono h

theorem Big.mul {x y : Fl f32} {k l a b m : ℕ} (hx : Big k x) (hy : Big l y) (hx' : Cap (2 ^ a) x) (hy' : Cap (2 ^ b) y) (hab : a + b ≤ 126)
    (hm : k + l ≤ m) (hm' : m ≤ 149) : Big m (x * y) := by
  refine ⟨(hx'.mul hy' (m := a + b) le_rfl hab).fin, ?_⟩
  rw [num_mul hx.fin hy.fin]
  refine rd_floor hm' ?_
  calc (1 : ℝ) / 2 ^ m ≤ 1 / 2 ^ (k + l) := one_div_pow_le_one_div_pow_of_le (by norm_num) hm
    _ = 1 / 2 ^ k * (1 / 2 ^ l) := by rw [pow_add]; field_simp
    _ ≤ num x * num y := mul_le_mul hx.le hy.le (by positivity) (le_trans (by positivity) hx.le)

/-- A ratio of counts. -/
theorem cap_ratio {i n : ℤ} (hi : 1 ≤ i) (hin : i ≤ n) (hn : n ≤ 2147483647) : Within 1 ((Scalar.ofInt i : Fl f32) / Scalar.ofInt n) := by
  obtain ⟨a1, a2, -⟩ := ofInt_spec hi (hin.trans hn)
  obtain ⟨b1, b2, -⟩ := ofInt_spec (hi.trans hin) hn
  have hle : num (ofInt i : Fl f32) ≤ num (ofInt n : Fl f32) := by
    rw [num_ofInt, num_ofInt]
    exact rd_mono (by exact_mod_cast hin)
  change Within 1 ((ofInt i : Fl f32) / ofInt n)
  generalize (ofInt i : Fl f32) = a at *
  generalize (ofInt n : Fl f32) = b at *
  have b0 : 0 < num b := by linarith
  have hk : key b ≠ 0 := by intro h; apply b0.ne'; simp [num, h]
  have e := num_div a1 b1 b0.ne'
  have h0 : 0 ≤ num (a / b) := by rw [e]; exact rd_nonneg (div_nonneg (by linarith) b0.le)
  have h1 : num (a / b) ≤ 1 := by rw [e]; exact rd_one_le _ (by rw [div_le_one b0]; exact hle)
  exact ⟨finite_of_num_le (j := 1) (div_not_nan a1 b1 hk) (by decide) (by rw [abs_of_nonneg h0]; linarith), h0, h1⟩

theorem cap_f64 {x : Fl f64} {k : ℕ} {r : ℝ} (hn : isNaN x = false) (e : num x = rd f64 r) (h : |r| ≤ 2 ^ k) (hk : k ≤ 126) : Cap (2 ^ k) x := by
  have hk' : k + f64.q < f64.p + f64.top := by change k + 1074 < 53 + 2045; omega
  have h1 : |num x| ≤ 2 ^ k := by
    rw [e, abs_rd, ← rd_two_pow (f := f64) hk']
    exact rd_mono h
  exact ⟨finite_of_num_le hn hk' h1, h1⟩

/-- Times that are apart. -/
theorem span {g : ℝ} {a b : Fl f64} {l : List (Fl f64)} (h : l.IsChain fun x y => g ≤ num y - num x) (ha : l.head? = some a) (hb : l.getLast? = some b) :
    ((l.length : ℝ) - 1) * g ≤ num b - num a := by
  induction l generalizing a with
  | nil => simp at ha
  | cons x l ih =>
    obtain rfl : x = a := by simpa using ha
    cases l with
    | nil =>
      obtain rfl : x = b := by simpa using hb
      simp
    | cons y l =>
      rw [List.isChain_cons_cons] at h
      have := ih h.2 rfl (by simpa using hb)
      simp only [List.length_cons] at this ⊢
      push_cast at this ⊢
      linarith [h.1]

variable [Libm]

theorem average_size {a b : Fl f64} {n : ℕ} (ha : Cap (2 ^ 19) a) (hb : Cap (2 ^ 19) b) (hn : 2 ≤ n) (hn' : n ≤ 2 ^ 18)
    (h : ((n : ℝ) - 1) * (1 / 2 ^ 10) ≤ num b - num a) :
    Big 12 (KalmanPredictor.averageDt a b n : Fl f32) ∧ Cap (2 ^ 20) (KalmanPredictor.averageDt a b n : Fl f32) := by
  unfold KalmanPredictor.averageDt
  have hnR : (2 : ℝ) ≤ n := by exact_mod_cast hn
  have hD : (n : ℝ) * (1 / 2 ^ 11) ≤ num b - num a := by
    refine le_trans ?_ h
    norm_num
    linarith
  have hD1 : 1 / 2 ^ 10 ≤ num b - num a := le_trans (by norm_num; linarith) hD
  have hD2 : |num b - num a| ≤ 2 ^ 20 := (abs_sub _ _).trans (by
    have := ha.le
    have := hb.le
    norm_num at *
    linarith)
  have hsub : Cap (2 ^ 20) (b - a) := cap_f64 (sub_not_nan hb.fin ha.fin) (num_sub hb.fin ha.fin) hD2 (by omega)
  have e1 := rdA (A := num b - num a) ⟨le_trans (by norm_num) hD1, (le_abs_self _).trans (hD2.trans (by norm_num))⟩ (r := num b - num a)
    (by rw [abs_of_nonneg (by linarith [show (0 : ℝ) < 1 / 2 ^ 10 by norm_num])]; linarith [show (0 : ℝ) < 1 / 2 ^ 10 by norm_num])
  rw [← num_sub hb.fin ha.fin] at e1
  generalize num b - num a = D at *
  have hD0 : 0 < D := lt_of_lt_of_le (by positivity) hD1
  generalize b - a = s at *
  rw [abs_le] at e1
  have l1 : 3 / 4 * D ≤ num s := by linarith [e1.1]
  have l2 : num s ≤ 2 * D := by linarith [e1.2]
  have hDle : D ≤ 2 ^ 20 := (le_abs_self _).trans hD2
  have e2 := rd32_err (B := 2 * D) ⟨le_trans (by norm_num) (hD1.trans (by linarith)), by norm_num at hDle ⊢; linarith⟩ (r := num s)
    (by rw [abs_of_nonneg (by linarith)]; exact l2)
  have e3 : num (narrow s : Fl f32) = rd f32 (num s) := num_convert hsub.fin
  have hnar : Cap (2 ^ 20) (narrow s : Fl f32) :=
    cap_of (by rw [show (narrow s : Fl f32) = convert f32 s from rfl, convert_isNaN]; exact hsub.fin.1) e3 hsub.le (by omega)
  rw [← e3, abs_le] at e2
  have l3 : 1 / 2 * D ≤ num (narrow s : Fl f32) := by unfold eps at e2; linarith [e2.1]
  obtain ⟨o1, o2, -⟩ := ofInt_spec (i := (n : ℤ)) (by omega) (by omega)
  have eo : num (ofInt (n : ℤ) : Fl f32) = n := by
    rw [num_ofInt, Int.cast_natCast]
    exact rd_nat (lt_of_le_of_lt hn' (by decide))
  have hq : Cap (2 ^ 20) ((narrow s : Fl f32) / ofInt (n : ℤ)) := hnar.div (l := 0) ⟨o1, by simpa using o2⟩ (by omega) (by omega)
  refine ⟨⟨hq.fin, ?_⟩, hq⟩
  change _ ≤ num ((narrow s : Fl f32) / ofInt (n : ℤ))
  rw [num_div hnar.fin o1 (by linarith), eo]
  refine rd_floor (by omega) ?_
  rw [le_div_iff₀ (by linarith)]
  calc (1 : ℝ) / 2 ^ 12 * n = 1 / 2 * (n * (1 / 2 ^ 11)) := by ring
    _ ≤ 1 / 2 * D := by linarith
    _ ≤ _ := l3

theorem Flight.next {i : ℕ} {s : KalmanState (Fl f32)} (h : Flight i s) (hi : i ≤ 2 ^ 10) {dt : Fl f64} (hdt : Cap (2 ^ 1) (narrow dt : Fl f32)) :
    Flight (i + 1) (evaluateCubic s dt) := by
  obtain ⟨-, hv, ha⟩ := h.size hi
  have h2 := hdt.mul hdt (m := 2) (by omega) (by omega)
  have h3 := h2.mul hdt (m := 3) (by omega) (by omega)
  have hj := h.jerk
  unfold evaluateCubic
  refine ⟨?_, ?_, ?_, hj⟩
  · have p1 := CapV.smul hdt hv (m := 86) (by omega) (by omega)
    have p2 := (CapV.smul h2 ha (m := 86) (by omega) (by omega)).div big_two (m := 86) (by omega) (by omega)
    have p3 := (CapV.smul h3 hj (m := 86) (by omega) (by omega)).div big_six (m := 86) (by omega) (by omega)
    have := ((h.position.step p1 (by omega) (by omega)).step p2 (by omega) (by omega)).step p3 (by omega) (by omega)
    exact this
  · have p1 := CapV.smul hdt ha (m := 73) (by omega) (by omega)
    have p2 := (CapV.smul h2 hj (m := 73) (by omega) (by omega)).div big_two (m := 73) (by omega) (by omega)
    exact (h.velocity.step p1 (by omega) (by omega)).step p2 (by omega) (by omega)
  · exact h.acceleration.step (CapV.smul hdt hj (m := 61) (by omega) (by omega)) (by omega) (by omega)

/-- A predicted tip. -/
structure Sane (q : TipState (Fl f32) (Fl f64)) : Prop where
  position : CapV (2 ^ 98) q.position
  velocity : CapV (2 ^ 98) q.velocity
  acceleration : CapV (2 ^ 98) q.acceleration
  time : Finite q.time

theorem sane_cubic {i n : ℕ} {s : KalmanState (Fl f32)} (h : Flight i s) (hn : i + n ≤ 2 ^ 10) {dt t : Fl f64} (hdt : Cap (2 ^ 1) (narrow dt : Fl f32))
    (hdt' : Cap (2 ^ 32) dt) (ht : Cap ((i + 1 : ℕ) * 2 ^ 32) t) : ∀ q ∈ KalmanPredictor.cubicPrediction dt n s t, Sane q := by
  induction n generalizing i s t with
  | zero => simp [KalmanPredictor.cubicPrediction]
  | succ n ih =>
    have h' := h.next (by omega) hdt
    have ht' : Cap ((i + 1 + 1 : ℕ) * 2 ^ 32) (t + dt) := ht.step hdt' (by change i + 1 + 1 < 2 ^ 53; omega) (by decide)
    intro q hq
    simp only [KalmanPredictor.cubicPrediction, List.mem_cons] at hq
    rcases hq with rfl | hq
    · obtain ⟨h1, h2, h3⟩ := h'.size (by omega)
      exact ⟨h1, h2.mono (by norm_num), h3.mono (by norm_num), ht'.fin⟩
    · exact ih h' (by omega) ht' q hq

/-- What the connector is made of. -/
structure Ends (last : TipState (Fl f32) (Fl f64)) (est : KalmanState (Fl f32)) (fd : Fl f32) : Prop where
  position : CapV (2 ^ 23) last.position
  velocity : CapV (2 ^ 31) last.velocity
  position' : CapV (2 ^ 23) est.position
  velocity' : CapV (2 ^ 34) est.velocity
  long : Cap (2 ^ 30) fd
  short : Big 11 fd

theorem Ends.point {last : TipState (Fl f32) (Fl f64)} {est : KalmanState (Fl f32)} {fd : Fl f32} (h : Ends last est fd) {t dur : Fl f64}
    (ht : Cap (2 ^ 19) t) (hd : Cap (2 ^ 30) dur) {i n : ℤ} (hi : 1 ≤ i) (hin : i ≤ n) (hn : n ≤ 2147483647) :
    Sane (KalmanPredictor.connectorPoint (KalmanPredictor.connectorCubic last est fd) t dur fd n i) ∧
    Cap (2 ^ 32) (KalmanPredictor.connectorPoint (KalmanPredictor.connectorCubic last est fd) t dur fd n i).time := by
  have hr := cap_ratio hi hin hn
  have ha : CapV (2 ^ 66) (KalmanPredictor.connectorCubic last est fd).a :=
    ((CapV.smul cap_two h.position (m := 24) (by omega) (by omega)).sub (CapV.smul cap_two h.position' (m := 24) (by omega) (by omega)) (m := 25) (by omega) (by omega) (by omega)).add
      (CapV.smul h.long (h.velocity.add h.velocity' (m := 35) (by omega) (by omega) (by omega)) (m := 65) (by omega) (by omega)) (by omega) (by omega) (by omega)
  have hb : CapV (2 ^ 66) (KalmanPredictor.connectorCubic last est fd).b :=
    ((CapV.smul cap_neg_three h.position (m := 25) (by omega) (by omega)).add (CapV.smul cap_three h.position' (m := 25) (by omega) (by omega)) (m := 26) (by omega) (by omega) (by omega)).sub
      (CapV.smul h.long ((CapV.smul cap_two h.velocity (m := 32) (by omega) (by omega)).add h.velocity' (m := 35) (by omega) (by omega) (by omega)) (m := 65) (by omega) (by omega)) (by omega) (by omega) (by omega)
  have hc : CapV (2 ^ 61) (KalmanPredictor.connectorCubic last est fd).c := CapV.smul h.long h.velocity (by omega) (by omega)
  have hd' : CapV (2 ^ 23) (KalmanPredictor.connectorCubic last est fd).d := h.position
  have t1 : Cap (2 ^ 0) ((Scalar.ofInt i : Fl f32) / Scalar.ofInt n) := ⟨hr.finite, by rw [abs_of_nonneg hr.low]; simpa using hr.high⟩
  have ew : |num dur * num (widen ((Scalar.ofInt i : Fl f32) / Scalar.ofInt n) : Fl f64)| ≤ 2 ^ 30 := by
    rw [num_widen hr.finite, abs_mul, abs_of_nonneg hr.low]
    exact (mul_le_of_le_one_right (abs_nonneg _) hr.high).trans hd.le
  have fw : Finite (widen ((Scalar.ofInt i : Fl f32) / Scalar.ofInt n) : Fl f64) := finite_widen hr.finite
  unfold KalmanPredictor.connectorPoint
  dsimp only
  generalize KalmanPredictor.connectorCubic last est fd = cu at *
  generalize (widen ((Scalar.ofInt i : Fl f32) / Scalar.ofInt n) : Fl f64) = w at ew fw
  generalize (Scalar.ofInt i : Fl f32) / Scalar.ofInt n = s at *
  have t2 := t1.mul t1 (m := 0) (by omega) (by omega)
  have t3 := t2.mul t1 (m := 0) (by omega) (by omega)
  have hp := (((CapV.smul t3 ha (m := 66) (by omega) (by omega)).add (CapV.smul t2 hb (m := 66) (by omega) (by omega)) (m := 67) (by omega) (by omega) (by omega)).add
    (CapV.smul t1 hc (m := 61) (by omega) (by omega)) (m := 68) (by omega) (by omega) (by omega)).add hd' (m := 69) (by omega) (by omega) (by omega)
  have hv := (((CapV.smul t2 (CapV.smul cap_three ha (m := 68) (by omega) (by omega)) (m := 68) (by omega) (by omega)).add
    (CapV.smul t1 (CapV.smul cap_two hb (m := 67) (by omega) (by omega)) (m := 67) (by omega) (by omega)) (m := 69) (by omega) (by omega) (by omega)).add hc (m := 70)
    (by omega) (by omega) (by omega)).div h.short (m := 81) (by omega) (by omega)
  have hacc := ((CapV.smul t1 (CapV.smul cap_six ha (m := 69) (by omega) (by omega)) (m := 69) (by omega) (by omega)).add
    (CapV.smul cap_two hb (m := 67) (by omega) (by omega)) (m := 70) (by omega) (by omega) (by omega)).div
    (h.short.mul h.short h.long h.long (m := 22) (by omega) (by omega) (by omega)) (m := 92) (by omega) (by omega)
  have hm : Cap (2 ^ 30) (dur * w) := by
    have h1 : |num (dur * w)| ≤ 2 ^ 30 := by
      rw [num_mul hd.fin fw, abs_rd, ← rd_two_pow (f := f64) (j := 30) (by decide)]
      exact rd_mono ew
    exact ⟨finite_of_num_le (j := 30) (mul_not_nan hd.fin fw) (by decide) h1, h1⟩
  have htime : Cap (2 ^ 32) (t + dur * w) := by
    have h1 : |num (t + dur * w)| ≤ 2 ^ 32 := by
      rw [num_add ht.fin hm.fin, abs_rd, ← rd_two_pow (f := f64) (j := 32) (by decide)]
      refine rd_mono ((abs_add_le _ _).trans ?_)
      have := ht.le
      have := hm.le
      norm_num at *
      linarith
    exact ⟨finite_of_num_le (j := 32) (add_not_nan ht.fin hm.fin) (by decide) h1, h1⟩
  exact ⟨⟨hp.mono (by norm_num), hv.mono (by norm_num), hacc.mono (by norm_num), htime.fin⟩, htime⟩

theorem Ends.go {last : TipState (Fl f32) (Fl f64)} {est : KalmanState (Fl f32)} {fd : Fl f32} (h : Ends last est fd) {t dur : Fl f64}
    (ht : Cap (2 ^ 19) t) (hd : Cap (2 ^ 30) dur) {n : ℤ} (hn : n ≤ 2147483647) {k : ℕ} {i : ℤ} (hi : 1 ≤ i) (hk : i + k ≤ n + 1) :
    ∀ q ∈ KalmanPredictor.connectorGo (KalmanPredictor.connectorCubic last est fd) t dur fd n k i, Sane q ∧ Cap (2 ^ 32) q.time := by
  induction k generalizing i with
  | zero => simp [KalmanPredictor.connectorGo]
  | succ k ih =>
    intro q hq
    simp only [KalmanPredictor.connectorGo, List.mem_cons] at hq
    rcases hq with rfl | hq
    · exact h.point ht hd hi (by omega) hn
    · exact ih (by omega) (by omega) q hq

theorem Cap.narrow {x : Fl f64} {k : ℕ} (h : Cap (2 ^ k) x) (hk : k ≤ 126) : Cap (2 ^ k) (Arith.narrow x : Fl f32) :=
  cap_of (by rw [show (Arith.narrow x : Fl f32) = convert f32 x from rfl, convert_isNaN]; exact h.fin.1) (num_convert h.fin) h.le hk

/-- How long the connector takes. -/
theorem duration_size {rate : Fl f64} (hr : Finite rate) (hr1 : 1 ≤ num rate ∧ num rate ≤ 2 ^ 10) {n : ℤ} (h1 : 1 ≤ n) (h2 : n ≤ 2 ^ 29) :
    Cap (2 ^ 30) (Scalar.ofInt n * (1 / rate) : Fl f64) ∧ Cap (2 ^ 30) (Arith.narrow (Scalar.ofInt n * (1 / rate) : Fl f64) : Fl f32) ∧
    Big 11 (Arith.narrow (Scalar.ofInt n * (1 / rate) : Fl f64) : Fl f32) := by
  have hr0 : 0 < num rate := by linarith [hr1.1]
  obtain ⟨s1, s2, s3⟩ := sample_dt hr ⟨hr1.1, hr1.2.trans (by norm_num)⟩
  have s2' : 999 / 1024000 ≤ num (1 / rate) := by
    refine le_trans ?_ s2
    rw [div_le_div_iff₀ (by norm_num) hr0]
    have := hr1.2
    norm_num at this ⊢
    linarith
  have s3' : num (1 / rate) ≤ 2 := s3.trans (by rw [div_le_iff₀ hr0]; linarith [hr1.1])
  have nR : (1 : ℝ) ≤ n := by exact_mod_cast h1
  have nR' : (n : ℝ) ≤ 2 ^ 29 := by exact_mod_cast h2
  have eo : num (ofInt n : Fl f64) = n := by
    rw [num_ofInt]
    have := rd_nat (f := f64) (k := n.toNat) (by change n.toNat < 2 ^ 53; omega)
    rwa [show ((n.toNat : ℕ) : ℝ) = n by exact_mod_cast Int.toNat_of_nonneg (by omega)] at this
  have fo : Finite (ofInt n : Fl f64) := finite_of_num_le (j := 29) (ofInt_not_nan n) (by decide) (by rw [eo, abs_of_nonneg (by linarith)]; exact nR')
  change Cap (2 ^ 30) (ofInt n * (1 / rate) : Fl f64) ∧ Cap (2 ^ 30) (Arith.narrow (ofInt n * (1 / rate) : Fl f64) : Fl f32) ∧
    Big 11 (Arith.narrow (ofInt n * (1 / rate) : Fl f64) : Fl f32)
  generalize 1 / rate = dt at *
  have e := num_mul fo s1
  rw [eo] at e
  have p0 : 0 ≤ n * num dt := mul_nonneg (by linarith) (by linarith)
  have p1 : n * num dt ≤ 2 ^ 30 := by
    calc n * num dt ≤ 2 ^ 29 * 2 := mul_le_mul nR' s3' (by linarith) (by positivity)
      _ = 2 ^ 30 := by norm_num
  have p2 : 999 / 1024000 ≤ n * num dt := s2'.trans (le_mul_of_one_le_left (by linarith) nR)
  have hc : Cap (2 ^ 30) (ofInt n * dt : Fl f64) := cap_f64 (mul_not_nan fo s1) e (by rw [abs_of_nonneg p0]; exact p1) (by omega)
  have hn := hc.narrow (by omega)
  refine ⟨hc, hn, hn.fin, ?_⟩
  rw [show num (Arith.narrow (ofInt n * dt : Fl f64) : Fl f32) = rd f32 (num (ofInt n * dt : Fl f64)) from num_convert hc.fin]
  refine rd_floor (by omega) ?_
  have e1 := rdA (A := n * num dt) ⟨le_trans (by norm_num) p2, p1.trans (by norm_num)⟩ (r := n * num dt) (by rw [abs_of_nonneg p0]; linarith)
  rw [← e, abs_le] at e1
  norm_num
  linarith [e1.1]

end Fl
end
end Ink
