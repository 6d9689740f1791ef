import Verif.IEEE.Real
/-!
# Doubles for evaluation by the kernel

`Dy` writes a double as a signed integer of few digits times a power of two. Its operations round as those of `Fl f64` do, but the kernel can
evaluate thousands of them: there are no long runs of zeros in the numbers, and every result is evaluated before it is used (`forceNat`).
What cannot be written this way is `bad`.
-/
namespace Ink
open Scalar Fl
noncomputable section

/-- `f k`, with `k` evaluated first. -/
def forceNat {α : Type} (k : Nat) (f : Nat → α) : α := Nat.rec (f 0) (fun n _ => f (Nat.add n 1)) k

@[simp] theorem forceNat_eq {α : Type} (k : Nat) (f : Nat → α) : forceNat k f = f k := by cases k <;> rfl

/-- `m * 2^e` in units of the least positive double, with a sign. -/
inductive Dy where
  | bad
  | num (neg : Bool) (m e : Nat)
deriving DecidableEq

namespace Dy

/-- `f x`, with `x` evaluated first. -/
def force {α : Type} (x : Dy) (f : Dy → α) : α :=
  match x with
  | bad => f bad
  | num a m e => forceNat m fun m => forceNat e fun e => match a with
    | false => f (num false m e)
    | true => f (num true m e)

@[simp] theorem force_eq {α : Type} (x : Dy) (f : Dy → α) : x.force f = f x := by
  cases x with
  | bad => rfl
  | num a m e => cases a <;> simp [force]

/-- `m * 2^e`, unless that is too large. -/
def make (a : Bool) (m e : Nat) : Dy :=
  forceNat m fun m => forceNat e fun e => cond (Nat.ble e 1900) (num a m e) bad

/-- `n / d * 2^e`, rounded to 53 digits; `s` more digits are known. -/
def roundAt (a : Bool) (n d e s : Nat) : Dy :=
  forceNat (Nat.mul d (Nat.pow 2 s)) fun p =>
  forceNat (Nat.div n p) fun m =>
  forceNat (Nat.mul 2 (Nat.mod n p)) fun r =>
  make a (cond (Nat.ble r p) (cond (Nat.beq r p) (Nat.add m (Nat.mod m 2)) m) (Nat.add m 1)) (Nat.add e s)

/-- `n * 2^e`, rounded to 53 digits. -/
def round (a : Bool) (n e : Nat) : Dy :=
  forceNat n fun n => forceNat (Nat.sub (Nat.log2 n) 52) fun s => cond (Nat.beq s 0) (make a n e) (roundAt a n 1 e s)

/-- `n / d * 2^e`, rounded to 53 digits. -/
def ratio (a : Bool) (n d e : Nat) : Dy :=
  forceNat n fun n => forceNat (Nat.log2 (Nat.div n d)) fun l =>
    cond (Nat.ble 52 l) (roundAt a n d e (Nat.sub l 52)) bad

def add (x y : Dy) : Dy :=
  match x with
  | bad => bad
  | num a m e => match y with
    | bad => bad
    | num b n f =>
      cond (Nat.beq m 0) (num b n f) <| cond (Nat.beq n 0) (num a m e) <|
      forceNat (Nat.sub e f) fun u => forceNat (Nat.sub f e) fun v =>
      forceNat (Nat.mul m (Nat.pow 2 u)) fun m => forceNat (Nat.mul n (Nat.pow 2 v)) fun n => forceNat (Nat.sub e u) fun g =>
      cond (a == b) (round a (Nat.add m n) g) <| cond (Nat.ble n m) (round a (Nat.sub m n) g) (round b (Nat.sub n m) g)

def neg : Dy → Dy
  | bad => bad
  | num a m e => num (!a) m e

def mul (x y : Dy) : Dy :=
  match x with
  | bad => bad
  | num a m e => match y with
    | bad => bad
    | num b n f =>
      cond (Nat.beq m 0) (num false 0 1074) <| cond (Nat.beq n 0) (num false 0 1074) <|
      cond (Nat.ble 1074 (Nat.add e f)) (round (a != b) (Nat.mul m n) (Nat.sub (Nat.add e f) 1074)) bad

def divBy (t : ℕ) (x y : Dy) : Dy :=
  match x with
  | bad => bad
  | num a m e => match y with
    | bad => bad
    | num b n f =>
      cond (Nat.beq n 0) bad <| cond (Nat.beq m 0) (num false 0 1074) <|
      cond (Nat.ble (Nat.add f t) (Nat.add e 1074)) (ratio (a != b) (Nat.mul m (Nat.pow 2 t)) n (Nat.sub (Nat.add e 1074) (Nat.add f t))) bad

def div (x y : Dy) : Dy := divBy 120 x y

/-- A small integer. -/
def ofInt (n : Int) : Dy := round (decide (n < 0)) n.natAbs 1074

instance : Scalar Dy where
  add := add
  sub x y := add x (neg y)
  mul := mul
  div := div
  neg := neg
  lt _ _ := false
  le _ _ := false
  eq _ _ := false
  isNaN _ := false
  isInf _ := false
  ofInt := ofInt
  ofRatio n d := div (ofInt n) (ofInt d)
  ceil x := x
  abs x := x
  trunc? _ := none

/-- `x` is written as `a`. -/
def Is (x : Fl f64) : Dy → Prop
  | bad => True
  | num a m e => Finite x ∧ key x = sgn a (m * 2 ^ e)

theorem log2_div_scaled {n d l e : ℕ} (hd : 0 < d) (hn : 0 < n / d) (hl : Nat.log2 (n / d) = l) : Nat.log2 (n * 2 ^ e / d) = l + e := by
  rw [Nat.log2_eq_iff (by omega), Nat.le_div_iff_mul_le hd, Nat.div_lt_iff_lt_mul hd] at hl
  have hp := Nat.two_pow_pos e
  have h1 : 2 ^ (l + e) ≤ n * 2 ^ e / d := by
    rw [Nat.le_div_iff_mul_le hd, pow_add]
    calc 2 ^ l * 2 ^ e * d = 2 ^ l * d * 2 ^ e := by ring
      _ ≤ n * 2 ^ e := Nat.mul_le_mul_right _ hl.1
  rw [Nat.log2_eq_iff (by have := Nat.two_pow_pos (l + e); omega)]
  refine ⟨h1, ?_⟩
  rw [Nat.div_lt_iff_lt_mul hd]
  calc n * 2 ^ e < 2 ^ (l + 1) * d * 2 ^ e := Nat.mul_lt_mul_of_pos_right hl.2 hp
    _ = 2 ^ (l + e + 1) * d := by ring

theorem roundDiv_scaled {a b c : ℕ} (hb : 0 < b) (hc : 0 < c) : Fmt.roundDiv (a * c) (b * c) = Fmt.roundDiv a b := by
  have h1 := rne_natDiv (a * c) (b * c) (Nat.mul_pos hb hc)
  have h2 := rne_natDiv a b hb
  have hc' : (c : ℝ) ≠ 0 := by exact_mod_cast hc.ne'
  rw [Nat.cast_mul, Nat.cast_mul, mul_div_mul_right _ _ hc', h2] at h1
  exact_mod_cast h1.symm

theorem roundMag_scaled {n d e s : ℕ} (hd : 0 < d) (hl : Nat.log2 (n / d) = 52 + s) :
    f64.roundMag (n * 2 ^ e) d = Fmt.roundDiv n (d * 2 ^ s) * 2 ^ (e + s) ∧ Fmt.roundDiv n (d * 2 ^ s) ≤ 2 ^ 53 := by
  have hn : 0 < n / d := by
    by_contra hc
    have h0 : n / d = 0 := Nat.eq_zero_of_not_pos hc
    rw [h0, Nat.log2_zero] at hl
    omega
  have hu : f64.ulpExp (n * 2 ^ e / d) = s + e := by
    unfold Fmt.ulpExp
    rw [log2_div_scaled hd hn hl]
    change 52 + s + e + 1 - 53 = _
    omega
  constructor
  · unfold Fmt.roundMag
    simp only [hu]
    rw [show d * 2 ^ (s + e) = d * 2 ^ s * 2 ^ e by ring, roundDiv_scaled (Nat.mul_pos hd (Nat.two_pow_pos s)) (Nat.two_pow_pos e), add_comm s e]
  · apply Fmt.roundDiv_le (Nat.mul_pos hd (Nat.two_pow_pos s))
    rw [Nat.log2_eq_iff (by omega), Nat.div_lt_iff_lt_mul hd] at hl
    have h2 := hl.2
    calc n ≤ 2 ^ (52 + s + 1) * d := h2.le
      _ = 2 ^ 53 * (d * 2 ^ s) := by ring

theorem le_maxMag {m e : ℕ} (hm : m ≤ 2 ^ 53) (he : e ≤ 1900) : m * 2 ^ e ≤ f64.maxMag := by
  have h1 : m * 2 ^ e ≤ 2 ^ 53 * 2 ^ 1900 := Nat.mul_le_mul hm (Nat.pow_le_pow_right (by norm_num) he)
  refine h1.trans ?_
  decide +kernel

theorem make_num {a a' : Bool} {m e m' e' : ℕ} (h : make a m e = num a' m' e') : a' = a ∧ m' = m ∧ e' = e ∧ e ≤ 1900 := by
  simp only [make, forceNat_eq] at h
  cases hb : Nat.ble e 1900 with
  | false => rw [hb] at h; simp at h
  | true =>
    rw [hb] at h
    simp only [cond_true, num.injEq] at h
    exact ⟨h.1.symm, h.2.1.symm, h.2.2.symm, Nat.le_of_ble_eq_true hb⟩

theorem nat_div (n d : ℕ) : Nat.div n d = n / d := rfl
theorem nat_mod (n d : ℕ) : Nat.mod n d = n % d := rfl

theorem roundAt_num {a a' : Bool} {n d e s m' e' : ℕ} (h : roundAt a n d e s = num a' m' e') :
    a' = a ∧ m' = Fmt.roundDiv n (d * 2 ^ s) ∧ e' = e + s ∧ e + s ≤ 1900 := by
  simp only [roundAt, forceNat_eq] at h
  obtain ⟨h1, h2, h3, h4⟩ := make_num h
  refine ⟨h1, ?_, h3, h4⟩
  rw [h2]
  unfold Fmt.roundDiv
  simp only [Nat.mul_eq, Nat.pow_eq, nat_div, nat_mod, Nat.add_eq]
  generalize hp : d * 2 ^ s = p
  have hm2 := Nat.mod_two_eq_zero_or_one (n / p)
  cases hb : Nat.ble (2 * (n % p)) p with
  | false =>
    have : p < 2 * (n % p) := by
      by_contra hc
      rw [Nat.ble_eq_true_of_le (by omega)] at hb
      cases hb
    simp [this]
  | true =>
    have := Nat.le_of_ble_eq_true hb
    cases hq : Nat.beq (2 * (n % p)) p with
    | false =>
      have h5 : 2 * (n % p) ≠ p := Nat.ne_of_beq_eq_false hq
      simp [h5, show ¬ p < 2 * (n % p) by omega]
    | true =>
      have h5 : 2 * (n % p) = p := Nat.eq_of_beq_eq_true hq
      rcases hm2 with h6 | h6 <;> simp [h5, h6]

/-- What is known about a result: its magnitude is the rounded one. -/
structure Mag (n d e : ℕ) (a : Bool) (y : Dy) : Prop where
  of : ∀ {a' m' e'}, y = num a' m' e' → a' = a ∧ f64.roundMag (n * 2 ^ e) d = m' * 2 ^ e' ∧ m' * 2 ^ e' ≤ f64.maxMag

theorem mag_round (a : Bool) (n e : ℕ) : Mag n 1 e a (round a n e) := by
  constructor
  intro a' m' e' h
  simp only [round, forceNat_eq] at h
  cases hb : Nat.beq (Nat.sub (Nat.log2 n) 52) 0 with
  | true =>
    rw [hb] at h
    obtain ⟨h1, rfl, rfl, h4⟩ := make_num h
    have hs : Nat.log2 m' ≤ 52 := by
      have := Nat.eq_of_beq_eq_true hb
      simp only [Nat.sub_eq] at this
      omega
    have hlt : m' < 2 ^ 53 := (Nat.lt_log2_self).trans_le (Nat.pow_le_pow_right (by norm_num) (by omega))
    refine ⟨h1, ?_, le_maxMag hlt.le h4⟩
    have hr := Fmt.roundMag_eq f64 (m' * 2 ^ e') 1 one_pos
    rw [Nat.cast_one, div_one] at hr
    have hd : 2 ^ f64.ulpExp (m' * 2 ^ e') ∣ m' * 2 ^ e' := by
      refine Dvd.dvd.mul_left (Nat.pow_dvd_pow 2 ?_) _
      rcases Nat.eq_zero_or_pos m' with rfl | hpos
      · simp [Fmt.ulpExp, f64]
      · have := log2_div_scaled (n := m') (d := 1) (e := e') one_pos (by simpa using hpos) rfl
        simp only [Nat.div_one] at this
        unfold Fmt.ulpExp
        rw [this]
        change m'.log2 + e' + 1 - 53 ≤ e'
        omega
    rw [Fmt.roundR_of_rep hd] at hr
    exact_mod_cast hr
  | false =>
    rw [hb] at h
    obtain ⟨h1, rfl, rfl, h4⟩ := roundAt_num h
    have hs : Nat.log2 n = 52 + Nat.sub (Nat.log2 n) 52 := by
      have := Nat.ne_of_beq_eq_false hb
      simp only [Nat.sub_eq] at this ⊢
      omega
    obtain ⟨h5, h6⟩ := roundMag_scaled (n := n) (d := 1) (e := e) one_pos (by rw [Nat.div_one]; exact hs)
    exact ⟨h1, h5, le_maxMag h6 h4⟩

theorem mag_ratio (a : Bool) (n e : ℕ) {d : ℕ} (hd : 0 < d) : Mag n d e a (ratio a n d e) := by
  constructor
  intro a' m' e' h
  simp only [ratio, forceNat_eq] at h
  cases hb : Nat.ble 52 (Nat.log2 (Nat.div n d)) with
  | false => rw [hb] at h; simp at h
  | true =>
    rw [hb] at h
    obtain ⟨h1, rfl, rfl, h4⟩ := roundAt_num h
    have hs : Nat.log2 (n / d) = 52 + Nat.sub (Nat.log2 (Nat.div n d)) 52 := by
      have := Nat.le_of_ble_eq_true hb
      simp only [Nat.sub_eq, nat_div] at this ⊢
      omega
    obtain ⟨h5, h6⟩ := roundMag_scaled (e := e) hd hs
    exact ⟨h1, h5, le_maxMag h6 h4⟩

/-- The real number with the sign. -/
def sg (a : Bool) (r : ℝ) : ℝ := if a then -r else r

theorem key_sg (a : Bool) (k : ℕ) : ((sgn a k : ℤ) : ℝ) = sg a k := by cases a <;> simp [sgn, sg]

theorem Mag.is {n d e : ℕ} {a : Bool} {y : Dy} (h : Mag n d e a y) (hd : 0 < d) {x : Fl f64} (hx : x.isNaN = false)
    (hk : key x = RK f64 (sg a ((n * 2 ^ e : ℕ) / d))) : Is x y := by
  cases y with
  | bad => trivial
  | num a' m' e' =>
    obtain ⟨rfl, h2, h3⟩ := h.of rfl
    have hr := Fmt.roundMag_eq f64 (n * 2 ^ e) d hd
    have h0 : (0 : ℝ) ≤ ((n * 2 ^ e : ℕ) : ℝ) / d := div_nonneg (Nat.cast_nonneg _) (Nat.cast_nonneg _)
    have hp : RK f64 (((n * 2 ^ e : ℕ) : ℝ) / d) = (m' * 2 ^ e' : ℕ) := by
      rw [RK_of_nonneg h0, ← hr, h2]
      exact min_eq_left ((Int.ofNat_le.2 h3).trans (Int.le_add_one le_rfl))
    have hkey : key x = sgn a' (m' * 2 ^ e') := by
      cases a'
      · rw [hk]; simpa [sg, sgn] using hp
      · rw [hk]
        simp only [sg, if_true, RK_neg, hp]
        simp [sgn]
    refine ⟨finite_of_key hx ?_, hkey⟩
    rw [hkey]
    have h4 : ((m' * 2 ^ e' : ℕ) : ℤ) ≤ f64.maxMag := by exact_mod_cast h3
    have h5 : (0 : ℤ) ≤ ((m' * 2 ^ e' : ℕ) : ℤ) := Int.natCast_nonneg _
    have e1 : |sgn a' (m' * 2 ^ e')| = ((m' * 2 ^ e' : ℕ) : ℤ) := by
      cases a'
      · simp only [sgn, Bool.false_eq_true, if_false]; exact abs_of_nonneg h5
      · simp only [sgn, if_true, abs_neg]; exact abs_of_nonneg h5
    rw [e1]
    exact h4

theorem Is.neg {x : Fl f64} {a : Dy} (h : Is x a) : Is (-x) (neg a) := by
  cases a with
  | bad => trivial
  | num b m e =>
    refine ⟨h.1.neg, ?_⟩
    rw [key_neg, h.2]
    cases b <;> simp [sgn]

theorem is_same {x y : Fl f64} {a : Bool} {m e : ℕ} (h : Is x (num a m e)) (hn : y.isNaN = false) (hk : key y = key x) : Is y (num a m e) := by
  refine ⟨finite_of_key hn ?_, hk.trans h.2⟩
  rw [hk]
  exact abs_key_le_of_finite h.1

theorem is_zero {x : Fl f64} (hn : x.isNaN = false) (hk : key x = 0) {a : Bool} {e : ℕ} : Is x (num a 0 e) := by
  refine ⟨finite_of_key hn (by rw [hk]; simp), ?_⟩
  rw [hk]; cases a <;> simp [sgn]

theorem Is.add {x y : Fl f64} {a b : Dy} (hx : Is x a) (hy : Is y b) : Is (x + y) (a.add b) := by
  cases a with
  | bad => trivial
  | num a m e =>
    cases b with
    | bad => trivial
    | num b n f =>
      have hn := add_not_nan hx.1 hy.1
      have hk := key_add hx.1 hy.1
      simp only [Dy.add, forceNat_eq]
      cases hm0 : Nat.beq m 0 with
      | true =>
        have h0 : m = 0 := Nat.eq_of_beq_eq_true hm0
        refine is_same hy hn ?_
        rw [hk, hx.2, h0]
        cases a <;> simp [sgn, RK_key y hy.1]
      | false =>
        cases hn0 : Nat.beq n 0 with
        | true =>
          have h0 : n = 0 := Nat.eq_of_beq_eq_true hn0
          refine is_same hx hn ?_
          rw [hk, hy.2, h0]
          cases b <;> simp [sgn, RK_key x hx.1]
        | false =>
          simp only [cond_false, Nat.sub_eq, Nat.mul_eq, Nat.pow_eq, Nat.add_eq]
          have e1 : m * 2 ^ e = m * 2 ^ (e - f) * 2 ^ (e - (e - f)) := by rw [mul_assoc, ← pow_add]; congr 2; omega
          have e2 : n * 2 ^ f = n * 2 ^ (f - e) * 2 ^ (e - (e - f)) := by rw [mul_assoc, ← pow_add]; congr 2; omega
          rw [hx.2, hy.2, e1, e2, key_sg, key_sg] at hk
          generalize m * 2 ^ (e - f) = M at *
          generalize n * 2 ^ (f - e) = N at *
          generalize e - (e - f) = g at *
          have done : ∀ {c : Bool} {k : ℕ}, sg a ((M * 2 ^ g : ℕ) : ℝ) + sg b ((N * 2 ^ g : ℕ) : ℝ) = sg c (k * 2 ^ g : ℕ) → Is (x + y) (round c k g) := by
            intro c k h
            refine (mag_round c k g).is one_pos hn ?_
            rw [hk, h, Nat.cast_one, div_one]
          cases hab : (a == b) with
          | true =>
            obtain rfl := eq_of_beq hab
            refine done ?_
            cases a <;> simp [sg] <;> ring
          | false =>
            have hab : a ≠ b := by simpa using hab
            simp only [cond_false]
            cases hle : Nat.ble N M with
            | true =>
              have := Nat.le_of_ble_eq_true hle
              refine done ?_
              push_cast [Nat.cast_sub this]
              cases a <;> cases b <;> simp_all [sg] <;> ring
            | false =>
              have : M ≤ N := by
                by_contra hc
                rw [Nat.ble_eq_true_of_le (by omega)] at hle
                cases hle
              refine done ?_
              push_cast [Nat.cast_sub this]
              cases a <;> cases b <;> simp_all [sg] <;> ring

theorem Is.sub {x y : Fl f64} {a b : Dy} (hx : Is x a) (hy : Is y b) : Is (x - y) (a.add b.neg) := by
  rw [sub_eq]
  exact hx.add hy.neg

theorem mul_units {e f q : ℕ} (m n : ℕ) (h : q ≤ e + f) :
    ((m * 2 ^ e : ℕ) : ℝ) * ((n * 2 ^ f : ℕ) : ℝ) / 2 ^ q = ((m * n * 2 ^ (e + f - q) : ℕ) : ℝ) := by
  have e1 : (2 : ℝ) ^ e * 2 ^ f = 2 ^ (e + f - q) * 2 ^ q := by rw [← pow_add, ← pow_add, Nat.sub_add_cancel h]
  have h2 : (2 : ℝ) ^ q ≠ 0 := by positivity
  push_cast
  rw [div_eq_iff h2]
  calc (m : ℝ) * 2 ^ e * (n * 2 ^ f) = m * n * (2 ^ e * 2 ^ f) := by ring
    _ = _ := by rw [e1]; ring

theorem div_units {e f q t n : ℕ} (m : ℕ) (h : f + t ≤ e + q) (hn : n ≠ 0) :
    ((m * 2 ^ e : ℕ) : ℝ) * 2 ^ q / ((n * 2 ^ f : ℕ) : ℝ) = ((m * 2 ^ t * 2 ^ (e + q - (f + t)) : ℕ) : ℝ) / n := by
  have e1 : (2 : ℝ) ^ e * 2 ^ q = 2 ^ (e + q - (f + t)) * (2 ^ f * 2 ^ t) := by rw [← pow_add, ← pow_add, ← pow_add, Nat.sub_add_cancel h]
  have h2 : (2 : ℝ) ^ f ≠ 0 := by positivity
  have h3 : (n : ℝ) ≠ 0 := by exact_mod_cast hn
  push_cast
  rw [div_eq_div_iff (mul_ne_zero h3 h2) h3]
  calc (m : ℝ) * 2 ^ e * 2 ^ q * n = m * n * (2 ^ e * 2 ^ q) := by ring
    _ = _ := by rw [e1]; ring

theorem Is.mul {x y : Fl f64} {a b : Dy} (hx : Is x a) (hy : Is y b) : Is (x * y) (a.mul b) := by
  cases a with
  | bad => trivial
  | num a m e =>
    cases b with
    | bad => trivial
    | num b n f =>
      have hn := mul_not_nan hx.1 hy.1
      have hk := key_mul hx.1 hy.1
      simp only [Dy.mul]
      cases hm0 : Nat.beq m 0 with
      | true =>
        have h0 : m = 0 := Nat.eq_of_beq_eq_true hm0
        refine is_zero hn ?_
        rw [hk, hx.2, h0]
        cases a <;> simp [sgn, RK_zero]
      | false =>
        cases hn0 : Nat.beq n 0 with
        | true =>
          have h0 : n = 0 := Nat.eq_of_beq_eq_true hn0
          refine is_zero hn ?_
          rw [hk, hy.2, h0]
          cases b <;> simp [sgn, RK_zero]
        | false =>
          simp only [cond_false, Nat.sub_eq, Nat.mul_eq, Nat.add_eq]
          cases hle : Nat.ble 1074 (e + f) with
          | false => trivial
          | true =>
            have := Nat.le_of_ble_eq_true hle
            refine (mag_round (a != b) (m * n) (e + f - 1074)).is one_pos hn ?_
            rw [hk, hx.2, hy.2, key_sg, key_sg, show f64.q = 1074 from rfl, Nat.cast_one, div_one]
            congr 1
            have e2 := mul_units (q := 1074) m n this
            rw [← e2]
            generalize (2 : ℝ) ^ 1074 = z
            cases a <;> cases b <;> simp [sg] <;> ring

theorem Is.divBy (t : ℕ) {x y : Fl f64} {a b : Dy} (hx : Is x a) (hy : Is y b) : Is (x / y) (divBy t a b) := by
  cases a with
  | bad => trivial
  | num a m e =>
    cases b with
    | bad => trivial
    | num b n f =>
      simp only [Dy.divBy]
      cases hn0 : Nat.beq n 0 with
      | true => trivial
      | false =>
        have hn1 : n ≠ 0 := Nat.ne_of_beq_eq_false hn0
        have hk0 : key y ≠ 0 := by
          rw [hy.2]
          have := Nat.mul_pos (Nat.pos_of_ne_zero hn1) (Nat.two_pow_pos f)
          cases b <;> simp [sgn] <;> omega
        have hn := div_not_nan hx.1 hy.1 hk0
        have hk := key_div hx.1 hy.1 hk0
        simp only [cond_false]
        cases hm0 : Nat.beq m 0 with
        | true =>
          have h0 : m = 0 := Nat.eq_of_beq_eq_true hm0
          refine is_zero hn ?_
          rw [hk, hx.2, h0]
          cases a <;> simp [sgn, RK_zero]
        | false =>
          simp only [cond_false, Nat.sub_eq, Nat.mul_eq, Nat.add_eq, Nat.pow_eq]
          cases hle : Nat.ble (f + t) (e + 1074) with
          | false => trivial
          | true =>
            have := Nat.le_of_ble_eq_true hle
            refine (mag_ratio (a != b) (m * 2 ^ t) (e + 1074 - (f + t)) (Nat.pos_of_ne_zero hn1)).is (Nat.pos_of_ne_zero hn1) hn ?_
            rw [hk, hx.2, hy.2, key_sg, key_sg, show f64.q = 1074 from rfl]
            congr 1
            have e2 := div_units (q := 1074) (t := t) m this hn1
            rw [← e2]
            generalize (2 : ℝ) ^ 1074 = z
            cases a <;> cases b <;> simp [sg, neg_div, div_neg]

theorem Is.div {x y : Fl f64} {a b : Dy} (hx : Is x a) (hy : Is y b) : Is (x / y) (a.div b) := hx.divBy 120 hy

theorem is_ofInt {n : ℤ} : Is (Scalar.ofInt n : Fl f64) (ofInt n) := by
  refine (mag_round _ _ _).is one_pos (ofUnits_not_nan _ _ _) ?_
  change key (ofUnits f64 false (n * (2 ^ f64.q : ℕ)) 1) = _
  rw [key_ofUnits _ _ _ one_pos, show f64.q = 1074 from rfl, Nat.cast_one, div_one, div_one]
  congr 1
  have hz : (0 : ℝ) < ((2 ^ 1074 : ℕ) : ℝ) := by positivity
  rw [Nat.cast_mul, Int.cast_mul, Int.cast_natCast]
  generalize ((2 ^ 1074 : ℕ) : ℝ) = z at *
  rw [Nat.cast_natAbs, Int.cast_abs]
  by_cases hn : n < 0
  · have : (n : ℝ) < 0 := by exact_mod_cast hn
    simp [sg, hn, abs_of_neg this]
  · have : (0 : ℝ) ≤ n := by exact_mod_cast not_lt.1 hn
    simp [sg, hn, abs_of_nonneg this]

end Dy
end
end Ink
