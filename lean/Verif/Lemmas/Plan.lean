import Verif.Lemmas.Gain
import Verif.IEEE.Double
import Verif.Lemmas.Fed
/-!
# What the Kalman filter can reach on doubles
-/
namespace Ink
open Scalar Fl Hold
noncomputable section

/-- How the reach of a filter is followed: the filter, a basis, how many measurements are kept, the contractions that are tried (per cent), and
bounds on the components of the estimate. -/
structure Plan where
  filter : KalmanFilter Dy
  frame : Frame
  window : ℕ
  ratios : List ℕ
  b0 : ℕ
  b1 : ℕ
  b2 : ℕ
  b3 : ℕ

namespace Plan

structure State where
  cov : Matrix4 Dy
  cs : List (Vec4 ℤ)
  rest : ℕ
deriving DecidableEq

variable (pl : Plan)

/-- The first contraction that holds. -/
def pick (most : ℕ) : ℕ :=
  List.rec 0 (fun r _ ih => cond (Nat.ble (most * 10000) ((r * (6 * unit * pl.frame.det)) ^ 2)) r ih) pl.ratios

def fresh (k : Vec4 ℤ) (cs : List (Vec4 ℤ)) : List (Vec4 ℤ) := k :: cs.map (pull k)

def lost (l : List (Vec4 ℤ)) : ℕ := size pl.frame.t0 l + size pl.frame.t1 l + size pl.frame.t2 l + size pl.frame.t3 l

def unitsV (g : Vec4 Dy) : Vec4 ℤ := ⟨toUnits g.e0, toUnits g.e1, toUnits g.e2, toUnits g.e3⟩
def unitsVOk (g : Vec4 Dy) : Bool := unitsOk g.e0 && (unitsOk g.e1 && (unitsOk g.e2 && unitsOk g.e3))

def within (s : State) : Bool :=
  Nat.ble (size ⟨1, 0, 0, 0⟩ s.cs + pl.frame.n0 * s.rest) (pl.b0 * unit) &&
  (Nat.ble (size ⟨0, 1, 0, 0⟩ s.cs + pl.frame.n1 * s.rest) (pl.b1 * unit) &&
  (Nat.ble (size ⟨0, 0, 1, 0⟩ s.cs + pl.frame.n2 * s.rest) (pl.b2 * unit) &&
  Nat.ble (size ⟨0, 0, 0, 1⟩ s.cs + pl.frame.n3 * s.rest) (pl.b3 * unit)))

def gain (s : State) : Vec4 Dy := gainOf pl.filter (priorCov pl.filter s.cov)

def next (s : State) : State where
  cov := posteriorCov pl.filter (priorCov pl.filter s.cov) (pl.gain s)
  cs := (fresh (unitsV (pl.gain s)) s.cs).take pl.window
  rest := pl.frame.later (pl.pick (pl.frame.most (unitsV (pl.gain s)))) (pl.lost ((fresh (unitsV (pl.gain s)) s.cs).drop pl.window)) s.cs.length s.rest

def fine (s : State) : Bool :=
  pl.within s && (unitsVOk (pl.gain s) &&
    Nat.ble (pl.frame.most (unitsV (pl.gain s)) * 10000) ((pl.pick (pl.frame.most (unitsV (pl.gain s))) * (6 * unit * pl.frame.det)) ^ 2))

/-- Both at once. -/
def visit (s : State) (cont : State → Bool) : Bool :=
  pl.within s && withGain pl.filter s.cov fun g p =>
  unitsVOk g &&
  forceVec (unitsV g) fun k =>
  forceList (fresh k s.cs) fun new =>
  forceNat (pl.frame.most k) fun m =>
  forceNat (pl.pick m) fun r =>
  Nat.ble (m * 10000) ((r * (6 * unit * pl.frame.det)) ^ 2) &&
  forceList (new.take pl.window) fun cs =>
  forceNat (pl.frame.later r (pl.lost (new.drop pl.window)) s.cs.length s.rest) fun rest => cont ⟨p, cs, rest⟩

theorem visit_eq (s : State) (cont : State → Bool) : pl.visit s cont = (pl.fine s && cont (pl.next s)) := by
  simp only [visit, withGain_eq, forceVec_eq, forceList_eq, forceNat_eq, fine, Bool.and_assoc]
  rfl

/-- Every state up to the `n`-th is fine, and `cont` holds of that. -/
def steps (n : ℕ) (s : State) (cont : State → Bool) : Bool :=
  Nat.rec (motive := fun _ => State → Bool) cont (fun _ ih s => pl.visit s ih) n s

/-- Every state up to the `n`-th is fine, and from there on they repeat, two at a time. -/
def run (n : ℕ) (s : State) : Bool := pl.steps n s fun s => pl.visit s fun t => pl.visit t fun u => decide (u = s)

theorem steps_trans {n m : ℕ} {s t : State} {cont : State → Bool} (h : pl.steps n s (fun u => decide (u = t)) = true)
    (h' : pl.steps m t cont = true) : pl.steps (m + n) s cont = true := by
  induction n generalizing s with
  | zero =>
    have h : decide (s = t) = true := h
    rw [decide_eq_true_eq] at h
    rw [h]
    exact h'
  | succ n ih =>
    have h : pl.visit s (fun s => pl.steps n s fun u => decide (u = t)) = true := h
    rw [visit_eq, Bool.and_eq_true] at h
    change pl.visit s (fun s => pl.steps (m + n) s cont) = true
    rw [visit_eq, Bool.and_eq_true]
    exact ⟨h.1, ih h.2⟩

theorem fine_of_run {n : ℕ} {s : State} (h : pl.run n s = true) (k : ℕ) : pl.fine (pl.next^[k] s) = true := by
  induction n generalizing s k with
  | zero =>
    have h : pl.visit s (fun t => pl.visit t fun u => decide (u = s)) = true := h
    simp only [visit_eq, Bool.and_eq_true, decide_eq_true_eq] at h
    obtain ⟨h1, h2, h3⟩ := h
    have step : ∀ j, pl.next^[j + 2] s = pl.next^[j] s := by
      intro j
      rw [Function.iterate_add_apply]
      exact congrArg _ h3
    induction k using Nat.strong_induction_on with
    | _ k ih =>
      match k with
      | 0 => exact h1
      | 1 => exact h2
      | k + 2 => rw [step]; exact ih k (by omega)
  | succ n ih =>
    have h : pl.visit s (pl.run n) = true := h
    rw [visit_eq, Bool.and_eq_true] at h
    match k with
    | 0 => exact h.1
    | k + 1 => rw [Function.iterate_succ_apply]; exact ih h.2 k

/-- The basis is one, and the bounds are moderate. -/
structure Ok : Prop where
  frame : pl.frame.Ok
  b0 : pl.b0 ≤ 8
  b1 : pl.b1 ≤ 8
  b2 : pl.b2 ≤ 8
  b3 : pl.b3 ≤ 8

def numV (x : Vec4 (Fl f64)) : Vec4 ℝ := ⟨Fl.num x.e0, Fl.num x.e1, Fl.num x.e2, Fl.num x.e3⟩

/-- The estimate, in multiples of `A`. -/
structure Bounded (A : ℝ) (b0 b1 b2 b3 : ℝ) (x : Vec4 (Fl f64)) : Prop where
  f0 : Finite x.e0
  f1 : Finite x.e1
  f2 : Finite x.e2
  f3 : Finite x.e3
  e0 : |Fl.num x.e0| ≤ b0 * A
  e1 : |Fl.num x.e1| ≤ b1 * A
  e2 : |Fl.num x.e2| ≤ b2 * A
  e3 : |Fl.num x.e3| ≤ b3 * A

/-- The constants of the motion. -/
structure Motion (f : KalmanFilter (Fl f64)) : Prop where
  trans : f.stateTransition = ⟨⟨1, kDt, Scalar.ofRatio 1 2 * kDtSquared, 1 / 6 * kDtCubed⟩, ⟨0, 1, kDt, Scalar.ofRatio 1 2 * kDtSquared⟩, ⟨0, 0, 1, kDt⟩, ⟨0, 0, 0, 1⟩⟩
  meas : f.measurementVector = ⟨1, 0, 0, 0⟩

/-- What is known of the filter of doubles at a state of the plan. -/
structure Fits (A : ℝ) (s : State) (f : KalmanFilter (Fl f64)) : Prop where
  consts : IsF f pl.filter
  motion : Motion f
  cov : IsM f.errorCovariance s.cov
  held : pl.frame.Held A s.cs s.rest (numV f.stateEstimation)
  f0 : Finite f.stateEstimation.e0
  f1 : Finite f.stateEstimation.e1
  f2 : Finite f.stateEstimation.e2
  f3 : Finite f.stateEstimation.e3

variable {pl}

theorem row_bound {A : ℝ} {cs : List (Vec4 ℤ)} {v y : Vec4 ℝ} {t : Vec4 ℤ} {X ui vi : ℝ} {rest n b : ℕ} (hA : 0 ≤ A) (hv : Spans A cs v) (hy : sq y ≤ (rest * A) ^ 2)
    (ht : dotR t v = vi) (c : Vec4 ℝ) (hc : c.e0 ^ 2 + c.e1 ^ 2 + c.e2 ^ 2 + c.e3 ^ 2 ≤ (n : ℝ) ^ 2)
    (hu : ui = c.e0 * y.e0 + c.e1 * y.e1 + c.e2 * y.e2 + c.e3 * y.e3) (hx : (unit : ℕ) * X = vi + ui)
    (hb : Nat.ble (size t cs + n * rest) (b * unit) = true) : |X| ≤ b * A := by
  have h1 := hv.dot t
  rw [ht] at h1
  have h2 := cauchy_le (a := c) (b := y) (Nat.cast_nonneg n) (by positivity) hc hy
  rw [← hu] at h2
  have h3 : ((size t cs + n * rest : ℕ) : ℝ) ≤ ((b * unit : ℕ) : ℝ) := by exact_mod_cast Nat.le_of_ble_eq_true hb
  have h4 : |(unit : ℕ) * X| ≤ (unit : ℕ) * (b * A) := by
    rw [hx]
    refine (abs_add_le _ _).trans ((add_le_add h1 h2).trans ?_)
    have := mul_le_mul_of_nonneg_right h3 hA
    push_cast at this ⊢
    linarith
  have hU : (0 : ℝ) < (unit : ℕ) := by norm_num
  rw [abs_mul, abs_of_pos hU] at h4
  exact le_of_mul_le_mul_left h4 hU

theorem Fits.bounded (hpl : pl.Ok) {A : ℝ} {s : State} {f : KalmanFilter (Fl f64)} (hA : 0 ≤ A) (h : pl.Fits A s f) (hs : pl.within s = true) :
    Bounded A pl.b0 pl.b1 pl.b2 pl.b3 f.stateEstimation := by
  obtain ⟨v, y, hv, hy, hx⟩ := h.held
  simp only [within, Bool.and_eq_true] at hs
  obtain ⟨g0, g1, g2, g3⟩ := hs
  have fr := hpl.frame
  refine ⟨h.f0, h.f1, h.f2, h.f3, ?_, ?_, ?_, ?_⟩
  · exact row_bound hA hv hy (vi := v.e0) (by simp [dotR]) ⟨pl.frame.u0.e0, pl.frame.u1.e0, pl.frame.u2.e0, pl.frame.u3.e0⟩ fr.n0 rfl (congrArg Vec4.e0 hx) g0
  · exact row_bound hA hv hy (vi := v.e1) (by simp [dotR]) ⟨pl.frame.u0.e1, pl.frame.u1.e1, pl.frame.u2.e1, pl.frame.u3.e1⟩ fr.n1 rfl (congrArg Vec4.e1 hx) g1
  · exact row_bound hA hv hy (vi := v.e2) (by simp [dotR]) ⟨pl.frame.u0.e2, pl.frame.u1.e2, pl.frame.u2.e2, pl.frame.u3.e2⟩ fr.n2 rfl (congrArg Vec4.e2 hx) g2
  · exact row_bound hA hv hy (vi := v.e3) (by simp [dotR]) ⟨pl.frame.u0.e3, pl.frame.u1.e3, pl.frame.u2.e3, pl.frame.u3.e3⟩ fr.n3 rfl (congrArg Vec4.e3 hx) g3

theorem half_fact : Finite (Scalar.ofRatio 1 2 * kDtSquared : Fl f64) ∧ Fl.num (Scalar.ofRatio 1 2 * kDtSquared : Fl f64) = 1 / 2 := by
  have h : Dy.Is (Scalar.ofRatio 1 2 * kDtSquared : Fl f64) (.num false 4503599627370496 1021) := by
    have h1 := is_half.mul (is_one'.mul is_one')
    have e : (Scalar.ofRatio 1 2 : Dy).mul ((1 : Dy).mul 1) = .num false 4503599627370496 1021 := by decide +kernel
    rw [e] at h1
    exact h1
  refine ⟨h.1, ?_⟩
  rw [num_of_is h, show (1074 : ℕ) = 1021 + 53 from rfl, pow_add]
  simp only [Dy.sg, Bool.false_eq_true, if_false]
  have : (2 : ℝ) ^ 1021 ≠ 0 := by positivity
  generalize (2 : ℝ) ^ 1021 = z at *
  field_simp
  norm_num

theorem sixth_fact : Finite (1 / 6 * kDtCubed : Fl f64) ∧ |Fl.num (1 / 6 * kDtCubed : Fl f64) - 1 / 6| ≤ 1 / 2 ^ 50 := by
  have h : Dy.Is (1 / 6 * kDtCubed : Fl f64) (.num false 6004799503160661 1019) := by
    have h6 : Dy.Is (6 : Fl f64) (6 : Dy) := Dy.is_ofInt
    have h1 := (is_one'.div h6).mul ((is_one'.mul is_one').mul is_one')
    have e : ((1 : Dy).div 6).mul (((1 : Dy).mul 1).mul 1) = .num false 6004799503160661 1019 := by decide +kernel
    rw [e] at h1
    exact h1
  refine ⟨h.1, ?_⟩
  rw [num_of_is h, show (1074 : ℕ) = 1019 + 55 from rfl, pow_add]
  simp only [Dy.sg, Bool.false_eq_true, if_false]
  have : (2 : ℝ) ^ 1019 ≠ 0 := by positivity
  generalize (2 : ℝ) ^ 1019 = z at *
  have e : ((6004799503160661 : ℕ) : ℝ) * z / (z * 2 ^ 55) = 6004799503160661 / 2 ^ 55 := by
    push_cast; field_simp
  rw [e, abs_le]
  constructor <;> norm_num

/-- A sum of products with constants. -/
theorem ap_dot {A : ℝ} (hA : Decent A) {v c : Vec4 (Fl f64)} {r : Vec4 ℝ} {b e k0 k1 k2 k3 : ℝ} (hb : 0 ≤ b) (he1 : e ≤ 1)
    (h0 : Ap A v.e0 r.e0 b e) (h1 : Ap A v.e1 r.e1 b e) (h2 : Ap A v.e2 r.e2 b e) (h3 : Ap A v.e3 r.e3 b e)
    (f0 : Finite c.e0) (f1 : Finite c.e1) (f2 : Finite c.e2) (f3 : Finite c.e3)
    (c0 : |Fl.num c.e0| ≤ k0) (c1 : |Fl.num c.e1| ≤ k1) (c2 : |Fl.num c.e2| ≤ k2) (c3 : |Fl.num c.e3| ≤ k3) (hk : (b + 1) * (k0 + k1 + k2 + k3) ≤ 200) :
    Ap A (Vec4.dot v c) (r.e0 * Fl.num c.e0 + r.e1 * Fl.num c.e1 + r.e2 * Fl.num c.e2 + r.e3 * Fl.num c.e3) (b * (k0 + k1 + k2 + k3))
      (e * (k0 + k1 + k2 + k3) + 8 / 2 ^ 44) := by
  have p0 := (abs_nonneg _).trans c0
  have p1 := (abs_nonneg _).trans c1
  have p2 := (abs_nonneg _).trans c2
  have p3 := (abs_nonneg _).trans c3
  have q0 := mul_nonneg hb p0
  have q1 := mul_nonneg hb p1
  have q2 := mul_nonneg hb p2
  have q3 := mul_nonneg hb p3
  have s0 := mul_le_mul_of_nonneg_right he1 p0
  have s1 := mul_le_mul_of_nonneg_right he1 p1
  have s2 := mul_le_mul_of_nonneg_right he1 p2
  have s3 := mul_le_mul_of_nonneg_right he1 p3
  have hε : (0 : ℝ) ≤ 1 / 2 ^ 44 := by positivity
  have hε1 : (1 : ℝ) / 2 ^ 44 ≤ 1 := by norm_num
  have h8 : (8 : ℝ) / 2 ^ 44 = 8 * (1 / 2 ^ 44) := by ring
  rw [h8]
  have m0 := h0.mulc hA f0 c0 (by nlinarith)
  have m1 := h1.mulc hA f1 c1 (by nlinarith)
  have m2 := h2.mulc hA f2 c2 (by nlinarith)
  have m3 := h3.mulc hA f3 c3 (by nlinarith)
  have z : Ap A (0 : Fl f64) 0 0 0 := ⟨finite_zero, by simp, by rw [num_zero]; simp⟩
  generalize (1 : ℝ) / 2 ^ 44 = ε at *
  have a0 := z.add hA m0 (by nlinarith)
  have a1 := a0.add hA m1 (by nlinarith)
  have a2 := a1.add hA m2 (by nlinarith)
  have a3 := a2.add hA m3 (by nlinarith)
  rw [zero_add] at a3
  exact a3.mono hA (by linarith) (by linarith)

theorem ap_dot' {A : ℝ} (hA : Decent A) {p : Vec4 (Fl f64)} {r : Vec4 ℝ} {b e : ℝ} (he1 : e ≤ 1) (hb' : b ≤ 200)
    (h0 : Ap A p.e0 r.e0 b e) (h1 : Ap A p.e1 r.e1 b e) (h2 : Ap A p.e2 r.e2 b e) (h3 : Ap A p.e3 r.e3 b e) :
    Ap A (Vec4.dot (⟨1, 0, 0, 0⟩ : Vec4 (Fl f64)) p) r.e0 b (e + 8 / 2 ^ 44) := by
  have f1 : Finite (1 : Fl f64) := finite_lit (f := f64) (n := 1) one_lt_two_pow
  have n1 : |Fl.num (1 : Fl f64)| ≤ 1 := by rw [num_one]; simp
  have n0 : |Fl.num (0 : Fl f64)| ≤ 0 := by rw [num_zero]; simp
  have hε : (0 : ℝ) ≤ 1 / 2 ^ 44 := by positivity
  have hε1 : (1 : ℝ) / 2 ^ 44 ≤ 1 := by norm_num
  have h8 : (8 : ℝ) / 2 ^ 44 = 8 * (1 / 2 ^ 44) := by ring
  rw [h8]
  have m0 := h0.cmul hA f1 n1 (by linarith)
  have m1 := h1.cmul hA finite_zero n0 (by linarith)
  have m2 := h2.cmul hA finite_zero n0 (by linarith)
  have m3 := h3.cmul hA finite_zero n0 (by linarith)
  have z : Ap A (0 : Fl f64) 0 0 0 := ⟨finite_zero, by simp, by rw [num_zero]; simp⟩
  generalize (1 : ℝ) / 2 ^ 44 = ε at *
  have a0 := z.add hA m0 (by linarith)
  have a1 := a0.add hA m1 (by linarith)
  have a2 := a1.add hA m2 (by linarith)
  have a3 := a2.add hA m3 (by linarith)
  rw [num_one, num_zero, zero_add, mul_one, mul_zero, mul_zero, mul_zero, add_zero, add_zero, add_zero] at a3
  exact a3.mono hA (by linarith) (by linarith)

/-- From errors in the constants and in rounding to an error in units. -/
theorem total_err {A X r rr z a0 r0 K k : ℝ} (hA : 0 ≤ A) (hX : |X - (r + (z - r0) * K)| ≤ 64 * (1 / 2 ^ 44) * A) (hr : |r - rr| ≤ 8 / 2 ^ 50 * A)
    (h0 : |r0 - a0| ≤ 8 / 2 ^ 50 * A) (hz : |z - r0| ≤ 25 * A) (hK : |K - k / (unit : ℕ)| ≤ 1 / (unit : ℕ)) (hK3 : |K| ≤ 3) :
    |X - (rr + k / (unit : ℕ) * (z - a0))| ≤ 32 / (unit : ℕ) * A := by
  have e : X - (rr + k / (unit : ℕ) * (z - a0)) = (X - (r + (z - r0) * K)) + (r - rr) + (z - r0) * (K - k / (unit : ℕ)) - (k / (unit : ℕ)) * (r0 - a0) := by ring
  have hk4 : |k / (unit : ℕ)| ≤ 4 := by
    have : (1 : ℝ) / (unit : ℕ) ≤ 1 := by norm_num
    rw [abs_le] at *
    constructor <;> linarith [hK.1, hK.2, hK3.1, hK3.2]
  have m1 : |(z - r0) * (K - k / (unit : ℕ))| ≤ 25 * A * (1 / (unit : ℕ)) := by
    rw [abs_mul]; exact mul_le_mul hz hK (abs_nonneg _) (by positivity)
  have m2 : |(k / (unit : ℕ)) * (r0 - a0)| ≤ 4 * (8 / 2 ^ 50 * A) := by
    rw [abs_mul]; exact mul_le_mul hk4 h0 (abs_nonneg _) (by norm_num)
  have fin : 64 * (1 / 2 ^ 44) * A + 8 / 2 ^ 50 * A + 25 * A * (1 / (unit : ℕ)) + 4 * (8 / 2 ^ 50 * A) ≤ 32 / (unit : ℕ) * A := by
    rw [show 64 * (1 / 2 ^ 44) * A + 8 / 2 ^ 50 * A + 25 * A * (1 / (unit : ℕ)) + 4 * (8 / 2 ^ 50 * A) = (64 * (1 / 2 ^ 44) + 8 / 2 ^ 50 + 25 * (1 / (unit : ℕ)) + 4 * (8 / 2 ^ 50)) * A by ring]
    exact mul_le_mul_of_nonneg_right (by norm_num) hA
  rw [e]
  rw [abs_le] at *
  constructor <;> linarith [hX.1, hX.2, hr.1, hr.2, m1.1, m1.2, m2.1, m2.2]

theorem Fits.step (hpl : pl.Ok) {A : ℝ} (hA : Decent A) {s : State} {f : KalmanFilter (Fl f64)} {z : Fl f64} (h : pl.Fits A s f) (hs : pl.fine s = true)
    (hz : Finite z) (hzA : |Fl.num z| ≤ A) : pl.Fits A (pl.next s) (f.predict.correct z) := by
  have hp := hA.pos
  simp only [fine, Bool.and_eq_true] at hs
  obtain ⟨hw, hu, hm⟩ := hs
  have hm := Nat.le_of_ble_eq_true hm
  have hB := h.bounded hpl hp.le hw
  have cast8 : ∀ {b : ℕ} {x : ℝ}, b ≤ 8 → |x| ≤ b * A → |x| ≤ 8 * A := by
    intro b x hb hx
    have : (b : ℝ) ≤ 8 := by exact_mod_cast hb
    exact hx.trans (mul_le_mul_of_nonneg_right this hp.le)
  have g := h.consts.gain (h.consts.prior h.cov)
  change IsV _ (pl.gain s) at g
  have e0 := cast8 hpl.b0 hB.e0
  have e1 := cast8 hpl.b1 hB.e1
  have e2 := cast8 hpl.b2 hB.e2
  have e3 := cast8 hpl.b3 hB.e3
  have cov := h.consts.posterior (h.consts.prior h.cov) g
  simp only [unitsVOk, Bool.and_eq_true] at hu
  obtain ⟨kf0, kn0, km0⟩ := units_near g.e0 hu.1
  obtain ⟨kf1, kn1, km1⟩ := units_near g.e1 hu.2.1
  obtain ⟨kf2, kn2, km2⟩ := units_near g.e2 hu.2.2.1
  obtain ⟨kf3, kn3, km3⟩ := units_near g.e3 hu.2.2.2
  have x0 := Ap.exact hB.f0 e0
  have x1 := Ap.exact hB.f1 e1
  have x2 := Ap.exact hB.f2 e2
  have x3 := Ap.exact hB.f3 e3
  have held := h.held
  have hst := correct_state f z
  rw [h.motion.trans, h.motion.meas] at hst
  generalize hK : gainOf f (priorCov f f.errorCovariance) = K at *
  generalize hx : f.stateEstimation = x at *
  obtain ⟨hfh, hh⟩ := half_fact
  obtain ⟨hfs, hsx⟩ := sixth_fact
  have f1 : Finite (1 : Fl f64) := finite_lit (f := f64) (n := 1) one_lt_two_pow
  have fk : Finite (kDt : Fl f64) := f1
  have nk : Fl.num (kDt : Fl f64) = 1 := num_one
  have n1 : |Fl.num (1 : Fl f64)| ≤ 1 := by rw [num_one]; simp
  have nk1 : |Fl.num (kDt : Fl f64)| ≤ 1 := by rw [nk]; simp
  have n0 : |Fl.num (0 : Fl f64)| ≤ 0 := by rw [num_zero]; simp
  have nh : |Fl.num (Scalar.ofRatio 1 2 * kDtSquared : Fl f64)| ≤ 1 := by rw [hh]; norm_num
  have ns : |Fl.num (1 / 6 * kDtCubed : Fl f64)| ≤ 0.25 := by
    rw [abs_le] at hsx ⊢
    have : (1 : ℝ) / 2 ^ 50 ≤ 0.01 := by norm_num
    constructor <;> linarith [hsx.1, hsx.2]
  have nh' : |Fl.num (Scalar.ofRatio 1 2 * kDtSquared : Fl f64)| ≤ 0.5 := by rw [hh]; norm_num
  have p0 := ap_dot hA (v := x) (c := ⟨1, kDt, Scalar.ofRatio 1 2 * kDtSquared, 1 / 6 * kDtCubed⟩) (r := numV x) (by norm_num) (by norm_num) x0 x1 x2 x3
    f1 fk hfh hfs n1 nk1 nh' ns (by norm_num)
  have p1 := ap_dot hA (v := x) (c := ⟨0, 1, kDt, Scalar.ofRatio 1 2 * kDtSquared⟩) (r := numV x) (by norm_num) (by norm_num) x0 x1 x2 x3
    finite_zero f1 fk hfh n0 n1 nk1 nh' (by norm_num)
  have p2 := ap_dot hA (v := x) (c := ⟨0, 0, 1, kDt⟩) (r := numV x) (by norm_num) (by norm_num) x0 x1 x2 x3
    finite_zero finite_zero f1 fk n0 n0 n1 nk1 (by norm_num)
  have p3 := ap_dot hA (v := x) (c := ⟨0, 0, 0, 1⟩) (r := numV x) (by norm_num) (by norm_num) x0 x1 x2 x3
    finite_zero finite_zero finite_zero f1 n0 n0 n0 n1 (by norm_num)
  simp only [num_one, num_zero, nk, hh, mul_one, mul_zero, zero_add, numV] at p0 p1 p2 p3
  have hε : (8 : ℝ) / 2 ^ 44 = 8 * (1 / 2 ^ 44) := by ring
  rw [hε] at p0 p1 p2 p3
  have hε0 : (0 : ℝ) ≤ 1 / 2 ^ 44 := by positivity
  have hε1 : (1 : ℝ) / 2 ^ 44 ≤ 1 / 1000 := by norm_num
  have p0 := p0.mono hA (c := 24) (d := 8 * (1 / 2 ^ 44)) (by norm_num) (by norm_num)
  have p1 := p1.mono hA (c := 24) (d := 8 * (1 / 2 ^ 44)) (by norm_num) (by norm_num)
  have p2 := p2.mono hA (c := 24) (d := 8 * (1 / 2 ^ 44)) (by norm_num) (by norm_num)
  have p3 := p3.mono hA (c := 24) (d := 8 * (1 / 2 ^ 44)) (by norm_num) (by norm_num)
  generalize hr0 : Fl.num x.e0 + Fl.num x.e1 + Fl.num x.e2 * (1 / 2) + Fl.num x.e3 * Fl.num (1 / 6 * kDtCubed : Fl f64) = r0 at *
  generalize hr1 : Fl.num x.e1 + Fl.num x.e2 + Fl.num x.e3 * (1 / 2) = r1 at *
  generalize hr2 : Fl.num x.e2 + Fl.num x.e3 = r2 at *
  generalize hr3 : Fl.num x.e3 = r3 at *
  have q := ap_dot' hA (p := (⟨⟨1, kDt, Scalar.ofRatio 1 2 * kDtSquared, 1 / 6 * kDtCubed⟩, ⟨0, 1, kDt, Scalar.ofRatio 1 2 * kDtSquared⟩, ⟨0, 0, 1, kDt⟩, ⟨0, 0, 0, 1⟩⟩ : Matrix4 (Fl f64)).mulVec x)
    (r := ⟨r0, r1, r2, r3⟩) (by linarith) (by norm_num) p0 p1 p2 p3
  rw [hε] at q
  have az : Ap A z (Fl.num z) 1 0 := Ap.exact hz (by linarith)
  have ay := az.sub hA q (by linarith)
  have m0 := ay.cmul hA kf0 km0 (by linarith)
  have m1 := ay.cmul hA kf1 km1 (by linarith)
  have m2 := ay.cmul hA kf2 km2 (by linarith)
  have m3 := ay.cmul hA kf3 km3 (by linarith)
  have w0 := p0.add hA m0 (by linarith)
  have w1 := p1.add hA m1 (by linarith)
  have w2 := p2.add hA m2 (by linarith)
  have w3 := p3.add hA m3 (by linarith)
  have le64 : 8 * (1 / 2 ^ 44) + ((0 + (8 * (1 / 2 ^ 44) + 8 * (1 / 2 ^ 44)) + 1 / 2 ^ 44) * 3 + 1 / 2 ^ 44) + (1 : ℝ) / 2 ^ 44 ≤ 64 * (1 / 2 ^ 44) := by linarith
  have w0 := w0.mono hA le_rfl le64
  have w1 := w1.mono hA le_rfl le64
  have w2 := w2.mono hA le_rfl le64
  have w3 := w3.mono hA le_rfl le64
  have hzr : |Fl.num z - r0| ≤ 25 * A := by have := ay.size; linarith
  have d0 : |r0 - (ahead (numV x)).e0| ≤ 8 / 2 ^ 50 * A := by
    have : r0 - (ahead (numV x)).e0 = r3 * (Fl.num (1 / 6 * kDtCubed : Fl f64) - 1 / 6) := by
      rw [← hr0]; simp only [ahead, numV, hr3]; ring
    rw [this, abs_mul]
    calc |r3| * _ ≤ 8 * A * (1 / 2 ^ 50) := mul_le_mul e3 hsx (abs_nonneg _) (by positivity)
      _ = _ := by ring
  have d1 : |r1 - (ahead (numV x)).e1| ≤ 8 / 2 ^ 50 * A := by
    have : r1 - (ahead (numV x)).e1 = 0 := by rw [← hr1]; simp only [ahead, numV, hr3]; ring
    rw [this, abs_zero]; positivity
  have d2 : |r2 - (ahead (numV x)).e2| ≤ 8 / 2 ^ 50 * A := by
    have : r2 - (ahead (numV x)).e2 = 0 := by rw [← hr2]; simp only [ahead, numV, hr3]; ring
    rw [this, abs_zero]; positivity
  have d3 : |r3 - (ahead (numV x)).e3| ≤ 8 / 2 ^ 50 * A := by
    have : r3 - (ahead (numV x)).e3 = 0 := by simp only [ahead, numV, hr3]; ring
    rw [this, abs_zero]; positivity
  have z0 := total_err hp.le w0.near d0 d0 hzr kn0 km0
  have z1 := total_err hp.le w1.near d1 d0 hzr kn1 km1
  have z2 := total_err hp.le w2.near d2 d0 hzr kn2 km2
  have z3 := total_err hp.le w3.near d3 d0 hzr kn3 km3
  refine ⟨⟨?_, ?_, ?_, ?_⟩, ⟨?_, ?_⟩, ?_, ?_, ?_, ?_, ?_, ?_⟩
  · rw [correct_trans]; exact h.consts.trans
  · rw [correct_noise]; exact h.consts.noise
  · rw [correct_meas]; exact h.consts.meas
  · rw [correct_var]; exact h.consts.var
  · rw [correct_trans]; exact h.motion.trans
  · rw [correct_meas]; exact h.motion.meas
  · rw [correct_cov, hK]; exact cov
  · rw [hst]
    exact held.step hpl.frame (k := unitsV (pl.gain s)) hzA hm (le_refl _) z0 z1 z2 z3
  · rw [hst]; exact w0.fin
  · rw [hst]; exact w1.fin
  · rw [hst]; exact w2.fin
  · rw [hst]; exact w3.fin

/-- Before the second measurement. -/
def start : State := ⟨Matrix4.one, [⟨unit, 0, 0, 0⟩], 0⟩

theorem fits_start {A : ℝ} {q r z : Fl f64} {q' r' : Dy} {n : ℤ} (hf : pl.filter = makeKalmanFilter q' r' n) (hq : Dy.Is q q') (hr : Dy.Is r r')
    (hz : Finite z) (hzA : |Fl.num z| ≤ A) {f : KalmanFilter (Fl f64)} (h : (makeKalmanFilter q r n).update z = .ok f) : pl.Fits A start f ∧ f.iterNum = 1 := by
  rw [first_update] at h
  obtain rfl := Outcome.ok.inj h
  refine ⟨⟨?_, ⟨rfl, rfl⟩, isM_one, ?_, hz, finite_zero, finite_zero, finite_zero⟩, rfl⟩
  · rw [hf]
    have := isF_make hq hr n
    exact ⟨this.trans, this.noise, this.meas, this.var⟩
  · refine ⟨⟨Fl.num z * (unit : ℕ), 0, 0, 0⟩, zeroV, ⟨Fl.num z, zeroV, hzA, rfl, ?_⟩, by simp only [Hold.sq, zeroV]; simp; positivity, ?_⟩
    · apply Hold.ext <;> simp [addV, mulV, castV, zeroV]
    · have n0 : Fl.num (Vec4.zero : Vec4 (Fl f64)).e1 = 0 := num_zero
      apply Hold.ext
      · change (unit : ℕ) * Fl.num z = _
        simp [addV, Frame.build, zeroV]; ring
      · change (unit : ℕ) * Fl.num (0 : Fl f64) = _
        rw [num_zero]; simp [addV, Frame.build, zeroV]
      · change (unit : ℕ) * Fl.num (0 : Fl f64) = _
        rw [num_zero]; simp [addV, Frame.build, zeroV]
      · change (unit : ℕ) * Fl.num (0 : Fl f64) = _
        rw [num_zero]; simp [addV, Frame.build, zeroV]

theorem Fits.congr {A : ℝ} {s : State} {f g : KalmanFilter (Fl f64)} (h : pl.Fits A s f) (h1 : g = { f with iterNum := g.iterNum }) : pl.Fits A s g := by
  rw [h1]
  exact ⟨⟨h.consts.trans, h.consts.noise, h.consts.meas, h.consts.var⟩, ⟨h.motion.trans, h.motion.meas⟩, h.cov, h.held, h.f0, h.f1, h.f2, h.f3⟩

theorem fits_measure (hpl : pl.Ok) {A : ℝ} (hA : Decent A) (hfine : ∀ k, pl.fine (pl.next^[k] start) = true) {zs : List (Fl f64)}
    (hzs : ∀ z ∈ zs, Finite z ∧ |Fl.num z| ≤ A) {f f' : KalmanFilter (Fl f64)} {k : ℕ} (h : pl.Fits A (pl.next^[k] start) f) (hi : 0 < f.iterNum)
    (hm : measure f zs = .ok f') : ∃ k, pl.Fits A (pl.next^[k] start) f' := by
  induction zs generalizing f k with
  | nil =>
    obtain rfl := Outcome.ok.inj hm
    exact ⟨k, h⟩
  | cons z zs ih =>
    simp only [measure, List.foldlM_cons] at hm
    cases hu : f.update z with
    | ub m => rw [hu] at hm; cases hm
    | diverge => rw [hu] at hm; cases hm
    | ok g =>
      rw [hu, Outcome.ok_bind] at hm
      unfold KalmanFilter.update at hu
      split at hu
      · cases hu
      · simp only [if_neg (show ¬ f.iterNum = 0 by omega)] at hu
        obtain rfl := Outcome.ok.inj hu
        have hz := hzs z (by simp)
        have h1 : pl.Fits A (pl.next^[k] start) { f with iterNum := f.iterNum + 1 } := h.congr rfl
        have h2 := h1.step hpl hA (hfine k) hz.1 hz.2
        rw [← Function.iterate_succ_apply' pl.next] at h2
        exact ih (fun z hz => hzs z (by simp [hz])) h2 (by change 0 < f.iterNum + 1; omega) hm

/-- Whatever is measured, the estimate stays within the bounds. -/
theorem bounded_measure (hpl : pl.Ok) {A : ℝ} (hA : Decent A) {N : ℕ} (hrun : pl.run N start = true) {q r : Fl f64} {q' r' : Dy} {n n' : ℤ}
    (hf : pl.filter = makeKalmanFilter q' r' n') (hq : Dy.Is q q') (hr : Dy.Is r r') {zs : List (Fl f64)} (hne : zs ≠ [])
    (hzs : ∀ z ∈ zs, Finite z ∧ |Fl.num z| ≤ A) {f : KalmanFilter (Fl f64)} (hm : measure (makeKalmanFilter q r n) zs = .ok f) :
    Bounded A pl.b0 pl.b1 pl.b2 pl.b3 f.stateEstimation := by
  obtain ⟨z, zs, rfl⟩ := List.exists_cons_of_ne_nil hne
  simp only [measure, List.foldlM_cons] at hm
  rw [first_update, Outcome.ok_bind] at hm
  have hz := hzs z (by simp)
  obtain ⟨h1, h2⟩ := fits_start (pl := pl) hf hq hr hz.1 hz.2 (first_update q r z n')
  have h3 : pl.Fits A (pl.next^[0] start) { makeKalmanFilter q r n with stateEstimation := ⟨z, 0, 0, 0⟩, iterNum := 1 } :=
    ⟨⟨h1.consts.trans, h1.consts.noise, h1.consts.meas, h1.consts.var⟩, ⟨h1.motion.trans, h1.motion.meas⟩, h1.cov, h1.held, h1.f0, h1.f1, h1.f2, h1.f3⟩
  obtain ⟨k, hk⟩ := fits_measure hpl hA (fine_of_run pl hrun) (fun z hz => hzs z (by simp [hz])) h3
    Int.one_pos hm
  have hw := fine_of_run pl hrun k
  simp only [fine, Bool.and_eq_true] at hw
  exact hk.bounded hpl hA.pos.le hw.1

end Plan
end
end Ink
