import Verif.IEEE.Dyadic
import Verif.Model.Matrix
import Mathlib.Algebra.Order.BigOperators.Ring.Finset
import Mathlib.Algebra.BigOperators.Fin
import Mathlib.Data.Fin.VecNotation
/-!
# Bounding what a linear recursion with changing coefficients can reach

A state `x` becomes `F x + k (z - (F x)₀)`, with `F` the matrix of a motion with constant jerk and `k` the gain. What the latest measurements
contribute is kept as a list of coefficients; what the others contribute is bounded in a basis in which the recursion contracts.
All numbers are integers, in units of `1 / unit`.
-/
namespace Ink.Hold
open Ink
noncomputable section

abbrev unit : ℕ := 4294967296

/-- `f z`, with `z` evaluated first. -/
def forceInt {α : Type} (z : ℤ) (f : ℤ → α) : α :=
  match z with
  | .ofNat n => forceNat n fun n => f (.ofNat n)
  | .negSucc n => forceNat n fun n => f (.negSucc n)

@[simp] theorem forceInt_eq {α : Type} (z : ℤ) (f : ℤ → α) : forceInt z f = f z := by cases z <;> simp [forceInt]

/-- `f v`, with `v` evaluated first. -/
def forceVec {α : Type} (v : Vec4 ℤ) (f : Vec4 ℤ → α) : α :=
  forceInt v.e0 fun a => forceInt v.e1 fun b => forceInt v.e2 fun c => forceInt v.e3 fun d => f ⟨a, b, c, d⟩

@[simp] theorem forceVec_eq {α : Type} (v : Vec4 ℤ) (f : Vec4 ℤ → α) : forceVec v f = f v := by simp [forceVec]

/-- `f l`, with `l` evaluated first. -/
def forceList {α : Type} (l : List (Vec4 ℤ)) (f : List (Vec4 ℤ) → α) : α :=
  List.rec (motive := fun _ => (List (Vec4 ℤ) → α) → α) (fun f => f [])
    (fun c _ ih f => forceVec c fun c => ih fun cs => f (c :: cs)) l f

@[simp] theorem forceList_eq {α : Type} (l : List (Vec4 ℤ)) (f : List (Vec4 ℤ) → α) : forceList l f = f l := by
  induction l generalizing f with
  | nil => rfl
  | cons c cs ih =>
    change forceVec c (fun c => forceList cs fun cs => f (c :: cs)) = _
    rw [forceVec_eq, ih]

def dotZ (t c : Vec4 ℤ) : ℤ := t.e0 * c.e0 + t.e1 * c.e1 + t.e2 * c.e2 + t.e3 * c.e3
def dotR (t : Vec4 ℤ) (v : Vec4 ℝ) : ℝ := t.e0 * v.e0 + t.e1 * v.e1 + t.e2 * v.e2 + t.e3 * v.e3

/-- Six times `F c`. -/
def ahead6 (c : Vec4 ℤ) : Vec4 ℤ :=
  ⟨6 * c.e0 + 6 * c.e1 + 3 * c.e2 + c.e3, 6 * c.e1 + 6 * c.e2 + 3 * c.e3, 6 * c.e2 + 6 * c.e3, 6 * c.e3⟩

/-- `F v` -/
def ahead (v : Vec4 ℝ) : Vec4 ℝ := ⟨v.e0 + v.e1 + v.e2 / 2 + v.e3 / 6, v.e1 + v.e2 + v.e3 / 2, v.e2 + v.e3, v.e3⟩

/-- What becomes of a state if zero is measured. -/
def lin (k : Vec4 ℤ) (v : Vec4 ℝ) : Vec4 ℝ :=
  ⟨(ahead v).e0 - k.e0 / unit * (ahead v).e0, (ahead v).e1 - k.e1 / unit * (ahead v).e0,
   (ahead v).e2 - k.e2 / unit * (ahead v).e0, (ahead v).e3 - k.e3 / unit * (ahead v).e0⟩

/-- The same for integers, up to rounding. -/
def pull (k c : Vec4 ℤ) : Vec4 ℤ :=
  forceVec (ahead6 c) fun p =>
    ⟨(p.e0 - k.e0 * p.e0 / unit) / 6, (p.e1 - k.e1 * p.e0 / unit) / 6, (p.e2 - k.e2 * p.e0 / unit) / 6, (p.e3 - k.e3 * p.e0 / unit) / 6⟩

/-- The same for integers, `6 * unit` times as large. -/
def lin6 (k c : Vec4 ℤ) : Vec4 ℤ :=
  forceVec (ahead6 c) fun p =>
    ⟨unit * p.e0 - k.e0 * p.e0, unit * p.e1 - k.e1 * p.e0, unit * p.e2 - k.e2 * p.e0, unit * p.e3 - k.e3 * p.e0⟩

theorem floor_err (a b : ℤ) (u : ℝ) (h : |(b : ℝ) - u| ≤ 1) : |(((a - b) / 6 : ℤ) : ℝ) - ((a : ℝ) - u) / 6| ≤ 2 := by
  have h1 : ((a - b) / 6) * 6 ≤ a - b := Int.ediv_mul_le _ (by norm_num)
  have h2 : a - b < ((a - b) / 6 + 1) * 6 := Int.lt_ediv_add_one_mul_self _ (by norm_num)
  generalize (a - b) / 6 = q at *
  have h1 : (q : ℝ) * 6 ≤ a - b := by exact_mod_cast h1
  have h2 : (a : ℝ) - b < (q + 1) * 6 := by exact_mod_cast h2
  rw [abs_le] at *
  constructor <;> linarith

theorem unit_err (a : ℤ) : |((a / (unit : ℕ) : ℤ) : ℝ) - (a : ℝ) / unit| ≤ 1 := by
  have h1 : (a / (unit : ℕ)) * (unit : ℕ) ≤ a := Int.ediv_mul_le _ (by norm_num)
  have h2 : a < (a / (unit : ℕ) + 1) * (unit : ℕ) := Int.lt_ediv_add_one_mul_self _ (by norm_num)
  generalize a / (unit : ℕ) = q at *
  have h1 : (q : ℝ) * (unit : ℕ) ≤ a := by exact_mod_cast h1
  have h2 : (a : ℝ) < (q + 1) * (unit : ℕ) := by exact_mod_cast h2
  have hu : (0 : ℝ) < (unit : ℕ) := by norm_num
  rw [abs_le]
  have e : (a : ℝ) = a / (unit : ℕ) * (unit : ℕ) := by field_simp
  generalize (a : ℝ) / (unit : ℕ) = r at *
  rw [e] at h1 h2
  have h3 := le_of_mul_le_mul_right h1 hu
  have h4 := lt_of_mul_lt_mul_right h2 hu.le
  constructor <;> linarith

/-- Every component is at most `e` away. -/
def Off (e : ℝ) (v w : Vec4 ℝ) : Prop := |v.e0 - w.e0| ≤ e ∧ |v.e1 - w.e1| ≤ e ∧ |v.e2 - w.e2| ≤ e ∧ |v.e3 - w.e3| ≤ e

def castV (c : Vec4 ℤ) : Vec4 ℝ := ⟨c.e0, c.e1, c.e2, c.e3⟩
def addV (v w : Vec4 ℝ) : Vec4 ℝ := ⟨v.e0 + w.e0, v.e1 + w.e1, v.e2 + w.e2, v.e3 + w.e3⟩
def mulV (z : ℝ) (v : Vec4 ℝ) : Vec4 ℝ := ⟨z * v.e0, z * v.e1, z * v.e2, z * v.e3⟩
def zeroV : Vec4 ℝ := ⟨0, 0, 0, 0⟩

theorem ext {v w : Vec4 ℝ} (h0 : v.e0 = w.e0) (h1 : v.e1 = w.e1) (h2 : v.e2 = w.e2) (h3 : v.e3 = w.e3) : v = w := by
  cases v; cases w; simp_all

theorem lin_add (k : Vec4 ℤ) (v w : Vec4 ℝ) : lin k (addV v w) = addV (lin k v) (lin k w) := by
  apply ext <;> simp only [lin, addV, ahead] <;> ring

theorem lin_mul (k : Vec4 ℤ) (z : ℝ) (v : Vec4 ℝ) : lin k (mulV z v) = mulV z (lin k v) := by
  apply ext <;> simp only [lin, mulV, ahead] <;> ring

theorem dotR_add (t : Vec4 ℤ) (v w : Vec4 ℝ) : dotR t (addV v w) = dotR t v + dotR t w := by simp only [dotR, addV]; ring
theorem dotR_mul (t : Vec4 ℤ) (z : ℝ) (v : Vec4 ℝ) : dotR t (mulV z v) = z * dotR t v := by simp only [dotR, mulV]; ring
theorem dotR_cast (t c : Vec4 ℤ) : dotR t (castV c) = (dotZ t c : ℤ) := by simp only [dotR, castV, dotZ]; push_cast; ring

theorem pull_off (k c : Vec4 ℤ) : Off 2 (castV (pull k c)) (lin k (castV c)) := by
  have key : ∀ i p0 pi : ℤ, |(((pi - i * p0 / (unit : ℕ)) / 6 : ℤ) : ℝ) - ((pi : ℝ) / 6 - i / (unit : ℕ) * (p0 / 6))| ≤ 2 := by
    intro i p0 pi
    have h := unit_err (i * p0)
    have := floor_err pi _ _ h
    rw [show (pi : ℝ) / 6 - i / (unit : ℕ) * (p0 / 6) = ((pi : ℝ) - ((i * p0 : ℤ) : ℝ) / (unit : ℕ)) / 6 by push_cast; ring]
    exact this
  have e0 : (ahead (castV c)).e0 = ((ahead6 c).e0 : ℝ) / 6 := by simp only [ahead, castV, ahead6]; push_cast; ring
  have e1 : (ahead (castV c)).e1 = ((ahead6 c).e1 : ℝ) / 6 := by simp only [ahead, castV, ahead6]; push_cast; ring
  have e2 : (ahead (castV c)).e2 = ((ahead6 c).e2 : ℝ) / 6 := by simp only [ahead, castV, ahead6]; push_cast; ring
  have e3 : (ahead (castV c)).e3 = ((ahead6 c).e3 : ℝ) / 6 := by simp only [ahead, castV, ahead6]; push_cast; ring
  unfold Off lin pull
  rw [forceVec_eq, e0, e1, e2, e3]
  exact ⟨key _ _ _, key _ _ _, key _ _ _, key _ _ _⟩

theorem lin6_eq (k c : Vec4 ℤ) : castV (lin6 k c) = mulV (6 * unit) (lin k (castV c)) := by
  unfold lin6
  rw [forceVec_eq]
  have hu : ((unit : ℕ) : ℝ) ≠ 0 := by norm_num
  apply ext <;> simp only [lin, castV, mulV, ahead, ahead6] <;> push_cast <;> field_simp <;> ring

/-- `v` is a combination of the coefficients with measurements of at most `A`. -/
def Spans (A : ℝ) : List (Vec4 ℤ) → Vec4 ℝ → Prop
  | [], v => v = zeroV
  | c :: cs, v => ∃ z w, |z| ≤ A ∧ Spans A cs w ∧ v = addV (mulV z (castV c)) w

/-- The sum of the sizes of the coefficients, seen along `t`. -/
def size (t : Vec4 ℤ) (cs : List (Vec4 ℤ)) : ℕ :=
  List.rec 0 (fun c _ ih => forceNat (Nat.add (dotZ t c).natAbs ih) fun n => n) cs

theorem size_cons (t c : Vec4 ℤ) (cs : List (Vec4 ℤ)) : size t (c :: cs) = (dotZ t c).natAbs + size t cs := by
  change forceNat (Nat.add (dotZ t c).natAbs (size t cs)) (fun n => n) = _
  rw [forceNat_eq]; rfl

theorem Spans.dot {A : ℝ} (t : Vec4 ℤ) : ∀ {cs : List (Vec4 ℤ)} {v : Vec4 ℝ}, Spans A cs v → |dotR t v| ≤ size t cs * A
  | [], v, h => by
    have h : v = zeroV := h
    subst h
    have : dotR t zeroV = 0 := by simp [dotR, zeroV]
    rw [this]
    change |(0 : ℝ)| ≤ ((0 : ℕ) : ℝ) * A
    simp
  | c :: cs, v, h => by
    obtain ⟨z, w, hz, hw, rfl⟩ := h
    have ih := Spans.dot t hw
    rw [dotR_add, dotR_mul, dotR_cast, size_cons]
    have h1 : |z * (dotZ t c : ℤ)| ≤ (dotZ t c).natAbs * A := by
      rw [abs_mul, Nat.cast_natAbs, Int.cast_abs, mul_comm]
      exact mul_le_mul_of_nonneg_left hz (abs_nonneg _)
    push_cast at h1 ⊢
    calc |z * (dotZ t c : ℝ) + dotR t w| ≤ |z * (dotZ t c : ℝ)| + |dotR t w| := abs_add_le _ _
      _ ≤ _ := by linarith

theorem Spans.map {A : ℝ} (k : Vec4 ℤ) : ∀ {cs : List (Vec4 ℤ)} {v : Vec4 ℝ}, Spans A cs v →
    ∃ w, Spans A (cs.map (pull k)) w ∧ Off (2 * cs.length * A) w (lin k v)
  | [], v, h => by
    have h : v = zeroV := h
    subst h
    refine ⟨zeroV, rfl, ?_⟩
    simp [Off, zeroV, lin, ahead]
  | c :: cs, v, h => by
    obtain ⟨z, u, hz, hu, rfl⟩ := h
    obtain ⟨w, hw, h0, h1, h2, h3⟩ := hu.map k
    refine ⟨addV (mulV z (castV (pull k c))) w, ⟨z, w, hz, hw, rfl⟩, ?_⟩
    rw [lin_add, lin_mul]
    obtain ⟨g0, g1, g2, g3⟩ := pull_off k c
    have hA : 0 ≤ A := (abs_nonneg _).trans hz
    have key : ∀ {a b p q : ℝ}, |a - b| ≤ 2 → |p - q| ≤ 2 * (cs.length : ℝ) * A →
        |z * a + p - (z * b + q)| ≤ 2 * ((c :: cs).length : ℝ) * A := by
      intro a b p q h1 h2
      have h3 : |z * (a - b)| ≤ A * 2 := by rw [abs_mul]; exact mul_le_mul hz h1 (abs_nonneg _) hA
      rw [show z * a + p - (z * b + q) = z * (a - b) + (p - q) by ring]
      refine (abs_add_le _ _).trans ?_
      rw [List.length_cons]; push_cast
      linarith
    exact ⟨key g0 h0, key g1 h1, key g2 h2, key g3 h3⟩

theorem Spans.split {A : ℝ} : ∀ (n : ℕ) {cs : List (Vec4 ℤ)} {v : Vec4 ℝ}, Spans A cs v →
    ∃ u w, Spans A (cs.take n) u ∧ Spans A (cs.drop n) w ∧ v = addV u w
  | 0, cs, v, h => ⟨zeroV, v, rfl, h, by apply ext <;> simp [addV, zeroV]⟩
  | n + 1, [], v, h => ⟨zeroV, v, rfl, h, by apply ext <;> simp [addV, zeroV]⟩
  | n + 1, c :: cs, v, h => by
    obtain ⟨z, w, hz, hw, rfl⟩ := h
    obtain ⟨u, x, hu, hx, rfl⟩ := hw.split n
    exact ⟨addV (mulV z (castV c)) u, x, ⟨z, u, hz, hu, rfl⟩, hx, by apply ext <;> simp [addV] <;> ring⟩

def sq (y : Vec4 ℝ) : ℝ := y.e0 ^ 2 + y.e1 ^ 2 + y.e2 ^ 2 + y.e3 ^ 2

theorem sq_nonneg' (y : Vec4 ℝ) : 0 ≤ sq y := by unfold sq; positivity

theorem cauchy (a b : Vec4 ℝ) : (a.e0 * b.e0 + a.e1 * b.e1 + a.e2 * b.e2 + a.e3 * b.e3) ^ 2 ≤ sq a * sq b := by
  have := Finset.sum_mul_sq_le_sq_mul_sq (Finset.univ : Finset (Fin 4)) ![a.e0, a.e1, a.e2, a.e3] ![b.e0, b.e1, b.e2, b.e3]
  simpa [Fin.sum_univ_four, sq] using this

theorem cauchy_le {a b : Vec4 ℝ} {α β : ℝ} (h0 : 0 ≤ α) (h1 : 0 ≤ β) (ha : sq a ≤ α ^ 2) (hb : sq b ≤ β ^ 2) :
    |a.e0 * b.e0 + a.e1 * b.e1 + a.e2 * b.e2 + a.e3 * b.e3| ≤ α * β := by
  apply abs_le_of_sq_le_sq _ (mul_nonneg h0 h1)
  rw [mul_pow]
  exact (cauchy a b).trans (mul_le_mul ha hb (sq_nonneg' _) (by positivity))

theorem sq_add {a b : Vec4 ℝ} {α β : ℝ} (h0 : 0 ≤ α) (h1 : 0 ≤ β) (ha : sq a ≤ α ^ 2) (hb : sq b ≤ β ^ 2) :
    sq (addV a b) ≤ (α + β) ^ 2 := by
  have := (abs_le.1 (cauchy_le h0 h1 ha hb)).2
  unfold sq addV at *
  simp only at *
  nlinarith

theorem sq_of_sum {y : Vec4 ℝ} {s : ℝ} (h : |y.e0| + |y.e1| + |y.e2| + |y.e3| ≤ s) : sq y ≤ s ^ 2 := by
  have h0 := abs_nonneg y.e0
  have h1 := abs_nonneg y.e1
  have h2 := abs_nonneg y.e2
  have h3 := abs_nonneg y.e3
  have : (|y.e0| + |y.e1| + |y.e2| + |y.e3|) ^ 2 ≤ s ^ 2 := by gcongr
  unfold sq
  rw [← sq_abs y.e0, ← sq_abs y.e1, ← sq_abs y.e2, ← sq_abs y.e3]
  nlinarith [mul_nonneg h0 h1, mul_nonneg h0 h2, mul_nonneg h0 h3, mul_nonneg h1 h2, mul_nonneg h1 h3, mul_nonneg h2 h3]

theorem cross (g y z : ℝ) : 2 * (g * (y * z)) ≤ |g| * (y ^ 2 + z ^ 2) := by
  rcases abs_cases g with ⟨h, h'⟩ | ⟨h, h'⟩
  · rw [h]; nlinarith [mul_nonneg h' (sq_nonneg (y - z))]
  · rw [h]; nlinarith [mul_nonneg (neg_nonneg.2 h'.le) (sq_nonneg (y + z))]

/-- The columns of a basis, the rows of its inverse times `det`, and the lengths of the rows of the basis. -/
structure Frame where
  u0 : Vec4 ℤ
  u1 : Vec4 ℤ
  u2 : Vec4 ℤ
  u3 : Vec4 ℤ
  t0 : Vec4 ℤ
  t1 : Vec4 ℤ
  t2 : Vec4 ℤ
  t3 : Vec4 ℤ
  det : ℕ
  n0 : ℕ
  n1 : ℕ
  n2 : ℕ
  n3 : ℕ

namespace Frame
variable (f : Frame)

/-- A vector from its coordinates. -/
def build (y : Vec4 ℝ) : Vec4 ℝ :=
  ⟨f.u0.e0 * y.e0 + f.u1.e0 * y.e1 + f.u2.e0 * y.e2 + f.u3.e0 * y.e3, f.u0.e1 * y.e0 + f.u1.e1 * y.e1 + f.u2.e1 * y.e2 + f.u3.e1 * y.e3,
   f.u0.e2 * y.e0 + f.u1.e2 * y.e1 + f.u2.e2 * y.e2 + f.u3.e2 * y.e3, f.u0.e3 * y.e0 + f.u1.e3 * y.e1 + f.u2.e3 * y.e2 + f.u3.e3 * y.e3⟩

/-- The coordinates of a vector, times `det`. -/
def coords (v : Vec4 ℝ) : Vec4 ℝ := ⟨dotR f.t0 v, dotR f.t1 v, dotR f.t2 v, dotR f.t3 v⟩
def toZ (c : Vec4 ℤ) : Vec4 ℤ := ⟨dotZ f.t0 c, dotZ f.t1 c, dotZ f.t2 c, dotZ f.t3 c⟩

/-- What makes the basis one. -/
structure Ok : Prop where
  det : 0 < f.det
  inv : ∀ v, f.build (f.coords v) = mulV f.det v
  n0 : (f.u0.e0 : ℝ) ^ 2 + (f.u1.e0 : ℝ) ^ 2 + (f.u2.e0 : ℝ) ^ 2 + (f.u3.e0 : ℝ) ^ 2 ≤ (f.n0 : ℝ) ^ 2
  n1 : (f.u0.e1 : ℝ) ^ 2 + (f.u1.e1 : ℝ) ^ 2 + (f.u2.e1 : ℝ) ^ 2 + (f.u3.e1 : ℝ) ^ 2 ≤ (f.n1 : ℝ) ^ 2
  n2 : (f.u0.e2 : ℝ) ^ 2 + (f.u1.e2 : ℝ) ^ 2 + (f.u2.e2 : ℝ) ^ 2 + (f.u3.e2 : ℝ) ^ 2 ≤ (f.n2 : ℝ) ^ 2
  n3 : (f.u0.e3 : ℝ) ^ 2 + (f.u1.e3 : ℝ) ^ 2 + (f.u2.e3 : ℝ) ^ 2 + (f.u3.e3 : ℝ) ^ 2 ≤ (f.n3 : ℝ) ^ 2

/-- The largest sum of a row of the products of the columns of the recursion in the basis. -/
def most (k : Vec4 ℤ) : ℕ :=
  forceVec (f.toZ (lin6 k f.u0)) fun a => forceVec (f.toZ (lin6 k f.u1)) fun b =>
  forceVec (f.toZ (lin6 k f.u2)) fun c => forceVec (f.toZ (lin6 k f.u3)) fun d =>
  forceNat (dotZ a b).natAbs fun ab => forceNat (dotZ a c).natAbs fun ac => forceNat (dotZ a d).natAbs fun ad =>
  forceNat (dotZ b c).natAbs fun bc => forceNat (dotZ b d).natAbs fun bd => forceNat (dotZ c d).natAbs fun cd =>
  max (max ((dotZ a a).natAbs + ab + ac + ad) ((dotZ b b).natAbs + ab + bc + bd))
    (max ((dotZ c c).natAbs + ac + bc + cd) ((dotZ d d).natAbs + ad + bd + cd))

theorem gersh {y0 y1 y2 y3 aa bb cc dd ab ac ad bc bd cd R : ℝ} (ha : |aa| + |ab| + |ac| + |ad| ≤ R) (hb : |bb| + |ab| + |bc| + |bd| ≤ R)
    (hc : |cc| + |ac| + |bc| + |cd| ≤ R) (hd : |dd| + |ad| + |bd| + |cd| ≤ R) :
    aa * y0 ^ 2 + bb * y1 ^ 2 + cc * y2 ^ 2 + dd * y3 ^ 2 + 2 * (ab * (y0 * y1)) + 2 * (ac * (y0 * y2)) + 2 * (ad * (y0 * y3)) +
      2 * (bc * (y1 * y2)) + 2 * (bd * (y1 * y3)) + 2 * (cd * (y2 * y3)) ≤ R * (y0 ^ 2 + y1 ^ 2 + y2 ^ 2 + y3 ^ 2) := by
  have h1 := cross ab y0 y1
  have h2 := cross ac y0 y2
  have h3 := cross ad y0 y3
  have h4 := cross bc y1 y2
  have h5 := cross bd y1 y3
  have h6 := cross cd y2 y3
  have g0 := mul_le_mul_of_nonneg_right ha (sq_nonneg y0)
  have g1 := mul_le_mul_of_nonneg_right hb (sq_nonneg y1)
  have g2 := mul_le_mul_of_nonneg_right hc (sq_nonneg y2)
  have g3 := mul_le_mul_of_nonneg_right hd (sq_nonneg y3)
  have k0 := mul_le_mul_of_nonneg_right (le_abs_self aa) (sq_nonneg y0)
  have k1 := mul_le_mul_of_nonneg_right (le_abs_self bb) (sq_nonneg y1)
  have k2 := mul_le_mul_of_nonneg_right (le_abs_self cc) (sq_nonneg y2)
  have k3 := mul_le_mul_of_nonneg_right (le_abs_self dd) (sq_nonneg y3)
  ring_nf at *
  linarith

theorem to_lin (k : Vec4 ℤ) (y : Vec4 ℝ) (t : Vec4 ℤ) : 6 * unit * dotR t (lin k (f.build y)) =
    (dotZ t (lin6 k f.u0) : ℤ) * y.e0 + (dotZ t (lin6 k f.u1) : ℤ) * y.e1 + (dotZ t (lin6 k f.u2) : ℤ) * y.e2 + (dotZ t (lin6 k f.u3) : ℤ) * y.e3 := by
  have e : f.build y = addV (addV (addV (mulV y.e0 (castV f.u0)) (mulV y.e1 (castV f.u1))) (mulV y.e2 (castV f.u2))) (mulV y.e3 (castV f.u3)) := by
    apply ext <;> simp only [build, addV, mulV, castV] <;> ring
  rw [e]
  simp only [lin_add, lin_mul, dotR_add, dotR_mul, ← dotR_cast, lin6_eq]
  ring

theorem contract (k : Vec4 ℤ) (y : Vec4 ℝ) : (6 * unit) ^ 2 * sq (f.coords (lin k (f.build y))) ≤ f.most k * sq y := by
  unfold most
  simp only [forceVec_eq, forceNat_eq]
  generalize ha : f.toZ (lin6 k f.u0) = a
  generalize hb : f.toZ (lin6 k f.u1) = b
  generalize hc : f.toZ (lin6 k f.u2) = c
  generalize hd : f.toZ (lin6 k f.u3) = d
  generalize hR : max (max ((dotZ a a).natAbs + (dotZ a b).natAbs + (dotZ a c).natAbs + (dotZ a d).natAbs) ((dotZ b b).natAbs + (dotZ a b).natAbs + (dotZ b c).natAbs + (dotZ b d).natAbs))
    (max ((dotZ c c).natAbs + (dotZ a c).natAbs + (dotZ b c).natAbs + (dotZ c d).natAbs) ((dotZ d d).natAbs + (dotZ a d).natAbs + (dotZ b d).natAbs + (dotZ c d).natAbs)) = R
  have h1 : (dotZ a a).natAbs + (dotZ a b).natAbs + (dotZ a c).natAbs + (dotZ a d).natAbs ≤ R := by rw [← hR]; exact (le_max_left _ _).trans (le_max_left _ _)
  have h2 : (dotZ b b).natAbs + (dotZ a b).natAbs + (dotZ b c).natAbs + (dotZ b d).natAbs ≤ R := by rw [← hR]; exact (le_max_right _ _).trans (le_max_left _ _)
  have h3 : (dotZ c c).natAbs + (dotZ a c).natAbs + (dotZ b c).natAbs + (dotZ c d).natAbs ≤ R := by rw [← hR]; exact (le_max_left _ _).trans (le_max_right _ _)
  have h4 : (dotZ d d).natAbs + (dotZ a d).natAbs + (dotZ b d).natAbs + (dotZ c d).natAbs ≤ R := by rw [← hR]; exact (le_max_right _ _).trans (le_max_right _ _)
  have c4 : ∀ {p q r s : ℤ}, p.natAbs + q.natAbs + r.natAbs + s.natAbs ≤ R → |(p : ℝ)| + |(q : ℝ)| + |(r : ℝ)| + |(s : ℝ)| ≤ R := by
    intro p q r s h
    have : ((p.natAbs + q.natAbs + r.natAbs + s.natAbs : ℕ) : ℝ) ≤ R := by exact_mod_cast h
    push_cast at this
    simpa [Nat.cast_natAbs] using this
  have h1 := c4 h1
  have h2 := c4 h2
  have h3 := c4 h3
  have h4 := c4 h4
  have g := gersh (y0 := y.e0) (y1 := y.e1) (y2 := y.e2) (y3 := y.e3) h1 h2 h3 h4
  have r0 := f.to_lin k y f.t0
  have r1 := f.to_lin k y f.t1
  have r2 := f.to_lin k y f.t2
  have r3 := f.to_lin k y f.t3
  have e : (6 * unit) ^ 2 * sq (f.coords (lin k (f.build y))) =
      (6 * unit * dotR f.t0 (lin k (f.build y))) ^ 2 + (6 * unit * dotR f.t1 (lin k (f.build y))) ^ 2 +
      (6 * unit * dotR f.t2 (lin k (f.build y))) ^ 2 + (6 * unit * dotR f.t3 (lin k (f.build y))) ^ 2 := by
    simp only [coords, sq]; ring
  rw [e, r0, r1, r2, r3]
  unfold toZ at ha hb hc hd
  subst ha hb hc hd
  refine le_trans (le_of_eq ?_) g
  generalize dotZ f.t0 (lin6 k f.u0) = p00
  generalize dotZ f.t1 (lin6 k f.u0) = p10
  generalize dotZ f.t2 (lin6 k f.u0) = p20
  generalize dotZ f.t3 (lin6 k f.u0) = p30
  generalize dotZ f.t0 (lin6 k f.u1) = p01
  generalize dotZ f.t1 (lin6 k f.u1) = p11
  generalize dotZ f.t2 (lin6 k f.u1) = p21
  generalize dotZ f.t3 (lin6 k f.u1) = p31
  generalize dotZ f.t0 (lin6 k f.u2) = p02
  generalize dotZ f.t1 (lin6 k f.u2) = p12
  generalize dotZ f.t2 (lin6 k f.u2) = p22
  generalize dotZ f.t3 (lin6 k f.u2) = p32
  generalize dotZ f.t0 (lin6 k f.u3) = p03
  generalize dotZ f.t1 (lin6 k f.u3) = p13
  generalize dotZ f.t2 (lin6 k f.u3) = p23
  generalize dotZ f.t3 (lin6 k f.u3) = p33
  unfold dotZ
  push_cast
  ring

/-- The sum of all entries of the inverse. -/
def spread : ℕ := 
  let s (t : Vec4 ℤ) := t.e0.natAbs + t.e1.natAbs + t.e2.natAbs + t.e3.natAbs
  s f.t0 + s f.t1 + s f.t2 + s f.t3

/-- `S x = v + U y`, with `v` from the latest measurements and `y` bounded. -/
def Held (A : ℝ) (cs : List (Vec4 ℤ)) (rest : ℕ) (x : Vec4 ℝ) : Prop :=
  ∃ v y, Spans A cs v ∧ sq y ≤ (rest * A) ^ 2 ∧ mulV unit x = addV v (f.build y)

theorem dotR_off (t : Vec4 ℤ) {e : ℝ} {g : Vec4 ℝ} (h0 : |g.e0| ≤ e) (h1 : |g.e1| ≤ e) (h2 : |g.e2| ≤ e) (h3 : |g.e3| ≤ e) :
    |dotR t g| ≤ ((t.e0.natAbs + t.e1.natAbs + t.e2.natAbs + t.e3.natAbs : ℕ) : ℝ) * e := by
  have key : ∀ {p : ℤ} {r : ℝ}, |r| ≤ e → |(p : ℝ) * r| ≤ (p.natAbs : ℝ) * e := by
    intro p r h
    rw [abs_mul, Nat.cast_natAbs, Int.cast_abs]
    exact mul_le_mul_of_nonneg_left h (abs_nonneg _)
  unfold dotR
  have k0 := key (p := t.e0) h0
  have k1 := key (p := t.e1) h1
  have k2 := key (p := t.e2) h2
  have k3 := key (p := t.e3) h3
  push_cast at *
  rw [abs_le] at *
  constructor <;> linarith

/-- The new bound: `ratio` per cent of the old one, and what is forgotten. -/
def later (ratio drop len rest : ℕ) : ℕ := (f.det * ratio * rest + 100 * (drop + (2 * len + 32) * f.spread)) / (100 * f.det) + 1

theorem Held.step {f : Frame} (hf : f.Ok) {A : ℝ} {cs : List (Vec4 ℤ)} {rest w ratio : ℕ} {x x' : Vec4 ℝ} {k : Vec4 ℤ} {z : ℝ}
    (h : f.Held A cs rest x) (hz : |z| ≤ A) (hr : f.most k * 10000 ≤ (ratio * (6 * unit * f.det)) ^ 2)
    {rest' : ℕ} (hrest : f.later ratio (size f.t0 ((k :: cs.map (pull k)).drop w) + size f.t1 ((k :: cs.map (pull k)).drop w) +
      size f.t2 ((k :: cs.map (pull k)).drop w) + size f.t3 ((k :: cs.map (pull k)).drop w)) cs.length rest ≤ rest')
    (h0 : |x'.e0 - ((ahead x).e0 + k.e0 / unit * (z - (ahead x).e0))| ≤ 32 / unit * A)
    (h1 : |x'.e1 - ((ahead x).e1 + k.e1 / unit * (z - (ahead x).e0))| ≤ 32 / unit * A)
    (h2 : |x'.e2 - ((ahead x).e2 + k.e2 / unit * (z - (ahead x).e0))| ≤ 32 / unit * A)
    (h3 : |x'.e3 - ((ahead x).e3 + k.e3 / unit * (z - (ahead x).e0))| ≤ 32 / unit * A) :
    f.Held A ((k :: cs.map (pull k)).take w) rest' x' := by
  have hA : 0 ≤ A := (abs_nonneg _).trans hz
  obtain ⟨v, y, hv, hy, hx⟩ := h
  obtain ⟨v', hv', o0, o1, o2, o3⟩ := hv.map k
  have hs : Spans A (k :: cs.map (pull k)) (addV (mulV z (castV k)) v') := ⟨z, v', hz, hv', rfl⟩
  obtain ⟨u, d, hu, hd, hud⟩ := hs.split w
  -- what is left over
  have hlx : mulV unit (lin k x) = addV (lin k v) (lin k (f.build y)) := by rw [← lin_mul, hx, lin_add]
  let e : Vec4 ℝ := ⟨unit * x'.e0 - (u.e0 + d.e0 + (lin k (f.build y)).e0), unit * x'.e1 - (u.e1 + d.e1 + (lin k (f.build y)).e1),
    unit * x'.e2 - (u.e2 + d.e2 + (lin k (f.build y)).e2), unit * x'.e3 - (u.e3 + d.e3 + (lin k (f.build y)).e3)⟩
  have hU : (0 : ℝ) < (unit : ℕ) := by norm_num
  have key : ∀ {X L m a p q V l : ℝ}, |X - (a + m / (unit : ℕ) * (z - p))| ≤ 32 / (unit : ℕ) * A → L = a - m / (unit : ℕ) * p → 
      |V - l| ≤ 2 * (cs.length : ℝ) * A → (unit : ℕ) * L = l + q → |(unit : ℕ) * X - (z * m + V + q)| ≤ (2 * cs.length + 32) * A := by
    intro X L m a p q V l g1 g2 g3 g4
    have g5 : |(unit : ℕ) * (X - (a + m / (unit : ℕ) * (z - p)))| ≤ 32 * A := by
      rw [abs_mul, abs_of_pos hU]
      calc ((unit : ℕ) : ℝ) * _ ≤ (unit : ℕ) * (32 / (unit : ℕ) * A) := mul_le_mul_of_nonneg_left g1 hU.le
        _ = 32 * A := by field_simp
    have g6 : (unit : ℕ) * X - (z * m + V + q) = (unit : ℕ) * (X - (a + m / (unit : ℕ) * (z - p))) - (V - l) := by
      have : ((unit : ℕ) : ℝ) * (a + m / (unit : ℕ) * (z - p)) = (unit : ℕ) * L + z * m := by
        rw [g2]; field_simp; ring
      rw [mul_sub, this, g4]; ring
    rw [g6]
    rw [abs_le] at g3 g5 ⊢
    constructor <;> linarith
  have ud0 : u.e0 + d.e0 = z * k.e0 + v'.e0 := by have := congrArg Vec4.e0 hud; simpa [addV, mulV, castV] using this.symm
  have ud1 : u.e1 + d.e1 = z * k.e1 + v'.e1 := by have := congrArg Vec4.e1 hud; simpa [addV, mulV, castV] using this.symm
  have ud2 : u.e2 + d.e2 = z * k.e2 + v'.e2 := by have := congrArg Vec4.e2 hud; simpa [addV, mulV, castV] using this.symm
  have ud3 : u.e3 + d.e3 = z * k.e3 + v'.e3 := by have := congrArg Vec4.e3 hud; simpa [addV, mulV, castV] using this.symm
  have e0 : |e.e0| ≤ (2 * cs.length + 32) * A := by
    change |(unit : ℕ) * x'.e0 - (u.e0 + d.e0 + (lin k (f.build y)).e0)| ≤ _
    rw [ud0]
    exact key h0 (show (lin k x).e0 = _ from rfl) o0 (congrArg Vec4.e0 hlx)
  have e1 : |e.e1| ≤ (2 * cs.length + 32) * A := by
    change |(unit : ℕ) * x'.e1 - (u.e1 + d.e1 + (lin k (f.build y)).e1)| ≤ _
    rw [ud1]
    exact key h1 (show (lin k x).e1 = _ from rfl) o1 (congrArg Vec4.e1 hlx)
  have e2 : |e.e2| ≤ (2 * cs.length + 32) * A := by
    change |(unit : ℕ) * x'.e2 - (u.e2 + d.e2 + (lin k (f.build y)).e2)| ≤ _
    rw [ud2]
    exact key h2 (show (lin k x).e2 = _ from rfl) o2 (congrArg Vec4.e2 hlx)
  have e3 : |e.e3| ≤ (2 * cs.length + 32) * A := by
    change |(unit : ℕ) * x'.e3 - (u.e3 + d.e3 + (lin k (f.build y)).e3)| ≤ _
    rw [ud3]
    exact key h3 (show (lin k x).e3 = _ from rfl) o3 (congrArg Vec4.e3 hlx)
  have hD : (0 : ℝ) < f.det := by exact_mod_cast hf.det
  have hsum : mulV unit x' = addV u (addV (lin k (f.build y)) (addV d e)) := by
    apply ext <;> simp only [mulV, addV, e] <;> ring
  refine ⟨u, mulV (1 / f.det) (f.coords (addV (lin k (f.build y)) (addV d e))), hu, ?_, ?_⟩
  · -- the size
    have s1 := f.contract k y
    have hlin : f.coords (addV (lin k (f.build y)) (addV d e)) = addV (f.coords (lin k (f.build y))) (f.coords (addV d e)) := by
      apply ext <;> simp only [coords, addV, dotR] <;> ring
    have g1 : sq (f.coords (lin k (f.build y))) ≤ (ratio / 100 * f.det * (rest * A)) ^ 2 := by
      have hr' : (f.most k : ℝ) * 10000 ≤ (ratio * (6 * (unit : ℕ) * f.det)) ^ 2 := by exact_mod_cast hr
      have h6 : (0 : ℝ) < (6 * (unit : ℕ)) ^ 2 := by positivity
      refine le_of_mul_le_mul_left (s1.trans ?_) h6
      have : (f.most k : ℝ) * sq y ≤ (ratio * (6 * (unit : ℕ) * f.det)) ^ 2 / 10000 * (rest * A) ^ 2 :=
        mul_le_mul (by rw [le_div_iff₀ (by norm_num)]; exact hr') hy (sq_nonneg' _) (by positivity)
      refine this.trans (le_of_eq ?_)
      ring
    have hdrop : ∀ t : Vec4 ℤ, |dotR t d| ≤ size t ((k :: cs.map (pull k)).drop w) * A := fun t => hd.dot t
    generalize hl : (k :: cs.map (pull k)).drop w = l at *
    have g2 : sq (f.coords (addV d e)) ≤ (((size f.t0 l + size f.t1 l + size f.t2 l + size f.t3 l + (2 * cs.length + 32) * f.spread : ℕ) : ℝ) * A) ^ 2 := by
      apply sq_of_sum
      have q : ∀ t : Vec4 ℤ, |dotR t (addV d e)| ≤ size t l * A + ((t.e0.natAbs + t.e1.natAbs + t.e2.natAbs + t.e3.natAbs : ℕ) : ℝ) * ((2 * cs.length + 32) * A) := by
        intro t
        rw [dotR_add]
        exact (abs_add_le _ _).trans (add_le_add (hdrop t) (dotR_off t e0 e1 e2 e3))
      have q0 := q f.t0
      have q1 := q f.t1
      have q2 := q f.t2
      have q3 := q f.t3
      unfold spread coords
      push_cast at *
      linarith
    have g3 := sq_add (by positivity) (by positivity) g1 g2
    rw [← hlin] at g3
    have g4 : sq (mulV (1 / (f.det : ℝ)) (f.coords (addV (lin k (f.build y)) (addV d e)))) = (1 / (f.det : ℝ)) ^ 2 * sq (f.coords (addV (lin k (f.build y)) (addV d e))) := by
      simp only [sq, mulV]; ring
    rw [g4]
    refine (mul_le_mul_of_nonneg_left g3 (by positivity)).trans ?_
    rw [← mul_pow]
    have hl0 : (0 : ℝ) < 100 * f.det := by positivity
    have hlat : ((f.det * ratio * rest + 100 * (size f.t0 l + size f.t1 l + size f.t2 l + size f.t3 l + (2 * cs.length + 32) * f.spread) : ℕ) : ℝ) ≤ rest' * (100 * f.det) := by
      have : f.det * ratio * rest + 100 * (size f.t0 l + size f.t1 l + size f.t2 l + size f.t3 l + (2 * cs.length + 32) * f.spread) ≤ rest' * (100 * f.det) := by
        refine le_trans (Nat.lt_mul_div_succ _ (show 0 < 100 * f.det by have := hf.det; omega)).le ?_
        rw [mul_comm]
        exact Nat.mul_le_mul_right _ hrest
      exact_mod_cast this
    have fin : 1 / (f.det : ℝ) * (ratio / 100 * f.det * (rest * A) + ((size f.t0 l + size f.t1 l + size f.t2 l + size f.t3 l + (2 * cs.length + 32) * f.spread : ℕ) : ℝ) * A) ≤ rest' * A := by
      generalize (size f.t0 l + size f.t1 l + size f.t2 l + size f.t3 l + (2 * cs.length + 32) * f.spread) = N at *
      have e1 : 1 / (f.det : ℝ) * (ratio / 100 * f.det * (rest * A) + (N : ℝ) * A) = (f.det * ratio * rest + 100 * N) / (100 * f.det) * A := by
        field_simp
      rw [e1]
      refine mul_le_mul_of_nonneg_right ?_ hA
      rw [div_le_iff₀ hl0]
      exact_mod_cast hlat
    exact pow_le_pow_left₀ (by positivity) fin 2
  · rw [hsum]
    have := hf.inv (addV (lin k (f.build y)) (addV d e))
    have e2 : f.build (mulV (1 / f.det) (f.coords (addV (lin k (f.build y)) (addV d e)))) = mulV (1 / f.det) (f.build (f.coords (addV (lin k (f.build y)) (addV d e)))) := by
      apply ext <;> simp only [build, mulV] <;> ring
    rw [e2, this]
    congr 1
    apply ext <;> simp only [mulV] <;> field_simp

end Frame
end
end Ink.Hold
