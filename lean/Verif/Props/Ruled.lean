import Verif.Props.Steady
import Verif.Props.Plain
import Verif.Props.Finite
import Verif.Lemmas.Line
/-!
# Strokes along an axis: C81
-/
namespace Ink
open Scalar Arith

namespace Fl

/-- The same number, or NaN. -/
def Meets (c x : Fl f32) : Prop := Fl.isNaN x = true ∨ Level c x

variable {c : Fl f32}

theorem level_zero : Level 0 (0 : Fl f32) := ⟨finite_zero, rfl⟩

theorem Meets.sub {a b : Fl f32} (ha : Meets c a) (hb : Meets c b) : Meets 0 (a - b) := by
  rcases ha with ha | ha
  · exact .inl (sub_nan_left _ ha)
  rcases hb with hb | hb
  · exact .inl (sub_nan_right _ hb)
  obtain ⟨h1, h2⟩ := sub_same hb ha
  exact .inr ⟨h1, by rw [h2, num_zero]⟩

theorem Meets.add {a b : Fl f32} (ha : Meets c a) (hb : Meets 0 b) : Meets c (a + b) := by
  rcases ha with ha | ha
  · exact .inl (add_nan_left _ ha)
  rcases hb with hb | hb
  · exact .inl (add_nan_right _ hb)
  have h : num (a + b) = num a := by rw [num_add ha.finite hb.finite, hb.eq, num_zero, add_zero, rd_num ha.finite]
  exact .inr ⟨finite_of_num (add_not_nan ha.finite hb.finite) (by rw [h]; exact abs_num_lt ha.finite), h.trans ha.eq⟩

theorem Meets.mul {b : Fl f32} (a : Fl f32) (hb : Meets 0 b) : Meets 0 (a * b) := by
  rcases hb with hb | hb
  · exact .inl (mul_nan_right _ hb)
  by_cases ha : Finite a
  · have h : num (a * b) = 0 := by rw [num_mul ha hb.finite, hb.eq, num_zero, mul_zero, rd_zero]
    exact .inr ⟨small_finite (mul_not_nan ha hb.finite) h, by rw [h, num_zero]⟩
  · left
    obtain ⟨s, k, hk, rfl⟩ := finite_iff.1 hb.finite
    have h0 : k = 0 := by
      have := hb.eq
      rw [num_zero] at this
      cases s <;> simpa [num, key, sgn] using this
    subst h0
    cases a with
    | nan => rfl
    | inf s => rfl
    | fin s k h => exact absurd (finite_iff.2 ⟨s, k, h, rfl⟩) ha

theorem Meets.div {a : Fl f32} (ha : Meets 0 a) (b : Fl f32) : Meets 0 (a / b) := by
  rcases ha with ha | ha
  · left
    cases a <;> simp [Fl.isNaN] at ha
    rfl
  obtain ⟨s, k, hk0, rfl⟩ := finite_iff.1 ha.finite
  have h0 : k = 0 := by
    have := ha.eq
    rw [num_zero] at this
    cases s <;> simpa [num, key, sgn] using this
  subst h0
  cases b with
  | nan => exact .inl rfl
  | inf t =>
    refine .inr ⟨finite_iff.2 ⟨_, _, _, rfl⟩, ?_⟩
    rw [num_zero]
    change num (fin _ 0 _) = 0
    simp [num, key, sgn]
  | fin t l h =>
    by_cases hl : l = 0
    · subst hl
      exact .inl rfl
    · have hb : Finite (fin t l h) := finite_iff.2 ⟨_, _, _, rfl⟩
      have hk : key (fin t l h) ≠ 0 := by cases t <;> simpa [key, sgn] using hl
      have hn : num (fin t l h) ≠ 0 := by
        unfold num
        have : ((key (fin t l h) : ℤ) : ℝ) ≠ 0 := by exact_mod_cast hk
        positivity
      have e : num (fin s 0 hk0 / fin t l h) = 0 := by
        rw [num_div ha.finite hb hn, ha.eq, num_zero, zero_div, rd_zero]
      exact .inr ⟨small_finite (div_not_nan ha.finite hb hk) e, by rw [e, num_zero]⟩

theorem Meets.whole {b : Fl f32} (hb : Meets c b) : Meets c (0 + clamp01 1 * (b - 0)) := by
  rcases hb with hb | hb
  · exact .inl (add_nan_right _ (mul_nan_right _ (sub_nan_left _ hb)))
  have o : Finite (1 : Fl f32) := finite_lit one_lt_two_pow
  have c1 : clamp01 (1 : Fl f32) = 1 := by decide +kernel
  rw [c1]
  have s1 : num (b - 0) = num c := by rw [num_sub hb.finite finite_zero, num_zero, sub_zero, rd_num hb.finite, hb.eq]
  have s2 : Finite (b - 0) := finite_of_num (sub_not_nan hb.finite finite_zero) (by rw [s1, ← hb.eq]; exact abs_num_lt hb.finite)
  have m1 : num (1 * (b - 0)) = num c := by rw [num_mul o s2, num_one, one_mul, rd_num s2, s1]
  have m2 : Finite (1 * (b - 0)) := finite_of_num (mul_not_nan o s2) (by rw [m1, ← hb.eq]; exact abs_num_lt hb.finite)
  have a1 : num (0 + 1 * (b - 0)) = num c := by rw [num_add finite_zero m2, num_zero, zero_add, rd_num m2, m1]
  exact .inr ⟨finite_of_num (add_not_nan finite_zero m2) (by rw [a1, ← hb.eq]; exact abs_num_lt hb.finite), a1⟩

instance : Lines (Fl f32) (Fl f32) := ⟨Meets, 0, .sub, .add, fun a _ h => .mul a h, .div, .inr level_zero, .whole⟩

/-- The same for doubles; `c` is finite if there is a number. -/
def Wide (c : Fl f32) (x : Fl f64) : Prop := Fl.isNaN x = true ∨ (Finite x ∧ num x = num c ∧ ∃ y, Level c y)

theorem wide_of [Libm] {x : Fl f64} (hn : Fl.isNaN x = false) (h : num x = num c) (hc : Finite c) : Wide c x :=
  .inr ⟨finite_of_num_le hn (j := 128) (by decide) (by rw [h]; exact (num_lt_128 hc).le), h, c, hc, rfl⟩

theorem key_zero {f : Fmt} {b : Fl f} (hb : Finite b) (h : num b = 0) : ∃ s hk, b = fin s 0 hk := by
  obtain ⟨s, k, hk, rfl⟩ := finite_iff.1 hb
  have h0 : k = 0 := by cases s <;> simpa [num, key, sgn] using h
  subst h0
  exact ⟨s, hk, rfl⟩

theorem Wide.mul [Libm] (a : Fl f64) {b : Fl f64} (hb : Wide 0 b) : Wide 0 (a * b) := by
  rcases hb with hb | ⟨hb, e, l⟩
  · exact .inl (mul_nan_right _ hb)
  rw [num_zero] at e
  by_cases ha : Finite a
  · exact wide_of (mul_not_nan ha hb) (by rw [num_mul ha hb, e, mul_zero, rd_zero, num_zero]) finite_zero
  · left
    obtain ⟨s, hk, rfl⟩ := key_zero hb e
    cases a with
    | nan => rfl
    | inf s => rfl
    | fin s k h => exact absurd (finite_iff.2 ⟨s, k, h, rfl⟩) ha

theorem Wide.rmul [Libm] {a : Fl f64} (ha : Wide 0 a) (b : Fl f64) : Wide 0 (a * b) := by
  rcases ha with ha | ⟨ha, e, l⟩
  · exact .inl (mul_nan_left _ ha)
  rw [num_zero] at e
  by_cases hb : Finite b
  · exact wide_of (mul_not_nan ha hb) (by rw [num_mul ha hb, e, zero_mul, rd_zero, num_zero]) finite_zero
  · left
    obtain ⟨s, hk, rfl⟩ := key_zero ha e
    cases b with
    | nan => rfl
    | inf s => rfl
    | fin s k h => exact absurd (finite_iff.2 ⟨s, k, h, rfl⟩) hb

theorem Wide.add [Libm] {a b : Fl f64} (ha : Wide c a) (hb : Wide 0 b) : Wide c (a + b) := by
  rcases ha with ha | ⟨ha, e, l⟩
  · exact .inl (add_nan_left _ ha)
  rcases hb with hb | ⟨hb, e', l'⟩
  · exact .inl (add_nan_right _ hb)
  have h : num (a + b) = num a := by rw [num_add ha hb, e', num_zero, add_zero, rd_num ha]
  exact .inr ⟨finite_of_num (add_not_nan ha hb) (by rw [h]; exact abs_num_lt ha), h.trans e, l⟩

theorem Wide.radd [Libm] {a b : Fl f64} (ha : Wide 0 a) (hb : Wide c b) : Wide c (a + b) := by
  rcases ha with ha | ⟨ha, e, l⟩
  · exact .inl (add_nan_left _ ha)
  rcases hb with hb | ⟨hb, e', l'⟩
  · exact .inl (add_nan_right _ hb)
  have h : num (a + b) = num b := by rw [num_add ha hb, e, num_zero, zero_add, rd_num hb]
  exact .inr ⟨finite_of_num (add_not_nan ha hb) (by rw [h]; exact abs_num_lt hb), h.trans e', l'⟩

theorem Wide.sub [Libm] {a b : Fl f64} (ha : Wide c a) (hb : Wide c b) : Wide 0 (a - b) := by
  rcases ha with ha | ⟨ha, e, l⟩
  · exact .inl (sub_nan_left _ ha)
  rcases hb with hb | ⟨hb, e', l'⟩
  · exact .inl (sub_nan_right _ hb)
  exact wide_of (sub_not_nan ha hb) (by rw [num_sub ha hb, e, e', sub_self, rd_zero, num_zero]) finite_zero

theorem Wide.one [Libm] {a : Fl f64} (ha : Wide c a) : Wide c (1 * a) := by
  rcases ha with ha | ⟨ha, e, l⟩
  · exact .inl (mul_nan_right _ ha)
  have o : Finite (1 : Fl f64) := finite_lit one_lt_two_pow
  have h : num (1 * a) = num a := by rw [num_mul o ha, num_one, one_mul, rd_num ha]
  exact .inr ⟨finite_of_num (mul_not_nan o ha) (by rw [h]; exact abs_num_lt ha), h.trans e, l⟩

theorem Wide.rone [Libm] {a : Fl f64} (ha : Wide c a) : Wide c (a * 1) := by
  rcases ha with ha | ⟨ha, e, l⟩
  · exact .inl (mul_nan_left _ ha)
  have o : Finite (1 : Fl f64) := finite_lit one_lt_two_pow
  have h : num (a * 1) = num a := by rw [num_mul ha o, num_one, mul_one, rd_num ha]
  exact .inr ⟨finite_of_num (mul_not_nan ha o) (by rw [h]; exact abs_num_lt ha), h.trans e, l⟩

theorem Meets.radd {a b : Fl f32} (ha : Meets 0 a) (hb : Meets c b) : Meets c (a + b) := by
  rcases ha with ha | ha
  · exact .inl (add_nan_left _ ha)
  rcases hb with hb | hb
  · exact .inl (add_nan_right _ hb)
  have h : num (a + b) = num b := by rw [num_add ha.finite hb.finite, ha.eq, num_zero, zero_add, rd_num hb.finite]
  exact .inr ⟨finite_of_num (add_not_nan ha.finite hb.finite) (by rw [h]; exact abs_num_lt hb.finite), h.trans hb.eq⟩

theorem cancel {x y : Fl f32} (hx : Fl.isNaN x = false) (hy : Fl.isNaN y = false) (h : num x = -num y) : Meets 0 (x + y) := by
  by_cases hf : Finite x
  · have hg : Finite y := finite_of_num hy (by rw [show num y = -num x by linarith, abs_neg]; exact abs_num_lt hf)
    have e : num (x + y) = 0 := by rw [num_add hf hg, h, neg_add_cancel, rd_zero]
    exact .inr ⟨small_finite (add_not_nan hf hg) e, by rw [e, num_zero]⟩
  · have hg : ¬ Finite y := fun hg => hf (finite_of_num hx (by rw [h, abs_neg]; exact abs_num_lt hg))
    left
    cases x with
    | nan => rfl
    | fin s k hk => exact absurd (finite_iff.2 ⟨s, k, hk, rfl⟩) hf
    | inf s =>
      cases y with
      | nan => rfl
      | fin s k hk => exact absurd (finite_iff.2 ⟨s, k, hk, rfl⟩) hg
      | inf t =>
        have hpos : (0 : ℝ) < f32.huge := by unfold Fmt.huge; positivity
        have hb : ¬ |num (inf s : Fl f32)| < f32.huge := fun hb => hf (finite_of_num hx hb)
        by_cases hst : s = t
        · subst hst
          have h0 : num (inf s : Fl f32) = 0 := by linarith
          rw [h0, abs_zero] at hb
          exact absurd hpos hb
        · cases s <;> cases t <;> simp at hst <;> rfl

theorem times {a b k l : Fl f32} (hk : Finite k) (hl : Finite l) (h : num k = -num l) (ha : Level c a) (hb : Level c b) :
    Meets 0 (k * a + l * b) := by
  refine cancel (mul_not_nan hk ha.finite) (mul_not_nan hl hb.finite) ?_
  rw [num_mul hk ha.finite, num_mul hl hb.finite, ha.eq, hb.eq, h, neg_mul, rd_neg]

theorem Meets.twice {a b : Fl f32} (ha : Meets c a) (hb : Meets c b) : Meets 0 (2 * a - 2 * b) := by
  rcases ha with ha | ha
  · exact .inl (sub_nan_left _ (mul_nan_right _ ha))
  rcases hb with hb | hb
  · exact .inl (sub_nan_right _ (mul_nan_right _ hb))
  have f2 : Finite (2 : Fl f32) := finite_lit (by decide)
  have n1 := mul_not_nan f2 hb.finite
  have h := cancel (x := 2 * a) (y := -(2 * b)) (mul_not_nan f2 ha.finite) (by generalize 2 * b = z at n1; cases z <;> first | rfl | cases n1)
    (by rw [num_neg, num_mul f2 ha.finite, num_mul f2 hb.finite, ha.eq, hb.eq, neg_neg])
  exact h

theorem Meets.thrice {a b : Fl f32} (ha : Meets c a) (hb : Meets c b) : Meets 0 ((-3) * a + 3 * b) := by
  rcases ha with ha | ha
  · exact .inl (add_nan_left _ (mul_nan_right _ ha))
  rcases hb with hb | hb
  · exact .inl (add_nan_right _ (mul_nan_right _ hb))
  have f3 : Finite (3 : Fl f32) := finite_lit (by decide)
  exact times (f3.neg) f3 (num_neg _) ha hb

theorem Wide.narrow [Libm] {x : Fl f64} (h : Wide c x) : Meets c (Arith.narrow x : Fl f32) := by
  rcases h with h | ⟨h, e, y, hy⟩
  · exact .inl (by rw [show (Arith.narrow x : Fl f32) = convert f32 x from rfl, convert_isNaN]; exact h)
  have h' : num (Arith.narrow x : Fl f32) = num y := (num_convert h).trans (by rw [e, ← hy.eq, rd_num hy.finite])
  exact .inr ⟨finite_of_num (by rw [show (Arith.narrow x : Fl f32) = convert f32 x from rfl, convert_isNaN]; exact h.1)
    (by rw [h']; exact abs_num_lt hy.finite), h'.trans hy.eq⟩

theorem Meets.widen [Libm] {x : Fl f32} (h : Meets c x) : Wide c (Arith.widen x : Fl f64) := by
  rcases h with h | h
  · exact .inl (widen_nan h)
  · exact .inr ⟨finite_widen h.finite, (num_widen h.finite).trans h.eq, x, h⟩

instance [Libm] : Rails (Fl f32) (Fl f64) (Fl f32) where
  Far := Wide
  widen h := Meets.widen h
  narrow h := Wide.narrow h
  zero := .inr ⟨finite_zero, by rw [num_zero]; exact num_zero.symm, 0, level_zero⟩
  add := .add
  radd := .radd
  sub := .sub
  mul a _ h := .mul a h
  rmul := .rmul
  one := .one
  rone := .rone
  join := Meets.radd
  twice := .twice
  thrice := .thrice

theorem smooths_off [Libm] {k : Bool} {p : WobbleParams (Fl f32) (Fl f64)} (hp : p.isEnabled = false) :
    Smooths k c p fun w => w.params.isEnabled = false where
  start _ _ := hp
  next _ hi hw h := by
    simp only [WobbleSmoother.update, hw, Bool.not_false, if_true, Outcome.ok.injEq, Prod.mk.injEq] at h
    obtain ⟨rfl, rfl⟩ := h
    exact ⟨hw, hi⟩

end Fl

section Theorems
variable [Libm] {ops : List (Op (Fl f32) (Fl f64))} {rs : List (Response (Fl f32) (Fl f64))} {m m' : StrokeModeler (Fl f32) (Fl f64)}

/-- Equal to `c`, or NaN. -/
def EqOrNaN (c x : Fl f32) : Prop := isNaN x = true ∨ (x =ᵇ c) = true

omit [Libm] in
theorem onLine_iff {c x : Fl f32} (hc : Fl.Finite c) : OnLine c x ↔ EqOrNaN c x := by
  change Fl.Meets c x ↔ _
  unfold Fl.Meets EqOrNaN
  rw [level_iff hc]
  rfl

/-- C81: on floats and without wobble smoothing, if all inputs of a stroke have the same x coordinate, then so do all its results, and they
do not move in that direction: coordinates that are not NaN are exactly that number, and zero for velocity and acceleration. The same
holds for y. -/
theorem C81_axis_float (h : Session ops rs m) (hr : Regular ops rs) {p : StrokeModelParams (Fl f32) (Fl f64)}
    (hp : (known ops rs).params = some p) (hw : p.wobble.isEnabled = false) {c : Fl f32} (hc : isFinite c = true) :
    ((∀ f ∈ strokeOf ops rs, (f.input.position.x =ᵇ c) = true) → ∀ r ∈ resultsOf (strokeOf ops rs),
      EqOrNaN c r.position.x ∧ EqOrNaN 0 r.velocity.x ∧ EqOrNaN 0 r.acceleration.x) ∧
    ((∀ f ∈ strokeOf ops rs, (f.input.position.y =ᵇ c) = true) → ∀ r ∈ resultsOf (strokeOf ops rs),
      EqOrNaN c r.position.y ∧ EqOrNaN 0 r.velocity.y ∧ EqOrNaN 0 r.acceleration.y) := by
  by_cases hne : strokeOf ops rs = []
  · rw [hne]; simp [resultsOf]
  have hf := Fl.finite_of_isFinite hc
  obtain ⟨p', m₀, hp', hco, -⟩ := h.course hr hne
  obtain rfl : p = p' := by rw [hp] at hp'; exact Option.some.inj hp'
  simp only [← onLine_iff hf, ← onLine_iff Fl.finite_zero]
  exact ⟨fun hin => (hco.ruled (k := true) (Fl.smooths_off hw) fun f h => .inr ((level_iff hf).2 (hin f h))).2,
    fun hin => (hco.ruled (k := false) (Fl.smooths_off hw) fun f h => .inr ((level_iff hf).2 (hin f h))).2⟩

/-- C81, predictions: likewise for both predictors. -/
theorem C81_prediction_float (h : Session ops rs m) (hr : Regular ops rs) {p : StrokeModelParams (Fl f32) (Fl f64)}
    (hp : (known ops rs).params = some p) (hw : p.wobble.isEnabled = false) {c : Fl f32} (hc : isFinite c = true)
    {v : List (Result (Fl f32) (Fl f64))} {resp : Response (Fl f32) (Fl f64)} (hst : step m (.predict v) = .ok (m', resp)) :
    ((∀ f ∈ strokeOf ops rs, (f.input.position.x =ᵇ c) = true) → ∀ r ∈ resp.results,
      EqOrNaN c r.position.x ∧ EqOrNaN 0 r.velocity.x ∧ EqOrNaN 0 r.acceleration.x) ∧
    ((∀ f ∈ strokeOf ops rs, (f.input.position.y =ᵇ c) = true) → ∀ r ∈ resp.results,
      EqOrNaN c r.position.y ∧ EqOrNaN 0 r.velocity.y ∧ EqOrNaN 0 r.acceleration.y) := by
  simp only [step] at hst
  obtain ⟨⟨m₁, s, v'⟩, hu, hst⟩ := Outcome.bind_eq_ok.1 hst
  simp only [Outcome.pure_eq, Outcome.ok.injEq, Prod.mk.injEq] at hst
  obtain ⟨rfl, rfl⟩ := hst
  rcases predict_ok hu with ⟨_, _, _, rfl, _⟩ | ⟨_, _, last, _, _, _, _, _, hl, _⟩
  · simp
  · obtain ⟨p', m₀, hp', hco, hsl⟩ := h.course hr (h.in_progress hr (by simp [hl]))
    obtain rfl : p = p' := by rw [hp] at hp'; exact Option.some.inj hp'
    obtain ⟨_, hu, -⟩ := hsl.predict_ok hu
    rcases predict_ok hu with ⟨_, _, _, rfl, _⟩ | ⟨_, pr, last, tips, _, out, _, hpr', hl, htips, hms, _, _, rfl⟩
    · simp
    have hf := Fl.finite_of_isFinite hc
    simp only [← onLine_iff hf, ← onLine_iff Fl.finite_zero]
    have key : ∀ k, (∀ f ∈ strokeOf ops rs, OnLine c (f.input.position.at k)) → ∀ r ∈ v', AlongRes k c r := by
      intro k hin
      have hru := (hco.ruled (Fl.smooths_off hw) hin).1
      have hpo := hru.predictor
      rw [hpr'] at hpo
      exact Along.answer hco hco hms hru.samples (Along.predicted hpo hru.tip htips)
    exact ⟨fun hin => key true fun f h => .inr ((level_iff hf).2 (hin f h)),
      fun hin => key false fun f h => .inr ((level_iff hf).2 (hin f h))⟩

end Theorems

section Usual
open Fl
variable [Libm] [LibmFair] {ops : List (Op (Fl f32) (Fl f64))} {rs : List (Response (Fl f32) (Fl f64))} {m : StrokeModeler (Fl f32) (Fl f64)}

omit [Libm] [LibmFair] in
theorem EqOrNaN.sure {c x : Fl f32} (h : EqOrNaN c x) (hx : Finite x) : (x =ᵇ c) = true :=
  h.resolve_left fun h => absurd (hx.1.symm.trans h) (by simp)

/-- C81, usual strokes: with usual parameters and inputs there are no NaN coordinates, so the coordinates are exactly that number. -/
theorem C81_usual_float (h : Session ops rs m) (hr : Regular ops rs) {p : StrokeModelParams (Fl f32) (Fl f64)}
    (hp : (known ops rs).params = some p) (hw : p.wobble.isEnabled = false) {R g G : ℝ} (hpl : Plain p R g G (strokeOf ops rs))
    {c : Fl f32} (hc : isFinite c = true) :
    ((∀ f ∈ strokeOf ops rs, (f.input.position.x =ᵇ c) = true) → ∀ r ∈ resultsOf (strokeOf ops rs),
      (r.position.x =ᵇ c) = true ∧ (r.velocity.x =ᵇ 0) = true ∧ (r.acceleration.x =ᵇ 0) = true) ∧
    ((∀ f ∈ strokeOf ops rs, (f.input.position.y =ᵇ c) = true) → ∀ r ∈ resultsOf (strokeOf ops rs),
      (r.position.y =ᵇ c) = true ∧ (r.velocity.y =ᵇ 0) = true ∧ (r.acceleration.y =ᵇ 0) = true) := by
  by_cases hne : strokeOf ops rs = []
  · rw [hne]; simp [resultsOf]
  obtain ⟨-, hb⟩ := C72_plain_float h hr hp hne hpl
  obtain ⟨hx, hy⟩ := C81_axis_float h hr hp hw hc
  refine ⟨fun hin r hr => ?_, fun hin r hr => ?_⟩
  · obtain ⟨a, b, d⟩ := hx hin r hr
    obtain ⟨a', b', d'⟩ := hb r hr
    exact ⟨a.sure a'.finx, b.sure b'.finx, d.sure d'.finx⟩
  · obtain ⟨a, b, d⟩ := hy hin r hr
    obtain ⟨a', b', d'⟩ := hb r hr
    exact ⟨a.sure a'.finy, b.sure b'.finy, d.sure d'.finy⟩

end Usual

section Examples
open Ex

/-- The parameters of the example for C72, with loop mitigation and stroke normals, but without wobble smoothing. -/
def Ex.ruledParams : StrokeModelParams F32 F64 := { fullParams with wobble := { fullParams.wobble with isEnabled := false } }

/-- A Down, two Moves and an Up on the line y = 1/3. -/
def Ex.ruledOps : List (Op F32 F64) :=
  [.resetParams ruledParams, .update ⟨.down, ⟨0, fl 1 3⟩, 0, 1, 1, -1⟩ [], .update ⟨.move, ⟨fl 1 100, fl 1 3⟩, d 1 50, 1, 1, -1⟩ [],
   .update ⟨.move, ⟨1, fl 1 3⟩, d 2 50, 1, 1, -1⟩ [], .update ⟨.up, ⟨2, fl 1 3⟩, d 3 50, 1, 1, -1⟩ []]

/-- C81 applies to it, and there are more than ten results. -/
example : ∃ (rs : List (Response F32 F64)) (m : StrokeModeler F32 F64), Session ruledOps rs m ∧ Regular ruledOps rs ∧
    (known ruledOps rs).params = some ruledParams ∧ ruledParams.wobble.isEnabled = false ∧ isFinite (fl 1 3) = true ∧
    Plain ruledParams 4 (1 / 64) (1 / 32) (strokeOf ruledOps rs) ∧ 10 ≤ (resultsOf (strokeOf ruledOps rs)).length ∧
    ∀ f ∈ strokeOf ruledOps rs, (f.input.position.y =ᵇ fl 1 3) = true := by
  obtain ⟨rs, m, h, hP⟩ := exists_session (ops := ruledOps) (P := fun rs _ => noStale ruledOps rs && fullCheck (strokeOf ruledOps rs) &&
    decide ((known ruledOps rs).params = some ruledParams ∧ 10 ≤ (resultsOf (strokeOf ruledOps rs)).length) &&
    (strokeOf ruledOps rs).all fun f => f.input.position.y =ᵇ fl 1 3) (by kernel_rfl)
  simp only [Bool.and_eq_true, decide_eq_true_eq, List.all_eq_true] at hP
  obtain ⟨⟨⟨h1, h2⟩, h5, h6⟩, h7⟩ := hP
  have hpl := (full_plain h2).1
  refine ⟨rs, m, h, ⟨noStale_iff h1, ?_⟩, h5, rfl, by decide +kernel,
    ⟨hpl.mass, hpl.drag, hpl.suits, hpl.rate, hpl.loop, by simp [ruledParams], hpl.region, hpl.inputs, hpl.early, hpl.spaced, hpl.gaps,
      hpl.exact, hpl.short⟩, h6, h7⟩
  intro a p b h hd
  have hm : Op.resetParams p ∈ ruledOps := by simp [h]
  simp [ruledOps] at hm
  simp [hm, ruledParams, fullParams, params] at hd

/-- The parameters of the unit tests without wobble smoothing, with the stroke end predictor. -/
def Ex.ruledTests : StrokeModelParams F32 F64 := { params with wobble := { params.wobble with isEnabled := false } }

/-- A Down and a Move on the line x = 1/3. -/
def Ex.ruledOpen : List (Op F32 F64) :=
  [.resetParams ruledTests, .update (inp .down (fl 1 3) 0 0) [], .update (inp .move (fl 1 3) 1 (d 1 50)) []]

/-- C81 applies to the predictions then, and there are some. -/
example [Libm] : ∃ (rs : List (Response F32 F64)) (m : StrokeModeler F32 F64), Session ruledOpen rs m ∧ Regular ruledOpen rs ∧
    (known ruledOpen rs).params = some ruledTests ∧ ruledTests.wobble.isEnabled = false ∧ ruledTests.prediction = .strokeEnd ∧
    isFinite (fl 1 3) = true ∧ (∀ f ∈ strokeOf ruledOpen rs, (f.input.position.x =ᵇ fl 1 3) = true) ∧
    ∃ m' r, step m (.predict []) = .ok (m', r) ∧ 3 ≤ r.results.length := by
  obtain ⟨rs, m, h, hP⟩ := exists_session (ops := ruledOpen) (P := fun rs m => noStale ruledOpen rs &&
    decide ((known ruledOpen rs).params = some ruledTests) &&
    (strokeOf ruledOpen rs).all (fun f => f.input.position.x =ᵇ fl 1 3) &&
    match step m (.predict []) with
    | .ok (_, r) => decide (3 ≤ r.results.length)
    | _ => false) (by kernel_rfl)
  simp only [Bool.and_eq_true, List.all_eq_true, decide_eq_true_eq] at hP
  obtain ⟨⟨⟨h1, h2⟩, h4⟩, h5⟩ := hP
  refine ⟨rs, m, h, ⟨noStale_iff h1, ?_⟩, h2, rfl, rfl, by decide +kernel, h4, ?_⟩
  · intro a p b h hd
    have hm : Op.resetParams p ∈ ruledOpen := by simp [h]
    simp [ruledOpen] at hm
    simp [hm, ruledTests, params] at hd
  · split at h5
    · rename_i m' r hs
      exact ⟨m', r, hs, of_decide_eq_true h5⟩
    · cases h5

/-- The same with the Kalman predictor. -/
def Ex.ruledKalman : StrokeModelParams F32 F64 := { ruledTests with prediction := .kalman kalman }

@[inherit_doc ruledKalman] def Ex.ruledAhead : List (Op F32 F64) :=
  [.resetParams ruledKalman, .update (inp .down (fl 1 3) 0 0) [], .update (inp .move (fl 1 3) (fl 1 50) (d 1 200)) []]

/-- C81 applies to the predictions of the Kalman predictor, and there are some, with numbers in them. -/
example [Libm] : ∃ (rs : List (Response F32 F64)) (m : StrokeModeler F32 F64), Session ruledAhead rs m ∧ Regular ruledAhead rs ∧
    (known ruledAhead rs).params = some ruledKalman ∧ ruledKalman.wobble.isEnabled = false ∧ ruledKalman.prediction = .kalman kalman ∧
    isFinite (fl 1 3) = true ∧ (∀ f ∈ strokeOf ruledAhead rs, (f.input.position.x =ᵇ fl 1 3) = true) ∧
    ∃ m' r, step m (.predict []) = .ok (m', r) ∧ 1 ≤ r.results.length ∧ ∀ q ∈ r.results, isFinite q.position.x = true := by
  obtain ⟨rs, m, h, hP⟩ := exists_session (ops := ruledAhead) (P := fun rs m => noStale ruledAhead rs &&
    decide ((known ruledAhead rs).params = some ruledKalman) &&
    (strokeOf ruledAhead rs).all (fun f => f.input.position.x =ᵇ fl 1 3) &&
    match step m (.predict []) with
    | .ok (_, r) => decide (1 ≤ r.results.length ∧ ∀ q ∈ r.results, isFinite q.position.x = true)
    | _ => false) (by kernel_rfl)
  simp only [Bool.and_eq_true, List.all_eq_true, decide_eq_true_eq] at hP
  obtain ⟨⟨⟨h1, h2⟩, h4⟩, h5⟩ := hP
  refine ⟨rs, m, h, ⟨noStale_iff h1, ?_⟩, h2, rfl, rfl, by decide +kernel, h4, ?_⟩
  · intro a p b h hd
    have hm : Op.resetParams p ∈ ruledAhead := by simp [h]
    simp [ruledAhead] at hm
    simp [hm, ruledKalman] at hd
  · split at h5
    · rename_i m' r hs
      exact ⟨m', r, hs, of_decide_eq_true h5⟩
    · cases h5

end Examples

namespace XR
noncomputable section

theorem zero_fin : (0 : XR) = fin 0 := by simp
theorem one_fin : (1 : XR) = fin 1 := by simp

/-- The number `c`, or NaN. -/
def Meets (c : ℝ) (x : XR) : Prop := x = nan ∨ x = fin c

theorem Meets.mul (a : XR) {b : XR} (hb : Meets 0 b) : Meets 0 (a * b) := by
  rcases hb with rfl | rfl
  · exact .inl (mul_nan _)
  · cases a with
    | nan => exact .inl rfl
    | inf s =>
      left
      change XR.mul _ _ = _
      simp [XR.mul]
    | fin r => exact .inr (by simp)

theorem Meets.div {a : XR} (ha : Meets 0 a) (b : XR) : Meets 0 (a / b) := by
  rcases ha with rfl | rfl
  · exact .inl (by cases b <;> rfl)
  · cases b with
    | nan => exact .inl rfl
    | inf s => exact .inr rfl
    | fin r =>
      rw [fin_div']
      split
      · exact .inl (by simp)
      · exact .inr (by simp)

instance : Lines XR ℝ where
  On := Meets
  zeroth := 0
  sub := by
    rintro c a b (rfl | rfl) (rfl | rfl)
    · exact .inl (by simp)
    · exact .inl (by simp)
    · exact .inl (by simp)
    · exact .inr (by simp)
  add := by
    rintro c a b (rfl | rfl) (rfl | rfl)
    · exact .inl (by simp)
    · exact .inl (by simp)
    · exact .inl (by simp)
    · exact .inr (by simp)
  mul a _ h := .mul a h
  div := .div
  zero := .inr zero_fin
  whole := by
    rintro c b (rfl | rfl)
    · exact .inl (by simp)
    · have : clamp01 (1 : XR) = fin 1 := by
        rw [one_fin]
        simp [clamp01, stdClamp]
      exact .inr (by rw [this, zero_fin]; simp)

instance : Rails XR XR ℝ where
  Far := Meets
  widen h := h
  narrow h := h
  zero := .inr zero_fin
  add ha hb := Lines.add (F := XR) ha hb
  radd := by
    rintro c a b (rfl | rfl) (rfl | rfl)
    · exact .inl (by simp)
    · exact .inl (by simp)
    · exact .inl (by simp)
    · exact .inr (by rw [fin_add]; exact congrArg fin (zero_add c))
  sub ha hb := Lines.sub (F := XR) ha hb
  mul a _ h := .mul a h
  rmul := by
    rintro a (rfl | rfl) b
    · exact .inl (by cases b <;> rfl)
    · cases b with
      | nan => exact .inl rfl
      | inf s =>
        left
        change XR.mul _ _ = _
        simp [XR.mul, origin, Lines.zeroth]
      | fin r => exact .inr (by rw [fin_mul]; exact congrArg fin (zero_mul r))
  one := by
    rintro c a (rfl | rfl)
    · exact .inl (mul_nan _)
    · exact .inr (by rw [one_fin]; simp)
  rone := by
    rintro c a (rfl | rfl)
    · exact .inl rfl
    · exact .inr (by rw [one_fin]; simp)
  join := by
    rintro c a b (rfl | rfl) (rfl | rfl)
    · exact .inl (by simp)
    · exact .inl (by simp)
    · exact .inl (by simp)
    · exact .inr (by rw [fin_add]; exact congrArg fin (zero_add c))
  twice := by
    rintro c a b (rfl | rfl) (rfl | rfl)
    · exact .inl (by simp)
    · exact .inl (by simp)
    · exact .inl (by simp)
    · exact .inr (by rw [show (2 : XR) = fin 2 by simp]; simp; rfl)
  thrice := by
    rintro c a b (rfl | rfl) (rfl | rfl)
    · exact .inl (by simp)
    · exact .inl (by simp)
    · exact .inl (by simp)
    · exact .inr (by rw [show (3 : XR) = fin 3 by simp]; simp; rfl)

/-- The sums of the wobble smoother fit to positions on the line. -/
structure Weighed (k : Bool) (c : ℝ) (w : WobbleSmoother XR XR) : Prop where
  samples : ∀ s ∈ w.state.samples, ∃ u t, s.duration = fin u ∧ s.weightedPosition.at k = fin (u * c) ∧ s.time = fin t
  sums : ∃ u, w.state.durationSum = fin u ∧ w.state.weightedPositionSum.at k = fin (u * c)

theorem evict_weighed {k : Bool} {c : ℝ} {limit : XR} {l : List (WobbleSample XR XR)} {wps : Vec2 XR} {dist dur : XR} {st : WobbleState XR XR}
    (h : WobbleSmoother.evict limit l wps dist dur = .ok st)
    (hl : ∀ s ∈ l, ∃ u t, s.duration = fin u ∧ s.weightedPosition.at k = fin (u * c) ∧ s.time = fin t)
    (hs : ∃ u, dur = fin u ∧ wps.at k = fin (u * c)) :
    (∀ s ∈ st.samples, ∃ u t, s.duration = fin u ∧ s.weightedPosition.at k = fin (u * c) ∧ s.time = fin t) ∧
    ∃ u, st.durationSum = fin u ∧ st.weightedPositionSum.at k = fin (u * c) := by
  induction l generalizing wps dist dur with
  | nil => cases h
  | cons s l ih =>
    simp only [WobbleSmoother.evict] at h
    split at h
    · refine ih h (fun x hx => hl x (List.mem_cons_of_mem _ hx)) ?_
      obtain ⟨u, t, e1, e2, -⟩ := hl s (List.mem_cons_self ..)
      obtain ⟨v, rfl, e3⟩ := hs
      refine ⟨v - u, by simp [WobbleSmoother.subDouble, e1], ?_⟩
      have : (wps - s.weightedPosition).at k = wps.at k - s.weightedPosition.at k := by cases k <;> rfl
      rw [this, e3, e2, fin_sub, sub_mul]
    · simp only [Outcome.ok.injEq] at h
      subst h
      exact ⟨hl, hs⟩

theorem smooths_all {k : Bool} {c : ℝ} (p : WobbleParams XR XR) : Smooths k c p (Weighed k c) where
  start {i} hf hi := by
    obtain ⟨t, ht⟩ := isFinite_iff.1 hf.time
    have z : (Vec2.zero : Vec2 XR).at k = fin (0 * c) := by rw [zero_mul, ← zero_fin]; cases k <;> rfl
    refine ⟨fun s hs => ?_, 0, zero_fin, z⟩
    obtain rfl := List.mem_singleton.1 hs
    exact ⟨0, t, zero_fin, z, ht⟩
  next {w w' i x} hf hi hw h := by
    unfold WobbleSmoother.update at h
    split at h
    · simp only [Outcome.ok.injEq, Prod.mk.injEq] at h
      obtain ⟨rfl, rfl⟩ := h
      exact ⟨hw, hi⟩
    · split at h
      · cases h
      · rename_i last hlast
        obtain ⟨st, hst, h⟩ := Outcome.bind_eq_ok.1 h
        simp only [Outcome.pure_eq, Outcome.ok.injEq, Prod.mk.injEq] at h
        obtain ⟨rfl, rfl⟩ := h
        obtain ⟨t, ht⟩ := isFinite_iff.1 hf.time
        have hic : i.position.at k = fin c := by
          rcases (hi : Meets _ _) with hi | hi
          · exfalso
            have : isFinite (i.position.at k) = true := by cases k; exacts [hf.y, hf.x]
            rw [hi] at this
            cases this
          · exact hi
        obtain ⟨u, t', e1, e2, e3⟩ := hw.samples last (List.mem_of_getLast? hlast)
        obtain ⟨v, e4, e5⟩ := hw.sums
        have hnew : ((narrow (i.time - last.time) : XR) •ᵥ i.position).at k = fin ((t - t') * c) := by
          have : ((narrow (i.time - last.time) : XR) •ᵥ i.position).at k = (i.time - last.time) * i.position.at k := by cases k <;> rfl
          rw [this, ht, e3, hic]
          simp
        have hw' := evict_weighed (k := k) (c := c) hst (by
          intro s hs
          rcases List.mem_append.1 hs with hs | hs
          · exact hw.samples s hs
          · obtain rfl := List.mem_singleton.1 hs
            exact ⟨t - t', t, by simp [ht, e3], hnew, ht⟩) (by
          refine ⟨v + (t - t'), by simp [WobbleSmoother.push, WobbleSmoother.addDouble, e4, ht, e3], ?_⟩
          have : ∀ a b : Vec2 XR, (a + b).at k = a.at k + b.at k := by intro a b; cases k <;> rfl
          simp only [WobbleSmoother.push]
          rw [this, e5, hnew, fin_add, ← add_mul])
        refine ⟨⟨hw'.1, hw'.2⟩, ?_⟩
        obtain ⟨u', e6, e7⟩ := hw'.2
        unfold WobbleSmoother.smoothed
        split
        · exact hi
        · rename_i hne
          refine OnLine.interpVec ?_ hi _
          have : (st.weightedPositionSum /ᵥ st.durationSum).at k = st.weightedPositionSum.at k / st.durationSum := by cases k <;> rfl
          rw [this, e6, e7]
          have hu : u' ≠ 0 := by
            rintro rfl
            rw [e6] at hne
            exact hne (by rw [zero_fin]; simp)
          refine (.inr ?_ : Meets _ _)
          rw [fin_div _ hu, mul_div_cancel_left₀ _ hu]

end
end XR

section Exact
open XR
variable {ops : List (Op XR XR)} {rs : List (Response XR XR)} {m m' : StrokeModeler XR XR} {p : StrokeModelParams XR XR}

theorem XR.Meets.sure {c : ℝ} {x : XR} (h : OnLine c x) (hx : isFinite x = true) : x = fin c := by
  rcases (h : XR.Meets c x) with h | h
  · rw [h] at hx; cases hx
  · exact h

/-- C81 on exact numbers, with wobble smoothing or not. -/
theorem C81_axis_exact (h : Session ops rs m) (hr : Regular ops rs) (hp : (known ops rs).params = some p) (hl : LoopOk p.position.loop) {c : ℝ} :
    ((∀ f ∈ strokeOf ops rs, f.input.position.x = fin c) → ∀ r ∈ resultsOf (strokeOf ops rs),
      r.position.x = fin c ∧ r.velocity.x = fin 0 ∧ r.acceleration.x = fin 0) ∧
    ((∀ f ∈ strokeOf ops rs, f.input.position.y = fin c) → ∀ r ∈ resultsOf (strokeOf ops rs),
      r.position.y = fin c ∧ r.velocity.y = fin 0 ∧ r.acceleration.y = fin 0) := by
  by_cases hne : strokeOf ops rs = []
  · rw [hne]; simp [resultsOf]
  obtain ⟨p', m₀, hp', hco, -⟩ := h.course hr hne
  obtain rfl : p = p' := by rw [hp] at hp'; exact Option.some.inj hp'
  refine ⟨fun hin r hrr => ?_, fun hin r hrr => ?_⟩
  · obtain ⟨a, b, d⟩ := (hco.ruled (k := true) (XR.smooths_all p.wobble) fun f h => .inr (hin f h)).2 r hrr
    obtain ⟨⟨f1, -, f3, -, f5, -⟩, -⟩ := C53_finite_exact h hr hp hl hrr
    exact ⟨XR.Meets.sure a f1, XR.Meets.sure b f3, XR.Meets.sure d f5⟩
  · obtain ⟨a, b, d⟩ := (hco.ruled (k := false) (XR.smooths_all p.wobble) fun f h => .inr (hin f h)).2 r hrr
    obtain ⟨⟨-, f2, -, f4, -, f6, -⟩, -⟩ := C53_finite_exact h hr hp hl hrr
    exact ⟨XR.Meets.sure a f2, XR.Meets.sure b f4, XR.Meets.sure d f6⟩

/-- C81, predictions on exact numbers: likewise up to NaN, for both predictors, with wobble smoothing or not. -/
theorem C81_prediction_exact (h : Session ops rs m) (hr : Regular ops rs) {c : ℝ} {v : List (Result XR XR)} {resp : Response XR XR}
    (hst : step m (.predict v) = .ok (m', resp)) :
    ((∀ f ∈ strokeOf ops rs, f.input.position.x = fin c) → ∀ r ∈ resp.results,
      (r.position.x = nan ∨ r.position.x = fin c) ∧ (r.velocity.x = nan ∨ r.velocity.x = fin 0) ∧
      (r.acceleration.x = nan ∨ r.acceleration.x = fin 0)) ∧
    ((∀ f ∈ strokeOf ops rs, f.input.position.y = fin c) → ∀ r ∈ resp.results,
      (r.position.y = nan ∨ r.position.y = fin c) ∧ (r.velocity.y = nan ∨ r.velocity.y = fin 0) ∧
      (r.acceleration.y = nan ∨ r.acceleration.y = fin 0)) := by
  simp only [step] at hst
  obtain ⟨⟨m₁, s, v'⟩, hu, hst⟩ := Outcome.bind_eq_ok.1 hst
  simp only [Outcome.pure_eq, Outcome.ok.injEq, Prod.mk.injEq] at hst
  obtain ⟨rfl, rfl⟩ := hst
  rcases predict_ok hu with ⟨_, _, _, rfl, _⟩ | ⟨_, _, last, _, _, _, _, _, hl, _⟩
  · simp
  · obtain ⟨p, m₀, hp, hco, hsl⟩ := h.course hr (h.in_progress hr (by simp [hl]))
    obtain ⟨_, hu, -⟩ := hsl.predict_ok hu
    rcases predict_ok hu with ⟨_, _, _, rfl, _⟩ | ⟨_, pr, last, tips, _, out, _, hpr', hl, htips, hms, _, _, rfl⟩
    · simp
    have key : ∀ k, (∀ f ∈ strokeOf ops rs, OnLine c (f.input.position.at k)) → ∀ r ∈ v', AlongRes k c r := by
      intro k hin
      have hru := (hco.ruled (XR.smooths_all p.wobble) hin).1
      have hpo := hru.predictor
      rw [hpr'] at hpo
      exact Along.answer hco hco hms hru.samples (Along.predicted hpo hru.tip htips)
    exact ⟨fun hin r hr => key true (fun f h => .inr (hin f h)) r hr, fun hin r hr => key false (fun f h => .inr (hin f h)) r hr⟩

/-- A stroke of four inputs along the line y = 4, with a wobble smoother that is on. -/
noncomputable def Ex.xaxis : List (Input XR XR) :=
  [xin .down (pt 3 4) 0 0.2 1 2, xin .move (pt 3.2 4) (1 / 30) 0.3 1.1 2.1, xin .move (pt 3.1 4) (2 / 30) 0.4 1.2 2.2,
   xin .up (pt 3.6 4) (3 / 30) 0.5 1.3 2.3]

/-- The hypotheses of `C81_axis_exact` hold for a stroke along the line y = 4 with wobble smoothing and loop mitigation, which has four events. -/
example : ∃ rs m, Session (calls Ex.xloop Ex.xaxis) rs m ∧ Regular (calls Ex.xloop Ex.xaxis) rs ∧
    (known (calls Ex.xloop Ex.xaxis) rs).params = some Ex.xloop ∧ LoopOk Ex.xloop.position.loop ∧ Ex.xloop.wobble.isEnabled = true ∧
    (strokeOf (calls Ex.xloop Ex.xaxis) rs).length = 4 ∧ (∀ e ∈ strokeOf (calls Ex.xloop Ex.xaxis) rs, e.results.isSome = true) ∧
    ∀ f ∈ strokeOf (calls Ex.xloop Ex.xaxis) rs, f.input.position.y = fin 4 := by
  have hn : ∀ {e e' : EventType} {z z' : ℂ} {t t' pr pr' tl tl' o o' : ℝ}, (t' - t) * 180 ≤ 20 →
      Near Ex.xloop (Ex.xin e z t pr tl o) (Ex.xin e' z' t' pr' tl' o') := by
    intro e e' z z' t t' pr pr' tl tl' o o' ht
    refine .inr ⟨rfl, ?_⟩
    simpa [Ex.xin, Ex.xloop, Ex.xparams] using ht
  have hf : XR.Follows Ex.xloop (Ex.xin .down (Ex.pt 3 4) 0 0.2 1 2) Ex.xaxis.tail :=
    ⟨Ex.fits_xin (by norm_num), hn (by norm_num), Ex.good_fin _, .inl rfl, Ex.fits_xin (by norm_num), hn (by norm_num), Ex.good_fin _, .inl rfl,
      Ex.fits_xin (by norm_num), hn (by norm_num), Ex.good_fin _, .inr ⟨rfl, rfl⟩, trivial⟩
  obtain ⟨rs, m, h1, h2, h3, h4, h5⟩ := exists_stroke Ex.xloop_valid rfl ⟨isFinite_fin _, isFinite_fin _, isFinite_fin _⟩ (Ex.good_fin _) hf
    (by simp [Ex.xaxis])
  refine ⟨rs, m, h1, h2, h3, Ex.xloop_ok, rfl, ?_, h5, fun f hm => ?_⟩
  · have := congrArg List.length h4
    rw [List.length_map] at this
    exact this
  · have hm' : f.input ∈ Ex.xaxis := by
      have : f.input ∈ (strokeOf (calls Ex.xloop Ex.xaxis) rs).map Event.input := List.mem_map_of_mem hm
      have e : (strokeOf (calls Ex.xloop Ex.xaxis) rs).map Event.input = Ex.xaxis := h4
      rwa [e] at this
    simp only [Ex.xaxis, List.mem_cons, List.not_mem_nil, or_false] at hm'
    rcases hm' with h | h | h | h <;> rw [h] <;> rfl

/-- C81 applies to a prediction on exact numbers, with wobble smoothing and loop mitigation. -/
example : ∃ ops rs m m' r, Session ops rs m ∧ Regular ops rs ∧ (known ops rs).params = some Ex.xloop ∧ Ex.xloop.wobble.isEnabled = true ∧
    (strokeOf ops rs).length = 3 ∧ (∀ f ∈ strokeOf ops rs, f.input.position.y = fin 4) ∧ step m (.predict []) = .ok (m', r) := by
  have hn : ∀ {e e' : EventType} {z z' : ℂ} {t t' pr pr' tl tl' o o' : ℝ}, (t' - t) * 180 ≤ 20 →
      Near Ex.xloop (Ex.xin e z t pr tl o) (Ex.xin e' z' t' pr' tl' o') := by
    intro e e' z z' t t' pr pr' tl tl' o o' ht
    refine .inr ⟨rfl, ?_⟩
    simpa [Ex.xin, Ex.xloop, Ex.xparams] using ht
  have hf : XR.Follows Ex.xloop (Ex.xin .down (Ex.pt 3 4) 0 0.2 1 2)
      [Ex.xin .move (Ex.pt 3.2 4) (1 / 30) 0.3 1.1 2.1, Ex.xin .move (Ex.pt 3.1 4) (2 / 30) 0.4 1.2 2.2] :=
    ⟨Ex.fits_xin (by norm_num), hn (by norm_num), Ex.good_fin _, .inl rfl, Ex.fits_xin (by norm_num), hn (by norm_num), Ex.good_fin _, .inl rfl,
      trivial⟩
  obtain ⟨rs, m, h, hr, hp, hs, -, hsafe⟩ := exists_stroke_safe Ex.xloop_valid rfl ⟨isFinite_fin _, isFinite_fin _, isFinite_fin _⟩
    (Ex.good_fin _) hf (by simp)
  have hmp : m.params = some Ex.xloop := by rw [← h.known] at hp; exact hp
  obtain ⟨m', s, v', hpr, -⟩ := predict_returns tame hsafe [] (by
    intro pr hpr
    have hl := (h.predInv hr.noDisable).live _ hmp
    rw [hpr] at hl
    cases pr with
    | strokeEnd q => exact ⟨_, rfl⟩
    | kalman q => simp [StrokeModeler.makePredictor, Ex.xloop, Ex.xparams, Predictor.reset] at hl)
  refine ⟨_, rs, m, m', ⟨s, v'⟩, h, hr, hp, rfl, ?_, fun f hm => ?_, by simp only [step, hpr, Outcome.ok_bind, Outcome.pure_eq]⟩
  · have := congrArg List.length hs
    rw [List.length_map] at this
    exact this
  · have hm' := List.mem_map_of_mem (f := Event.input) hm
    rw [hs] at hm'
    simp only [List.mem_cons, List.not_mem_nil, or_false] at hm'
    rcases hm' with h | h | h <;> rw [h] <;> rfl

end Exact

section Sharp
open Ex

/-- A pen that rests at (43/10, 0), with the parameters of the unit tests. -/
def Ex.driftOps : List (Op F32 F64) :=
  [.resetParams params, .update (inp .down (fl 43 10) 0 0) [], .update (inp .move (fl 43 10) 0 (d 7 1000)) [],
   .update (inp .move (fl 43 10) 0 (d 16 1000)) [], .update (inp .move (fl 43 10) 0 (d 30 1000)) [],
   .update (inp .move (fl 43 10) 0 (d 80 1000)) []]

/-- The hypothesis on wobble smoothing is needed on floats: a pen rests, and with the parameters of the unit tests a result is somewhere else. -/
theorem C81_sharp_float [Libm] : ∃ (ops : List (Op F32 F64)) (rs : List (Response F32 F64)) (m : StrokeModeler F32 F64), Session ops rs m ∧
    Regular ops rs ∧ (known ops rs).params = some params ∧ (∀ f ∈ strokeOf ops rs, f.input.position = ⟨fl 43 10, 0⟩) ∧
    ∃ r ∈ resultsOf (strokeOf ops rs), isFinite r.position.x = true ∧ (r.position.x =ᵇ fl 43 10) = false := by
  obtain ⟨rs, m, h, hP⟩ := exists_session (ops := driftOps) (P := fun rs _ => noStale driftOps rs &&
    decide ((known driftOps rs).params = some params) && (strokeOf driftOps rs).all (fun f => decide (f.input.position = ⟨fl 43 10, 0⟩)) &&
    (resultsOf (strokeOf driftOps rs)).any fun r => isFinite r.position.x && !(r.position.x =ᵇ fl 43 10)) (by kernel_rfl)
  simp only [Bool.and_eq_true, decide_eq_true_eq, List.all_eq_true, List.any_eq_true, Bool.not_eq_true'] at hP
  obtain ⟨⟨⟨h1, h2⟩, h3⟩, h4⟩ := hP
  refine ⟨driftOps, rs, m, h, ⟨noStale_iff h1, ?_⟩, h2, h3, h4⟩
  intro a p b h hd
  have hm : Op.resetParams p ∈ driftOps := by simp [h]
  simp [driftOps] at hm
  simp [hm, params] at hd

end Sharp
end Ink
