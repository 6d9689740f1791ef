import Verif.Spec.Ordinary
import Verif.Lemmas.Average
import Verif.Props.Rounding
import Verif.Props.FloatStylus
/-!
# Ordinary strokes on floats: C71

With wobble smoothing, loop mitigation and stylus data, the results of a stroke are finite numbers near the inputs.
-/
namespace Ink
noncomputable section
open Scalar Arith Fl

section Lemmas
variable [Libm] {R g G τ : ℝ}

omit [Libm] in
theorem InReach.mono {A B : ℝ} {a : Vec2 (Fl f32)} (h : InReach A a) (hAB : A ≤ B) : InReach B a :=
  ⟨h.finx, h.finy, h.x.trans hAB, h.y.trans hAB⟩

omit [Libm] in
/-- A point on the way between two points. -/
theorem inReach_interp {B : ℝ} {a b : Vec2 (Fl f32)} {c : Fl f32} (hB : 1 / 2 ^ 80 ≤ B ∧ B ≤ 2 ^ 110) (ha : InReach B a) (hb : InReach B b)
    (hc : Fl.isNaN c = false) : InReach (101 / 100 * B) (interpVec a b c) := by
  obtain ⟨x1, x2⟩ := lerp_reach ha.finx hb.finx hB ha.x hb.x hc
  obtain ⟨y1, y2⟩ := lerp_reach ha.finy hb.finy hB ha.y hb.y hc
  exact ⟨x1, y1, x2, y2⟩

/-- A raw sample of an ordinary stroke. -/
structure Sampled (R g : ℝ) (r : Result (Fl f32) (Fl f64)) : Prop where
  pos : InReach (2 * R) r.position
  vel : InReach (5 * R / g) r.velocity
  acc : InReach (11 * R / g ^ 2) r.acceleration

/-- The sizes in use. -/
structure Sizes (R g G : ℝ) : Prop where
  region : 1 / 2 ^ 50 ≤ R ∧ R ≤ 2 ^ 50
  short : 1 / 2 ^ 20 ≤ g ∧ g ≤ 1
  long : 0 ≤ G ∧ G ≤ 2 ^ 20

omit [Libm] in
theorem Sizes.bounds (h : Sizes R g G) : 0 < R ∧ 0 < g ∧ (1 / 2 ^ 50 ≤ R / g ∧ R / g ≤ 2 ^ 70) ∧ (1 / 2 ^ 50 ≤ R / g ^ 2 ∧ R / g ^ 2 ≤ 2 ^ 90) := by
  have hR : 0 < R := lt_of_lt_of_le (by positivity) h.region.1
  have hg : 0 < g := lt_of_lt_of_le (by positivity) h.short.1
  have up : ∀ {x : ℝ}, 0 < x → x / g ≤ 2 ^ 20 * x := by
    intro x hx
    rw [div_le_iff₀ hg]
    have := mul_le_mul_of_nonneg_left h.short.1 (by positivity : 0 ≤ 2 ^ 20 * x)
    calc x = 2 ^ 20 * x * (1 / 2 ^ 20) := by ring
      _ ≤ _ := this
  have low : ∀ {x : ℝ}, 0 < x → x ≤ x / g := by
    intro x hx
    rw [le_div_iff₀ hg]
    exact mul_le_of_le_one_right hx.le h.short.2
  have e : R / g ^ 2 = R / g / g := by rw [pow_two, div_div]
  have u1 := up hR
  have l1 := low hR
  have u2 := up (div_pos hR hg)
  have l2 := low (div_pos hR hg)
  obtain ⟨r1, r2⟩ := h.region
  refine ⟨hR, hg, ⟨r1.trans l1, ?_⟩, ⟨r1.trans (l1.trans (by rw [e]; exact l2)), ?_⟩⟩
  · refine u1.trans ?_
    calc 2 ^ 20 * R ≤ 2 ^ 20 * 2 ^ 50 := by linarith
      _ = 2 ^ 70 := by norm_num
  · rw [e]
    refine u2.trans ?_
    calc 2 ^ 20 * (R / g) ≤ 2 ^ 20 * (2 ^ 20 * R) := by linarith
      _ ≤ 2 ^ 20 * (2 ^ 20 * 2 ^ 50) := by linarith
      _ = 2 ^ 90 := by norm_num

omit [Libm] in
/-- A difference quotient. -/
theorem quotient_reach {a b : Vec2 (Fl f32)} {dt : Fl f32} {B : ℝ} (hB : 1 / 2 ^ 80 ≤ B ∧ B ≤ 2 ^ 110) (hBg : 1 / 2 ^ 80 ≤ B / g ∧ B / g ≤ 2 ^ 110)
    (hg : 0 < g) (ha : InReach B a) (hb : InReach B b) (hf : Finite dt) (hdt : 99 / 100 * g ≤ num dt) : InReach (21 / 10 * (B / g)) ((a - b) /ᵥ dt) := by
  have B0 : 0 < B := lt_of_lt_of_le (by positivity) hB.1
  have heps : eps = 1 / 16000000 := rfl
  have d0 : 0 < num dt := lt_of_lt_of_le (by positivity) hdt
  have key : ∀ {x y : Fl f32}, Finite x → Finite y → |num x| ≤ B → |num y| ≤ B → Finite ((x - y) / dt) ∧ |num ((x - y) / dt)| ≤ 21 / 10 * (B / g) := by
    intro x y hx hy h1 h2
    have hr1 : |num x - num y| ≤ 2 * B := (abs_sub _ _).trans (by linarith)
    obtain ⟨f1, e1⟩ := sub_near hx hy (usual_of (k := 2) hB rfl (by norm_num) (by norm_num)) hr1
    have b1 : |num (x - y)| ≤ 201 / 100 * B := (abs_of_near e1 hr1).trans (by rw [heps]; linarith)
    have hr2 : |num (x - y) / num dt| ≤ 205 / 100 * (B / g) := by
      rw [abs_div, abs_of_pos d0, div_le_iff₀ d0]
      refine b1.trans ?_
      calc 201 / 100 * B = 201 / 100 * (B / g) * g := by field_simp
        _ ≤ 205 / 100 * (B / g) * (99 / 100 * g) := by
          have : 0 < B / g * g := by positivity
          nlinarith
        _ ≤ _ := mul_le_mul_of_nonneg_left hdt (by positivity)
    obtain ⟨f2, e2⟩ := div_near f1 hf d0.ne' (usual_of (k := 205 / 100) hBg rfl (by norm_num) (by norm_num)) hr2
    refine ⟨f2, (abs_of_near e2 hr2).trans ?_⟩
    have : 0 < B / g := by positivity
    rw [heps]; linarith
  obtain ⟨x1, x2⟩ := key ha.finx hb.finx ha.x hb.x
  obtain ⟨y1, y2⟩ := key ha.finy hb.finy ha.y hb.y
  exact ⟨x1, y1, x2, y2⟩

/-- The raw sample of an input. -/
theorem sampled_raw (hz : Sizes R g G) {last? : Option (Result (Fl f32) (Fl f64))} {x : Vec2 (Fl f32)} {time : Fl f64} (hx : InReach (2 * R) x)
    (ht : Finite time) (hl : ∀ r, last? = some r → Sampled R g r ∧ Finite r.time ∧
      (num time = num r.time ∨ g ≤ num time - num r.time) ∧ num time - num r.time ≤ G) (st : StylusState (Fl f32)) :
    Sampled R g (StylusModeler.rawResult last? x time st) := by
  obtain ⟨hR, hg, ⟨v1, v2⟩, ⟨a1, a2⟩⟩ := hz.bounds
  have e1 : 5 * R / g = 5 * (R / g) := by ring
  have e2 : 11 * R / g ^ 2 = 11 * (R / g ^ 2) := by ring
  have z1 : InReach (5 * R / g) (Vec2.zero : Vec2 (Fl f32)) :=
    ⟨finite_zero, finite_zero, by simp [Vec2.zero, num_zero]; positivity, by simp [Vec2.zero, num_zero]; positivity⟩
  have z2 : InReach (11 * R / g ^ 2) (Vec2.zero : Vec2 (Fl f32)) :=
    ⟨finite_zero, finite_zero, by simp [Vec2.zero, num_zero]; positivity, by simp [Vec2.zero, num_zero]; positivity⟩
  unfold StylusModeler.rawResult
  cases last? with
  | none => exact ⟨hx, z1, z2⟩
  | some r =>
    obtain ⟨hr, h1, h2, h3⟩ := hl r rfl
    by_cases he : (time =ᵇ r.time) = true
    · simp only [he, Bool.not_true, Bool.false_eq_true, ↓reduceIte]
      exact ⟨hx, z1, z2⟩
    · simp only [he, Bool.not_false, ↓reduceIte]
      rw [eq_num ht.1 h1.1, decide_eq_true_eq] at he
      have h4 : g ≤ num time - num r.time := h2.resolve_left he
      obtain ⟨-, -, n1, n2⟩ := narrow_sub h1 ht (.inr ⟨hz.short.1.trans h4, h3.trans (hz.long.2.trans (by norm_num))⟩)
      have hdt : 99 / 100 * g ≤ num (narrow (time - r.time) : Fl f32) := by
        have := (abs_le.1 n2).1
        have heps : eps = 1 / 16000000 := rfl
        rw [heps] at this
        linarith
      have hv : InReach (5 * R / g) ((x - r.position) /ᵥ (narrow (time - r.time) : Fl f32)) := by
        refine (quotient_reach (B := 2 * R) ⟨?_, ?_⟩ ⟨?_, ?_⟩ hg hx hr.pos n1 hdt).mono ?_
        · exact le_trans (by norm_num) (hz.region.1.trans (by linarith))
        · calc 2 * R ≤ 2 * 2 ^ 50 := by linarith [hz.region.2]
            _ ≤ 2 ^ 110 := by norm_num
        · rw [mul_div_assoc]; exact le_trans (by norm_num) (v1.trans (by linarith))
        · rw [mul_div_assoc]
          calc 2 * (R / g) ≤ 2 * 2 ^ 70 := by linarith
            _ ≤ 2 ^ 110 := by norm_num
        · rw [e1, mul_div_assoc]; linarith [div_pos hR hg]
      refine ⟨hx, hv, ?_⟩
      have e3 : 5 * R / g / g = 5 * (R / g ^ 2) := by rw [pow_two]; field_simp
      refine (quotient_reach (B := 5 * R / g) ⟨?_, ?_⟩ ⟨?_, ?_⟩ hg hv hr.vel n1 hdt).mono ?_
      · rw [e1]; exact le_trans (by norm_num) (v1.trans (by linarith [div_pos hR hg]))
      · rw [e1]
        calc 5 * (R / g) ≤ 5 * 2 ^ 70 := by linarith
          _ ≤ 2 ^ 110 := by norm_num
      · rw [e3]; exact le_trans (by norm_num) (a1.trans (by linarith [div_pos hR (pow_pos hg 2)]))
      · rw [e3]
        calc 5 * (R / g ^ 2) ≤ 5 * 2 ^ 90 := by linarith
          _ ≤ 2 ^ 110 := by norm_num
      · rw [e2, e3]; linarith [div_pos hR (pow_pos hg 2)]

/-- A result with the motion of the tip. -/
def ghost (q : TipState (Fl f32) (Fl f64)) : Result (Fl f32) (Fl f64) :=
  { position := q.position, velocity := q.velocity, acceleration := q.acceleration, time := q.time, pressure := 0, tilt := 0, orientation := 0 }

omit [Libm] in
theorem same_ghost (tips : List (TipState (Fl f32) (Fl f64))) : List.Forall₂ SameMotion tips (tips.map ghost) := by
  rw [List.forall₂_map_right_iff, List.forall₂_same]
  intro q _
  constructor <;> rfl

/-- The result is as good as the ghost. -/
def Drawn (R g : ℝ) (r r' : Result (Fl f32) (Fl f64)) : Prop :=
  Finite r.time → Finite r'.time ∧ num r'.time = num r.time ∧
    (∀ B, 3 * R ≤ B → B ≤ 2 ^ 110 → InReach B r'.position → InReach (101 / 100 * B) r.position) ∧
    (∀ B, 6 * R / g ≤ B → B ≤ 2 ^ 110 → InReach B r'.velocity → InReach (101 / 100 * B) r.velocity) ∧
    (∀ B, 12 * R / g ^ 2 ≤ B → B ≤ 2 ^ 110 → InReach B r'.acceleration → InReach (101 / 100 * B) r.acceleration)

omit [Libm] in
theorem drawn_refl (hz : Sizes R g G) (r : Result (Fl f32) (Fl f64)) : Drawn R g r r := by
  obtain ⟨hR, hg, -, -⟩ := hz.bounds
  intro hf
  refine ⟨hf, rfl, fun B h1 h2 h => h.mono ?_, fun B h1 h2 h => h.mono ?_, fun B h1 h2 h => h.mono ?_⟩
  · linarith
  · have : 0 < 6 * R / g := by positivity
    linarith
  · have : 0 < 12 * R / g ^ 2 := by positivity
    linarith

omit [Libm] in
theorem inReach_alike {B : ℝ} {a b : Vec2 (Fl f32)} (hx : Alike a.x b.x) (hy : Alike a.y b.y) (h : InReach B b) : InReach B a := by
  obtain ⟨x1, x2⟩ := hx.symm.num h.finx
  obtain ⟨y1, y2⟩ := hy.symm.num h.finy
  exact ⟨x1, y1, by rw [← x2]; exact h.x, by rw [← y2]; exact h.y⟩

/-- A result of the loop over the tips. -/
theorem drawn_result (hz : Sizes R g G) {s : StylusModeler (Fl f32) (Fl f64)} {tip : TipState (Fl f32) (Fl f64)} {n : Option (Vec2 (Fl f32))}
    {q r : Result (Fl f32) (Fl f64)} {c : Fl f32} (hq : s.query tip n = .ok q) (hr : interpResult q (makeResultFromTipState tip q) c = .ok r)
    (hs : s.state.inputs ≠ [] ∨ c = 1) (hin : ∀ x ∈ s.state.inputs, Sampled R g x) : Drawn R g r (ghost tip) := by
  obtain ⟨hR, hg, ⟨v1, v2⟩, ⟨a1, a2⟩⟩ := hz.bounds
  intro hf
  obtain ⟨o, -, rfl⟩ := interpResult_ok hr
  rcases StylusModeler.query_ok hq with ⟨he, rfl⟩ | ⟨hne, p, r, hp, hr', rfl⟩
  · obtain rfl := hs.resolve_left (fun h => h he)
    obtain ⟨t1, t2⟩ := (interpTime_zero_one tip.time).num hf
    refine ⟨t1, t2.symm, ?_, ?_, ?_⟩
    all_goals
      intro B hB hB' h
      exact (inReach_alike (interp_zero_one _) (interp_zero_one _) h).mono (by linarith [(abs_nonneg _).trans h.x])
  · have ht : Finite (interpTime tip.time tip.time c) := hf
    have hc : Fl.isNaN c = false := by
      by_contra hc
      have := add_nan_right tip.time (mul_nan_right (tip.time - tip.time) (widen_nan ((clamp01_spec c).1.trans (by simpa using hc))))
      have h2 := ht.1
      unfold interpTime at h2
      rw [this] at h2
      simp at h2
    have htip : Finite tip.time := by
      by_contra hn
      have h2 := ht.1
      unfold interpTime at h2
      rw [add_nan_right] at h2
      · simp at h2
      · apply mul_nan_left
        revert hn
        cases tip.time with
        | nan => intro _; rfl
        | inf a => intro _; cases a <;> rfl
        | fin a k hk => intro hn; exact absurd ⟨rfl, rfl⟩ hn
    have hnum : num (interpTime tip.time tip.time c) = num tip.time := (interpTime_same c).resolve_left (by rw [ht.1]; simp)
    -- what the stylus modeler answers
    obtain ⟨q1, q2, q3⟩ : InReach (3 * R) r.position ∧ InReach (6 * R / g) r.velocity ∧ InReach (12 * R / g ^ 2) r.acceleration := by
      have held : ∀ {x : Result (Fl f32) (Fl f64)}, Sampled R g x →
          InReach (3 * R) x.position ∧ InReach (6 * R / g) x.velocity ∧ InReach (12 * R / g ^ 2) x.acceleration := by
        intro x hx
        refine ⟨hx.pos.mono (by linarith), hx.vel.mono (by gcongr; norm_num), hx.acc.mono (by gcongr; norm_num)⟩
      unfold StylusModeler.projectedResult at hr'
      split at hr'
      · rename_i p
        split at hr'
        · rename_i a b ha hb
          have hra := projection_ratio hp _ rfl
          have ha := hin _ (List.mem_of_getElem? ha)
          have hb := hin _ (List.mem_of_getElem? hb)
          obtain ⟨o', -, rfl⟩ := interpResult_ok hr'
          refine ⟨(inReach_interp ⟨?_, ?_⟩ ha.pos hb.pos hra).mono (by linarith), (inReach_interp ⟨?_, ?_⟩ ha.vel hb.vel hra).mono ?_,
            (inReach_interp ⟨?_, ?_⟩ ha.acc hb.acc hra).mono ?_⟩
          · exact le_trans (by norm_num) (hz.region.1.trans (by linarith))
          · calc 2 * R ≤ 2 * 2 ^ 50 := by linarith [hz.region.2]
              _ ≤ 2 ^ 110 := by norm_num
          · rw [mul_div_assoc]; exact le_trans (by norm_num) (v1.trans (by linarith [div_pos hR hg]))
          · rw [mul_div_assoc]
            calc 5 * (R / g) ≤ 5 * 2 ^ 70 := by linarith
              _ ≤ 2 ^ 110 := by norm_num
          · rw [mul_div_assoc, mul_div_assoc]; linarith [div_pos hR hg]
          · rw [mul_div_assoc]; exact le_trans (by norm_num) (a1.trans (by linarith [div_pos hR (pow_pos hg 2)]))
          · rw [mul_div_assoc]
            calc 11 * (R / g ^ 2) ≤ 11 * 2 ^ 90 := by linarith
              _ ≤ 2 ^ 110 := by norm_num
          · rw [mul_div_assoc, mul_div_assoc]; linarith [div_pos hR (pow_pos hg 2)]
        · cases hr'
      · split at hr'
        · rename_i a b ha hb
          simp only [Outcome.ok.injEq] at hr'
          rw [← hr']
          split
          · exact held (hin _ (List.mem_of_mem_head? ha))
          · exact held (hin _ (List.mem_of_getLast? hb))
        · cases hr'
    refine ⟨htip, hnum.symm, fun B h1 h2 h => ?_, fun B h1 h2 h => ?_, fun B h1 h2 h => ?_⟩
    · exact inReach_interp ⟨le_trans (by norm_num) (hz.region.1.trans (by linarith)), h2⟩ (q1.mono h1) h hc
    · refine inReach_interp ⟨le_trans ?_ h1, h2⟩ (q2.mono h1) h hc
      rw [mul_div_assoc]; exact le_trans (by norm_num) (v1.trans (by linarith [div_pos hR hg]))
    · refine inReach_interp ⟨le_trans ?_ h1, h2⟩ (q3.mono h1) h hc
      rw [mul_div_assoc]; exact le_trans (by norm_num) (a1.trans (by linarith [div_pos hR (pow_pos hg 2)]))

theorem drawn_results (hz : Sizes R g G) {s : StylusModeler (Fl f32) (Fl f64)} {tips : List (TipState (Fl f32) (Fl f64))}
    {l l' : LoopModeler (Fl f32) (Fl f64)} {c : Fl f32} {t : Fl f64} {out : List (Result (Fl f32) (Fl f64))}
    (h : modelStylusGo s tips l c t = .ok (l', out)) (hs : s.state.inputs ≠ [] ∨ (l.params.isEnabled = false ∧ c = 1))
    (hin : ∀ x ∈ s.state.inputs, Sampled R g x) : List.Forall₂ (Drawn R g) out (tips.map ghost) := by
  induction tips generalizing l l' c t out with
  | nil => simp only [modelStylusGo, Outcome.ok.injEq, Prod.mk.injEq] at h; simp [← h.2]
  | cons tip tips ih =>
    simp only [modelStylusGo] at h
    obtain ⟨q, hq, h⟩ := Outcome.bind_eq_ok.1 h
    obtain ⟨r, hr, h⟩ := Outcome.bind_eq_ok.1 h
    obtain ⟨⟨l₁, out'⟩, h₁, h⟩ := Outcome.bind_eq_ok.1 h
    simp only [Outcome.pure_eq, Outcome.ok.injEq, Prod.mk.injEq] at h
    rw [← h.2]
    refine .cons (drawn_result hz hq hr (hs.imp_right And.right) hin) (ih h₁ ?_)
    refine hs.imp_right fun ⟨h1, h2⟩ => ?_
    refine ⟨?_, ?_⟩
    · rw [loop_update_params]; exact h1
    · simp [LoopModeler.update, h1]

/-! ## The stroke -/

/-- The hypotheses on the inputs, in a form that goes over to beginnings of the stroke. -/
structure Tidy (p : StrokeModelParams (Fl f32) (Fl f64)) (R g G : ℝ) (es : List (Event (Fl f32) (Fl f64))) : Prop where
  sizes : Sizes R g G
  inputs : ∀ e ∈ es, InReach R e.input.position
  early : ∀ e ∈ es, |num e.input.time| ≤ 2 ^ 20
  spaced : es.IsChain (Spaced g G)
  wobble : p.wobble.isEnabled = true → Sized R G (num p.wobble.timeout) ∧
    es.length * (3 * (num p.wobble.timeout + 2 * G)) ≤ 2 ^ 17 * num p.wobble.timeout

variable {p : StrokeModelParams (Fl f32) (Fl f64)} {es : List (Event (Fl f32) (Fl f64))} {f : Event (Fl f32) (Fl f64)}
  {m : StrokeModeler (Fl f32) (Fl f64)}

omit [Libm] in
theorem Tidy.init (h : Tidy p R g G (es ++ [f])) : Tidy p R g G es := by
  refine ⟨h.sizes, fun e he => h.inputs e (by simp [he]), fun e he => h.early e (by simp [he]), h.spaced.left_of_append, fun hw => ?_⟩
  obtain ⟨h1, h2⟩ := h.wobble hw
  refine ⟨h1, le_trans ?_ h2⟩
  have : 0 ≤ 3 * (num p.wobble.timeout + 2 * G) := by
    have := h1.gap.1
    have : 0 ≤ num p.wobble.timeout := le_trans (by positivity) h1.timeout.1
    positivity
  refine mul_le_mul_of_nonneg_right ?_ this
  rw [List.length_append]
  push_cast
  linarith [(Nat.cast_nonneg [f].length : (0 : ℝ) ≤ _)]

/-- What is known of the modeler in the course of an ordinary stroke. -/
structure Going (p : StrokeModelParams (Fl f32) (Fl f64)) (R g G : ℝ) (es : List (Event (Fl f32) (Fl f64)))
    (m : StrokeModeler (Fl f32) (Fl f64)) : Prop where
  last : ∃ e, es.getLast? = some e ∧ Finite e.input.time ∧ (∀ r, m.stylus.state.inputs.getLast? = some r → r.time = e.input.time) ∧
    (p.wobble.isEnabled = true → m.lastInput ≠ none → Averaging R G (num p.wobble.timeout) es.length m.wobble.state (num e.input.time))
  held : ∀ x ∈ m.stylus.state.inputs, Sampled R g x ∧ Finite x.time

theorem steady_of_valid (h : validateStrokeModelParams p = .ok) (hw : p.wobble.isEnabled = true) : Steady p.wobble (num p.wobble.timeout) := by
  have h1 := (validParts h).2.1
  unfold validateWobbleParams at h1
  simp only [hw, Bool.not_true, Bool.false_eq_true, ↓reduceIte] at h1
  obtain ⟨a, h1⟩ := andThen_ok h1
  obtain ⟨b, h1⟩ := andThen_ok h1
  obtain ⟨c, h1⟩ := andThen_ok h1
  obtain ⟨a1, -⟩ := validateGreaterThanOrEqualToZero_ok a
  obtain ⟨b1, b2⟩ := validateGreaterThanOrEqualToZero_ok b
  have c1 := finite_of_isFinite (validateIsFiniteNumber_ok c)
  have b1 := finite_of_isFinite b1
  refine ⟨⟨finite_of_isFinite a1, rfl⟩, ⟨b1, ?_⟩, c1, ?_⟩
  · rwa [lt_num b1.1 finite_zero.1, num_zero, decide_eq_false_iff_not, not_lt] at b2
  · split at h1
    · cases h1
    · rename_i hc
      rw [lt_num c1.1 b1.1, decide_eq_true_eq, not_lt] at hc
      exact hc

omit [Libm] in
theorem last_of_suffix {α : Type} {l l' : List α} {x r : α} (h : l' <:+ l ++ [x]) (hr : l'.getLast? = some r) : r = x := by
  obtain ⟨t, ht⟩ := h
  have := congrArg List.getLast? ht
  simpa [List.getLast?_append, hr] using this

theorem rawResult_time (last? : Option (Result (Fl f32) (Fl f64))) (x : Vec2 (Fl f32)) (t : Fl f64) (st : StylusState (Fl f32)) :
    (StylusModeler.rawResult last? x t st).time = t := rfl

/-- The wobble smoother in the course of an ordinary stroke. -/
theorem Going.smooth [LibmFair] (hg : Going p R g G es m) (hc : Course p es m) {last : LastInput (Fl f32) (Fl f64)} (hl : m.lastInput = some last)
    {i : Input (Fl f32) (Fl f64)} {o : Option (List (Result (Fl f32) (Fl f64)))} (ht : Tidy p R g G (es ++ [⟨i, o⟩])) (hi : Finite i.time)
    {wobble : WobbleSmoother (Fl f32) (Fl f64)} {corrected : Vec2 (Fl f32)} (hw : m.wobble.update i.position i.time = .ok (wobble, corrected)) :
    (p.wobble.isEnabled = true → Averaging R G (num p.wobble.timeout) (es.length + 1) wobble.state (num i.time)) ∧
      InReach (2 * R) corrected := by
  obtain ⟨e, h1, h2, -, h4⟩ := hg.last
  have hx := ht.inputs ⟨i, o⟩ (by simp)
  have hR : 0 < R := ht.sizes.bounds.1
  by_cases hon : p.wobble.isEnabled = true
  · have hst := steady_of_valid hc.valid hon
    have hpar := hc.paramsOf.wobble
    obtain ⟨z1, z2⟩ := ht.wobble hon
    have hsp : Spaced g G e ⟨i, o⟩ := by
      have := ht.spaced
      rw [List.isChain_append] at this
      exact this.2.2 e h1 _ (by simp)
    have hs : Succeeds G (num e.input.time) i.time :=
      ⟨hi, hsp.1.imp_right fun h => ht.sizes.short.1.trans h, hsp.2, ht.early ⟨i, o⟩ (by simp)⟩
    have := Averaging.update hw (by rw [hpar]; exact hon) (by rw [hpar]; exact hst) z1 (h4 hon (by simp [hl])) (by simpa using z2) hx hs
    exact ⟨fun _ => this.1, this.2⟩
  · refine ⟨fun h => absurd h hon, ?_⟩
    rw [wobble_update_off (by rw [hc.paramsOf.wobble]; simpa using hon) hw]
    exact hx.mono (by linarith)

/-- The samples of the stylus modeler in the course of an ordinary stroke. -/
theorem Going.sample (hg : Going p R g G es m) {i : Input (Fl f32) (Fl f64)} {o : Option (List (Result (Fl f32) (Fl f64)))}
    (ht : Tidy p R g G (es ++ [⟨i, o⟩])) (hi : Finite i.time) {x : Vec2 (Fl f32)} (hx : InReach (2 * R) x) {st : StylusState (Fl f32)}
    {stylus : StylusModeler (Fl f32) (Fl f64)} (hs : m.stylus.update x i.time st = .ok stylus) :
    (∀ r, stylus.state.inputs.getLast? = some r → r.time = i.time) ∧ ∀ x ∈ stylus.state.inputs, Sampled R g x ∧ Finite x.time := by
  obtain ⟨e, h1, h2, h3, -⟩ := hg.last
  have hsuf := stylus_update_inputs hs
  have hsp : Spaced g G e ⟨i, o⟩ := by
    have := ht.spaced
    rw [List.isChain_append] at this
    exact this.2.2 e h1 _ (by simp)
  constructor
  · intro r hr
    rw [last_of_suffix hsuf hr, rawResult_time]
  · intro y hy
    rcases List.mem_append.1 (hsuf.subset hy) with hy | hy
    · exact hg.held y hy
    · rw [List.mem_singleton] at hy
      rw [hy]
      refine ⟨sampled_raw ht.sizes hx hi ?_ st, by rw [rawResult_time]; exact hi⟩
      intro r hr
      obtain ⟨r1, r2⟩ := hg.held r (List.mem_of_getLast? hr)
      rw [h3 r hr]
      exact ⟨r1, h2, hsp.1, hsp.2⟩

theorem Course.going [LibmFair] (h : Course p es m) (ht : Tidy p R g G es) : Going p R g G es m := by
  induction h with
  | @down i stylus predictor _ he hfi hs hp =>
    have hi := finite_of_isFinite hfi.time
    have hx := ht.inputs _ (List.mem_singleton.2 rfl)
    have hR : 0 < R := ht.sizes.bounds.1
    have hsuf := stylus_update_inputs hs
    refine ⟨⟨_, rfl, hi, fun r hr => ?_, fun hon _ => averaging_start (ht.wobble hon).1 hx hi _ _⟩, fun y hy => ?_⟩
    · rw [last_of_suffix hsuf hr, rawResult_time]; rfl
    · have hy := hsuf.subset hy
      have he : (StylusModeler.default.reset p.stylus : StylusModeler (Fl f32) (Fl f64)).state.inputs = [] := rfl
      rw [he, List.nil_append, List.mem_singleton] at hy
      rw [hy]
      exact ⟨sampled_raw ht.sizes (hx.mono (by linarith)) hi (by intro r hr; cases hr) _, hi⟩
  | @move es m last i wobble corrected stylus n predictor loop out hm hl' he hfi hw hs hn hp hq ih =>
    have ih := ih ht.init
    have hi := finite_of_isFinite hfi.time
    obtain ⟨w1, w2⟩ := ih.smooth hm hl' ht hi hw
    obtain ⟨s1, s2⟩ := ih.sample ht hi w2 hs
    exact ⟨⟨_, List.getLast?_concat, hi, s1, fun hon _ => by rw [List.length_append]; exact w1 hon⟩, s2⟩
  | @late es m last i wobble corrected stylus s hm hl' he hfi hw hs hn ih =>
    have ih := ih ht.init
    have hi := finite_of_isFinite hfi.time
    obtain ⟨w1, w2⟩ := ih.smooth hm hl' ht hi hw
    obtain ⟨s1, s2⟩ := ih.sample ht hi w2 hs
    exact ⟨⟨_, List.getLast?_concat, hi, s1, fun hon _ => by rw [List.length_append]; exact w1 hon⟩, s2⟩
  | @up es m last i stylus n loop out hm hl' he hfi hs hn hq ih =>
    have ih := ih ht.init
    have hi := finite_of_isFinite hfi.time
    have hx := ht.inputs ⟨i, some out⟩ (by simp)
    have hR : 0 < R := ht.sizes.bounds.1
    obtain ⟨s1, s2⟩ := ih.sample ht hi (hx.mono (by linarith)) hs
    exact ⟨⟨_, List.getLast?_concat, hi, s1, fun _ h => absurd rfl h⟩, s2⟩

/-- The event and the event of the spring alone. -/
structure Ghosted (R g : ℝ) (e e' : Event (Fl f32) (Fl f64)) : Prop where
  input : InReach (2 * R) e'.input.position
  results : Option.Rel (List.Forall₂ (Drawn R g)) e.results e'.results

/-- The parameters without wobble smoothing. -/
def StrokeModelParams.still (p : StrokeModelParams (Fl f32) (Fl f64)) : StrokeModelParams (Fl f32) (Fl f64) :=
  { p with wobble := { p.wobble with isEnabled := false } }

/-- The spring under an ordinary stroke. -/
theorem Course.ghost [LibmFair] (h : Course p es m) (ht : Tidy p R g G es) :
    ∃ es' q, Springs SameMotion p.still es' (m.lastInput.map fun l => ({ l.input with position := l.correctedPosition }, l.correctedPosition)) q ∧
      (m.lastInput ≠ none → q = m.position.state) ∧ List.Forall₂ (Ghosted R g) es es' := by
  have answer : ∀ {es es' : List (Event (Fl f32) (Fl f64))} {m m' : StrokeModeler (Fl f32) (Fl f64)} {loop : LoopModeler (Fl f32) (Fl f64)} {t : Fl f64}
      {tips : List (TipState (Fl f32) (Fl f64))} {out : List (Result (Fl f32) (Fl f64))}, Course p es m → Course p es' m' → Tidy p R g G es' →
      modelStylus tips m'.stylus m.loop t = .ok (loop, out) → ∃ out', List.Forall₂ SameMotion tips out' ∧ List.Forall₂ (Drawn R g) out out' := by
    intro es es' m m' loop t tips out h h' ht hq
    refine ⟨_, same_ghost tips, drawn_results ht.sizes hq ((samples_or_off h').imp_right fun hl => ?_) fun x hx => ((h'.going ht).held x hx).1⟩
    have : m.loop.params.isEnabled = false := by rw [h.paramsOf.loop]; exact hl
    exact ⟨this, by simp [LoopModeler.getInterpolationValue, this]⟩
  induction h with
  | @down i stylus predictor _ he hfi hs hp =>
    have hx := ht.inputs _ (List.mem_singleton.2 rfl)
    have hR : 0 < R := ht.sizes.bounds.1
    refine ⟨_, StrokeModeler.startState i, .down (r := StrokeModeler.downResult i) he rfl rfl rfl rfl (by constructor <;> rfl), fun _ => rfl, ?_⟩
    exact .cons ⟨hx.mono (by linarith), .some (.cons (drawn_refl ht.sizes _) .nil)⟩ .nil
  | @move es m last i wobble corrected stylus n predictor loop out hm hl' he hfi hw hs hn hp hq ih =>
    obtain ⟨es', q, ih, hq', hes⟩ := ih ht.init
    rw [hl'] at ih
    obtain rfl := hq' (by simp [hl'])
    obtain ⟨out', hmot, hdr⟩ := answer hm (.move hm hl' he hfi hw hs hn hp hq) ht hq
    have hcor := ((hm.going ht.init).smooth hm hl' ht (finite_of_isFinite hfi.time) hw).2
    have hpath := springPath_go p.position last.correctedPosition last.input.time corrected i.time n n.toNat 1 (by omega) m.position.state
    have hst := alongPathGo_state p.position last.correctedPosition last.input.time corrected i.time n n.toNat 1 m.position.state
    unfold StrokeModeler.moveTips PositionModeler.updateAlongLinearPath at hmot ⊢
    rw [hm.paramsOf.position] at hmot ⊢
    refine ⟨_, _, .move (i := { i with position := corrected }) ih he (fun _ => rfl) hpath hmot, fun _ => ?_, ?_⟩
    · exact (hst.trans (List.getLastD_eq_getLast?.symm)).symm
    · exact List.rel_append hes (.cons ⟨hcor, .some hdr⟩ .nil)
  | @late es m last i wobble corrected stylus s hm hl' he hfi hw hs hn ih =>
    obtain ⟨es', q, ih, hq', hes⟩ := ih ht.init
    have hcor := ((hm.going ht.init).smooth hm hl' ht (finite_of_isFinite hfi.time) hw).2
    rw [hl'] at ih
    refine ⟨_, q, ?_, hq', List.rel_append hes (.cons (b := ⟨{ i with position := corrected }, none⟩) ⟨hcor, .none⟩ .nil)⟩
    change Springs _ _ _ (m.lastInput.map _) _
    rw [hl']
    exact .late ih he
  | @up es m last i stylus n loop out hm hl' he hfi hs hn hq ih =>
    obtain ⟨es', q, ih, hq', hes⟩ := ih ht.init
    rw [hl'] at ih
    obtain rfl := hq' (by simp [hl'])
    obtain ⟨out', hmot, hdr⟩ := answer hm (.up hm hl' he hfi hs hn hq) ht hq
    have hR : 0 < R := ht.sizes.bounds.1
    have hx : InReach (2 * R) i.position := (ht.inputs ⟨i, some out⟩ (by simp)).mono (by linarith)
    have hpath := springPath_go p.position last.correctedPosition last.input.time i.position i.time n n.toNat 1 (by omega) m.position.state
    have hst := alongPathGo_state p.position last.correctedPosition last.input.time i.position i.time n n.toNat 1 m.position.state
    unfold StrokeModeler.upTips PositionModeler.updateAlongLinearPath PositionModeler.modelEndOfStroke at hmot
    dsimp only at hmot
    rw [hm.paramsOf.position] at hmot
    generalize hA : PositionModeler.alongPathGo p.position last.correctedPosition last.input.time i.position i.time n n.toNat 1
      m.position.state = A at hmot hpath hst
    obtain ⟨r1, r2⟩ := springRest_go p.position i.position p.sampling.endOfStrokeStoppingDistance p.sampling.endOfStrokeMaxIterations.toNat
      (1 / p.sampling.minOutputRate) A.1
    rw [← List.getLastD_eq_getLast?] at hst
    generalize hB : PositionModeler.endOfStrokeGo p.position i.position p.sampling.endOfStrokeStoppingDistance
      p.sampling.endOfStrokeMaxIterations.toNat (1 / p.sampling.minOutputRate) A.1 = B at hmot r1 r2
    rw [hst] at r1 r2
    have hcons : List.Forall₂ (Ghosted R g) (es ++ [⟨i, some out⟩]) (es' ++ [⟨i, some out'⟩]) := List.rel_append hes (.cons ⟨hx, .some hdr⟩ .nil)
    split at hmot
    · rename_i hnil
      rw [List.isEmpty_iff, List.append_eq_nil_iff] at hnil
      obtain ⟨n1, n2⟩ := hnil
      rw [n1] at hpath r2
      cases hmot with
      | cons hr hrest =>
        cases hrest
        exact ⟨_, _, .stop (p := p.still) ih he hpath (r2 n2) hr, fun h => absurd rfl h, hcons⟩
    · rename_i hne
      exact ⟨_, _, .up (p := p.still) ih he hpath r1 (by simpa using hne) hmot, fun h => absurd rfl h, hcons⟩

omit [Libm] in
theorem mem_left {α β : Type} {rel : α → β → Prop} {l : List α} {l' : List β} (h : List.Forall₂ rel l l') {a : α} (ha : a ∈ l) : ∃ b ∈ l', rel a b := by
  induction h with
  | nil => cases ha
  | cons h _ ih =>
    rcases List.mem_cons.1 ha with rfl | ha
    · exact ⟨_, List.mem_cons_self, h⟩
    · obtain ⟨b, hb, h⟩ := ih ha
      exact ⟨b, List.mem_cons_of_mem _ hb, h⟩

omit [Libm] in
theorem mem_right {α β : Type} {rel : α → β → Prop} {l : List α} {l' : List β} (h : List.Forall₂ rel l l') {b : β} (hb : b ∈ l') : ∃ a ∈ l, rel a b :=
  mem_left h.flip hb

omit [Libm] in
theorem drawn_all {es es' : List (Event (Fl f32) (Fl f64))} (h : List.Forall₂ (Ghosted R g) es es') :
    List.Forall₂ (Drawn R g) (resultsOf es) (resultsOf es') := by
  induction h with
  | nil => exact .nil
  | cons h _ ih =>
    simp only [resultsOf, List.flatMap_cons] at ih ⊢
    refine List.rel_append ?_ ih
    have := h.results
    revert this
    generalize Event.results _ = a
    generalize Event.results _ = b
    intro h
    cases h with
    | some h => exact h
    | none => exact .nil

omit [Libm] in
/-- The spring alone answers at the same times. -/
theorem same_times {out out' : List (Result (Fl f32) (Fl f64))} (h : List.Forall₂ (Drawn R g) out out') (hf : ∀ r ∈ out, Finite r.time) :
    out'.map (fun r => num r.time) = out.map (fun r => num r.time) ∧ ∀ r ∈ out', Finite r.time := by
  induction h with
  | nil => simp
  | cons h _ ih =>
    obtain ⟨i1, i2⟩ := ih fun r hr => hf r (List.mem_cons_of_mem _ hr)
    obtain ⟨h1, h2, -⟩ := h (hf _ List.mem_cons_self)
    refine ⟨by simp only [List.map_cons, i1, h2], fun r hr => ?_⟩
    rcases List.mem_cons.1 hr with rfl | hr
    · exact h1
    · exact i2 r hr

omit [Libm] in
theorem Paced.times {s : ℝ} {out out' : List (Result (Fl f32) (Fl f64))} (h : Paced s out)
    (he : out'.map (fun r => num r.time) = out.map (fun r => num r.time)) (hf : ∀ r ∈ out', Finite r.time) : Paced s out' := by
  refine ⟨hf, ?_⟩
  have h1 : (out.map fun r => num r.time).IsChain fun a b => 0 ≤ b - a ∧ b - a ≤ s := (List.isChain_map _).2 h.gaps
  rw [← he] at h1
  exact (List.isChain_map _).1 h1

omit [Libm] in
theorem Weights.times {δ : ℝ} {w : ℕ → ℝ} {out out' : List (Result (Fl f32) (Fl f64))} (h : Weights δ out w)
    (he : out'.map (fun r => num r.time) = out.map (fun r => num r.time)) : Weights δ out' w := by
  have key : ∀ {k : ℕ} {r' : Result (Fl f32) (Fl f64)}, out'[k]? = some r' → ∃ r, out[k]? = some r ∧ num r.time = num r'.time := by
    intro k r' hr
    have h1 : (out.map fun r => num r.time)[k]? = some (num r'.time) := by rw [← he, List.getElem?_map, hr]; rfl
    rw [List.getElem?_map, Option.map_eq_some_iff] at h1
    exact h1
  refine ⟨h.nonneg, fun k r r' hr hr' => ?_⟩
  obtain ⟨a, a1, a2⟩ := key hr
  obtain ⟨b, b1, b2⟩ := key hr'
  rw [← a2, ← b2]
  exact h.next k a b a1 b1

omit [Libm] in
/-- The bounds have usual sizes. -/
theorem reach_size {M d s R : ℝ} (h : Suits M d s (2 * R)) (hR : 1 / 2 ^ 50 ≤ R) :
    3 * R ≤ reach M d R ∧ reach M d (2 * R) = 2 * reach M d R ∧ 0 < (Real.sqrt M)⁻¹ ∧ (Real.sqrt M)⁻¹ ≤ 2 ^ 8 ∧ reach M d (2 * R) ≤ 2 ^ 80 := by
  have hM : 0 < M := lt_of_lt_of_le (by positivity) h.mass.1
  have hd : 0 < d := lt_of_lt_of_le (by positivity) h.drag.1
  have hR0 : 0 < R := lt_of_lt_of_le (by positivity) hR
  have s1 : 1 / 2 ^ 8 ≤ Real.sqrt M := Real.le_sqrt_of_sq_le (le_trans (by norm_num) h.mass.1)
  have s2 : Real.sqrt M ≤ 2 ^ 8 := by
    rw [Real.sqrt_le_left (by positivity)]; exact h.mass.2.trans (by norm_num)
  have s0 : 0 < Real.sqrt M := lt_of_lt_of_le (by positivity) s1
  have x0 : 0 < d * Real.sqrt M := by positivity
  have x1 : d * Real.sqrt M ≤ 2 ^ 24 := by
    calc d * Real.sqrt M ≤ 2 ^ 16 * 2 ^ 8 := mul_le_mul h.drag.2 s2 s0.le (by positivity)
      _ = _ := by norm_num
  have x2 : 1 / 2 ^ 24 ≤ d * Real.sqrt M := by
    calc (1 / 2 ^ 24 : ℝ) = 1 / 2 ^ 16 * (1 / 2 ^ 8) := by norm_num
      _ ≤ _ := mul_le_mul h.drag.1 s1 (by positivity) hd.le
  have x3 : 1 / (d * Real.sqrt M) ≤ 2 ^ 24 := by
    rw [div_le_iff₀ x0]
    linarith
  have x4 : 0 < 1 / (d * Real.sqrt M) := by positivity
  have x5 : 2 ≤ 1 / (d * Real.sqrt M) + d * Real.sqrt M := by
    have : 1 / (d * Real.sqrt M) * (d * Real.sqrt M) = 1 := by field_simp
    nlinarith [sq_nonneg (1 / (d * Real.sqrt M) - d * Real.sqrt M)]
  refine ⟨?_, by unfold reach; ring, by positivity, ?_, ?_⟩
  · unfold reach
    refine mul_le_mul_of_nonneg_right ?_ hR0.le
    linarith
  · rw [inv_le_comm₀ s0 (by positivity)]
    exact le_trans (by norm_num) s1
  · unfold reach
    calc 26 * (1 / (d * Real.sqrt M) + d * Real.sqrt M) * (2 * R) ≤ 26 * (2 ^ 24 + 2 ^ 24) * 2 ^ 50 := by
          refine mul_le_mul (by linarith) h.size.2 (by positivity) (by positivity)
      _ ≤ 2 ^ 80 := by norm_num

omit [Libm] in
/-- What the bounds on the tip of the spring are worth for the results. -/
theorem drawn_bounds {M d s : ℝ} (hz : Sizes R g G) (hsuits : Suits M d s (2 * R)) {r r' : Result (Fl f32) (Fl f64)} (hdr : Drawn R g r r')
    (hf : Finite r.time) (b1 : InReach (2 * reach M d (2 * R)) r'.position) (b2 : InReach (11 / 5 * ((Real.sqrt M)⁻¹ * reach M d (2 * R))) r'.velocity)
    (b3 : InReach (5 * (((Real.sqrt M)⁻¹ + d) * ((Real.sqrt M)⁻¹ * reach M d (2 * R)))) r'.acceleration) :
    InReach (5 * reach M d R) r.position ∧ InReach (7 * (R / g) + 5 * ((Real.sqrt M)⁻¹ * reach M d R)) r.velocity ∧
    InReach (13 * (R / g ^ 2) + 11 * (((Real.sqrt M)⁻¹ + d) * ((Real.sqrt M)⁻¹ * reach M d R))) r.acceleration := by
  obtain ⟨z1, z2, z3, z4, z5⟩ := reach_size hsuits hz.region.1
  obtain ⟨hR, hg, ⟨v1, v2⟩, ⟨a1, a2⟩⟩ := hz.bounds
  have hd : 0 < d := lt_of_lt_of_le (by positivity) hsuits.drag.1
  have hd' := hsuits.drag.2
  obtain ⟨-, -, d1, d2, d3⟩ := hdr hf
  clear hsuits
  rw [z2] at b1 b2 b3 z5
  generalize reach M d R = L at *
  generalize (Real.sqrt (M))⁻¹ = ω at *
  have hL : 0 < L := by linarith
  have hωL : 0 < ω * L := mul_pos z3 hL
  have hωL' : ω * L ≤ 2 ^ 8 * 2 ^ 79 := mul_le_mul z4 (by linarith) hL.le (by positivity)
  have hA : 0 < (ω + d) * (ω * L) := by positivity
  have hA' : (ω + d) * (ω * L) ≤ (2 ^ 8 + 2 ^ 16) * (2 ^ 8 * 2 ^ 79) := mul_le_mul (by linarith) hωL' hωL.le (by positivity)
  have q1 : 6 * R / g = 6 * (R / g) := by ring
  have q2 : 12 * R / g ^ 2 = 12 * (R / g ^ 2) := by ring
  have q3 : 0 < R / g := div_pos hR hg
  have q4 : 0 < R / g ^ 2 := div_pos hR (pow_pos hg 2)
  refine ⟨?_, ?_, ?_⟩
  · refine (d1 _ ?_ ?_ b1).mono ?_
    · linarith
    · calc 2 * (2 * L) ≤ 2 * 2 ^ 80 := by linarith
        _ ≤ 2 ^ 110 := by norm_num
    · linarith
  · refine (d2 (max (6 * (R / g)) (22 / 5 * (ω * L))) ?_ ?_ (b2.mono ?_)).mono ?_
    · rw [q1]; exact le_max_left _ _
    · refine max_le ?_ ?_
      · calc 6 * (R / g) ≤ 6 * 2 ^ 70 := by linarith
          _ ≤ 2 ^ 110 := by norm_num
      · calc 22 / 5 * (ω * L) ≤ 22 / 5 * (2 ^ 8 * 2 ^ 79) := by linarith
          _ ≤ 2 ^ 110 := by norm_num
    · refine le_trans (le_of_eq ?_) (le_max_right _ _)
      ring
    · have : max (6 * (R / g)) (22 / 5 * (ω * L)) ≤ 6 * (R / g) + 22 / 5 * (ω * L) := max_le (by linarith) (by linarith)
      linarith
  · refine (d3 (max (12 * (R / g ^ 2)) (10 * ((ω + d) * (ω * L)))) ?_ ?_ (b3.mono ?_)).mono ?_
    · rw [q2]; exact le_max_left _ _
    · refine max_le ?_ ?_
      · calc 12 * (R / g ^ 2) ≤ 12 * 2 ^ 90 := by linarith
          _ ≤ 2 ^ 110 := by norm_num
      · calc 10 * ((ω + d) * (ω * L)) ≤ 10 * ((2 ^ 8 + 2 ^ 16) * (2 ^ 8 * 2 ^ 79)) := by linarith
          _ ≤ 2 ^ 110 := by norm_num
    · refine le_trans (le_of_eq ?_) (le_max_right _ _)
      ring
    · have : max (12 * (R / g ^ 2)) (10 * ((ω + d) * (ω * L))) ≤ 12 * (R / g ^ 2) + 10 * ((ω + d) * (ω * L)) := max_le (by linarith) (by linarith)
      linarith

end Lemmas

section Theorems
variable [Libm] [LibmFair] {ops : List (Op (Fl f32) (Fl f64))} {rs : List (Response (Fl f32) (Fl f64))} {m : StrokeModeler (Fl f32) (Fl f64)}

/-- C71: on floats, the results of an ordinary stroke are finite and stay near the inputs. -/
theorem C71_ordinary_float (h : Session ops rs m) (hr : Regular ops rs) {p : StrokeModelParams (Fl f32) (Fl f64)}
    (hp : (known ops rs).params = some p) (hne : strokeOf ops rs ≠ []) {s R g G : ℝ} (hc : Ordinary p s R g G (strokeOf ops rs)) {w : ℕ → ℝ}
    (hw : Weights (fade (num p.position.springMassConstant) (num p.position.dragConstant)) (resultsOf (strokeOf ops rs)) w)
    (hlight : ∀ k, k < (resultsOf (strokeOf ops rs)).length → w k ≤ 2 ^ 18) :
    ∀ r ∈ resultsOf (strokeOf ops rs),
      InReach (5 * reach (num p.position.springMassConstant) (num p.position.dragConstant) R) r.position ∧
      InReach (7 * (R / g) + 5 * ((Real.sqrt (num p.position.springMassConstant))⁻¹ *
        reach (num p.position.springMassConstant) (num p.position.dragConstant) R)) r.velocity ∧
      InReach (13 * (R / g ^ 2) + 11 * (((Real.sqrt (num p.position.springMassConstant))⁻¹ + num p.position.dragConstant) *
        ((Real.sqrt (num p.position.springMassConstant))⁻¹ *
          reach (num p.position.springMassConstant) (num p.position.dragConstant) R))) r.acceleration := by
  obtain ⟨p', m₀, hp', hcourse, -⟩ := h.course hr hne
  rw [hp, Option.some.injEq] at hp'
  subst hp'
  have hz : Sizes R g G := ⟨⟨hc.region, by linarith [hc.suits.size.2, (by positivity : (0 : ℝ) < 1 / 2 ^ 50), hc.region]⟩, ⟨hc.gaps.1, hc.gaps.2.1⟩, hc.gaps.2.2⟩
  have ht : Tidy p R g G (strokeOf ops rs) := ⟨hz, hc.inputs, hc.early, hc.spaced, fun hon =>
    ⟨⟨hz.region, hz.long, (hc.wobble hon).1, (hc.wobble hon).2.1⟩, (hc.wobble hon).2.2⟩⟩
  obtain ⟨es', q, hs, -, hes⟩ := hcourse.ghost ht
  have hall := drawn_all hes
  obtain ⟨t1, t2⟩ := same_times hall hc.paced.finite
  have hin : ∀ i ∈ acceptedOf es', InReach (2 * R) i.position := by
    intro i hi
    simp only [acceptedOf, List.mem_map, List.mem_filter] at hi
    obtain ⟨e', ⟨he', -⟩, rfl⟩ := hi
    obtain ⟨e, -, he⟩ := mem_right hes he'
    exact he.input
  have hfew : ∀ e ∈ es', (e.results.getD []).length ≤ 2 ^ 20 := by
    intro e' he'
    obtain ⟨e, he, h1⟩ := mem_right hes he'
    refine le_of_eq_of_le ?_ (hc.few e he)
    have := h1.results
    revert this
    generalize Event.results _ = a
    generalize Event.results _ = b
    intro h
    cases h with
    | some h => exact h.length_eq.symm
    | none => rfl
  have hlen := hall.length_eq
  have hb := springs_bounded (p := p.still) hs rfl (s := s) hc.mass hc.drag hc.suits hin hfew (hc.paced.times t1 t2) (hw.times t1)
    fun k hk => hlight k (by rw [hlen]; exact hk)
  intro r hmem
  obtain ⟨r', hmem', hdr⟩ := mem_left hall hmem
  obtain ⟨b1, b2, b3⟩ := hb r' hmem'
  exact drawn_bounds hz hc.suits hdr (hc.paced.finite r hmem) b1 b2 b3

end Theorems

section Examples
open Ex

namespace Ex

scoped instance libmFair : LibmFair := Libm.reference_fair

/-- The parameters of the examples (with wobble smoothing), with loop mitigation and stroke normals. -/
def fullParams : StrokeModelParams F32 F64 :=
  { params with
    position := { params.position with
      loop := { isEnabled := true, speedLowerBound := 0, speedUpperBound := 25, strengthAtLower := 1, strengthAtUpper := fl 1 2
                minSpeedSamplingWindow := d 4 100, minDiscreteSpeedSamples := 3 } }
    stylus := { maxInputSamples := 20, useStrokeNormalProjection := true, minInputSamples := 10, minSampleDuration := d 5 100 } }

/-- A Down, two Moves and an Up with pressures and tilts. -/
def fullOps : List (Op F32 F64) :=
  [.resetParams fullParams, .update (pressed .down 0 0 1 1) [], .update (pressed .move (fl 1 100) (d 1 50) (fl 1 2) 1) [],
   .update (pressed .move 1 (d 2 50) (fl 1 4) 1) [], .update (pressed .up 2 (d 3 50) 0 1) []]

/-- The times of the events are 1/64 to 1/32 apart. -/
def spacedCheck : List (Event F32 F64) → Bool
  | e :: f :: es => decide ((2 : ℤ) ^ f64.q ≤ (Fl.key f.input.time - Fl.key e.input.time) * 64) &&
      decide ((Fl.key f.input.time - Fl.key e.input.time) * 32 ≤ 2 ^ f64.q) && spacedCheck (f :: es)
  | _ => true

theorem spacedCheck_iff {es : List (Event F32 F64)} (h : spacedCheck es = true) : es.IsChain (Spaced (1 / 64) (1 / 32)) := by
  induction es with
  | nil => exact .nil
  | cons e es ih =>
    cases es with
    | nil => exact .singleton _
    | cons f es =>
      simp only [spacedCheck, Bool.and_eq_true, decide_eq_true_eq] at h
      obtain ⟨⟨h1, h2⟩, h3⟩ := h
      refine .cons_cons ?_ (ih h3)
      have hq : (0 : ℝ) < 2 ^ f64.q := by positivity
      have h1' : (2 : ℝ) ^ f64.q ≤ (((Fl.key f.input.time : ℤ) : ℝ) - (Fl.key e.input.time : ℤ)) * 64 := by exact_mod_cast h1
      have h2' : (((Fl.key f.input.time : ℤ) : ℝ) - (Fl.key e.input.time : ℤ)) * 32 ≤ 2 ^ f64.q := by exact_mod_cast h2
      unfold Spaced Fl.num
      rw [← sub_div]
      refine ⟨.inr ?_, ?_⟩
      · rw [le_div_iff₀ hq]; linarith
      · rw [div_le_iff₀ hq]; linarith

theorem early_iff {t : F64} (h : (Fl.key t).natAbs ≤ 2 ^ 20 * 2 ^ f64.q) : |Fl.num t| ≤ 2 ^ 20 := by
  rw [Fl.num, abs_div, abs_of_pos (by positivity : (0 : ℝ) < 2 ^ f64.q), div_le_iff₀ (by positivity)]
  have e : |((Fl.key t : ℤ) : ℝ)| = ((Fl.key t).natAbs : ℝ) := by
    rw [← Int.cast_abs, Int.abs_eq_natAbs]; rfl
  rw [e]
  exact_mod_cast h

theorem full_timeout : 1 / 26 ≤ num fullParams.wobble.timeout ∧ num fullParams.wobble.timeout ≤ 1 / 24 := by
  have hq : (0 : ℝ) < 2 ^ f64.q := by positivity
  have h1 : (2 : ℤ) ^ f64.q ≤ Fl.key fullParams.wobble.timeout * 26 := by decide +kernel
  have h2 : Fl.key fullParams.wobble.timeout * 24 ≤ (2 : ℤ) ^ f64.q := by decide +kernel
  constructor
  · have : (2 : ℝ) ^ f64.q ≤ (Fl.key fullParams.wobble.timeout : ℤ) * 26 := by exact_mod_cast h1
    rw [num, div_le_div_iff₀ (by norm_num) hq]
    linarith
  · have : ((Fl.key fullParams.wobble.timeout : ℤ) : ℝ) * 24 ≤ (2 : ℝ) ^ f64.q := by exact_mod_cast h2
    rw [num, div_le_div_iff₀ hq (by norm_num)]
    linarith

end Ex

/-- C71 applies to a stroke of a Down, two Moves and an Up with more than ten results, with wobble smoothing, loop mitigation and stylus
data. -/
example : ∃ (rs : List (Response F32 F64)) (m : StrokeModeler F32 F64) (w : ℕ → ℝ), Session fullOps rs m ∧ Regular fullOps rs ∧
    (known fullOps rs).params = some fullParams ∧ strokeOf fullOps rs ≠ [] ∧
    Ordinary fullParams (1 / 170) 4 (1 / 64) (1 / 32) (strokeOf fullOps rs) ∧
    Weights (fade (num fullParams.position.springMassConstant) (num fullParams.position.dragConstant)) (resultsOf (strokeOf fullOps rs)) w ∧
    (∀ k, k < (resultsOf (strokeOf fullOps rs)).length → w k ≤ 2 ^ 18) ∧ 10 ≤ (resultsOf (strokeOf fullOps rs)).length ∧
    fullParams.wobble.isEnabled = true ∧ fullParams.position.loop.isEnabled = true := by
  obtain ⟨rs, m, h, hP⟩ := exists_session (ops := fullOps) (P := fun rs _ => noStale fullOps rs &&
    (strokeOf fullOps rs).all (fun e => within 4 e.input.position && decide ((Fl.key e.input.time).natAbs ≤ 2 ^ 20 * 2 ^ f64.q) &&
      decide ((e.results.getD []).length ≤ 20)) && spacedCheck (strokeOf fullOps rs) && pacedCheck (resultsOf (strokeOf fullOps rs)) &&
    decide ((known fullOps rs).params = some fullParams ∧ 10 ≤ (resultsOf (strokeOf fullOps rs)).length ∧
      (resultsOf (strokeOf fullOps rs)).length ≤ 100 ∧ (strokeOf fullOps rs).length = 4)) (by kernel_rfl)
  simp only [Bool.and_eq_true, decide_eq_true_eq, List.all_eq_true] at hP
  obtain ⟨⟨⟨⟨h1, h2⟩, h3⟩, h4⟩, h5, h6, h7, h8⟩ := hP
  have hs : Suits (num fullParams.position.springMassConstant) (num fullParams.position.dragConstant) (1 / 170) (2 * 4) := by
    have := calm_suits
    norm_num at this ⊢
    exact this
  have hp := pacedCheck_iff h4
  refine ⟨rs, m, fun k => k, h, ⟨noStale_iff h1, ?_⟩, h5, ?_, ?_, Weights.count hp ?_, fun k hk => ?_, h6, rfl, rfl⟩
  · intro a p b h hd
    have hm : Op.resetParams p ∈ fullOps := by simp [h]
    simp [fullOps] at hm
    simp [hm, fullParams, params] at hd
  · intro h0
    rw [h0] at h8
    simp at h8
  · obtain ⟨t1, t2⟩ := full_timeout
    refine ⟨calm_mass.1, by decide +kernel, hs, by norm_num, fun e he => within_iff (h2 e he).1.1, fun e he => early_iff (h2 e he).1.2,
      spacedCheck_iff h3, by norm_num, fun _ => ⟨?_, ?_, ?_⟩, fun e he => (h2 e he).2.trans (by norm_num), hp⟩
    · exact le_trans (by norm_num) t1
    · exact t2.trans (by norm_num)
    · rw [h8]
      push_cast
      linarith
  · obtain ⟨g1, g2, -⟩ := hs.pos
    unfold fade
    positivity
  · have : k ≤ 2 ^ 18 := by omega
    change (k : ℝ) ≤ 2 ^ 18
    exact_mod_cast this

end Examples

end
end Ink
