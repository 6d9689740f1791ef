import Verif.IEEE.Times
import Verif.Props.Wobble
import Verif.Props.Counts
import Verif.Props.Replay
/-!
# Result times on floats: C17, C18
-/
namespace Ink
open Scalar Arith

namespace Fl
variable [Libm]

/-! ## Tip states -/

/-- The times do not go backwards. -/
def Onward (tips : List (TipState (Fl f32) (Fl f64))) : Prop := tips.Pairwise fun a b => num a.time ≤ num b.time

theorem path_tips (pm : PositionModeler (Fl f32) (Fl f64)) (a b : Vec2 (Fl f32)) {s t : Fl f64} {n : ℤ} (hs : Finite s) (ht : Finite t)
    (h : num s ≤ num t) (hn : n ≤ 2147483647) :
    Onward (pm.updateAlongLinearPath a s b t n).2 ∧
    (∀ q ∈ (pm.updateAlongLinearPath a s b t n).2, Clock q.time ∧ num s ≤ num q.time ∧ (ExactStep s t → num q.time ≤ num t)) ∧
    (ExactStep s t → ∀ q, (pm.updateAlongLinearPath a s b t n).2.getLast? = some q → num q.time = num t) ∧
    (pm.updateAlongLinearPath a s b t n).1.state = (pm.updateAlongLinearPath a s b t n).2.getLast?.getD pm.state := by
  have htimes : (pm.updateAlongLinearPath a s b t n).2.map (·.time) = _ := alongPathGo_times pm.params a s b t n n.toNat 1 pm.state
  refine ⟨?_, ?_, ?_, alongPathGo_state ..⟩
  · unfold Onward
    rw [← List.pairwise_map (f := fun q : TipState (Fl f32) (Fl f64) => q.time) (R := fun x y => num x ≤ num y), htimes,
      List.pairwise_map]
    apply List.pairwise_lt_range.imp_of_mem
    intro i j hi hj hij
    rw [List.mem_range] at hi hj
    obtain ⟨f1, f2, -⟩ := frac_spec (i := 1 + i) (n := n) (by omega) (by omega) hn
    obtain ⟨g1, -, g3⟩ := frac_spec (i := 1 + j) (n := n) (by omega) (by omega) hn
    exact interpTime_mono hs ht h f1 f2 g1 (frac_mono (by omega) (by omega) (by omega) hn) g3
  · intro q hq
    have : q.time ∈ (pm.updateAlongLinearPath a s b t n).2.map (·.time) := List.mem_map_of_mem hq
    rw [htimes] at this
    obtain ⟨i, hi, hq⟩ := List.mem_map.1 this
    rw [List.mem_range] at hi
    obtain ⟨f1, f2, f3⟩ := frac_spec (i := 1 + i) (n := n) (by omega) (by omega) hn
    obtain ⟨k1, k2⟩ := interpTime_clock hs ht h f1 f2 f3
    rw [← hq]
    exact ⟨k1, k2, fun hx => interpTime_le hs ht h hx f1 f2 f3⟩
  · intro hx q hq
    have : ((pm.updateAlongLinearPath a s b t n).2.map (·.time)).getLast? = some q.time := by rw [List.getLast?_map, hq]; rfl
    rw [htimes, List.getLast?_map] at this
    obtain ⟨i, hi, hq⟩ := Option.map_eq_some_iff.1 this
    rw [List.getLast?_range] at hi
    split at hi
    · cases hi
    · rename_i hz
      simp only [Option.some.injEq] at hi
      have e : (1 : ℤ) + i = n := by omega
      obtain ⟨f1, f2, f3⟩ := frac_spec (i := 1 + i) (n := n) (by omega) (by omega) hn
      rw [← hq]
      rw [e] at f1 f2 f3 ⊢
      exact interpTime_end hs ht h hx f1 (frac_self (by omega) hn)

omit [Libm] in
theorem half_spec : Finite (ofRatio 1 2 : Fl f64) ∧ 0 < num (ofRatio 1 2 : Fl f64) ∧ num (ofRatio 1 2 : Fl f64) ≤ 1 := by
  refine ⟨⟨by decide +kernel, by decide +kernel⟩, ?_, ?_⟩
  · rw [← num_zero (f := f64), num_lt]; decide +kernel
  · rw [← num_one (f := f64), num_le]; decide +kernel

theorem end_tips (pp : PositionModelerParams (Fl f32) (Fl f64)) (a : Vec2 (Fl f32)) (stop : Fl f32) (k : ℕ) {dt : Fl f64}
    {st : TipState (Fl f32) (Fl f64)} (hst : Clock st.time) (hdt : Clock dt) (h0 : 0 ≤ num dt) :
    Onward (PositionModeler.endOfStrokeGo pp a stop k dt st).2 ∧
    (∀ q ∈ (PositionModeler.endOfStrokeGo pp a stop k dt st).2, Clock q.time ∧ num st.time ≤ num q.time ∧
      num q.time ≤ num (PositionModeler.endOfStrokeGo pp a stop k dt st).1.time) ∧
    Clock (PositionModeler.endOfStrokeGo pp a stop k dt st).1.time ∧
    num st.time ≤ num (PositionModeler.endOfStrokeGo pp a stop k dt st).1.time := by
  induction k generalizing dt st with
  | zero => exact ⟨.nil, by simp [PositionModeler.endOfStrokeGo], hst, le_refl _⟩
  | succ k ih =>
    obtain ⟨c1, c2⟩ := clock_add hst hdt h0
    simp only [PositionModeler.endOfStrokeGo]
    generalize hcand : PositionModeler.stepState pp st a (st.time + dt) = cand
    have hct : cand.time = st.time + dt := by rw [← hcand]; rfl
    rw [← hct] at c1 c2
    split
    · exact ⟨.nil, by simp, c1, c2⟩
    · split
      · obtain ⟨m1, m2, -⟩ := clock_mul hdt h0 half_spec.1 half_spec.2.1 half_spec.2.2
        exact ih hst m1 m2
      · split
        · exact ⟨List.pairwise_singleton _ _, by simp [c1, c2], c1, c2⟩
        · obtain ⟨g1, g2, g3, g4⟩ := ih c1 hdt h0
          refine ⟨List.pairwise_cons.2 ⟨fun q hq => (g2 q hq).2.1, g1⟩, ?_, g3, c2.trans g4⟩
          intro q hq
          rcases List.mem_cons.1 hq with rfl | hq
          · exact ⟨c1, c2, g4⟩
          · exact ⟨(g2 q hq).1, c2.trans (g2 q hq).2.1, (g2 q hq).2.2⟩

/-! ## Results -/

/-- The time of the result is that of the tip state, or NaN. -/
def TimeOf (q : TipState (Fl f32) (Fl f64)) (r : Result (Fl f32) (Fl f64)) : Prop :=
  Clock q.time → Fl.isNaN r.time = true ∨ num r.time = num q.time

theorem interpTime_same {t : Fl f64} (c : Fl f32) : Fl.isNaN (interpTime t t c) = true ∨ num (interpTime t t c) = num t := by
  unfold interpTime
  by_cases hf : Finite t
  · cases hc : Fl.isNaN c with
    | true =>
      left
      exact add_nan_right _ (mul_nan_right _ (widen_nan ((clamp01_spec c).1.trans hc)))
    | false =>
      obtain ⟨g1, g2⟩ := (clamp01_spec c).2 hc
      have d0 : num (t - t) = 0 := by rw [num_sub hf hf, sub_self, rd_zero]
      have df : Finite (t - t) := finite_of_num_le (sub_not_nan hf hf) (j := 0) (by decide) (by rw [d0]; norm_num)
      have hw := finite_widen g1
      have m0 : num ((t - t) * (widen (clamp01 c) : Fl f64)) = 0 := by rw [num_mul df hw, d0, zero_mul, rd_zero]
      have mf : Finite ((t - t) * (widen (clamp01 c) : Fl f64)) :=
        finite_of_num_le (mul_not_nan df hw) (j := 0) (by decide) (by rw [m0]; norm_num)
      right
      rw [num_add hf mf, m0, add_zero, rd_num hf]
  · left
    apply add_nan_right
    apply mul_nan_left
    cases t with
    | nan => rfl
    | inf a => cases a <;> rfl
    | fin a k hk => exact absurd ⟨rfl, rfl⟩ hf

theorem interpTime_zero {t : Fl f64} (ht : Clock t) : num (interpTime 0 t (1 : Fl f32)) = num t := by
  have h1 : Finite (1 : Fl f32) := finite_lit one_lt_two_pow
  obtain ⟨w1, w2⟩ := clamp_frac h1.1 (by rw [num_one]; norm_num) num_one.le
  rw [num_one] at w2
  unfold interpTime
  rcases ht with hf | rfl
  · have d0 : num (t - 0) = num t := by rw [num_sub hf finite_zero, num_zero, sub_zero, rd_num hf]
    have df : Finite (t - 0) := finite_of_num (sub_not_nan hf finite_zero) (by rw [d0]; exact abs_num_lt hf)
    have m0 : num ((t - 0) * (widen (clamp01 (1 : Fl f32)) : Fl f64)) = num t := by
      rw [num_mul df w1, d0, w2, mul_one, rd_num hf]
    have mf : Finite ((t - 0) * (widen (clamp01 (1 : Fl f32)) : Fl f64)) :=
      finite_of_num (mul_not_nan df w1) (by rw [m0]; exact abs_num_lt hf)
    rw [num_add finite_zero mf, m0, num_zero, zero_add, rd_num hf]
  · obtain ⟨b, k, hk, h0⟩ := finite_iff.1 (finite_zero (f := f64))
    have e1 : (inf false : Fl f64) - 0 = inf false := by rw [h0]; rfl
    have e2 : (0 : Fl f64) + inf false = inf false := by rw [h0]; rfl
    rw [e1, inf_mul w1 (by rw [w2]; norm_num), e2]

theorem result_times {s : StylusModeler (Fl f32) (Fl f64)} {tips : List (TipState (Fl f32) (Fl f64))} {l l' : LoopModeler (Fl f32) (Fl f64)}
    {c : Fl f32} {t : Fl f64} {out : List (Result (Fl f32) (Fl f64))} (h : modelStylusGo s tips l c t = .ok (l', out))
    (hs : s.state.inputs ≠ [] ∨ (l.params.isEnabled = false ∧ c = 1)) : List.Forall₂ TimeOf tips out := by
  induction tips generalizing l l' c t out with
  | nil => simp only [modelStylusGo, Outcome.ok.injEq, Prod.mk.injEq] at h; simp [← h.2]
  | cons tip tips ih =>
    simp only [modelStylusGo] at h
    obtain ⟨q, hq, h⟩ := Outcome.bind_eq_ok.1 h
    obtain ⟨r, hr, h⟩ := Outcome.bind_eq_ok.1 h
    obtain ⟨⟨l₁, out'⟩, h₁, h⟩ := Outcome.bind_eq_ok.1 h
    simp only [Outcome.pure_eq, Outcome.ok.injEq, Prod.mk.injEq] at h
    rw [← h.2]
    refine .cons ?_ (ih h₁ ?_)
    · intro hcl
      obtain ⟨o, -, rfl⟩ := interpResult_ok hr
      rcases StylusModeler.query_ok hq with ⟨he, rfl⟩ | ⟨hne, _, r₀, _, _, rfl⟩
      · rcases hs with hs | ⟨-, rfl⟩
        · exact absurd he hs
        · exact .inr (interpTime_zero hcl)
      · exact interpTime_same c
    · refine hs.imp_right fun ⟨h1, h2⟩ => ?_
      refine ⟨?_, ?_⟩
      · rw [loop_update_params]; exact h1
      · simp [LoopModeler.update, h1]

omit [Libm] in
theorem rd_one {f : Fmt} : rd f 1 = 1 := by
  have := rd_nat (f := f) (k := 1) one_lt_two_pow
  rwa [Nat.cast_one] at this

theorem interpTime_same_one {t : Fl f64} (ht : Finite t) : Finite (interpTime t t (1 : Fl f32)) := by
  have h1 : Finite (1 : Fl f32) := finite_lit one_lt_two_pow
  obtain ⟨w1, w2⟩ := clamp_frac h1.1 (by rw [num_one]; norm_num) num_one.le
  have d0 : num (t - t) = 0 := by rw [num_sub ht ht, sub_self, rd_zero]
  have df : Finite (t - t) := finite_of_num_le (sub_not_nan ht ht) (j := 0) (by decide) (by rw [d0]; norm_num)
  have m0 : num ((t - t) * (widen (clamp01 (1 : Fl f32)) : Fl f64)) = 0 := by rw [num_mul df w1, d0, zero_mul, rd_zero]
  have mf : Finite ((t - t) * (widen (clamp01 (1 : Fl f32)) : Fl f64)) :=
    finite_of_num_le (mul_not_nan df w1) (j := 0) (by decide) (by rw [m0]; norm_num)
  have hn := add_not_nan ht mf
  refine finite_of_num hn ?_
  unfold interpTime
  rw [num_add ht mf, m0, add_zero, rd_num ht]
  exact abs_num_lt ht

theorem interpTime_zero_not_nan {t : Fl f64} (ht : Finite t) : Finite (interpTime 0 t (1 : Fl f32)) := by
  have h1 : Finite (1 : Fl f32) := finite_lit one_lt_two_pow
  obtain ⟨w1, w2⟩ := clamp_frac h1.1 (by rw [num_one]; norm_num) num_one.le
  rw [num_one] at w2
  have d0 : num (t - 0) = num t := by rw [num_sub ht finite_zero, num_zero, sub_zero, rd_num ht]
  have df : Finite (t - 0) := finite_of_num (sub_not_nan ht finite_zero) (by rw [d0]; exact abs_num_lt ht)
  have m0 : num ((t - 0) * (widen (clamp01 (1 : Fl f32)) : Fl f64)) = num t := by
    rw [num_mul df w1, d0, w2, mul_one, rd_num ht]
  have mf : Finite ((t - 0) * (widen (clamp01 (1 : Fl f32)) : Fl f64)) :=
    finite_of_num (mul_not_nan df w1) (by rw [m0]; exact abs_num_lt ht)
  refine finite_of_num (add_not_nan finite_zero mf) ?_
  rw [interpTime_zero (.inl ht)]
  exact abs_num_lt ht

/-- Without loop mitigation the time of the result is that of the tip state. -/
theorem result_times_off {s : StylusModeler (Fl f32) (Fl f64)} {tips : List (TipState (Fl f32) (Fl f64))}
    {l l' : LoopModeler (Fl f32) (Fl f64)} {t : Fl f64} {out : List (Result (Fl f32) (Fl f64))}
    (h : modelStylusGo s tips l 1 t = .ok (l', out)) (hl : l.params.isEnabled = false) :
    List.Forall₂ (fun q r => Finite q.time → Finite r.time ∧ num r.time = num q.time) tips out := by
  induction tips generalizing l l' t out with
  | nil => simp only [modelStylusGo, Outcome.ok.injEq, Prod.mk.injEq] at h; simp [← h.2]
  | cons tip tips ih =>
    simp only [modelStylusGo] at h
    obtain ⟨q, hq, h⟩ := Outcome.bind_eq_ok.1 h
    obtain ⟨r, hr, h⟩ := Outcome.bind_eq_ok.1 h
    obtain ⟨⟨l₁, out'⟩, h₁, h⟩ := Outcome.bind_eq_ok.1 h
    simp only [Outcome.pure_eq, Outcome.ok.injEq, Prod.mk.injEq] at h
    rw [← h.2]
    have e : l.update r.velocity tip.time = (l, 1) := by simp [LoopModeler.update, hl]
    rw [e] at h₁
    refine .cons ?_ (ih h₁ hl)
    intro hf
    obtain ⟨o, -, rfl⟩ := interpResult_ok hr
    rcases StylusModeler.query_ok hq with ⟨he, rfl⟩ | ⟨hne, _, r₀, _, _, rfl⟩
    · exact ⟨interpTime_zero_not_nan hf, interpTime_zero (.inl hf)⟩
    · have hfin := interpTime_same_one hf
      exact ⟨hfin, (interpTime_same (t := tip.time) 1).resolve_left (by intro hn; rw [hfin.1] at hn; cases hn)⟩

/-! ## The course of a stroke -/

variable {p : StrokeModelParams (Fl f32) (Fl f64)} {es : List (Event (Fl f32) (Fl f64))} {m : StrokeModeler (Fl f32) (Fl f64)}

omit [Libm] in
theorem Fits.order {a b : Input (Fl f32) (Fl f64)} (ha : Finite a.time) (h : Fits a b) : Finite b.time ∧ num a.time ≤ num b.time := by
  have hb := finite_of_isFinite h.time
  refine ⟨hb, ?_⟩
  have := h.later
  rwa [lt_num hb.1 ha.1, decide_eq_false_iff_not, not_lt] at this

/-- What times are in the course of a stroke. -/
structure Clocks (m : StrokeModeler (Fl f32) (Fl f64)) : Prop where
  state : Clock m.position.state.time
  last : ∀ last, m.lastInput = some last → Finite last.input.time

theorem period_clock (h : validateStrokeModelParams p = .ok) :
    Clock (1 / p.sampling.minOutputRate) ∧ 0 ≤ num (1 / p.sampling.minOutputRate) := by
  obtain ⟨hrate, -⟩ := validSamplingParts (validParts h).2.2.2.1
  obtain ⟨r1, r2⟩ := key_pos_of hrate
  have h1 : Finite (1 : Fl f64) := finite_lit one_lt_two_pow
  have hn := div_not_nan h1 r1 r2.ne'
  have hpos : 0 < num p.sampling.minOutputRate := by
    have hk0 : key (0 : Fl f64) = 0 := by decide +kernel
    rw [← num_zero (f := f64), num_lt, hk0]; exact r2
  have h0 : 0 ≤ num (1 / p.sampling.minOutputRate) := by
    rw [num_div h1 r1 hpos.ne', num_one]
    exact rd_nonneg (by positivity)
  exact ⟨clock_of_le (t := (0 : Fl f64)) (.inl finite_zero) hn (by rw [num_zero]; exact h0), h0⟩

/-- The tips of an Up, given the time of the state before it. -/
theorem up_tips {last : LastInput (Fl f32) (Fl f64)} {i : Input (Fl f32) (Fl f64)} {n : ℤ} (hp : validateStrokeModelParams p = .ok)
    (hst : Clock m.position.state.time) (hs : Finite last.input.time) (ht : Finite i.time) (h : num last.input.time ≤ num i.time)
    (hn : n ≤ 2147483647) :
    Onward (m.upTips p last i n).2 ∧ (∀ q ∈ (m.upTips p last i n).2, Clock q.time ∧
      (num m.position.state.time ≤ num last.input.time → num m.position.state.time ≤ num q.time)) ∧
    Clock (m.upTips p last i n).1.state.time := by
  obtain ⟨a1, a2, -, a4⟩ := path_tips m.position last.correctedPosition i.position hs ht h hn
  simp only [StrokeModeler.upTips]
  generalize ha : m.position.updateAlongLinearPath last.correctedPosition last.input.time i.position i.time n = a at a1 a2 a4
  have hc : Clock a.1.state.time := by
    rw [a4]
    cases hq : a.2.getLast? with
    | none => exact hst
    | some q => exact (a2 q (List.mem_of_getLast? hq)).1
  have hle : ∀ q ∈ a.2, num q.time ≤ num a.1.state.time := by
    intro q hq
    rw [a4]
    obtain ⟨l, z, hl⟩ := List.eq_nil_or_concat a.2 |>.resolve_left (List.ne_nil_of_mem hq)
    rw [hl] at hq a1
    rw [hl]
    simp only [Option.getD_some, List.concat_eq_append, List.getLast?_append, List.getLast?_singleton, Option.some_or]
    rw [List.concat_eq_append, List.mem_append] at hq
    rcases hq with hq | hq
    · rw [List.concat_eq_append] at a1
      exact (List.pairwise_append.1 a1).2.2 q hq z (by simp)
    · simp only [List.mem_singleton] at hq
      rw [hq]
  have hlow : num m.position.state.time ≤ num last.input.time → num m.position.state.time ≤ num a.1.state.time := by
    intro hm
    rw [a4]
    cases hq : a.2.getLast? with
    | none => exact le_refl _
    | some q => exact hm.trans (a2 q (List.mem_of_getLast? hq)).2.1
  obtain ⟨p1, p2⟩ := period_clock hp
  obtain ⟨b1, b2, b3, b4⟩ := end_tips a.1.params i.position p.sampling.endOfStrokeStoppingDistance
    p.sampling.endOfStrokeMaxIterations.toNat hc p1 p2
  unfold PositionModeler.modelEndOfStroke
  dsimp only
  refine ⟨?_, ?_, b3⟩
  · split
    · exact List.pairwise_singleton _ _
    · refine List.pairwise_append.2 ⟨a1, b1, fun q hq r hr => (hle q hq).trans (b2 r hr).2.1⟩
  · intro q hq
    split at hq
    · simp only [List.mem_singleton] at hq
      rw [hq]
      exact ⟨b3, fun hm => (hlow hm).trans b4⟩
    · rcases List.mem_append.1 hq with hq | hq
      · exact ⟨(a2 q hq).1, fun hm => hm.trans (a2 q hq).2.1⟩
      · exact ⟨(b2 q hq).1, fun hm => (hlow hm).trans (b2 q hq).2.1⟩

theorem Course.clocks (h : Course p es m) : Clocks m := by
  have hv := h.valid
  induction h with
  | @down i stylus predictor _ he hf hs hp =>
    have := finite_of_isFinite hf.time
    refine ⟨.inl this, ?_⟩
    rintro last ⟨⟩
    exact this
  | @move es m last i wobble corrected stylus n predictor loop out hm hl he hf hw hs hn hp hq ih =>
    obtain ⟨i1, i2⟩ := ih
    obtain ⟨f1, f2⟩ := Fits.order (i2 _ hl) hf
    obtain ⟨-, a2, -, a4⟩ := path_tips m.position last.correctedPosition corrected (i2 _ hl) f1 f2 (numberOfSteps_le_intMax hn)
    refine ⟨?_, ?_⟩
    · change Clock (m.moveTips last i corrected n).1.state.time
      unfold StrokeModeler.moveTips
      rw [a4]
      cases hq : (m.position.updateAlongLinearPath last.correctedPosition last.input.time corrected i.time n).2.getLast? with
      | none => exact i1
      | some q => exact (a2 q (List.mem_of_getLast? hq)).1
    · rintro last ⟨⟩
      exact f1
  | @late es m last i wobble corrected stylus s hm hl he hf hw hs hn ih =>
    obtain ⟨i1, i2⟩ := ih
    exact ⟨i1, i2⟩
  | @up es m last i stylus n loop out hm hl he hf hs hn hq ih =>
    obtain ⟨i1, i2⟩ := ih
    obtain ⟨f1, f2⟩ := Fits.order (i2 _ hl) hf
    exact ⟨(up_tips hv i1 (i2 _ hl) f1 f2 (numberOfSteps_le_intMax hn)).2.2, by rintro last ⟨⟩⟩

/-- One time is not after the other, or they do not compare. -/
def NotAfter (a b : Fl f64) : Prop := Fl.isNaN a = true ∨ Fl.isNaN b = true ∨ num a ≤ num b

omit [Libm] in
theorem notAfter_iff {a b : Fl f64} : NotAfter a b ↔ (b <ᵇ a) = false := by
  unfold NotAfter
  cases ha : Fl.isNaN a with
  | true => simp [lt_nan_right ha]
  | false =>
    cases hb : Fl.isNaN b with
    | true => simp [lt_nan_left hb]
    | false => simp [lt_num hb ha]

omit [Libm] in
theorem onward_results {tips : List (TipState (Fl f32) (Fl f64))} {out : List (Result (Fl f32) (Fl f64))}
    (h : List.Forall₂ TimeOf tips out) (ht : Onward tips) (hc : ∀ q ∈ tips, Clock q.time) :
    out.Pairwise (fun a b => NotAfter a.time b.time) ∧ ∀ r ∈ out, ∃ q ∈ tips, Fl.isNaN r.time = true ∨ num r.time = num q.time := by
  induction h with
  | nil => simp
  | @cons q r tips out hqr h ih =>
    obtain ⟨t1, t2⟩ := List.pairwise_cons.1 ht
    obtain ⟨i1, i2⟩ := ih t2 fun q hq => hc q (List.mem_cons_of_mem _ hq)
    have hr := hqr (hc q (by simp))
    refine ⟨List.pairwise_cons.2 ⟨fun r' hr' => ?_, i1⟩, ?_⟩
    · obtain ⟨q', hq', h'⟩ := i2 r' hr'
      rcases hr with hr | hr
      · exact .inl hr
      · rcases h' with h' | h'
        · exact .inr (.inl h')
        · exact .inr (.inr (by rw [hr, h']; exact t1 q' hq'))
    · intro r' hr'
      rcases List.mem_cons.1 hr' with rfl | hr'
      · exact ⟨q, by simp, hr⟩
      · obtain ⟨q', hq', h'⟩ := i2 r' hr'
        exact ⟨q', List.mem_cons_of_mem _ hq', h'⟩

/-- With loop mitigation there are samples; without it the interpolation value is 1. -/
theorem samples_or_off {es : List (Event (Fl f32) (Fl f64))} (h : Course p es m) :
    m.stylus.state.inputs ≠ [] ∨ p.position.loop.isEnabled = false := by
  by_cases hl : p.position.loop.isEnabled = false
  · exact .inr hl
  · left
    have hu : p.stylus.useStrokeNormalProjection = true := by
      have := (validParts h.valid).1 (by simpa using hl)
      simpa using this
    obtain ⟨cs, hcs, -, hw⟩ := h.window
    have hmin := (validStylus h.valid).1 hu
    have hlen := (hw.suffix hu).2
    rw [rawSamples_length] at hlen
    have hne : 0 < cs.length := by
      have : cs.length = es.length := by simpa using congrArg List.length hcs
      have hes : es ≠ [] := by cases h <;> simp
      rw [this]
      exact List.length_pos_iff.2 hes
    intro hc
    rw [hc, List.length_nil] at hlen
    omega

/-- The times of the results of the last call of a stroke come from the tip states. -/
theorem answer_times {m' : StrokeModeler (Fl f32) (Fl f64)} {loop : LoopModeler (Fl f32) (Fl f64)} {t : Fl f64}
    {tips : List (TipState (Fl f32) (Fl f64))} {out : List (Result (Fl f32) (Fl f64))} (h : Course p es m) (hm' : Course p es' m')
    (hq : modelStylus tips m'.stylus m.loop t = .ok (loop, out)) : List.Forall₂ TimeOf tips out := by
  refine result_times hq ((samples_or_off hm').imp_right fun hl => ?_)
  have : m.loop.params.isEnabled = false := by rw [h.paramsOf.loop]; exact hl
  exact ⟨this, by simp [LoopModeler.getInterpolationValue, this]⟩

theorem Course.call_onward (h : Course p es m) {f : Event (Fl f32) (Fl f64)} (hf : f ∈ es) {out : List (Result (Fl f32) (Fl f64))}
    (hout : f.results = some out) : out.Pairwise fun a b => NotAfter a.time b.time := by
  have hv := h.valid
  induction h with
  | @down i stylus predictor _ he hfi hs hp =>
    simp only [List.mem_singleton] at hf
    subst hf
    cases hout
    exact List.pairwise_singleton _ _
  | @move es m last i wobble corrected stylus n predictor loop out' hm hl he hfi hw hs hn hp hq ih =>
    rcases List.mem_append.1 hf with hf | hf
    · exact ih hf
    · simp only [List.mem_singleton] at hf
      subst hf
      cases hout
      have hc := Course.clocks hm
      obtain ⟨f1, f2⟩ := Fits.order (hc.last _ hl) hfi
      obtain ⟨a1, a2, -, -⟩ := path_tips m.position last.correctedPosition corrected (hc.last _ hl) f1 f2 (numberOfSteps_le_intMax hn)
      exact (onward_results (answer_times hm (.move hm hl he hfi hw hs hn hp hq) hq) a1 fun q hq => (a2 q hq).1).1
  | @late es m last i wobble corrected stylus s hm hl he hfi hw hs hn ih =>
    rcases List.mem_append.1 hf with hf | hf
    · exact ih hf
    · simp only [List.mem_singleton] at hf
      subst hf
      cases hout
  | @up es m last i stylus n loop out' hm hl he hfi hs hn hq ih =>
    rcases List.mem_append.1 hf with hf | hf
    · exact ih hf
    · simp only [List.mem_singleton] at hf
      subst hf
      cases hout
      have hc := Course.clocks hm
      obtain ⟨f1, f2⟩ := Fits.order (hc.last _ hl) hfi
      obtain ⟨a1, a2, -⟩ := up_tips hv hc.state (hc.last _ hl) f1 f2 (numberOfSteps_le_intMax hn)
      exact (onward_results (answer_times hm (.up hm hl he hfi hs hn hq) hq) a1 fun q hq => (a2 q hq).1).1

/-- What holds in the course of a stroke with exact differences of times. -/
structure OnTime (es : List (Event (Fl f32) (Fl f64))) (m : StrokeModeler (Fl f32) (Fl f64)) : Prop where
  order : (resultsOf es).Pairwise fun a b => NotAfter a.time b.time
  past : m.lastInput ≠ none → ∀ r ∈ resultsOf es, Fl.isNaN r.time = true ∨ num r.time ≤ num m.position.state.time
  last : ∀ last, m.lastInput = some last → num m.position.state.time ≤ num last.input.time ∧
    (acceptedOf es).getLast? = some last.input

omit [Libm] in
theorem acceptedOf_append (es : List (Event (Fl f32) (Fl f64))) (i : Input (Fl f32) (Fl f64)) (out : List (Result (Fl f32) (Fl f64))) :
    acceptedOf (es ++ [⟨i, some out⟩]) = acceptedOf es ++ [i] := by simp [acceptedOf]

omit [Libm] in
theorem resultsOf_append (es : List (Event (Fl f32) (Fl f64))) (i : Input (Fl f32) (Fl f64)) (out : List (Result (Fl f32) (Fl f64))) :
    resultsOf (es ++ [⟨i, some out⟩]) = resultsOf es ++ out := by simp [resultsOf]

theorem Course.onTime (h : Course p es m) (hx : (acceptedOf es).IsChain fun a b => ExactStep a.time b.time) : OnTime es m := by
  have hv := h.valid
  induction h with
  | @down i stylus predictor _ he hfi hs hp =>
    refine ⟨List.pairwise_singleton _ _, ?_, ?_⟩
    · intro _ r hr
      simp [resultsOf] at hr
      subst hr
      exact .inr (le_refl _)
    · rintro last ⟨⟩
      exact ⟨le_refl _, rfl⟩
  | @move es m last i wobble corrected stylus n predictor loop out hm hl he hfi hw hs hn hp hq ih =>
    rw [acceptedOf_append, List.isChain_append] at hx
    obtain ⟨i1, i2, i3⟩ := ih hx.1
    obtain ⟨l1, l2⟩ := i3 _ hl
    have hstep := hx.2.2 last.input l2 i (by simp)
    have hc := Course.clocks hm
    obtain ⟨f1, f2⟩ := Fits.order (hc.last _ hl) hfi
    obtain ⟨a1, a2, a3, a4⟩ := path_tips m.position last.correctedPosition corrected (hc.last _ hl) f1 f2 (numberOfSteps_le_intMax hn)
    obtain ⟨o1, o2⟩ := onward_results (answer_times hm (.move hm hl he hfi hw hs hn hp hq) hq) a1 fun q hq => (a2 q hq).1
    have hge : ∀ r ∈ out, Fl.isNaN r.time = true ∨ num last.input.time ≤ num r.time := by
      intro r hr
      obtain ⟨q, hq, hqr⟩ := o2 r hr
      exact hqr.imp_right fun h => by rw [h]; exact (a2 q hq).2.1
    have hstate : num m.position.state.time ≤ num (m.moveTips last i corrected n).1.state.time ∧
        num (m.moveTips last i corrected n).1.state.time ≤ num i.time ∧
        ∀ q ∈ (m.moveTips last i corrected n).2, num q.time ≤ num (m.moveTips last i corrected n).1.state.time := by
      unfold StrokeModeler.moveTips
      rw [a4]
      cases hql : (m.position.updateAlongLinearPath last.correctedPosition last.input.time corrected i.time n).2.getLast? with
      | none =>
        rw [List.getLast?_eq_none_iff] at hql
        exact ⟨le_refl _, l1.trans f2, by rw [hql]; simp⟩
      | some q =>
        have e := a3 hstep q hql
        refine ⟨?_, ?_, ?_⟩
        · simp only [Option.getD_some]; rw [e]; exact l1.trans f2
        · simp only [Option.getD_some]; exact e.le
        · intro q' hq'
          simp only [Option.getD_some]; rw [e]
          exact (a2 q' hq').2.2 hstep
    refine ⟨?_, ?_, ?_⟩
    · rw [resultsOf_append]
      refine List.pairwise_append.2 ⟨i1, o1, fun a ha b hb => ?_⟩
      rcases i2 (by simp [hl]) a ha with ha | ha
      · exact .inl ha
      · rcases hge b hb with hb | hb
        · exact .inr (.inl hb)
        · exact .inr (.inr ((ha.trans l1).trans hb))
    · intro _ r hr
      rw [resultsOf_append] at hr
      rcases List.mem_append.1 hr with hr | hr
      · exact (i2 (by simp [hl]) r hr).imp_right fun h => h.trans hstate.1
      · obtain ⟨q, hq, hqr⟩ := o2 r hr
        exact hqr.imp_right fun h => by rw [h]; exact hstate.2.2 q hq
    · rintro last ⟨⟩
      rw [acceptedOf_append]
      exact ⟨hstate.2.1, by simp⟩
  | @late es m last i wobble corrected stylus s hm hl he hfi hw hs hn ih =>
    have e1 : acceptedOf (es ++ [⟨i, none⟩]) = acceptedOf es := by simp [acceptedOf]
    have e2 : resultsOf (es ++ [⟨i, none⟩]) = resultsOf es := by simp [resultsOf]
    rw [e1] at hx
    obtain ⟨i1, i2, i3⟩ := ih hx
    exact ⟨by rw [e2]; exact i1, by rw [e2]; exact i2, by rw [e1]; exact i3⟩
  | @up es m last i stylus n loop out hm hl he hfi hs hn hq ih =>
    rw [acceptedOf_append, List.isChain_append] at hx
    obtain ⟨i1, i2, i3⟩ := ih hx.1
    obtain ⟨l1, l2⟩ := i3 _ hl
    have hc := Course.clocks hm
    obtain ⟨f1, f2⟩ := Fits.order (hc.last _ hl) hfi
    obtain ⟨a1, a2, -⟩ := up_tips hv hc.state (hc.last _ hl) f1 f2 (numberOfSteps_le_intMax hn)
    obtain ⟨o1, o2⟩ := onward_results (answer_times hm (.up hm hl he hfi hs hn hq) hq) a1 fun q hq => (a2 q hq).1
    refine ⟨?_, fun h => absurd rfl h, by rintro last ⟨⟩⟩
    rw [resultsOf_append]
    refine List.pairwise_append.2 ⟨i1, o1, fun a ha b hb => ?_⟩
    rcases i2 (by simp [hl]) a ha with ha | ha
    · exact .inl ha
    · obtain ⟨q, hq, hqr⟩ := o2 b hb
      rcases hqr with hqr | hqr
      · exact .inr (.inl hqr)
      · exact .inr (.inr (by rw [hqr]; exact ha.trans ((a2 q hq).2 l1)))

/-- The Move of a stroke and what was before it. -/
theorem Course.move_times {a b : List (Event (Fl f32) (Fl f64))} {f : Event (Fl f32) (Fl f64)} (h : Course p (a ++ f :: b) m)
    (hf : f.input.eventType = .move) {out : List (Result (Fl f32) (Fl f64))} (hout : f.results = some out) (ha : a ≠ [])
    {prev : Input (Fl f32) (Fl f64)} (hprev : (acceptedOf a).getLast? = some prev) :
    Finite prev.time ∧ Finite f.input.time ∧ num prev.time ≤ num f.input.time ∧
    ∃ (n : ℤ) (tips : List (TipState (Fl f32) (Fl f64))), n ≤ 2147483647 ∧ List.Forall₂ TimeOf tips out ∧
      (p.position.loop.isEnabled = false →
        List.Forall₂ (fun q r => Finite q.time → Finite r.time ∧ num r.time = num q.time) tips out) ∧
      (∀ q ∈ tips, Clock q.time ∧ num prev.time ≤ num q.time ∧ (ExactStep prev.time f.input.time → num q.time ≤ num f.input.time)) ∧
      (ExactStep prev.time f.input.time → ∀ q, tips.getLast? = some q → num q.time = num f.input.time) := by
  obtain ⟨m', h'⟩ := Course.take (a := a ++ [f]) (b := b) (by simpa using h) (by simp)
  have lastOf : ∀ {es : List (Event (Fl f32) (Fl f64))} {m : StrokeModeler (Fl f32) (Fl f64)}, Course p es m →
      ∀ last, m.lastInput = some last → (acceptedOf es).getLast? = some last.input := by
    intro es m h
    induction h with
    | down => rintro last ⟨⟩; rfl
    | move => rintro last ⟨⟩; rw [acceptedOf_append]; simp
    | @late es m last i wobble corrected stylus s hm hl he hfi hw hs hn ih =>
      intro last hl
      have e1 : acceptedOf (es ++ [⟨i, none⟩]) = acceptedOf es := by simp [acceptedOf]
      rw [e1]; exact ih last hl
    | up => rintro last ⟨⟩
  generalize hes : a ++ [f] = es at h'
  cases h' with
  | down =>
    cases a with
    | nil => exact absurd rfl ha
    | cons x a => simp at hes
  | @move es m last i wobble corrected stylus n predictor loop out' hm hl he hfi hw hs hn hp hq =>
    obtain ⟨rfl, hfe⟩ := List.append_inj' hes rfl
    simp only [List.cons.injEq, and_true] at hfe
    subst hfe
    cases hout
    have hc := Course.clocks hm
    obtain rfl : prev = last.input := by
      have := lastOf hm last hl
      rw [hprev] at this
      exact Option.some.inj this
    obtain ⟨f1, f2⟩ := Fits.order (hc.last _ hl) hfi
    obtain ⟨a1, a2, a3, a4⟩ := path_tips m.position last.correctedPosition corrected (hc.last _ hl) f1 f2 (numberOfSteps_le_intMax hn)
    refine ⟨hc.last _ hl, f1, f2, n, _, numberOfSteps_le_intMax hn, answer_times hm (.move hm hl he hfi hw hs hn hp hq) hq, ?_, a2, a3⟩
    intro hoff
    have : m.loop.params.isEnabled = false := by rw [hm.paramsOf.loop]; exact hoff
    have e : m.loop.getInterpolationValue = 1 := by simp [LoopModeler.getInterpolationValue, this]
    unfold modelStylus at hq
    rw [e] at hq
    exact result_times_off hq this
  | late =>
    obtain ⟨-, hfe⟩ := List.append_inj' hes rfl
    simp only [List.cons.injEq, and_true] at hfe
    subst hfe
    cases hout
  | up hm hl he =>
    obtain ⟨-, hfe⟩ := List.append_inj' hes rfl
    simp only [List.cons.injEq, and_true] at hfe
    subst hfe
    rw [he] at hf
    cases hf

end Fl

variable [Libm] {ops : List (Op (Fl f32) (Fl f64))} {rs : List (Response (Fl f32) (Fl f64))} {m : StrokeModeler (Fl f32) (Fl f64)}

/-- C17 on floats, one call: the times of the results of one call never go backwards, for any inputs and parameters. -/
theorem C17_call_float_partial (h : Session ops rs m) (hr : Regular ops rs) {f : Event (Fl f32) (Fl f64)} (hf : f ∈ strokeOf ops rs)
    {out : List (Result (Fl f32) (Fl f64))} (hout : f.results = some out) :
    (out.map (·.time)).Pairwise fun a b => (b <ᵇ a) = false := by
  obtain ⟨p, m₀, -, hc, -⟩ := h.course hr (List.ne_nil_of_mem hf)
  rw [List.pairwise_map]
  exact (Fl.Course.call_onward hc hf hout).imp fun h => Fl.notAfter_iff.1 h

/-- The difference of two times computed in double precision is exact. -/
def ExactDifference (a b : Fl f64) : Prop :=
  ∃ s t : ℝ, Fl.val a = some (s : EReal) ∧ Fl.val b = some (t : EReal) ∧ Fl.val (b - a) = some ((t - s : ℝ) : EReal)

omit [Libm] in
theorem ExactDifference.step {a b : Fl f64} (h : ExactDifference a b) : Fl.ExactStep a b := by
  obtain ⟨s, t, h1, h2, h3⟩ := h
  have f1 := Fl.finite_of_isFinite (Fl.isFinite_val.2 ⟨_, h1⟩)
  have f2 := Fl.finite_of_isFinite (Fl.isFinite_val.2 ⟨_, h2⟩)
  have f3 := Fl.finite_of_isFinite (Fl.isFinite_val.2 ⟨_, h3⟩)
  rw [Fl.val_num f1] at h1
  rw [Fl.val_num f2] at h2
  rw [Fl.val_num f3] at h3
  simp only [Option.some.injEq, EReal.coe_eq_coe_iff] at h1 h2 h3
  exact ⟨f3, by rw [h1, h2, h3]⟩

/-- C17 on floats, the whole stroke (partial): if the difference of the times of consecutive accepted inputs is exact, time never goes
backwards along the stroke.
Full statement: without this condition; it is false, see `C17_refuted`. -/
theorem C17_times_monotone_float_partial (h : Session ops rs m) (hr : Regular ops rs)
    (hx : (acceptedOf (strokeOf ops rs)).IsChain fun a b => ExactDifference a.time b.time) :
    ((resultsOf (strokeOf ops rs)).map (·.time)).Pairwise fun a b => (b <ᵇ a) = false := by
  by_cases hne : strokeOf ops rs = []
  · rw [hne]; exact .nil
  obtain ⟨p, m₀, -, hc, -⟩ := h.course hr hne
  rw [List.pairwise_map]
  exact (Fl.Course.onTime hc (hx.imp fun a b h => h.step)).order.imp fun h => Fl.notAfter_iff.1 h

omit [Libm] in
/-- The condition of C17 and C18 holds for input times that at most double from one input to the next. -/
theorem exactDifference_of_le {a b : Fl f64} {s t : ℝ} (ha : Fl.val a = some (s : EReal)) (hb : Fl.val b = some (t : EReal))
    (h1 : s ≤ t) (h2 : t ≤ 2 * s) : ExactDifference a b := by
  refine ⟨s, t, ha, hb, ?_⟩
  have f1 := Fl.finite_of_isFinite (Fl.isFinite_val.2 ⟨_, ha⟩)
  have f2 := Fl.finite_of_isFinite (Fl.isFinite_val.2 ⟨_, hb⟩)
  rw [Fl.val_num f1] at ha
  rw [Fl.val_num f2] at hb
  simp only [Option.some.injEq, EReal.coe_eq_coe_iff] at ha hb
  obtain ⟨x, k, hk, rfl⟩ := Fl.finite_iff.1 f1
  obtain ⟨y, l, hl, rfl⟩ := Fl.finite_iff.1 f2
  have hp : (0 : ℝ) < 2 ^ f64.q := by positivity
  have k1 : (Fl.key (Fl.fin x k hk) : ℝ) = k := by
    have h0 : 0 ≤ Fl.num (Fl.fin x k hk) := by rw [ha]; linarith
    rw [← Fl.num_zero (f := f64), Fl.num_le] at h0
    have hz : Fl.key (0 : Fl f64) = 0 := by decide +kernel
    cases x
    · rfl
    · have : k = 0 := by
        rw [hz] at h0
        have h0 : (0 : ℤ) ≤ -(k : ℤ) := h0
        omega
      simp [Fl.key, Fl.sgn, this]
  have k2 : (Fl.key (Fl.fin y l hl) : ℝ) = l := by
    have h0 : 0 ≤ Fl.num (Fl.fin y l hl) := by rw [hb]; linarith
    rw [← Fl.num_zero (f := f64), Fl.num_le] at h0
    have hz : Fl.key (0 : Fl f64) = 0 := by decide +kernel
    cases y
    · rfl
    · have : l = 0 := by
        rw [hz] at h0
        have h0 : (0 : ℤ) ≤ -(l : ℤ) := h0
        omega
      simp [Fl.key, Fl.sgn, this]
  have e1 : (k : ℝ) = s * 2 ^ f64.q := by rw [← ha, ← k1]; unfold Fl.num; field_simp
  have e2 : (l : ℝ) = t * 2 ^ f64.q := by rw [← hb, ← k2]; unfold Fl.num; field_simp
  have hkl : k ≤ l := by
    have : (k : ℝ) ≤ l := by rw [e1, e2]; gcongr
    exact_mod_cast this
  have hlk : l - k ≤ k := by
    have : (l : ℝ) ≤ 2 * k := by rw [e1, e2, ← mul_assoc]; gcongr
    have : l ≤ 2 * k := by exact_mod_cast this
    omega
  have hrep : f64.Rep (l - k) := by
    refine ⟨(Nat.sub_le _ _).trans hl.1, ?_⟩
    exact Nat.dvd_sub ((Nat.pow_dvd_pow 2 (Fmt.ulpExp_mono (Nat.sub_le _ _))).trans hl.2)
      ((Nat.pow_dvd_pow 2 (Fmt.ulpExp_mono hlk)).trans hk.2)
  have hcast : ((l - k : ℕ) : ℝ) = (l : ℝ) - k := by rw [Nat.cast_sub hkl]
  have hkey : Fl.key (Fl.fin y l hl - Fl.fin x k hk) = ((l - k : ℕ) : ℤ) := by
    rw [Fl.key_sub f2 f1, k1, k2, ← hcast, RK_natCast hrep]
  have hnum : Fl.num (Fl.fin y l hl - Fl.fin x k hk) = t - s := by
    unfold Fl.num
    rw [hkey]
    push_cast
    rw [hcast, e1, e2]
    field_simp
  have hfin : Fl.Finite (Fl.fin y l hl - Fl.fin x k hk) := by
    refine Fl.finite_of_num (Fl.sub_not_nan f2 f1) ?_
    rw [hnum, abs_of_nonneg (by linarith)]
    have := Fl.abs_num_lt f2
    rw [hb] at this
    refine lt_of_le_of_lt ?_ this
    rw [abs_of_nonneg (by linarith)]
    linarith
  rw [Fl.val_num hfin, hnum]

omit [Libm] in
theorem forall₂_getLast {α β : Type} {R : α → β → Prop} {l : List α} {l' : List β} (h : List.Forall₂ R l l') {r : β}
    (hr : l'.getLast? = some r) : ∃ q, l.getLast? = some q ∧ R q r := by
  induction h with
  | nil => cases hr
  | @cons a b l l' hab h ih =>
    rw [List.getLast?_cons] at hr
    rw [List.getLast?_cons]
    cases hl : l'.getLast? with
    | none =>
      rw [hl] at hr
      rw [List.getLast?_eq_none_iff] at hl
      subst hl
      cases h
      simp at hr ⊢
      rwa [hr] at hab
    | some x =>
      rw [hl] at hr
      simp only [Option.getD_some] at hr
      obtain ⟨q, hq, hqr⟩ := ih (hl.trans hr)
      exact ⟨q, by rw [hq]; rfl, hqr⟩

/-- C18 on floats, Move (partial): no result of a Move is before the accepted input before it. If the difference of the two times is
exact, none is after the Move, and without loop mitigation the last one is at the time of the Move.
Full statement: without this condition; it is false, see `C18_refuted`. -/
theorem C18_move_times_float_partial (h : Session ops rs m) (hr : Regular ops rs) {p : StrokeModelParams (Fl f32) (Fl f64)}
    (hp : (known ops rs).params = some p) {e : Event (Fl f32) (Fl f64)}
    {a b : List (Event (Fl f32) (Fl f64))} {f : Event (Fl f32) (Fl f64)} (hs : strokeOf ops rs = e :: (a ++ f :: b))
    (hf : f.input.eventType = .move) {out : List (Result (Fl f32) (Fl f64))} (hout : f.results = some out)
    {prev : Input (Fl f32) (Fl f64)} (hprev : (acceptedOf (e :: a)).getLast? = some prev) :
    (∀ r ∈ out, (r.time <ᵇ prev.time) = false) ∧
    (ExactDifference prev.time f.input.time → ∀ r ∈ out, (f.input.time <ᵇ r.time) = false) ∧
    (ExactDifference prev.time f.input.time → p.position.loop.isEnabled = false →
      ∀ r, out.getLast? = some r → (r.time =ᵇ f.input.time) = true) := by
  obtain ⟨p', m₀, hp', hc, -⟩ := h.course hr (by rw [hs]; simp)
  obtain rfl : p = p' := by rw [hp] at hp'; exact Option.some.inj hp'
  rw [hs, ← List.cons_append] at hc
  obtain ⟨g1, g2, g3, n, tips, gn, t1, t2, t3, t4⟩ := Fl.Course.move_times hc hf hout (by simp) hprev
  have hmem : ∀ r ∈ out, ∃ q ∈ tips, Fl.TimeOf q r := by
    clear t2 t3 t4 hout hprev
    induction t1 with
    | nil => simp
    | @cons q r tips out hqr _ ih =>
      intro r' hr'
      rcases List.mem_cons.1 hr' with rfl | hr'
      · exact ⟨q, by simp, hqr⟩
      · obtain ⟨q', hq', h'⟩ := ih r' hr'
        exact ⟨q', List.mem_cons_of_mem _ hq', h'⟩
  refine ⟨?_, ?_, ?_⟩
  · intro r hr
    obtain ⟨q, hq, hqr⟩ := hmem r hr
    obtain ⟨c1, c2, -⟩ := t3 q hq
    exact Fl.notAfter_iff.1 (.inr ((hqr c1).imp_right fun h => by rw [h]; exact c2))
  · intro hx r hr
    obtain ⟨q, hq, hqr⟩ := hmem r hr
    obtain ⟨c1, -, c3⟩ := t3 q hq
    exact Fl.notAfter_iff.1 ((hqr c1).elim .inl fun h => .inr (.inr (by rw [h]; exact c3 hx.step)))
  · intro hx hoff r hr
    obtain ⟨q, hq, hqr⟩ := forall₂_getLast (t2 hoff) hr
    have e := t4 hx.step q hq
    have hfin : Fl.Finite q.time := Fl.finite_of_num (t3 q (List.mem_of_getLast? hq)).1.not_nan (by rw [e]; exact Fl.abs_num_lt g2)
    obtain ⟨r1, r2⟩ := hqr hfin
    rw [Fl.eq_num r1.1 g2.1, r2, e]
    simp

section Examples
open Ex

/-- One result every 2 * 10^16 seconds. -/
def Ex.rare : StrokeModelParams F32 F64 :=
  { params with sampling := { params.sampling with minOutputRate := d 1 (2 * 10 ^ 16) } }

/-- A stroke over 10^16 seconds. -/
def Ex.eons : List (Op F32 F64) :=
  [.resetParams rare, .update (inp .down 0 0 (d (-10 ^ 16) 1)) [], .update (inp .move 0 0 3) [], .update (inp .move 0 0 (d 7 2)) []]

omit [Libm] in
theorem Ex.noDisable_eons : NoDisableAfterSave eons := by
  intro a p b h hd
  have hm : Op.resetParams p ∈ eons := by simp [h]
  simp [eons] at hm
  simp [hm, rare, params] at hd

omit [Libm] in
/-- The full C17 is false on floats: a Move at 3 s has a result at 4 s, and a Move at 3.5 s then has one at 3.5 s. -/
theorem C17_refuted [Libm] : ∃ (ops : List (Op F32 F64)) (rs : List (Response F32 F64)) (m : StrokeModeler F32 F64),
    Session ops rs m ∧ Regular ops rs ∧ (acceptedOf (strokeOf ops rs)).map (·.time) = [d (-10 ^ 16) 1, 3, d 7 2] ∧
    (resultsOf (strokeOf ops rs)).map (·.time) = [d (-10 ^ 16) 1, 4, d 7 2] := by
  obtain ⟨rs, m, h, hP⟩ := exists_session (ops := eons) (P := fun rs _ => noStale eons rs &&
    decide ((acceptedOf (strokeOf eons rs)).map (·.time) = [d (-10 ^ 16) 1, 3, d 7 2] ∧
      (resultsOf (strokeOf eons rs)).map (·.time) = [d (-10 ^ 16) 1, 4, d 7 2])) (by kernel_rfl)
  simp only [Bool.and_eq_true, decide_eq_true_eq] at hP
  exact ⟨eons, rs, m, h, ⟨noStale_iff hP.1, noDisable_eons⟩, hP.2⟩

omit [Libm] in
/-- The full C18 is false on floats: the result of the Move at 3 s is at 4 s. -/
theorem C18_refuted [Libm] : ∃ (ops : List (Op F32 F64)) (rs : List (Response F32 F64)) (m : StrokeModeler F32 F64)
    (e f : Event F32 F64) (b : List (Event F32 F64)) (r : Result F32 F64),
    Session ops rs m ∧ Regular ops rs ∧ strokeOf ops rs = e :: f :: b ∧ f.input.eventType = .move ∧ f.results = some [r] ∧
    f.input.time = 3 ∧ r.time = 4 := by
  obtain ⟨rs, m, h, hP⟩ := exists_session (ops := eons) (P := fun rs _ => noStale eons rs &&
    match strokeOf eons rs with
    | _ :: f :: _ => match f.results with
      | some [r] => decide (f.input.eventType = .move ∧ f.input.time = 3 ∧ r.time = 4)
      | _ => false
    | _ => false) (by kernel_rfl)
  rw [Bool.and_eq_true] at hP
  obtain ⟨h1, h2⟩ := hP
  split at h2
  · rename_i e f b hs
    split at h2
    · rename_i r hr
      obtain ⟨h3, h4, h5⟩ := of_decide_eq_true h2
      exact ⟨eons, rs, m, e, f, b, r, h, ⟨noStale_iff h1, noDisable_eons⟩, hs, h3, hr, h4, h5⟩
    · cases h2
  · cases h2

/-- A stroke of a Move and an Up whose times are at most doubled. -/
def Ex.usual : List (Op F32 F64) :=
  [.resetParams params, .update (inp .down 0 0 1) [], .update (inp .move 1 0 (d 101 100)) [], .update (inp .up 2 0 (d 103 100)) []]

/-- The differences of its times are exact, and it has results. -/
example : ∃ (rs : List (Response F32 F64)) (m : StrokeModeler F32 F64), Session usual rs m ∧ Regular usual rs ∧
    (acceptedOf (strokeOf usual rs)).map (·.time) = [1, d 101 100, d 103 100] ∧ 10 ≤ (resultsOf (strokeOf usual rs)).length := by
  obtain ⟨rs, m, h, hP⟩ := exists_session (ops := usual) (P := fun rs _ => noStale usual rs &&
    decide ((acceptedOf (strokeOf usual rs)).map (·.time) = [1, d 101 100, d 103 100] ∧
      10 ≤ (resultsOf (strokeOf usual rs)).length)) (by kernel_rfl)
  simp only [Bool.and_eq_true, decide_eq_true_eq] at hP
  refine ⟨rs, m, h, ⟨noStale_iff hP.1, ?_⟩, hP.2⟩
  intro a p b h hd
  have hm : Op.resetParams p ∈ usual := by simp [h]
  simp [usual] at hm
  simp [hm, params] at hd

end Examples

end Ink
