import Verif.Props.FloatTimes
import Verif.Props.MoveCount
import Verif.IEEE.Rate
/-!
# Times of the results of an Up on floats: C18
-/
namespace Ink
open Scalar Arith

namespace Fl
variable [Libm]
variable {p : StrokeModelParams (Fl f32) (Fl f64)} {es : List (Event (Fl f32) (Fl f64))} {m : StrokeModeler (Fl f32) (Fl f64)}

theorem path_tips_ne (pm : PositionModeler (Fl f32) (Fl f64)) (a b : Vec2 (Fl f32)) (s t : Fl f64) {n : ℤ} (hn : 1 ≤ n) :
    (pm.updateAlongLinearPath a s b t n).2 ≠ [] := by
  have htimes : (pm.updateAlongLinearPath a s b t n).2.map (·.time) = _ := alongPathGo_times pm.params a s b t n n.toNat 1 pm.state
  intro h0
  rw [h0] at htimes
  have := congrArg List.length htimes
  simp at this
  omega

/-- The tip states at the end of a stroke take at most the period each, up to rounding. -/
theorem end_limit (pp : PositionModelerParams (Fl f32) (Fl f64)) (a : Vec2 (Fl f32)) (stop : Fl f32) (k : ℕ) {dt : Fl f64} {B P : ℝ}
    {st : TipState (Fl f32) (Fl f64)} (hst : Clock st.time) (hdt : Finite dt) (h0 : 0 ≤ num dt)
    (hP : num dt + 51 / 100 * (B / 2 ^ 52) ≤ P) (hB : 1 / 2 ≤ B ∧ B ≤ 2 ^ 59) (hlow : -B ≤ num st.time) (hup : num st.time + k * P ≤ B) :
    (∀ q ∈ (PositionModeler.endOfStrokeGo pp a stop k dt st).2, num q.time ≤ num st.time + k * P) ∧
    num (PositionModeler.endOfStrokeGo pp a stop k dt st).1.time ≤ num st.time + k * P := by
  have hP0 : 0 ≤ P := le_trans (by have := hB.1; positivity) hP
  induction k generalizing dt st with
  | zero => simp [PositionModeler.endOfStrokeGo]
  | succ k ih =>
    have hk : (0 : ℝ) ≤ k * P := by positivity
    push_cast at hup ⊢
    have e1 : ((k : ℝ) + 1) * P = P + k * P := by ring
    rw [e1] at hup ⊢
    have hstf : Finite st.time := hst.finite (T := B) hB.2 (abs_le.2 ⟨hlow, by linarith⟩)
    obtain ⟨c1, c2⟩ := clock_add hst (.inl hdt) h0
    have hB0 : 0 ≤ 51 / 100 * (B / 2 ^ 52) := by have := hB.1; positivity
    have c : num (st.time + dt) ≤ num st.time + P := by
      rw [num_add hstf hdt]
      have := rd64_err (r := num st.time + num dt) (B := B) (abs_le.2 ⟨by linarith, by linarith⟩) hB.1 (hB.2.trans (by norm_num))
      linarith [(abs_le.1 this).2]
    simp only [PositionModeler.endOfStrokeGo]
    generalize hcand : PositionModeler.stepState pp st a (st.time + dt) = cand at *
    have hct : cand.time = st.time + dt := by rw [← hcand]; rfl
    rw [← hct] at c c1 c2
    split
    · exact ⟨by simp, by dsimp only; linarith⟩
    · split
      · obtain ⟨m1, m2, m3⟩ := clock_mul (.inl hdt) h0 half_spec.1 half_spec.2.1 half_spec.2.2
        obtain ⟨d1, d2⟩ := m3 hdt
        have d3 : num (dt * (ofRatio 1 2 : Fl f64)) ≤ num dt := by
          rw [d2]
          calc _ ≤ rd f64 (num dt) := rd_mono (mul_le_of_le_one_right h0 half_spec.2.2)
            _ = num dt := rd_num hdt
        obtain ⟨i1, i2⟩ := ih hst d1 m2 (by linarith) hlow (by linarith)
        exact ⟨fun q hq => by linarith [i1 q hq], i2.trans (by linarith)⟩
      · split
        · refine ⟨?_, by dsimp only; linarith⟩
          simp only [List.mem_singleton, forall_eq]
          linarith
        · obtain ⟨i1, i2⟩ := ih c1 hdt h0 hP (hlow.trans c2) (by linarith)
          refine ⟨?_, by linarith⟩
          intro q hq
          rcases List.mem_cons.1 hq with rfl | hq
          · linarith
          · linarith [i1 q hq]

/-- The tips of an Up that takes at least one step are not before the input before it, and the last is not before the Up. -/
theorem up_tips_late {last : LastInput (Fl f32) (Fl f64)} {i : Input (Fl f32) (Fl f64)} {n : ℤ} (hp : validateStrokeModelParams p = .ok)
    (hs : Finite last.input.time) (ht : Finite i.time) (h : num last.input.time ≤ num i.time)
    (hn : n ≤ 2147483647) (hn1 : 1 ≤ n) :
    (∀ q ∈ (m.upTips p last i n).2, Clock q.time ∧ num last.input.time ≤ num q.time) ∧
    (ExactStep last.input.time i.time → (∀ q, (m.upTips p last i n).2.getLast? = some q → num i.time ≤ num q.time) ∧
      ∀ T : ℝ, |num i.time| ≤ T → T ≤ 2 ^ 40 → 1 ≤ num p.sampling.minOutputRate → ∀ q ∈ (m.upTips p last i n).2,
        num q.time ≤ 2 ^ 41 ∧ num q.time ≤ num i.time +
          p.sampling.endOfStrokeMaxIterations.toNat * (1 / num p.sampling.minOutputRate + (T + 2000) / 2 ^ 52)) := by
  obtain ⟨a1, a2, a3, a4⟩ := path_tips m.position last.correctedPosition i.position hs ht h hn
  have hne := path_tips_ne m.position last.correctedPosition i.position last.input.time i.time hn1
  simp only [StrokeModeler.upTips]
  generalize ha : m.position.updateAlongLinearPath last.correctedPosition last.input.time i.position i.time n = a at a2 a3 a4 hne
  obtain ⟨z, hz⟩ : ∃ z, a.2.getLast? = some z := by
    cases hz : a.2.getLast? with
    | none => exact absurd (List.getLast?_eq_none_iff.1 hz) hne
    | some z => exact ⟨z, rfl⟩
  rw [hz, Option.getD_some] at a4
  obtain ⟨z1, z2, -⟩ := a2 z (List.mem_of_getLast? hz)
  obtain ⟨p1, p2⟩ := period_clock hp
  obtain ⟨-, b2, b3, b4⟩ := end_tips a.1.params i.position p.sampling.endOfStrokeStoppingDistance
    p.sampling.endOfStrokeMaxIterations.toNat (st := a.1.state) (by rw [a4]; exact z1) p1 p2
  rw [a4] at b2 b4 b3
  have lim : ExactStep last.input.time i.time → ∀ T : ℝ, |num i.time| ≤ T → T ≤ 2 ^ 40 → 1 ≤ num p.sampling.minOutputRate →
      (∀ q ∈ (PositionModeler.endOfStrokeGo a.1.params i.position p.sampling.endOfStrokeStoppingDistance
        p.sampling.endOfStrokeMaxIterations.toNat (1 / p.sampling.minOutputRate) z).2, num q.time ≤ num i.time +
          p.sampling.endOfStrokeMaxIterations.toNat * (1 / num p.sampling.minOutputRate + (T + 2000) / 2 ^ 52)) ∧
      num (PositionModeler.endOfStrokeGo a.1.params i.position p.sampling.endOfStrokeStoppingDistance
        p.sampling.endOfStrokeMaxIterations.toNat (1 / p.sampling.minOutputRate) z).1.time ≤ num i.time +
          p.sampling.endOfStrokeMaxIterations.toNat * (1 / num p.sampling.minOutputRate + (T + 2000) / 2 ^ 52) ∧
      (0 : ℝ) ≤ p.sampling.endOfStrokeMaxIterations.toNat * (1 / num p.sampling.minOutputRate + (T + 2000) / 2 ^ 52) ∧
      num i.time + p.sampling.endOfStrokeMaxIterations.toNat * (1 / num p.sampling.minOutputRate + (T + 2000) / 2 ^ 52) ≤ 2 ^ 41 := by
    intro hx T hT hT' hr
    obtain ⟨hrate, -, hit, -⟩ := validSamplingParts (validParts hp).2.2.2.1
    have hrf := (key_pos_of hrate).1
    have hr0 : 0 < num p.sampling.minOutputRate := by linarith
    have hper := num_div (finite_lit one_lt_two_pow : Finite (1 : Fl f64)) hrf hr0.ne'
    rw [num_one] at hper
    have hper0 : 1 / num p.sampling.minOutputRate ≤ 1 := by rw [div_le_one hr0]; exact hr
    have hper1 : 0 < 1 / num p.sampling.minOutputRate := one_div_pos.2 hr0
    have hper2 := rd64_err (B := 1) (r := 1 / num p.sampling.minOutputRate) (by rw [abs_of_pos hper1]; exact hper0) (by norm_num) (by norm_num)
    rw [abs_le] at hper2
    have hfin : Finite (1 / p.sampling.minOutputRate) :=
      p1.finite (T := 2) (by norm_num) (by rw [abs_of_nonneg p2, hper]; linarith [hper2.2, (by norm_num : (51 / 100 * (1 / 2 ^ 52) : ℝ) ≤ 1)])
    have hT0 : 0 ≤ T := (abs_nonneg _).trans hT
    have e := a3 hx z hz
    have hk : (p.sampling.endOfStrokeMaxIterations.toNat : ℝ) ≤ 1000 := by
      have : p.sampling.endOfStrokeMaxIterations.toNat ≤ 1000 := by omega
      exact_mod_cast this
    obtain ⟨y, hy⟩ : ∃ y, y = 1 / num p.sampling.minOutputRate := ⟨_, rfl⟩
    rw [← hy] at hper0 hper1 hper2 ⊢
    rw [← hy] at hper
    have hP : y + (T + 2000) / 2 ^ 52 ≤ 2 := by
      have : (T + 2000) / 2 ^ 52 ≤ 1 := by rw [div_le_one (by norm_num)]; linarith [hT', (by norm_num : (2 ^ 40 + 2000 : ℝ) ≤ 2 ^ 52)]
      linarith
    have hP0 : 0 ≤ y + (T + 2000) / 2 ^ 52 := by
      have := div_nonneg (by linarith : 0 ≤ T + 2000) (by norm_num : (0 : ℝ) ≤ 2 ^ 52)
      linarith
    have hkP := mul_le_mul hk hP hP0 (by norm_num)
    rw [abs_le] at hT
    obtain ⟨l1, l2⟩ := end_limit a.1.params i.position p.sampling.endOfStrokeStoppingDistance
      p.sampling.endOfStrokeMaxIterations.toNat (dt := 1 / p.sampling.minOutputRate) (B := T + 2000)
      (P := y + (T + 2000) / 2 ^ 52) z1 hfin p2
      (by rw [hper]; linarith [hper2.2]) ⟨by linarith, by linarith [hT', (by norm_num : (2 ^ 40 + 2000 : ℝ) ≤ 2 ^ 59)]⟩ (by rw [e]; linarith [hT.1]) (by rw [e]; linarith [hT.2])
    rw [e] at l1 l2
    exact ⟨l1, l2, mul_nonneg (Nat.cast_nonneg _) hP0, by linarith [hT.2, (by norm_num : (2 ^ 40 + 2000 : ℝ) ≤ 2 ^ 41)]⟩
  unfold PositionModeler.modelEndOfStroke
  dsimp only
  rw [a4]
  refine ⟨?_, fun hx => ⟨?_, ?_⟩⟩
  · intro q hq
    split at hq
    · simp only [List.mem_singleton] at hq
      rw [hq]
      exact ⟨b3, z2.trans b4⟩
    · rcases List.mem_append.1 hq with hq | hq
      · exact ⟨(a2 q hq).1, (a2 q hq).2.1⟩
      · exact ⟨(b2 q hq).1, z2.trans (b2 q hq).2.1⟩
  · intro q hq
    have e := a3 hx z hz
    split at hq
    · simp only [List.getLast?_singleton, Option.some.injEq] at hq
      rw [← hq, ← e]
      exact b4
    · rw [List.getLast?_append, hz] at hq
      cases hb : (PositionModeler.endOfStrokeGo a.1.params i.position p.sampling.endOfStrokeStoppingDistance
          p.sampling.endOfStrokeMaxIterations.toNat (1 / p.sampling.minOutputRate) z).2.getLast? with
      | none =>
        rw [hb] at hq
        simp only [Option.none_or, Option.some.injEq] at hq
        rw [← hq, e]
      | some w =>
        rw [hb] at hq
        simp only [Option.some_or, Option.some.injEq] at hq
        rw [← hq, ← e]
        exact (b2 w (List.mem_of_getLast? hb)).2.1
  · intro T hT hT' hr q hq
    obtain ⟨l1, l2, l3, l4⟩ := lim hx T hT hT' hr
    refine (and_iff_right_of_imp (fun h => le_trans h l4)).2 ?_
    split at hq
    · simp only [List.mem_singleton] at hq
      rw [hq]
      exact l2
    · rcases List.mem_append.1 hq with hq | hq
      · have := (a2 q hq).2.2 hx
        linarith
      · exact l1 q hq

theorem Course.lastOf {es : List (Event (Fl f32) (Fl f64))} {m : StrokeModeler (Fl f32) (Fl f64)} (h : Course p es m) :
    ∀ last, m.lastInput = some last → (acceptedOf es).getLast? = some last.input := by
  induction h with
  | down => rintro last ⟨⟩; rfl
  | move => rintro last ⟨⟩; rw [acceptedOf_append]; simp
  | @late es m last i wobble corrected stylus s hm hl he hfi hw hs hn ih =>
    intro last hl
    have e1 : acceptedOf (es ++ [⟨i, none⟩]) = acceptedOf es := by simp [acceptedOf]
    rw [e1]; exact ih last hl
  | up => rintro last ⟨⟩

/-- The Up of a stroke and what was before it. -/
theorem Course.up_times {a b : List (Event (Fl f32) (Fl f64))} {f : Event (Fl f32) (Fl f64)} (h : Course p (a ++ f :: b) m)
    (hf : f.input.eventType = .up) {out : List (Result (Fl f32) (Fl f64))} (hout : f.results = some out) (ha : a ≠ [])
    {prev : Input (Fl f32) (Fl f64)} (hprev : (acceptedOf a).getLast? = some prev)
    (hrate : Finite p.sampling.minOutputRate) (h1 : 1 ≤ num p.sampling.minOutputRate)
    (hst : 1 / 2 ^ 149 ≤ num f.input.time - num prev.time) :
    ∃ tips : List (TipState (Fl f32) (Fl f64)), List.Forall₂ TimeOf tips out ∧
      (p.position.loop.isEnabled = false →
        List.Forall₂ (fun q r => Finite q.time → Finite r.time ∧ num r.time = num q.time) tips out) ∧
      (∀ q ∈ tips, Clock q.time ∧ num prev.time ≤ num q.time) ∧
      (ExactStep prev.time f.input.time → (∀ q, tips.getLast? = some q → num f.input.time ≤ num q.time) ∧
        ∀ T : ℝ, |num f.input.time| ≤ T → T ≤ 2 ^ 40 → ∀ q ∈ tips, num q.time ≤ 2 ^ 41 ∧ num q.time ≤ num f.input.time +
          p.sampling.endOfStrokeMaxIterations.toNat * (1 / num p.sampling.minOutputRate + (T + 2000) / 2 ^ 52)) := by
  obtain ⟨m', h'⟩ := Course.take (a := a ++ [f]) (b := b) (by simpa using h) (by simp)
  have hv := h'.valid
  generalize hes : a ++ [f] = es at h'
  cases h' with
  | down =>
    cases a with
    | nil => exact absurd rfl ha
    | cons x a => simp at hes
  | move hm hl he =>
    obtain ⟨-, hfe⟩ := List.append_inj' hes rfl
    simp only [List.cons.injEq, and_true] at hfe
    subst hfe
    rw [he] at hf
    cases hf
  | late =>
    obtain ⟨-, hfe⟩ := List.append_inj' hes rfl
    simp only [List.cons.injEq, and_true] at hfe
    subst hfe
    cases hout
  | @up es m last i stylus n loop out' hm hl he hfi hs hn hq =>
    obtain ⟨rfl, hfe⟩ := List.append_inj' hes rfl
    simp only [List.cons.injEq, and_true] at hfe
    subst hfe
    cases hout
    have hc := Course.clocks hm
    obtain rfl : prev = last.input := by
      have := Course.lastOf hm last hl
      rw [hprev] at this
      exact Option.some.inj this
    obtain ⟨f1, f2⟩ := Fits.order (hc.last _ hl) hfi
    have hn1 : 1 ≤ n := by
      obtain ⟨k, hk, hkn⟩ := numberOfSteps_ge hn
      obtain ⟨g1, g2⟩ := Fl.demand_pos (hc.last _ hl) f1 hrate h1 hst
      have := Fl.toInt_pos g1 g2 hk
      omega
    obtain ⟨a2, a3⟩ := up_tips_late (m := m) hv (hc.last _ hl) f1 f2 (numberOfSteps_le_intMax hn) hn1
    refine ⟨_, answer_times hm (.up hm hl he hfi hs hn hq) hq, ?_, a2, fun hx => ⟨(a3 hx).1, fun T hT hT' => (a3 hx).2 T hT hT' h1⟩⟩
    intro hoff
    have : m.loop.params.isEnabled = false := by rw [hm.paramsOf.loop]; exact hoff
    have e : m.loop.getInterpolationValue = 1 := by simp [LoopModeler.getInterpolationValue, this]
    unfold modelStylus at hq
    rw [e] at hq
    exact result_times_off hq this

end Fl

variable [Libm] {ops : List (Op (Fl f32) (Fl f64))} {rs : List (Response (Fl f32) (Fl f64))} {m : StrokeModeler (Fl f32) (Fl f64)}

/-- C18 on floats, Up (partial): if the output rate is at least 1 per second and the Up is at least 2^-149 seconds later than the accepted
input before it, then no result of the Up is before that input. If the difference of the two times is exact, the last result is not
before the Up, and no result is later than the Up by more than end_of_stroke_max_iterations / min_output_rate and rounding.
Full statement: without these conditions. On exact numbers it is proved, see `C18_up_times_exact`. -/
theorem C18_up_times_float_partial (h : Session ops rs m) (hr : Regular ops rs) {p : StrokeModelParams (Fl f32) (Fl f64)}
    (hp : (known ops rs).params = some p) {e : Event (Fl f32) (Fl f64)}
    {a b : List (Event (Fl f32) (Fl f64))} {f : Event (Fl f32) (Fl f64)} (hs : strokeOf ops rs = e :: (a ++ f :: b))
    (hf : f.input.eventType = .up) {out : List (Result (Fl f32) (Fl f64))} (hout : f.results = some out)
    {prev : Input (Fl f32) (Fl f64)} (hprev : (acceptedOf (e :: a)).getLast? = some prev) {s t rate : ℝ}
    (hs' : Fl.val prev.time = some (s : EReal)) (ht : Fl.val f.input.time = some (t : EReal))
    (hrate : Fl.val p.sampling.minOutputRate = some (rate : EReal)) (h1 : 1 ≤ rate) (hst : 1 / 2 ^ 149 ≤ t - s) :
    (∀ r ∈ out, (r.time <ᵇ prev.time) = false) ∧
    (ExactDifference prev.time f.input.time → (∀ r, out.getLast? = some r → (r.time <ᵇ f.input.time) = false) ∧
      ∀ T : ℝ, |t| ≤ T → T ≤ 2 ^ 40 → ∀ r ∈ out, isNaN r.time = true ∨ ∃ u : ℝ, Fl.val r.time = some (u : EReal) ∧
        u ≤ t + p.sampling.endOfStrokeMaxIterations.toNat * (1 / rate + (T + 2000) / 2 ^ 52)) := by
  obtain ⟨p', m₀, hp', hc, -⟩ := h.course hr (by rw [hs]; simp)
  obtain rfl : p = p' := by rw [hp] at hp'; exact Option.some.inj hp'
  rw [hs, ← List.cons_append] at hc
  have fs := Fl.finite_of_isFinite (Fl.isFinite_val.2 ⟨_, hs'⟩)
  have ft := Fl.finite_of_isFinite (Fl.isFinite_val.2 ⟨_, ht⟩)
  have fr := Fl.finite_of_isFinite (Fl.isFinite_val.2 ⟨_, hrate⟩)
  rw [Fl.val_num fs] at hs'
  rw [Fl.val_num ft] at ht
  rw [Fl.val_num fr] at hrate
  simp only [Option.some.injEq, EReal.coe_eq_coe_iff] at hs' ht hrate
  obtain ⟨tips, t1, -, t3, t4⟩ := Fl.Course.up_times hc hf hout (by simp) hprev fr (by rw [hrate]; exact h1)
    (by rw [hs', ht]; exact hst)
  have hmem : ∀ r ∈ out, ∃ q ∈ tips, Fl.TimeOf q r := by
    clear t3 t4 hout hprev
    induction t1 with
    | nil => simp
    | @cons q r tips out hqr _ ih =>
      intro r' hr'
      rcases List.mem_cons.1 hr' with rfl | hr'
      · exact ⟨q, by simp, hqr⟩
      · obtain ⟨q', hq', h'⟩ := ih r' hr'
        exact ⟨q', List.mem_cons_of_mem _ hq', h'⟩
  refine ⟨?_, ?_⟩
  · intro r hr
    obtain ⟨q, hq, hqr⟩ := hmem r hr
    obtain ⟨c1, c2⟩ := t3 q hq
    exact Fl.notAfter_iff.1 (.inr ((hqr c1).imp_right fun h => by rw [h]; exact c2))
  · intro hx
    obtain ⟨k1, k2⟩ := t4 hx.step
    refine ⟨?_, ?_⟩
    · intro r hr
      obtain ⟨q, hq, hqr⟩ := forall₂_getLast t1 hr
      have e := k1 q hq
      exact Fl.notAfter_iff.1 (.inr ((hqr (t3 q (List.mem_of_getLast? hq)).1).imp_right fun h => by rw [h]; exact e))
    · intro T hT hT' r hr
      obtain ⟨q, hq, hqr⟩ := hmem r hr
      obtain ⟨c1, c2⟩ := t3 q hq
      obtain ⟨big, lim⟩ := k2 T (by rw [ht]; exact hT) hT' q hq
      rw [ht, hrate] at lim
      cases hn : Fl.isNaN r.time with
      | true => exact .inl hn
      | false =>
        right
        have hr' := (hqr c1).resolve_left (by rw [hn]; decide)
        rw [← hr'] at lim c2 big
        refine ⟨Fl.num r.time, Fl.val_num (Fl.finite_of_num hn (abs_lt.2 ⟨?_, ?_⟩)), lim⟩
        · exact lt_of_lt_of_le (abs_lt.1 (Fl.abs_num_lt fs)).1 c2
        · exact big.trans_lt (two_pow_lt_huge (by decide))

section Examples
open Ex

/-- The Up of `usual` is 0.02 seconds later than the Move before it, with 180 results per second. -/
example : ∃ (rs : List (Response F32 F64)) (m : StrokeModeler F32 F64) (e f g : Event F32 F64) (out : List (Result F32 F64)),
    Session usual rs m ∧ strokeOf usual rs = e :: ([g] ++ f :: []) ∧ f.input.eventType = .up ∧ f.results = some out ∧
    (acceptedOf [e, g]).getLast? = some (inp .move 1 0 (d 101 100)) ∧ f.input.time = d 103 100 ∧ 5 ≤ out.length := by
  obtain ⟨rs, m, h, hP⟩ := exists_session (ops := usual) (P := fun rs _ => match strokeOf usual rs with
    | [e, g, f] => match f.results with
      | some out => decide (f.input.eventType = .up ∧ (acceptedOf [e, g]).getLast? = some (inp .move 1 0 (d 101 100)) ∧
          f.input.time = d 103 100 ∧ 5 ≤ out.length)
      | none => false
    | _ => false) (by kernel_rfl)
  split at hP
  · rename_i e g f hs
    split at hP
    · rename_i out hout
      obtain ⟨h1, h2, h3, h4⟩ := of_decide_eq_true hP
      exact ⟨rs, m, e, f, g, out, h, hs, h1, hout, h2, h3, h4⟩
    · cases hP
  · cases hP

end Examples

end Ink
