import Verif.Props.FloatRate
/-!
# The times of tip states on floats

What C19 on floats says of the results, here for the tip states: without conditions on the results, and whether or not the results are
finite.
-/
namespace Ink
noncomputable section
open Scalar Arith

/-- Inputs whose times can be told apart. -/
structure Clocked (p : StrokeModelParams (Fl f32) (Fl f64)) (N : ℕ) (es : List (Event (Fl f32) (Fl f64))) : Prop where
  exact : (acceptedOf es).IsChain fun a b => ExactDifference a.time b.time
  apart : (acceptedOf es).IsChain fun a b => Fl.num a.time = Fl.num b.time ∨ 1 / 2 ^ 149 ≤ Fl.num b.time - Fl.num a.time
  inputs : ∀ i ∈ acceptedOf es, |Fl.num i.time| ≤ 2 ^ 19
  rate : 1 ≤ Fl.num p.sampling.minOutputRate ∧ Fl.num p.sampling.minOutputRate ≤ 2 ^ 60
  limit : p.sampling.maxOutputsPerCall ≤ N
  small : N ≤ 2 ^ 20

namespace Fl

/-- The tip states come often enough after the time `s`. -/
structure OnPace (N : ℕ) (rate s : ℝ) (tips : List (TipState (Fl f32) (Fl f64))) : Prop where
  finite : ∀ q ∈ tips, Finite q.time ∧ |num q.time| ≤ 2 ^ 20
  gaps : (s :: tips.map fun q => num q.time).IsChain fun x y => 0 ≤ y - x ∧ y - x ≤ spacing N rate (2 ^ 20)

/-- The last time of the spring is that of the last accepted input. -/
def InStep (es : List (Event (Fl f32) (Fl f64))) (m : StrokeModeler (Fl f32) (Fl f64)) : Prop :=
  ∀ last, m.lastInput = some last → num m.position.state.time = num last.input.time ∧ (acceptedOf es).getLast? = some last.input

variable [Libm] {p : StrokeModelParams (Fl f32) (Fl f64)} {N : ℕ} {es : List (Event (Fl f32) (Fl f64))} {f : Event (Fl f32) (Fl f64)}
  {m : StrokeModeler (Fl f32) (Fl f64)}

omit [Libm] in
theorem chain_and {R S : ℝ → ℝ → Prop} {l : List ℝ} (h : l.IsChain R) (h' : l.IsChain S) : l.IsChain fun x y => R x y ∧ S x y := by
  rw [List.isChain_iff_getElem] at h h' ⊢
  exact fun i hi => ⟨h i hi, h' i hi⟩

omit [Libm] in
theorem onward_chain {tips : List (TipState (Fl f32) (Fl f64))} {s : ℝ} (h : Onward tips) (hs : ∀ q ∈ tips, s ≤ num q.time) :
    (s :: tips.map fun q => num q.time).IsChain fun x y => 0 ≤ y - x := by
  have : (s :: tips.map fun q => num q.time).Pairwise fun x y => 0 ≤ y - x := by
    rw [List.pairwise_cons]
    refine ⟨?_, ?_⟩
    · intro y hy
      obtain ⟨q, hq, rfl⟩ := List.mem_map.1 hy
      linarith [hs q hq]
    · rw [List.pairwise_map]
      exact h.imp fun h => by linarith
  exact this.isChain

omit [Libm] in
theorem _root_.Ink.Clocked.init (h : Clocked p N (es ++ [f])) : Clocked p N es := by
  obtain ⟨h1, h2, h3, h4, h5, h6⟩ := h
  have e : acceptedOf (es ++ [f]) = acceptedOf es ++ acceptedOf [f] := by simp [acceptedOf]
  rw [e] at h1 h2 h3
  exact ⟨h1.left_of_append, h2.left_of_append, fun i hi => h3 i (by simp [hi]), h4, h5, h6⟩

theorem path_length (pm : PositionModeler (Fl f32) (Fl f64)) (a b : Vec2 (Fl f32)) (s t : Fl f64) (n : ℤ) :
    (pm.updateAlongLinearPath a s b t n).2.length = n.toNat := by
  have := congrArg List.length (alongPathGo_times pm.params a s b t n n.toNat 1 pm.state)
  simpa [PositionModeler.updateAlongLinearPath] using this

/-- The tip states on the way to an input. -/
theorem path_pace (hm : Course p es m) (hin : InStep es m) {last : LastInput (Fl f32) (Fl f64)} (hl : m.lastInput = some last)
    {i : Input (Fl f32) (Fl f64)} (hfi : Fits last.input i) {out : List (Result (Fl f32) (Fl f64))} (ht : Clocked p N (es ++ [⟨i, some out⟩]))
    {n : ℤ} (hn : numberOfStepsBetweenInputs m.position.state last.input i p.sampling p.position = .ok (.ok n)) (x : Vec2 (Fl f32)) :
    OnPace N (num p.sampling.minOutputRate) (num last.input.time)
      (m.position.updateAlongLinearPath last.correctedPosition last.input.time x i.time n).2 ∧
    (num last.input.time :: (m.position.updateAlongLinearPath last.correctedPosition last.input.time x i.time n).2.map
      fun q => num q.time).getLast? = some (num i.time) ∧
    num (m.position.updateAlongLinearPath last.correctedPosition last.input.time x i.time n).1.state.time = num i.time ∧
    Clock (m.position.updateAlongLinearPath last.correctedPosition last.input.time x i.time n).1.state.time ∧
    (m.position.updateAlongLinearPath last.correctedPosition last.input.time x i.time n).2.length ≤ N := by
  obtain ⟨hrate, -⟩ := validSamplingParts (validParts hm.valid).2.2.2.1
  have hrf := (key_pos_of hrate).1
  obtain ⟨l2, l3⟩ := hin _ hl
  have hx := ht.exact
  have ha := ht.apart
  have hi := ht.inputs
  rw [acceptedOf_append] at hx ha hi
  have hstep := ((List.isChain_append.1 hx).2.2 last.input l3 i (by simp)).step
  have hap := (List.isChain_append.1 ha).2.2 last.input l3 i (by simp)
  have hc := Course.clocks hm
  obtain ⟨f1, f2⟩ := Fits.order (hc.last _ hl) hfi
  obtain ⟨k, hk, hkn⟩ := numberOfSteps_ge hn
  have hnN : n ≤ N := (numberOfSteps_le hn).trans ht.limit
  have b1 := hi _ (by simp [List.mem_of_getLast? l3] : last.input ∈ _)
  have b2 := hi i (by simp)
  have hT : ∀ {x : ℝ}, |x| ≤ 2 ^ 19 → |x| ≤ 2 ^ 20 := fun h => h.trans (by norm_num)
  obtain ⟨a1, a2, a3, a4⟩ := path_tips m.position last.correctedPosition x (hc.last _ hl) f1 f2 (numberOfSteps_le_intMax hn)
  obtain ⟨g1, g2⟩ := path_gaps m.position last.correctedPosition x (hc.last _ hl) f1 f2 hstep hap hrf ht.rate.1 ht.rate.2
    (T := 2 ^ 20) (by norm_num) (by norm_num) (hT b1) (hT b2) hk hkn hnN ht.small
  have hlen := path_length m.position last.correctedPosition x last.input.time i.time n
  generalize m.position.updateAlongLinearPath last.correctedPosition last.input.time x i.time n = a at *
  refine ⟨⟨fun q hq => ?_, chain_and (onward_chain a1 fun q hq => (a2 q hq).2.1) g1⟩, ?_, ?_, ?_, by omega⟩
  · obtain ⟨c1, c2, c3⟩ := a2 q hq
    have : |num q.time| ≤ 2 ^ 20 := by
      rw [abs_le] at b1 b2 ⊢
      constructor
      · linarith [b1.1]
      · linarith [c3 hstep, b2.2]
    exact ⟨c1.finite (T := 2 ^ 20) (by norm_num) this, this⟩
  · cases hql : a.2.getLast? with
    | none =>
      rw [List.getLast?_eq_none_iff] at hql
      rw [hql]
      simp [g2 hql]
    | some q =>
      rw [List.getLast?_cons, List.getLast?_map, hql]
      simp [a3 hstep q hql]
  · rw [a4]
    cases hql : a.2.getLast? with
    | none =>
      rw [List.getLast?_eq_none_iff] at hql
      simp [l2, g2 hql]
    | some q => simpa using a3 hstep q hql
  · rw [a4]
    cases hql : a.2.getLast? with
    | none => exact hc.state
    | some q => exact (a2 q (List.mem_of_getLast? hql)).1

/-- The tip states at the end of a stroke take at most a second each. -/
theorem end_early (pp : PositionModelerParams (Fl f32) (Fl f64)) (a : Vec2 (Fl f32)) (stop : Fl f32) (k A : ℕ) {dt : Fl f64}
    {st : TipState (Fl f32) (Fl f64)} (hst : Clock st.time) (hdt : Finite dt) (h0 : 0 ≤ num dt) (h1 : num dt ≤ 1) (hA : num st.time ≤ A)
    (hT : A + k ≤ 2 ^ 20) (hlow : -2 ^ 20 ≤ num st.time) :
    (∀ q ∈ (PositionModeler.endOfStrokeGo pp a stop k dt st).2, num q.time ≤ (A + k : ℕ)) ∧
    num (PositionModeler.endOfStrokeGo pp a stop k dt st).1.time ≤ (A + k : ℕ) ∧
    (PositionModeler.endOfStrokeGo pp a stop k dt st).2.length ≤ k := by
  have up : ∀ {A k : ℕ}, (A : ℝ) ≤ (A + k : ℕ) := by intro A k; exact_mod_cast Nat.le_add_right _ _
  induction k generalizing dt st A with
  | zero => simpa [PositionModeler.endOfStrokeGo] using hA
  | succ k ih =>
    have hstf : Finite st.time := by
      refine hst.finite (T := 2 ^ 20) (by norm_num) (abs_le.2 ⟨hlow, hA.trans ?_⟩)
      have : A ≤ 2 ^ 20 := by omega
      exact_mod_cast this
    obtain ⟨c1, c2⟩ := clock_add hst (.inl hdt) h0
    have c : num (st.time + dt) ≤ (A + 1 : ℕ) := by
      rw [num_add hstf hdt]
      have hlt : A + 1 < 2 ^ f64.p := lt_of_le_of_lt (b := 2 ^ 20) (by omega) (by decide)
      rw [← rd_nat (f := f64) hlt]
      refine rd_mono ?_
      push_cast
      linarith
    have e1 : A + (k + 1) = (A + 1) + k := by omega
    simp only [PositionModeler.endOfStrokeGo]
    generalize hcand : PositionModeler.stepState pp st a (st.time + dt) = cand at *
    have hct : cand.time = st.time + dt := by rw [← hcand]; rfl
    rw [← hct] at c c1 c2
    split
    · refine ⟨by simp, ?_, by simp⟩
      rw [e1]; exact c.trans up
    · split
      · obtain ⟨m1, m2, m3⟩ := clock_mul (.inl hdt) h0 half_spec.1 half_spec.2.1 half_spec.2.2
        obtain ⟨d1, d2⟩ := m3 hdt
        have d3 : num (dt * (ofRatio 1 2 : Fl f64)) ≤ 1 := by
          rw [d2]
          calc _ ≤ rd f64 (num dt) := rd_mono (mul_le_of_le_one_right h0 half_spec.2.2)
            _ = num dt := rd_num hdt
            _ ≤ 1 := h1
        obtain ⟨i1, i2, i3⟩ := ih A hst d1 m2 d3 hA (by omega) hlow
        have : ((A + k : ℕ) : ℝ) ≤ (A + (k + 1) : ℕ) := by exact_mod_cast (by omega)
        exact ⟨fun q hq => (i1 q hq).trans this, i2.trans this, i3.trans (by omega)⟩
      · split
        · rw [e1]
          refine ⟨?_, c.trans up, by simp⟩
          simpa using c.trans up
        · obtain ⟨i1, i2, i3⟩ := ih (A + 1) c1 hdt h0 h1 c (by omega) (hlow.trans c2)
          rw [e1]
          refine ⟨?_, i2, by simpa using i3⟩
          intro q hq
          rcases List.mem_cons.1 hq with rfl | hq
          · exact c.trans up
          · exact i1 q hq

/-- The tip states at the end of a stroke. -/
theorem end_pace (hv : validateStrokeModelParams p = .ok) (hr : 1 ≤ num p.sampling.minOutputRate ∧ num p.sampling.minOutputRate ≤ 2 ^ 60) (N : ℕ)
    (pp : PositionModelerParams (Fl f32) (Fl f64)) (x : Vec2 (Fl f32)) {st : TipState (Fl f32) (Fl f64)} (hst' : Clock st.time)
    (hst : |num st.time| ≤ 2 ^ 19) {b : TipState (Fl f32) (Fl f64) × List (TipState (Fl f32) (Fl f64))}
    (hb : PositionModeler.endOfStrokeGo pp x p.sampling.endOfStrokeStoppingDistance p.sampling.endOfStrokeMaxIterations.toNat
      (1 / p.sampling.minOutputRate) st = b) :
    OnPace N (num p.sampling.minOutputRate) (num st.time) b.2 ∧ b.2.length ≤ 1000 ∧ (Finite b.1.time ∧ |num b.1.time| ≤ 2 ^ 20) ∧
    num st.time ≤ num b.1.time ∧ (b.2 = [] → num b.1.time - num st.time ≤ spacing N (num p.sampling.minOutputRate) (2 ^ 20)) := by
  obtain ⟨hrate, -, hit, -⟩ := validSamplingParts (validParts hv).2.2.2.1
  have hrf := (key_pos_of hrate).1
  obtain ⟨p1, p2⟩ := period_clock hv
  have hrate0 : 0 < num p.sampling.minOutputRate := by linarith [hr.1]
  have hper := num_div (finite_lit one_lt_two_pow : Finite (1 : Fl f64)) hrf hrate0.ne'
  rw [num_one] at hper
  have hper0 : 1 / num p.sampling.minOutputRate ≤ 1 := by
    rw [div_le_one hrate0]; exact hr.1
  have hper1 : num (1 / p.sampling.minOutputRate) ≤ 1 := by
    rw [hper]
    exact (rd_mono hper0).trans rd_one.le
  have hper3 : Finite (1 / p.sampling.minOutputRate) :=
    p1.finite (T := 2) (by norm_num) (by rw [abs_of_nonneg p2]; linarith)
  have hper2 : num (1 / p.sampling.minOutputRate) ≤ 1 / num p.sampling.minOutputRate + 51 / 100 * (2 ^ 20 / 2 ^ 52) := by
    have := rd64_err (B := 2 ^ 20) (r := 1 / num p.sampling.minOutputRate) (by
      rw [abs_of_pos (one_div_pos.2 hrate0)]; exact hper0.trans (by norm_num)) (by norm_num) (by norm_num)
    rw [abs_le] at this
    rw [hper]
    linarith [this.2]
  obtain ⟨e1, e2, e3⟩ := end_early pp x p.sampling.endOfStrokeStoppingDistance p.sampling.endOfStrokeMaxIterations.toNat
    (2 ^ 19) hst' hper3 p2 hper1 (by push_cast; linarith [(abs_le.1 hst).2]) (by norm_num; omega) (by linarith [(abs_le.1 hst).1])
  obtain ⟨t1, t2, t3, t4⟩ := end_tips pp x p.sampling.endOfStrokeStoppingDistance p.sampling.endOfStrokeMaxIterations.toNat
    hst' (.inl hper3) p2
  have late : ((2 ^ 19 + p.sampling.endOfStrokeMaxIterations.toNat : ℕ) : ℝ) ≤ 2 ^ 20 := by
    have : 2 ^ 19 + p.sampling.endOfStrokeMaxIterations.toNat ≤ 2 ^ 20 := by norm_num; omega
    exact_mod_cast this
  have within : ∀ {x : Fl f64}, Clock x → num st.time ≤ num x → num x ≤ (2 ^ 19 + p.sampling.endOfStrokeMaxIterations.toNat : ℕ) →
      Finite x ∧ |num x| ≤ 2 ^ 20 := by
    intro x hx h1 h2
    have : |num x| ≤ 2 ^ 20 := by
      rw [abs_le] at hst ⊢
      exact ⟨by linarith [hst.1], h2.trans late⟩
    exact ⟨hx.finite (T := 2 ^ 20) (by norm_num) this, this⟩
  have ball : ∀ q ∈ (PositionModeler.endOfStrokeGo pp x p.sampling.endOfStrokeStoppingDistance
      p.sampling.endOfStrokeMaxIterations.toNat (1 / p.sampling.minOutputRate) st).2, Finite q.time ∧ |num q.time| ≤ 2 ^ 20 :=
    fun q hq => within (t2 q hq).1 (t2 q hq).2.1 (e1 q hq)
  obtain ⟨b1, b2⟩ := end_gaps pp x p.sampling.endOfStrokeStoppingDistance p.sampling.endOfStrokeMaxIterations.toNat
    hst' hper3 p2 hr.1 (T := 2 ^ 20) (by norm_num) (by norm_num) (hst.trans (by norm_num)) hper2 N fun q hq => (ball q hq).2
  have blast := within t3 t4 e2
  generalize PositionModeler.endOfStrokeGo pp x p.sampling.endOfStrokeStoppingDistance
    p.sampling.endOfStrokeMaxIterations.toNat (1 / p.sampling.minOutputRate) st = b' at hb e1 e2 e3 t1 t2 t3 t4 ball b1 b2 blast
  subst hb
  have bchain := chain_and (onward_chain t1 fun q hq => (t2 q hq).2.1) b1
  exact ⟨⟨ball, bchain⟩, by omega, blast, t4, b2⟩

/-- The tip states of an Up. -/
theorem up_pace (hm : Course p es m) (hin : InStep es m) {last : LastInput (Fl f32) (Fl f64)} (hl : m.lastInput = some last)
    {i : Input (Fl f32) (Fl f64)} (hfi : Fits last.input i) {out : List (Result (Fl f32) (Fl f64))} (ht : Clocked p N (es ++ [⟨i, some out⟩]))
    {n : ℤ} (hn : numberOfStepsBetweenInputs m.position.state last.input i p.sampling p.position = .ok (.ok n)) :
    OnPace N (num p.sampling.minOutputRate) (num last.input.time) (m.upTips p last i n).2 ∧ (m.upTips p last i n).2.length ≤ N + 1000 := by
  have hv := hm.valid
  obtain ⟨⟨g1, g2⟩, g3, g4, g5, g6⟩ := path_pace hm hin hl hfi ht hn i.position
  have hi : |num i.time| ≤ 2 ^ 19 := ht.inputs i (by rw [acceptedOf_append]; simp)
  simp only [StrokeModeler.upTips]
  generalize m.position.updateAlongLinearPath last.correctedPosition last.input.time i.position i.time n = a at *
  unfold PositionModeler.modelEndOfStroke
  dsimp only
  have hst : |num a.1.state.time| ≤ 2 ^ 19 := by rw [g4]; exact hi
  obtain ⟨⟨ball, bchain⟩, e3, blast, t4, b2⟩ := end_pace hv ht.rate N a.1.params i.position g5 hst rfl
  generalize PositionModeler.endOfStrokeGo a.1.params i.position p.sampling.endOfStrokeStoppingDistance
    p.sampling.endOfStrokeMaxIterations.toNat (1 / p.sampling.minOutputRate) a.1.state = b at *
  rw [g4] at b2 bchain t4
  split
  · rename_i hemp
    simp only [List.isEmpty_iff, List.append_eq_nil_iff] at hemp
    have h1 := b2 hemp.2
    rw [hemp.1] at g3
    simp at g3
    refine ⟨⟨by simpa using blast, ?_⟩, by simp⟩
    simp only [List.map_cons, List.map_nil]
    refine List.isChain_cons_cons.2 ⟨?_, List.isChain_singleton _⟩
    rw [g3]
    exact ⟨by linarith, h1⟩
  · refine ⟨⟨?_, ?_⟩, by rw [List.length_append]; omega⟩
    · intro q hq
      rcases List.mem_append.1 hq with hq | hq
      · exact g1 q hq
      · exact ball q hq
    · rw [List.map_append, ← List.cons_append]
      exact chain_glue g2 bchain g3

theorem Course.inStep (h : Course p es m) (ht : Clocked p N es) : InStep es m := by
  induction h with
  | @down i stylus predictor _ he hfi hs hp =>
    rintro last ⟨⟩
    exact ⟨rfl, rfl⟩
  | @move es m last i wobble corrected stylus n predictor loop out hm hl he hfi hw hs hn hp hq ih =>
    obtain ⟨-, -, g, -⟩ := path_pace hm (ih ht.init) hl hfi ht hn corrected
    rintro last' ⟨⟩
    exact ⟨g, by rw [acceptedOf_append]; simp⟩
  | @late es m last i wobble corrected stylus s hm hl he hfi hw hs hn ih =>
    intro last' hl'
    have e1 : acceptedOf (es ++ [⟨i, none⟩]) = acceptedOf es := by simp [acceptedOf]
    rw [e1]
    exact ih ht.init last' hl'
  | @up es m last i stylus n loop out hm hl he hfi hs hn hq ih => rintro last' ⟨⟩

end Fl
end
end Ink
