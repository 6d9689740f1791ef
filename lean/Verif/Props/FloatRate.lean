import Verif.IEEE.Rate
import Verif.Spec.Shadow
/-!
# The output rate on floats: C19
-/
namespace Ink
open Scalar Arith

/-- A stroke whose times can be told apart: the differences of the times of consecutive accepted inputs are exact and not tiny, the
times are at most `T`, the output rate is usual, and there are at most `N` results per call. -/
structure Timed (p : StrokeModelParams (Fl f32) (Fl f64)) (N : ℕ) (T : ℝ) (es : List (Event (Fl f32) (Fl f64))) : Prop where
  exact : (acceptedOf es).IsChain fun a b => ExactDifference a.time b.time
  apart : (acceptedOf es).IsChain fun a b => Fl.num a.time = Fl.num b.time ∨ 1 / 2 ^ 149 ≤ Fl.num b.time - Fl.num a.time
  inputs : ∀ i ∈ acceptedOf es, |Fl.num i.time| ≤ T
  results : ∀ r ∈ resultsOf es, Fl.Finite r.time ∧ |Fl.num r.time| ≤ T
  few : ∀ e ∈ es, (e.results.getD []).length ≤ N
  rate : 1 ≤ Fl.num p.sampling.minOutputRate ∧ Fl.num p.sampling.minOutputRate ≤ 2 ^ 60
  horizon : 1 ≤ T ∧ T ≤ 2 ^ 59
  limit : N ≤ 2 ^ 20

namespace Fl
variable [Libm]
variable {p : StrokeModelParams (Fl f32) (Fl f64)} {es : List (Event (Fl f32) (Fl f64))} {m : StrokeModeler (Fl f32) (Fl f64)} {N : ℕ} {T : ℝ}

omit [Libm] in
/-- The finite times of results are those of the tip states. -/
theorem result_nums {tips : List (TipState (Fl f32) (Fl f64))} {out : List (Result (Fl f32) (Fl f64))}
    (h : List.Forall₂ TimeOf tips out) (hc : ∀ q ∈ tips, Clock q.time) (hf : ∀ r ∈ out, Finite r.time) :
    out.map (fun r => num r.time) = tips.map fun q => num q.time := by
  induction h with
  | nil => rfl
  | @cons q r tips out hqr h ih =>
    rw [List.map_cons, List.map_cons, ih (fun q hq => hc q (by simp [hq])) fun r hr => hf r (by simp [hr])]
    congr 1
    rcases hqr (hc q (by simp)) with hn | hn
    · rw [(hf r (by simp)).1] at hn; cases hn
    · exact hn

omit [Libm] in
theorem _root_.Ink.Timed.init {i : Input (Fl f32) (Fl f64)} {out : List (Result (Fl f32) (Fl f64))} (h : Timed p N T (es ++ [⟨i, some out⟩])) :
    Timed p N T es := by
  obtain ⟨h1, h2, h3, h4, h5, h6, h7, h8⟩ := h
  rw [acceptedOf_append] at h1 h2 h3
  rw [resultsOf_append] at h4
  exact ⟨(List.isChain_append.1 h1).1, (List.isChain_append.1 h2).1, fun i hi => h3 i (by simp [hi]), fun r hr => h4 r (by simp [hr]),
    fun e he => h5 e (by simp [he]), h6, h7, h8⟩

/-- What holds in the course of such a stroke. -/
structure OnRate (p : StrokeModelParams (Fl f32) (Fl f64)) (N : ℕ) (T : ℝ) (es : List (Event (Fl f32) (Fl f64)))
    (m : StrokeModeler (Fl f32) (Fl f64)) : Prop where
  gaps : ((resultsOf es).map fun r => num r.time).IsChain fun x y => y - x ≤ spacing N (num p.sampling.minOutputRate) T
  last : ∀ last, m.lastInput = some last → ((resultsOf es).map fun r => num r.time).getLast? = some (num last.input.time) ∧
    num m.position.state.time = num last.input.time ∧ (acceptedOf es).getLast? = some last.input

omit [Libm] in
theorem chain_glue {R : ℝ → ℝ → Prop} {a b : List ℝ} {x : ℝ} (ha : a.IsChain R) (hb : (x :: b).IsChain R) (hx : a.getLast? = some x) :
    (a ++ b).IsChain R := by
  refine List.isChain_append.2 ⟨ha, hb.tail, ?_⟩
  intro y hy z hz
  rw [hx] at hy
  cases hy
  cases b with
  | nil => cases hz
  | cons w b =>
    cases hz
    exact (List.isChain_cons_cons.1 hb).1

omit [Libm] in
theorem last_glue {a b : List ℝ} {x : ℝ} (hx : a.getLast? = some x) : (a ++ b).getLast? = (x :: b).getLast? := by
  cases b with
  | nil => simp [hx]
  | cons w b => simp [List.getLast?_append, List.getLast?_cons]

theorem Course.onRate (h : Course p es m) (ht : Timed p N T es) : OnRate p N T es m := by
  have hv := h.valid
  obtain ⟨hrate, -⟩ := validSamplingParts (validParts hv).2.2.2.1
  have hrf := (key_pos_of hrate).1
  induction h with
  | @down i stylus predictor _ he hfi hs hp =>
    refine ⟨by simp [resultsOf], ?_⟩
    rintro last ⟨⟩
    exact ⟨by simp [resultsOf, StrokeModeler.downResult], rfl, rfl⟩
  | @move es m last i wobble corrected stylus n predictor loop out hm hl he hfi hw hs hn hp hq ih =>
    obtain ⟨i1, i2⟩ := ih ht.init
    obtain ⟨l1, l2, l3⟩ := i2 _ hl
    have hx := ht.exact
    have ha := ht.apart
    have hin := ht.inputs
    rw [acceptedOf_append] at hx ha hin
    have hstep := ((List.isChain_append.1 hx).2.2 last.input l3 i (by simp)).step
    have hap := (List.isChain_append.1 ha).2.2 last.input l3 i (by simp)
    have hc := Course.clocks hm
    obtain ⟨f1, f2⟩ := Fits.order (hc.last _ hl) hfi
    obtain ⟨k, hk, hkn⟩ := numberOfSteps_ge hn
    have hmt := answer_times hm (.move hm hl he hfi hw hs hn hp hq) hq
    have hres := ht.results
    have hlen : out.length ≤ N := ht.few ⟨i, some out⟩ (by simp)
    have hnlen : n ≤ N := by
      have h1 := hmt.length_eq
      have h2 : (m.moveTips last i corrected n).2.length = n.toNat := by
        have := congrArg List.length (alongPathGo_times m.position.params last.correctedPosition last.input.time corrected i.time n n.toNat 1 m.position.state)
        simpa [StrokeModeler.moveTips, PositionModeler.updateAlongLinearPath] using this
      omega
    obtain ⟨a1, a2, a3, a4⟩ := path_tips m.position last.correctedPosition corrected (hc.last _ hl) f1 f2 (numberOfSteps_le_intMax hn)
    obtain ⟨g1, g2⟩ := path_gaps m.position last.correctedPosition corrected (hc.last _ hl) f1 f2 hstep hap hrf ht.rate.1 ht.rate.2 ht.horizon.1
      ht.horizon.2 (hin _ (by simp [List.mem_of_getLast? l3])) (hin i (by simp)) hk hkn hnlen ht.limit
    rw [resultsOf_append] at hres
    have hnums := result_nums hmt (fun q hq => (a2 q hq).1) fun r hr => (hres r (by simp [hr])).1
    refine ⟨?_, ?_⟩
    · rw [resultsOf_append, List.map_append, hnums]
      exact chain_glue i1 g1 l1
    · rintro last' ⟨⟩
      rw [acceptedOf_append, resultsOf_append, List.map_append, hnums, last_glue l1]
      change _ ∧ num (m.moveTips last i corrected n).1.state.time = num i.time ∧ _
      unfold StrokeModeler.moveTips
      rw [a4]
      cases hql : (m.position.updateAlongLinearPath last.correctedPosition last.input.time corrected i.time n).2.getLast? with
      | none =>
        rw [List.getLast?_eq_none_iff] at hql
        have := g2 hql
        rw [hql]
        exact ⟨by simp [this], by simp [l2, this], by simp⟩
      | some q =>
        have e := a3 hstep q hql
        refine ⟨?_, by simpa using e, by simp⟩
        rw [List.getLast?_cons, List.getLast?_map, hql]
        simp [e]
  | @late es m last i wobble corrected stylus s hm hl he hfi hw hs hn ih =>
    have e1 : acceptedOf (es ++ [⟨i, none⟩]) = acceptedOf es := by simp [acceptedOf]
    have e2 : resultsOf (es ++ [⟨i, none⟩]) = resultsOf es := by simp [resultsOf]
    obtain ⟨h1, h2, h3, h4, h5, h6, h7, h8⟩ := ht
    rw [e1] at h1 h2 h3
    rw [e2] at h4
    obtain ⟨i1, i2⟩ := ih ⟨h1, h2, h3, h4, fun e he => h5 e (by simp [he]), h6, h7, h8⟩
    exact ⟨by rw [e2]; exact i1, by rw [e1, e2]; exact i2⟩
  | @up es m last i stylus n loop out hm hl he hfi hs hn hq ih =>
    obtain ⟨i1, i2⟩ := ih ht.init
    obtain ⟨l1, l2, l3⟩ := i2 _ hl
    have hx := ht.exact
    have ha := ht.apart
    have hin := ht.inputs
    rw [acceptedOf_append] at hx ha hin
    have hstep := ((List.isChain_append.1 hx).2.2 last.input l3 i (by simp)).step
    have hap := (List.isChain_append.1 ha).2.2 last.input l3 i (by simp)
    have hc := Course.clocks hm
    obtain ⟨f1, f2⟩ := Fits.order (hc.last _ hl) hfi
    obtain ⟨k, hk, hkn⟩ := numberOfSteps_ge hn
    have hmt := answer_times hm (.up hm hl he hfi hs hn hq) hq
    have hres := ht.results
    have hlen : out.length ≤ N := ht.few ⟨i, some out⟩ (by simp)
    rw [resultsOf_append] at hres
    obtain ⟨u1, u2, -⟩ := up_tips hv hc.state (hc.last _ hl) f1 f2 (numberOfSteps_le_intMax hn)
    have hnums := result_nums hmt (fun q hq => (u2 q hq).1) fun r hr => (hres r (by simp [hr])).1
    have hbound : ∀ q ∈ (m.upTips p last i n).2, |num q.time| ≤ T := by
      intro q hq
      have : num q.time ∈ (m.upTips p last i n).2.map fun q => num q.time := List.mem_map_of_mem hq
      rw [← hnums] at this
      obtain ⟨r, hr, e⟩ := List.mem_map.1 this
      rw [← e]
      exact (hres r (by simp [hr])).2
    have hcount : (m.upTips p last i n).2.length ≤ N := by rw [hmt.length_eq]; exact hlen
    refine ⟨?_, by rintro last ⟨⟩⟩
    rw [resultsOf_append, List.map_append, hnums]
    refine chain_glue i1 ?_ l1
    clear hnums hmt u1 u2 hres hlen
    obtain ⟨a1, a2, a3, a4⟩ := path_tips m.position last.correctedPosition i.position (hc.last _ hl) f1 f2 (numberOfSteps_le_intMax hn)
    have hnlen : (m.position.updateAlongLinearPath last.correctedPosition last.input.time i.position i.time n).2.length = n.toNat := by
      have := congrArg List.length (alongPathGo_times m.position.params last.correctedPosition last.input.time i.position i.time n n.toNat 1 m.position.state)
      simpa [PositionModeler.updateAlongLinearPath] using this
    have g (hnN : n ≤ N) := path_gaps m.position last.correctedPosition i.position (hc.last _ hl) f1 f2 hstep hap hrf ht.rate.1 ht.rate.2 ht.horizon.1
      ht.horizon.2 (hin _ (by simp [List.mem_of_getLast? l3])) (hin i (by simp)) hk hkn hnN ht.limit
    simp only [StrokeModeler.upTips] at hbound hcount ⊢
    generalize m.position.updateAlongLinearPath last.correctedPosition last.input.time i.position i.time n = a at *
    unfold PositionModeler.modelEndOfStroke at hbound hcount ⊢
    dsimp only at hbound hcount ⊢
    obtain ⟨g1, g2⟩ := g (by
      by_cases ha0 : a.2 = []
      · rw [ha0, List.length_nil] at hnlen
        omega
      · rw [if_neg (by simp [ha0]), List.length_append] at hcount
        omega)
    have hlastA : (num last.input.time :: a.2.map fun q => num q.time).getLast? = some (num i.time) ∧ num a.1.state.time = num i.time := by
      rw [a4]
      cases hql : a.2.getLast? with
      | none =>
        rw [List.getLast?_eq_none_iff] at hql
        have := g2 hql
        rw [hql]
        exact ⟨by simp [this], by simp [l2, this]⟩
      | some q =>
        have e := a3 hstep q hql
        refine ⟨?_, by simpa using e⟩
        rw [List.getLast?_cons, List.getLast?_map, hql]
        simp [e]
    have hcl : Clock a.1.state.time := by
      rw [a4]
      cases hq : a.2.getLast? with
      | none => exact hc.state
      | some q => exact (a2 q (List.mem_of_getLast? hq)).1
    obtain ⟨p1, p2⟩ := period_clock hv
    have hrate0 : 0 < num p.sampling.minOutputRate := by linarith [ht.rate.1]
    have hper := num_div (finite_lit one_lt_two_pow : Finite (1 : Fl f64)) hrf hrate0.ne'
    rw [num_one] at hper
    have hper1 : |1 / num p.sampling.minOutputRate| ≤ T := by
      rw [abs_of_pos (one_div_pos.2 hrate0)]
      refine le_trans ?_ ht.horizon.1
      rw [div_le_one hrate0]
      exact ht.rate.1
    have hT := ht.horizon
    have hper2 : num (1 / p.sampling.minOutputRate) ≤ 1 / num p.sampling.minOutputRate + 51 / 100 * (T / 2 ^ 52) := by
      have := rd64_err hper1 (by linarith) (by linarith)
      rw [abs_le] at this
      rw [hper]
      linarith [this.2]
    have hper3 : Finite (1 / p.sampling.minOutputRate) := by
      refine p1.finite (T := 2) (by norm_num) ?_
      rw [abs_of_nonneg p2, hper]
      calc _ ≤ rd f64 1 := rd_mono (by rw [div_le_one hrate0]; exact ht.rate.1)
        _ = 1 := rd_one
        _ ≤ 2 := by norm_num
    obtain ⟨b1, b2⟩ := end_gaps a.1.params i.position p.sampling.endOfStrokeStoppingDistance p.sampling.endOfStrokeMaxIterations.toNat
      hcl hper3 p2 ht.rate.1 hT.1 hT.2 (by rw [hlastA.2]; exact hin i (by simp)) hper2 N (by
        intro q hq
        refine hbound q ?_
        rw [if_neg (by simp [List.ne_nil_of_mem hq])]
        simp [hq])
    generalize PositionModeler.endOfStrokeGo a.1.params i.position p.sampling.endOfStrokeStoppingDistance
      p.sampling.endOfStrokeMaxIterations.toNat (1 / p.sampling.minOutputRate) a.1.state = b at *
    rw [hlastA.2] at b1 b2
    split
    · rename_i hemp
      simp only [List.isEmpty_iff, List.append_eq_nil_iff] at hemp
      have := b2 hemp.2
      have := g2 hemp.1
      simp only [List.map_cons, List.map_nil]
      refine List.isChain_cons_cons.2 ⟨?_, List.isChain_singleton _⟩
      linarith
    · rw [List.map_append, ← List.cons_append]
      exact chain_glue g1 b1 hlastA.1

end Fl

section
variable [Libm]
variable {ops : List (Op (Fl f32) (Fl f64))} {rs : List (Response (Fl f32) (Fl f64))} {m : StrokeModeler (Fl f32) (Fl f64)}
  {p : StrokeModelParams (Fl f32) (Fl f64)} {N : ℕ} {T : ℝ}

/-- C19 on floats (partial): the results of a stroke come in the order of their times, and consecutive ones are at most a period of the
output rate apart, and a little more: the fraction `N / 2^21` of it, where `N` is the number of results per call, and `T / 2^50`, where
`T` bounds the times.
Full statement: without the conditions `Timed`, and at most the period. This is false, see `C19_float_refuted`. -/
theorem C19_min_output_rate_float_partial (h : Session ops rs m) (hr : Regular ops rs) (hp : (known ops rs).params = some p)
    (ht : Timed p N T (strokeOf ops rs)) : Paced (spacing N (Fl.num p.sampling.minOutputRate) T) (resultsOf (strokeOf ops rs)) := by
  refine ⟨fun r hr => (ht.results r hr).1, ?_⟩
  by_cases hne : strokeOf ops rs = []
  · rw [hne]; exact .nil
  obtain ⟨p', m₀, hp', hc, -⟩ := h.course hr hne
  obtain rfl : p' = p := by rw [hp] at hp'; exact (Option.some.inj hp').symm
  have h1 := (Fl.Course.onRate hc ht).gaps
  have h2 := ((Fl.Course.onTime hc (ht.exact.imp fun a b h => h.step)).order).isChain
  rw [List.isChain_map] at h1
  rw [List.isChain_iff_getElem] at h1 h2 ⊢
  intro i hi
  refine ⟨?_, h1 i hi⟩
  rcases h2 i hi with h3 | h3 | h3
  · rw [(ht.results _ (List.getElem_mem _)).1.1] at h3; cases h3
  · rw [(ht.results _ (List.getElem_mem _)).1.1] at h3; cases h3
  · linarith
end

section Examples
open Ex Fl

namespace Ex

/-- A Down and an Up. -/
def endOps : List (Op F32 F64) := [.resetParams params, .update (inp .down 0 0 8) [], .update (inp .up 2 0 8) []]

/-- Two consecutive results are more than 1/180 seconds apart, in terms of the representation. -/
def farApart : List (Result F32 F64) → Bool
  | r :: r' :: out => (decide (Finite r.time) && decide (Finite r'.time) && decide (2 ^ f64.q < (key r'.time - key r.time) * 180)) || farApart (r' :: out)
  | _ => false

theorem farApart_iff {out : List (Result F32 F64)} (h : farApart out = true) : ∃ (a b : List (Result F32 F64)) (r r' : Result F32 F64), out = a ++ r :: r' :: b ∧ Finite r.time ∧ Finite r'.time ∧
    1 / 180 < num r'.time - num r.time := by
  induction out with
  | nil => cases h
  | cons r out ih =>
    cases out with
    | nil => cases h
    | cons r' out =>
      simp only [farApart, Bool.or_eq_true, Bool.and_eq_true, decide_eq_true_eq] at h
      rcases h with h | h
      · refine ⟨[], out, r, r', rfl, h.1.1, h.1.2, ?_⟩
        have hq : (0 : ℝ) < 2 ^ f64.q := by positivity
        have h2 : (2 : ℝ) ^ f64.q < (((key r'.time : ℤ) : ℝ) - (key r.time : ℤ)) * 180 := by exact_mod_cast h.2
        unfold num
        rw [← sub_div, lt_div_iff₀ hq]
        linarith
      · obtain ⟨a, b, r₁, r₂, e, h⟩ := ih h
        exact ⟨r :: a, b, r₁, r₂, by rw [e]; rfl, h⟩

end Ex

/-- C19 fails on floats: results may be a little more than a period of the output rate apart, because of rounding. -/
theorem C19_float_refuted [Libm] : ∃ (ops : List (Op F32 F64)) (rs : List (Response F32 F64)) (m : StrokeModeler F32 F64)
    (p : StrokeModelParams F32 F64) (a b : List (Result F32 F64)) (r r' : Result F32 F64), Session ops rs m ∧ Regular ops rs ∧
    (known ops rs).params = some p ∧ p.sampling.maxOutputsPerCall = 20 ∧ p.sampling.minOutputRate = 180 ∧
    resultsOf (strokeOf ops rs) = a ++ r :: r' :: b ∧ Finite r.time ∧ Finite r'.time ∧ 1 / 180 < num r'.time - num r.time := by
  obtain ⟨rs, m, h, hP⟩ := exists_session (ops := endOps) (P := fun rs _ => noStale endOps rs && farApart (resultsOf (strokeOf endOps rs)) &&
    decide ((known endOps rs).params = some params)) (by kernel_rfl)
  simp only [Bool.and_eq_true, decide_eq_true_eq] at hP
  obtain ⟨a, b, r, r', e, h1, h2, h3⟩ := farApart_iff hP.1.2
  refine ⟨endOps, rs, m, params, a, b, r, r', h, ⟨noStale_iff hP.1.1, ?_⟩, hP.2, rfl, rfl, e, h1, h2, h3⟩
  intro a p b h hd
  have hm : Op.resetParams p ∈ endOps := by simp [h]
  simp [endOps] at hm
  simp [hm, params] at hd

namespace Ex

/-- What the example checks of two consecutive inputs. -/
def tellApart : List (Input F32 F64) → Bool
  | i :: i' :: is => decide (Finite i.time) && decide (Finite i'.time) && decide (Finite (i'.time - i.time)) &&
      decide (key (i'.time - i.time) = key i'.time - key i.time) && decide (2 ^ f64.q ≤ key (i'.time - i.time) * 1000) && tellApart (i' :: is)
  | _ => true

theorem tellApart_iff {is : List (Input F32 F64)} (h : tellApart is = true) : is.IsChain (fun a b => ExactDifference a.time b.time) ∧
    is.IsChain fun a b => num a.time = num b.time ∨ 1 / 2 ^ 149 ≤ num b.time - num a.time := by
  induction is with
  | nil => exact ⟨.nil, .nil⟩
  | cons i is ih =>
    cases is with
    | nil => exact ⟨.singleton _, .singleton _⟩
    | cons i' is =>
      simp only [tellApart, Bool.and_eq_true, decide_eq_true_eq] at h
      obtain ⟨⟨⟨⟨⟨h1, h2⟩, h3⟩, h4⟩, h5⟩, h6⟩ := h
      obtain ⟨g1, g2⟩ := ih h6
      have hq : (0 : ℝ) < 2 ^ f64.q := by positivity
      have e : num (i'.time - i.time) = num i'.time - num i.time := by
        unfold num
        rw [h4]
        push_cast
        rw [sub_div]
      refine ⟨.cons_cons ⟨_, _, val_num h1, val_num h2, by rw [val_num h3, e]⟩ g1, .cons_cons (.inr ?_) g2⟩
      rw [← e]
      refine le_trans (b := 1 / 1000) (by norm_num) ?_
      have h5' : (2 : ℝ) ^ f64.q ≤ ((key (i'.time - i.time) : ℤ) : ℝ) * 1000 := by exact_mod_cast h5
      unfold num
      rw [le_div_iff₀ hq]
      linarith

/-- A time of at most the given size, in terms of the representation. -/
def timeWithin (n : ℕ) (t : F64) : Bool := decide (Finite t) && decide ((key t).natAbs ≤ n * 2 ^ f64.q)

theorem timeWithin_iff {n : ℕ} {t : F64} (h : timeWithin n t = true) : Finite t ∧ |num t| ≤ n := by
  simp only [timeWithin, Bool.and_eq_true, decide_eq_true_eq] at h
  refine ⟨h.1, ?_⟩
  rw [num, abs_div, abs_of_pos (by positivity : (0 : ℝ) < 2 ^ f64.q), div_le_iff₀ (by positivity)]
  have e : |((key t : ℤ) : ℝ)| = ((key t).natAbs : ℝ) := by
    rw [← Int.cast_abs, Int.abs_eq_natAbs]; rfl
  rw [e]
  exact_mod_cast h.2

end Ex

/-- The conditions of C19 on floats hold for a usual stroke. -/
example [Libm] : ∃ (rs : List (Response F32 F64)) (m : StrokeModeler F32 F64), Session usual rs m ∧ Regular usual rs ∧
    (known usual rs).params = some params ∧ Timed params 20 2 (strokeOf usual rs) ∧ 10 ≤ (resultsOf (strokeOf usual rs)).length := by
  obtain ⟨rs, m, h, hP⟩ := exists_session (ops := usual) (P := fun rs _ => noStale usual rs && tellApart (acceptedOf (strokeOf usual rs)) &&
    (acceptedOf (strokeOf usual rs)).all (fun i => timeWithin 2 i.time) && (resultsOf (strokeOf usual rs)).all (fun r => timeWithin 2 r.time) &&
    (strokeOf usual rs).all (fun e => decide ((e.results.getD []).length ≤ 20)) &&
    decide ((known usual rs).params = some params ∧ 10 ≤ (resultsOf (strokeOf usual rs)).length)) (by kernel_rfl)
  simp only [Bool.and_eq_true, decide_eq_true_eq, List.all_eq_true] at hP
  obtain ⟨⟨⟨⟨⟨h1, h2⟩, h3⟩, h4⟩, h5⟩, h6, h7⟩ := hP
  have hr : num params.sampling.minOutputRate = 180 := num_lit (f := f64) (n := 180) (by decide)
  refine ⟨rs, m, h, ⟨noStale_iff h1, ?_⟩, h6, ⟨(tellApart_iff h2).1, (tellApart_iff h2).2, fun i hi => (timeWithin_iff (h3 i hi)).2,
    fun r hr => timeWithin_iff (h4 r hr), h5, by rw [hr]; norm_num, by norm_num, by norm_num⟩, h7⟩
  intro a p b h hd
  have hm : Op.resetParams p ∈ usual := by simp [h]
  simp [usual] at hm
  simp [hm, params] at hd

end Examples
end Ink
