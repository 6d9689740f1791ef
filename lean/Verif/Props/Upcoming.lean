import Verif.Props.FloatTimes
import Verif.Props.Foretell
/-!
# Times of predictions on floats: C79
-/
namespace Ink
open Scalar Arith

/-- The sampling parameters of a predictor. -/
def Predictor.sampling {F D : Type} : Predictor F D → SamplingParams F D
  | .kalman q => q.sampling
  | .strokeEnd q => q.sampling

section Any
variable {F D : Type} [Scalar F] [Scalar D] [Arith F D] {p : StrokeModelParams F D} {es : List (Event F D)} {m : StrokeModeler F D}

omit [Scalar F] in
theorem updatePredictor_sampling {o o' : Option (Predictor F D)} {x : Vec2 F} {t : D} (h : updatePredictor o x t = .ok o')
    {s : SamplingParams F D} (ho : ∀ pr, o = some pr → pr.sampling = s) : ∀ pr, o' = some pr → pr.sampling = s := by
  rintro pr rfl
  cases o with
  | none => simp [updatePredictor] at h
  | some q =>
    have hq := ho q rfl
    simp only [updatePredictor] at h
    cases h1 : q.update x t with
    | ub w => rw [h1] at h; cases h
    | diverge => rw [h1] at h; cases h
    | ok q' =>
    rw [h1, Outcome.map_ok] at h
    obtain rfl : q' = pr := Option.some.inj (Outcome.ok.inj h)
    cases q with
    | strokeEnd e =>
      simp only [Predictor.update, Outcome.ok.injEq] at h1
      rw [← h1]
      exact hq
    | kalman e =>
      simp only [Predictor.update] at h1
      cases h2 : e.update x t with
      | ub w => rw [h2] at h1; cases h1
      | diverge => rw [h2] at h1; cases h1
      | ok e' =>
      rw [h2, Outcome.map_ok, Outcome.ok.injEq] at h1
      subst h1
      unfold KalmanPredictor.update at h2
      have h1 := h2
      obtain ⟨x', -, h1⟩ := Outcome.bind_eq_ok.1 h1
      obtain ⟨y', -, h1⟩ := Outcome.bind_eq_ok.1 h1
      simp only [Outcome.pure_eq, Outcome.ok.injEq] at h1
      rw [← h1]
      exact hq

theorem Course.sampling (h : Course p es m) : ∀ pr, m.predictor = some pr → pr.sampling = p.sampling := by
  induction h with
  | down _ _ _ _ hp =>
    refine updatePredictor_sampling hp ?_
    intro pr hpr
    unfold StrokeModeler.makePredictor at hpr
    split at hpr <;> cases hpr <;> rfl
  | move _ _ _ _ _ _ _ hp _ ih => exact updatePredictor_sampling hp ih
  | late _ _ _ _ _ _ _ ih => exact ih
  | up _ _ _ _ _ _ _ ih => exact ih

end Any

namespace Fl
variable [Libm]

omit [Libm] in
/-- A time plus a duration, in the order of the durations. -/
theorem add_order {t a b : Fl f64} (ht : Clock t) (ha : Clock a) (hb : Clock b) (h0 : 0 ≤ num a) (h : num a ≤ num b) : num (t + a) ≤ num (t + b) := by
  rcases ht with ht | rfl
  · rcases hb with hb | rfl
    · have ha : Finite a := finite_of_num ha.not_nan (by
        rw [abs_of_nonneg h0]
        exact h.trans_lt ((le_abs_self _).trans_lt (abs_num_lt hb)))
      rw [num_add ht ha, num_add ht hb]
      exact rd_mono (by linarith)
    · obtain ⟨c, k, hk, rfl⟩ := finite_iff.1 ht
      exact num_le_inf _
  · have e : ∀ x : Fl f64, Clock x → inf false + x = inf false := by
      rintro x (hx | rfl)
      · obtain ⟨c, k, hk, rfl⟩ := finite_iff.1 hx
        rfl
      · rfl
    rw [e a ha, e b hb]

omit [Libm] in
/-- A number of sample periods. -/
theorem clock_times {n : ℤ} (h1 : 1 ≤ n) (h2 : n ≤ 2147483647) {dt : Fl f64} (hdt : Clock dt) (h0 : 0 ≤ num dt) :
    Clock (ofInt n * dt) ∧ 0 ≤ num (ofInt n * dt) := by
  have hn : Finite (ofInt n : Fl f64) ∧ 1 ≤ num (ofInt n : Fl f64) := by
    have e : num (ofInt n : Fl f64) = n := by
      rw [num_ofInt]
      have := rd_nat (f := f64) (k := n.toNat) (by simp only [f64]; omega)
      rwa [show ((n.toNat : ℕ) : ℝ) = (n : ℝ) by exact_mod_cast Int.toNat_of_nonneg (by omega : 0 ≤ n)] at this
    refine ⟨finite_of_num_le (ofInt_not_nan n) (j := 31) (by decide) ?_, by rw [e]; exact_mod_cast h1⟩
    rw [e, abs_of_nonneg (by exact_mod_cast (by omega : 0 ≤ n))]
    have : (n : ℝ) ≤ 2147483647 := by exact_mod_cast h2
    exact this.trans (by norm_num)
  rcases hdt with hdt | rfl
  · have e := num_mul hn.1 hdt
    have hge : 0 ≤ num (ofInt n * dt) := by
      rw [e]
      exact rd_nonneg (mul_nonneg (by linarith [hn.2]) h0)
    exact ⟨clock_of_le (t := (0 : Fl f64)) (.inl finite_zero) (mul_not_nan hn.1 hdt) (by rw [num_zero]; exact hge), hge⟩
  · have e : (ofInt n : Fl f64) * inf false = inf false := by
      obtain ⟨hf, hp⟩ := hn
      obtain ⟨b, k, hk, e⟩ := finite_iff.1 hf
      rw [e] at hp ⊢
      have hk0 : 0 < key (fin b k hk) := by
        have w0 : 0 < num (fin b k hk) := by linarith
        rw [← num_zero (f := f64), num_lt] at w0
        have : key (0 : Fl f64) = 0 := by decide +kernel
        omega
      have hb : b = false ∧ k ≠ 0 := by cases b <;> simp [key, sgn] at hk0 ⊢ <;> omega
      obtain ⟨rfl, hk1⟩ := hb
      change mul _ (inf false) = _
      simp [mul, hk1]
    rw [e]
    exact ⟨.inr rfl, by rw [← num_zero (f := f64)]; exact num_le_inf _⟩

/-- The times of the connector. -/
theorem connector_tips (cu : KalmanPredictor.Cubic (Fl f32)) {t d : Fl f64} (fd : Fl f32) {n : ℤ} (ht : Clock t) (hd : Clock d) (h0 : 0 ≤ num d)
    (hn : n ≤ 2147483647) (k : ℕ) : ∀ i : ℤ, 1 ≤ i → i + k ≤ n + 1 →
    Onward (KalmanPredictor.connectorGo cu t d fd n k i) ∧
    ∀ q ∈ KalmanPredictor.connectorGo cu t d fd n k i, ∃ j : ℤ, i ≤ j ∧ j ≤ n ∧ q.time = t + d * widen ((ofInt j : Fl f32) / ofInt n) := by
  induction k with
  | zero => intro i h1 h2; exact ⟨.nil, by simp [KalmanPredictor.connectorGo]⟩
  | succ k ih =>
    intro i h1 h2
    obtain ⟨i1, i2⟩ := ih (i + 1) (by omega) (by push_cast at h2; omega)
    refine ⟨List.pairwise_cons.2 ⟨fun q hq => ?_, i1⟩, ?_⟩
    · obtain ⟨j, j1, j2, e⟩ := i2 q hq
      rw [e]
      obtain ⟨f1, f2, f3⟩ := frac_spec (i := i) (n := n) h1 (by omega) hn
      obtain ⟨g1, g2, g3⟩ := frac_spec (i := j) (n := n) (by omega) j2 hn
      have hfg := frac_mono h1 (by omega : i ≤ j) j2 hn
      obtain ⟨a1, a2, a3⟩ := clock_mul hd h0 (finite_widen f1) (by rw [num_widen f1]; exact f2) (by rw [num_widen f1]; exact f3)
      obtain ⟨b1, b2, b3⟩ := clock_mul hd h0 (finite_widen g1) (by rw [num_widen g1]; exact g2) (by rw [num_widen g1]; exact g3)
      refine add_order ht a1 b1 a2 ?_
      change num (d * widen ((ofInt i : Fl f32) / ofInt n)) ≤ _
      rcases hd with hd | rfl
      · rw [(a3 hd).2, (b3 hd).2, num_widen f1, num_widen g1]
        exact rd_mono (mul_le_mul_of_nonneg_left hfg h0)
      · rw [inf_mul (finite_widen f1) (by rw [num_widen f1]; exact f2), inf_mul (finite_widen g1) (by rw [num_widen g1]; exact g2)]
    · intro q hq
      rcases List.mem_cons.1 hq with rfl | hq
      · exact ⟨i, le_refl _, by push_cast at h2; omega, rfl⟩
      · obtain ⟨j, j1, j2, e⟩ := i2 q hq
        exact ⟨j, by omega, j2, e⟩

/-- The times of the extrapolation. -/
theorem cubic_tips {dt : Fl f64} (hdt : Clock dt) (h0 : 0 ≤ num dt) (k : ℕ) : ∀ (s : KalmanState (Fl f32)) (t : Fl f64), Clock t →
    Onward (KalmanPredictor.cubicPrediction dt k s t) ∧
    ∀ q ∈ KalmanPredictor.cubicPrediction dt k s t, Clock q.time ∧ num t ≤ num q.time := by
  induction k with
  | zero => intro s t ht; exact ⟨.nil, by simp [KalmanPredictor.cubicPrediction]⟩
  | succ k ih =>
    intro s t ht
    obtain ⟨c1, c2⟩ := clock_add ht hdt h0
    obtain ⟨i1, i2⟩ := ih (evaluateCubic s dt) (t + dt) c1
    refine ⟨List.pairwise_cons.2 ⟨fun q hq => (i2 q hq).2, i1⟩, ?_⟩
    intro q hq
    rcases List.mem_cons.1 hq with rfl | hq
    · exact ⟨c1, c2⟩
    · exact ⟨(i2 q hq).1, c2.trans (i2 q hq).2⟩

/-- The times of a prediction. -/
theorem prediction_tips {pr : Predictor (Fl f32) (Fl f64)} {last : TipState (Fl f32) (Fl f64)} {tips : List (TipState (Fl f32) (Fl f64))}
    (h : pr.constructPrediction last = .ok tips) (hl : Clock last.time) (hdt : Clock (1 / pr.sampling.minOutputRate))
    (h0 : 0 ≤ num (1 / pr.sampling.minOutputRate)) :
    Onward tips ∧ ∀ q ∈ tips, Clock q.time ∧ num last.time ≤ num q.time := by
  cases pr with
  | strokeEnd e =>
    simp only [Predictor.constructPrediction, Outcome.ok.injEq] at h
    subst h
    unfold StrokeEndPredictor.constructPrediction
    split
    · exact ⟨.nil, by simp⟩
    · obtain ⟨b1, b2, -, -⟩ := end_tips e.position ‹_› e.sampling.endOfStrokeStoppingDistance e.sampling.endOfStrokeMaxIterations.toNat
        hl hdt h0
      exact ⟨b1, fun q hq => ⟨(b2 q hq).1, (b2 q hq).2.1⟩⟩
  | kalman e =>
    simp only [Predictor.constructPrediction] at h
    unfold KalmanPredictor.constructPrediction at h
    split at h
    · rename_i est x hest hx
      simp only at h
      obtain ⟨conn, hc, h⟩ := Outcome.bind_eq_ok.1 h
      obtain ⟨k, hk, h⟩ := Outcome.bind_eq_ok.1 h
      simp only [Outcome.pure_eq, Outcome.ok.injEq] at h
      unfold KalmanPredictor.cubicConnector at hc
      obtain ⟨n, hn, hc⟩ := Outcome.bind_eq_ok.1 hc
      simp only [Outcome.pure_eq, Outcome.ok.injEq] at hc
      have h1 : 1 ≤ n := RoundsUp.one_le hn
      have h2 : n ≤ 2147483647 := toInt_le hn
      obtain ⟨d1, d2⟩ := clock_times h1 h2 hdt h0
      obtain ⟨c1, c2⟩ := connector_tips (KalmanPredictor.connectorCubic last est (narrow (ofInt n * (1 / e.sampling.minOutputRate))))
        (narrow (ofInt n * (1 / e.sampling.minOutputRate))) hl d1 d2 h2 n.toNat 1 le_rfl (by omega)
      change KalmanPredictor.connectorGo _ _ _ _ _ _ _ = _ at hc
      have hc' : Onward conn ∧ ∀ q ∈ conn, Clock q.time ∧ num last.time ≤ num q.time := by
        rw [← hc]
        refine ⟨c1, fun q hq => ?_⟩
        obtain ⟨j, j1, j2, ej⟩ := c2 q hq
        obtain ⟨f1, f2, f3⟩ := frac_spec j1 j2 h2
        obtain ⟨a1, a2, -⟩ := clock_mul d1 d2 (finite_widen f1) (by rw [num_widen f1]; exact f2) (by rw [num_widen f1]; exact f3)
        rw [ej]
        exact clock_add hl a1 a2
      have hstart : ∀ s, conn.getLast? = some s → ∀ q ∈ conn, num q.time ≤ num s.time := by
        intro s hs q hq
        obtain ⟨pre, rfl⟩ := List.getLast?_eq_some_iff.1 hs
        rcases List.mem_append.1 hq with hq | hq
        · exact (List.pairwise_append.1 hc'.1).2.2 q hq s (by simp)
        · rw [List.mem_singleton.1 hq]
      cases hs : conn.getLast? with
      | none =>
        rw [List.getLast?_eq_none_iff] at hs
        subst hs
        subst h
        exact cubic_tips hdt h0 k.toNat est _ hl
      | some s =>
        rw [hs] at h
        subst h
        have hsm := hc'.2 s (List.mem_of_getLast? hs)
        obtain ⟨g1, g2⟩ := cubic_tips hdt h0 k.toNat est s.time hsm.1
        refine ⟨List.pairwise_append.2 ⟨hc'.1, g1, fun a ha b hb => (hstart s hs a ha).trans (g2 b hb).2⟩, ?_⟩
        intro q hq
        rcases List.mem_append.1 hq with hq | hq
        · exact hc'.2 q hq
        · exact ⟨(g2 q hq).1, hsm.2.trans (g2 q hq).2⟩
    · simp only [Outcome.ok.injEq] at h
      subst h
      exact ⟨.nil, by simp⟩

end Fl

section Theorems
variable [Libm] {ops : List (Op (Fl f32) (Fl f64))} {rs : List (Response (Fl f32) (Fl f64))} {m m' : StrokeModeler (Fl f32) (Fl f64)}

/-- C79: on floats, the times of a prediction never go backwards, for any predictor, parameters and inputs. If the differences of the times
of consecutive inputs are exact, no prediction is before a result of the stroke. -/
theorem C79_upcoming_float (h : Session ops rs m) (hr : Regular ops rs) {v : List (Result (Fl f32) (Fl f64))}
    {r : Response (Fl f32) (Fl f64)} (hst : step m (.predict v) = .ok (m', r)) :
    ((r.results.map (·.time)).Pairwise fun a b => (b <ᵇ a) = false) ∧
    (((acceptedOf (strokeOf ops rs)).IsChain fun a b => ExactDifference a.time b.time) →
      (((resultsOf (strokeOf ops rs) ++ r.results).map (·.time)).Pairwise fun a b => (b <ᵇ a) = false)) := by
  simp only [step] at hst
  obtain ⟨⟨m₁, s, v'⟩, hu, hst⟩ := Outcome.bind_eq_ok.1 hst
  simp only [Outcome.pure_eq, Outcome.ok.injEq, Prod.mk.injEq] at hst
  obtain ⟨rfl, rfl⟩ := hst
  have none_case : v' = [] → ((v'.map (·.time)).Pairwise fun a b => (b <ᵇ a) = false) ∧
      (((acceptedOf (strokeOf ops rs)).IsChain fun a b => ExactDifference a.time b.time) →
        (((resultsOf (strokeOf ops rs) ++ v').map (·.time)).Pairwise fun a b => (b <ᵇ a) = false)) := by
    rintro rfl
    exact ⟨.nil, fun hx => by rw [List.append_nil]; exact C17_times_monotone_float_partial h hr hx⟩
  rcases predict_ok hu with ⟨_, _, _, hv, _⟩ | ⟨_, _, last, _, _, _, _, _, hl, _⟩
  · exact none_case hv
  · obtain ⟨p, m₀, -, hc, hsl⟩ := h.course hr (h.in_progress hr (by simp [hl]))
    obtain ⟨_, hu, -⟩ := hsl.predict_ok hu
    rcases predict_ok hu with ⟨_, _, _, hv, _⟩ | ⟨_, pr, last, tips, _, out, _, hpr, hl, ht, hms, _, _, rfl⟩
    · exact none_case hv
    have hsam := hc.sampling pr hpr
    obtain ⟨p1, p2⟩ := Fl.period_clock hc.valid
    obtain ⟨t1, t2⟩ := Fl.prediction_tips ht (Fl.Course.clocks hc).state (by rw [hsam]; exact p1) (by rw [hsam]; exact p2)
    obtain ⟨o1, o2⟩ := Fl.onward_results (Fl.answer_times hc hc hms) t1 fun q hq => (t2 q hq).1
    refine ⟨?_, fun hx => ?_⟩
    · rw [List.pairwise_map]
      exact o1.imp fun h => Fl.notAfter_iff.1 h
    · obtain ⟨i1, i2, -⟩ := Fl.Course.onTime hc (hx.imp fun a b h => h.step)
      rw [List.pairwise_map]
      refine (List.pairwise_append.2 ⟨i1, o1, fun a ha b hb => ?_⟩).imp fun h => Fl.notAfter_iff.1 h
      obtain ⟨q, hq, hqb⟩ := o2 b hb
      rcases i2 (by simp [hl]) a ha with ha | ha
      · exact .inl ha
      · exact .inr (hqb.imp_right fun e => by rw [e]; exact ha.trans (t2 q hq).2)

end Theorems

section Examples
open Ex

theorem Ex.exact_of {is : List (Input F32 F64)} (h : (decide (is.IsChain fun a b => Fl.key (b.time - a.time) = Fl.key b.time - Fl.key a.time) &&
    is.all fun i => Scalar.isFinite i.time) = true) (hd : (decide (is.IsChain fun a b => Scalar.isFinite (b.time - a.time) = true)) = true) :
    is.IsChain fun a b => ExactDifference a.time b.time := by
  rw [Bool.and_eq_true, decide_eq_true_eq, List.all_eq_true] at h
  rw [decide_eq_true_eq] at hd
  obtain ⟨h1, h2⟩ := h
  induction is with
  | nil => exact .nil
  | cons a is ih =>
    cases is with
    | nil => exact .singleton _
    | cons b is =>
      rw [List.isChain_cons_cons] at h1 hd ⊢
      refine ⟨?_, ih hd.2 h1.2 fun i hi => h2 i (List.mem_cons_of_mem _ hi)⟩
      have fa := Fl.finite_of_isFinite (h2 a (by simp))
      have fb := Fl.finite_of_isFinite (h2 b (by simp))
      have fd := Fl.finite_of_isFinite hd.1
      refine ⟨Fl.num a.time, Fl.num b.time, Fl.val_num fa, Fl.val_num fb, ?_⟩
      rw [Fl.val_num fd]
      have : Fl.num (b.time - a.time) = Fl.num b.time - Fl.num a.time := by
        unfold Fl.num
        rw [h1.1]
        push_cast
        ring
      rw [this]

/-- A Down and a Move. -/
def Ex.begun : List (Op F32 F64) := [.resetParams params, .update (inp .down 0 0 1) [], .update (inp .move 1 0 (d 101 100)) []]

/-- C79 applies to a stroke in which the stroke-end predictor predicts. -/
example [Libm] : ∃ (rs : List (Response F32 F64)) (m : StrokeModeler F32 F64), Session begun rs m ∧ Regular begun rs ∧
    ((acceptedOf (strokeOf begun rs)).IsChain fun a b => ExactDifference a.time b.time) ∧
    2 ≤ (resultsOf (strokeOf begun rs)).length ∧
    ∃ m' r, step m (.predict []) = .ok (m', r) ∧ 5 ≤ r.results.length := by
  obtain ⟨rs, m, h, hP⟩ := exists_session (ops := begun) (P := fun rs m => noStale begun rs &&
    (decide ((acceptedOf (strokeOf begun rs)).IsChain fun a b => Fl.key (b.time - a.time) = Fl.key b.time - Fl.key a.time) &&
      (acceptedOf (strokeOf begun rs)).all fun i => Scalar.isFinite i.time) &&
    decide ((acceptedOf (strokeOf begun rs)).IsChain fun a b => Scalar.isFinite (b.time - a.time) = true) &&
    decide (2 ≤ (resultsOf (strokeOf begun rs)).length) &&
    match step m (.predict []) with
    | .ok (_, r) => decide (5 ≤ r.results.length)
    | _ => false) (by kernel_rfl)
  simp only [Bool.and_eq_true (a := _ && _), Bool.and_eq_true (a := noStale _ _)] at hP
  obtain ⟨⟨⟨⟨h1, h2⟩, h3⟩, h4⟩, h5⟩ := hP
  refine ⟨rs, m, h, ⟨noStale_iff h1, ?_⟩, exact_of h2 h3, of_decide_eq_true h4, ?_⟩
  · intro a p b h hd
    have hm : Op.resetParams p ∈ begun := by simp [h]
    simp [begun] at hm
    simp [hm, params] at hd
  · split at h5
    · rename_i m' r hs
      exact ⟨m', r, hs, of_decide_eq_true h5⟩
    · cases h5

/-- C79 applies to the stroke of C77, in which the Kalman predictor predicts. -/
example [Libm] [LibmFair] : ∃ (rs : List (Response F32 F64)) (m : StrokeModeler F32 F64), Session foreOps rs m ∧ Regular foreOps rs ∧
    ((acceptedOf (strokeOf foreOps rs)).IsChain fun a b => ExactDifference a.time b.time) ∧
    ∃ m' r, step m (.predict []) = .ok (m', r) := by
  obtain ⟨rs, m, h, hP⟩ := exists_session (ops := foreOps) (P := fun rs _ => noStale foreOps rs &&
    (decide ((acceptedOf (strokeOf foreOps rs)).IsChain fun a b => Fl.key (b.time - a.time) = Fl.key b.time - Fl.key a.time) &&
      (acceptedOf (strokeOf foreOps rs)).all fun i => Scalar.isFinite i.time) &&
    decide ((acceptedOf (strokeOf foreOps rs)).IsChain fun a b => Scalar.isFinite (b.time - a.time) = true) &&
    fullCheck (strokeOf foreOps rs) &&
    decide ((known foreOps rs).params = some foreParams ∧ (known foreOps rs).prev ≠ none)) (by kernel_rfl)
  simp only [Bool.and_eq_true (a := _ && _), Bool.and_eq_true (a := noStale _ _)] at hP
  obtain ⟨⟨⟨⟨h1, h2⟩, h3⟩, h4⟩, h5⟩ := hP
  rw [decide_eq_true_eq] at h5
  have hreg : Regular foreOps rs := by
    refine ⟨noStale_iff h1, ?_⟩
    intro a p b h hd
    have hm : Op.resetParams p ∈ foreOps := by simp [h]
    simp [foreOps] at hm
    simp [hm, foreParams] at hd
  obtain ⟨m', r, hs, -⟩ := C77_foretold_float h hreg h5.1 rfl (by decide +kernel) (by decide +kernel) h5.2 (fore_plain h4) fore_limits.1 fore_limits.2
    fore_oriented (by simp [foreOps]) []
  exact ⟨rs, m, h, hreg, exact_of h2 h3, m', r, hs⟩

end Examples

end Ink
