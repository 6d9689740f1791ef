import Verif.Lemmas.Cap
import Verif.Props.Foretell
/-!
# Kalman predictions on floats are finite: C78
-/
namespace Ink
noncomputable section
open Scalar Arith Fl

section Lemmas
variable [Libm] {R g G : ℝ} {p : StrokeModelParams (Fl f32) (Fl f64)} {es : List (Event (Fl f32) (Fl f64))} {m : StrokeModeler (Fl f32) (Fl f64)}
  {k : KalmanParams (Fl f32) (Fl f64)} {q : KalmanPredictor (Fl f32) (Fl f64)} {cs : List (Vec2 (Fl f32) × Fl f64)}

omit [Libm] in
theorem kalman_weights (h : validateKalmanParams k = .ok) : Finite k.accelerationWeight ∧ Finite k.jerkWeight := by
  unfold validateKalmanParams at h
  obtain ⟨-, h⟩ := andThen_ok h
  obtain ⟨-, h⟩ := andThen_ok h
  obtain ⟨-, h⟩ := andThen_ok h
  obtain ⟨-, h⟩ := andThen_ok h
  obtain ⟨-, h⟩ := andThen_ok h
  obtain ⟨h1, h⟩ := andThen_ok h
  obtain ⟨h2, h⟩ := andThen_ok h
  exact ⟨finite_of_isFinite (validateIsFiniteNumber_ok h1), finite_of_isFinite (validateIsFiniteNumber_ok h2)⟩

/-- The average time between the inputs. -/
theorem Standing.average [LibmFair] (h : Standing p k R g es m q cs) (hc : Plain p R g G es) (hg : 1 / 2 ^ 10 ≤ g)
    (hapart : (acceptedOf es).IsChain fun a b => g ≤ num b.time - num a.time) (hmax : 2 ≤ k.maxTimeSamples) (hcs : 2 ≤ cs.length)
    {a b : Fl f64} (ha : q.sampleTimes.head? = Option.some a) (hb : q.sampleTimes.getLast? = Option.some b) :
    Big 12 (KalmanPredictor.averageDt a b q.sampleTimes.length : Fl f32) ∧ Cap (2 ^ 20) (KalmanPredictor.averageDt a b q.sampleTimes.length : Fl f32) := by
  obtain ⟨m₀, -, hcourse, -, -⟩ := h.course
  have hfin : ∀ t ∈ (acceptedOf es).map (·.time), Cap (2 ^ 19) t := by
    intro t ht
    obtain ⟨i, hi, rfl⟩ := List.mem_map.1 ht
    simp only [acceptedOf, List.mem_map, List.mem_filter] at hi
    obtain ⟨e, ⟨he, -⟩, rfl⟩ := hi
    exact ⟨finite_of_isFinite (hcourse.finite e he).time, hc.early e he⟩
  have hts := h.holds.times
  rw [h.times] at hts
  have hlen : (acceptedOf es).length = cs.length := by
    have := congrArg List.length h.times
    simpa using this.symm
  have hl : q.sampleTimes.length = min k.maxTimeSamples.toNat cs.length := by
    rw [hts, lastN, List.length_drop, List.length_map, hlen]
    omega
  have hchain : q.sampleTimes.IsChain fun x y => g ≤ num y - num x := by
    rw [hts, lastN]
    exact ((List.isChain_map _).2 hapart).drop _
  have hmem : ∀ t ∈ q.sampleTimes, Cap (2 ^ 19) t := by
    rw [hts, lastN]
    exact fun t ht => hfin t (List.mem_of_mem_drop ht)
  have hfew := h.few
  have hsp := span hchain ha hb
  have hn : 2 ≤ q.sampleTimes.length := by rw [hl]; omega
  refine average_size (hmem _ (List.mem_of_mem_head? ha)) (hmem _ (List.mem_of_getLast? hb)) hn (by rw [hl]; omega) (le_trans ?_ hsp)
  have : (2 : ℝ) ≤ q.sampleTimes.length := by exact_mod_cast hn
  exact mul_le_mul_of_nonneg_left hg (by linarith)

/-- The estimate. -/
theorem Standing.flight [LibmFair] (h : Standing p k R g es m q cs) (hc : Plain p R g G es)
    (hR : reach (num p.position.springMassConstant) (num p.position.dragConstant) R ≤ 2 ^ 20)
    (ha : Cap (2 ^ 3) k.accelerationWeight) (hj : Cap (2 ^ 3) k.jerkWeight) {dt : Fl f32} (hdt : Big 12 dt) (hdt' : Cap (2 ^ 20) dt) :
    Flight 0 (q.estimate dt) ∧ CapV (2 ^ 23) (q.estimate dt).position ∧ CapV (2 ^ 34) (q.estimate dt).velocity := by
  have e1 := (reach_size hc.suits hc.region).1
  have hR0 : 0 < R := lt_of_lt_of_le (by positivity) hc.region
  have cap : ∀ {x : Fl f64} {b : ℝ} {n : ℕ}, Finite x → |num x| ≤ b * (2 * R) → n ≤ 126 → b * (2 * R) ≤ 2 ^ n → Cap (2 ^ n) (narrow x : Fl f32) :=
    fun hx hb hn hle => Cap.narrow ⟨hx, hb.trans hle⟩ hn
  have hp : CapV (2 ^ 23) (q.estimate dt).position := by
    refine (capV_of (h.estimate hc dt).1).mono ?_
    norm_num at hR ⊢
    linarith
  have hv : CapV (2 ^ 34) (q.estimate dt).velocity :=
    CapV.div (k := 22) (l := 12) ⟨cap h.x.f1 h.x.e1 (by omega) (by norm_num at hR ⊢; linarith), cap h.y.f1 h.y.e1 (by omega) (by norm_num at hR ⊢; linarith)⟩ hdt
      (by omega) (by omega)
  have d2 := hdt.mul hdt hdt' hdt' (m := 24) (by omega) (by omega) (by omega)
  have d2' := hdt'.mul hdt' (m := 40) (by omega) (by omega)
  have d3 := d2.mul hdt d2' hdt' (m := 36) (by omega) (by omega) (by omega)
  have hacc : CapV (2 ^ 49) (q.estimate dt).acceleration := by
    change CapV (2 ^ 49) (q.params.accelerationWeight •ᵥ _)
    rw [h.holds.params]
    exact CapV.smul ha (CapV.div (k := 22) (l := 24) (m := 46) ⟨cap h.x.f2 h.x.e2 (by omega) (by norm_num at hR ⊢; linarith),
      cap h.y.f2 h.y.e2 (by omega) (by norm_num at hR ⊢; linarith)⟩ d2 (by omega) (by omega)) (by omega) (by omega)
  have hjerk : CapV (2 ^ 60) (q.estimate dt).jerk := by
    change CapV (2 ^ 60) (q.params.jerkWeight •ᵥ _)
    rw [h.holds.params]
    exact CapV.smul hj (CapV.div (k := 21) (l := 36) (m := 57) ⟨cap h.x.f3 h.x.e3 (by omega) (by norm_num at hR ⊢; linarith),
      cap h.y.f3 h.y.e3 (by omega) (by norm_num at hR ⊢; linarith)⟩ d3 (by omega) (by omega)) (by omega) (by omega)
  exact ⟨⟨hp.mono (by norm_num), hv.mono (by norm_num), hacc.mono (by norm_num), hjerk⟩, hp, hv⟩

/-- The predicted tips. -/
theorem Standing.sane [LibmFair] (h : Standing p k R g es m q cs) (hk : p.prediction = .kalman k) (hc : Plain p R g G es)
    (hR : reach (num p.position.springMassConstant) (num p.position.dragConstant) R ≤ 2 ^ 20) (hg : 1 / 2 ^ 10 ≤ g)
    (hrate : num p.sampling.minOutputRate ≤ 2 ^ 10)
    (hcatch : 26 * reach (num p.position.springMassConstant) (num p.position.dragConstant) R / num k.minCatchupVelocity *
      num p.sampling.minOutputRate ≤ 2 ^ 27)
    (hint : num k.predictionInterval * num p.sampling.minOutputRate ≤ 2 ^ 8)
    (ha : |num k.accelerationWeight| ≤ 2 ^ 3) (hj : |num k.jerkWeight| ≤ 2 ^ 3) (hmax : 2 ≤ k.maxTimeSamples) (hmin : 2 ≤ k.minStableIteration)
    (hapart : (acceptedOf es).IsChain fun a b => g ≤ num b.time - num a.time) {tips : List (TipState (Fl f32) (Fl f64))}
    (ht : q.constructPrediction m.position.state = .ok tips) : (∀ u ∈ tips, Sane u) ∧ tips.length ≤ 2 ^ 30 := by
  have hvk : validateKalmanParams k = .ok := by have := (validParts h.valid).2.2.2.2.2; rwa [hk] at this
  obtain ⟨⟨c1, c0⟩, ⟨i1, i0⟩, hdes, hlin, hmax'⟩ := kalman_valid hvk
  obtain ⟨w1, w2⟩ := kalman_weights hvk
  obtain ⟨⟨s1, -⟩, -⟩ := validSamplingParts (validParts h.valid).2.2.2.1
  have hrf := finite_of_isFinite s1
  rcases lt_or_ge (cs.length : ℤ) k.minStableIteration with hs | hs
  · obtain rfl : tips = [] := by
      simpa [KalmanPredictor.constructPrediction, (h.holds.estimated hmax' h.some).1 hs] using ht.symm
    simp
  obtain ⟨est, x, he, hx⟩ := (h.holds.estimated hmax' h.some).2 hs
  have hest : ∃ dt, Big 12 dt ∧ Cap (2 ^ 20) dt ∧ est = q.estimate dt := by
    unfold KalmanPredictor.getEstimatedState at he
    split at he
    · cases he
    · split at he
      · rename_i a b h1 h2
        obtain ⟨d1, d2⟩ := h.average hc hg hapart hmax (by omega) h1 h2
        exact ⟨_, d1, d2, (Option.some.inj he).symm⟩
      · cases he
  obtain ⟨dt, hd1, hd2, rfl⟩ := hest
  obtain ⟨hfl, hep, hev⟩ := h.flight hc hR ⟨w1, ha⟩ ⟨w2, hj⟩ hd1 hd2
  obtain ⟨-, d1, d2, d3⟩ := h.estimate hc dt
  obtain ⟨e1, -, e5, e4, -⟩ := reach_size hc.suits hc.region
  have hR0 : 0 < R := lt_of_lt_of_le (by positivity) hc.region
  have hvel : 22 / 5 * ((Real.sqrt (num p.position.springMassConstant))⁻¹ *
      reach (num p.position.springMassConstant) (num p.position.dragConstant) R) ≤ 2 ^ 31 := by
    calc _ ≤ 22 / 5 * ((2 : ℝ) ^ 8 * 2 ^ 20) := mul_le_mul_of_nonneg_left (mul_le_mul e4 hR (by linarith) (by positivity)) (by norm_num)
      _ ≤ 2 ^ 31 := by norm_num
  have hmag : Fl.isNaN m.position.state.velocity.magnitude = false := by
    have hv := h.velocity
    exact (hypot_reach hv.finx hv.finy (hvel.trans (by norm_num)) hv.x hv.y).1.1
  obtain ⟨n, hn, n0, n1⟩ := connector_count (k := k) d1 d2 d3 hmag c1 c0 hrf hc.rate hcatch
  have hqp := h.holds.params
  have hqs := h.holds.sampling
  have hiter := h.holds.iterX
  have hfew := h.few
  obtain ⟨n', hn', n0', n1'⟩ := beyond_count (est := q.estimate dt) hx (by rw [hqp]; exact i1) (by rw [hqp]; exact i0) (by rw [hqs]; exact hrf)
    (by rw [hqs]; exact hc.rate) (by rw [hqp, hqs]; exact hint.trans (by norm_num)) ⟨by omega, by omega⟩ (by rw [hqp]; exact hdes) (by rw [hqp]; exact hlin)
  rw [hqp, hqs] at n1'
  have hn2 : n ≤ 2 ^ 29 := by
    have : (n : ℝ) ≤ ((2 ^ 29 : ℤ) : ℝ) := by push_cast; norm_num at hcatch ⊢; linarith
    exact_mod_cast this
  have hn2' : n' ≤ 2 ^ 10 := by
    have : (n' : ℝ) ≤ ((2 ^ 10 : ℤ) : ℝ) := by push_cast; norm_num at hint ⊢; linarith
    exact_mod_cast this
  simp only [KalmanPredictor.constructPrediction, he, hx, KalmanPredictor.cubicConnector, hqp, hqs, hn, hn', Outcome.ok_bind, Outcome.pure_eq,
    Outcome.ok.injEq] at ht
  subst ht
  have hclock : Cap (2 ^ 19) m.position.state.time := ⟨h.clock.1, h.clock.2⟩
  have hgo : ∀ u ∈ KalmanPredictor.connectorGo (KalmanPredictor.connectorCubic m.position.state (q.estimate dt)
      (narrow (Scalar.ofInt n * (1 / p.sampling.minOutputRate) : Fl f64))) m.position.state.time (Scalar.ofInt n * (1 / p.sampling.minOutputRate))
      (narrow (Scalar.ofInt n * (1 / p.sampling.minOutputRate) : Fl f64)) n n.toNat 1, Sane u ∧ Cap (2 ^ 32) u.time := by
    rcases eq_or_ne n 0 with rfl | hnz
    · simp [KalmanPredictor.connectorGo]
    · obtain ⟨f1, f2, f3⟩ := duration_size hrf ⟨hc.rate.1, hrate⟩ (n := n) (by omega) hn2
      refine Ends.go ⟨?_, ?_, hep, hev, f2, f3⟩ hclock f1 (by omega) le_rfl (by omega)
      · refine (capV_of h.position).mono ?_
        norm_num at hR ⊢
        linarith
      · exact (capV_of h.velocity).mono hvel
  refine ⟨?_, ?_⟩
  · intro u hu
    rcases List.mem_append.1 hu with hu | hu
    · exact (hgo u hu).1
    · obtain ⟨t1, t2, t3⟩ := sample_dt hrf hc.rate
      have t0 : 0 ≤ num (1 / p.sampling.minOutputRate) := le_trans (div_nonneg (by norm_num) (by linarith [hc.rate.1])) t2
      have t3' : num (1 / p.sampling.minOutputRate) ≤ 2 := t3.trans (by rw [div_le_iff₀ (by linarith [hc.rate.1])]; linarith [hc.rate.1])
      have hdt : Cap (2 ^ 1) (1 / p.sampling.minOutputRate : Fl f64) := ⟨t1, by rw [abs_of_nonneg t0]; linarith⟩
      refine sane_cubic hfl (n := n'.toNat) (by omega) (hdt.narrow (by omega)) (hdt.mono (by norm_num)) ?_ u hu
      split
      · rename_i s hs
        exact (hgo s (List.mem_of_getLast? hs)).2.mono (by norm_num)
      · exact hclock.mono (by norm_num)
  · rw [List.length_append, connectorGo_length, cubicPrediction_length]
    omega

end Lemmas

section Theorems
variable [Libm] [LibmFair] {ops : List (Op (Fl f32) (Fl f64))} {rs : List (Response (Fl f32) (Fl f64))} {m : StrokeModeler (Fl f32) (Fl f64)}

/-- C78: on floats, with the Kalman predictor and the noises of its test, all that Predict returns is finite during a stroke with usual
parameters and inputs whose accepted inputs are apart in time, if the predictor waits for at least two inputs and keeps at least two times. -/
theorem C78_farsight_float (h : Session ops rs m) (hr : Regular ops rs) {p : StrokeModelParams (Fl f32) (Fl f64)}
    (hp : (known ops rs).params = some p) {k : KalmanParams (Fl f32) (Fl f64)} (hk : p.prediction = .kalman k)
    (hpn : k.processNoise = Scalar.ofRatio 26458 100000000) (hmn : k.measurementNoise = Scalar.ofRatio 26458 1000000)
    (hi : (known ops rs).prev ≠ none) {R g G : ℝ} (hc : Plain p R g G (strokeOf ops rs))
    (hR : reach (num p.position.springMassConstant) (num p.position.dragConstant) R ≤ 2 ^ 20) (hg : 1 / 2 ^ 10 ≤ g)
    (hrate : num p.sampling.minOutputRate ≤ 2 ^ 10)
    (hcatch : 26 * reach (num p.position.springMassConstant) (num p.position.dragConstant) R / num k.minCatchupVelocity *
      num p.sampling.minOutputRate ≤ 2 ^ 27)
    (hint : num k.predictionInterval * num p.sampling.minOutputRate ≤ 2 ^ 8)
    (ha : |num k.accelerationWeight| ≤ 2 ^ 3) (hj : |num k.jerkWeight| ≤ 2 ^ 3) (hmax : 2 ≤ k.maxTimeSamples) (hmin : 2 ≤ k.minStableIteration)
    (hapart : (acceptedOf (strokeOf ops rs)).IsChain fun a b => g ≤ num b.time - num a.time)
    {v : List (Result (Fl f32) (Fl f64))} {m' : StrokeModeler (Fl f32) (Fl f64)} {r : Response (Fl f32) (Fl f64)}
    (hs : step m (.predict v) = .ok (m', r)) :
    ∀ o ∈ r.results, InReach (2 ^ 99) o.position ∧ InReach (2 ^ 99) o.velocity ∧ InReach (2 ^ 99) o.acceleration ∧ Finite o.time := by
  obtain ⟨q, cs, hst⟩ := h.standing hr hp hk hpn hmn hi hc
  simp only [step] at hs
  obtain ⟨⟨m₁, s, v'⟩, hu, hs⟩ := Outcome.bind_eq_ok.1 hs
  simp only [Outcome.pure_eq, Outcome.ok.injEq, Prod.mk.injEq] at hs
  obtain ⟨rfl, rfl⟩ := hs
  obtain ⟨m₀, n, hcourse, hsame, hn, hsp⟩ := hst.course
  obtain ⟨m₂, hu₀, -⟩ := hsame.predict_ok hu
  rcases predict_ok hu₀ with ⟨_, _, _, rfl, _⟩ | ⟨_, pr, last, tips, loop, out, _, hpr, _, ht, hms, _, _, rfl⟩
  · simp
  rw [← hsame.live.predictor, hst.predictor, Option.some.injEq] at hpr
  subst hpr
  rw [Predictor.constructPrediction, ← hsame.live.position] at ht
  obtain ⟨hsane, hlen⟩ := hst.sane hk hc hR hg hrate hcatch hint ha hj hmax hmin hapart ht
  have hne : strokeOf ops rs ≠ [] := h.in_progress hr hst.live
  obtain ⟨hz, htidy, -⟩ := hc.facts hst.valid hne
  obtain ⟨e1, -⟩ := reach_size hc.suits hc.region
  have hR0 : 0 < R := lt_of_lt_of_le (by positivity) hc.region
  have hg0 : 0 < g := lt_of_lt_of_le (by positivity) hg
  have hR' : R ≤ 2 ^ 20 := by linarith
  have b1 : 6 * R / g ≤ 2 ^ 98 := by
    rw [div_le_iff₀ hg0]
    calc 6 * R ≤ 6 * 2 ^ 20 := by linarith
      _ ≤ 2 ^ 98 * (1 / 2 ^ 10) := by norm_num
      _ ≤ 2 ^ 98 * g := mul_le_mul_of_nonneg_left hg (by positivity)
  have b2 : 12 * R / g ^ 2 ≤ 2 ^ 98 := by
    rw [div_le_iff₀ (by positivity)]
    calc 12 * R ≤ 12 * 2 ^ 20 := by linarith
      _ ≤ 2 ^ 98 * (1 / 2 ^ 10) ^ 2 := by norm_num
      _ ≤ 2 ^ 98 * g ^ 2 := mul_le_mul_of_nonneg_left (pow_le_pow_left₀ (by positivity) hg 2) (by positivity)
  obtain ⟨hd, hf⟩ := answered (B := 2 ^ 98) ⟨b1, by norm_num⟩
    (fun hon => ⟨(hc.loop hon).1, (hc.loop hon).2.1, (hc.loop hon).2.2.1, (hc.loop hon).2.2.2⟩) hcourse hcourse htidy hms
  obtain ⟨hf, -⟩ := hf n hsp (by omega) fun u hu => ⟨(hsane u hu).time, (hsane u hu).velocity.reach⟩
  intro o ho
  obtain ⟨o', ho', hdr⟩ := mem_left hd ho
  obtain ⟨u, hu', rfl⟩ := List.mem_map.1 ho'
  obtain ⟨-, -, p1, p2, p3⟩ := hdr (hf o ho)
  have su := hsane u hu'
  refine ⟨(p1 _ ?_ (by norm_num) su.position.reach).mono (by norm_num), (p2 _ b1 (by norm_num) su.velocity.reach).mono (by norm_num),
    (p3 _ b2 (by norm_num) su.acceleration.reach).mono (by norm_num), hf o ho⟩
  norm_num at hR' ⊢
  linarith

end Theorems

section Examples
open Ex

theorem Ex.times_apart {is : List (Input F32 F64)}
    (h : decide (is.IsChain fun a b => (2 : ℤ) ^ f64.q ≤ 64 * (Fl.key b.time - Fl.key a.time)) = true) :
    is.IsChain fun a b => 1 / 64 ≤ num b.time - num a.time := by
  rw [decide_eq_true_eq] at h
  refine h.imp fun a b hab => ?_
  have hq : (0 : ℝ) < 2 ^ f64.q := by positivity
  have : (2 : ℝ) ^ f64.q ≤ 64 * ((Fl.key b.time : ℤ) - (Fl.key a.time : ℤ)) := by exact_mod_cast hab
  rw [num, num, ← sub_div, div_le_div_iff₀ (by norm_num) hq]
  linarith

/-- C78 applies to the stroke of C77, after which Predict returns. -/
example : ∃ (rs : List (Response F32 F64)) (m : StrokeModeler F32 F64), Session foreOps rs m ∧ Regular foreOps rs ∧
    (known foreOps rs).params = some foreParams ∧ foreParams.prediction = .kalman testKalman ∧
    testKalman.processNoise = Scalar.ofRatio 26458 100000000 ∧ testKalman.measurementNoise = Scalar.ofRatio 26458 1000000 ∧
    (known foreOps rs).prev ≠ none ∧ Plain foreParams 4 (1 / 64) (1 / 32) (strokeOf foreOps rs) ∧
    reach (num foreParams.position.springMassConstant) (num foreParams.position.dragConstant) 4 ≤ 2 ^ 20 ∧ (1 : ℝ) / 2 ^ 10 ≤ 1 / 64 ∧
    num foreParams.sampling.minOutputRate ≤ 2 ^ 10 ∧
    26 * reach (num foreParams.position.springMassConstant) (num foreParams.position.dragConstant) 4 /
      num testKalman.minCatchupVelocity * num foreParams.sampling.minOutputRate ≤ 2 ^ 27 ∧
    num testKalman.predictionInterval * num foreParams.sampling.minOutputRate ≤ 2 ^ 8 ∧
    |num testKalman.accelerationWeight| ≤ 2 ^ 3 ∧ |num testKalman.jerkWeight| ≤ 2 ^ 3 ∧
    2 ≤ testKalman.maxTimeSamples ∧ 2 ≤ testKalman.minStableIteration ∧
    ((acceptedOf (strokeOf foreOps rs)).IsChain fun a b => 1 / 64 ≤ num b.time - num a.time) ∧
    testKalman.minStableIteration ≤ (acceptedOf (strokeOf foreOps rs)).length ∧
    ∃ m' r, step m (.predict []) = .ok (m', r) := by
  obtain ⟨rs, m, h, hP⟩ := exists_session (ops := foreOps) (P := fun rs _ => noStale foreOps rs && fullCheck (strokeOf foreOps rs) &&
    decide ((acceptedOf (strokeOf foreOps rs)).IsChain fun a b => (2 : ℤ) ^ f64.q ≤ 64 * (Fl.key b.time - Fl.key a.time)) &&
    decide ((known foreOps rs).params = some foreParams ∧ (known foreOps rs).prev ≠ none ∧
      2 ≤ (acceptedOf (strokeOf foreOps rs)).length)) (by kernel_rfl)
  simp only [Bool.and_eq_true] at hP
  obtain ⟨⟨⟨h1, h2⟩, h3⟩, h4⟩ := hP
  rw [decide_eq_true_eq] at h4
  obtain ⟨f1, f2, f3⟩ := fore_facts
  have hreg : Regular foreOps rs := by
    refine ⟨noStale_iff h1, ?_⟩
    intro a p b h hd
    have hm : Op.resetParams p ∈ foreOps := by simp [h]
    simp [foreOps] at hm
    simp [hm, foreParams] at hd
  refine ⟨rs, m, h, hreg, h4.1, rfl, by decide +kernel, by decide +kernel, h4.2.1, fore_plain h2, f3.trans (by norm_num), by norm_num,
    by rw [f1]; norm_num, fore_limits.1, by rw [f1]; norm_num; linarith, ?_, ?_, by decide, by decide, times_apart h3,
    by change (2 : ℤ) ≤ _; exact_mod_cast h4.2.2, ?_⟩
  · have h1 : |Fl.key testKalman.accelerationWeight| ≤ (2 : ℤ) ^ 3 * 2 ^ f32.q := by decide +kernel
    have : |((Fl.key testKalman.accelerationWeight : ℤ) : ℝ)| ≤ (2 : ℝ) ^ 3 * 2 ^ f32.q := by exact_mod_cast h1
    rw [num, abs_div, abs_of_pos (by positivity : (0 : ℝ) < 2 ^ f32.q), div_le_iff₀ (by positivity)]
    exact this
  · have h1 : |Fl.key testKalman.jerkWeight| ≤ (2 : ℤ) ^ 3 * 2 ^ f32.q := by decide +kernel
    have : |((Fl.key testKalman.jerkWeight : ℤ) : ℝ)| ≤ (2 : ℝ) ^ 3 * 2 ^ f32.q := by exact_mod_cast h1
    rw [num, abs_div, abs_of_pos (by positivity : (0 : ℝ) < 2 ^ f32.q), div_le_iff₀ (by positivity)]
    exact this
  · obtain ⟨m', r, hs, -⟩ := C77_foretold_float h hreg h4.1 rfl (by decide +kernel) (by decide +kernel) h4.2.1 (fore_plain h2) fore_limits.1 fore_limits.2
      fore_oriented (by simp [foreOps]) []
    exact ⟨m', r, hs⟩

end Examples

end
end Ink
