import Verif.Lemmas.PlanRun
import Verif.Lemmas.Reckon
import Verif.Props.Ahead
import Verif.Props.Kalman
import Verif.Props.Total
/-!
# Kalman predictions on floats, from the inputs alone: C77

That Predict returns, and how much.
-/
namespace Ink
noncomputable section
open Scalar Arith Fl

section Lemmas
variable [Libm] {R g G : ℝ} {p : StrokeModelParams (Fl f32) (Fl f64)} {es : List (Event (Fl f32) (Fl f64))} {m : StrokeModeler (Fl f32) (Fl f64)}

/-- What the predictor of a stroke is given. -/
theorem Course.fed_reach [LibmFair] (h : Course p es m) (ht : Tidy p R g G es) :
    ∃ cs, feed (StrokeModeler.makePredictor p) cs = .ok m.predictor ∧ cs.map (·.2) = (fedInputs es).map (·.time) ∧
      ∀ c ∈ cs, InReach (2 * R) c.1 := by
  induction h with
  | @down i stylus predictor _ he hf hs hp =>
    refine ⟨[(i.position, i.time)], ?_, by simp [fedInputs, acceptedOf, he], ?_⟩
    · simp only [feed, List.foldlM_cons, List.foldlM_nil, hp, Outcome.ok_bind]
      rfl
    · intro c hc
      rw [List.mem_singleton] at hc
      rw [hc]
      exact (ht.inputs _ (List.mem_singleton.2 rfl)).mono (by linarith [ht.sizes.bounds.1])
  | @move es m last i wobble corrected stylus n predictor loop out hm hl he hf hw hs hn hp hq ih =>
    obtain ⟨cs, h1, h2, h3⟩ := ih ht.init
    have hc : i.eventType ≠ .up := by simp [he]
    refine ⟨cs ++ [(corrected, i.time)], feed_snoc h1 hp, ?_, ?_⟩
    · rw [fedInputs_snoc, if_pos ⟨rfl, hc⟩]; simp [h2]
    · intro c hc
      rcases List.mem_append.1 hc with hc | hc
      · exact h3 c hc
      · rw [List.mem_singleton] at hc
        rw [hc]
        exact ((hm.going ht.init).smooth hm hl ht (finite_of_isFinite hf.time) hw).2
  | @late es m last i wobble corrected stylus st' hm hl he hf hw hs hn ih =>
    obtain ⟨cs, h1, h2, h3⟩ := ih ht.init
    exact ⟨cs, h1, by rw [fedInputs_snoc, if_neg (by simp)]; simpa using h2, h3⟩
  | @up es m last i stylus n loop out hm hl he hf hs hn hq ih =>
    obtain ⟨cs, h1, h2, h3⟩ := ih ht.init
    exact ⟨cs, h1, by rw [fedInputs_snoc, if_neg (by simp [he])]; simpa using h2, h3⟩

omit [Libm] in
theorem getLastD_mem {α : Type} (l : List α) (d : α) : l = [] ∨ l.getLastD d ∈ l := by
  cases l with
  | nil => exact .inl rfl
  | cons a l => exact .inr (by rw [List.getLastD_cons]; exact List.getLastD_mem_cons)

/-- The state of the tip during a stroke is that of one of the results. -/
theorem Springs.shown {same : TipState (Fl f32) (Fl f64) → Result (Fl f32) (Fl f64) → Prop} {last : Option (Input (Fl f32) (Fl f64) × Vec2 (Fl f32))}
    {q : TipState (Fl f32) (Fl f64)} (h : Springs same p es last q) (hl : last ≠ none) : ∃ r ∈ resultsOf es, same q r := by
  induction h with
  | @down i q r he hx hv ha ht hr => exact ⟨r, by simp [resultsOf], hr⟩
  | @move es i prev c c' q n tips out h he hc ht hr ih =>
    rw [resultsOf_append]
    rcases getLastD_mem tips q with rfl | hm
    · obtain ⟨r, h1, h2⟩ := ih (by simp)
      exact ⟨r, List.mem_append_left _ h1, h2⟩
    · obtain ⟨r, h1, h2⟩ := mem_left hr hm
      exact ⟨r, List.mem_append_right _ h1, h2⟩
  | @late es i prev c q h he ih =>
    obtain ⟨r, h1, h2⟩ := ih (by simp)
    exact ⟨r, by simp only [resultsOf, List.flatMap_append, List.mem_append] at h1 ⊢; exact .inl h1, h2⟩
  | up => exact absurd rfl hl
  | stop => exact absurd rfl hl

omit [Libm] in
/-- What a validated predictor has. -/
theorem kalman_valid {k : KalmanParams (Fl f32) (Fl f64)} (h : validateKalmanParams k = .ok) :
    (Finite k.minCatchupVelocity ∧ 0 < num k.minCatchupVelocity) ∧ (Finite k.predictionInterval ∧ 0 < num k.predictionInterval) ∧
    1 ≤ k.confidence.desiredNumberOfSamples ∧ Part 1 k.confidence.baselineLinearityConfidence ∧ 0 < k.maxTimeSamples := by
  unfold validateKalmanParams at h
  obtain ⟨-, h⟩ := andThen_ok h
  obtain ⟨-, h⟩ := andThen_ok h
  obtain ⟨-, h⟩ := andThen_ok h
  obtain ⟨h0, h⟩ := andThen_ok h
  obtain ⟨h1, h⟩ := andThen_ok h
  obtain ⟨-, h⟩ := andThen_ok h
  obtain ⟨-, h⟩ := andThen_ok h
  obtain ⟨h2, h⟩ := andThen_ok h
  obtain ⟨h3, h⟩ := andThen_ok h
  obtain ⟨-, h⟩ := andThen_ok h
  obtain ⟨-, h⟩ := andThen_ok h
  obtain ⟨-, h⟩ := andThen_ok h
  split at h
  · simp at h
  obtain ⟨-, h⟩ := andThen_ok h
  split at h
  · simp at h
  rename_i h5
  obtain ⟨c1, c2⟩ := key_pos_of (validateGreaterThanZero_ok h1)
  obtain ⟨i1, i2⟩ := key_pos_of (validateGreaterThanZero_ok h2)
  have kp : ∀ {f : Fmt} {x : Fl f}, 0 < Fl.key x → 0 < num x := fun {f x} h => by
    rw [← num_zero (f := f), num_lt, show Fl.key (0 : Fl f) = 0 from ?_]
    · exact h
    · have := num_zero (f := f)
      unfold num at this
      rw [div_eq_zero_iff] at this
      exact_mod_cast this.resolve_right (by positivity)
  refine ⟨⟨c1, kp c2⟩, ⟨i1, kp i2⟩, validateGreaterThanZeroInt_ok h3, fun hn => ?_, validateGreaterThanZeroInt_ok h0⟩
  simp only [Bool.or_eq_true, not_or, Bool.not_eq_true] at h5
  have one : Finite (1 : Fl f32) := finite_lit one_lt_two_pow
  rw [lt_num hn finite_zero.1, decide_eq_false_iff_not, not_lt, num_zero, lt_num one.1 hn, decide_eq_false_iff_not, not_lt, num_one] at h5
  exact ⟨finite_of_num_le (j := 0) hn (by decide) (by rw [abs_le]; constructor <;> norm_num <;> linarith [h5.1, h5.2]), h5.1, h5.2⟩

/-- The Kalman predictor and the tip during a stroke with usual parameters and inputs. -/
structure Standing (p : StrokeModelParams (Fl f32) (Fl f64)) (k : KalmanParams (Fl f32) (Fl f64)) (R g : ℝ) (es : List (Event (Fl f32) (Fl f64)))
    (m : StrokeModeler (Fl f32) (Fl f64)) (q : KalmanPredictor (Fl f32) (Fl f64)) (cs : List (Vec2 (Fl f32) × Fl f64)) : Prop where
  valid : validateStrokeModelParams p = .ok
  params : m.params = some p
  live : m.lastInput ≠ none
  predictor : m.predictor = some (.kalman q)
  holds : KalmanOf k p.sampling cs q
  some : cs ≠ []
  few : cs.length ≤ 2 ^ 18
  times : cs.map (·.2) = (acceptedOf es).map (·.time)
  near : ∀ c ∈ cs, InReach (2 * R) c.1
  x : Plan.Bounded (2 * R) 3 4 6 3 q.xPredictor.stateEstimation
  y : Plan.Bounded (2 * R) 3 4 6 3 q.yPredictor.stateEstimation
  position : InReach (4 * reach (num p.position.springMassConstant) (num p.position.dragConstant) R) m.position.state.position
  velocity : InReach (22 / 5 * ((Real.sqrt (num p.position.springMassConstant))⁻¹ *
    reach (num p.position.springMassConstant) (num p.position.dragConstant) R)) m.position.state.velocity
  clock : Finite m.position.state.time ∧ |num m.position.state.time| ≤ 2 ^ 19
  course : ∃ m₀ n, Course p es m₀ ∧ SameLive m m₀ ∧ n ≤ 2 ^ 18 ∧ Speeds m₀.loop n

theorem Session.standing [LibmFair] {ops : List (Op (Fl f32) (Fl f64))} {rs : List (Response (Fl f32) (Fl f64))} (h : Session ops rs m)
    (hr : Regular ops rs) (hp : (Ink.known ops rs).params = some p) {k : KalmanParams (Fl f32) (Fl f64)} (hk : p.prediction = .kalman k)
    (hpn : k.processNoise = testNoise) (hmn : k.measurementNoise = testMeasurementNoise) (hi : (Ink.known ops rs).prev ≠ none)
    (hc : Plain p R g G (strokeOf ops rs)) : ∃ q cs, Standing p k R g (strokeOf ops rs) m q cs := by
  have hl : m.lastInput ≠ none := by
    intro hc
    rw [← h.known] at hi
    simp [StrokeModeler.known, hc] at hi
  have hne := h.in_progress hr hl
  obtain ⟨p', m₀, h1, hcourse, hsame⟩ := h.course hr hne
  obtain rfl : p = p' := by rw [hp] at h1; exact Option.some.inj h1
  have hl₀ : m₀.lastInput ≠ none := by rw [← hsame.last]; exact hl
  obtain ⟨hz, ht, hck, hN, hB1, hB2, hfade⟩ := hc.facts hcourse.valid hne
  have hvk := kalman_valid (k := k) (by have := (validParts hcourse.valid).2.2.2.2.2; rwa [hk] at this)
  obtain ⟨cs, f1, f2, f3⟩ := hcourse.fed_reach ht
  simp only [StrokeModeler.makePredictor, hk] at f1
  obtain ⟨q, hq, hq'⟩ := feed_kalman hvk.2.2.2.2 f1
  have hcs : cs ≠ [] := by
    intro hn
    subst hn
    exact hcourse.down_accepted (by simpa using f2.symm)
  rw [hcourse.fedInputs_eq hl₀] at f2
  have hshort := hc.short
  have hlen : cs.length ≤ (strokeOf ops rs).length := by
    have : cs.length = (acceptedOf (strokeOf ops rs)).length := by simpa using congrArg List.length f2
    rw [this, acceptedOf, List.length_map]
    exact List.length_filter_le _ _
  have hlen' : (strokeOf ops rs).length ≤ (strokeOf ops rs).length * p.sampling.maxOutputsPerCall.toNat := Nat.le_mul_of_pos_right _ hN
  have hA : Decent (2 * R) := ⟨le_trans (by norm_num) hc.suits.size.1, hc.suits.size.2.trans (by norm_num)⟩
  have hax : axisFilter k = makeKalmanFilter testNoise testMeasurementNoise k.minStableIteration := by rw [axisFilter, hpn, hmn]
  have hx := measured hA (zs := cs.map fun c => widen c.1.x) (by simpa using hcs) (by
    intro z hz
    obtain ⟨c, hc, rfl⟩ := List.mem_map.1 hz
    have := f3 c hc
    exact ⟨finite_widen this.finx, by rw [num_widen this.finx]; exact this.x⟩) (hax ▸ hq'.x)
  have hy := measured hA (zs := cs.map fun c => widen c.1.y) (by simpa using hcs) (by
    intro z hz
    obtain ⟨c, hc, rfl⟩ := List.mem_map.1 hz
    have := f3 c hc
    exact ⟨finite_widen this.finy, by rw [num_widen this.finy]; exact this.y⟩) (hax ▸ hq'.y)
  obtain ⟨es', s, hs, hs', hes, htr, -, hcount⟩ := course_trace hcourse ht hck hN ⟨hB1, hB2⟩
    fun hon => ⟨(hc.loop hon).1, (hc.loop hon).2.1, (hc.loop hon).2.2.1, (hc.loop hon).2.2.2⟩
  obtain rfl := hs' hl₀
  have hpaced : Paced (spacing p.sampling.maxOutputsPerCall.toNat (num p.sampling.minOutputRate) (2 ^ 20)) (resultsOf es') :=
    ⟨htr.finite, (List.isChain_map _).1 htr.gaps⟩
  have hin : ∀ i ∈ acceptedOf es', InReach (2 * R) i.position := by
    intro i hi
    simp only [acceptedOf, List.mem_map, List.mem_filter] at hi
    obtain ⟨e', ⟨he', -⟩, rfl⟩ := hi
    obtain ⟨e, -, he⟩ := mem_right hes he'
    exact he.input
  have hb := springs_bounded (p := p.still) hs rfl (s := spacing p.sampling.maxOutputsPerCall.toNat (num p.sampling.minOutputRate) (2 ^ 20))
    hc.mass hc.drag hc.suits hin (part_length (by omega)) hpaced (Weights.count hpaced hfade) fun k hk => by
      have : k ≤ 2 ^ 18 := by omega
      exact_mod_cast this
  obtain ⟨r, hr1, hr2⟩ := hs.shown (by simpa using hl₀)
  obtain ⟨b1, b2, -⟩ := hb r hr1
  obtain ⟨-, e2, -⟩ := reach_size hc.suits hc.region
  change InReach (2 * reach (num p.position.springMassConstant) (num p.position.dragConstant) (2 * R)) _ at b1
  change InReach (11 / 5 * ((Real.sqrt (num p.position.springMassConstant))⁻¹ *
    reach (num p.position.springMassConstant) (num p.position.dragConstant) (2 * R))) _ at b2
  rw [e2] at b1 b2
  have hsp := (htr.sound (by omega) fun r hr => (hb r hr).2.1.mono (le_max_right _ _)).2
  refine ⟨q, cs, hcourse.valid, by rw [← h.known] at hp; exact hp, hl, hsame.live.predictor.trans hq, hq', hcs, by omega, f2, f3, hx, hy, ?_, ?_, ?_, m₀, _, hcourse, hsame, ?_, hsp⟩
  · rw [hsame.live.position]
    exact inReach_alike hr2.px.symm hr2.py.symm (b1.mono (by ring_nf; rfl))
  · rw [hsame.live.position]
    exact inReach_alike hr2.vx.symm hr2.vy.symm (b2.mono (by ring_nf; rfl))
  · obtain ⟨l, hl'⟩ := Option.ne_none_iff_exists'.1 hl₀
    obtain ⟨i1, i2⟩ := Course.inStep hcourse hck _ hl'
    rw [hsame.live.position, i1]
    exact ⟨(hr2.time.num (htr.finite _ hr1)).1, hck.inputs _ (List.mem_of_getLast? i2)⟩
  · omega

theorem narrow_reach {x : Fl f64} (hx : Finite x) {B : ℝ} (hB : Usual B) (h : |num x| ≤ B) :
    Finite (narrow x : Fl f32) ∧ |num (narrow x : Fl f32)| ≤ (1 + eps) * B := by
  have e : num (narrow x : Fl f32) = rd f32 (num x) := num_convert hx
  have h1 := rd32_err hB h
  refine ⟨finite_of_num_le (j := 126) (by rw [show (narrow x : Fl f32) = convert f32 x from rfl, convert_isNaN]; exact hx.1) (by decide)
    (by rw [e]; exact rd32_small hB h), ?_⟩
  rw [e]
  calc |rd f32 (num x)| = |(rd f32 (num x) - num x) + num x| := by ring_nf
    _ ≤ |rd f32 (num x) - num x| + |num x| := abs_add_le _ _
    _ ≤ _ := by linarith

omit [Libm] in
theorem InReach.sub {A B C : ℝ} {a b : Vec2 (Fl f32)} (ha : InReach A a) (hb : InReach B b) (hC : Usual C) (h : A + B ≤ C) :
    InReach ((1 + eps) * C) (a - b) := by
  have key : ∀ {x y : Fl f32}, Finite x → Finite y → |num x| ≤ A → |num y| ≤ B → Finite (x - y) ∧ |num (x - y)| ≤ (1 + eps) * C := by
    intro x y hx hy h1 h2
    have h3 : |num x - num y| ≤ C := (abs_sub _ _).trans (by linarith)
    obtain ⟨f, e⟩ := sub_near hx hy hC h3
    refine ⟨f, ?_⟩
    rw [abs_le] at *
    constructor <;> linarith [e.1, e.2, h3.1, h3.2]
  obtain ⟨x1, x2⟩ := key ha.finx hb.finx ha.x hb.x
  obtain ⟨y1, y2⟩ := key ha.finy hb.finy ha.y hb.y
  exact ⟨x1, y1, x2, y2⟩

omit [Libm] in
theorem cubicPrediction_length {F D : Type} [Scalar F] [Scalar D] [Arith F D] (dt : D) (n : ℕ) (s : KalmanState F) (t : D) :
    (KalmanPredictor.cubicPrediction dt n s t).length = n := by
  induction n generalizing s t with
  | zero => rfl
  | succ n ih => simp [KalmanPredictor.cubicPrediction, ih]

/-- Where the predictor estimates the pen to be, and how far the tip is from there. -/
theorem Standing.estimate [LibmFair] {k : KalmanParams (Fl f32) (Fl f64)} {q : KalmanPredictor (Fl f32) (Fl f64)}
    {cs : List (Vec2 (Fl f32) × Fl f64)} (h : Standing p k R g es m q cs) (hc : Plain p R g G es) (dt : Fl f32) :
    InReach (7 * R) (q.estimate dt).position ∧
    Finite (distance m.position.state.position (q.estimate dt).position) ∧
    0 ≤ num (distance m.position.state.position (q.estimate dt).position) ∧
    num (distance m.position.state.position (q.estimate dt).position) ≤
      26 * reach (num p.position.springMassConstant) (num p.position.dragConstant) R := by
  obtain ⟨e1, e2, -, -, e3⟩ := reach_size hc.suits hc.region
  have hR := hc.region
  have hR' := hc.suits.size.2
  have hR0 : 0 < R := lt_of_lt_of_le (by positivity) hR
  have hU : Usual (6 * R) := ⟨le_trans (by norm_num) (le_trans hR (by linarith)), by
    calc 6 * R ≤ 3 * 2 ^ 50 := by linarith
      _ ≤ 2 ^ 125 := by norm_num⟩
  obtain ⟨x1, x2⟩ := narrow_reach h.x.f0 hU (h.x.e0.trans (by linarith))
  obtain ⟨y1, y2⟩ := narrow_reach h.y.f0 hU (h.y.e0.trans (by linarith))
  have hes : (1 + eps) * (6 * R) ≤ 7 * R := by unfold eps; nlinarith
  have hpos : InReach (7 * R) (q.estimate dt).position := ⟨x1, y1, x2.trans hes, y2.trans hes⟩
  refine ⟨hpos, ?_⟩
  rw [e2] at e3
  have htip := h.position
  generalize reach (num p.position.springMassConstant) (num p.position.dragConstant) R = L at *
  have hL0 : 0 < L := by linarith
  have hUL : Usual (19 / 3 * L) := ⟨by
    refine le_trans (by norm_num : (1 : ℝ) / 2 ^ 100 ≤ 1 / 2 ^ 50) (hR.trans (by linarith)), by
    calc 19 / 3 * L ≤ 19 / 6 * 2 ^ 80 := by linarith
      _ ≤ 2 ^ 125 := by norm_num⟩
  have hd := (hpos.sub htip hUL (by linarith)).mono (B := 13 / 2 * L) (by unfold eps; nlinarith)
  obtain ⟨d1, d2, d3⟩ := hypot_reach hd.finx hd.finy (B := 13 / 2 * L) (by
    calc 13 / 2 * L ≤ 13 / 4 * 2 ^ 80 := by linarith
      _ ≤ 2 ^ 100 := by norm_num) hd.x hd.y
  exact ⟨d1, d2, d3.trans (by linarith)⟩

end Lemmas

section Theorems
variable [Libm] [LibmFair] {ops : List (Op (Fl f32) (Fl f64))} {rs : List (Response (Fl f32) (Fl f64))} {m : StrokeModeler (Fl f32) (Fl f64)}

/-- C77: on floats, with the Kalman predictor and the noises of its test (kalman_predictor_test.cc:38-54), Predict returns during a stroke
with usual parameters and inputs. It returns at most about three times as many results as there are samples in the time needed to
go `26 * reach` at `min_catchup_velocity`, and in `prediction_interval`. -/
theorem C77_foretold_float (h : Session ops rs m) (hr : Regular ops rs) {p : StrokeModelParams (Fl f32) (Fl f64)}
    (hp : (known ops rs).params = some p) {k : KalmanParams (Fl f32) (Fl f64)} (hk : p.prediction = .kalman k)
    (hpn : k.processNoise = Scalar.ofRatio 26458 100000000) (hmn : k.measurementNoise = Scalar.ofRatio 26458 1000000)
    (hi : (known ops rs).prev ≠ none) {R g G : ℝ} (hc : Plain p R g G (strokeOf ops rs))
    (hcatch : 26 * reach (num p.position.springMassConstant) (num p.position.dragConstant) R / num k.minCatchupVelocity *
      num p.sampling.minOutputRate ≤ 2 ^ 27)
    (hint : num k.predictionInterval * num p.sampling.minOutputRate ≤ 2 ^ 27)
    (ho : ∀ op ∈ ops, op.Oriented) (hlen : (ops.length : ℤ) < 2 ^ 31 - 1) (v : List (Result (Fl f32) (Fl f64))) :
    ∃ m' r, step m (.predict v) = .ok (m', r) ∧ r.status = .ok ∧
      (r.results.length : ℝ) ≤ 3 * (26 * reach (num p.position.springMassConstant) (num p.position.dragConstant) R / num k.minCatchupVelocity *
        num p.sampling.minOutputRate) + 3 * (num k.predictionInterval * num p.sampling.minOutputRate) + 8 := by
  obtain ⟨q, cs, hst⟩ := h.standing hr hp hk hpn hmn hi hc
  obtain ⟨⟨c1, c0⟩, ⟨i1, i0⟩, hdes, hlin, hmax⟩ := kalman_valid (k := k) (by have := (validParts hst.valid).2.2.2.2.2; rwa [hk] at this)
  obtain ⟨⟨s1, -⟩, -⟩ := validSamplingParts (validParts hst.valid).2.2.2.1
  have hrf := finite_of_isFinite s1
  have hrate0 : 0 < num p.sampling.minOutputRate := by linarith [hc.rate.1]
  obtain ⟨e1, -, -, e4, e3⟩ := reach_size hc.suits hc.region
  have hL0 : 0 ≤ reach (num p.position.springMassConstant) (num p.position.dragConstant) R := by
    have : 0 < R := lt_of_lt_of_le (by positivity) hc.region
    linarith
  obtain ⟨tips, ht, htips⟩ : ∃ tips, q.constructPrediction m.position.state = .ok tips ∧ (tips.length : ℝ) ≤
      3 * (26 * reach (num p.position.springMassConstant) (num p.position.dragConstant) R / num k.minCatchupVelocity *
        num p.sampling.minOutputRate) + 3 * (num k.predictionInterval * num p.sampling.minOutputRate) + 8 := by
    rcases lt_or_ge (cs.length : ℤ) k.minStableIteration with hs | hs
    · refine ⟨[], by simp [KalmanPredictor.constructPrediction, (hst.holds.estimated hmax hst.some).1 hs], ?_⟩
      have : 0 ≤ num k.predictionInterval * num p.sampling.minOutputRate := by positivity
      have : 0 ≤ 26 * reach (num p.position.springMassConstant) (num p.position.dragConstant) R / num k.minCatchupVelocity *
        num p.sampling.minOutputRate := by positivity
      simp only [List.length_nil, Nat.cast_zero]
      linarith
    · obtain ⟨est, x, he, hx⟩ := (hst.holds.estimated hmax hst.some).2 hs
      have hest : ∃ dt, est = q.estimate dt := by
        unfold KalmanPredictor.getEstimatedState at he
        split at he
        · cases he
        · split at he
          · exact ⟨_, (Option.some.inj he).symm⟩
          · cases he
      obtain ⟨dt, rfl⟩ := hest
      obtain ⟨-, d1, d2, d3⟩ := hst.estimate hc dt
      have hmag : Fl.isNaN m.position.state.velocity.magnitude = false := by
        have hv := hst.velocity
        refine (hypot_reach hv.finx hv.finy ?_ hv.x hv.y).1.1
        have hω : 0 < (Real.sqrt (num p.position.springMassConstant))⁻¹ := (reach_size hc.suits hc.region).2.2.1
        have he : reach (num p.position.springMassConstant) (num p.position.dragConstant) R ≤ 2 ^ 80 := by linarith [(reach_size hc.suits hc.region).2.1]
        calc 22 / 5 * ((Real.sqrt (num p.position.springMassConstant))⁻¹ * reach (num p.position.springMassConstant) (num p.position.dragConstant) R)
            ≤ 22 / 5 * (2 ^ 8 * 2 ^ 80) := mul_le_mul_of_nonneg_left (mul_le_mul e4 he hL0 (by positivity)) (by norm_num)
          _ ≤ 2 ^ 100 := by norm_num
      obtain ⟨n, hn, n0, n1⟩ := connector_count (k := k) d1 d2 d3 hmag c1 c0 hrf hc.rate hcatch
      have hqp := hst.holds.params
      have hqs := hst.holds.sampling
      have hiter := hst.holds.iterX
      have hfew := hst.few
      have hpos := List.length_pos_iff.2 hst.some
      obtain ⟨n', hn', n0', n1'⟩ := beyond_count (est := q.estimate dt) hx (by rw [hqp]; exact i1) (by rw [hqp]; exact i0) (by rw [hqs]; exact hrf)
        (by rw [hqs]; exact hc.rate) (by rw [hqp, hqs]; exact hint) ⟨by omega, by omega⟩ (by rw [hqp]; exact hdes) (by rw [hqp]; exact hlin)
      rw [hqp, hqs] at n1'
      simp only [KalmanPredictor.constructPrediction, he, hx, KalmanPredictor.cubicConnector, hqp, hqs, hn, hn', Outcome.ok_bind, Outcome.pure_eq]
      refine ⟨_, rfl, ?_⟩
      have l1 : ((n.toNat : ℕ) : ℝ) = n := by exact_mod_cast Int.toNat_of_nonneg n0
      have l2 : ((n'.toNat : ℕ) : ℝ) = n' := by exact_mod_cast Int.toNat_of_nonneg n0'
      rw [List.length_append, connectorGo_length, cubicPrediction_length, Nat.cast_add, l1, l2]
      linarith
  obtain ⟨c, hc', hs⟩ := h.safe Fl.tame (fun op ho' => (ho op ho').mild) (.inl hlen)
  obtain ⟨m', s, v', hpr, -⟩ := predict_returns Fl.tame hs v (by
    intro pr hpr
    rw [hst.predictor, Option.some.injEq] at hpr
    subst hpr
    exact ⟨tips, ht⟩)
  refine ⟨m', ⟨s, v'⟩, by simp [step, hpr], ?_⟩
  rcases predict_ok hpr with ⟨_, _, _, _, hbad⟩ | ⟨_, pr, _, tips', _, out, _, hpr', _, ht', hms, rfl, _, rfl⟩
  · obtain ⟨l, hl⟩ := Option.ne_none_iff_exists'.1 hst.live
    simp [hst.params, hl, hst.predictor] at hbad
  · rw [hst.predictor, Option.some.injEq] at hpr'
    subst hpr'
    rw [Predictor.constructPrediction, ht, Outcome.ok.injEq] at ht'
    subst ht'
    refine ⟨rfl, ?_⟩
    change ((v'.length : ℕ) : ℝ) ≤ _
    rw [modelStylus_length hms]
    exact htips

end Theorems

section Examples
open Ex

/-- The parameters of the predictor's test, but stable from the second input on. -/
def Ex.testKalman : KalmanParams F32 F64 :=
  { processNoise := d 26458 100000000, measurementNoise := d 26458 1000000, minStableIteration := 2, maxTimeSamples := 20
    minCatchupVelocity := fl 1 100, accelerationWeight := fl 1 2, jerkWeight := fl 1 10, predictionInterval := d 1 60
    confidence :=
      { desiredNumberOfSamples := 20, maxEstimationDistance := fl 4 100, minTravelSpeed := 3, maxTravelSpeed := 15
        maxLinearDeviation := fl 2 10, baselineLinearityConfidence := fl 4 10 } }

/-- `fullParams` of C72 with this predictor. -/
def Ex.foreParams : StrokeModelParams F32 F64 := { fullParams with prediction := .kalman testKalman }

/-- A Down and three Moves. -/
def Ex.foreOps : List (Op F32 F64) :=
  [.resetParams foreParams, .update (pressed .down 0 0 1 1) [], .update (pressed .move (fl 1 100) (d 1 50) (fl 1 2) 1) [],
   .update (pressed .move 1 (d 2 50) (fl 1 4) 1) [], .update (pressed .move 2 (d 3 50) (fl 1 4) 1) []]

theorem Ex.fore_plain {es : List (Event F32 F64)} (h : fullCheck es = true) : Plain foreParams 4 (1 / 64) (1 / 32) es := by
  obtain ⟨h, -⟩ := full_plain h
  exact ⟨h.mass, h.drag, h.suits, h.rate, h.loop, h.wobble, h.region, h.inputs, h.early, h.spaced, h.gaps, h.exact, h.short⟩

theorem Ex.fore_facts : num foreParams.sampling.minOutputRate = 180 ∧ num testKalman.predictionInterval ≤ 1 ∧
    reach (num foreParams.position.springMassConstant) (num foreParams.position.dragConstant) 4 ≤ 230 := by
  have hrate : num foreParams.sampling.minOutputRate = 180 := num_lit (f := f64) (n := 180) (by decide)
  have hdrag : num foreParams.position.dragConstant = 72 := num_lit (f := f32) (n := 72) (by decide)
  obtain ⟨-, m1, m2⟩ := calm_mass
  change 1 / 3000 ≤ num foreParams.position.springMassConstant at m1
  change num foreParams.position.springMassConstant ≤ 1 / 2900 at m2
  rw [hdrag]
  generalize num foreParams.position.springMassConstant = M at m1 m2
  have hq' : (0 : ℝ) < 2 ^ f64.q := by positivity
  have hi : num testKalman.predictionInterval ≤ 1 := by
    have h1 : Fl.key testKalman.predictionInterval ≤ (2 : ℤ) ^ f64.q := by decide +kernel
    have : ((Fl.key testKalman.predictionInterval : ℤ) : ℝ) ≤ (2 : ℝ) ^ f64.q := by exact_mod_cast h1
    rw [num, div_le_one hq']
    exact this
  have s1 : 1 / 55 ≤ Real.sqrt M := Real.le_sqrt_of_sq_le (le_trans (by norm_num) m1)
  have s2 : Real.sqrt M ≤ 1 / 53 := by
    rw [Real.sqrt_le_left (by norm_num)]
    exact m2.trans (by norm_num)
  refine ⟨hrate, hi, ?_⟩
  have s3 : 1 / (72 * Real.sqrt M) ≤ 55 / 72 := by
    rw [div_le_div_iff₀ (by positivity) (by norm_num)]
    linarith
  unfold reach
  linarith

theorem Ex.fore_limits : 26 * reach (num foreParams.position.springMassConstant) (num foreParams.position.dragConstant) 4 /
      num testKalman.minCatchupVelocity * num foreParams.sampling.minOutputRate ≤ 2 ^ 27 ∧
    num testKalman.predictionInterval * num foreParams.sampling.minOutputRate ≤ 2 ^ 27 := by
  obtain ⟨hrate, hi, hre⟩ := fore_facts
  rw [hrate]
  have hq : (0 : ℝ) < 2 ^ f32.q := by positivity
  have hc : 999 / 100000 ≤ num testKalman.minCatchupVelocity := by
    have h1 : (2 : ℤ) ^ f32.q * 999 ≤ Fl.key testKalman.minCatchupVelocity * 100000 := by decide +kernel
    have : (2 : ℝ) ^ f32.q * 999 ≤ (Fl.key testKalman.minCatchupVelocity : ℤ) * 100000 := by exact_mod_cast h1
    rw [num, div_le_div_iff₀ (by norm_num) hq]
    linarith
  generalize reach (num foreParams.position.springMassConstant) (num foreParams.position.dragConstant) 4 = L at hre ⊢
  refine ⟨?_, ?_⟩
  · have : 26 * L / num testKalman.minCatchupVelocity ≤ 26 * 230 / (999 / 100000) :=
      div_le_div₀ (by norm_num) (by linarith) (by norm_num) hc
    calc 26 * L / num testKalman.minCatchupVelocity * 180 ≤ 26 * 230 / (999 / 100000) * 180 := by linarith
      _ ≤ 2 ^ 27 := by norm_num
  · norm_num
    linarith

theorem Ex.fore_oriented : ∀ op ∈ foreOps, op.Oriented := by
  intro op hop
  have ho : ∀ r, Fl.val (-1 : F32) = some r → r ≤ ((2 ^ 27 : ℝ) : EReal) := by
    apply Fl.tidy_iff.1
    right
    rw [Fl.num_neg, Fl.num_one]
    norm_num
  simp only [foreOps, List.mem_cons, List.not_mem_nil, or_false] at hop
  rcases hop with rfl | rfl | rfl | rfl | rfl
  · trivial
  all_goals exact ho

/-- C77 applies to a stroke of a Down and three Moves, with wobble smoothing and loop mitigation, after which the predictor is stable. -/
example : ∃ (rs : List (Response F32 F64)) (m : StrokeModeler F32 F64), Session foreOps rs m ∧ Regular foreOps rs ∧
    (known foreOps rs).params = some foreParams ∧ foreParams.prediction = .kalman testKalman ∧
    testKalman.processNoise = Scalar.ofRatio 26458 100000000 ∧ testKalman.measurementNoise = Scalar.ofRatio 26458 1000000 ∧
    (known foreOps rs).prev ≠ none ∧ Plain foreParams 4 (1 / 64) (1 / 32) (strokeOf foreOps rs) ∧
    (26 * reach (num foreParams.position.springMassConstant) (num foreParams.position.dragConstant) 4 /
      num testKalman.minCatchupVelocity * num foreParams.sampling.minOutputRate ≤ 2 ^ 27 ∧
    num testKalman.predictionInterval * num foreParams.sampling.minOutputRate ≤ 2 ^ 27) ∧
    (∀ op ∈ foreOps, op.Oriented) ∧ (foreOps.length : ℤ) < 2 ^ 31 - 1 ∧
    testKalman.minStableIteration ≤ (acceptedOf (strokeOf foreOps rs)).length ∧
    foreParams.wobble.isEnabled = true ∧ foreParams.position.loop.isEnabled = true := by
  obtain ⟨rs, m, h, hP⟩ := exists_session (ops := foreOps) (P := fun rs _ => noStale foreOps rs && fullCheck (strokeOf foreOps rs) &&
    decide ((known foreOps rs).params = some foreParams ∧ (known foreOps rs).prev ≠ none ∧
      2 ≤ (acceptedOf (strokeOf foreOps rs)).length)) (by kernel_rfl)
  simp only [Bool.and_eq_true, decide_eq_true_eq] at hP
  obtain ⟨⟨h1, h2⟩, h3, h4, h5⟩ := hP
  refine ⟨rs, m, h, ⟨noStale_iff h1, ?_⟩, h3, rfl, by decide +kernel, by decide +kernel, h4, fore_plain h2, fore_limits, fore_oriented, by simp [foreOps], by change (2 : ℤ) ≤ _; exact_mod_cast h5, rfl, rfl⟩
  · intro a p b h hd
    have hm : Op.resetParams p ∈ foreOps := by simp [h]
    simp [foreOps] at hm
    simp [hm, foreParams] at hd

end Examples
end
end Ink
