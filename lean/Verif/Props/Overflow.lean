import Verif.Props.Total
import Verif.Props.Counts
/-!
# The counter of the Kalman filter overflows: C20

The hypothesis of `C20_calls_return_partial` on the number of calls with the Kalman predictor cannot be dropped.
-/
namespace Ink
open Scalar Arith
namespace Ex

/-- Parameters with the Kalman predictor and without wobble smoothing. -/
def counting : StrokeModelParams F32 F64 :=
  { params with wobble := { params.wobble with isEnabled := false }, prediction := .kalman kalman }

/-- A Move at the place and time of the Down; consecutive ones differ in their (unknown) pressure. -/
def again (b : Bool) : Input F32 F64 := { inp .move 0 0 0 with pressure := if b then -2 else -1 }

/-- `n` such Moves. -/
def agains : Bool → Nat → List (Op F32 F64)
  | _, 0 => []
  | b, n + 1 => .update (again b) [] :: agains (!b) n

/-- The state during such a stroke, after `k` inputs. -/
structure Counted (k : Int) (b : Bool) (m : StrokeModeler F32 F64) : Prop where
  params : m.params = some counting
  last : ∃ i, m.lastInput = some ⟨i, ⟨0, 0⟩⟩ ∧ (i = inp .down 0 0 0 ∨ i = again (!b))
  wobble : m.wobble.params.isEnabled = false
  tip : m.position.state = StrokeModeler.startState (again b)
  stylus : m.stylus.params.useStrokeNormalProjection = false
  flags : m.stylus.state.unknownPressure = true ∧ m.stylus.state.unknownTilt = true ∧ m.stylus.state.unknownOrientation = true
  pred : ∃ q, m.predictor = some (.kalman q) ∧ q.xPredictor.iterNum = k ∧ q.yPredictor.iterNum = k

variable [Libm]

/-- The velocity that is expected at the end of such a Move. -/
def expected (b : Bool) : Vec2 F32 :=
  (StrokeModeler.startState (again b)).velocity + (narrow ((again b).time - (inp .down 0 0 0).time) : F32) •ᵥ
    (((again b).position - (StrokeModeler.startState (again b)).position) /ᵥ counting.position.springMassConstant)

theorem steps_again (b : Bool) {i : Input F32 F64} (hi : i.time = (inp .down 0 0 0).time) :
    numberOfStepsBetweenInputs (StrokeModeler.startState (again b)) i (again b) counting.sampling counting.position = .ok (.ok 0) := by
  have h1 : toInt (stdMin (ceil (widen (narrow ((again b).time - (inp .down 0 0 0).time) : F32) * counting.sampling.minOutputRate))
      (intMaxD : F64)) = .ok 0 := by
    cases b <;> kernel_rfl
  have h2 : ∃ a, (StrokeModeler.startState (again b)).velocity.absoluteAngleTo (D := F64) (expected b) = some a := by
    have : (!(StrokeModeler.startState (again b)).velocity.isFinite || !(expected b).isFinite) = false := by cases b <;> kernel_rfl
    unfold Vec2.absoluteAngleTo
    rw [this, if_neg (by decide)]
    dsimp only
    split <;> exact ⟨_, rfl⟩
  obtain ⟨a, ha⟩ := h2
  have h3 : stepsForAngle counting.sampling a 0 = .ok 0 := by
    have : (0 <ᵇ counting.sampling.maxEstimatedAngle) = false := by kernel_rfl
    unfold stepsForAngle
    rw [this, if_neg (by decide)]
  unfold expected at ha
  unfold numberOfStepsBetweenInputs
  rw [hi]
  dsimp only
  rw [h1, Outcome.ok_bind, ha]
  dsimp only
  rw [h3, Outcome.ok_bind, if_neg (by decide)]
  rfl

omit [Libm] in
theorem filter_update {k : Int} {f : KalmanFilter F64} (h : f.iterNum = k) (x : F64) :
    (k = intMax → f.update x = .ub "int overflow in iter_num_++") ∧ (k ≠ intMax → ∃ f', f.update x = .ok f' ∧ f'.iterNum = k + 1) := by
  subst h
  unfold KalmanFilter.update
  constructor
  · intro h
    rw [if_pos h]
  · intro h
    rw [if_neg h]
    dsimp only
    split <;> exact ⟨_, rfl, rfl⟩

theorem update_again {k : Int} {b : Bool} {m : StrokeModeler F32 F64} (h : Counted k b m) :
    (k = intMax → ∃ w, step m (.update (again b) []) = .ub w) ∧
    (k ≠ intMax → ∃ m', step m (.update (again b) []) = .ok (m', ⟨.ok, []⟩) ∧ Counted (k + 1) (!b) m') := by
  obtain ⟨hp, ⟨i, hl, hi⟩, hw, ht, hs, ⟨f1, f2, f3⟩, q, hq, k1, k2⟩ := h
  have hit : i.time = (inp .down 0 0 0).time := by rcases hi with rfl | rfl <;> rfl
  have hb : ((again b).time <ᵇ i.time) = false := by rcases hi with rfl | rfl <;> cases b <;> kernel_rfl
  have hv : validateInput (again b) = .ok := by cases b <;> kernel_rfl
  have he : Input.eq i (again b) = false := by rcases hi with rfl | rfl <;> cases b <;> kernel_rfl
  have hu : m.update (again b) [] = m.processMove counting (again b) [] := by
    unfold StrokeModeler.update
    rw [hp]
    dsimp only
    rw [hv]
    dsimp only
    rw [hl]
    dsimp only
    rw [he, hb]
    rfl
  have hst : m.stylus.update (again b).position (again b).time (stylusStateOf (again b)) =
      .ok { m.stylus with state := ⟨true, true, true, []⟩ } := by
    unfold StylusModeler.update StylusModeler.flags
    rw [hs, f1, f2, f3]
    rfl
  have hwo : m.wobble.update (again b).position (again b).time = .ok (m.wobble, (again b).position) := by
    unfold WobbleSmoother.update
    rw [hw]
    rfl
  unfold StrokeModeler.processMove at hu
  rw [hl] at hu
  dsimp only at hu
  rw [hwo, Outcome.ok_bind] at hu
  dsimp only at hu
  rw [hst, Outcome.ok_bind, ht, steps_again b hit, Outcome.ok_bind] at hu
  dsimp only at hu
  have hn : m.position.updateAlongLinearPath (⟨0, 0⟩ : Vec2 F32) i.time (again b).position (again b).time 0 = (m.position, []) := rfl
  rw [hn] at hu
  dsimp only at hu
  rw [hq] at hu
  have ho : ∀ loop t, modelStylus ([] : List (TipState F32 F64)) { m.stylus with state := ⟨true, true, true, []⟩ } loop t = .ok (loop, []) :=
    fun _ _ => rfl
  constructor
  · intro hk
    refine ⟨"int overflow in iter_num_++", ?_⟩
    simp only [step]
    rw [hu]
    unfold updatePredictor Predictor.update KalmanPredictor.update
    dsimp only
    rw [(filter_update k1 _).1 hk]
    rfl
  · intro hk
    obtain ⟨x, hx, hx'⟩ := (filter_update k1 (widen (again b).position.x)).2 hk
    obtain ⟨y, hy, hy'⟩ := (filter_update k2 (widen (again b).position.y)).2 hk
    have hup : ∃ q', updatePredictor (some (.kalman q)) (again b).position (again b).time = .ok (some (.kalman q')) ∧
        q'.xPredictor.iterNum = k + 1 ∧ q'.yPredictor.iterNum = k + 1 := by
      unfold updatePredictor Predictor.update KalmanPredictor.update
      dsimp only
      rw [hx, hy]
      exact ⟨_, rfl, hx', hy'⟩
    obtain ⟨q', h1, h2, h3⟩ := hup
    rw [h1, Outcome.ok_bind, ho, Outcome.ok_bind] at hu
    refine ⟨{ m with
      predictor := some (.kalman q'), stylus := { m.stylus with state := ⟨true, true, true, []⟩ }, tipBuffer := [],
      lastInput := some ⟨again b, (again b).position⟩ }, ?_, ?_⟩
    · simp only [step]
      rw [hu]
      rfl
    · refine ⟨hp, ⟨_, rfl, Or.inr ?_⟩, hw, ?_, hs, ⟨rfl, rfl, rfl⟩, q', rfl, h2, h3⟩
      · cases b <;> rfl
      · dsimp only
        rw [ht]
        cases b <;> rfl

/-- `n` Moves in a row. -/
theorem run_agains (n : Nat) : ∀ {k : Int} {b : Bool} {m : StrokeModeler F32 F64}, Counted k b m → k + n ≤ intMax →
    ∃ m' rs b', run m (agains b n) = .ok (m', rs) ∧ Counted (k + n) b' m' := by
  induction n with
  | zero => intro k b m h _; exact ⟨_, _, b, rfl, by simpa using h⟩
  | succ n ih =>
    intro k b m h hk
    obtain ⟨m', h1, h2⟩ := (update_again h).2 (by omega)
    obtain ⟨m'', rs, b', h3, h4⟩ := ih h2 (by push_cast at hk; omega)
    refine ⟨m'', ⟨.ok, []⟩ :: rs, b', ?_, by convert h4 using 1; push_cast; ring⟩
    rw [agains, run, h1, Outcome.ok_bind]
    dsimp only
    rw [h3]
    rfl

omit [Libm] in
theorem agains_inputs (n : Nat) : ∀ (b : Bool), ∀ op ∈ agains b n, ∃ b', op = .update (again b') [] := by
  induction n with
  | zero => intro b op h; simp [agains] at h
  | succ n ih =>
    intro b op h
    rw [agains, List.mem_cons] at h
    rcases h with rfl | h
    · exact ⟨b, rfl⟩
    · exact ih _ op h

end Ex

open Ex in
/-- The number of calls matters to C20: after 2^31 - 1 inputs of one stroke, the next one overflows the counter of the Kalman
filter. -/
theorem C20_overflow_refuted [Libm] : ∃ (ops : List (Op F32 F64)) (rs : List (Response F32 F64)) (m : StrokeModeler F32 F64)
    (i : Input F32 F64) (w : String), Session ops rs m ∧ (∀ op ∈ ops, op.Oriented) ∧ (Op.update i []).Oriented ∧
      refusal (known ops rs) i = none ∧ step m (.update i []) = .ub w := by
  obtain ⟨rs, m, h, hP⟩ := exists_session (ops := [.resetParams counting, .update (inp .down 0 0 0) []])
    (P := fun _ m => decide (m.params = some counting ∧ m.lastInput = some ⟨inp .down 0 0 0, ⟨0, 0⟩⟩ ∧
      m.wobble.params.isEnabled = false ∧ m.position.state = StrokeModeler.startState (again true) ∧
      m.stylus.params.useStrokeNormalProjection = false ∧ m.stylus.state.unknownPressure = true ∧
      m.stylus.state.unknownTilt = true ∧ m.stylus.state.unknownOrientation = true) && (match m.predictor with
        | some (.kalman q) => decide (q.xPredictor.iterNum = 1 ∧ q.yPredictor.iterNum = 1)
        | _ => false)) (by kernel_rfl)
  simp only [Bool.and_eq_true, decide_eq_true_eq] at hP
  obtain ⟨⟨c1, c2, c3, c4, c5, c6, c7, c8⟩, c9⟩ := hP
  have hc : Counted 1 true m := by
    refine ⟨c1, ⟨_, c2, Or.inl rfl⟩, c3, c4, c5, ⟨c6, c7, c8⟩, ?_⟩
    cases hq : m.predictor with
    | none => simp [hq] at c9
    | some q =>
      cases q with
      | strokeEnd q => simp [hq] at c9
      | kalman q => simp only [hq, decide_eq_true_eq] at c9; exact ⟨q, rfl, c9⟩
  obtain ⟨n, hn⟩ : ∃ n : Nat, (1 : Int) + n = intMax := ⟨2147483646, by norm_num [intMax]⟩
  obtain ⟨m', rs', b, h1, h2⟩ := run_agains n hc hn.le
  rw [hn] at h2
  obtain ⟨w, hw⟩ := (update_again h2).1 rfl
  have hs : Session ([.resetParams counting, .update (inp .down 0 0 0) []] ++ agains true n) (rs ++ rs') m' :=
    run_append_eq h h1
  have ho : ∀ r, Fl.val (-1 : F32) = some r → r ≤ ((2 ^ 27 : ℝ) : EReal) := by
    apply Fl.tidy_iff.1
    right
    rw [Fl.num_neg, Fl.num_one]
    norm_num
  refine ⟨_, _, m', again b, w, hs, ?_, by simpa [Op.Oriented, inp, again] using ho, ?_, hw⟩
  · intro op hop
    rcases List.mem_append.1 hop with hop | hop
    · simp only [List.mem_cons, List.not_mem_nil, or_false] at hop
      rcases hop with rfl | rfl
      · trivial
      · simpa [Op.Oriented, inp] using ho
    · obtain ⟨b', rfl⟩ := agains_inputs n true op hop
      simpa [Op.Oriented, inp, again] using ho
  · rw [← hs.known]
    obtain ⟨hp, ⟨i, hl, hi⟩, -⟩ := h2
    have hk : refusal ⟨some counting, some i, none⟩ (again b) = none := by
      rcases hi with rfl | rfl <;> cases b <;> kernel_rfl
    unfold refusal StrokeModeler.known at *
    rw [hp, hl]
    exact hk

end Ink
