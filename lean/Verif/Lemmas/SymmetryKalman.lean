import Verif.Lemmas.Symmetry
/-!
# The predictors and the modeler as a whole respect the symmetries of the coordinate axes
-/
set_option linter.unusedSectionVars false
namespace Ink
open Scalar Arith

variable {F D : Type} [Scalar F] [Scalar D] [Arith F D] [SignLaws F] [SignLaws D] [ArithLaws F]

namespace Symmetry
open SignLaws
variable {g : Symmetry}

/-! ## The wobble smoother -/

/-- Samples that are images of each other. -/
structure WobSample (g : Symmetry) (s t : WobbleSample F D) : Prop where
  position : g.Vec s.position t.position
  weighted : g.Vec s.weightedPosition t.weightedPosition
  distance : s.distance = t.distance
  duration : s.duration = t.duration
  time : s.time = t.time

/-- States of the wobble smoother that are images of each other. -/
structure WobSt (g : Symmetry) (s t : WobbleState F D) : Prop where
  samples : List.Forall₂ g.WobSample s.samples t.samples
  weighted : g.Vec s.weightedPositionSum t.weightedPositionSum
  distance : s.distanceSum = t.distanceSum
  duration : s.durationSum = t.durationSum

/-- Wobble smoothers that are images of each other. -/
structure Wob (g : Symmetry) (s t : WobbleSmoother F D) : Prop where
  params : s.params = t.params
  active : s.saveActive = t.saveActive
  state : g.WobSt s.state t.state
  saved : g.WobSt s.savedState t.savedState

theorem wobble_evict (limit : D) {l l' : List (WobbleSample F D)} (h : List.Forall₂ g.WobSample l l') :
    ∀ {w w' : Vec2 F} (_ : g.Vec w w') (d u : F),
      OutRel g.WobSt (WobbleSmoother.evict limit l w d u) (WobbleSmoother.evict limit l' w' d u) := by
  induction h with
  | nil => intro w w' hw d u; exact rfl
  | cons h t ih =>
    intro w w' hw d u
    unfold WobbleSmoother.evict
    rw [h.time, h.distance, h.duration]
    split
    · exact ih (hw.sub h.weighted) _ _
    · exact ⟨.cons h t, hw, rfl, rfl⟩

theorem Wob.update {s t : WobbleSmoother F D} (h : g.Wob s t) {a a' : Vec2 F} (ha : g.Vec a a') (τ : D) :
    OutRel (fun x y => g.Wob x.1 y.1 ∧ g.Vec x.2 y.2) (s.update a τ) (t.update a' τ) := by
  unfold WobbleSmoother.update
  rw [h.params]
  split
  · exact ⟨h, ha⟩
  · have hl := forall₂_getLast? h.state.samples
    generalize s.state.samples.getLast? = x at hl
    generalize t.state.samples.getLast? = x' at hl
    cases hl with
    | none => exact rfl
    | @some l l' hl =>
      have hs : g.WobSample
          (⟨a, (narrow (τ - l'.time) : F) •ᵥ a, distance a' l'.position, τ - l'.time, τ⟩ : WobbleSample F D)
          ⟨a', (narrow (τ - l'.time) : F) •ᵥ a', distance a' l'.position, τ - l'.time, τ⟩ := ⟨ha, .smul' _ ha, rfl, rfl, rfl⟩
      dsimp only [WobbleSmoother.push]
      rw [hl.time, ha.distance hl.position, h.state.distance, h.state.duration]
      refine (wobble_evict (τ - t.params.timeout) (forall₂_append h.state.samples (.cons hs .nil))
        (h.state.weighted.add hs.weighted) _ _).bind fun e e' he => ?_
      refine ⟨⟨rfl, h.active, he, h.saved⟩, ?_⟩
      unfold WobbleSmoother.smoothed
      rw [he.duration, he.distance]
      split
      · exact ha
      · exact (he.weighted.sdiv _).interp' _ ha

theorem Wob.reset {s t : WobbleSmoother F D} (h : g.Wob s t) (p : WobbleParams F D) {a a' : Vec2 F} (ha : g.Vec a a') (τ : D) :
    g.Wob (s.reset p a τ) (t.reset p a' τ) :=
  ⟨rfl, rfl, ⟨.cons ⟨ha, .zero, rfl, rfl, rfl⟩ .nil, .zero, rfl, rfl⟩, h.saved⟩

theorem Wob.save {s t : WobbleSmoother F D} (h : g.Wob s t) : g.Wob s.save t.save := ⟨h.params, rfl, h.state, h.state⟩

theorem Wob.restore {s t : WobbleSmoother F D} (h : g.Wob s t) : g.Wob s.restore t.restore := by
  unfold WobbleSmoother.restore
  rw [h.active]
  split
  · exact ⟨h.params, rfl, h.saved, h.saved⟩
  · exact h

/-! ## The Kalman filters

The filters of both axes always have the same covariance; the four pairs of state variables are vectors. -/

/-- Pairs of state estimations that are images of each other. -/
structure Ests (g : Symmetry) (x y x' y' : Vec4 D) : Prop where
  e0 : g.Vec (⟨x.e0, y.e0⟩ : Vec2 D) ⟨x'.e0, y'.e0⟩
  e1 : g.Vec (⟨x.e1, y.e1⟩ : Vec2 D) ⟨x'.e1, y'.e1⟩
  e2 : g.Vec (⟨x.e2, y.e2⟩ : Vec2 D) ⟨x'.e2, y'.e2⟩
  e3 : g.Vec (⟨x.e3, y.e3⟩ : Vec2 D) ⟨x'.e3, y'.e3⟩

/-- Pairs of filters that are images of each other. -/
structure Axes (g : Symmetry) (x y x' y' : KalmanFilter D) : Prop where
  hy : y = { x with stateEstimation := y.stateEstimation }
  hx' : x' = { x with stateEstimation := x'.stateEstimation }
  hy' : y' = { x with stateEstimation := y'.stateEstimation }
  ests : g.Ests x.stateEstimation y.stateEstimation x'.stateEstimation y'.stateEstimation

theorem vec4_dot (x y r : Vec4 D) : (⟨Vec4.dot x r, Vec4.dot y r⟩ : Vec2 D) =
    Vec2.zero + (r.e0 •ᵥ ⟨x.e0, y.e0⟩) + (r.e1 •ᵥ ⟨x.e1, y.e1⟩) + (r.e2 •ᵥ ⟨x.e2, y.e2⟩) + (r.e3 •ᵥ ⟨x.e3, y.e3⟩) := by
  show _ = Vec2.mk _ _
  congr 1
  · show _ = 0 + r.e0 * x.e0 + r.e1 * x.e1 + r.e2 * x.e2 + r.e3 * x.e3
    simp only [Vec4.dot, mul_comm]
  · show _ = 0 + r.e0 * y.e0 + r.e1 * y.e1 + r.e2 * y.e2 + r.e3 * y.e3
    simp only [Vec4.dot, mul_comm]

theorem vec4_dot' (x y r : Vec4 D) : (⟨Vec4.dot r x, Vec4.dot r y⟩ : Vec2 D) =
    Vec2.zero + (r.e0 •ᵥ ⟨x.e0, y.e0⟩) + (r.e1 •ᵥ ⟨x.e1, y.e1⟩) + (r.e2 •ᵥ ⟨x.e2, y.e2⟩) + (r.e3 •ᵥ ⟨x.e3, y.e3⟩) := rfl

theorem Ests.dot {x y x' y' : Vec4 D} (h : g.Ests x y x' y') (r : Vec4 D) :
    g.Vec (⟨Vec4.dot x r, Vec4.dot y r⟩ : Vec2 D) ⟨Vec4.dot x' r, Vec4.dot y' r⟩ := by
  rw [vec4_dot, vec4_dot]
  exact (((Vec.zero.add (.smul' _ h.e0)).add (.smul' _ h.e1)).add (.smul' _ h.e2)).add (.smul' _ h.e3)

theorem Ests.dot' {x y x' y' : Vec4 D} (h : g.Ests x y x' y') (r : Vec4 D) :
    g.Vec (⟨Vec4.dot r x, Vec4.dot r y⟩ : Vec2 D) ⟨Vec4.dot r x', Vec4.dot r y'⟩ := by
  rw [vec4_dot', vec4_dot']
  exact (((Vec.zero.add (.smul' _ h.e0)).add (.smul' _ h.e1)).add (.smul' _ h.e2)).add (.smul' _ h.e3)

theorem Ests.mulVec {x y x' y' : Vec4 D} (h : g.Ests x y x' y') (m : Matrix4 D) :
    g.Ests (m.mulVec x) (m.mulVec y) (m.mulVec x') (m.mulVec y') :=
  ⟨h.dot m.r0, h.dot m.r1, h.dot m.r2, h.dot m.r3⟩

theorem Axes.update {x y x' y' : KalmanFilter D} (h : g.Axes x y x' y') {a b a' b' : D} (hz : g.Vec (⟨a, b⟩ : Vec2 D) ⟨a', b'⟩) :
    OutRel (fun u v => g.Axes u.1 u.2 v.1 v.2) (x.update a >>= fun x => y.update b >>= fun y => pure (x, y))
      (x'.update a' >>= fun x => y'.update b' >>= fun y => pure (x, y)) := by
  obtain ⟨h1, h2, h3, h4⟩ := h
  generalize y.stateEstimation = sy at h1 h4
  generalize x'.stateEstimation = sx' at h2 h4
  generalize y'.stateEstimation = sy' at h3 h4
  subst h1 h2 h3
  unfold KalmanFilter.update
  dsimp only
  split
  · exact rfl
  · split
    · exact ⟨rfl, rfl, rfl, ⟨hz, h4.e1, h4.e2, h4.e3⟩⟩
    · refine ⟨rfl, rfl, rfl, ?_⟩
      have hp := h4.mulVec x.stateTransition
      have hy := hz.sub (hp.dot' x.measurementVector)
      constructor
      · exact hp.e0.add (.smul' _ hy)
      · exact hp.e1.add (.smul' _ hy)
      · exact hp.e2.add (.smul' _ hy)
      · exact hp.e3.add (.smul' _ hy)

theorem Axes.reset {x y x' y' : KalmanFilter D} (h : g.Axes x y x' y') : g.Axes x.reset y.reset x'.reset y'.reset := by
  obtain ⟨h1, h2, h3, h4⟩ := h
  rw [h1, h2, h3]
  exact ⟨rfl, rfl, rfl, ⟨.zero, .zero, .zero, .zero⟩⟩

/-- Kalman predictors that are images of each other. -/
structure Kal (g : Symmetry) (p q : KalmanPredictor F D) : Prop where
  params : p.params = q.params
  sampling : p.sampling = q.sampling
  last : Option.Rel g.Vec p.lastPositionReceived q.lastPositionReceived
  times : p.sampleTimes = q.sampleTimes
  axes : g.Axes p.xPredictor p.yPredictor q.xPredictor q.yPredictor

theorem widen_vec {v v' : Vec2 F} (h : g.Vec v v') : g.Vec (⟨widen v.x, widen v.y⟩ : Vec2 D) ⟨widen v'.x, widen v'.y⟩ := by
  have hx := ArithLaws.widen_alike (D := D) h.x
  have hy := ArithLaws.widen_alike (D := D) h.y
  cases g
  · exact ⟨Alike.trans (.inl (ArithLaws.widen_neg (D := D) v.y).symm) hx, hy⟩
  · exact ⟨hx, Alike.trans (.inl (ArithLaws.widen_neg (D := D) v.y).symm) hy⟩

theorem narrow_vec {v v' : Vec2 D} (h : g.Vec v v') : g.Vec (⟨narrow v.x, narrow v.y⟩ : Vec2 F) ⟨narrow v'.x, narrow v'.y⟩ := by
  have hx := ArithLaws.narrow_alike (F := F) h.x
  have hy := ArithLaws.narrow_alike (F := F) h.y
  cases g
  · exact ⟨Alike.trans (.inl (ArithLaws.narrow_neg (F := F) v.y).symm) hx, hy⟩
  · exact ⟨hx, Alike.trans (.inl (ArithLaws.narrow_neg (F := F) v.y).symm) hy⟩

theorem Kal.update {p q : KalmanPredictor F D} (h : g.Kal p q) {a a' : Vec2 F} (ha : g.Vec a a') (τ : D) :
    OutRel g.Kal (p.update a τ) (q.update a' τ) := by
  have hu := h.axes.update (widen_vec ha)
  unfold KalmanPredictor.update
  dsimp only
  rw [h.params, h.times]
  generalize p.xPredictor.update (widen a.x) = x at hu
  generalize p.yPredictor.update (widen a.y) = y at hu
  generalize q.xPredictor.update (widen a'.x) = x' at hu
  generalize q.yPredictor.update (widen a'.y) = y' at hu
  rcases x with x | w | _ <;> rcases y with y | v | _ <;> rcases x' with x' | w' | _ <;> rcases y' with y' | v' | _ <;>
    first
    | exact hu
    | exact ⟨rfl, h.sampling, .some ha, rfl, hu⟩

theorem Kal.reset {p q : KalmanPredictor F D} (h : g.Kal p q) : g.Kal p.reset q.reset :=
  ⟨h.params, h.sampling, .none, rfl, h.axes.reset⟩

/-- Estimates that are images of each other. -/
structure Est (g : Symmetry) (s t : KalmanState F) : Prop where
  position : g.Vec s.position t.position
  velocity : g.Vec s.velocity t.velocity
  acceleration : g.Vec s.acceleration t.acceleration
  jerk : g.Vec s.jerk t.jerk

theorem Kal.estimated {p q : KalmanPredictor F D} (h : g.Kal p q) : Option.Rel g.Est p.getEstimatedState q.getEstimatedState := by
  unfold KalmanPredictor.getEstimatedState
  have hs : p.isStable = q.isStable := by
    unfold KalmanPredictor.isStable
    rw [h.axes.hy, h.axes.hx', h.axes.hy']
    rfl
  rw [hs, h.times]
  split
  · exact .none
  · split
    · refine .some ?_
      have he := h.axes.ests
      unfold KalmanPredictor.estimate
      rw [h.params]
      exact ⟨narrow_vec he.e0, (narrow_vec he.e1).sdiv _, .smul' _ ((narrow_vec he.e2).sdiv _), .smul' _ ((narrow_vec he.e3).sdiv _)⟩
    · exact .none

theorem Est.cubic {s t : KalmanState F} (h : g.Est s t) (dt : D) : g.Est (evaluateCubic s dt) (evaluateCubic t dt) :=
  ⟨((h.position.add (.smul' _ h.velocity)).add ((Vec.smul' _ h.acceleration).sdiv _)).add ((Vec.smul' _ h.jerk).sdiv _),
    (h.velocity.add (.smul' _ h.acceleration)).add ((Vec.smul' _ h.jerk).sdiv _), h.acceleration.add (.smul' _ h.jerk), h.jerk⟩

theorem cubicPrediction_rel (dt : D) : ∀ (k : Nat) {s t : KalmanState F} (_ : g.Est s t) (τ : D),
    List.Forall₂ g.Tip (KalmanPredictor.cubicPrediction dt k s τ) (KalmanPredictor.cubicPrediction dt k t τ)
  | 0, _, _, _, _ => .nil
  | k + 1, _, _, h, _ =>
    .cons ⟨(h.cubic dt).position, (h.cubic dt).velocity, (h.cubic dt).acceleration, rfl⟩ (cubicPrediction_rel dt k (h.cubic dt) _)

theorem connectorPoints_rel {s t : TipState F D} (h : g.Tip s t) {e e' : KalmanState F} (he : g.Est e e') (p : KalmanParams F D) (dt : D) :
    KalmanPredictor.connectorPoints s e p dt = KalmanPredictor.connectorPoints t e' p dt := by
  unfold KalmanPredictor.connectorPoints
  rw [h.position.distance he.position, h.velocity.magnitude, he.velocity.magnitude]

/-- Cubics that are images of each other. -/
structure Cub (g : Symmetry) (c d : KalmanPredictor.Cubic F) : Prop where
  ha : g.Vec c.a d.a
  hb : g.Vec c.b d.b
  hc : g.Vec c.c d.c
  hd : g.Vec c.d d.d

theorem connectorCubic_rel {s t : TipState F D} (h : g.Tip s t) {e e' : KalmanState F} (he : g.Est e e') (fd : F) :
    g.Cub (KalmanPredictor.connectorCubic s e fd) (KalmanPredictor.connectorCubic t e' fd) :=
  ⟨((Vec.smul' _ h.position).sub (.smul' _ he.position)).add (.smul' _ (h.velocity.add he.velocity)),
    ((Vec.smul' _ h.position).add (.smul' _ he.position)).sub (.smul' _ ((Vec.smul' _ h.velocity).add he.velocity)),
    .smul' _ h.velocity, h.position⟩

theorem connectorPoint_rel {c d : KalmanPredictor.Cubic F} (h : g.Cub c d) (τ δ : D) (fd : F) (n i : Int) :
    g.Tip (KalmanPredictor.connectorPoint c τ δ fd n i) (KalmanPredictor.connectorPoint d τ δ fd n i) :=
  ⟨(((Vec.smul' _ h.ha).add (.smul' _ h.hb)).add (.smul' _ h.hc)).add h.hd,
    (((Vec.smul' _ (.smul' _ h.ha)).add (.smul' _ (.smul' _ h.hb))).add h.hc).sdiv _,
    ((Vec.smul' _ (.smul' _ h.ha)).add (.smul' _ h.hb)).sdiv _, rfl⟩

theorem connectorGo_rel {c d : KalmanPredictor.Cubic F} (h : g.Cub c d) (τ δ : D) (fd : F) (n : Int) : ∀ (k : Nat) (i : Int),
    List.Forall₂ g.Tip (KalmanPredictor.connectorGo c τ δ fd n k i) (KalmanPredictor.connectorGo d τ δ fd n k i)
  | 0, _ => .nil
  | k + 1, i => .cons (connectorPoint_rel h τ δ fd n i) (connectorGo_rel h τ δ fd n k (i + 1))

theorem cubicConnector_rel {s t : TipState F D} (h : g.Tip s t) {e e' : KalmanState F} (he : g.Est e e') (p : KalmanParams F D) (dt : D) :
    OutRel (List.Forall₂ g.Tip) (KalmanPredictor.cubicConnector s e p dt) (KalmanPredictor.cubicConnector t e' p dt) := by
  unfold KalmanPredictor.cubicConnector
  rw [connectorPoints_rel h he, h.time]
  refine OutRel.bind (OutRel.refl _ (R := (· = ·)) fun _ _ => rfl) ?_
  rintro n _ rfl
  exact connectorGo_rel (connectorCubic_rel h he _) _ _ _ _ _ _

theorem Kal.points {p q : KalmanPredictor F D} (h : g.Kal p q) {e e' : KalmanState F} (he : g.Est e e') :
    p.numberOfPointsToPredict e = q.numberOfPointsToPredict e' := by
  unfold KalmanPredictor.numberOfPointsToPredict
  have hl := h.last
  generalize p.lastPositionReceived = l at hl
  generalize q.lastPositionReceived = l' at hl
  cases hl with
  | none => rfl
  | @some v v' hv =>
    have hc : p.confidence v e = q.confidence v' e' := by
      unfold KalmanPredictor.confidence
      dsimp only
      have hx : p.xPredictor.iterNum = q.xPredictor.iterNum := by rw [h.axes.hx']
      have hq := he.cubic q.params.predictionInterval
      rw [h.params, hx, hv.distance he.position, he.position.distance hq.position,
        hq.position.distance (he.position.add (.smul' _ he.velocity))]
    dsimp only
    rw [hc, h.params, h.sampling]

theorem Kal.predict {p q : KalmanPredictor F D} (h : g.Kal p q) {s t : TipState F D} (ht : g.Tip s t) :
    OutRel (List.Forall₂ g.Tip) (p.constructPrediction s) (q.constructPrediction t) := by
  unfold KalmanPredictor.constructPrediction
  have he := h.estimated
  have hl := h.last
  generalize p.getEstimatedState = e at he
  generalize q.getEstimatedState = e' at he
  cases he with
  | none => exact List.Forall₂.nil
  | @some e e' he =>
    generalize p.lastPositionReceived = l at hl
    generalize q.lastPositionReceived = l' at hl
    cases hl with
    | none => exact List.Forall₂.nil
    | some hv =>
      dsimp only
      rw [h.sampling, h.params, h.points he]
      refine (cubicConnector_rel ht he _ _).bind fun c c' hc => ?_
      refine OutRel.bind (OutRel.refl _ (R := (· = ·)) fun _ _ => rfl) ?_
      rintro n _ rfl
      refine forall₂_append hc ?_
      have hg := forall₂_getLast? hc
      generalize c.getLast? = x at hg
      generalize c'.getLast? = x' at hg
      cases hg with
      | none => rw [ht.time]; exact cubicPrediction_rel _ _ he _
      | some h => dsimp only; rw [h.time]; exact cubicPrediction_rel _ _ he _

/-- Predictors that are images of each other. -/
inductive Pred (g : Symmetry) : Predictor F D → Predictor F D → Prop
  | kalman {p q} : g.Kal p q → Pred g (.kalman p) (.kalman q)
  | strokeEnd {p q} : p.position = q.position → p.sampling = q.sampling → Option.Rel g.Vec p.lastPosition q.lastPosition →
    Pred g (.strokeEnd p) (.strokeEnd q)

theorem Pred.reset {p q : Predictor F D} (h : g.Pred p q) : g.Pred p.reset q.reset := by
  cases h with
  | kalman h => exact .kalman h.reset
  | strokeEnd h1 h2 h3 => exact .strokeEnd h1 h2 .none

theorem Pred.update {p q : Predictor F D} (h : g.Pred p q) {a a' : Vec2 F} (ha : g.Vec a a') (τ : D) :
    OutRel g.Pred (p.update a τ) (q.update a' τ) := by
  cases h with
  | kalman h => exact (h.update ha τ).map fun _ _ h => .kalman h
  | strokeEnd h1 h2 h3 => exact Pred.strokeEnd h1 h2 (.some ha)

theorem Pred.predict {p q : Predictor F D} (h : g.Pred p q) {s t : TipState F D} (ht : g.Tip s t) :
    OutRel (List.Forall₂ g.Tip) (p.constructPrediction s) (q.constructPrediction t) := by
  cases h with
  | kalman h => exact h.predict ht
  | @strokeEnd p q h1 h2 h3 =>
    show List.Forall₂ _ _ _
    unfold StrokeEndPredictor.constructPrediction
    rw [h1, h2]
    generalize p.lastPosition = l at h3
    generalize q.lastPosition = l' at h3
    cases h3 with
    | none => exact .nil
    | some hv =>
      exact (Pos.ending (⟨rfl, ht, .none⟩ : g.Pos (PositionModeler.reset s q.position) (PositionModeler.reset t q.position)) hv _ _ _).2

/-! ## The modeler -/

/-- Remembered inputs that are images of each other. -/
structure Last (g : Symmetry) (a b : LastInput F D) : Prop where
  input : g.Inp a.input b.input
  corrected : g.Vec a.correctedPosition b.correctedPosition

/-- Modelers that are images of each other. -/
structure Mod (g : Symmetry) (m n : StrokeModeler F D) : Prop where
  predictor : Option.Rel g.Pred m.predictor n.predictor
  params : m.params = n.params
  allows : ∀ p, n.params = some p → g.Allows p.stylus
  wobble : g.Wob m.wobble n.wobble
  position : g.Pos m.position n.position
  stylus : g.Sty m.stylus n.stylus
  loop : m.loop = n.loop
  last : Option.Rel g.Last m.lastInput n.lastInput
  savedPredictor : Option.Rel g.Pred m.savedPredictor n.savedPredictor
  savedLast : Option.Rel g.Last m.savedLastInput n.savedLastInput
  active : m.saveActive = n.saveActive

theorem Mod.default : g.Mod (StrokeModeler.default : StrokeModeler F D) StrokeModeler.default where
  predictor := .none
  params := rfl
  allows := nofun
  wobble := ⟨rfl, rfl, ⟨.nil, .zero, rfl, rfl⟩, ⟨.nil, .zero, rfl, rfl⟩⟩
  position := ⟨rfl, ⟨.zero, .zero, .zero, rfl⟩, .none⟩
  stylus := ⟨rfl, fun _ => rfl, rfl, ⟨rfl, rfl, rfl, .nil⟩, ⟨rfl, rfl, rfl, .nil⟩⟩
  loop := rfl
  last := .none
  savedPredictor := .none
  savedLast := .none
  active := rfl

theorem makePredictor_rel (p : StrokeModelParams F D) :
    Option.Rel g.Pred (StrokeModeler.makePredictor p) (StrokeModeler.makePredictor p) := by
  unfold StrokeModeler.makePredictor
  split
  · exact .some (.kalman ⟨rfl, rfl, .none, rfl, ⟨rfl, rfl, rfl, ⟨.zero, .zero, .zero, .zero⟩⟩⟩)
  · exact .some (.strokeEnd rfl rfl .none)
  · exact .none

theorem updatePredictor_rel {p q : Option (Predictor F D)} (h : Option.Rel g.Pred p q) {a a' : Vec2 F} (ha : g.Vec a a') (τ : D) :
    OutRel (Option.Rel g.Pred) (updatePredictor p a τ) (updatePredictor q a' τ) := by
  cases h with
  | none => exact Option.Rel.none
  | some h => exact (h.update ha τ).map fun _ _ h => .some h

theorem Inp.stylus {i j : Input F D} (h : g.Inp i j) : stylusStateOf i = stylusStateOf j := by
  unfold stylusStateOf; rw [h.pressure, h.tilt, h.orientation]

theorem sameCode_self (s : Status) : SameCode s s := by cases s <;> simp [SameCode]

theorem validateInput_eq (i : Input F D) : SameCode (validateInput i)
    (if (match i.eventType with | .unknown _ => false | _ => i.position.isFinite && Scalar.isFinite i.time) then .ok
      else .err .invalidArgument "") := by
  have key : SameCode ((validateIsFiniteNumber i.position.x "Input.position.x").andThen <|
      (validateIsFiniteNumber i.position.y "Input.position.y").andThen <| validateIsFiniteNumber i.time "Input.time")
      (if i.position.isFinite && Scalar.isFinite i.time then .ok else .err .invalidArgument "") := by
    unfold validateIsFiniteNumber Vec2.isFinite Scalar.isFinite
    cases isNaN i.position.x <;> cases isInf i.position.x <;> cases isNaN i.position.y <;> cases isInf i.position.y <;>
      cases isNaN i.time <;> cases isInf i.time <;> first | exact rfl | exact trivial
  unfold validateInput
  cases i.eventType with
  | unknown _ => exact rfl
  | _ => exact key

theorem SameCode.symm {s t : Status} (h : SameCode s t) : SameCode t s := by
  cases s <;> cases t <;> simp_all [SameCode]

theorem SameCode.trans {s t u : Status} (h : SameCode s t) (h' : SameCode t u) : SameCode s u := by
  cases s <;> cases t <;> cases u <;> simp_all [SameCode]

theorem Inp.validate {i j : Input F D} (h : g.Inp i j) : SameCode (validateInput i) (validateInput j) := by
  refine (validateInput_eq i).trans (SameCode.trans ?_ (validateInput_eq j).symm)
  rw [h.eventType, h.position.isFinite, h.time]
  exact sameCode_self _

theorem Inp.eq {i i' j j' : Input F D} (h : g.Inp i i') (h' : g.Inp j j') : Input.eq i j = Input.eq i' j' := by
  unfold Input.eq
  rw [h.eventType, h'.eventType, h.position.eq h'.position, h.time, h'.time, h.pressure, h'.pressure, h.tilt, h'.tilt, h.orientation,
    h'.orientation]

/-- What a call yields: modelers that are images of each other, the same status code, and results that are images of each other. -/
def Ans (g : Symmetry) (x y : StrokeModeler F D × Status × List (Result F D)) : Prop :=
  g.Mod x.1 y.1 ∧ SameCode x.2.1 y.2.1 ∧ List.Forall₂ g.Res x.2.2 y.2.2

theorem Mod.down {m n : StrokeModeler F D} (h : g.Mod m n) (p : StrokeModelParams F D) (hp : g.Allows p.stylus) {i j : Input F D}
    (hi : g.Inp i j) {v w : List (Result F D)} (hv : List.Forall₂ g.Res v w) :
    OutRel g.Ans (m.processDown p i v) (n.processDown p j w) := by
  unfold StrokeModeler.processDown
  have hl := h.last
  generalize m.lastInput = a at hl
  generalize n.lastInput = b at hl
  cases hl with
  | some _ => exact ⟨h, rfl, hv⟩
  | none =>
    dsimp only
    rw [hi.stylus, hi.time, h.loop]
    refine ((h.stylus.reset p.stylus hp).update hi.position j.time (stylusStateOf j)).bind fun s t hs => ?_
    have hpr : Option.Rel g.Pred (m.predictor.map Predictor.reset) (n.predictor.map Predictor.reset) := by
      have := h.predictor
      generalize m.predictor = a at this
      generalize n.predictor = b at this
      cases this with
      | none => exact .none
      | some h => exact .some h.reset
    refine (updatePredictor_rel hpr hi.position j.time).bind fun q r hq => ?_
    have hs₀ : g.Tip (StrokeModeler.startState i) (StrokeModeler.startState j) := ⟨hi.position, .zero, .zero, hi.time⟩
    refine ⟨⟨hq, h.params, h.allows, h.wobble.reset _ hi.position _, ⟨rfl, hs₀, .none⟩, hs, rfl, .some ⟨hi, hi.position⟩,
      h.savedPredictor, h.savedLast, h.active⟩, trivial, forall₂_append hv (.cons ?_ .nil)⟩
    exact ⟨hi.position, .zero, .zero, hi.time, .inl hi.pressure, .inl hi.tilt, .inl hi.orientation⟩

theorem Mod.up {m n : StrokeModeler F D} (h : g.Mod m n) (p : StrokeModelParams F D) {i j : Input F D}
    (hi : g.Inp i j) {v w : List (Result F D)} (hv : List.Forall₂ g.Res v w) :
    OutRel g.Ans (m.processUp p i v) (n.processUp p j w) := by
  unfold StrokeModeler.processUp
  have hl := h.last
  generalize m.lastInput = a at hl
  generalize n.lastInput = b at hl
  cases hl with
  | none => exact ⟨h, rfl, hv⟩
  | @some l l' hl =>
    dsimp only
    rw [numberOfSteps h.position.state hl.input hi, h.loop]
    refine OutRel.bind (OutRel.refl _ (R := (· = ·)) fun _ _ => rfl) ?_
    rintro e _ rfl
    cases e with
    | error s => exact ⟨h, sameCode_self s, hv⟩
    | ok k =>
      dsimp only
      have h1 := h.position.along hl.corrected hi.position l.input.time i.time k
      have h2 := h1.1.ending hi.position (1 / p.sampling.minOutputRate) p.sampling.endOfStrokeMaxIterations
        p.sampling.endOfStrokeStoppingDistance
      rw [hl.input.time, hi.time] at h1 h2
      rw [hi.stylus, hi.time, hl.input.time]
      generalize m.position.updateAlongLinearPath l.correctedPosition l'.input.time i.position j.time k = x at h1 h2
      generalize n.position.updateAlongLinearPath l'.correctedPosition l'.input.time j.position j.time k = y at h1 h2
      obtain ⟨x, xs⟩ := x
      obtain ⟨y, ys⟩ := y
      dsimp only at h1 h2 ⊢
      generalize x.modelEndOfStroke i.position (1 / p.sampling.minOutputRate) p.sampling.endOfStrokeMaxIterations
        p.sampling.endOfStrokeStoppingDistance = u at h2
      generalize y.modelEndOfStroke j.position (1 / p.sampling.minOutputRate) p.sampling.endOfStrokeMaxIterations
        p.sampling.endOfStrokeStoppingDistance = w at h2
      obtain ⟨u, us⟩ := u
      obtain ⟨w, ws⟩ := w
      dsimp only at h2 ⊢
      have ht : List.Forall₂ g.Tip (if (xs ++ us).isEmpty then [u.state] else xs ++ us)
          (if (ys ++ ws).isEmpty then [w.state] else ys ++ ws) := by
        have ha := forall₂_append h1.2 h2.2
        rw [isEmpty_rel ha]
        split
        · exact .cons h2.1.state .nil
        · exact ha
      refine (h.stylus.update hi.position j.time (stylusStateOf j)).bind fun s t hs => ?_
      refine (modelStylus_rel hs ht n.loop l'.input.time).bind fun o o' ho => ?_
      obtain ⟨o, os⟩ := o
      obtain ⟨o', os'⟩ := o'
      obtain ⟨rfl, ho⟩ := ho
      exact ⟨⟨h.predictor, h.params, h.allows, h.wobble, h2.1, hs, rfl, .none, h.savedPredictor, h.savedLast, h.active⟩, trivial,
        forall₂_append hv ho⟩

theorem Mod.move {m n : StrokeModeler F D} (h : g.Mod m n) (p : StrokeModelParams F D) {i j : Input F D}
    (hi : g.Inp i j) {v w : List (Result F D)} (hv : List.Forall₂ g.Res v w) :
    OutRel g.Ans (m.processMove p i v) (n.processMove p j w) := by
  unfold StrokeModeler.processMove
  have hl := h.last
  generalize m.lastInput = a at hl
  generalize n.lastInput = b at hl
  cases hl with
  | none => exact ⟨h, rfl, hv⟩
  | @some l l' hl =>
    dsimp only
    rw [hi.stylus, hi.time, hl.input.time, h.loop]
    refine (h.wobble.update hi.position j.time).bind fun c c' hc => ?_
    obtain ⟨c, a⟩ := c
    obtain ⟨c', a'⟩ := c'
    obtain ⟨hc, ha⟩ := hc
    dsimp only at hc ha ⊢
    refine (h.stylus.update ha j.time (stylusStateOf j)).bind fun s t hs => ?_
    rw [numberOfSteps h.position.state hl.input hi]
    refine OutRel.bind (OutRel.refl _ (R := (· = ·)) fun _ _ => rfl) ?_
    rintro e _ rfl
    cases e with
    | error e =>
      exact ⟨⟨h.predictor, h.params, h.allows, hc, h.position, hs, rfl, .some hl, h.savedPredictor, h.savedLast, h.active⟩, sameCode_self e, hv⟩
    | ok k =>
      dsimp only
      have h1 := h.position.along hl.corrected ha l'.input.time j.time k
      generalize m.position.updateAlongLinearPath l.correctedPosition l'.input.time a j.time k = x at h1
      generalize n.position.updateAlongLinearPath l'.correctedPosition l'.input.time a' j.time k = y at h1
      obtain ⟨x, xs⟩ := x
      obtain ⟨y, ys⟩ := y
      dsimp only at h1 ⊢
      refine (updatePredictor_rel h.predictor ha j.time).bind fun q r hq => ?_
      refine (modelStylus_rel hs h1.2 n.loop j.time).bind fun o o' ho => ?_
      obtain ⟨o, os⟩ := o
      obtain ⟨o', os'⟩ := o'
      obtain ⟨rfl, ho⟩ := ho
      exact ⟨⟨hq, h.params, h.allows, hc, h1.1, hs, rfl, .some ⟨hi, ha⟩, h.savedPredictor, h.savedLast, h.active⟩, trivial,
        forall₂_append hv ho⟩

theorem Mod.update {m n : StrokeModeler F D} (h : g.Mod m n) {i j : Input F D}
    (hi : g.Inp i j) {v w : List (Result F D)} (hv : List.Forall₂ g.Res v w) :
    OutRel g.Ans (m.update i v) (n.update j w) := by
  unfold StrokeModeler.update
  rw [h.params]
  cases hp : n.params with
  | none => exact ⟨h, rfl, hv⟩
  | some p =>
    have hval := hi.validate
    dsimp only
    generalize validateInput i = s at hval
    generalize validateInput j = t at hval
    match s, t, hval with
    | .err c _, .err _ _, hc => exact ⟨h, hc, hv⟩
    | .ok, .ok, _ =>
      dsimp only
      have key : OutRel g.Ans
          (match i.eventType with
            | .down => m.processDown p i v
            | .move => m.processMove p i v
            | .up => m.processUp p i v
            | .unknown _ => .ok (m, .err .invalidArgument "Invalid EventType.", v))
          (match j.eventType with
            | .down => n.processDown p j w
            | .move => n.processMove p j w
            | .up => n.processUp p j w
            | .unknown _ => .ok (n, .err .invalidArgument "Invalid EventType.", w)) := by
        rw [hi.eventType]
        cases j.eventType with
        | down => exact h.down p (h.allows p hp) hi hv
        | move => exact h.move p hi hv
        | up => exact h.up p hi hv
        | unknown _ => exact ⟨h, rfl, hv⟩
      have hl := h.last
      generalize m.lastInput = a at hl
      generalize n.lastInput = b at hl
      cases hl with
      | none => exact key
      | some hl =>
        dsimp only
        rw [hl.input.eq hi, hi.time, hl.input.time]
        split
        · exact ⟨h, rfl, hv⟩
        · rename_i hs
          split at hs
          · cases hs
          · split at hs
            · cases hs
            · exact key

theorem Mod.predict {m n : StrokeModeler F D} (h : g.Mod m n) (v w : List (Result F D)) :
    OutRel g.Ans (m.predict v) (n.predict w) := by
  unfold StrokeModeler.predict
  have ha := h.allows
  rw [h.params]
  cases hn : n.params with
  | none => exact ⟨h, rfl, .nil⟩
  | some p =>
    rw [hn] at ha
    have hp := h.predictor
    have hl := h.last
    dsimp only
    generalize m.predictor = a at hp
    generalize n.predictor = b at hp
    cases hp with
    | none => exact ⟨h, rfl, .nil⟩
    | some hp =>
      dsimp only
      generalize m.lastInput = a at hl
      generalize n.lastInput = b at hl
      cases hl with
      | none => exact ⟨h, rfl, .nil⟩
      | some hl =>
        dsimp only
        rw [h.loop, hl.input.time]
        refine (hp.predict h.position.state).bind fun x y hx => ?_
        refine (modelStylus_rel h.stylus hx n.loop _).bind fun o o' ho => ?_
        obtain ⟨o, os⟩ := o
        obtain ⟨o', os'⟩ := o'
        obtain ⟨rfl, ho⟩ := ho
        exact ⟨⟨.some hp, rfl, ha, h.wobble, h.position, h.stylus, rfl, .some hl, h.savedPredictor, h.savedLast, h.active⟩,
          trivial, ho⟩

theorem Mod.save {m n : StrokeModeler F D} (h : g.Mod m n) : g.Mod m.save n.save := by
  refine ⟨h.predictor, h.params, h.allows, h.wobble.save, h.position.save, h.stylus.save, ?_, h.last, ?_, h.last, rfl⟩
  · show m.loop.save = n.loop.save
    rw [h.loop]
  · show Option.Rel g.Pred (match m.predictor with | some p => some p | none => m.savedPredictor)
      (match n.predictor with | some p => some p | none => n.savedPredictor)
    have hp := h.predictor
    generalize m.predictor = a at hp
    generalize n.predictor = b at hp
    cases hp with
    | none => exact h.savedPredictor
    | some hp => exact .some hp

theorem Mod.restore {m n : StrokeModeler F D} (h : g.Mod m n) : g.Mod m.restore n.restore := by
  unfold StrokeModeler.restore
  rw [h.active]
  split
  · exact h
  · refine ⟨?_, h.params, h.allows, h.wobble.restore, h.position.restore, h.stylus.restore, ?_, h.savedLast, h.savedPredictor,
      h.savedLast, rfl⟩
    · dsimp only
      have hp := h.savedPredictor
      generalize m.savedPredictor = a at hp
      generalize n.savedPredictor = b at hp
      cases hp with
      | none => exact h.predictor
      | some hp => exact .some hp
    · dsimp only
      rw [h.loop]

theorem Mod.resetParams {m n : StrokeModeler F D} (h : g.Mod m n) (p : StrokeModelParams F D) (hp : g.Allows p.stylus) :
    g.Mod (m.resetParams p).1 (n.resetParams p).1 ∧ (m.resetParams p).2 = (n.resetParams p).2 := by
  unfold StrokeModeler.resetParams StrokeModeler.resetInternal
  cases validateStrokeModelParams p with
  | err c msg => exact ⟨h, rfl⟩
  | ok =>
    refine ⟨⟨makePredictor_rel p, rfl, ?_, h.wobble, h.position, h.stylus, ?_, .none, h.savedPredictor, h.savedLast, rfl⟩, rfl⟩
    · rintro _ ⟨⟩
      exact hp
    · dsimp only
      rw [h.loop]

theorem Mod.reset {m n : StrokeModeler F D} (h : g.Mod m n) : g.Mod m.reset.1 n.reset.1 ∧ m.reset.2 = n.reset.2 := by
  unfold StrokeModeler.reset
  rw [h.params]
  cases hp : n.params with
  | none => exact ⟨h, rfl⟩
  | some p =>
    exact ⟨⟨h.predictor, h.params, h.allows, h.wobble, h.position, h.stylus, h.loop, .none, h.savedPredictor, h.savedLast, rfl⟩, rfl⟩

theorem Vec.of (v : Vec2 F) : g.Vec v (g.vec v) := ⟨.refl _, .refl _⟩

theorem Res.of (r : Result F D) : g.Res r (g.result r) :=
  ⟨.of _, .of _, .of _, rfl, .refl _, .refl _, .refl _⟩

theorem forall₂_result (v : List (Result F D)) : List.Forall₂ g.Res v (v.map g.result) := by
  induction v with
  | nil => exact .nil
  | cons r v ih => exact .cons (.of r) ih

/-- The parameters of a call allow the symmetry. -/
def AllowsOp (g : Symmetry) : Op F D → Prop
  | .resetParams p => g.Allows p.stylus
  | _ => True

theorem Mod.step {m n : StrokeModeler F D} (h : g.Mod m n) (op : Op F D) (hop : g.AllowsOp op) :
    OutRel (fun x y => g.Mod x.1 y.1 ∧ SameCode x.2.status y.2.status ∧ List.Forall₂ g.Res x.2.results y.2.results)
      (step m op) (step n (g.op op)) := by
  cases op with
  | resetParams p =>
    obtain ⟨h1, h2⟩ := h.resetParams p hop
    exact ⟨h1, by show SameCode (m.resetParams p).2 (n.resetParams p).2; rw [h2]; exact sameCode_self _, .nil⟩
  | reset =>
    obtain ⟨h1, h2⟩ := h.reset
    exact ⟨h1, by show SameCode m.reset.2 n.reset.2; rw [h2]; exact sameCode_self _, .nil⟩
  | update i v =>
    have hi : g.Inp i (g.input i) := ⟨rfl, .of _, rfl, rfl, rfl, rfl⟩
    refine (h.update hi (forall₂_result v)).bind fun x y hx => ?_
    exact hx
  | predict v =>
    refine (h.predict v (v.map g.result)).bind fun x y hx => ?_
    exact hx
  | save => exact ⟨h.save, trivial, .nil⟩
  | restore => exact ⟨h.restore, trivial, .nil⟩

/-- **Turning or mirroring all calls turns or mirrors all results.** -/
theorem Mod.observe {ops : List (Op F D)} (hops : ∀ op ∈ ops, g.AllowsOp op) :
    ∀ {m n : StrokeModeler F D} (_ : g.Mod m n), List.Forall₂ g.Answer (observe m ops) (observe n (ops.map g.op)) := by
  induction ops with
  | nil => intro m n h; exact .nil
  | cons op ops ih =>
    intro m n h
    have hs := h.step op (hops op (by simp))
    rw [List.map_cons]
    unfold Ink.observe
    generalize Ink.step m op = x at hs
    generalize Ink.step n (g.op op) = y at hs
    rcases x with ⟨m', r⟩ | w | _ <;> rcases y with ⟨n', r'⟩ | w' | _
    case ok.ok => exact .cons ⟨hs.2.1, hs.2.2⟩ (ih (fun o ho => hops o (by simp [ho])) hs.1)
    case ub.ub => exact .cons hs .nil
    case diverge.diverge => exact .cons trivial .nil
    all_goals exact hs.elim

end Symmetry
end Ink
