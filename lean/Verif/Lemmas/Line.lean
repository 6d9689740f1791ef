import Verif.Lemmas.Tips
import Verif.Lemmas.Window
import Verif.Lemmas.Query
/-!
# Strokes along an axis, for any arithmetic with suitable laws
-/
namespace Ink
open Scalar Arith

/-- A coordinate: x, or else y. -/
def Vec2.at {F : Type} (b : Bool) (v : Vec2 F) : F := if b then v.x else v.y

/-- The numbers that stand for a coordinate, up to NaN, and how they are computed with. -/
class Lines (F : Type) (C : outParam Type) [Scalar F] where
  On : C → F → Prop
  zeroth : C
  sub : ∀ {c : C} {a b : F}, On c a → On c b → On zeroth (a - b)
  add : ∀ {c : C} {a b : F}, On c a → On zeroth b → On c (a + b)
  mul : ∀ (a : F) {b : F}, On zeroth b → On zeroth (a * b)
  div : ∀ {a : F}, On zeroth a → ∀ b : F, On zeroth (a / b)
  zero : On zeroth 0
  whole : ∀ {c : C} {b : F}, On c b → On c (0 + clamp01 1 * (b - 0))

variable {F D C : Type} [Scalar F] [Scalar D] [Arith F D] [Lines F C] {c : C}

/-- `x` stands for `c`, or is NaN. -/
def OnLine (c : C) (x : F) : Prop := Lines.On c x
def origin (F : Type) {C : Type} [Scalar F] [Lines F C] : C := Lines.zeroth F

section
omit [Scalar D] [Arith F D]
theorem OnLine.sub {a b : F} (ha : OnLine c a) (hb : OnLine c b) : OnLine (origin F) (a - b) := Lines.sub ha hb
theorem OnLine.add {a b : F} (ha : OnLine c a) (hb : OnLine (origin F) b) : OnLine c (a + b) := Lines.add ha hb
theorem OnLine.mul {b : F} (a : F) (hb : OnLine (origin F) b) : OnLine (origin F) (a * b) := Lines.mul a hb
theorem OnLine.div {a : F} (ha : OnLine (origin F) a) (b : F) : OnLine (origin F) (a / b) := Lines.div ha b
theorem OnLine.zero : OnLine (origin F) (0 : F) := Lines.zero

theorem OnLine.interpVec {k : Bool} {a b : Vec2 F} (ha : OnLine c (a.at k)) (hb : OnLine c (b.at k)) (u : F) :
    OnLine c ((interpVec a b u).at k) := by
  have : (Ink.interpVec a b u).at k = a.at k + clamp01 u * (b.at k - a.at k) := by cases k <;> rfl
  rw [this]
  exact ha.add (.mul _ (hb.sub ha))

theorem OnLine.fromZero {k : Bool} {b : Vec2 F} (hb : OnLine c (b.at k)) :
    OnLine c ((Ink.interpVec Vec2.zero b 1).at k) := by
  have : (Ink.interpVec Vec2.zero b 1).at k = 0 + clamp01 1 * (b.at k - 0) := by cases k <;> rfl
  rw [this]
  exact Lines.whole hb
end

/-- A tip state or result on the line `c` in the coordinate `k`. -/
def Along (k : Bool) (c : C) (position velocity acceleration : Vec2 F) : Prop :=
  OnLine c (position.at k) ∧ OnLine (origin F) (velocity.at k) ∧ OnLine (origin F) (acceleration.at k)

abbrev AlongTip (k : Bool) (c : C) (s : TipState F D) : Prop := Along k c s.position s.velocity s.acceleration
abbrev AlongRes (k : Bool) (c : C) (r : Result F D) : Prop := Along k c r.position r.velocity r.acceleration

variable {k : Bool} {c : C} {p : StrokeModelParams F D} {es : List (Event F D)}
  {m : StrokeModeler F D}

/-- With loop mitigation there are samples; without it the interpolation value is 1. -/
theorem Course.samples_or_off (h : Course p es m) : m.stylus.state.inputs ≠ [] ∨ p.position.loop.isEnabled = false := by
  by_cases hl : p.position.loop.isEnabled = false
  · exact .inr hl
  · left
    have hu : p.stylus.useStrokeNormalProjection = true := by
      have := (validParts h.valid).1 (by simpa using hl)
      simpa using this
    obtain ⟨cs, hcs, -, hw⟩ := h.window
    have hmin := (validStylus h.valid).1 hu
    have hlen := (hw.suffix hu).2
    rw [rawSamples_length] at hlen
    have hne : 0 < cs.length := by
      have : cs.length = es.length := by simpa using congrArg List.length hcs
      have hes : es ≠ [] := by cases h <;> simp
      rw [this]
      exact List.length_pos_iff.2 hes
    intro hc
    rw [hc, List.length_nil] at hlen
    omega

theorem Along.step {s : TipState F D} (h : AlongTip k c s) (pp : PositionModelerParams F D)
    {a : Vec2 F} (ha : OnLine c (a.at k)) (t : D) : AlongTip k c (PositionModeler.stepState pp s a t) := by
  obtain ⟨h1, h2, -⟩ := h
  have acc : OnLine (origin F) ((PositionModeler.stepState pp s a t).acceleration.at k) := by
    have : (PositionModeler.stepState pp s a t).acceleration.at k =
      (a.at k - s.position.at k) / pp.springMassConstant - pp.dragConstant * s.velocity.at k := by cases k <;> rfl
    rw [this]
    exact ((ha.sub h1).div _).sub (.mul _ h2)
  have vel : OnLine (origin F) ((PositionModeler.stepState pp s a t).velocity.at k) := by
    have : (PositionModeler.stepState pp s a t).velocity.at k =
      s.velocity.at k + narrow (t - s.time) * (PositionModeler.stepState pp s a t).acceleration.at k := by cases k <;> rfl
    rw [this]
    exact h2.add (.mul _ acc)
  refine ⟨?_, vel, acc⟩
  have : (PositionModeler.stepState pp s a t).position.at k =
    s.position.at k + narrow (t - s.time) * (PositionModeler.stepState pp s a t).velocity.at k := by cases k <;> rfl
  rw [this]
  exact h1.add (.mul _ vel)

theorem Along.path {pp : PositionModelerParams F D} {a b : Vec2 F} (ha : OnLine c (a.at k)) (hb : OnLine c (b.at k))
    (t t' : D) (n : ℤ) (j : ℕ) (i : ℤ) {s : TipState F D} (h : AlongTip k c s) :
    AlongTip k c (PositionModeler.alongPathGo pp a t b t' n j i s).1 ∧
    ∀ x ∈ (PositionModeler.alongPathGo pp a t b t' n j i s).2, AlongTip k c x := by
  induction j generalizing i s with
  | zero => exact ⟨h, by simp [PositionModeler.alongPathGo]⟩
  | succ j ih =>
    have hs := h.step pp (ha.interpVec hb ((ofInt i : F) / (ofInt n : F)))
      (PositionModeler.pathPoint a t b t' n i).2
    obtain ⟨i1, i2⟩ := ih (i + 1) hs
    refine ⟨i1, fun x hx => ?_⟩
    rcases List.mem_cons.1 hx with rfl | hx
    · exact hs
    · exact i2 x hx

theorem Along.ending {pp : PositionModelerParams F D} {a : Vec2 F} (ha : OnLine c (a.at k)) (d : F)
    (j : ℕ) (t : D) {s : TipState F D} (h : AlongTip k c s) :
    AlongTip k c (PositionModeler.endOfStrokeGo pp a d j t s).1 ∧
    ∀ x ∈ (PositionModeler.endOfStrokeGo pp a d j t s).2, AlongTip k c x := by
  induction j generalizing t s with
  | zero => exact ⟨h, by simp [PositionModeler.endOfStrokeGo]⟩
  | succ j ih =>
    have hs := h.step pp ha (s.time + t)
    simp only [PositionModeler.endOfStrokeGo]
    split
    · exact ⟨hs, by simp⟩
    split
    · exact ih _ h
    split
    · exact ⟨hs, by simpa using hs⟩
    · obtain ⟨i1, i2⟩ := ih t hs
      refine ⟨i1, fun x hx => ?_⟩
      rcases List.mem_cons.1 hx with rfl | hx
      · exact hs
      · exact i2 x hx

theorem Along.interp {a b r : Result F D} {u : F} (h : interpResult a b u = .ok r) (ha : AlongRes k c a)
    (hb : AlongRes k c b) : AlongRes k c r := by
  obtain ⟨o, -, rfl⟩ := interpResult_ok h
  exact ⟨ha.1.interpVec hb.1 _, ha.2.1.interpVec hb.2.1 _, ha.2.2.interpVec hb.2.2 _⟩

theorem Along.query {s : StylusModeler F D} {tip : TipState F D}
    {n : Option (Vec2 F)} {q : Result F D} (h : s.query tip n = .ok q)
    (hin : ∀ x ∈ s.state.inputs, AlongRes k c x) : (s.state.inputs = [] ∧ q = StylusModeler.emptyResult) ∨ AlongRes k c q := by
  rcases StylusModeler.query_ok h with h | ⟨-, p, r, hp, hr, rfl⟩
  · exact .inl h
  · right
    change AlongRes k c r
    unfold StylusModeler.projectedResult at hr
    split at hr
    · split at hr
      · rename_i a b ha hb
        exact Along.interp hr (hin _ (List.mem_of_getElem? ha)) (hin _ (List.mem_of_getElem? hb))
      · cases hr
    · split at hr
      · rename_i a b ha hb
        simp only [Outcome.ok.injEq] at hr
        rw [← hr]
        split
        · exact hin _ (List.mem_of_mem_head? ha)
        · exact hin _ (List.mem_of_getLast? hb)
      · cases hr

theorem Along.results {s : StylusModeler F D} {tips : List (TipState F D)}
    {l l' : LoopModeler F D} {u : F} {t : D} {out : List (Result F D)}
    (h : modelStylusGo s tips l u t = .ok (l', out)) (hne : s.state.inputs ≠ [] ∨ (l.params.isEnabled = false ∧ u = 1))
    (hin : ∀ x ∈ s.state.inputs, AlongRes k c x) (ht : ∀ x ∈ tips, AlongTip k c x) : ∀ r ∈ out, AlongRes k c r := by
  induction tips generalizing l l' u t out with
  | nil => simp only [modelStylusGo, Outcome.ok.injEq, Prod.mk.injEq] at h; simp [← h.2]
  | cons tip tips ih =>
    simp only [modelStylusGo] at h
    obtain ⟨q, hq, h⟩ := Outcome.bind_eq_ok.1 h
    obtain ⟨r, hr, h⟩ := Outcome.bind_eq_ok.1 h
    obtain ⟨⟨l₁, out'⟩, h₁, h⟩ := Outcome.bind_eq_ok.1 h
    simp only [Outcome.pure_eq, Outcome.ok.injEq, Prod.mk.injEq] at h
    rw [← h.2]
    intro r' hr'
    have h0 := ht tip (List.mem_cons_self ..)
    rcases List.mem_cons.1 hr' with rfl | hr'
    · rcases Along.query hq hin with ⟨he, rfl⟩ | q1
      · obtain ⟨-, rfl⟩ := hne.resolve_left (absurd he)
        obtain ⟨o, -, rfl⟩ := interpResult_ok hr
        exact ⟨h0.1.fromZero, h0.2.1.fromZero, h0.2.2.fromZero⟩
      · exact Along.interp hr q1 h0
    · refine ih h₁ (hne.imp_right ?_) (fun x hx => ht x (List.mem_cons_of_mem _ hx)) r' hr'
      rintro ⟨hl, -⟩
      exact ⟨by rw [loop_update_params]; exact hl, by simp [LoopModeler.update, hl]⟩

theorem Along.answer {es' : List (Event F D)} {m' : StrokeModeler F D} (h : Course p es m)
    (h' : Course p es' m') {tips : List (TipState F D)} {t : D} {l' : LoopModeler F D}
    {out : List (Result F D)} (hq : modelStylus tips m'.stylus m.loop t = .ok (l', out))
    (hin : ∀ x ∈ m'.stylus.state.inputs, AlongRes k c x) (ht : ∀ x ∈ tips, AlongTip k c x) : ∀ r ∈ out, AlongRes k c r := by
  refine Along.results hq (h'.samples_or_off.imp_right fun hl => ?_) hin ht
  have : m.loop.params.isEnabled = false := by rw [h.paramsOf.loop]; exact hl
  exact ⟨this, by simp [LoopModeler.getInterpolationValue, this]⟩

theorem Along.sample {last : Option (Result F D)} (hl : ∀ x, last = some x → AlongRes k c x) {a : Vec2 F}
    (ha : OnLine c (a.at k)) (t : D) (s : StylusState F) : AlongRes k c (StylusModeler.rawResult last a t s) := by
  have z : OnLine (origin F) ((Vec2.zero : Vec2 F).at k) := by cases k <;> exact .zero
  unfold StylusModeler.rawResult
  cases last with
  | none => exact ⟨ha, z, z⟩
  | some x =>
    obtain ⟨h1, h2, -⟩ := hl x rfl
    dsimp only
    split
    · have v : OnLine (origin F) (((a - x.position) /ᵥ (narrow (t - x.time) : F)).at k) := by
        have : ((a - x.position) /ᵥ (narrow (t - x.time) : F)).at k = (a.at k - x.position.at k) / narrow (t - x.time) := by
          cases k <;> rfl
        rw [this]
        exact (ha.sub h1).div _
      refine ⟨ha, v, ?_⟩
      generalize ((a - x.position) /ᵥ (narrow (t - x.time) : F)) = w at v
      have : ((w - x.velocity) /ᵥ (narrow (t - x.time) : F)).at k = (w.at k - x.velocity.at k) / narrow (t - x.time) := by
        cases k <;> rfl
      change OnLine (origin F) (((w - x.velocity) /ᵥ (narrow (t - x.time) : F)).at k)
      rw [this]
      exact (v.sub h2).div _
    · exact ⟨ha, z, z⟩

theorem Along.samples {s s' : StylusModeler F D} {a : Vec2 F} {t : D} {st : StylusState F}
    (h : s.update a t st = .ok s') (ha : OnLine c (a.at k)) (hin : ∀ x ∈ s.state.inputs, AlongRes k c x) :
    ∀ x ∈ s'.state.inputs, AlongRes k c x := by
  intro x hx
  rcases List.mem_append.1 ((stylus_update_inputs h).subset hx) with hx | hx
  · exact hin x hx
  · rw [List.mem_singleton.1 hx]
    exact Along.sample (fun y hy => hin y (List.mem_of_getLast? hy)) ha _ _

/-- What the Kalman predictor needs besides: numbers of the wider type, which stand for the same coordinates. -/
class Rails (F D : Type) (C : outParam Type) [Scalar F] [Scalar D] [Arith F D] [Lines F C] where
  Far : C → D → Prop
  widen : ∀ {c : C} {x : F}, OnLine c x → Far c (widen x)
  narrow : ∀ {c : C} {x : D}, Far c x → OnLine c (narrow x : F)
  zero : Far (origin F) 0
  add : ∀ {c : C} {a b : D}, Far c a → Far (origin F) b → Far c (a + b)
  radd : ∀ {c : C} {a b : D}, Far (origin F) a → Far c b → Far c (a + b)
  sub : ∀ {c : C} {a b : D}, Far c a → Far c b → Far (origin F) (a - b)
  mul : ∀ (a : D) {b : D}, Far (origin F) b → Far (origin F) (a * b)
  rmul : ∀ {a : D}, Far (origin F) a → ∀ b : D, Far (origin F) (a * b)
  one : ∀ {c : C} {a : D}, Far c a → Far c (1 * a)
  rone : ∀ {c : C} {a : D}, Far c a → Far c (a * 1)
  join : ∀ {c : C} {a b : F}, OnLine (origin F) a → OnLine c b → OnLine c (a + b)
  twice : ∀ {c : C} {a b : F}, OnLine c a → OnLine c b → OnLine (origin F) (2 * a - 2 * b)
  thrice : ∀ {c : C} {a b : F}, OnLine c a → OnLine c b → OnLine (origin F) ((-3) * a + 3 * b)

variable [Rails F D C]

/-- The estimate of an axis: at `c` and not moving. -/
structure Still (F : Type) {D C : Type} [Scalar F] [Scalar D] [Arith F D] [Lines F C] [Rails F D C] (c : C) (v : Vec4 D) : Prop where
  e0 : Rails.Far F c v.e0
  e1 : Rails.Far F (origin F) v.e1
  e2 : Rails.Far F (origin F) v.e2
  e3 : Rails.Far F (origin F) v.e3

/-- The filter of an axis that has seen only `c`. -/
structure Watches (F : Type) {D C : Type} [Scalar F] [Scalar D] [Arith F D] [Lines F C] [Rails F D C] (c : C) (f : KalmanFilter D) : Prop where
  transition : f.stateTransition = (makeKalmanFilter (0 : D) 0 0).stateTransition
  measurement : f.measurementVector = ⟨1, 0, 0, 0⟩
  state : (f.iterNum = 0 ∧ f.stateEstimation = Vec4.zero) ∨ Still F c f.stateEstimation

theorem Still.predict {v : Vec4 D} (h : Still F c v) :
    Still F c ((makeKalmanFilter (0 : D) 0 0).stateTransition.mulVec v) := by
  obtain ⟨h0, h1, h2, h3⟩ := h
  have z : Rails.Far F (origin F) (0 : D) := Rails.zero
  have zc : ∀ b : D, Rails.Far F (origin F) (b * 0) := fun b => Rails.mul b z
  exact ⟨Rails.add (Rails.add (Rails.add (Rails.radd z (Rails.rone h0)) (Rails.rmul h1 _)) (Rails.rmul h2 _)) (Rails.rmul h3 _),
    Rails.add (Rails.add (Rails.add (Rails.add z (zc _)) (Rails.rmul h1 _)) (Rails.rmul h2 _)) (Rails.rmul h3 _),
    Rails.add (Rails.add (Rails.add (Rails.add z (zc _)) (Rails.rmul h1 _)) (Rails.rmul h2 _)) (Rails.rmul h3 _),
    Rails.add (Rails.add (Rails.add (Rails.add z (zc _)) (Rails.rmul h1 _)) (Rails.rmul h2 _)) (Rails.rmul h3 _)⟩

theorem Still.correct {v g : Vec4 D} {o : D} (h : Still F c v) (ho : Rails.Far F c o) :
    Still F c (v.add (g.scale (o - Vec4.dot ⟨1, 0, 0, 0⟩ v))) := by
  obtain ⟨h0, h1, h2, h3⟩ := h
  have z : Rails.Far F (origin F) (0 : D) := Rails.zero
  have d : Rails.Far F c (Vec4.dot ⟨1, 0, 0, 0⟩ v) :=
    Rails.add (Rails.add (Rails.add (Rails.radd z (Rails.one h0)) (Rails.rmul z _)) (Rails.rmul z _)) (Rails.rmul z _)
  have y := Rails.sub ho d
  exact ⟨Rails.add h0 (Rails.mul _ y), Rails.add h1 (Rails.mul _ y), Rails.add h2 (Rails.mul _ y), Rails.add h3 (Rails.mul _ y)⟩

theorem Watches.update {f f' : KalmanFilter D} {o : D} (h : f.update o = .ok f') (hf : Watches F c f) (ho : Rails.Far F c o) :
    Watches F c f' ∧ Still F c f'.stateEstimation := by
  have z : Rails.Far F (origin F) (0 : D) := Rails.zero
  unfold KalmanFilter.update at h
  split at h
  · cases h
  dsimp only at h
  split at h
  · rename_i hi
    cases h
    have : Still F c { f.stateEstimation with e0 := o } := by
      rcases hf.state with ⟨-, e⟩ | e
      · rw [e]; exact ⟨ho, z, z, z⟩
      · exact ⟨ho, e.e1, e.e2, e.e3⟩
    exact ⟨⟨hf.transition, hf.measurement, .inr this⟩, this⟩
  · rename_i hi
    cases h
    have hs := hf.state.resolve_left fun h => hi h.1
    have := (hs.predict).correct (g := (Matrix4.vecMul f.measurementVector
      { f with iterNum := f.iterNum + 1 }.predict.errorCovariance).divs (Vec4.dot (Matrix4.vecMul f.measurementVector
      { f with iterNum := f.iterNum + 1 }.predict.errorCovariance) f.measurementVector + f.measurementNoiseVariance)) ho
    have e : Still F c ({ f with iterNum := f.iterNum + 1 }.predict.correct o).stateEstimation := by
      rw [← hf.transition, ← hf.measurement] at this
      exact this
    exact ⟨⟨hf.transition, hf.measurement, .inr e⟩, e⟩

/-- The filter of the coordinate `k`. -/
def KalmanPredictor.at (k : Bool) (q : KalmanPredictor F D) : KalmanFilter D := if k then q.xPredictor else q.yPredictor

/-- The predictor has seen only positions on the line. -/
def PredictorOn (k : Bool) (c : C) : Option (Predictor F D) → Prop
  | some (.strokeEnd q) => ∀ a, q.lastPosition = some a → OnLine c (a.at k)
  | some (.kalman q) => Watches F c (q.at k) ∧ (q.lastPositionReceived.isSome → Still F c (q.at k).stateEstimation)
  | none => True

theorem predictor_start (p : StrokeModelParams F D) : PredictorOn k c (StrokeModeler.makePredictor p) := by
  unfold StrokeModeler.makePredictor
  split
  · refine ⟨?_, by simp [KalmanPredictor.make]⟩
    cases k <;> exact ⟨rfl, rfl, .inl ⟨rfl, rfl⟩⟩
  · intro a h; cases h
  · trivial

theorem predictor_ruled {pr pr' : Option (Predictor F D)} {a : Vec2 F} {t : D}
    (h : updatePredictor pr a t = .ok pr') (ha : OnLine c (a.at k)) (hq : PredictorOn k c pr) : PredictorOn k c pr' := by
  match pr, h, hq with
  | none, h, _ => cases h; trivial
  | some (.strokeEnd q), h, _ =>
    cases h
    intro b hb
    cases hb
    exact ha
  | some (.kalman q), h, hq =>
    simp only [updatePredictor, Predictor.update] at h
    cases hu : q.update a t with
    | ub => simp [hu] at h
    | diverge => simp [hu] at h
    | ok q₂ =>
    simp only [hu, Outcome.map_ok, Outcome.ok.injEq] at h
    subst h
    unfold KalmanPredictor.update at hu
    obtain ⟨x, hx, h⟩ := Outcome.bind_eq_ok.1 hu
    obtain ⟨y, hy, h⟩ := Outcome.bind_eq_ok.1 h
    simp only [Outcome.pure_eq, Outcome.ok.injEq] at h
    subst h
    cases k
    · obtain ⟨a1, a2⟩ := Watches.update hy hq.1 (Rails.widen ha)
      exact ⟨a1, fun _ => a2⟩
    · obtain ⟨a1, a2⟩ := Watches.update hx hq.1 (Rails.widen ha)
      exact ⟨a1, fun _ => a2⟩

/-- A motion on the line. -/
structure Glides (k : Bool) (c : C) (s : KalmanState F) : Prop where
  position : OnLine c (s.position.at k)
  velocity : OnLine (origin F) (s.velocity.at k)
  acceleration : OnLine (origin F) (s.acceleration.at k)
  jerk : OnLine (origin F) (s.jerk.at k)

theorem Glides.estimate {q : KalmanPredictor F D} (h : Still F c (q.at k).stateEstimation) (dt : F) : Glides k c (q.estimate dt) := by
  cases k <;> exact ⟨Rails.narrow h.e0, .div (Rails.narrow h.e1) _, .mul _ (.div (Rails.narrow h.e2) _), .mul _ (.div (Rails.narrow h.e3) _)⟩

omit [Scalar D] [Rails F D C] in
theorem Glides.next {s : KalmanState F} (h : Glides k c s) (dt : D) : Glides k c (evaluateCubic s dt) := by
  obtain ⟨h0, h1, h2, h3⟩ := h
  cases k <;> exact ⟨.add (.add (.add h0 (.mul _ h1)) (.div (.mul _ h2) _)) (.div (.mul _ h3) _), .add (.add h1 (.mul _ h2)) (.div (.mul _ h3) _),
    .add h2 (.mul _ h3), h3⟩

omit [Rails F D C] in
theorem Glides.path {s : KalmanState F} (h : Glides k c s) (dt : D) (n : ℕ) (t : D) :
    ∀ x ∈ KalmanPredictor.cubicPrediction dt n s t, AlongTip k c x := by
  induction n generalizing s t with
  | zero => simp [KalmanPredictor.cubicPrediction]
  | succ n ih =>
    intro x hx
    have hn := h.next dt
    rcases List.mem_cons.1 hx with rfl | hx
    · exact ⟨hn.position, hn.velocity, hn.acceleration⟩
    · exact ih hn _ x hx

theorem Glides.connector {s : KalmanState F} (h : Glides k c s) {last : TipState F D} (hl : AlongTip k c last) (fd : F) (t0 du : D) (n : ℤ)
    (j : ℕ) (i : ℤ) : ∀ x ∈ KalmanPredictor.connectorGo (KalmanPredictor.connectorCubic last s fd) t0 du fd n j i, AlongTip k c x := by
  obtain ⟨h0, h1, -, -⟩ := h
  obtain ⟨l0, l1, -⟩ := hl
  have a : OnLine (origin F) ((KalmanPredictor.connectorCubic last s fd).a.at k) := by
    cases k <;> exact .add (Rails.twice (D := D) l0 h0) (.mul _ (.add l1 h1))
  have b : OnLine (origin F) ((KalmanPredictor.connectorCubic last s fd).b.at k) := by
    cases k <;> exact .sub (Rails.thrice (D := D) l0 h0) (.mul _ (.add (.mul _ l1) h1))
  have e : OnLine (origin F) ((KalmanPredictor.connectorCubic last s fd).c.at k) := by
    cases k <;> exact .mul _ l1
  have d : OnLine c ((KalmanPredictor.connectorCubic last s fd).d.at k) := l0
  generalize KalmanPredictor.connectorCubic last s fd = cu at a b e d
  induction j generalizing i with
  | zero => simp [KalmanPredictor.connectorGo]
  | succ j ih =>
    intro x hx
    rcases List.mem_cons.1 hx with rfl | hx
    · cases k <;> exact ⟨Rails.join (D := D) (.add (.add (.mul _ a) (.mul _ b)) (.mul _ e)) d,
        .div (.add (.add (.mul _ (.mul _ a)) (.mul _ (.mul _ b))) e) _, .div (.add (.mul _ (.mul _ a)) (.mul _ b)) _⟩
    · exact ih _ x hx

theorem Along.predicted {pr : Predictor F D} (hp : PredictorOn k c (some pr)) {last : TipState F D} (hl : AlongTip k c last)
    {tips : List (TipState F D)} (h : pr.constructPrediction last = .ok tips) : ∀ x ∈ tips, AlongTip k c x := by
  cases pr with
  | strokeEnd q =>
    simp only [Predictor.constructPrediction, Outcome.ok.injEq] at h
    subst h
    intro x hx
    unfold StrokeEndPredictor.constructPrediction at hx
    split at hx
    · cases hx
    · rename_i a ha
      exact (Along.ending (hp a ha) _ _ _ hl).2 x hx
  | kalman q =>
    simp only [Predictor.constructPrediction] at h
    unfold KalmanPredictor.constructPrediction at h
    split at h
    · rename_i est y hest hy
      simp only at h
      obtain ⟨conn, hc, h⟩ := Outcome.bind_eq_ok.1 h
      obtain ⟨n, -, h⟩ := Outcome.bind_eq_ok.1 h
      simp only [Outcome.pure_eq, Outcome.ok.injEq] at h
      subst h
      unfold KalmanPredictor.cubicConnector at hc
      obtain ⟨i, -, hc⟩ := Outcome.bind_eq_ok.1 hc
      simp only [Outcome.pure_eq, Outcome.ok.injEq] at hc
      subst hc
      have g : Glides k c est := by
        unfold KalmanPredictor.getEstimatedState at hest
        split at hest
        · cases hest
        split at hest
        · cases hest
          exact .estimate (hp.2 (by rw [hy]; rfl)) _
        · cases hest
      intro x hx
      rcases List.mem_append.1 hx with hx | hx
      · exact g.connector hl _ _ _ _ _ _ x hx
      · exact g.path _ _ _ x hx
    · cases h
      simp

/-- The modeler is on the line. -/
structure Ruled (W : WobbleSmoother F D → Prop) (k : Bool) (c : C) (m : StrokeModeler F D) : Prop where
  tip : AlongTip k c m.position.state
  samples : ∀ x ∈ m.stylus.state.inputs, AlongRes k c x
  wobble : W m.wobble
  last : ∀ l, m.lastInput = some l → OnLine c (l.correctedPosition.at k)
  predictor : PredictorOn k c m.predictor

/-- An invariant of wobble smoothing by which the smoothed positions stay on the line. -/
structure Smooths (k : Bool) (c : C) (p : WobbleParams F D) (W : WobbleSmoother F D → Prop) : Prop where
  start : ∀ {i : Input F D}, FiniteInput i → OnLine c (i.position.at k) → W (WobbleSmoother.default.reset p i.position i.time)
  next : ∀ {w w' : WobbleSmoother F D} {i : Input F D} {x : Vec2 F}, FiniteInput i → OnLine c (i.position.at k) → W w →
    w.update i.position i.time = .ok (w', x) → W w' ∧ OnLine c (x.at k)

theorem Course.ruled {W : WobbleSmoother F D → Prop} (h : Course p es m) (hW : Smooths k c p.wobble W)
    (hin : ∀ f ∈ es, OnLine c (f.input.position.at k)) : Ruled W k c m ∧ ∀ r ∈ resultsOf es, AlongRes k c r := by
  have z : OnLine (origin F) ((Vec2.zero : Vec2 F).at k) := by cases k <;> exact .zero
  induction h with
  | @down i stylus predictor hv he hf hs hp =>
    have hi := hin _ (List.mem_singleton.2 rfl)
    refine ⟨⟨⟨hi, z, z⟩, Along.samples hs hi (by simp [StylusModeler.reset, StylusModelerState.default]), hW.start hf hi, ?_, ?_⟩, ?_⟩
    · rintro l ⟨⟩
      exact hi
    · exact predictor_ruled hp hi (predictor_start p)
    · intro r hr
      simp [resultsOf] at hr
      subst hr
      exact ⟨hi, z, z⟩
  | @move es m last i wobble corrected stylus n predictor loop out hm hl he hfi hwu hs hn hp hq ih =>
    obtain ⟨r, hres⟩ := ih fun f hf => hin f (List.mem_append_left _ hf)
    have hi := hin ⟨i, some out⟩ (by simp)
    obtain ⟨w1, w2⟩ := hW.next hfi.toFiniteInput hi r.wobble hwu
    have hsam := Along.samples hs w2 r.samples
    obtain ⟨p1, p2⟩ := Along.path (pp := m.position.params) (r.last _ hl) w2 last.input.time i.time n n.toNat 1 r.tip
    refine ⟨⟨p1, hsam, w1, ?_, ?_⟩, ?_⟩
    · rintro l ⟨⟩
      exact w2
    · exact predictor_ruled hp w2 r.predictor
    · intro x hx
      rw [resultsOf, List.flatMap_append, List.mem_append] at hx
      rcases hx with hx | hx
      · exact hres x hx
      · exact Along.answer hm (.move hm hl he hfi hwu hs hn hp hq) hq hsam p2 x (by simpa using hx)
  | @late es m last i wobble corrected stylus s hm hl he hfi hwu hs hn ih =>
    obtain ⟨r, hres⟩ := ih fun f hf => hin f (List.mem_append_left _ hf)
    have hi := hin ⟨i, none⟩ (by simp)
    obtain ⟨w1, w2⟩ := hW.next hfi.toFiniteInput hi r.wobble hwu
    have e2 : resultsOf (es ++ [⟨i, none⟩]) = resultsOf es := by simp [resultsOf]
    rw [e2]
    exact ⟨⟨r.tip, Along.samples hs w2 r.samples, w1, r.last, r.predictor⟩, hres⟩
  | @up es m last i stylus n loop out hm hl he hfi hs hn hq ih =>
    obtain ⟨r, hres⟩ := ih fun f hf => hin f (List.mem_append_left _ hf)
    have hi := hin ⟨i, some out⟩ (by simp)
    have hsam := Along.samples hs hi r.samples
    obtain ⟨p1, p2⟩ := Along.path (pp := m.position.params) (r.last _ hl) hi last.input.time i.time n n.toNat 1 r.tip
    obtain ⟨q1, q2⟩ := Along.ending (pp := m.position.params) hi p.sampling.endOfStrokeStoppingDistance
      p.sampling.endOfStrokeMaxIterations.toNat (1 / p.sampling.minOutputRate) p1
    refine ⟨⟨q1, hsam, r.wobble, by simp, r.predictor⟩, ?_⟩
    intro x hx
    rw [resultsOf, List.flatMap_append, List.mem_append] at hx
    rcases hx with hx | hx
    · exact hres x hx
    · refine Along.answer hm (.up hm hl he hfi hs hn hq) hq hsam ?_ x (by simpa using hx)
      intro y hy
      unfold StrokeModeler.upTips at hy
      dsimp only at hy
      split at hy
      · rw [List.mem_singleton.1 hy]
        exact q1
      · rcases List.mem_append.1 hy with hy | hy
        · exact p2 y hy
        · exact q2 y hy

end Ink
