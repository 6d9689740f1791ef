import Verif.Spec.Symmetry
import Verif.Lemmas.Equiv
/-!
# The modeler respects the symmetries of the coordinate axes

For any arithmetic with the laws below; IEEE floats and exact numbers have them.
-/
set_option linter.unusedSectionVars false
namespace Ink
open Scalar Arith

theorem Alike.refl {α : Type} [Scalar α] (a : α) : a ≋ a := .inl rfl

theorem Alike.symm {α : Type} [Scalar α] {a b : α} (h : a ≋ b) : b ≋ a := h.elim (fun h => .inl h.symm) fun h => .inr h.symm

theorem Alike.trans {α : Type} [Scalar α] {a b c : α} (h : a ≋ b) (h' : b ≋ c) : a ≋ c := by
  rcases h with rfl | h
  · exact h'
  · rcases h' with rfl | h'
    · exact .inr h
    · exact .inr ⟨h.1, h'.2⟩

/-- What is needed of one number type. -/
class SignLaws (α : Type) [Scalar α] : Prop where
  add_comm (a b : α) : a + b = b + a
  mul_comm (a b : α) : a * b = b * a
  neg_neg (a : α) : -(-a) = a
  mul_neg (a b : α) : a * -b = -(a * b)
  neg_div (a b : α) : -a / b = -(a / b)
  sub_def (a b : α) : a - b = a + -b
  neg_add (a b : α) : -(a + b) ≋ -a + -b
  neg_zero : -(0 : α) ≋ 0
  add_left {a a' : α} (h : a ≋ a') (b : α) : a + b ≋ a' + b
  mul_left {a a' : α} (h : a ≋ a') (b : α) : a * b ≋ a' * b
  div_left {a a' : α} (h : a ≋ a') (b : α) : a / b ≋ a' / b
  neg_alike {a a' : α} (h : a ≋ a') : -a ≋ -a'
  mul_self {a a' : α} (h : a ≋ a') : a * a = a' * a'
  lt_left {a a' : α} (h : a ≋ a') (b : α) : (a <ᵇ b) = (a' <ᵇ b)
  lt_right {a a' : α} (h : a ≋ a') (b : α) : (b <ᵇ a) = (b <ᵇ a')
  le_left {a a' : α} (h : a ≋ a') (b : α) : (a ≤ᵇ b) = (a' ≤ᵇ b)
  le_right {a a' : α} (h : a ≋ a') (b : α) : (b ≤ᵇ a) = (b ≤ᵇ a')
  eq_left {a a' : α} (h : a ≋ a') (b : α) : (a =ᵇ b) = (a' =ᵇ b)
  eq_right {a a' : α} (h : a ≋ a') (b : α) : (b =ᵇ a) = (b =ᵇ a')
  eq_neg (a b : α) : (-a =ᵇ -b) = (a =ᵇ b)
  isNaN_alike {a a' : α} (h : a ≋ a') : isNaN a = isNaN a'
  isInf_alike {a a' : α} (h : a ≋ a') : isInf a = isInf a'
  isNaN_neg (a : α) : isNaN (-a) = isNaN a
  isInf_neg (a : α) : isInf (-a) = isInf a
  abs_alike {a a' : α} (h : a ≋ a') : Scalar.abs a = Scalar.abs a'
  lt_zero : ((0 : α) <ᵇ 0) = false
  zero_eq : ((0 : α) =ᵇ 0) = true

/-- What is needed of the operations that connect both number types. -/
class ArithLaws (F : Type) {D : Type} [Scalar F] [Scalar D] [Arith F D] : Prop where
  widen_alike {a a' : F} (h : a ≋ a') : (widen a : D) ≋ widen a'
  narrow_alike {a a' : D} (h : a ≋ a') : (narrow a : F) ≋ narrow a'
  widen_neg (a : F) : (widen (-a) : D) = -widen a
  narrow_neg (a : D) : (narrow (-a) : F) = -narrow a
  hypot_left {a a' : F} (h : a ≋ a') (b : F) : hypot a b = hypot a' b
  hypot_neg (a b : F) : hypot (-a) b = hypot a b
  hypot_comm (a b : F) : hypot a b = hypot b a
  acos_alike {a a' : F} (h : a ≋ a') : acos a = acos a'
  twoPi_zero : (twoPi F <ᵇ widen (0 : F)) = false

variable {α F D : Type} [Scalar α] [Scalar F] [Scalar D] [Arith F D] [SignLaws α] [SignLaws F] [SignLaws D] [ArithLaws F]

namespace Alike
open SignLaws

theorem add {a a' b b' : α} (h : a ≋ a') (h' : b ≋ b') : a + b ≋ a' + b' := by
  refine (add_left h b).trans ?_
  rw [add_comm a' b, add_comm a' b']
  exact add_left h' a'

theorem neg {a a' : α} (h : a ≋ a') : -a ≋ -a' := neg_alike h

theorem sub {a a' b b' : α} (h : a ≋ a') (h' : b ≋ b') : a - b ≋ a' - b' := by
  rw [sub_def, sub_def]; exact add h (neg h')

theorem mul {a a' b b' : α} (h : a ≋ a') (h' : b ≋ b') : a * b ≋ a' * b' := by
  refine (mul_left h b).trans ?_
  rw [mul_comm a' b, mul_comm a' b']
  exact mul_left h' a'

theorem div {a a' : α} (h : a ≋ a') (b : α) : a / b ≋ a' / b := div_left h b

theorem neg_sub (a b : α) : -(a - b) ≋ -a - -b := by
  rw [sub_def, sub_def]; exact neg_add _ _

theorem lt {a a' b b' : α} (h : a ≋ a') (h' : b ≋ b') : (a <ᵇ b) = (a' <ᵇ b') := (lt_left h b).trans (lt_right h' a')
theorem le {a a' b b' : α} (h : a ≋ a') (h' : b ≋ b') : (a ≤ᵇ b) = (a' ≤ᵇ b') := (le_left h b).trans (le_right h' a')
theorem eq {a a' b b' : α} (h : a ≋ a') (h' : b ≋ b') : (a =ᵇ b) = (a' =ᵇ b') := (eq_left h b).trans (eq_right h' a')

theorem neg_mul (a b : α) : -a * b = -(a * b) := by rw [mul_comm, mul_neg, mul_comm]

theorem clamp01 {a a' : α} (h : a ≋ a') : Ink.clamp01 a ≋ Ink.clamp01 a' := by
  unfold Ink.clamp01 stdClamp
  rw [lt_left h, lt_right h]
  split
  · exact refl _
  · split
    · exact refl _
    · exact h

theorem interp {a a' b b' t t' : α} (h : a ≋ a') (h' : b ≋ b') (ht : t ≋ t') : Ink.interp a b t ≋ Ink.interp a' b' t' :=
  add h (mul (sub h' h) (clamp01 ht))

end Alike

namespace Symmetry
open SignLaws
variable {g : Symmetry}

theorem Vec.add {v v' w w' : Vec2 α} (h : g.Vec v v') (h' : g.Vec w w') : g.Vec (v + w) (v' + w') := by
  cases g
  · exact ⟨(neg_add _ _).trans (h.x.add h'.x), h.y.add h'.y⟩
  · exact ⟨h.x.add h'.x, (neg_add _ _).trans (h.y.add h'.y)⟩

theorem Vec.sub {v v' w w' : Vec2 α} (h : g.Vec v v') (h' : g.Vec w w') : g.Vec (v - w) (v' - w') := by
  cases g
  · exact ⟨(Alike.neg_sub _ _).trans (h.x.sub h'.x), h.y.sub h'.y⟩
  · exact ⟨h.x.sub h'.x, (Alike.neg_sub _ _).trans (h.y.sub h'.y)⟩

theorem Vec.smul {v v' : Vec2 α} {s s' : α} (hs : s ≋ s') (h : g.Vec v v') : g.Vec (s •ᵥ v) (s' •ᵥ v') := by
  cases g
  · exact ⟨(Alike.trans (.inl (mul_neg _ _).symm) (hs.mul h.x)), hs.mul h.y⟩
  · exact ⟨hs.mul h.x, (Alike.trans (.inl (mul_neg _ _).symm) (hs.mul h.y))⟩

theorem Vec.smul' {v v' : Vec2 α} (s : α) (h : g.Vec v v') : g.Vec (s •ᵥ v) (s •ᵥ v') := .smul (.refl s) h

theorem Vec.sdiv {v v' : Vec2 α} (h : g.Vec v v') (s : α) : g.Vec (v /ᵥ s) (v' /ᵥ s) := by
  cases g
  · exact ⟨(Alike.trans (.inl (neg_div _ _).symm) (h.x.div s)), h.y.div s⟩
  · exact ⟨h.x.div s, (Alike.trans (.inl (neg_div _ _).symm) (h.y.div s))⟩

theorem Vec.zero : g.Vec (Vec2.zero : Vec2 α) Vec2.zero := by
  cases g
  · exact ⟨neg_zero, .refl _⟩
  · exact ⟨.refl _, neg_zero⟩

theorem Vec.self (v : Vec2 α) : g.Vec v (g.vec v) := ⟨.refl _, .refl _⟩

theorem Vec.dot {v v' w w' : Vec2 α} (h : g.Vec v v') (h' : g.Vec w w') : Vec2.dot v w ≋ Vec2.dot v' w' := by
  cases g
  · refine Alike.trans (.inl ?_) ((h.x.mul h'.x).add (h.y.mul h'.y))
    show v.x * w.x + v.y * w.y = -v.y * -w.y + v.x * w.x
    rw [Alike.neg_mul, mul_neg, SignLaws.neg_neg, SignLaws.add_comm]
  · refine Alike.trans (.inl ?_) ((h.x.mul h'.x).add (h.y.mul h'.y))
    show v.x * w.x + v.y * w.y = v.x * w.x + -v.y * -w.y
    rw [Alike.neg_mul, mul_neg, SignLaws.neg_neg]

theorem Vec.dot_self {v v' : Vec2 α} (h : g.Vec v v') : Vec2.dot v v = Vec2.dot v' v' := by
  unfold Vec2.dot
  rw [← mul_self h.x, ← mul_self h.y]
  cases g
  · show _ = -v.y * -v.y + v.x * v.x
    rw [Alike.neg_mul, mul_neg, SignLaws.neg_neg, SignLaws.add_comm]
  · show _ = v.x * v.x + -v.y * -v.y
    rw [Alike.neg_mul, mul_neg, SignLaws.neg_neg]

theorem Vec.eq {v v' w w' : Vec2 α} (h : g.Vec v v') (h' : g.Vec w w') : Vec2.eq v w = Vec2.eq v' w' := by
  unfold Vec2.eq
  rw [← h.x.eq h'.x, ← h.y.eq h'.y]
  cases g
  · show _ = ((-v.y =ᵇ -w.y) && (v.x =ᵇ w.x))
    rw [eq_neg, Bool.and_comm]
  · show _ = ((v.x =ᵇ w.x) && (-v.y =ᵇ -w.y))
    rw [eq_neg]

theorem Vec.isFinite {v v' : Vec2 α} (h : g.Vec v v') : v.isFinite = v'.isFinite := by
  unfold Vec2.isFinite Scalar.isFinite
  rw [← isNaN_alike h.x, ← isNaN_alike h.y, ← isInf_alike h.x, ← isInf_alike h.y]
  cases g
  · show _ = ((!isNaN (-v.y) && !isInf (-v.y)) && (!isNaN v.x && !isInf v.x))
    rw [isNaN_neg, isInf_neg, Bool.and_comm]
  · show _ = ((!isNaN v.x && !isInf v.x) && (!isNaN (-v.y) && !isInf (-v.y)))
    rw [isNaN_neg, isInf_neg]

theorem Vec.magnitude {v v' : Vec2 F} (h : g.Vec v v') : v.magnitude = v'.magnitude := by
  unfold Vec2.magnitude
  rw [← ArithLaws.hypot_left h.x, ArithLaws.hypot_comm _ v'.y, ← ArithLaws.hypot_left h.y]
  cases g
  · show _ = hypot v.x (-v.y)
    rw [ArithLaws.hypot_comm v.x (-v.y), ArithLaws.hypot_neg, ArithLaws.hypot_comm]
  · show _ = hypot (-v.y) v.x
    rw [ArithLaws.hypot_neg, ArithLaws.hypot_comm]

theorem Vec.distance {v v' w w' : Vec2 F} (h : g.Vec v v') (h' : g.Vec w w') : distance v w = distance v' w' := (h'.sub h).magnitude

theorem Vec.interp {v v' w w' : Vec2 F} {t t' : F} (h : g.Vec v v') (h' : g.Vec w w') (ht : t ≋ t') :
    g.Vec (interpVec v w t) (interpVec v' w' t') := h.add (.smul ht.clamp01 (h'.sub h))

theorem Vec.interp' {v v' w w' : Vec2 F} (t : F) (h : g.Vec v v') (h' : g.Vec w w') : g.Vec (interpVec v w t) (interpVec v' w' t) :=
  h.interp h' (.refl t)

theorem Vec.angle {v v' w w' : Vec2 F} (h : g.Vec v v') (h' : g.Vec w w') : v.absoluteAngleTo w = v'.absoluteAngleTo w' := by
  unfold Vec2.absoluteAngleTo
  rw [h.isFinite, h'.isFinite, h.magnitude, h'.magnitude]
  split
  · rfl
  · dsimp only
    split
    · rfl
    · congr 1
      refine ArithLaws.acos_alike ?_
      have hd := (h.sdiv v'.magnitude).dot (h'.sdiv w'.magnitude)
      unfold stdClamp
      rw [lt_left hd, lt_right hd]
      split
      · exact .refl _
      · split
        · exact .refl _
        · exact hd

theorem Vec.nearest {a a' b b' p p' : Vec2 F} (ha : g.Vec a a') (hb : g.Vec b b') (hp : g.Vec p p') :
    nearestPointOnSegment a b p ≋ nearestPointOnSegment a' b' p' := by
  unfold nearestPointOnSegment
  rw [ha.eq hb]
  split
  · exact .refl _
  · dsimp only
    rw [(hb.sub ha).dot_self]
    exact (((hp.sub ha).dot (hb.sub ha)).div _).clamp01

/-! ## The position model -/

/-- Tip states that are images of each other. -/
structure Tip (g : Symmetry) (s t : TipState F D) : Prop where
  position : g.Vec s.position t.position
  velocity : g.Vec s.velocity t.velocity
  acceleration : g.Vec s.acceleration t.acceleration
  time : s.time = t.time

/-- Inputs that are images of each other. -/
structure Inp (g : Symmetry) (i j : Input F D) : Prop where
  eventType : i.eventType = j.eventType
  position : g.Vec i.position j.position
  time : i.time = j.time
  pressure : i.pressure = j.pressure
  tilt : i.tilt = j.tilt
  orientation : i.orientation = j.orientation

theorem Tip.step (p : PositionModelerParams F D) {s t : TipState F D} (h : g.Tip s t) {a b : Vec2 F} (hab : g.Vec a b) (τ : D) :
    g.Tip (PositionModeler.stepState p s a τ) (PositionModeler.stepState p t b τ) := by
  unfold PositionModeler.stepState
  rw [h.time]
  have ha := ((hab.sub h.position).sdiv p.springMassConstant).sub (.smul' p.dragConstant h.velocity)
  have hv := h.velocity.add (.smul' (narrow (τ - t.time)) ha)
  exact ⟨h.position.add (.smul' _ hv), hv, ha, rfl⟩

theorem numberOfSteps {s t : TipState F D} (h : g.Tip s t) {i i' j j' : Input F D} (hi : g.Inp i i') (hj : g.Inp j j')
    (sp : SamplingParams F D) (pp : PositionModelerParams F D) :
    numberOfStepsBetweenInputs s i j sp pp = numberOfStepsBetweenInputs t i' j' sp pp := by
  unfold numberOfStepsBetweenInputs
  rw [hi.time, hj.time]
  have ha := h.velocity.angle (h.velocity.add (.smul' (narrow (j'.time - i'.time))
    ((hj.position.sub h.position).sdiv pp.springMassConstant)))
  simp only [ha]

theorem alongPathGo (p : PositionModelerParams F D) {a a' b b' : Vec2 F} (ha : g.Vec a a') (hb : g.Vec b b') (t₀ t₁ : D) (n : Int) :
    ∀ (k : Nat) (i : Int) {s s' : TipState F D}, g.Tip s s' →
      g.Tip (PositionModeler.alongPathGo p a t₀ b t₁ n k i s).1 (PositionModeler.alongPathGo p a' t₀ b' t₁ n k i s').1 ∧
      List.Forall₂ g.Tip (PositionModeler.alongPathGo p a t₀ b t₁ n k i s).2 (PositionModeler.alongPathGo p a' t₀ b' t₁ n k i s').2
  | 0, _, _, _, h => ⟨h, .nil⟩
  | k + 1, i, s, s', h => by
    unfold PositionModeler.alongPathGo
    have h1 := h.step p (ha.interp' (ofInt i / ofInt n) hb) (interpTime t₀ t₁ (ofInt i / ofInt n : F))
    obtain ⟨h2, h3⟩ := alongPathGo p ha hb t₀ t₁ n k (i + 1) h1
    exact ⟨h2, .cons h1 h3⟩

theorem endOfStrokeGo (p : PositionModelerParams F D) {a a' : Vec2 F} (ha : g.Vec a a') (stop : F) :
    ∀ (k : Nat) (dt : D) {s s' : TipState F D}, g.Tip s s' →
      g.Tip (PositionModeler.endOfStrokeGo p a stop k dt s).1 (PositionModeler.endOfStrokeGo p a' stop k dt s').1 ∧
      List.Forall₂ g.Tip (PositionModeler.endOfStrokeGo p a stop k dt s).2 (PositionModeler.endOfStrokeGo p a' stop k dt s').2
  | 0, _, _, _, h => ⟨h, .nil⟩
  | k + 1, dt, s, s', h => by
    unfold PositionModeler.endOfStrokeGo
    dsimp only
    rw [h.time]
    have h1 := h.step p ha (s'.time + dt)
    rw [h.position.distance h1.position, (h.position.nearest h1.position ha).lt (.refl 1), h1.position.distance ha]
    split
    · exact ⟨h1, .nil⟩
    · split
      · exact endOfStrokeGo p ha stop k _ h
      · split
        · exact ⟨h1, .cons h1 .nil⟩
        · obtain ⟨h2, h3⟩ := endOfStrokeGo p ha stop k dt h1
          exact ⟨h2, .cons h1 h3⟩

/-- Position modelers that are images of each other. -/
structure Pos (g : Symmetry) (m n : PositionModeler F D) : Prop where
  params : m.params = n.params
  state : g.Tip m.state n.state
  saved : Option.Rel g.Tip m.savedState n.savedState

theorem Pos.along {m n : PositionModeler F D} (h : g.Pos m n) {a a' b b' : Vec2 F} (ha : g.Vec a a') (hb : g.Vec b b') (t₀ t₁ : D)
    (k : Int) : g.Pos (m.updateAlongLinearPath a t₀ b t₁ k).1 (n.updateAlongLinearPath a' t₀ b' t₁ k).1 ∧
      List.Forall₂ g.Tip (m.updateAlongLinearPath a t₀ b t₁ k).2 (n.updateAlongLinearPath a' t₀ b' t₁ k).2 := by
  unfold PositionModeler.updateAlongLinearPath
  rw [h.params]
  obtain ⟨h1, h2⟩ := alongPathGo n.params ha hb t₀ t₁ k k.toNat 1 h.state
  exact ⟨⟨rfl, h1, h.saved⟩, h2⟩

theorem Pos.ending {m n : PositionModeler F D} (h : g.Pos m n) {a a' : Vec2 F} (ha : g.Vec a a') (dt : D) (k : Int) (stop : F) :
    g.Pos (m.modelEndOfStroke a dt k stop).1 (n.modelEndOfStroke a' dt k stop).1 ∧
      List.Forall₂ g.Tip (m.modelEndOfStroke a dt k stop).2 (n.modelEndOfStroke a' dt k stop).2 := by
  unfold PositionModeler.modelEndOfStroke
  rw [h.params]
  obtain ⟨h1, h2⟩ := endOfStrokeGo n.params ha stop k.toNat dt h.state
  exact ⟨⟨rfl, h1, h.saved⟩, h2⟩

theorem Pos.save {m n : PositionModeler F D} (h : g.Pos m n) : g.Pos m.save n.save := ⟨h.params, h.state, .some h.state⟩

theorem Pos.restore {m n : PositionModeler F D} (h : g.Pos m n) : g.Pos m.restore n.restore := by
  unfold PositionModeler.restore
  obtain ⟨h1, h2, h3⟩ := h
  obtain ⟨mp, ms, mv⟩ := m
  obtain ⟨np, ns, nv⟩ := n
  cases h3 with
  | none => exact ⟨h1, h2, .none⟩
  | some h' => exact ⟨h1, h', .some h'⟩

/-! ## The stylus data -/

/-- Results that are images of each other, except perhaps for their times. -/
structure Look (g : Symmetry) (r s : Result F D) : Prop where
  position : g.Vec r.position s.position
  velocity : g.Vec r.velocity s.velocity
  acceleration : g.Vec r.acceleration s.acceleration
  pressure : r.pressure ≋ s.pressure
  tilt : r.tilt ≋ s.tilt
  orientation : r.orientation ≋ s.orientation

theorem Res.look {r s : Result F D} (h : g.Res r s) : g.Look r s :=
  ⟨h.position, h.velocity, h.acceleration, h.pressure, h.tilt, h.orientation⟩

theorem addTwoPi_alike {a b : F} (h : a ≋ b) : addTwoPi a ≋ addTwoPi b :=
  ArithLaws.narrow_alike ((ArithLaws.widen_alike h).add (.refl _))

theorem subTwoPi_alike {a b : F} (h : a ≋ b) : subTwoPi a ≋ subTwoPi b :=
  ArithLaws.narrow_alike ((ArithLaws.widen_alike h).sub (.refl _))

theorem normalizeUp_zero {a : F} (h : (a =ᵇ 0) = true) (h0 : ((0 : F) =ᵇ 0) = true) : normalizeUp a = .ok a := by
  have ha : a ≋ 0 := .inr ⟨h, h0⟩
  rw [normalizeUp, lt_left ha, lt_zero]
  rfl

theorem normalizeDown_zero {a : F} (h : (a =ᵇ 0) = true) (h0 : ((0 : F) =ᵇ 0) = true) : normalizeDown a = .ok a := by
  have ha : a ≋ 0 := .inr ⟨h, h0⟩
  rw [normalizeDown, lt_right (ArithLaws.widen_alike ha), ArithLaws.twoPi_zero]
  rfl

theorem normalizeAngle_alike {a b : F} (h : a ≋ b) : OutRel (· ≋ ·) (normalizeAngle a) (normalizeAngle b) := by
  rcases h with rfl | ⟨h, h'⟩
  · exact OutRel.refl _ fun _ _ => .refl _
  · have h0 : ((0 : F) =ᵇ 0) = true := SignLaws.zero_eq
    simp only [normalizeAngle, normalizeUp_zero h h0, normalizeUp_zero h' h0, Outcome.ok_bind, normalizeDown_zero h h0,
      normalizeDown_zero h' h0]
    exact .inr ⟨h, h'⟩

theorem interpAngle_alike {a a' b b' t t' : F} (h : a ≋ a') (h' : b ≋ b') (ht : t ≋ t') :
    OutRel (· ≋ ·) (interpAngle a b t) (interpAngle a' b' t') := by
  unfold interpAngle
  refine (normalizeAngle_alike h).bind fun a a' h => (normalizeAngle_alike h').bind fun b b' h' => ?_
  dsimp only
  have hd : (widen (b - a) : D) ≋ widen (b' - a') := ArithLaws.widen_alike (h'.sub h)
  rw [lt_left hd, lt_right hd]
  refine normalizeAngle_alike (h.interp ?_ ht)
  split
  · exact addTwoPi_alike h'
  · split
    · exact subTwoPi_alike h'
    · exact h'

theorem Look.interp {r r' s s' : Result F D} (h : g.Look r r') (h' : g.Look s s') {t t' : F} (ht : t ≋ t') :
    OutRel (fun x y => g.Look x y ∧ x.time = interpTime r.time s.time t ∧ y.time = interpTime r'.time s'.time t')
      (interpResult r s t) (interpResult r' s' t') := by
  have hp : (if r.pressure <ᵇ 0 || s.pressure <ᵇ 0 then -1 else Ink.interp r.pressure s.pressure t) ≋
      (if r'.pressure <ᵇ 0 || s'.pressure <ᵇ 0 then -1 else Ink.interp r'.pressure s'.pressure t') := by
    rw [lt_left h.pressure, lt_left h'.pressure]
    split
    · exact .refl _
    · exact h.pressure.interp h'.pressure ht
  have hl : (if r.tilt <ᵇ 0 || s.tilt <ᵇ 0 then -1 else Ink.interp r.tilt s.tilt t) ≋
      (if r'.tilt <ᵇ 0 || s'.tilt <ᵇ 0 then -1 else Ink.interp r'.tilt s'.tilt t') := by
    rw [lt_left h.tilt, lt_left h'.tilt]
    split
    · exact .refl _
    · exact h.tilt.interp h'.tilt ht
  unfold interpResult
  dsimp only
  rw [lt_left h.orientation, lt_left h'.orientation]
  split
  · exact ⟨⟨h.position.interp h'.position ht, h.velocity.interp h'.velocity ht, h.acceleration.interp h'.acceleration ht, hp, hl,
      .refl _⟩, rfl, rfl⟩
  · refine (interpAngle_alike h.orientation h'.orientation ht).bind fun o o' ho => ?_
    exact ⟨⟨h.position.interp h'.position ht, h.velocity.interp h'.velocity ht, h.acceleration.interp h'.acceleration ht, hp, hl,
      ho⟩, rfl, rfl⟩

theorem Res.interp {r r' s s' : Result F D} (h : g.Res r r') (h' : g.Res s s') (t : F) :
    OutRel g.Res (interpResult r s t) (interpResult r' s' t) := by
  refine (h.look.interp h'.look (.refl t)).mono fun x y ⟨hl, h1, h2⟩ => ?_
  exact ⟨hl.position, hl.velocity, hl.acceleration, by rw [h1, h2, h.time, h'.time], hl.pressure, hl.tilt, hl.orientation⟩

/-- Whether the symmetry is respected under the parameters: mirror images are not if the stroke normal is used. -/
def Allows (g : Symmetry) (p : StylusParams D) : Prop := g = mirror → p.useStrokeNormalProjection = false

/-- Stylus modeler states that are images of each other. -/
structure StySt (g : Symmetry) (m n : StylusModelerState F D) : Prop where
  pressure : m.unknownPressure = n.unknownPressure
  tilt : m.unknownTilt = n.unknownTilt
  orientation : m.unknownOrientation = n.unknownOrientation
  inputs : List.Forall₂ g.Res m.inputs n.inputs

/-- Stylus modelers that are images of each other. -/
structure Sty (g : Symmetry) (m n : StylusModeler F D) : Prop where
  params : m.params = n.params
  allows : g.Allows n.params
  active : m.saveActive = n.saveActive
  state : g.StySt m.state n.state
  saved : g.StySt m.savedState n.savedState

theorem forall₂_getLast? {β γ : Type} {R : β → γ → Prop} {l : List β} {l' : List γ} (h : List.Forall₂ R l l') :
    Option.Rel R l.getLast? l'.getLast? := by
  induction h with
  | nil => exact .none
  | cons h t ih =>
    cases t with
    | nil => exact .some h
    | cons h' t => simpa [List.getLast?_cons_cons] using ih

theorem isEmpty_rel {β γ : Type} {R : β → γ → Prop} {l : List β} {l' : List γ} (h : List.Forall₂ R l l') : l.isEmpty = l'.isEmpty := by
  cases h <;> rfl

theorem forall₂_head? {β γ : Type} {R : β → γ → Prop} {l : List β} {l' : List γ} (h : List.Forall₂ R l l') :
    Option.Rel R l.head? l'.head? := by
  cases h with
  | nil => exact .none
  | cons h t => exact .some h

theorem forall₂_get? {β γ : Type} {R : β → γ → Prop} {l : List β} {l' : List γ} (h : List.Forall₂ R l l') (k : Nat) :
    Option.Rel R l[k]? l'[k]? := by
  induction h generalizing k with
  | nil => exact .none
  | cons h t ih => cases k with
    | zero => exact .some h
    | succ k => simpa using ih k

theorem forall₂_append {β γ : Type} {R : β → γ → Prop} {l₁ l₂ : List β} {l₁' l₂' : List γ} (h : List.Forall₂ R l₁ l₁')
    (h' : List.Forall₂ R l₂ l₂') : List.Forall₂ R (l₁ ++ l₂) (l₁' ++ l₂') := by
  induction h with
  | nil => exact h'
  | cons h t ih => exact .cons h ih

theorem rawResult_rel {l l' : Option (Result F D)} (hl : Option.Rel g.Res l l') {a a' : Vec2 F} (ha : g.Vec a a') (t : D)
    (s : StylusState F) : g.Res (StylusModeler.rawResult l a t s) (StylusModeler.rawResult l' a' t s) := by
  cases hl with
  | none => exact ⟨ha, .zero, .zero, rfl, .refl _, .refl _, .refl _⟩
  | @some r r' h =>
    unfold StylusModeler.rawResult
    dsimp only
    rw [h.time]
    split
    · have hv := (ha.sub h.position).sdiv (narrow (t - r'.time))
      exact ⟨ha, hv, (hv.sub h.velocity).sdiv _, rfl, .refl _, .refl _, .refl _⟩
    · exact ⟨ha, .zero, .zero, rfl, .refl _, .refl _, .refl _⟩

theorem shouldDrop_rel (p : StylusParams D) (t : D) {l l' : List (Result F D)} (h : List.Forall₂ g.Res l l') :
    shouldDropOldestInput p t l = shouldDropOldestInput p t l' := by
  unfold shouldDropOldestInput
  rw [h.length_eq]
  cases h with
  | nil => rfl
  | cons h t =>
    cases t with
    | nil => rfl
    | cons h' t => simp only [h'.time]

theorem dropOld_rel (p : StylusParams D) (t : D) {l l' : List (Result F D)} (h : List.Forall₂ g.Res l l') :
    OutRel (List.Forall₂ g.Res) (dropOldInputs p t l) (dropOldInputs p t l') := by
  induction h with
  | nil =>
    refine OutRel.refl _ fun a h => ?_
    unfold dropOldInputs at h
    obtain ⟨b, _, h⟩ := Outcome.bind_eq_ok.1 h
    split at h
    · simp at h
    · simp only [Outcome.ok.injEq] at h; subst h; exact .nil
  | cons h t ih =>
    unfold dropOldInputs
    rw [shouldDrop_rel p _ (.cons h t)]
    refine OutRel.bind (OutRel.refl _ (R := (· = ·)) fun _ _ => rfl) ?_
    rintro b _ rfl
    split
    · exact ih
    · exact List.Forall₂.cons h t

theorem StySt.flags {m n : StylusModelerState F D} (h : g.StySt m n) (s : StylusState F) :
    g.StySt (StylusModeler.flags m s) (StylusModeler.flags n s) := by
  obtain ⟨h1, h2, h3, h4⟩ := h
  exact ⟨by simp [StylusModeler.flags, h1], by simp [StylusModeler.flags, h2], by simp [StylusModeler.flags, h3], h4⟩

theorem Sty.update {m n : StylusModeler F D} (h : g.Sty m n) {a a' : Vec2 F} (ha : g.Vec a a') (t : D) (s : StylusState F) :
    OutRel g.Sty (m.update a t s) (n.update a' t s) := by
  unfold StylusModeler.update
  have hf := h.state.flags s
  dsimp only
  rw [h.params, hf.pressure, hf.tilt, hf.orientation]
  split
  · exact ⟨rfl, h.allows, h.active, ⟨rfl, rfl, rfl, .nil⟩, h.saved⟩
  · refine (dropOld_rel n.params t (forall₂_append hf.inputs
      (.cons (rawResult_rel (forall₂_getLast? hf.inputs) ha t s) .nil))).bind fun l l' hl => ?_
    exact ⟨rfl, h.allows, h.active, ⟨rfl, rfl, rfl, hl⟩, h.saved⟩

theorem Sty.reset {m n : StylusModeler F D} (h : g.Sty m n) (p : StylusParams D) (hp : g.Allows p) : g.Sty (m.reset p) (n.reset p) :=
  ⟨rfl, hp, rfl, ⟨rfl, rfl, rfl, .nil⟩, h.saved⟩

theorem Sty.save {m n : StylusModeler F D} (h : g.Sty m n) : g.Sty m.save n.save := ⟨h.params, h.allows, rfl, h.state, h.state⟩

theorem Sty.restore {m n : StylusModeler F D} (h : g.Sty m n) : g.Sty m.restore n.restore := by
  unfold StylusModeler.restore
  rw [h.active]
  split
  · exact ⟨h.params, h.allows, rfl, h.saved, h.saved⟩
  · exact h

/-- Projections to the raw input that are images of each other. -/
structure Proj (a b : RawInputProjection F) : Prop where
  index : a.segmentIndex = b.segmentIndex
  ratio : a.ratio ≋ b.ratio

theorem closestLoop_rel {p p' : Vec2 F} (hp : g.Vec p p') {l l' : List (Result F D)} (h : List.Forall₂ g.Res l l') :
    ∀ (i : Nat) {b b' : Option (RawInputProjection F)} (_ : Option.Rel Proj b b') (d : F),
      Option.Rel Proj (StylusModeler.closestLoop p l i b d) (StylusModeler.closestLoop p' l' i b' d) := by
  induction h with
  | nil => intro i b b' hb d; exact hb
  | cons h t ih =>
    intro i b b' hb d
    cases t with
    | nil => exact hb
    | cons h' t =>
      unfold StylusModeler.closestLoop
      have hr := h.position.nearest h'.position hp
      dsimp only
      rw [hp.distance (h.position.interp h'.position hr)]
      split
      · refine ih _ (Option.Rel.some ?_) _
        exact ⟨rfl, hr⟩
      · exact ih _ hb _

theorem closest_rel {p p' : Vec2 F} (hp : g.Vec p p') {l l' : List (Result F D)} (h : List.Forall₂ g.Res l l') :
    OutRel (Option.Rel Proj) (StylusModeler.projectToClosestPoint p l) (StylusModeler.projectToClosestPoint p' l') := by
  unfold StylusModeler.projectToClosestPoint
  have he : l.isEmpty = l'.isEmpty := by cases h <;> rfl
  rw [he]
  split
  · exact rfl
  · exact closestLoop_rel hp h 0 .none _

theorem orthogonal_rel {v v' : Vec2 F} (h : turn.Vec v v') : turn.Vec (orthogonal v) (orthogonal v') := ⟨h.y.neg, h.x⟩

theorem cross_rel {v v' w w' : Vec2 F} (h : turn.Vec v v') (h' : turn.Vec w w') : cross v w ≋ cross v' w' := by
  refine Alike.trans (.inl ?_) ((h.x.mul h'.y).sub (h.y.mul h'.x))
  show v.x * w.y - v.y * w.x = -v.y * w.x - v.x * -w.y
  rw [Alike.neg_mul, mul_neg, sub_def, sub_def, SignLaws.neg_neg, SignLaws.add_comm]

theorem getStrokeNormal_rel {s t : TipState F D} (h : turn.Tip s t) (τ : D) :
    Option.Rel turn.Vec (getStrokeNormal s τ) (getStrokeNormal t τ) := by
  unfold getStrokeNormal
  dsimp only
  rw [h.velocity.magnitude, h.acceleration.magnitude, abs_alike (h.velocity.dot h.acceleration), h.time]
  split
  · exact .none
  split
  · exact .some (orthogonal_rel h.acceleration)
  split
  · exact .some (orthogonal_rel h.velocity)
  split
  · exact .some (orthogonal_rel h.velocity)
  · refine .some (orthogonal_rel ?_)
    have hv := h.velocity.add (.smul' (narrow (t.time - τ)) h.acceleration)
    refine Vec.add ?_ ?_
    · unfold unitVec; rw [h.velocity.magnitude]; exact h.velocity.sdiv _
    · unfold unitVec; rw [hv.magnitude]; exact hv.sdiv _

theorem projectAlong_rel {a a' b b' p p' n n' : Vec2 F} (ha : turn.Vec a a') (hb : turn.Vec b b') (hp : turn.Vec p p')
    (hn : turn.Vec n n') : Option.Rel (· ≋ ·) (projectToSegmentAlongNormal a b p n) (projectToSegmentAlongNormal a' b' p' n') := by
  unfold projectToSegmentAlongNormal
  have hd := cross_rel hn (hb.sub ha)
  have hc := cross_rel (ha.sub hp) hn
  dsimp only
  rw [eq_left hd]
  split
  · exact .none
  · rename_i h0
    have he : cross n (b - a) = cross n' (b' - a') := by
      rcases hd with h | h
      · exact h
      · exact absurd h.2 h0
    rw [he]
    have hq := hc.div (cross n' (b' - a'))
    rw [lt_left hq, lt_right hq]
    split
    · exact .none
    · exact .some hq

/-- Candidates of the projection along the stroke normal that are images of each other. -/
structure Best (a b : StylusModeler.NormalBest F) : Prop where
  left : Option.Rel Proj a.left b.left
  right : Option.Rel Proj a.right b.right
  distLeft : a.distLeft = b.distLeft
  distRight : a.distRight = b.distRight

theorem normalRound_rel {p p' n n' a a' b b' : Vec2 F} (hp : turn.Vec p p') (hn : turn.Vec n n') (ha : turn.Vec a a')
    (hb : turn.Vec b b') (i : Nat) {c c' : StylusModeler.NormalBest F} (hc : Best c c') :
    Best (StylusModeler.normalRound p n a b i c) (StylusModeler.normalRound p' n' a' b' i c') := by
  unfold StylusModeler.normalRound
  have h := projectAlong_rel ha hb hp hn
  generalize projectToSegmentAlongNormal a b p n = x at h
  generalize projectToSegmentAlongNormal a' b' p' n' = x' at h
  cases h with
  | none => exact hc
  | @some r r' hr =>
    have hq := ha.interp hb hr
    dsimp only
    rw [lt_left ((hq.sub hp).dot hn), hp.distance hq, hc.distLeft, hc.distRight]
    split
    · split
      · exact ⟨hc.left, .some ⟨rfl, hr⟩, rfl, rfl⟩
      · exact hc
    · split
      · exact ⟨.some ⟨rfl, hr⟩, hc.right, rfl, rfl⟩
      · exact hc

theorem normalLoop_rel {p p' n n' : Vec2 F} (hp : turn.Vec p p') (hn : turn.Vec n n') {l l' : List (Result F D)}
    (h : List.Forall₂ turn.Res l l') : ∀ (i : Nat) {c c' : StylusModeler.NormalBest F}, Best c c' →
      Best (StylusModeler.normalLoop p n l i c) (StylusModeler.normalLoop p' n' l' i c') := by
  induction h with
  | nil => intro i c c' hc; exact hc
  | cons h t ih =>
    intro i c c' hc
    cases t with
    | nil => exact hc
    | cons h' t =>
      unfold StylusModeler.normalLoop
      exact ih _ (normalRound_rel hp hn h.position h'.position i hc)

theorem isSome_rel {β γ : Type} {R : β → γ → Prop} {a : Option β} {b : Option γ} (h : Option.Rel R a b) : a.isSome = b.isSome := by
  cases h <;> rfl

theorem along_rel {p p' c c' n n' : Vec2 F} (hp : turn.Vec p p') (hc : turn.Vec c c') (hn : turn.Vec n n') {l l' : List (Result F D)}
    (h : List.Forall₂ turn.Res l l') : OutRel (Option.Rel Proj) (StylusModeler.projectAlongStrokeNormal p c n l)
      (StylusModeler.projectAlongStrokeNormal p' c' n' l') := by
  unfold StylusModeler.projectAlongStrokeNormal
  have he : l.isEmpty = l'.isEmpty := by cases h <;> rfl
  rw [he]
  split
  · exact rfl
  · have hb := normalLoop_rel hp hn h 0
      (⟨.none, .none, rfl, rfl⟩ : Best (F := F) ⟨none, none, inf, inf⟩ ⟨none, none, inf, inf⟩)
    dsimp only
    rw [isSome_rel hb.left, isSome_rel hb.right, lt_right (hn.dot hc)]
    show Option.Rel Proj _ _
    split
    · split
      · exact hb.right
      · exact hb.left
    · split
      · exact hb.right
      · exact hb.left

theorem projected_rel {l l' : List (Result F D)} (h : List.Forall₂ g.Res l l') {s t : TipState F D} (ht : g.Tip s t)
    {q q' : Option (RawInputProjection F)} (hq : Option.Rel Proj q q') :
    OutRel g.Look (StylusModeler.projectedResult l s q) (StylusModeler.projectedResult l' t q') := by
  unfold StylusModeler.projectedResult
  cases hq with
  | none =>
    have h1 := forall₂_head? h
    have h2 := forall₂_getLast? h
    dsimp only
    generalize l.head? = a at h1
    generalize l'.head? = a' at h1
    generalize l.getLast? = b at h2
    generalize l'.getLast? = b' at h2
    cases h1 with
    | none => cases h2 <;> exact rfl
    | some h1 =>
      cases h2 with
      | none => exact rfl
      | some h2 =>
        dsimp only
        rw [h1.position.distance ht.position, h2.position.distance ht.position]
        show g.Look _ _
        split
        · exact h1.look
        · exact h2.look
  | @some q q' hq =>
    dsimp only
    rw [hq.index]
    have h1 := forall₂_get? h q'.segmentIndex
    have h2 := forall₂_get? h (q'.segmentIndex + 1)
    generalize l[q'.segmentIndex]? = a at h1
    generalize l'[q'.segmentIndex]? = a' at h1
    generalize l[q'.segmentIndex + 1]? = b at h2
    generalize l'[q'.segmentIndex + 1]? = b' at h2
    cases h1 with
    | none => cases h2 <;> exact rfl
    | some h1 =>
      cases h2 with
      | none => exact rfl
      | some h2 => exact (h1.look.interp h2.look hq.ratio).mono fun _ _ h => h.1

theorem strip_rel {m n : StylusModelerState F D} (h : g.StySt m n) {s t : TipState F D} (ht : g.Tip s t) {r r' : Result F D}
    (hr : g.Look r r') : g.Res (StylusModeler.strip m s r) (StylusModeler.strip n t r') := by
  unfold StylusModeler.strip
  rw [h.pressure, h.tilt, h.orientation]
  refine ⟨hr.position, hr.velocity, hr.acceleration, ht.time, ?_, ?_, ?_⟩ <;> dsimp only <;> split <;>
    first | exact .refl _ | exact hr.pressure | exact hr.tilt | exact hr.orientation

theorem Sty.query {m n : StylusModeler F D} (h : g.Sty m n) {s t : TipState F D} (ht : g.Tip s t) (τ : D) :
    OutRel g.Res (m.query s (getStrokeNormal s τ)) (n.query t (getStrokeNormal t τ)) := by
  unfold StylusModeler.query
  rw [isEmpty_rel h.state.inputs, h.params]
  split
  · exact ⟨.zero, .zero, .zero, rfl, .refl _, .refl _, .refl _⟩
  · have key : ∀ {x y : Outcome (Option (RawInputProjection F))}, OutRel (Option.Rel Proj) x y →
        OutRel g.Res (x >>= fun q => StylusModeler.projectedResult m.state.inputs s q >>= fun r => pure (StylusModeler.strip m.state s r))
          (y >>= fun q => StylusModeler.projectedResult n.state.inputs t q >>= fun r => pure (StylusModeler.strip n.state t r)) :=
      fun hxy => hxy.bind fun q q' hq => (projected_rel h.state.inputs ht hq).bind fun r r' hr => strip_rel h.state ht hr
    cases hu : n.params.useStrokeNormalProjection with
    | false => exact key (closest_rel ht.position h.state.inputs)
    | true =>
      have hg : g = turn := by
        cases g
        · rfl
        · exact absurd (h.allows rfl) (by rw [hu]; decide)
      subst hg
      have hn := getStrokeNormal_rel ht τ
      generalize getStrokeNormal s τ = x at hn
      generalize getStrokeNormal t τ = x' at hn
      cases hn with
      | none => exact key (closest_rel ht.position h.state.inputs)
      | some hn => exact key (along_rel ht.position ht.acceleration hn h.state.inputs)

theorem modelStylusGo_rel {m n : StylusModeler F D} (h : g.Sty m n) {l l' : List (TipState F D)} (hl : List.Forall₂ g.Tip l l') :
    ∀ (loop : LoopModeler F D) (v : F) (τ : D), OutRel (fun x y => x.1 = y.1 ∧ List.Forall₂ g.Res x.2 y.2)
      (modelStylusGo m l loop v τ) (modelStylusGo n l' loop v τ) := by
  induction hl with
  | nil => intro loop v τ; exact ⟨rfl, .nil⟩
  | @cons s t l l' ht hl ih =>
    intro loop v τ
    unfold modelStylusGo
    refine (h.query ht τ).bind fun q q' hq => ?_
    have hm : g.Res (makeResultFromTipState s q) (makeResultFromTipState t q') :=
      ⟨ht.position, ht.velocity, ht.acceleration, ht.time, hq.pressure, hq.tilt, hq.orientation⟩
    refine (hq.interp hm v).bind fun r r' hr => ?_
    have hu : loop.update r.velocity s.time = loop.update r'.velocity t.time := by
      unfold LoopModeler.update
      rw [hr.velocity.magnitude, ht.time]
    rw [hu, ht.time]
    refine (ih _ _ _).bind fun x y hxy => ?_
    exact ⟨hxy.1, .cons hr hxy.2⟩

theorem modelStylus_rel {m n : StylusModeler F D} (h : g.Sty m n) {l l' : List (TipState F D)} (hl : List.Forall₂ g.Tip l l')
    (loop : LoopModeler F D) (τ : D) : OutRel (fun x y => x.1 = y.1 ∧ List.Forall₂ g.Res x.2 y.2)
      (modelStylus l m loop τ) (modelStylus l' n loop τ) := modelStylusGo_rel h hl _ _ _

end Symmetry
end Ink
