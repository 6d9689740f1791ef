import Verif.Spec.Blend
import Verif.Exact.Told
import Verif.Examples.Exact
/-!
# Blends of strokes: C65
-/
namespace Ink
open Scalar Arith XR
noncomputable section

/-- The third input is like the two others, at the point that divides the way from the first to the second in the ratio of `c`
to `1 - c`. -/
structure BlendOf (c : ℝ) (i j k : Input XR XR) : Prop where
  type : i.eventType = k.eventType ∧ j.eventType = k.eventType
  time : i.time = k.time ∧ j.time = k.time
  position : toPoint k.position = (1 - c) * toPoint i.position + c * toPoint j.position

/-- The same for two dimensional quantities of results. -/
def BlendV (c : ℝ) (a b q : Vec2 XR) : Prop := ∃ x y : ℂ, a = V x ∧ b = V y ∧ q = V ((1 - c) * x + c * y)

/-- The same for results. -/
structure ResultBlend (c : ℝ) (a b q : Result XR XR) : Prop where
  position : BlendV c a.position b.position q.position
  velocity : BlendV c a.velocity b.velocity q.velocity
  acceleration : BlendV c a.acceleration b.acceleration q.acceleration
  time : a.time = q.time ∧ b.time = q.time

/-- What came of the third input is the blend of what came of the two others. -/
def EventBlend (c : ℝ) (e f g : Event XR XR) : Prop :=
  match e.results, f.results, g.results with
  | some a, some b, some q => Forall₃ (ResultBlend c) a b q
  | none, none, none => True
  | _, _, _ => False

variable {c : ℝ} {p : StrokeModelParams XR XR} {P : Ref.Params}

theorem lerp_mul (x y : ℂ) (c : ℝ) : Ref.lerp x y c = (1 - c) * x + c * y := by simp only [Ref.lerp, Complex.real_smul]; ring

theorem resultBlend_of {a b q : Result XR XR} {x y z : Ref.Tip} (h : Ref.Tip.IsBlend c x y z) (ha : a.kin = tip x) (hb : b.kin = tip y)
    (hq : q.kin = tip z) : ResultBlend c a b q := by
  simp only [Result.kin, tip, TipState.mk.injEq] at ha hb hq
  obtain ⟨h1, h2, h3, h4⟩ := h
  rw [lerp_mul] at h1 h2 h3
  rw [h1, h2, h3, ← h4.1] at hq
  have h5 : y.time = x.time := h4.2.trans h4.1.symm
  exact ⟨⟨_, _, ha.1, hb.1, hq.1⟩, ⟨_, _, ha.2.1, hb.2.1, hq.2.1⟩, ⟨_, _, ha.2.2.1, hb.2.2.1, hq.2.2.1⟩,
    by rw [ha.2.2.2, hq.2.2.2], by rw [hb.2.2.2, hq.2.2.2, h5]⟩

theorem resultsBlend_of {x y z : List Ref.Tip} (h : Forall₃ (Ref.Tip.IsBlend c) x y z) :
    ∀ {a b q : List (Result XR XR)}, a.map Result.kin = x.map tip → b.map Result.kin = y.map tip → q.map Result.kin = z.map tip →
      Forall₃ (ResultBlend c) a b q := by
  induction h with
  | nil =>
    intro a b q ha hb hq
    simp only [List.map_nil, List.map_eq_nil_iff] at ha hb hq
    subst ha hb hq
    exact .nil
  | cons h1 _ ih =>
    intro a b q ha hb hq
    obtain ⟨a, as, rfl, ha, has⟩ := List.map_eq_cons_iff.1 ha
    obtain ⟨b, bs, rfl, hb, hbs⟩ := List.map_eq_cons_iff.1 hb
    obtain ⟨q, qs, rfl, hq, hqs⟩ := List.map_eq_cons_iff.1 hq
    exact .cons (resultBlend_of h1 ha hb hq) (ih has hbs hqs)

theorem eventBlend_of {x y z : Option (List Ref.Tip)} (h : Ref.AnswerBlend c x y z) {e f g : Event XR XR}
    (he : kins e = x.map (List.map tip)) (hf : kins f = y.map (List.map tip)) (hg : kins g = z.map (List.map tip)) :
    EventBlend c e f g := by
  unfold EventBlend
  unfold kins at he hf hg
  match x, y, z, h with
  | some x, some y, some z, h =>
    obtain ⟨a, ha, ha'⟩ := Option.map_eq_some_iff.1 he
    obtain ⟨b, hb, hb'⟩ := Option.map_eq_some_iff.1 hf
    obtain ⟨q, hq, hq'⟩ := Option.map_eq_some_iff.1 hg
    rw [ha, hb, hq]
    exact resultsBlend_of h ha' hb' hq'
  | none, none, none, _ =>
    rw [Option.map_none, Option.map_eq_none_iff] at he hf hg
    rw [he, hf, hg]
    trivial

theorem eventsBlend_of (hw : P.wobble = none) (ha : P.maxAngle = none) {e f g : List (Event XR XR)}
    (h : Forall₃ (fun e f g => BlendOf c e.input f.input g.input) e f g) : ∀ {a b s : Ref.State}, Ref.State.IsBlend c a b s →
      e.map kins = (Ref.answers P a (e.map fun f => touch f.input)).map (Option.map (List.map tip)) →
      f.map kins = (Ref.answers P b (f.map fun f => touch f.input)).map (Option.map (List.map tip)) →
      g.map kins = (Ref.answers P s (g.map fun f => touch f.input)).map (Option.map (List.map tip)) →
      Forall₃ (fun e f g => g.input.eventType ≠ .up → EventBlend c e f g) e f g := by
  induction h with
  | nil => intros; exact .nil
  | @cons e f g es fs gs h1 _ ih =>
    intro a b s hs he hf hg
    simp only [List.map_cons, Ref.answers, List.cons.injEq] at he hf hg
    obtain ⟨t1, t2⟩ := h1.type
    obtain ⟨s1, s2⟩ := h1.time
    have hp := h1.position
    rw [← lerp_mul] at hp
    by_cases hu : g.input.eventType = .up
    · have : ∀ (s : Ref.State) (k : Input XR XR), k.eventType = .up → (Ref.advance P s (touch k)).1 = s := by
        intro s k hk
        simp [touch, hk, Ref.advance]
      rw [this _ _ hu] at hg
      rw [this _ _ (t1.trans hu)] at he
      rw [this _ _ (t2.trans hu)] at hf
      exact .cons (fun h => absurd hu h) (ih hs he.2 hf.2 hg.2)
    · have e1 : touch e.input = .move (toPoint e.input.position) (toReal g.input.time) := by simp [touch, t1, hu, s1]
      have e2 : touch f.input = .move (toPoint f.input.position) (toReal g.input.time) := by simp [touch, t2, hu, s2]
      have e3 : touch g.input = .move (Ref.lerp (toPoint e.input.position) (toPoint f.input.position) c) (toReal g.input.time) := by
        simp [touch, hu, hp]
      rw [e1] at he
      rw [e2] at hf
      rw [e3] at hg
      obtain ⟨g1, g2⟩ := Ref.move_blend hw ha hs (toPoint e.input.position) (toPoint f.input.position) (toReal g.input.time)
      exact .cons (fun _ => eventBlend_of g2 he.1 hf.1 hg.1) (ih g1 he.2 hf.2 hg.2)

/-- C65: without wobble smoothing, loop mitigation and resampling by angle, a blend of two strokes gives a blend of their results. Take
three strokes with the same parameters, in three histories that may have nothing else in common, whose inputs are of the same types at
the same times. If the inputs of the third are on the way from those of the first to those of the second, always at the same
fraction `c` of it (any number), then the same inputs are accepted, and those before the Up have as many results, at the same times, with
positions, velocities and accelerations that divide the way from the first to the second in the same fraction. -/
theorem C65_blend_exact {ops₁ ops₂ ops₃ : List (Op XR XR)} {rs₁ rs₂ rs₃ : List (Response XR XR)} {m₁ m₂ m₃ : StrokeModeler XR XR}
    (h₁ : Session ops₁ rs₁ m₁) (h₂ : Session ops₂ rs₂ m₂) (h₃ : Session ops₃ rs₃ m₃)
    (hr₁ : Regular ops₁ rs₁) (hr₂ : Regular ops₂ rs₂) (hr₃ : Regular ops₃ rs₃)
    (hp₁ : (known ops₁ rs₁).params = some p) (hp₂ : (known ops₂ rs₂).params = some p) (hp₃ : (known ops₃ rs₃).params = some p)
    (hloop : p.position.loop.isEnabled = false) (hwobble : p.wobble.isEnabled = false) (hangle : p.sampling.maxEstimatedAngle = fin (-1))
    (hin : Forall₃ (BlendOf c) ((strokeOf ops₁ rs₁).map Event.input) ((strokeOf ops₂ rs₂).map Event.input)
      ((strokeOf ops₃ rs₃).map Event.input)) :
    Forall₃ (fun e f g => g.input.eventType ≠ .up → EventBlend c e f g) (strokeOf ops₁ rs₁) (strokeOf ops₂ rs₂) (strokeOf ops₃ rs₃) := by
  have hin := hin.of_map
  match hs₁ : strokeOf ops₁ rs₁, hs₂ : strokeOf ops₂ rs₂, hs₃ : strokeOf ops₃ rs₃ with
  | [], [], [] => exact .nil
  | [], [], _ :: _ => rw [hs₁, hs₂, hs₃] at hin; cases hin
  | [], _ :: _, _ => rw [hs₁, hs₂, hs₃] at hin; cases hin
  | _ :: _, [], _ => rw [hs₁, hs₂, hs₃] at hin; cases hin
  | _ :: _, _ :: _, [] => rw [hs₁, hs₂, hs₃] at hin; cases hin
  | e :: es, f :: fs, g :: gs =>
    rw [hs₁, hs₂, hs₃] at hin
    obtain ⟨P, _, k1, k2, c1, -⟩ := h₁.stroke hr₁ hp₁ hs₁
    obtain ⟨_, _, -, -, c2, -⟩ := h₂.stroke hr₂ hp₂ hs₂
    obtain ⟨_, _, -, -, c3, -⟩ := h₃.stroke hr₃ hp₃ hs₃
    have hw : P.wobble = none := by
      have := k1.wobble
      cases hw : P.wobble with
      | none => rfl
      | some w =>
        rw [hw] at this
        simp only at this
        rw [this] at hwobble
        cases hwobble
    have ha : P.maxAngle = none := by
      have := k1.maxAngle
      cases ha : P.maxAngle with
      | none => rfl
      | some a =>
        rw [ha] at this
        simp only at this
        rw [this, fin_inj] at hangle
        have := (k2.maxAngle a ha).1
        linarith
    cases hin with
    | cons h1 hin =>
      have d1 := course_kins k1 k2 c1 hloop
      have d2 := course_kins k1 k2 c2 hloop
      have d3 := course_kins k1 k2 c3 hloop
      simp only [Ref.stroke, List.map_cons, List.cons.injEq] at d1 d2 d3
      have hp := h1.position
      rw [← lerp_mul] at hp
      rw [h1.time.1] at d1
      rw [h1.time.2] at d2
      rw [hp] at d3
      have hb := Ref.start_blend (c := c) (toPoint e.input.position) (toPoint f.input.position) (toReal g.input.time)
      refine .cons (fun _ => eventBlend_of (x := some [_]) (y := some [_]) (z := some [_]) (.cons hb.tip .nil) d1.1 d2.1 d3.1) ?_
      exact eventsBlend_of hw ha hin hb d1.2 d2.2 d3.2

section Examples
open Ex

/-- The parameters of the unit tests without wobble smoothing. -/
def Ex.xplain : StrokeModelParams XR XR := { xparams with wobble := { xparams.wobble with isEnabled := false } }

/-- Down, two Moves, Up at the given points. -/
def Ex.four (a b c d : ℂ) : List (Input XR XR) :=
  [xin .down a 0 0.2 1 2, xin .move b (1 / 30) 0.3 1.1 2.1, xin .move c (2 / 30) 0.4 1.2 2.2, xin .up d (3 / 30) 0.5 1.3 2.3]

theorem Ex.four_stroke (a b c d : ℂ) : ∃ rs m, Session (calls xplain (four a b c d)) rs m ∧ Regular (calls xplain (four a b c d)) rs ∧
    (known (calls xplain (four a b c d)) rs).params = some xplain ∧
    (strokeOf (calls xplain (four a b c d)) rs).map Event.input = four a b c d ∧
    ∀ e ∈ strokeOf (calls xplain (four a b c d)) rs, e.results.isSome = true := by
  have hn : ∀ {e e' : EventType} {z z' : ℂ} {t t' pr pr' tl tl' o o' : ℝ}, (t' - t) * 180 ≤ 20 →
      Near xplain (xin e z t pr tl o) (xin e' z' t' pr' tl' o') := by
    intro e e' z z' t t' pr pr' tl tl' o o' ht
    refine .inr ⟨rfl, ?_⟩
    simpa [xin, xparams, xplain] using ht
  have hf : XR.Follows xplain (xin .down a 0 0.2 1 2) (four a b c d).tail :=
    ⟨fits_xin (by norm_num), hn (by norm_num), good_fin _, .inl rfl, fits_xin (by norm_num), hn (by norm_num), good_fin _, .inl rfl,
      fits_xin (by norm_num), hn (by norm_num), good_fin _, .inr ⟨rfl, rfl⟩, trivial⟩
  exact exists_stroke (by unfold xplain xparams; valid) rfl ⟨isFinite_fin _, isFinite_fin _, isFinite_fin _⟩ (good_fin _) hf
    (by simp)

/-- Any two strokes of four inputs at the times of `four`, and their blend. -/
example (c : ℝ) (x y : Fin 4 → ℂ) : ∃ rs₁ rs₂ rs₃ m₁ m₂ m₃,
    let s : (Fin 4 → ℂ) → List (Op XR XR) := fun z => calls xplain (four (z 0) (z 1) (z 2) (z 3))
    let z : Fin 4 → ℂ := fun i => (1 - c) * x i + c * y i
    Session (s x) rs₁ m₁ ∧ Session (s y) rs₂ m₂ ∧ Session (s z) rs₃ m₃ ∧ Regular (s x) rs₁ ∧ Regular (s y) rs₂ ∧ Regular (s z) rs₃ ∧
    (known (s x) rs₁).params = some xplain ∧ (known (s y) rs₂).params = some xplain ∧ (known (s z) rs₃).params = some xplain ∧
    xplain.position.loop.isEnabled = false ∧ xplain.wobble.isEnabled = false ∧ xplain.sampling.maxEstimatedAngle = fin (-1) ∧
    Forall₃ (BlendOf c) ((strokeOf (s x) rs₁).map Event.input) ((strokeOf (s y) rs₂).map Event.input)
      ((strokeOf (s z) rs₃).map Event.input) ∧ ∀ e ∈ strokeOf (s z) rs₃, e.results.isSome = true := by
  obtain ⟨rs₁, m₁, a1, a2, a3, a4, -⟩ := four_stroke (x 0) (x 1) (x 2) (x 3)
  obtain ⟨rs₂, m₂, b1, b2, b3, b4, -⟩ := four_stroke (y 0) (y 1) (y 2) (y 3)
  let z : Fin 4 → ℂ := fun i => (1 - c) * x i + c * y i
  obtain ⟨rs₃, m₃, c1, c2, c3, c4, c5⟩ := four_stroke (z 0) (z 1) (z 2) (z 3)
  refine ⟨rs₁, rs₂, rs₃, m₁, m₂, m₃, a1, b1, c1, a2, b2, c2, a3, b3, c3, rfl, rfl, rfl, ?_, c5⟩
  rw [a4, b4, c4]
  refine .cons ?_ (.cons ?_ (.cons ?_ (.cons ?_ .nil))) <;> exact ⟨⟨rfl, rfl⟩, ⟨rfl, rfl⟩, by simp [xin, z]⟩

end Examples

end
end Ink
