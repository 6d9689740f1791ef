import Verif.Spec.Redundant
import Verif.Props.Motion
import Verif.Props.Blend
/-!
# Redundant inputs: C67
-/
namespace Ink
open Scalar Arith XR
noncomputable section

variable {p : StrokeModelParams XR XR} {P : Ref.Params}

/-- Without wobble smoothing the anchor is at the last accepted input. -/
theorem course_anchor_plain (hr : Realizes p P) (hv : P.Valid) (hw : P.wobble = none) {e : Event XR XR} {rest : List (Event XR XR)}
    {m : StrokeModeler XR XR} (h : Course p (e :: rest) m) (hm : ∀ f ∈ rest, f.input.eventType = .move) :
    ∃ prev, (acceptedOf (e :: rest)).getLast? = some prev ∧ (state P e rest).anchor = (toPoint prev.position, toReal prev.time) := by
  induction rest using List.reverseRecOn generalizing m with
  | nil =>
    obtain ⟨e', rest, he, ht⟩ := course_tale hr hv h
    simp only [List.cons.injEq] at he
    rw [← he.1] at ht
    exact ⟨e.input, by simp [acceptedOf, ht.first], rfl⟩
  | append_singleton l f ih =>
    obtain ⟨m₁, h₁⟩ := h.init (List.cons_append (a := e) (as := l) (bs := [f])).symm (by simp)
    obtain ⟨m₂, h₂, ht⟩ := course_told (b := []) hr hv (e := e) (a := l) (f := f) h
    obtain ⟨prev, hp, hpt⟩ := ih h₁ fun g hg => hm g (by simp [hg])
    have ha := ht.answer l f rfl
    have hmove : touch f.input = .move (toPoint f.input.position) (toReal f.input.time) := by simp [touch, hm f (by simp)]
    have hs : Ref.smooth P (state P e l) (toPoint f.input.position) (toReal f.input.time) =
        ((state P e l).window, toPoint f.input.position) := by simp [Ref.smooth, hw]
    rw [← List.cons_append, state_append, hmove]
    rw [hmove] at ha
    simp only [Ref.advance, Ref.move, hs] at ha ⊢
    cases hf : f.results with
    | none =>
      rw [hf] at ha
      refine ⟨prev, by simpa [acceptedOf, hf] using hp, ?_⟩
      split
      · rename_i hle
        rw [if_pos hle] at ha
        cases ha
      · exact hpt
    | some out =>
      rw [hf] at ha
      obtain ⟨tips, h1, _⟩ := ha
      refine ⟨f.input, by simp [acceptedOf, hf], ?_⟩
      split
      · rfl
      · rename_i hle
        rw [if_neg hle] at h1
        cases h1

/-- The kinematic fields of all results. -/
theorem resultsOf_kin (es : List (Event XR XR)) : (resultsOf es).map Result.kin = (es.map kins).flatMap (·.getD []) := by
  induction es with
  | nil => rfl
  | cons e es ih =>
    simp only [resultsOf, List.flatMap_cons, List.map_append, List.map_cons] at ih ⊢
    rw [ih]
    congr 1
    cases h : e.results <;> simp [kins, h]

/-- The third input is on the way from the first to the second, which `f` results per second divide into `k + l` equal steps; it is
after the first `k` of them. -/
structure OnTheWay (f : ℝ) (k l : ℕ) (prev next i : Input XR XR) : Prop where
  type : i.eventType = .move
  position : i.position = V (toPoint prev.position + (k / (k + l) : ℝ) * (toPoint next.position - toPoint prev.position))
  time : i.time = fin (toReal prev.time + (k / (k + l) : ℝ) * (toReal next.time - toReal prev.time))
  steps : ⌈(toReal next.time - toReal prev.time) * f⌉ = k + l
  before : 0 < k
  after : 0 < l
  few : k + l ≤ 2147483647

/-- C67: redundant inputs do not matter. Without wobble smoothing, loop mitigation and resampling by angle: take a stroke and insert one
more Move between two of its accepted inputs, at a place and time on the straight way between them at which the modeler would have put
the anchor anyway. Then positions, velocities, accelerations and times of all results of the stroke are the same. -/
theorem C67_redundant_exact {ops ops' : List (Op XR XR)} {rs rs' : List (Response XR XR)} {m m' : StrokeModeler XR XR}
    (h : Session ops rs m) (h' : Session ops' rs' m') (hr : Regular ops rs) (hr' : Regular ops' rs')
    (hp : (known ops rs).params = some p) (hp' : (known ops' rs').params = some p)
    (hloop : p.position.loop.isEnabled = false) (hwobble : p.wobble.isEnabled = false) (hangle : p.sampling.maxEstimatedAngle = fin (-1))
    {f : ℝ} (hf : p.sampling.minOutputRate = fin f) {e g : Event XR XR} {a b : List (Event XR XR)}
    (hs : strokeOf ops rs = e :: (a ++ g :: b)) {i prev : Input XR XR}
    (hs' : (strokeOf ops' rs').map Event.input = (e :: a).map Event.input ++ i :: (g :: b).map Event.input)
    (hprev : (acceptedOf (e :: a)).getLast? = some prev) (hg : g.results ≠ none) {k l : ℕ} (hi : OnTheWay f k l prev g.input i) :
    (resultsOf (strokeOf ops' rs')).map Result.kin = (resultsOf (strokeOf ops rs)).map Result.kin := by
  obtain ⟨P, m₀, r0, v0, hc, -⟩ := h.stroke hr hp hs
  have hw : P.wobble = none := by
    have := r0.wobble
    cases hw : P.wobble with
    | none => rfl
    | some w =>
      rw [hw] at this
      simp only at this
      rw [this] at hwobble
      cases hwobble
  have ha : P.maxAngle = none := by
    have := r0.maxAngle
    cases ha : P.maxAngle with
    | none => rfl
    | some a =>
      rw [ha] at this
      simp only at this
      rw [this, fin_inj] at hangle
      have := (v0.maxAngle a ha).1
      linarith
  have hrate : P.rate = f := by have := r0.rate; rw [hf, fin_inj] at this; exact this.symm
  -- the second stroke
  cases hst : strokeOf ops' rs' with
  | nil => rw [hst] at hs'; simp at hs'
  | cons e' rest' =>
    rw [hst] at hs'
    simp only [List.map_cons, List.cons_append, List.cons.injEq] at hs'
    obtain ⟨he, hrest⟩ := hs'
    obtain ⟨_, m₁, -, -, hc', -⟩ := h'.stroke hr' hp' hst
    have k1 := course_kins r0 v0 hc hloop
    have k2 := course_kins r0 v0 hc' hloop
    rw [hs, resultsOf_kin, resultsOf_kin, k1, k2, he]
    have hin : (rest'.map fun f => touch f.input) = (a.map fun f => touch f.input) ++ touch i :: touch g.input ::
        b.map fun f => touch f.input := by
      have := congrArg (List.map touch) hrest
      simpa [List.map_map, Function.comp_def] using this
    rw [hin]
    simp only [Ref.stroke, List.map_append, List.map_cons, Ref.answers_split, List.flatMap_cons, List.flatMap_append]
    congr 1
    congr 1
    -- from the input before on
    have hmv : ∀ x ∈ a, x.input.eventType = .move := by
      obtain ⟨m₂, h₂, ht⟩ := course_told r0 v0 (e := e) (a := a) (f := g) (b := b) (by simpa using hc)
      exact (ht.order a g rfl).1
    obtain ⟨m₂, h₂⟩ := Course.take (a := e :: a) (b := g :: b) (by simpa using hc) (by simp)
    obtain ⟨prev', hpr, hanchor⟩ := course_anchor_plain r0 v0 hw h₂ hmv
    obtain rfl : prev = prev' := by rw [hprev] at hpr; exact Option.some.inj hpr
    obtain ⟨out, hout⟩ := Option.ne_none_iff_exists'.1 hg
    obtain ⟨tips, _, h3, _⟩ := course_answer r0 v0 hc hout
    change List.flatMap _ (List.map _ (Ref.answers P (state P e a) _)) = List.flatMap _ (List.map _ (Ref.answers P (state P e a) _))
    generalize state P e a = s at hanchor h3
    have hti : touch i = .move (Ref.lerp s.anchor.1 (toPoint g.input.position) ((k : ℝ) / (k + l : ℕ)))
        (Ref.lerp s.anchor.2 (toReal g.input.time) ((k : ℝ) / (k + l : ℕ))) := by
      rw [hanchor]
      simp [touch, hi.type, hi.position, hi.time, Ref.lerp]
    have hor : touch g.input = .move (toPoint g.input.position) (toReal g.input.time) ∨
        touch g.input = .up (toPoint g.input.position) (toReal g.input.time) := by
      unfold touch; split <;> simp
    obtain ⟨s', t₁, t₂, q1, q2, q3, q4⟩ := Ref.advance_part hw ha hi.before hi.after hor
      (by rw [hanchor, hrate]; push_cast; exact hi.steps) (by exact_mod_cast hi.few) h3 rfl
    rw [Ref.answers, hti, Ref.advance, q1, Ref.answers, q2, Ref.answers, h3]
    simp only [List.map_cons, List.flatMap_cons, Option.map_some, Option.getD_some, q3, List.map_append, List.append_assoc]
    congr 1
    congr 1
    rcases hor with hor | hor
    · rw [(q4 hor).answers hw]
    · -- nothing comes after an Up
      have hb : b = [] := by
        rcases List.eq_nil_or_concat b with rfl | ⟨b', z, rfl⟩
        · rfl
        · exfalso
          have := course_moves r0 v0 (a := a ++ g :: b') (f := z) (b := []) (by simpa using hc) (touch g.input)
            (List.mem_map.2 ⟨g, by simp, rfl⟩)
          rw [hor] at this
          exact this
      rw [hb]; rfl

section Examples
open Ex

/-- The inputs of `four` with one more Move after two of the six steps from the second to the third. -/
def Ex.five (a b c d : ℂ) : List (Input XR XR) :=
  [xin .down a 0 0.2 1 2, xin .move b (1 / 30) 0.3 1.1 2.1, xin .move (b + 1 / 3 * (c - b)) (4 / 90) 0.3 1.2 2.1,
   xin .move c (2 / 30) 0.4 1.2 2.2, xin .up d (3 / 30) 0.5 1.3 2.3]

theorem Ex.five_stroke (a b c d : ℂ) : ∃ rs m, Session (calls xplain (five a b c d)) rs m ∧ Regular (calls xplain (five a b c d)) rs ∧
    (known (calls xplain (five a b c d)) rs).params = some xplain ∧
    (strokeOf (calls xplain (five a b c d)) rs).map Event.input = five a b c d ∧
    ∀ e ∈ strokeOf (calls xplain (five a b c d)) rs, e.results.isSome = true := by
  have hn : ∀ {e e' : EventType} {z z' : ℂ} {t t' pr pr' tl tl' o o' : ℝ}, (t' - t) * 180 ≤ 20 →
      Near xplain (xin e z t pr tl o) (xin e' z' t' pr' tl' o') := by
    intro e e' z z' t t' pr pr' tl tl' o o' ht
    refine .inr ⟨rfl, ?_⟩
    simpa [xin, xparams, xplain] using ht
  have hf : XR.Follows xplain (xin .down a 0 0.2 1 2) (five a b c d).tail :=
    ⟨fits_xin (by norm_num), hn (by norm_num), good_fin _, .inl rfl, fits_xin (by norm_num), hn (by norm_num), good_fin _, .inl rfl,
      fits_xin (by norm_num), hn (by norm_num), good_fin _, .inl rfl,
      fits_xin (by norm_num), hn (by norm_num), good_fin _, .inr ⟨rfl, rfl⟩, trivial⟩
  exact exists_stroke (by unfold xplain xparams; valid) rfl ⟨isFinite_fin _, isFinite_fin _, isFinite_fin _⟩ (good_fin _) hf
    (by simp)

/-- Two strokes that meet the hypotheses, for any four places. -/
example (a b c d : ℂ) : ∃ rs rs' m m' e f g z i,
    let ops := calls xplain (four a b c d)
    let ops' := calls xplain (five a b c d)
    Session ops rs m ∧ Session ops' rs' m' ∧ Regular ops rs ∧ Regular ops' rs' ∧
    (known ops rs).params = some xplain ∧ (known ops' rs').params = some xplain ∧
    xplain.position.loop.isEnabled = false ∧ xplain.wobble.isEnabled = false ∧ xplain.sampling.maxEstimatedAngle = fin (-1) ∧
    xplain.sampling.minOutputRate = fin 180 ∧ strokeOf ops rs = e :: ([f] ++ g :: [z]) ∧
    (strokeOf ops' rs').map Event.input = [e, f].map Event.input ++ i :: [g, z].map Event.input ∧
    (acceptedOf [e, f]).getLast? = some f.input ∧ g.results ≠ none ∧ OnTheWay 180 2 4 f.input g.input i := by
  obtain ⟨rs, m, a1, a2, a3, a4, a5⟩ := four_stroke a b c d
  obtain ⟨rs', m', b1, b2, b3, b4, -⟩ := five_stroke a b c d
  generalize hl : strokeOf _ rs = l at a4 a5
  rcases l with _ | ⟨e, _ | ⟨f, _ | ⟨g, _ | ⟨z, _ | ⟨y, l⟩⟩⟩⟩⟩ <;> simp only [four, List.map_cons, List.map_nil, List.cons.injEq,
    reduceCtorEq, and_false, and_true] at a4
  obtain ⟨p1, p2, p3, p4⟩ := a4
  refine ⟨rs, rs', m, m', e, f, g, z, xin .move (b + 1 / 3 * (c - b)) (4 / 90) 0.3 1.2 2.1, a1, b1, a2, b2, a3, b3, rfl, rfl, rfl, rfl, hl, ?_, ?_, ?_, ?_⟩
  · rw [b4]; simp [five, p1, p2, p3, p4]
  · have := a5 f (by simp)
    simp [acceptedOf, this]
  · have := a5 g (by simp)
    rwa [Option.isSome_iff_ne_none] at this
  · rw [p2, p3]
    refine ⟨rfl, ?_, ?_, ?_, by norm_num, by norm_num, by norm_num⟩
    · simp [xin]; norm_num
    · simp [xin]; norm_num
    · simp [xin]; norm_num

end Examples

end
end Ink
