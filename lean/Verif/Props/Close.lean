import Verif.Lemmas.Close
import Verif.Props.Blend
import Verif.Props.Settle
/-!
# Strokes side by side: C70
-/
namespace Ink
open Scalar Arith XR
noncomputable section

/-- Two inputs of the same type at the same time, with points that differ by an element of `S`. -/
structure Beside (S : Set ℂ) (i j : Input XR XR) : Prop where
  type : i.eventType = j.eventType
  time : i.time = j.time
  position : toPoint i.position - toPoint j.position ∈ S

/-- Two results at the same time, whose difference has the property `I`. -/
structure Apart (I : Ref.Tip → Prop) (r r' : Result XR XR) : Prop where
  diff : ∃ u v w : Ref.Tip, r.kin = tip u ∧ r'.kin = tip v ∧ Ref.Tip.IsDiff u v w ∧ I w

/-- What came of two inputs: both were rejected, or both have results, as many, with such differences. -/
def EventApart (R : Result XR XR → Result XR XR → Prop) (e f : Event XR XR) : Prop :=
  match e.results, f.results with
  | some a, some b => List.Forall₂ R a b
  | none, none => True
  | _, _ => False

variable {p : StrokeModelParams XR XR} {P : Ref.Params} {S : Set ℂ} {I : Ref.Tip → Prop}

theorem resultsApart_of {x y z : List Ref.Tip} (h : Forall₃ Ref.Tip.IsDiff x y z) (hI : ∀ w ∈ z, I w) :
    ∀ {a b : List (Result XR XR)}, a.map Result.kin = x.map tip → b.map Result.kin = y.map tip → List.Forall₂ (Apart I) a b := by
  induction h with
  | nil =>
    intro a b ha hb
    simp only [List.map_nil, List.map_eq_nil_iff] at ha hb
    subst ha hb
    exact .nil
  | cons h1 _ ih =>
    intro a b ha hb
    obtain ⟨a, as, rfl, ha, has⟩ := List.map_eq_cons_iff.1 ha
    obtain ⟨b, bs, rfl, hb, hbs⟩ := List.map_eq_cons_iff.1 hb
    exact .cons ⟨_, _, _, ha, hb, h1, hI _ (by simp)⟩ (ih (fun w hw => hI w (by simp [hw])) has hbs)

theorem eventApart_of {x y z : Option (List Ref.Tip)} (h : Ref.AnswerDiff x y z) (hI : ∀ l, z = some l → ∀ w ∈ l, I w) {e f : Event XR XR}
    (he : kins e = x.map (List.map tip)) (hf : kins f = y.map (List.map tip)) : EventApart (Apart I) e f := by
  unfold EventApart
  unfold kins at he hf
  match x, y, z, h with
  | some x, some y, some z, h =>
    obtain ⟨a, ha, ha'⟩ := Option.map_eq_some_iff.1 he
    obtain ⟨b, hb, hb'⟩ := Option.map_eq_some_iff.1 hf
    rw [ha, hb]
    exact resultsApart_of h (hI z rfl) ha' hb'
  | none, none, none, _ =>
    rw [Option.map_none, Option.map_eq_none_iff] at he hf
    rw [he, hf]
    trivial

/-- The states of two strokes and of their difference, which is kept. -/
structure Parallel (S : Set ℂ) (I : Ref.Tip → Prop) (a b s : Ref.State) : Prop where
  diff : Ref.State.IsDiff a b s
  synced : Ref.Synced s
  anchor : s.anchor.1 ∈ S
  tip : I s.tip

theorem events_apart (hk : Ref.Kept P S I) (hS : Convex ℝ S) (hv : P.Valid) (hcap : P.maxOut < 2147483647) (hw : P.wobble = none)
    (ha : P.maxAngle = none) {e f : List (Event XR XR)} (h : List.Forall₂ (fun e f => Beside S e.input f.input) e f) :
    ∀ {a b s : Ref.State}, Parallel S I a b s → Ref.Ordered P a (e.map fun f => touch f.input) →
      e.map kins = (Ref.answers P a (e.map fun f => touch f.input)).map (Option.map (List.map XR.tip)) →
      f.map kins = (Ref.answers P b (f.map fun f => touch f.input)).map (Option.map (List.map XR.tip)) →
      List.Forall₂ (fun e f => e.input.eventType ≠ .up → EventApart (Apart I) e f) e f ∧
      ∃ s', Parallel S I (Ref.after P a (e.map fun f => touch f.input)) (Ref.after P b (f.map fun f => touch f.input)) s' := by
  induction h with
  | nil => intro a b s hs _ _ _; exact ⟨.nil, s, hs⟩
  | @cons e f es fs h1 _ ih =>
    intro a b s hs ho he hf
    simp only [List.map_cons, Ref.answers, List.cons.injEq] at he hf
    have hafter : ∀ (s : Ref.State) (f : Event XR XR) (fs : List (Event XR XR)),
        Ref.after P s ((f :: fs).map fun f => touch f.input) = Ref.after P (Ref.advance P s (touch f.input)).1 (fs.map fun f => touch f.input) :=
      fun _ _ _ => rfl
    rw [hafter, hafter]
    rw [List.map_cons] at ho
    obtain ⟨ho1, ho2⟩ := ho
    by_cases hu : e.input.eventType = .up
    · have : ∀ (s : Ref.State) (k : Input XR XR), k.eventType = .up → (Ref.advance P s (touch k)).1 = s := by
        intro s k hk
        simp [touch, hk, Ref.advance]
      rw [this _ _ hu] at he ho2 ⊢
      rw [this _ _ (h1.type.symm.trans hu)] at hf ⊢
      obtain ⟨g1, g2⟩ := ih hs ho2 he.2 hf.2
      exact ⟨.cons (fun h => absurd hu h) g1, g2⟩
    · have e1 : touch e.input = .move (toPoint e.input.position) (toReal e.input.time) := by simp [touch, hu]
      have e2 : touch f.input = .move (toPoint f.input.position) (toReal e.input.time) := by simp [touch, ← h1.type, hu, h1.time]
      rw [e1] at he ho1 ho2 ⊢
      rw [e2] at hf ⊢
      obtain ⟨g1, g2⟩ := Ref.move_diff hw ha hs.diff (toPoint e.input.position) (toPoint f.input.position) (toReal e.input.time)
      have hle : s.anchor.2 ≤ (Ref.Touch.move (toPoint e.input.position - toPoint f.input.position) (toReal e.input.time)).time := by
        rw [← hs.diff.anchor.time.1]; exact ho1
      have hpl : (Ref.place P s (.move (toPoint e.input.position - toPoint f.input.position) (toReal e.input.time))).1 ∈ S := by
        have : (Ref.place P s (.move (toPoint e.input.position - toPoint f.input.position) (toReal e.input.time))).1 =
            toPoint e.input.position - toPoint f.input.position := by simp [Ref.place, Ref.smooth, hw]
        rw [this]; exact h1.position
      obtain ⟨k1, k2, k3⟩ := hk.move hS hv hs.synced hs.anchor hs.tip hpl hle hcap
      obtain ⟨i1, i2⟩ := ih ⟨g1, Ref.synced_advance hv hs.synced hle, k2, k3⟩ ho2 he.2 hf.2
      exact ⟨.cons (fun _ => eventApart_of g2 k1 he.1 hf.1) i1, i2⟩

/-- Two inputs of the same type at the same time, at most `ε` apart. -/
structure Nearby (ε : ℝ) (i j : Input XR XR) : Prop where
  type : i.eventType = j.eventType
  time : i.time = j.time
  position : ‖toPoint i.position - toPoint j.position‖ ≤ ε

/-- Two results at the same time, with a squared distance of at most `B`. -/
structure CloseResults (B : ℝ → ℝ) (r r' : Result XR XR) : Prop where
  time : r.time = r'.time
  position : ∃ x y : ℂ, r.position = V x ∧ r'.position = V y ∧ ‖x - y‖ ^ 2 ≤ B (toReal r.time)

theorem EventApart.imp {R R' : Result XR XR → Result XR XR → Prop} (h : ∀ a b, R a b → R' a b) {e f : Event XR XR} (hef : EventApart R e f) :
    EventApart R' e f := by
  unfold EventApart at *
  match e.results, f.results, hef with
  | some a, some b, hef => exact hef.imp fun _ _ => h _ _
  | none, none, _ => trivial

theorem Apart.close {B : ℝ → ℝ} (h : ∀ w : Ref.Tip, I w → ‖w.pos - 0‖ ^ 2 ≤ B w.time) {r r' : Result XR XR} (hr : Apart I r r') :
    CloseResults B r r' := by
  obtain ⟨u, v, w, h1, h2, ⟨h3, -, -, h4, h5⟩, h6⟩ := hr
  simp only [Result.kin, XR.tip, TipState.mk.injEq] at h1 h2
  refine ⟨by rw [h1.2.2.2, h2.2.2.2, h4, h5], u.pos, v.pos, h1.1, h2.1, ?_⟩
  have := h w h6
  rw [h1.2.2.2, toReal_fin, h4, ← h3]
  simpa using this

variable {ops ops' : List (Op XR XR)} {rs rs' : List (Response XR XR)} {m m' : StrokeModeler XR XR} {M d ε : ℝ}

theorem plain_params (hr : Realizes p P) (hv : P.Valid) (hwobble : p.wobble.isEnabled = false)
    (hangle : p.sampling.maxEstimatedAngle = fin (-1)) : P.wobble = none ∧ P.maxAngle = none := by
  constructor
  · have := hr.wobble
    cases hw : P.wobble with
    | none => rfl
    | some w =>
      rw [hw] at this
      simp only at this
      rw [this] at hwobble
      cases hwobble
  · have := hr.maxAngle
    cases ha : P.maxAngle with
    | none => rfl
    | some a =>
      rw [ha] at this
      simp only at this
      rw [this, fin_inj] at hangle
      have := (hv.maxAngle a ha).1
      linarith

/-- Two strokes with inputs at most `ε` apart: the first part of the two strokes, and the states after it. -/
theorem strokes_apart (hrate : RateOk p M d) (h1 : Realizes p P) (h2 : P.Valid) (hl : p.position.loop.isEnabled = false) (hw : P.wobble = none)
    (ha : P.maxAngle = none) {e f : Event XR XR} {es fs : List (Event XR XR)} (hc : Course p (e :: es) m) (hc' : Course p (f :: fs) m')
    (hin : List.Forall₂ (fun e f => Nearby ε e.input f.input) (e :: es) (f :: fs)) :
    P.mass * Ref.cap P ε = 640 * ((1 + M * d ^ 2) ^ 2 / (M * d ^ 2)) * ε ^ 2 ∧
    EventApart (Apart fun w => Ref.energy P 0 w ≤ Ref.cap P ε) e f ∧
    List.Forall₂ (fun e f => e.input.eventType ≠ .up → EventApart (Apart fun w => Ref.energy P 0 w ≤ Ref.cap P ε) e f) es fs ∧
    ∃ s', Parallel {y : ℂ | ‖y - 0‖ ≤ ε} (fun w => Ref.energy P 0 w ≤ Ref.cap P ε) (state P e es) (state P f fs) s' := by
  obtain ⟨hM, hd, hst, hcap⟩ := hrate.stable h1
  have hM0 : 0 < M := hM ▸ h2.mass
  have hd0 : 0 < d := hd ▸ h2.drag
  have hS : Convex ℝ {y : ℂ | ‖y - 0‖ ≤ ε} := by
    have : {y : ℂ | ‖y - 0‖ ≤ ε} = Metric.closedBall 0 ε := by ext y; simp
    rw [this]; exact convex_closedBall _ _
  have hcapE : P.mass * Ref.cap P ε = 640 * ((1 + M * d ^ 2) ^ 2 / (M * d ^ 2)) * ε ^ 2 := by
    unfold Ref.cap Ref.Params.decay
    rw [hM, hd]
    field_simp
    ring
  refine ⟨hcapE, ?_⟩
  obtain ⟨h0, hin⟩ := List.forall₂_cons.1 hin
  have d1 := course_kins h1 h2 hc hl
  have d2 := course_kins h1 h2 hc' hl
  simp only [Ref.stroke, List.map_cons, List.cons.injEq] at d1 d2
  rw [← h0.time] at d2
  have hb := Ref.start_diff (toPoint e.input.position) (toPoint f.input.position) (toReal e.input.time)
  have hstart : Ref.energy P 0 (Ref.start (toPoint e.input.position - toPoint f.input.position) (toReal e.input.time)).tip ≤ Ref.cap P ε := by
    have k := Ref.energy_le hst h2 0 (Ref.start (toPoint e.input.position - toPoint f.input.position) (toReal e.input.time)).tip
    have k2 : (Ref.start (toPoint e.input.position - toPoint f.input.position) (toReal e.input.time)).tip.vel = 0 := rfl
    have k3 : (Ref.start (toPoint e.input.position - toPoint f.input.position) (toReal e.input.time)).tip.pos =
      toPoint e.input.position - toPoint f.input.position := rfl
    rw [k2, k3, sub_zero] at k
    refine le_of_mul_le_mul_left (a := P.mass) ?_ h2.mass
    rw [hcapE]
    have k4 : ‖toPoint e.input.position - toPoint f.input.position‖ ^ 2 ≤ ε ^ 2 := pow_le_pow_left₀ (norm_nonneg _) h0.position 2
    have k5 : 1 ≤ (1 + M * d ^ 2) ^ 2 / (M * d ^ 2) := by
      have : 0 < M * d ^ 2 := by positivity
      rw [one_le_div this]
      nlinarith
    have k6 := mul_le_mul_of_nonneg_right k5 (sq_nonneg ε)
    simp only [norm_zero] at k
    nlinarith [sq_nonneg ε]
  have hpar : Parallel {y : ℂ | ‖y - 0‖ ≤ ε} (fun w => Ref.energy P 0 w ≤ Ref.cap P ε)
      (Ref.start (toPoint e.input.position) (toReal e.input.time)) (Ref.start (toPoint f.input.position) (toReal e.input.time))
      (Ref.start (toPoint e.input.position - toPoint f.input.position) (toReal e.input.time)) :=
    ⟨hb, Ref.synced_start _ _, by show ‖_ - (0 : ℂ)‖ ≤ ε; rw [sub_zero]; exact h0.position, hstart⟩
  obtain ⟨g1, g2⟩ := events_apart (Ref.kept_near hst h2 0 ε) hS h2 hcap hw ha
    (hin.imp fun e f h => ⟨h.type, h.time, by show ‖_ - (0 : ℂ)‖ ≤ ε; rw [sub_zero]; exact h.position⟩) hpar (course_ordered h1 h2 hc).1 d1.2 d2.2
  refine ⟨?_, g1, ?_⟩
  · exact eventApart_of (x := some [_]) (y := some [_]) (z := some [_]) (.cons hb.tip .nil) (by simpa using hstart) d1.1 d2.1
  · unfold state
    rw [← h0.time]
    exact g2

/-- C70: small changes of the inputs make small changes of the results. If two strokes with the same parameters, in two histories that may
have nothing else in common, have inputs of the same types at the same times, and each input of one is at most `ε` away from that of the
other, then the same inputs are accepted, and those before the Up have as many results, at the same times, whose distances are bounded by a
multiple of `ε` that depends on the parameters only. Without wobble smoothing, loop mitigation and resampling by angle, and for output
rates that are high enough for the spring. -/
theorem C70_close_exact (h : Session ops rs m) (h' : Session ops' rs' m') (hr : Regular ops rs) (hr' : Regular ops' rs')
    (hp : (known ops rs).params = some p) (hp' : (known ops' rs').params = some p) (hloop : p.position.loop.isEnabled = false)
    (hwobble : p.wobble.isEnabled = false) (hangle : p.sampling.maxEstimatedAngle = fin (-1)) (hrate : RateOk p M d)
    (hin : List.Forall₂ (Nearby ε) ((strokeOf ops rs).map Event.input) ((strokeOf ops' rs').map Event.input)) :
    List.Forall₂ (fun e f => e.input.eventType ≠ .up →
      EventApart (CloseResults fun _ => 640 * ((1 + M * d ^ 2) ^ 2 / (M * d ^ 2)) * ε ^ 2) e f) (strokeOf ops rs) (strokeOf ops' rs') := by
  rw [List.forall₂_map_left_iff, List.forall₂_map_right_iff] at hin
  match hs : strokeOf ops rs, hs' : strokeOf ops' rs' with
  | [], [] => exact .nil
  | [], _ :: _ => rw [hs, hs'] at hin; cases hin
  | _ :: _, [] => rw [hs, hs'] at hin; cases hin
  | e :: es, f :: fs =>
    rw [hs, hs'] at hin
    obtain ⟨P, _, k1, k2, c1, -⟩ := h.stroke hr hp hs
    obtain ⟨_, _, -, -, c2, -⟩ := h'.stroke hr' hp' hs'
    obtain ⟨hw, ha⟩ := plain_params k1 k2 hwobble hangle
    obtain ⟨hcapE, g0, g1, -⟩ := strokes_apart hrate k1 k2 hloop hw ha c1 c2 hin
    obtain ⟨hM, -, hst, -⟩ := hrate.stable k1
    refine (List.Forall₂.cons (fun _ => g0) g1).imp fun e f hef hu => (hef hu).imp fun r r' => Apart.close fun w hwE => ?_
    rw [← hcapE]
    exact (Ref.dist_le_energy hst k2 0 w).trans (mul_le_mul_of_nonneg_left hwE k2.mass.le)

/-- The anchor after an accepted input, without smoothing. -/
theorem course_anchor_near {a b : List (Event XR XR)} {e g : Event XR XR} (hr : Realizes p P) (hv : P.Valid) (hw : P.wobble = none)
    (hc : Course p (e :: (a ++ b)) m) (hb : b ≠ []) (hg : g.results ≠ none) (hlast : (e :: a).getLast? = some g) :
    (state P e a).anchor = (toPoint g.input.position, toReal g.input.time) := by
  rcases List.eq_nil_or_concat a with rfl | ⟨a, c, rfl⟩
  · simp at hlast
    subst hlast
    rfl
  · rw [List.concat_eq_append] at *
    obtain rfl : c = g := by
      rw [← List.cons_append, List.getLast?_concat] at hlast
      exact Option.some.inj hlast
    obtain ⟨out, hout⟩ := Option.ne_none_iff_exists'.1 hg
    obtain ⟨tips, _, h3, _⟩ := course_answer hr hv (a := a) (f := c) (b := b) (by simpa using hc) hout
    obtain ⟨f, b', rfl⟩ := List.exists_cons_of_ne_nil hb
    have hm := course_moves hr hv (a := a ++ [c]) (f := f) (b := b') (by simpa using hc) (touch c.input)
      (List.mem_map.2 ⟨c, by simp, rfl⟩)
    have hu : c.input.eventType ≠ .up := by
      intro hu
      simp [touch, hu, Ref.Touch.IsMove] at hm
    have ht : touch c.input = .move (toPoint c.input.position) (toReal c.input.time) := by simp [touch, hu]
    rw [ht] at h3
    obtain ⟨_, _, _, _, h4⟩ := Ref.move_answer h3
    have : state P e (a ++ [c]) = (Ref.advance P (state P e a) (touch c.input)).1 := by
      simp only [state, List.map_append, List.map_singleton, Ref.after_append]
    rw [this, ht, h4]
    simp [Ref.smooth, hw]

/-- C70: differences fade. If moreover the inputs of the two strokes are the same from the accepted input `g` on, then the bound for the
results of the inputs after `g` decays exponentially with the time elapsed since `g`. -/
theorem C70_fades_exact (h : Session ops rs m) (h' : Session ops' rs' m') (hr : Regular ops rs) (hr' : Regular ops' rs')
    (hp : (known ops rs).params = some p) (hp' : (known ops' rs').params = some p) (hloop : p.position.loop.isEnabled = false)
    (hwobble : p.wobble.isEnabled = false) (hangle : p.sampling.maxEstimatedAngle = fin (-1)) (hrate : RateOk p M d)
    {a a' b b' : List (Event XR XR)} {g g' : Event XR XR} (hs : strokeOf ops rs = a ++ g :: b) (hs' : strokeOf ops' rs' = a' ++ g' :: b')
    (hg : g.results ≠ none)
    (hbefore : List.Forall₂ (fun e f => Nearby ε e.input f.input) a a')
    (hafter : List.Forall₂ (fun e f => e.input.eventType = f.input.eventType ∧ e.input.time = f.input.time ∧
      e.input.position = f.input.position) (g :: b) (g' :: b')) (hε : 0 ≤ ε) :
    List.Forall₂ (fun e f => e.input.eventType ≠ .up →
      EventApart (CloseResults fun t => 640 * ((1 + M * d ^ 2) ^ 2 / (M * d ^ 2)) * ε ^ 2 *
        Real.exp (-(d / (10 * (1 + M * d ^ 2))) * (t - toReal g.input.time))) e f) b b' := by
  by_cases hb : b = []
  · subst hb
    cases hafter with | cons _ h2 => cases h2; exact .nil
  have hb' : b' ≠ [] := by
    rintro rfl
    cases hafter with | cons _ h2 => cases h2; exact hb rfl
  obtain ⟨hgg, hbb⟩ := List.forall₂_cons.1 hafter
  have hpre : List.Forall₂ (fun e f => Nearby ε e.input f.input) (a ++ [g]) (a' ++ [g']) := by
    refine List.rel_append hbefore (.cons ⟨hgg.1, hgg.2.1, ?_⟩ .nil)
    rw [hgg.2.2, sub_self, norm_zero]; exact hε
  obtain ⟨e, es, hea⟩ : ∃ e es, a ++ [g] = e :: es := by cases a <;> simp
  obtain ⟨f, fs, hfa⟩ : ∃ f fs, a' ++ [g'] = f :: fs := by cases a' <;> simp
  have hs1 : strokeOf ops rs = e :: (es ++ b) := by rw [hs, ← List.cons_append, ← hea]; simp
  have hs2 : strokeOf ops' rs' = f :: (fs ++ b') := by rw [hs', ← List.cons_append, ← hfa]; simp
  obtain ⟨P, _, k1, k2, c1, -⟩ := h.stroke hr hp hs1
  obtain ⟨_, _, -, -, c2, -⟩ := h'.stroke hr' hp' hs2
  obtain ⟨hw, ha⟩ := plain_params k1 k2 hwobble hangle
  obtain ⟨hM, hd, hst, hcap⟩ := hrate.stable k1
  obtain ⟨_, t1⟩ := c1.take (a := e :: es) (b := b) (by simp)
  obtain ⟨_, t2⟩ := c2.take (a := f :: fs) (b := b') (by simp)
  rw [hea, hfa] at hpre
  obtain ⟨hcapE, q0, q1, s, hpar⟩ := strokes_apart hrate k1 k2 hloop hw ha t1 t2 hpre
  have hlast : (e :: es).getLast? = some g := by rw [← hea]; simp
  have hlast' : (f :: fs).getLast? = some g' := by rw [← hfa]; simp
  have hg' : g'.results ≠ none := by
    have hap : EventApart (Apart fun w => Ref.energy P 0 w ≤ Ref.cap P ε) g g' := by
      cases hbefore with
      | nil =>
        simp only [List.nil_append, List.cons.injEq] at hea hfa
        rw [hea.1, hfa.1]; exact q0
      | cons _ hbefore =>
        simp only [List.cons_append, List.cons.injEq] at hea hfa
        have hgm : g ∈ es := by rw [← hea.2]; simp
        have hgu : g.input.eventType ≠ .up := by
          obtain ⟨f, b', rfl⟩ := List.exists_cons_of_ne_nil hb
          intro hu
          have := course_moves k1 k2 c1 _ (List.mem_map.2 ⟨g, hgm, rfl⟩)
          simp [touch, hu, Ref.Touch.IsMove] at this
        rw [← hea.2, ← hfa.2] at q1
        have q2 := List.forall₂_reverse_iff.2 q1
        rw [List.reverse_concat, List.reverse_concat] at q2
        exact (List.forall₂_cons.1 q2).1 hgu
    intro h0
    unfold EventApart at hap
    rw [h0] at hap
    cases h1 : g.results with
    | none => exact hg h1
    | some => rw [h1] at hap; exact hap
  have e1 := course_anchor_near k1 k2 hw c1 hb hg hlast
  have e2 := course_anchor_near k1 k2 hw c2 hb' hg' hlast'
  have hanchor : s.anchor = (0, toReal g.input.time) := by
    refine Prod.ext ?_ ?_
    · rw [hpar.diff.anchor.pos, e1, e2, hgg.2.2]; simp
    · rw [← hpar.diff.anchor.time.1, e1]
  have hstime : s.tip.time = toReal g.input.time := by
    have := hpar.synced
    unfold Ref.Synced at this
    rw [this, hanchor]
  have hpar' : Parallel {0} (fun w => Ref.scaled P 0 w ≤ Ref.cap P ε * Real.exp (P.decay / 5 * toReal g.input.time))
      (state P e es) (state P f fs) s := by
    refine ⟨hpar.diff, hpar.synced, by rw [hanchor]; rfl, ?_⟩
    show Ref.energy P 0 s.tip * Real.exp _ ≤ _
    rw [hstime]
    exact mul_le_mul_of_nonneg_right hpar.tip (Real.exp_pos _).le
  have ho := (course_ordered k1 k2 c1).1
  rw [List.map_append, Ref.ordered_split] at ho
  have kin : ∀ {e : Event XR XR} {es b : List (Event XR XR)} {m : StrokeModeler XR XR}, Course p (e :: (es ++ b)) m →
      b.map kins = (Ref.answers P (state P e es) (b.map fun f => touch f.input)).map (Option.map (List.map XR.tip)) := by
    intro e es b m hc
    have d1 := course_kins k1 k2 hc hloop
    simp only [Ref.stroke, List.map_cons, List.cons.injEq, List.map_append, Ref.answers_split] at d1
    have hlen : ∀ (is : List Ref.Touch) (s : Ref.State), (Ref.answers P s is).length = is.length := by
      intro is
      induction is with
      | nil => intro s; rfl
      | cons i is ih => intro s; simp [Ref.answers, ih]
    exact (List.append_inj' d1.2 (by simp [hlen])).2
  obtain ⟨g1, -⟩ := events_apart (Ref.kept_rest hst k2 0 _) (convex_singleton 0) k2 hcap hw ha
    (hbb.imp fun e f h => ⟨h.1, h.2.1, by rw [h.2.2, sub_self]; rfl⟩) hpar' ho.2 (kin c1) (kin c2)
  refine g1.imp fun e f hef hu => (hef hu).imp fun r r' => Apart.close fun w hwE => ?_
  rw [← hcapE, hM]
  exact dist_of_scaled hM hd hst k2 hwE

section Examples
open Ex

/-- Any two strokes of four inputs at the times of `four`, at most `ε` apart. -/
example (ε : ℝ) (x y : Fin 4 → ℂ) (h : ∀ i, ‖x i - y i‖ ≤ ε) : ∃ rs₁ rs₂ m₁ m₂,
    let s : (Fin 4 → ℂ) → List (Op XR XR) := fun z => calls xplain (four (z 0) (z 1) (z 2) (z 3))
    Session (s x) rs₁ m₁ ∧ Session (s y) rs₂ m₂ ∧ Regular (s x) rs₁ ∧ Regular (s y) rs₂ ∧
    (known (s x) rs₁).params = some xplain ∧ (known (s y) rs₂).params = some xplain ∧
    xplain.position.loop.isEnabled = false ∧ xplain.wobble.isEnabled = false ∧ xplain.sampling.maxEstimatedAngle = fin (-1) ∧
    RateOk xplain (11 / 32400) 72 ∧
    List.Forall₂ (Nearby ε) ((strokeOf (s x) rs₁).map Event.input) ((strokeOf (s y) rs₂).map Event.input) ∧
    ∀ e ∈ strokeOf (s x) rs₁, e.results.isSome = true := by
  obtain ⟨rs₁, m₁, a1, a2, a3, a4, a5⟩ := four_stroke (x 0) (x 1) (x 2) (x 3)
  obtain ⟨rs₂, m₂, b1, b2, b3, b4, -⟩ := four_stroke (y 0) (y 1) (y 2) (y 3)
  refine ⟨rs₁, rs₂, m₁, m₂, a1, b1, a2, b2, a3, b3, rfl, rfl, rfl,
    ⟨rfl, rfl, ⟨180, rfl, by norm_num, by norm_num⟩, by simp [xplain, xparams]⟩, ?_, a5⟩
  rw [a4, b4]
  refine .cons ?_ (.cons ?_ (.cons ?_ (.cons ?_ .nil))) <;> exact ⟨rfl, rfl, by simpa [xin] using h _⟩

/-- The strokes from `a` and from `b` to `c`, `d` and `f`: the same inputs from the second one on. -/
example (a b c d f : ℂ) : ∃ rs₁ rs₂ m₁ m₂ e₁ e₂ g₁ g₂ l₁ l₂,
    Session (calls xplain (four a c d f)) rs₁ m₁ ∧ Session (calls xplain (four b c d f)) rs₂ m₂ ∧
    Regular (calls xplain (four a c d f)) rs₁ ∧ Regular (calls xplain (four b c d f)) rs₂ ∧
    strokeOf (calls xplain (four a c d f)) rs₁ = [e₁] ++ g₁ :: l₁ ∧ strokeOf (calls xplain (four b c d f)) rs₂ = [e₂] ++ g₂ :: l₂ ∧
    g₁.results ≠ none ∧ List.Forall₂ (fun e f => Nearby ‖a - b‖ e.input f.input) [e₁] [e₂] ∧
    List.Forall₂ (fun e f => e.input.eventType = f.input.eventType ∧ e.input.time = f.input.time ∧ e.input.position = f.input.position)
      (g₁ :: l₁) (g₂ :: l₂) ∧ l₁.length = 2 := by
  obtain ⟨rs₁, m₁, a1, a2, a3, a4, a5⟩ := four_stroke a c d f
  obtain ⟨rs₂, m₂, b1, b2, b3, b4, -⟩ := four_stroke b c d f
  obtain ⟨e₁, t₁, h1, h2, h3⟩ := List.map_eq_cons_iff.1 a4
  obtain ⟨g₁, l₁, rfl, h4, h5⟩ := List.map_eq_cons_iff.1 h3
  obtain ⟨e₂, t₂, k1, k2, k3⟩ := List.map_eq_cons_iff.1 b4
  obtain ⟨g₂, l₂, rfl, k4, k5⟩ := List.map_eq_cons_iff.1 k3
  refine ⟨rs₁, rs₂, m₁, m₂, e₁, e₂, g₁, g₂, l₁, l₂, a1, b1, a2, b2, h1, k1, ?_, .cons ?_ .nil, .cons ?_ ?_, ?_⟩
  · have := a5 g₁ (by rw [h1]; simp)
    intro h0
    rw [h0] at this
    cases this
  · rw [h2, k2]
    exact ⟨rfl, rfl, by simp [xin]⟩
  · rw [h4, k4]
    exact ⟨rfl, rfl, rfl⟩
  · have : List.Forall₂ (fun i j : Input XR XR => i.eventType = j.eventType ∧ i.time = j.time ∧ i.position = j.position)
        (l₁.map Event.input) (l₂.map Event.input) := by
      rw [h5, k5]
      exact List.forall₂_same.2 fun _ _ => ⟨rfl, rfl, rfl⟩
    rwa [List.forall₂_map_left_iff, List.forall₂_map_right_iff] at this
  · have := congrArg List.length h5
    simpa using this

end Examples

end
end Ink
