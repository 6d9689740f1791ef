import Verif.Exact.Stylus
/-!
# A stroke on exact numbers is the stroke of the README
-/
namespace Ink
open Scalar Arith XR
noncomputable section
open Classical

namespace XR

/-- The real number, 0 for the others. -/
def toReal : XR → ℝ
  | fin r => r
  | _ => 0

@[simp] theorem toReal_fin (r : ℝ) : toReal (fin r) = r := rfl

/-- The point of the plane. -/
def toPoint (v : Vec2 XR) : ℂ := ⟨toReal v.x, toReal v.y⟩

@[simp] theorem toPoint_V (z : ℂ) : toPoint (V z) = z := rfl

/-- The input as seen by the reference model. -/
def touch (i : Input XR XR) : Ref.Touch :=
  if i.eventType = .up then .up (toPoint i.position) (toReal i.time) else .move (toPoint i.position) (toReal i.time)

theorem finiteInput_eq {i : Input XR XR} (h : FiniteInput i) :
    i.position = V (toPoint i.position) ∧ i.time = fin (toReal i.time) := by
  obtain ⟨x, hx⟩ := isFinite_iff.1 h.x
  obtain ⟨y, hy⟩ := isFinite_iff.1 h.y
  obtain ⟨t, ht⟩ := isFinite_iff.1 h.time
  refine ⟨?_, by rw [ht]; rfl⟩
  rcases i with ⟨_, ⟨_, _⟩, _, _, _, _⟩
  simp only at hx hy
  subst hx; subst hy; rfl

/-- The state of the modeler is that of the reference model. -/
structure Refines (P : Ref.Params) (m : StrokeModeler XR XR) (s : Ref.State) : Prop where
  tip : m.position.state = XR.tip s.tip
  anchor : ∀ last, m.lastInput = some last → last.correctedPosition = V s.anchor.1 ∧ last.input.time = fin s.anchor.2
  window : P.wobble ≠ none → m.wobble.state = wstate s.window
  last : s.window ≠ []

variable {p : StrokeModelParams XR XR} {P : Ref.Params}

theorem wobble_refines (hr : Realizes p P) (hv : P.Valid) {m : StrokeModeler XR XR} (hp : ParamsOf p m) {s : Ref.State}
    (h : Refines P m s) (x : ℂ) (t : ℝ) :
    ∃ w, m.wobble.update (V x) (fin t) = .ok (w, V (Ref.smooth P s x t).2) ∧
      (P.wobble ≠ none → w.state = wstate (Ref.smooth P s x t).1) ∧ (Ref.smooth P s x t).1 ≠ [] := by
  have hw := hr.wobble
  unfold Ref.smooth
  cases ho : P.wobble with
  | none =>
    rw [ho] at hw
    refine ⟨m.wobble, ?_, by simp, h.last⟩
    have : m.wobble.params.isEnabled = false := by rw [hp.wobble]; exact hw
    simp [WobbleSmoother.update, this]
  | some w =>
    obtain ⟨tm, lo, hi⟩ := w
    rw [ho] at hw
    dsimp only at hw
    obtain ⟨last, hl⟩ : ∃ last, s.window.getLast? = some last := by
      rw [← Option.isSome_iff_exists]; simpa using h.last
    rw [hl]
    have ht := (hv.wobble _ _ _ ho).1
    refine ⟨_, wobble_update_eq (by rw [hp.wobble]; exact hw) ht (h.window (by simp [ho])) hl x t, fun _ => rfl, ?_⟩
    intro hc
    have := slide_last tm ht s.window (Ref.sample last x t)
    simp only at hc
    simp [hc] at this

/-- The results recorded for an input have the given kinematic fields. -/
def kins (e : Event XR XR) : Option (List (TipState XR XR)) := e.results.map (List.map Result.kin)

/-- The raw samples are those of the given tip states and inputs. -/
structure Samples (raws : List (Result XR XR)) (tips : List Ref.Tip) (inputs : List (Input XR XR)) : Prop where
  kin : raws.map Result.kin = tips.map tip
  pressure : raws.map (·.pressure) = inputs.map (·.pressure)
  tilt : raws.map (·.tilt) = inputs.map (·.tilt)
  orientation : raws.map (·.orientation) = inputs.map (·.orientation)

theorem Samples.snoc {raws : List (Result XR XR)} {tips : List Ref.Tip} {inputs : List (Input XR XR)}
    (h : Samples raws tips inputs) (x : ℂ) (t : ℝ) (i : Input XR XR) :
    Samples (raws ++ [StylusModeler.rawResult raws.getLast? (V x) (fin t) (stylusStateOf i)])
      (tips ++ [Ref.raw tips.getLast? (x, t)]) (inputs ++ [i]) := by
  have hl : raws.getLast?.map Result.kin = tips.getLast?.map tip := by
    rw [← List.getLast?_map, ← List.getLast?_map, h.kin]
  refine ⟨?_, ?_, ?_, ?_⟩
  · simp only [List.map_append, List.map_singleton, h.kin, rawResult_kin hl]
  all_goals simp only [List.map_append, List.map_singleton, h.pressure, h.tilt, h.orientation]; rfl

/-- The state of the reference model after a stroke. -/
def state (P : Ref.Params) (e : Event XR XR) (rest : List (Event XR XR)) : Ref.State :=
  Ref.after P (Ref.start (toPoint e.input.position) (toReal e.input.time)) (rest.map fun f => touch f.input)

/-- The raw samples of a stroke. -/
def polyline (P : Ref.Params) (e : Event XR XR) (rest : List (Event XR XR)) : List Ref.Tip :=
  Ref.polyline P (toPoint e.input.position) (toReal e.input.time) (rest.map fun f => touch f.input)

/-- The time that the code takes to be that of the tip state before the first one of the answer to an input: for a Move it is
the time of the Move itself (stroke_modeler.cc:316 comes after 307). -/
def before (s : Ref.State) (i : Input XR XR) : ℝ := if i.eventType = .up then s.anchor.2 else toReal i.time

/-- What happens in a stroke. -/
structure Tale (p : StrokeModelParams XR XR) (P : Ref.Params) (e : Event XR XR) (rest : List (Event XR XR))
    (m : StrokeModeler XR XR) : Prop where
  down : e.input.eventType = .down
  finite : FiniteInput e.input
  first : e.results = some [StrokeModeler.downResult e.input]
  inputs : ∀ f ∈ rest, FiniteInput f.input ∧ f.input.eventType ≠ .down
  going : m.lastInput ≠ none → ∀ f ∈ rest, f.input.eventType = .move
  order : ∀ l f, rest = l ++ [f] → (∀ g ∈ l, g.input.eventType = .move) ∧
    (state P e l).anchor.2 ≤ (touch f.input).time
  refines : m.lastInput ≠ none → Refines P m (state P e rest)
  finIn : FinIn m.stylus
  loop : LoopOk p.position.loop → LoopFin m.loop ∧ LoopIs m.loop (resultsOf rest)
  window : ∃ raws, WindowOf p.stylus m.stylus.state raws ∧ Samples raws (polyline P e rest) ((e :: rest).map Event.input)
  pressure : m.stylus.state.unknownPressure = (e :: rest).any fun f => isUnknown f.input.pressure
  tilt : m.stylus.state.unknownTilt = (e :: rest).any fun f => isUnknown f.input.tilt
  orientation : m.stylus.state.unknownOrientation = (e :: rest).any fun f => isUnknown f.input.orientation
  answer : ∀ l f, rest = l ++ [f] → match f.results with
    | none => (Ref.advance P (state P e l) (touch f.input)).2 = none
    | some out => ∃ tips, (Ref.advance P (state P e l) (touch f.input)).2 = some tips ∧
      (LoopOk p.position.loop →
        Modeled m.stylus p.position.loop (resultsOf l) (before (state P e l) f.input) tips out)

theorem moveTips_eq (hr : Realizes p P) (hv : P.Valid) {m : StrokeModeler XR XR} (hp : ParamsOf p m) {s : Ref.State}
    (h : Refines P m s) {last : LastInput XR XR} (hl : m.lastInput = some last) {i : Input XR XR} {t : ℝ}
    (ht : i.time = fin t) (x : ℂ) (n : ℤ) :
    m.moveTips last i (V x) n =
      (let l := Ref.follow P s.tip (Ref.upsample s.anchor (x, t) n.toNat)
       ({ m.position with state := tip (l.getLastD s.tip) }, l.map tip)) := by
  obtain ⟨h1, h2⟩ := h.anchor last hl
  unfold StrokeModeler.moveTips
  rw [h1, h2, ht]
  exact updateAlongLinearPath_eq hr hv m.position hp.position s.tip h.tip s.anchor (x, t) n

theorem upTips_eq (hr : Realizes p P) (hv : P.Valid) {m : StrokeModeler XR XR} (hp : ParamsOf p m) {s : Ref.State}
    (h : Refines P m s) {last : LastInput XR XR} (hl : m.lastInput = some last) {i : Input XR XR} {x : ℂ} {t : ℝ}
    (hx : i.position = V x) (ht : i.time = fin t) (n : ℤ) :
    (m.upTips p last i n).2 =
      (let tips := Ref.follow P s.tip (Ref.upsample s.anchor (x, t) n.toNat)
       let fin := Ref.settle P x P.maxIter (1 / P.rate) (tips.getLastD s.tip)
       (if tips ++ fin.2 = [] then [fin.1] else tips ++ fin.2).map tip) := by
  have h1 := moveTips_eq hr hv hp h hl ht x n
  unfold StrokeModeler.moveTips at h1
  unfold StrokeModeler.upTips
  rw [hx, h1]
  have e : (1 / p.sampling.minOutputRate : XR) = fin (1 / P.rate) := by
    rw [hr.rate, lit1, fin_div _ hv.rate.ne']
  rw [e]
  dsimp only
  generalize Ref.follow P s.tip (Ref.upsample s.anchor (x, t) n.toNat) = l
  have e2 := modelEndOfStroke_eq hr hv { m.position with state := tip (l.getLastD s.tip) } hp.position _ rfl x (1 / P.rate)
  dsimp only at e2
  rw [e2]
  dsimp only
  rw [← List.map_append]
  simp only [List.isEmpty_iff, List.map_eq_nil_iff]
  split <;> rfl

theorem kin_downResult {i : Input XR XR} (h : FiniteInput i) :
    (StrokeModeler.downResult i).kin = tip (Ref.start (toPoint i.position) (toReal i.time)).tip := by
  obtain ⟨h1, h2⟩ := finiteInput_eq h
  simp only [StrokeModeler.downResult, Result.kin, tip, Ref.start, V_zero]
  rw [← h1, ← h2]

theorem stylus_update_flags {s s' : StylusModeler XR XR} {x : Vec2 XR} {t : XR} {st : StylusState XR}
    (h : s.update x t st = .ok s') :
    s'.state.unknownPressure = (s.state.unknownPressure || isUnknown st.pressure) ∧
    s'.state.unknownTilt = (s.state.unknownTilt || isUnknown st.tilt) ∧
    s'.state.unknownOrientation = (s.state.unknownOrientation || isUnknown st.orientation) := by
  unfold StylusModeler.update at h
  dsimp only at h
  split at h
  · simp only [Outcome.ok.injEq] at h
    rw [← h]; exact ⟨rfl, rfl, rfl⟩
  · obtain ⟨l, _, h⟩ := Outcome.bind_eq_ok.1 h
    simp only [Outcome.pure_eq, Outcome.ok.injEq] at h
    rw [← h]; exact ⟨rfl, rfl, rfl⟩

theorem stylus_update_ne {s s' : StylusModeler XR XR} (hv : validateStylusParams s.params = .ok)
    (hu : s.params.useStrokeNormalProjection = true) {x : Vec2 XR} {t : XR} {st : StylusState XR} (h : s.update x t st = .ok s') :
    s'.state.inputs ≠ [] := by
  have hmin := (stylus_valid hv).1 hu
  unfold StylusModeler.update at h
  simp only [hu, Bool.not_true, Bool.false_and, Bool.false_eq_true, ↓reduceIte] at h
  obtain ⟨l, hd, h⟩ := Outcome.bind_eq_ok.1 h
  simp only [Outcome.pure_eq, Outcome.ok.injEq] at h
  rw [← h]
  have := (dropOldInputs_normal hu hmin hd).2.1
  rw [List.length_append, List.length_singleton] at this
  intro h0
  have h0 : l = [] := h0
  rw [h0, List.length_nil] at this
  omega

theorem resultsOf_snoc (es : List (Event XR XR)) (f : Event XR XR) : resultsOf (es ++ [f]) = resultsOf es ++ f.results.getD [] := by
  simp [resultsOf]

theorem state_append (P : Ref.Params) (e : Event XR XR) (rest : List (Event XR XR)) (f : Event XR XR) :
    state P e (rest ++ [f]) = (Ref.advance P (state P e rest) (touch f.input)).1 := by
  simp only [state, List.map_append, List.map_singleton, Ref.after_append]

theorem polyline_append (P : Ref.Params) (e : Event XR XR) (rest : List (Event XR XR)) (f : Event XR XR) :
    polyline P e (rest ++ [f]) =
      polyline P e rest ++ [Ref.raw (polyline P e rest).getLast? (Ref.place P (state P e rest) (touch f.input))] := by
  simp only [polyline, List.map_append, List.map_singleton, Ref.polyline_append]; rfl

/-- The common part of the step from one input to the next. -/
theorem Tale.step {e : Event XR XR} {rest : List (Event XR XR)} {m : StrokeModeler XR XR} (h : Tale p P e rest m)
    (hm : Course p (e :: rest) m) (hl : m.lastInput ≠ none) {f : Event XR XR} (hf : FiniteInput f.input)
    (he : f.input.eventType ≠ .down) (hle : (state P e rest).anchor.2 ≤ (touch f.input).time)
    {m' : StrokeModeler XR XR} (hgo : m'.lastInput ≠ none → f.input.eventType = .move) {t : ℝ} {x : ℂ} (hx : Ref.place P (state P e rest) (touch f.input) = (x, t))
    (hs : m.stylus.update (V x) (fin t) (stylusStateOf f.input) = .ok m'.stylus)
    (href : m'.lastInput ≠ none → Refines P m' (state P e (rest ++ [f])))
    (hloop : LoopOk p.position.loop → LoopFin m'.loop ∧ LoopIs m'.loop (resultsOf (rest ++ [f])))
    (hans : match f.results with
    | none => (Ref.advance P (state P e rest) (touch f.input)).2 = none
    | some out => ∃ tips, (Ref.advance P (state P e rest) (touch f.input)).2 = some tips ∧
      (LoopOk p.position.loop →
        Modeled m'.stylus p.position.loop (resultsOf rest) (before (state P e rest) f.input) tips out)) :
    Tale p P e (rest ++ [f]) m' where
  down := h.down
  finite := h.finite
  first := h.first
  inputs g hg := by
    rcases List.mem_append.1 hg with hg | hg
    · exact h.inputs g hg
    · rw [List.mem_singleton] at hg; subst hg; exact ⟨hf, he⟩
  going hl' g hg := by
    rcases List.mem_append.1 hg with hg | hg
    · exact h.going hl g hg
    · rw [List.mem_singleton] at hg; rw [hg]; exact hgo hl'
  order l g hlg := by
    obtain ⟨rfl, hg⟩ := List.append_inj' hlg rfl
    simp only [List.cons.injEq, and_true] at hg
    subst hg
    exact ⟨h.going hl, hle⟩
  refines := href
  finIn := finIn_update h.finIn hs
  loop := hloop
  window := by
    obtain ⟨raws, h1, h2⟩ := h.window
    have hpar := hm.paramsOf.stylus
    have hv := (validParts hm.valid).2.2.2.2.1
    rw [← hpar] at h1
    have := WindowOf.step (by rw [hpar]; exact hv) h1 hs
    rw [stylus_update_params hs, hpar] at this
    refine ⟨_, this, ?_⟩
    rw [polyline_append, hx, ← List.cons_append, List.map_append]
    exact h2.snoc x t f.input
  pressure := by rw [(stylus_update_flags hs).1, h.pressure, ← List.cons_append, List.any_append]; simp [stylusStateOf]
  tilt := by rw [(stylus_update_flags hs).2.1, h.tilt, ← List.cons_append, List.any_append]; simp [stylusStateOf]
  orientation := by rw [(stylus_update_flags hs).2.2, h.orientation, ← List.cons_append, List.any_append]; simp [stylusStateOf]
  answer l g hlg := by
    obtain ⟨rfl, hg⟩ := List.append_inj' hlg rfl
    simp only [List.cons.injEq, and_true] at hg
    subst hg
    exact hans

theorem course_tale (hr : Realizes p P) (hv : P.Valid) {es : List (Event XR XR)} {m : StrokeModeler XR XR}
    (h : Course p es m) : ∃ e rest, es = e :: rest ∧ Tale p P e rest m := by
  induction h with
  | @down i stylus predictor hval he hf hs hp =>
    obtain ⟨h1, h2⟩ := finiteInput_eq hf
    have hs' := hs
    rw [h1, h2] at hs'
    refine ⟨_, [], rfl, ?_⟩
    exact {
      down := he
      finite := hf
      first := rfl
      inputs := by simp
      going := by simp
      order := by simp
      refines := fun _ => by
        refine ⟨?_, ?_, ?_, by simp [state, Ref.after, Ref.start]⟩
        · simp only [PositionModeler.reset, StrokeModeler.startState, V_zero]
          rw [h1, h2]; rfl
        · rintro _ ⟨⟩
          exact ⟨h1, h2⟩
        · intro _
          simp only [WobbleSmoother.reset, state, Ref.after, Ref.start, wstate, wsample, List.map_nil, List.foldl_nil, List.map_cons,
            Ref.totalPos, Ref.totalDist, Ref.totalDur, List.sum_singleton, zero_smul, V_zero, lit0]
          rw [← h1, ← h2]
      finIn := finIn_update (s := StylusModeler.default.reset p.stylus)
        (by intro r hr; simp [StylusModeler.reset, StylusModelerState.default] at hr) hs'
      loop := fun hl => ⟨⟨hl, by simp [LoopModeler.reset]⟩, rfl⟩
      window := by
        have := WindowOf.step (s := StylusModeler.default.reset p.stylus) (raws := []) (validParts hval).2.2.2.2.1
          (WindowOf.start _) hs'
        rw [stylus_update_params hs'] at this
        exact ⟨_, this, (⟨rfl, rfl, rfl, rfl⟩ : Samples [] [] []).snoc (toPoint i.position) (toReal i.time) i⟩
      pressure := by rw [(stylus_update_flags hs).1]; simp [stylusStateOf, StylusModeler.reset, StylusModelerState.default]
      tilt := by rw [(stylus_update_flags hs).2.1]; simp [stylusStateOf, StylusModeler.reset, StylusModelerState.default]
      orientation := by rw [(stylus_update_flags hs).2.2]; simp [stylusStateOf, StylusModeler.reset, StylusModelerState.default]
      answer := by simp }
  | @move es m last i wobble corrected stylus n predictor loop out hm hl he hf hw hs hn hp hq ih =>
    obtain ⟨e, rest, rfl, ih⟩ := ih
    have href := ih.refines (by simp [hl])
    have hpar := hm.paramsOf
    obtain ⟨h1, h2⟩ := finiteInput_eq hf.toFiniteInput
    set s := state P e rest with hs'
    set x := toPoint i.position
    set t := toReal i.time with ht'
    obtain ⟨ha1, ha2⟩ := href.anchor last hl
    have hle : s.anchor.2 ≤ t := by
      have := hf.later; rw [h2, ha2] at this; simpa using this
    obtain ⟨w, hw1, hw2, hw3⟩ := wobble_refines hr hv hpar href x t
    rw [h1, h2, hw1] at hw
    simp only [Outcome.ok.injEq, Prod.mk.injEq] at hw
    obtain ⟨rfl, rfl⟩ := hw
    obtain ⟨st, hst⟩ := numberOfSteps_eq hr hv s.tip h1 ha2 h2 hle
    rw [href.tip, hst] at hn
    have hmt := moveTips_eq hr hv hpar href hl h2 (Ref.smooth P s x t).2 n
    have ht : touch i = .move x t := by simp [touch, he, x, t]
    split at hn
    · rename_i hmax
      simp only [Outcome.ok.injEq, Except.ok.injEq] at hn
      have hadv : Ref.advance P s (touch i) =
          (⟨(Ref.follow P s.tip (Ref.upsample s.anchor ((Ref.smooth P s x t).2, t) n.toNat)).getLastD s.tip,
            (Ref.smooth P s x t).1, ((Ref.smooth P s x t).2, t)⟩,
            some (Ref.follow P s.tip (Ref.upsample s.anchor ((Ref.smooth P s x t).2, t) n.toNat))) := by
        rw [ht]
        simp only [Ref.advance, Ref.move, if_pos hmax, ← hn]
      rw [hmt, h2] at hq
      rw [h2] at hs
      have hmod : LoopOk p.position.loop → Modeled stylus p.position.loop (resultsOf rest) t
          (Ref.follow P s.tip (Ref.upsample s.anchor ((Ref.smooth P s x t).2, t) n.toNat)) out ∧ LoopFin loop ∧
            LoopIs loop (resultsOf (rest ++ [⟨i, some out⟩])) := by
        intro hlo
        have := modelStylus_modeled (finIn_update ih.finIn hs) (ih.loop hlo).1
          (fun hon => stylus_update_ne (by rw [hpar.stylus]; exact (validParts hm.valid).2.2.2.2.1)
            (by rw [hpar.stylus]; exact (validParts hm.valid).1 (by rw [← hpar.loop]; exact hon)) hs) (ih.loop hlo).2 hq
        rw [hpar.loop] at this
        rw [resultsOf_snoc]
        exact this
      refine ⟨e, rest ++ [⟨i, some out⟩], rfl, ?_⟩
      refine ih.step hm (by simp [hl]) hf.toFiniteInput (by simp [he]) (by rw [ht]; exact hle) (by simp [he]) (x := (Ref.smooth P s x t).2) (t := t) (by simp [ht, ← hs', Ref.place]) hs ?_
        (fun hlo => (hmod hlo).2) ?_
      · intro _
        rw [state_append, ← hs', hadv]
        refine ⟨by rw [hmt], ?_, hw2, hw3⟩
        rintro _ ⟨⟩; exact ⟨rfl, h2⟩
      · rw [← hs', hadv]
        refine ⟨_, rfl, fun hlo => ?_⟩
        have hb : before s i = t := by simp [before, he, t]
        dsimp only
        rw [hb]
        exact (hmod hlo).1
    · simp at hn
  | @late es m last i wobble corrected stylus st' hm hl he hf hw hs hn ih =>
    obtain ⟨e, rest, rfl, ih⟩ := ih
    have href := ih.refines (by simp [hl])
    have hpar := hm.paramsOf
    obtain ⟨h1, h2⟩ := finiteInput_eq hf.toFiniteInput
    set s := state P e rest with hs'
    set x := toPoint i.position
    set t := toReal i.time
    obtain ⟨ha1, ha2⟩ := href.anchor last hl
    have hle : s.anchor.2 ≤ t := by
      have := hf.later; rw [h2, ha2] at this; simpa using this
    obtain ⟨w, hw1, hw2, hw3⟩ := wobble_refines hr hv hpar href x t
    rw [h1, h2, hw1] at hw
    simp only [Outcome.ok.injEq, Prod.mk.injEq] at hw
    obtain ⟨rfl, rfl⟩ := hw
    obtain ⟨st, hst⟩ := numberOfSteps_eq hr hv s.tip h1 ha2 h2 hle
    rw [href.tip, hst] at hn
    have ht : touch i = .move x t := by simp [touch, he, x, t]
    split at hn
    · simp at hn
    · rename_i hmax
      have hadv : Ref.advance P s (touch i) = ({ s with window := (Ref.smooth P s x t).1 }, none) := by
        rw [ht]
        simp only [Ref.advance, Ref.move, if_neg hmax]
      rw [h2] at hs
      refine ⟨e, rest ++ [⟨i, none⟩], rfl, ?_⟩
      refine ih.step hm (by simp [hl]) hf.toFiniteInput (by simp [he]) (by rw [ht]; exact hle) (by simp [he]) (x := (Ref.smooth P s x t).2) (t := t) (by simp [ht, ← hs', Ref.place]) hs ?_
        (by rw [resultsOf_snoc]; simpa using ih.loop) ?_
      · intro _
        rw [state_append, ← hs', hadv]
        exact ⟨href.tip, href.anchor, hw2, hw3⟩
      · rw [← hs', hadv]
  | @up es m last i stylus n loop out hm hl he hf hs hn hq ih =>
    obtain ⟨e, rest, rfl, ih⟩ := ih
    have href := ih.refines (by simp [hl])
    have hpar := hm.paramsOf
    obtain ⟨h1, h2⟩ := finiteInput_eq hf.toFiniteInput
    set s := state P e rest with hs'
    set x := toPoint i.position
    set t := toReal i.time
    obtain ⟨ha1, ha2⟩ := href.anchor last hl
    have hle : s.anchor.2 ≤ t := by
      have := hf.later; rw [h2, ha2] at this; simpa using this
    obtain ⟨st, hst⟩ := numberOfSteps_eq hr hv s.tip h1 ha2 h2 hle
    rw [href.tip, hst] at hn
    have ht : touch i = .up x t := by simp [touch, he, x, t]
    have hut := upTips_eq hr hv hpar href hl h1 h2 n
    split at hn
    · rename_i hmax
      simp only [Outcome.ok.injEq, Except.ok.injEq] at hn
      have hadv : (Ref.advance P s (touch i)).2 = some
          (let tips := Ref.follow P s.tip (Ref.upsample s.anchor (x, t) n.toNat)
           let fin := Ref.settle P x P.maxIter (1 / P.rate) (tips.getLastD s.tip)
           if tips ++ fin.2 = [] then [fin.1] else tips ++ fin.2) := by
        rw [ht]
        simp only [Ref.advance, Ref.up, if_pos hmax, ← hn]
      rw [hut, ha2] at hq
      rw [h1, h2] at hs
      have hmod := fun hlo => modelStylus_modeled (finIn_update ih.finIn hs) (ih.loop hlo).1
          (fun hon => stylus_update_ne (by rw [hpar.stylus]; exact (validParts hm.valid).2.2.2.2.1)
            (by rw [hpar.stylus]; exact (validParts hm.valid).1 (by rw [← hpar.loop]; exact hon)) hs) (ih.loop hlo).2 hq
      rw [hpar.loop] at hmod
      refine ⟨e, rest ++ [⟨i, some out⟩], rfl, ?_⟩
      refine ih.step hm (by simp [hl]) hf.toFiniteInput (by simp [he]) (by rw [ht]; exact hle) (by simp) (x := x) (t := t) (by simp [ht, Ref.place]) hs (by simp)
        (fun hlo => by rw [resultsOf_snoc]; exact (hmod hlo).2) ?_
      rw [← hs', hadv]
      refine ⟨_, rfl, fun hlo => ?_⟩
      have hb : before s i = s.anchor.2 := by simp [before, he]
      dsimp only
      rw [hb]
      exact (hmod hlo).1
    · simp at hn

/-- The results of each input of a stroke. -/
theorem course_told (hr : Realizes p P) (hv : P.Valid) {e : Event XR XR} {a b : List (Event XR XR)} {f : Event XR XR}
    {m : StrokeModeler XR XR} (h : Course p (e :: a ++ f :: b) m) : ∃ m', Course p (e :: a ++ [f]) m' ∧ Tale p P e (a ++ [f]) m' := by
  have e1 : e :: a ++ f :: b = (e :: a ++ [f]) ++ b := by simp
  rw [e1] at h
  obtain ⟨m', h'⟩ := h.take (by simp)
  obtain ⟨e', rest, he, ht⟩ := course_tale hr hv h'
  refine ⟨m', h', ?_⟩
  simp only [List.cons_append, List.cons.injEq] at he
  rw [he.1, he.2]
  exact ht

theorem course_kins (hr : Realizes p P) (hv : P.Valid) {e : Event XR XR} {rest : List (Event XR XR)} {m : StrokeModeler XR XR}
    (h : Course p (e :: rest) m) (hl : p.position.loop.isEnabled = false) :
    (e :: rest).map kins = (Ref.stroke P (toPoint e.input.position) (toReal e.input.time) (rest.map fun f => touch f.input)).map
        (Option.map (List.map tip)) := by
  induction rest using List.reverseRecOn generalizing m with
  | nil =>
    obtain ⟨e', rest, he, ht⟩ := course_tale hr hv h
    simp only [List.cons.injEq] at he
    rw [← he.1] at ht
    simp [XR.kins, Ref.stroke, Ref.answers, ht.first, kin_downResult ht.finite]
  | append_singleton l f ih =>
    obtain ⟨m₁, h₁⟩ := h.init (List.cons_append (a := e) (as := l) (bs := [f])).symm (by simp)
    obtain ⟨m₂, _, ht⟩ := course_told (b := []) hr hv (e := e) (a := l) (f := f) h
    have := ih h₁
    rw [← List.cons_append, List.map_append, this]
    simp only [Ref.stroke, List.map_append, List.map_singleton, Ref.answers_append]
    rw [← List.cons_append, List.map_append, List.map_singleton]
    congr 2
    have ha := ht.answer l f rfl
    change XR.kins f = Option.map (List.map tip) (Ref.advance P (state P e l) (touch f.input)).2
    cases hf : f.results with
    | none => rw [hf] at ha; rw [ha]; simp [XR.kins, hf]
    | some out =>
      rw [hf] at ha
      obtain ⟨tips, h1, h2⟩ := ha
      have h2 := h2 (.inl hl)
      rw [h1]
      simp only [XR.kins, hf, Option.map_some, h2.kin ht.finIn hl]

end XR
end
end Ink
