import Verif.Props.Wobble
/-!
# Memory of the sub-modelers: C32
-/
namespace Ink
open Scalar Arith

section Any
variable {F D : Type} [Scalar F] [Scalar D] [Arith F D]

/-- What a raw sample has from its input. -/
def Result.tag (r : Result F D) : D × F × F × F := (r.time, r.pressure, r.tilt, r.orientation)
@[inherit_doc Result.tag] def Input.tag (i : Input F D) : D × F × F × F := (i.time, i.pressure, i.tilt, i.orientation)

/-- A field is unknown if it is negative or NaN. -/
def Unknown (x : F) : Prop := (x <ᵇ 0) = true ∨ isNaN x = true

theorem rawSamples_tag (cs : List (Vec2 F × Input F D)) : (rawSamples cs).map Result.tag = cs.map fun c => c.2.tag := by
  induction cs using List.reverseRecOn with
  | nil => rfl
  | append_singleton l c ih =>
    rw [rawSamples_append, List.map_append, ih]
    simp [StylusModeler.rawResult, Result.tag, Input.tag, stylusStateOf]

theorem rawSamples_position (cs : List (Vec2 F × Input F D)) : (rawSamples cs).map (·.position) = cs.map (·.1) := by
  induction cs using List.reverseRecOn with
  | nil => rfl
  | append_singleton l c ih =>
    rw [rawSamples_append, List.map_append, ih]
    simp [StylusModeler.rawResult]

theorem stylus_update_flags {s s' : StylusModeler F D} {x : Vec2 F} {t : D} {st : StylusState F} (h : s.update x t st = .ok s') :
    s'.state.unknownPressure = (s.state.unknownPressure || isUnknown st.pressure) ∧
    s'.state.unknownTilt = (s.state.unknownTilt || isUnknown st.tilt) ∧
    s'.state.unknownOrientation = (s.state.unknownOrientation || isUnknown st.orientation) := by
  unfold StylusModeler.update at h
  dsimp only at h
  split at h
  · simp only [Outcome.ok.injEq] at h
    rw [← h]; exact ⟨rfl, rfl, rfl⟩
  · obtain ⟨l, hd, h⟩ := Outcome.bind_eq_ok.1 h
    simp only [Outcome.pure_eq, Outcome.ok.injEq] at h
    rw [← h]; exact ⟨rfl, rfl, rfl⟩

theorem Course.flags {p : StrokeModelParams F D} {es : List (Event F D)} {m : StrokeModeler F D} (h : Course p es m) :
    m.stylus.state.unknownPressure = (es.any fun f => isUnknown f.input.pressure) ∧
    m.stylus.state.unknownTilt = (es.any fun f => isUnknown f.input.tilt) ∧
    m.stylus.state.unknownOrientation = (es.any fun f => isUnknown f.input.orientation) := by
  induction h with
  | @down i stylus predictor _ he hf hs hp =>
    obtain ⟨h1, h2, h3⟩ := stylus_update_flags hs
    exact ⟨h1.trans (by simp [StylusModeler.reset, StylusModelerState.default, stylusStateOf]),
      h2.trans (by simp [StylusModeler.reset, StylusModelerState.default, stylusStateOf]),
      h3.trans (by simp [StylusModeler.reset, StylusModelerState.default, stylusStateOf])⟩
  | @move es m last i wobble corrected stylus n predictor loop out hm hl he hf hw hs hn hp hq ih =>
    obtain ⟨h1, h2, h3⟩ := stylus_update_flags hs
    obtain ⟨i1, i2, i3⟩ := ih
    exact ⟨h1.trans (by simp [i1, stylusStateOf]), h2.trans (by simp [i2, stylusStateOf]), h3.trans (by simp [i3, stylusStateOf])⟩
  | @late es m last i wobble corrected stylus st' hm hl he hf hw hs hn ih =>
    obtain ⟨h1, h2, h3⟩ := stylus_update_flags hs
    obtain ⟨i1, i2, i3⟩ := ih
    exact ⟨h1.trans (by simp [i1, stylusStateOf]), h2.trans (by simp [i2, stylusStateOf]), h3.trans (by simp [i3, stylusStateOf])⟩
  | @up es m last i stylus n loop out hm hl he hf hs hn hq ih =>
    obtain ⟨h1, h2, h3⟩ := stylus_update_flags hs
    obtain ⟨i1, i2, i3⟩ := ih
    exact ⟨h1.trans (by simp [i1, stylusStateOf]), h2.trans (by simp [i2, stylusStateOf]), h3.trans (by simp [i3, stylusStateOf])⟩

theorem Course.finite {p : StrokeModelParams F D} {es : List (Event F D)} {m : StrokeModeler F D} (h : Course p es m) :
    ∀ f ∈ es, FiniteInput f.input := by
  induction h with
  | down _ _ hf => simpa using hf
  | move _ _ _ hf _ _ _ _ _ ih => simpa [or_imp, forall_and] using ⟨ih, hf.toFiniteInput⟩
  | late _ _ _ hf _ _ _ ih => simpa [or_imp, forall_and] using ⟨ih, hf.toFiniteInput⟩
  | up _ _ _ hf _ _ _ ih => simpa [or_imp, forall_and] using ⟨ih, hf.toFiniteInput⟩

theorem isUnknown_iff {x : F} : isUnknown x = true ↔ Unknown x := by simp [isUnknown, Unknown]

variable {ops : List (Op F D)} {rs : List (Response F D)} {m : StrokeModeler F D} {p : StrokeModelParams F D}

/-- C32 in any arithmetic: the samples that the stylus modeler holds during or after a stroke are those of the last inputs of the
stroke, Moves that were rejected for being too far from the last input included; in closest-point mode of the last
`max_input_samples`, or of none if each of the three fields was unknown in some input of the stroke; in normal-projection mode of no
fewer than `min_input_samples`, as far as there are as many. With wobble smoothing off the positions are those of the inputs too. -/
theorem C32_last_inputs (h : Session ops rs m) (hr : Regular ops rs) (hp : (known ops rs).params = some p)
    (hs : strokeOf ops rs ≠ []) :
    let is := (strokeOf ops rs).map Event.input
    let held := m.stylus.state.inputs
    held.map Result.tag = (lastN held.length is).map Input.tag ∧
    (p.wobble.isEnabled = false → held.map (·.position) = (lastN held.length is).map (·.position)) ∧
    (p.stylus.useStrokeNormalProjection = false →
      held.length =
        open Classical in
        if (∃ i ∈ is, Unknown i.pressure) ∧ (∃ i ∈ is, Unknown i.tilt) ∧ (∃ i ∈ is, Unknown i.orientation) then 0
        else min is.length p.stylus.maxInputSamples.toNat) ∧
    (p.stylus.useStrokeNormalProjection = true → min is.length p.stylus.minInputSamples.toNat ≤ held.length) := by
  intro is held
  obtain ⟨p', m₀, h1, hc, hsame⟩ := h.course hr hs
  obtain rfl : p' = p := by rw [hp] at h1; exact (Option.some.inj h1).symm
  obtain ⟨cs, hcs, hpos, hw⟩ := hc.window
  obtain ⟨f1, f2, f3⟩ := hc.flags
  have hst : held = m₀.stylus.state.inputs := by rw [← hsame.live.stylus]
  have hlen : (rawSamples cs).length = is.length := by
    rw [rawSamples_length, ← List.length_map (f := (·.2)) (as := cs), hcs]
  have hsuf : held <:+ rawSamples cs := by
    rw [hst]
    cases hu : p'.stylus.useStrokeNormalProjection with
    | true => exact (hw.suffix hu).1
    | false =>
      cases hb : m₀.stylus.state.blank with
      | true => rw [hw.cleared hu hb]; exact List.nil_suffix
      | false => rw [hw.closest hu hb]; exact List.drop_suffix _ _
  have heq := suffix_eq_lastN hsuf
  refine ⟨?_, ?_, ?_, ?_⟩
  · rw [heq, lastN, List.map_drop, rawSamples_tag, lastN, List.map_drop, hlen]
    have : (cs.map fun c => c.2.tag) = is.map Input.tag := by
      show _ = ((strokeOf ops rs).map Event.input).map Input.tag
      rw [← hcs, List.map_map]; rfl
    rw [this, List.length_drop, hlen]
    have := hsuf.length_le
    rw [hlen] at this
    congr 1
    omega
  · intro hwb
    rw [heq, lastN, List.map_drop, rawSamples_position, lastN, List.map_drop, hlen]
    have : (cs.map fun c => c.1) = is.map (·.position) := by
      show _ = ((strokeOf ops rs).map Event.input).map (·.position)
      rw [← hcs, List.map_map]
      exact List.map_congr_left fun c hc => hpos hwb c hc
    rw [this, List.length_drop, hlen]
    have := hsuf.length_le
    rw [hlen] at this
    congr 1
    omega
  · intro hu
    have hb : m₀.stylus.state.blank = true ↔
        (∃ i ∈ is, Unknown i.pressure) ∧ (∃ i ∈ is, Unknown i.tilt) ∧ (∃ i ∈ is, Unknown i.orientation) := by
      simp only [StylusModelerState.blank, f1, f2, f3, Bool.and_eq_true, List.any_eq_true, isUnknown_iff, and_assoc, is,
        List.mem_map, exists_exists_and_eq_and]
    split
    · rename_i hc
      rw [hst, hw.cleared hu (hb.2 hc)]; rfl
    · rename_i hc
      have hb' : m₀.stylus.state.blank = false := by rw [Bool.eq_false_iff, ne_eq, hb]; exact hc
      rw [hst, hw.closest hu hb', List.length_drop, hlen]
      omega
  · intro hu
    rw [hst, ← hlen]
    exact (hw.suffix hu).2

end Any

noncomputable section
open XR

variable {ops : List (Op XR XR)} {rs : List (Response XR XR)} {m : StrokeModeler XR XR} {p : StrokeModelParams XR XR}

/-- The last `k` of the inputs are all of them, or at least `min_input_samples` that span more than `min_sample_duration`. -/
def Enough (p : StylusParams XR) (is : List (Input XR XR)) (k : ℕ) : Prop :=
  k = is.length ∨ (k < is.length ∧ p.minInputSamples ≤ k ∧
    ∃ first newest, (lastN k is).head? = some first ∧ is.getLast? = some newest ∧
      (p.minSampleDuration <ᵇ newest.time - first.time) = true)

theorem window_shortest {q : StylusParams XR} {is : List (Input XR XR)} {raws w : List (Result XR XR)} (hne : is ≠ [])
    (hpos : 0 < q.minInputSamples) (hfin : ∀ i ∈ is, FiniteInput i) (ho : is.Pairwise fun i j => (i.time ≤ᵇ j.time) = true)
    (htime : raws.map (·.time) = is.map (·.time)) (hsuf : w <:+ raws) (hmin : min raws.length q.minInputSamples.toNat ≤ w.length)
    (hneeded : ∀ a b l newest, w = a :: b :: l → q.minInputSamples < w.length → raws.getLast? = some newest →
      (q.minSampleDuration <ᵇ newest.time - b.time) = false)
    (hspans : w.length < raws.length → ∃ x ∈ raws, ∃ a l, w = a :: l ∧ (q.minSampleDuration <ᵇ x.time - a.time) = true) :
    IsLeast {k | Enough q is k} w.length := by
  have hlen : raws.length = is.length := by simpa using congrArg List.length htime
  obtain ⟨newest, hnew⟩ := Option.ne_none_iff_exists'.1 (mt List.getLast?_eq_none_iff.1 hne)
  have hnew' : ∃ n, raws.getLast? = some n ∧ n.time = newest.time := by
    have := congrArg List.getLast? htime
    simp only [List.getLast?_map, hnew, Option.map_some, Option.map_eq_some_iff] at this
    exact this
  -- times are ordered real numbers
  have hord : ∀ j k (hj : j < is.length) (hk : k < is.length), j ≤ k →
      ∃ t u : ℝ, is[j].time = fin t ∧ is[k].time = fin u ∧ t ≤ u := by
    intro j k hj hk hjk
    have h1 := (finiteInput_eq (hfin _ (List.getElem_mem hj))).2
    have h2 := (finiteInput_eq (hfin _ (List.getElem_mem hk))).2
    refine ⟨_, _, h1, h2, ?_⟩
    rcases hjk.eq_or_lt with rfl | hlt
    · exact le_rfl
    · have := List.pairwise_iff_getElem.1 ho j k hj hk hlt
      rw [h1, h2] at this
      simpa using this
  have hnewest : newest = is[is.length - 1]'(by have := List.length_pos_iff.2 hne; omega) := by
    rw [List.getLast?_eq_getElem?, List.getElem?_eq_some_iff] at hnew
    exact hnew.2.symm
  have hmono : ∀ (d : XR) (a b : ℝ), a ≤ b → (d <ᵇ fin a) = true → (d <ᵇ fin b) = true := by
    intro d a b hab h
    cases d with
    | fin r => simp only [fin_lt, decide_eq_true_eq] at h ⊢; linarith
    | inf b => cases b <;> simp_all [Scalar.lt, XR.lt]
    | nan => simp_all [Scalar.lt, XR.lt]
  have helem : ∀ j (hj : j < w.length), ∃ hj' : is.length - w.length + j < is.length,
      w[j].time = is[is.length - w.length + j].time := by
    intro j hj
    have hle := hsuf.length_le
    refine ⟨by omega, ?_⟩
    have e1 : w[j] = raws[is.length - w.length + j]'(by omega) := by
      obtain ⟨t, ht⟩ := hsuf
      have hl := congrArg List.length ht
      rw [List.length_append] at hl
      have : is.length - w.length = t.length := by omega
      simp only [this, ← ht]
      rw [List.getElem_append_right (by omega)]
      simp
    have e2 := List.getElem_of_eq htime (i := is.length - w.length + j) (by rw [List.length_map]; omega)
    rw [List.getElem_map, List.getElem_map] at e2
    rw [e1, e2]
  constructor
  · rcases Nat.lt_or_ge w.length raws.length with hlt | hge
    · right
      obtain ⟨x, hx, a, l, hal, hspan⟩ := hspans hlt
      refine ⟨by omega, by omega, ?_⟩
      obtain ⟨hj', he⟩ := helem 0 (by rw [hal]; simp)
      simp only [Nat.add_zero] at he hj'
      refine ⟨is[is.length - w.length], newest, ?_, hnew, ?_⟩
      · rw [lastN, List.head?_drop, List.getElem?_eq_getElem]
      · rw [← he]
        simp only [hal, List.getElem_cons_zero]
        obtain ⟨j, hj, rfl⟩ := List.getElem_of_mem hx
        have e2 := List.getElem_of_eq htime (i := j) (by rw [List.length_map]; omega)
        rw [List.getElem_map, List.getElem_map] at e2
        rw [e2] at hspan
        obtain ⟨t, u, ht, hu', htu⟩ := hord j (is.length - 1) (by omega) (by omega) (by omega)
        rw [← hnewest] at hu'
        obtain ⟨t', _, ht', _⟩ := hord (is.length - w.length) (is.length - 1) (by omega) (by omega) (by omega)
        have ha : a.time = fin t' := by rw [← ht', ← he]; simp [hal]
        rw [ht, ha, fin_sub] at hspan
        rw [hu', ha, fin_sub]
        exact hmono _ _ _ (by linarith) hspan
    · left; have := hsuf.length_le; omega
  · intro k hk
    by_contra hlt
    push Not at hlt
    have hle := hsuf.length_le
    rcases hk with hk | ⟨hk, hkm, first, newest', hfirst, hnewest', hspan⟩
    · omega
    obtain rfl : newest' = newest := by rw [hnew] at hnewest'; exact (Option.some.inj hnewest').symm
    have h2 : 2 ≤ w.length := by omega
    obtain ⟨a, b, l, hal⟩ : ∃ a b l, w = a :: b :: l := by
      match w, h2 with
      | a :: b :: l, _ => exact ⟨a, b, l, rfl⟩
    obtain ⟨n, hn1, hn2⟩ := hnew'
    have hneed := hneeded a b l n hal (by omega) hn1
    obtain ⟨hj', he⟩ := helem 1 (by omega)
    have hb : w[1].time = b.time := by simp [hal]
    rw [lastN, List.head?_drop, List.getElem?_eq_getElem (by omega), Option.some.injEq] at hfirst
    obtain ⟨t, u, ht, hu', htu⟩ := hord (is.length - w.length + 1) (is.length - k) (by omega) (by omega) (by omega)
    obtain ⟨v, _, hv, _⟩ := hord (is.length - 1) (is.length - 1) (by omega) (by omega) (by omega)
    rw [← hnewest] at hv
    rw [← hfirst, hu', hv, fin_sub] at hspan
    rw [hn2, ← hb, he, ht, hv, fin_sub] at hneed
    rw [hmono _ _ _ (by linarith) hspan] at hneed
    cases hneed

/-- C32 on exact numbers: in normal-projection mode, if the inputs came in order of time, the samples held are those of the shortest
end of the stroke that is the whole stroke, or has at least `min_input_samples` samples and spans more than
`min_sample_duration`. -/
theorem C32_shortest_exact (h : Session ops rs m) (hr : Regular ops rs) (hp : (known ops rs).params = some p)
    (hs : strokeOf ops rs ≠ []) (hu : p.stylus.useStrokeNormalProjection = true)
    (ho : ((strokeOf ops rs).map Event.input).Pairwise fun i j => (i.time ≤ᵇ j.time) = true) :
    IsLeast {k | Enough p.stylus ((strokeOf ops rs).map Event.input) k} m.stylus.state.inputs.length := by
  obtain ⟨p', m₀, h1, hc, hsame⟩ := h.course hr hs
  obtain rfl : p' = p := by rw [hp] at h1; exact (Option.some.inj h1).symm
  obtain ⟨cs, hcs, hpos, hw⟩ := hc.window
  set is := (strokeOf ops rs).map Event.input with his
  have hfin : ∀ i ∈ is, FiniteInput i := by
    intro i hi
    obtain ⟨g, hg, rfl⟩ := List.mem_map.1 hi
    exact hc.finite g hg
  have hinputs : m.stylus.state.inputs = m₀.stylus.state.inputs := by rw [← hsame.live.stylus]
  rw [hinputs]
  obtain ⟨hsuf, hmin⟩ := hw.suffix hu
  refine window_shortest (by simpa [his] using hs) ((stylus_valid (validParts hc.valid).2.2.2.2.1).1 hu) hfin ho ?_ hsuf hmin
    (hw.needed hu) (hw.spans hu)
  have : (rawSamples cs).map Result.tag = is.map Input.tag := by
    rw [rawSamples_tag, ← hcs, List.map_map]; rfl
  have := congrArg (List.map Prod.fst) this
  simpa only [List.map_map, Function.comp_def, Result.tag, Input.tag] using this

section Examples
open Ex

/-- Both theorems apply to a stroke of four inputs in normal-projection mode, the first with closest points too. -/
example : ∀ p ∈ [xparams, xloop], ∃ rs m, Session (calls p xinputs) rs m ∧ Regular (calls p xinputs) rs ∧
    (known (calls p xinputs) rs).params = some p ∧ (strokeOf (calls p xinputs) rs).length = 4 ∧
    ((strokeOf (calls p xinputs) rs).map Event.input).Pairwise fun i j => (i.time ≤ᵇ j.time) = true := by
  intro p hp
  have hv : validateStrokeModelParams p = .ok ∧ p.sampling = xparams.sampling := by
    simp only [List.mem_cons, List.not_mem_nil, or_false] at hp
    rcases hp with rfl | rfl
    · exact ⟨xparams_valid, rfl⟩
    · exact ⟨xloop_valid, rfl⟩
  obtain ⟨rs, m, h1, h2, h3, h4, h5⟩ := xstroke p hv.1 hv.2
  refine ⟨rs, m, h1, h2, h3, by simpa [xinputs] using congrArg List.length h4, ?_⟩
  rw [h4]
  simp only [xinputs, List.pairwise_cons, List.mem_cons, List.not_mem_nil,
    or_false, forall_eq_or_imp, forall_eq, xin, fin_le, decide_eq_true_eq, false_imp_iff, implies_true, List.Pairwise.nil, and_true]
  norm_num

end Examples
end
end Ink
