import Verif.Lemmas.Total
/-!
# Which raw samples the stylus modeler holds
-/
namespace Ink
open Scalar Arith

/-- The last `n` elements. -/
def lastN {α : Type} (n : ℕ) (l : List α) : List α := l.drop (l.length - n)

theorem suffix_eq_lastN {α : Type} {l l' : List α} (h : l <:+ l') : l = lastN l.length l' := by
  obtain ⟨t, rfl⟩ := h
  simp [lastN]

variable {F D : Type} [Scalar F] [Scalar D] [Arith F D]

/-- No field of the stylus state is known. -/
def StylusModelerState.blank {F D : Type} (st : StylusModelerState F D) : Bool :=
  st.unknownPressure && st.unknownTilt && st.unknownOrientation

/-- Stroke-normal mode: the times of samples, without the oldest ones that are not needed: they go while there are more than
`min_input_samples` and the others span more than `min_sample_duration` up to the newest, which is from time `t`. -/
def trimmed (p : StylusParams D) (t : D) : List D → List D
  | a :: b :: l => if p.minInputSamples < ((l.length + 2 : ℕ) : ℤ) ∧ (p.minSampleDuration <ᵇ t - b) = true then trimmed p t (b :: l) else a :: b :: l
  | l => l

/-- Stroke-normal mode: the times of the samples held, after samples at the given times. -/
def heldTimes (p : StylusParams D) (times : List D) : List D := times.foldl (fun w t => trimmed p t (w ++ [t])) []

theorem heldTimes_append (p : StylusParams D) (times : List D) (t : D) :
    heldTimes p (times ++ [t]) = trimmed p t (heldTimes p times ++ [t]) := by simp [heldTimes]

/-- The samples held, given all raw samples of the stroke. -/
structure WindowOf (p : StylusParams D) (st : StylusModelerState F D) (raws : List (Result F D)) : Prop where
  /-- closest-point mode: nothing is held if there is nothing to report -/
  cleared : p.useStrokeNormalProjection = false → st.blank = true → st.inputs = []
  /-- closest-point mode: the last `max_input_samples` -/
  closest : p.useStrokeNormalProjection = false → st.blank = false →
    st.inputs = raws.drop (raws.length - p.maxInputSamples.toNat)
  /-- normal-projection mode: the last ones, at least `min_input_samples` -/
  suffix : p.useStrokeNormalProjection = true → st.inputs <:+ raws ∧ min raws.length p.minInputSamples.toNat ≤ st.inputs.length
  /-- normal-projection mode: no more than needed -/
  needed : p.useStrokeNormalProjection = true → ∀ a b l newest, st.inputs = a :: b :: l →
    p.minInputSamples < st.inputs.length → raws.getLast? = some newest →
    (p.minSampleDuration <ᵇ newest.time - b.time) = false
  /-- normal-projection mode: samples were dropped only when the rest had been spanning long enough -/
  spans : p.useStrokeNormalProjection = true → st.inputs.length < raws.length → ∃ x ∈ raws, ∃ a l, st.inputs = a :: l ∧
    (p.minSampleDuration <ᵇ x.time - a.time) = true
  /-- normal-projection mode: which ones they are -/
  held : p.useStrokeNormalProjection = true → st.inputs.map (·.time) = heldTimes p (raws.map (·.time))

omit [Scalar F] [Arith F D] in
theorem WindowOf.start (p : StylusParams D) : WindowOf p (StylusModelerState.default : StylusModelerState F D) [] :=
  ⟨fun _ _ => rfl, fun _ _ => by simp [StylusModelerState.default], fun _ => ⟨List.suffix_refl _, by simp⟩, by simp, by simp, fun _ => rfl⟩

omit [Scalar F] [Arith F D] in
theorem dropOldInputs_closest {p : StylusParams D} (hu : p.useStrokeNormalProjection = false) (hp : 0 < p.maxInputSamples)
    (t : D) (l : List (Result F D)) : dropOldInputs p t l = .ok (l.drop (l.length - p.maxInputSamples.toNat)) := by
  induction l with
  | nil =>
    simp [dropOldInputs, shouldDropOldestInput, hu, sizeGtInt_of_pos hp]
    omega
  | cons a l ih =>
    simp only [dropOldInputs, shouldDropOldestInput, hu, Bool.false_eq_true, ↓reduceIte, sizeGtInt_of_pos hp,
      Outcome.ok_bind]
    by_cases h : p.maxInputSamples < ((a :: l).length : ℤ)
    · have h' : (a :: l).length - p.maxInputSamples.toNat = (l.length - p.maxInputSamples.toNat) + 1 := by
        simp only [List.length_cons] at h ⊢; omega
      rw [if_pos (by simpa using h), ih, h', List.drop_succ_cons]
    · have h' : (a :: l).length - p.maxInputSamples.toNat = 0 := by
        simp only [List.length_cons] at h ⊢; omega
      rw [if_neg (by simpa only [decide_eq_true_eq] using h), h', List.drop_zero]

omit [Scalar F] [Arith F D] in
theorem dropOldInputs_normal {p : StylusParams D} (hu : p.useStrokeNormalProjection = true) (hp : 0 < p.minInputSamples)
    {t : D} {l l' : List (Result F D)} (h : dropOldInputs p t l = .ok l') :
    l' <:+ l ∧ min l.length p.minInputSamples.toNat ≤ l'.length ∧
    (∀ a b l'', l' = a :: b :: l'' → p.minInputSamples < l'.length → (p.minSampleDuration <ᵇ t - b.time) = false) ∧
    (l'.length < l.length → ∃ a l'', l' = a :: l'' ∧ (p.minSampleDuration <ᵇ t - a.time) = true) := by
  induction l generalizing l' with
  | nil =>
    have : l' = [] := List.suffix_nil.1 (dropOldInputs_suffix h)
    subst this
    simp
  | cons a l ih =>
    refine ⟨dropOldInputs_suffix h, ?_⟩
    simp only [dropOldInputs] at h
    obtain ⟨d, hd, h⟩ := Outcome.bind_eq_ok.1 h
    cases d with
    | true =>
      simp only [↓reduceIte] at h
      obtain ⟨_, h2, h3, h4⟩ := ih h
      have hsuf := dropOldInputs_suffix h
      simp only [shouldDropOldestInput, hu, ↓reduceIte, sizeGtInt_of_pos hp] at hd
      split at hd
      · rename_i hlt
        simp only [List.length_cons, decide_eq_true_eq] at hlt ⊢
        refine ⟨by omega, h3, fun _ => ?_⟩
        rcases lt_or_eq_of_le hsuf.length_le with hlt' | heq
        · exact h4 hlt'
        · obtain rfl := hsuf.eq_of_length heq
          cases l' with
          | nil => simp at hlt; omega
          | cons b l' => exact ⟨b, l', rfl, by simpa using hd⟩
      · simp at hd
    | false =>
      simp only [Bool.false_eq_true, ↓reduceIte, Outcome.ok.injEq] at h
      subst h
      refine ⟨Nat.min_le_left _ _, ?_, by simp⟩
      rintro a' b l'' ⟨⟩ hlt
      simp only [shouldDropOldestInput, hu, ↓reduceIte, sizeGtInt_of_pos hp] at hd
      rw [if_pos (by simpa using hlt)] at hd
      simpa using hd

omit [Scalar F] [Arith F D] in
theorem dropOldInputs_trimmed {p : StylusParams D} (hu : p.useStrokeNormalProjection = true) (hp : 0 < p.minInputSamples)
    {t : D} {l l' : List (Result F D)} (h : dropOldInputs p t l = .ok l') : l'.map (·.time) = trimmed p t (l.map (·.time)) := by
  induction l generalizing l' with
  | nil =>
    have : l' = [] := List.suffix_nil.1 (dropOldInputs_suffix h)
    subst this
    rfl
  | cons a l ih =>
    simp only [dropOldInputs] at h
    obtain ⟨d, hd, h⟩ := Outcome.bind_eq_ok.1 h
    simp only [shouldDropOldestInput, hu, ↓reduceIte, sizeGtInt_of_pos hp] at hd
    cases l with
    | nil =>
      have hlt : ¬ p.minInputSamples < (([a] : List (Result F D)).length : ℤ) := by simp only [List.length_singleton]; omega
      rw [if_neg (by simpa only [decide_eq_true_eq] using hlt)] at hd
      cases hd
      simp only [Bool.false_eq_true, ↓reduceIte, Outcome.ok.injEq] at h
      rw [← h]; rfl
    | cons b l =>
      simp only [List.map_cons, trimmed, List.length_map]
      by_cases hlt : p.minInputSamples < ((l.length + 2 : ℕ) : ℤ)
      · rw [if_pos (by simpa only [decide_eq_true_eq, List.length_cons] using hlt)] at hd
        simp only [Outcome.ok.injEq] at hd
        rw [hd]
        cases d with
        | true => rw [if_pos ⟨hlt, rfl⟩]; exact ih h
        | false =>
          rw [if_neg (by simp)]
          simp only [Bool.false_eq_true, ↓reduceIte, Outcome.ok.injEq] at h
          rw [← h]; rfl
      · rw [if_neg (by simpa only [decide_eq_true_eq, List.length_cons] using hlt)] at hd
        cases hd
        rw [if_neg (fun h => hlt h.1)]
        simp only [Bool.false_eq_true, ↓reduceIte, Outcome.ok.injEq] at h
        rw [← h]; rfl

theorem WindowOf.step {s s' : StylusModeler F D} {raws : List (Result F D)} (hv : validateStylusParams s.params = .ok)
    (hw : WindowOf s.params s.state raws) {x : Vec2 F} {t : D} {st : StylusState F} (h : s.update x t st = .ok s') :
    WindowOf s'.params s'.state (raws ++ [StylusModeler.rawResult raws.getLast? x t st]) := by
  obtain ⟨h1, h2⟩ := stylus_valid hv
  rw [stylus_update_params h]
  unfold StylusModeler.update at h
  dsimp only at h
  split at h
  · rename_i hc
    simp only [Bool.and_eq_true, Bool.not_eq_true'] at hc
    obtain ⟨⟨⟨hu, hc1⟩, hc2⟩, hc3⟩ := hc
    simp only [Outcome.ok.injEq] at h
    rw [← h]
    refine ⟨fun _ _ => rfl, fun _ hb => ?_, ?_, ?_, ?_, ?_⟩
    · simp only [StylusModelerState.blank, Bool.and_eq_false_iff] at hb
      rcases hb with (hb | hb) | hb
      · exact absurd hc1 (by simp [hb])
      · exact absurd hc2 (by simp [hb])
      · exact absurd hc3 (by simp [hb])
    all_goals simp [hu]
  · rename_i hc
    obtain ⟨l, hd, h⟩ := Outcome.bind_eq_ok.1 h
    simp only [Outcome.pure_eq, Outcome.ok.injEq] at h
    have hin : (StylusModeler.flags s.state st).inputs = s.state.inputs := rfl
    rw [hin] at hd
    rw [← h]
    cases hu : s.params.useStrokeNormalProjection with
    | false =>
      have hmax := h2 hu
      have hb : (StylusModeler.flags s.state st).blank = false := by
        simp only [hu, Bool.not_false, Bool.true_and, Bool.and_eq_true, not_and, Bool.not_eq_true] at hc
        simp only [StylusModelerState.blank, Bool.and_eq_false_iff]
        cases h1 : (StylusModeler.flags s.state st).unknownPressure <;>
          cases h2 : (StylusModeler.flags s.state st).unknownTilt <;> simp_all
      have hb0 : s.state.blank = false := by
        simp only [StylusModelerState.blank, StylusModeler.flags] at hb ⊢
        cases h1 : s.state.unknownPressure <;> cases h2 : s.state.unknownTilt <;>
          cases h3 : s.state.unknownOrientation <;> simp_all
      have hi := hw.closest hu hb0
      have hlast : s.state.inputs.getLast? = raws.getLast? := by
        rw [hi]
        rcases List.eq_nil_or_concat raws with rfl | ⟨l, a, rfl⟩
        · simp
        · rw [List.concat_eq_append, List.drop_append_of_le_length (by simp; omega)]
          simp
      rw [dropOldInputs_closest hu hmax, hlast] at hd
      simp only [Outcome.ok.injEq] at hd
      refine ⟨fun _ hb' => ?_, fun _ _ => ?_, by simp [hu], by simp [hu], by simp [hu], by simp [hu]⟩
      · have hb'' : (StylusModeler.flags s.state st).blank = true := hb'
        simp [hb] at hb''
      · dsimp only
        rw [← hd, hi]
        generalize StylusModeler.rawResult raws.getLast? x t st = r
        simp only [List.length_append, List.length_singleton, List.length_drop]
        by_cases hlen : raws.length < s.params.maxInputSamples.toNat
        · have e1 : raws.length - s.params.maxInputSamples.toNat = 0 := by omega
          have e2 : raws.length + 1 - s.params.maxInputSamples.toNat = 0 := by omega
          simp [e1, e2]
        · have e1 : raws.length - (raws.length - s.params.maxInputSamples.toNat) + 1 - s.params.maxInputSamples.toNat = 1 := by omega
          have e2 : raws.length + 1 - s.params.maxInputSamples.toNat = raws.length - s.params.maxInputSamples.toNat + 1 := by omega
          rw [e1, e2, ← List.drop_drop]
          rw [List.drop_append_of_le_length (l₁ := raws) (by omega)]
    | true =>
      have hmin := h1 hu
      obtain ⟨hsuf, hlen⟩ := hw.suffix hu
      have hlast : s.state.inputs.getLast? = raws.getLast? := by
        obtain ⟨pre, hpre⟩ := hsuf
        rcases List.eq_nil_or_concat s.state.inputs with h0 | ⟨l, a, h0⟩
        · rw [h0] at hlen ⊢
          have : raws = [] := by
            rw [← List.length_eq_zero_iff]; simp only [List.length_nil] at hlen; omega
          simp [this]
        · rw [← hpre, h0]; simp
      rw [hlast] at hd
      obtain ⟨d1, d2, d3, d4⟩ := dropOldInputs_normal hu hmin hd
      refine ⟨by simp [hu], by simp [hu], fun _ => ⟨?_, ?_⟩, fun _ => ?_, fun _ => ?_, fun _ => ?_⟩
      · obtain ⟨pre, hpre⟩ := hsuf
        refine d1.trans ⟨pre, ?_⟩
        rw [← List.append_assoc, hpre]
      · dsimp only
        simp only [List.length_append, List.length_singleton] at d2 ⊢
        omega
      · intro a b l' newest hl hlt hnew
        simp only [List.getLast?_append, List.getLast?_singleton, Option.some_or, Option.some.injEq] at hnew
        have := d3 a b l' hl hlt
        rw [← hnew]
        exact this
      · dsimp only
        intro hlt
        rcases lt_or_eq_of_le d1.length_le with hlt' | heq
        · obtain ⟨a, l'', hl, ha⟩ := d4 hlt'
          exact ⟨StylusModeler.rawResult raws.getLast? x t st, by simp, a, l'', hl, ha⟩
        · obtain rfl := d1.eq_of_length heq
          simp only [List.length_append, List.length_singleton] at hlt
          obtain ⟨x, hx, a, l, hl, ha⟩ := hw.spans hu (by omega)
          exact ⟨x, List.mem_append_left _ hx, a, l ++ _, by rw [hl]; rfl, ha⟩
      · rw [List.map_append, List.map_singleton, heldTimes_append, ← hw.held hu]
        have := dropOldInputs_trimmed hu hmin hd
        rw [List.map_append, List.map_singleton] at this
        exact this

/-- The raw samples of a stroke, from the corrected positions and the inputs. -/
def rawSamples : List (Vec2 F × Input F D) → List (Result F D) :=
  List.foldl (fun acc c => acc ++ [StylusModeler.rawResult acc.getLast? c.1 c.2.time (stylusStateOf c.2)]) []

theorem rawSamples_append (l : List (Vec2 F × Input F D)) (c : Vec2 F × Input F D) :
    rawSamples (l ++ [c]) = rawSamples l ++ [StylusModeler.rawResult (rawSamples l).getLast? c.1 c.2.time (stylusStateOf c.2)] := by
  simp [rawSamples]

theorem rawSamples_length (l : List (Vec2 F × Input F D)) : (rawSamples l).length = l.length := by
  induction l using List.reverseRecOn with
  | nil => rfl
  | append_singleton l c ih => simp [rawSamples_append, ih]

/-- In the course of a stroke the samples held are those of the corrected inputs. -/
theorem Course.window {p : StrokeModelParams F D} {es : List (Event F D)} {m : StrokeModeler F D} (h : Course p es m) :
    ∃ cs : List (Vec2 F × Input F D), cs.map (·.2) = es.map Event.input ∧
      (p.wobble.isEnabled = false → ∀ c ∈ cs, c.1 = c.2.position) ∧ WindowOf p.stylus m.stylus.state (rawSamples cs) := by
  have hv := (validParts h.valid).2.2.2.2.1
  induction h with
  | @down i stylus predictor _ he hf hs hp =>
    refine ⟨[(i.position, i)], rfl, by simp, ?_⟩
    have := WindowOf.step (s := StylusModeler.default.reset p.stylus) (raws := []) hv (WindowOf.start _) hs
    rw [stylus_update_params hs] at this
    exact this
  | @move es m last i wobble corrected stylus n predictor loop out hm hl he hf hw hs hn hp hq ih =>
    obtain ⟨cs, h1, h2, h3⟩ := ih
    have hpar := hm.paramsOf.stylus
    refine ⟨cs ++ [(corrected, i)], by simp [h1], fun hwb c hc => ?_, ?_⟩
    · rcases List.mem_append.1 hc with hc | hc
      · exact h2 hwb c hc
      · simp only [List.mem_singleton] at hc
        have : m.wobble.params.isEnabled = false := by rw [hm.paramsOf.wobble]; exact hwb
        simp [WobbleSmoother.update, this] at hw
        simp [hc, hw.2]
    · rw [← hpar] at h3
      have := WindowOf.step (by rw [hpar]; exact hv) h3 hs
      rw [stylus_update_params hs, hpar] at this
      rw [rawSamples_append]
      exact this
  | @late es m last i wobble corrected stylus st' hm hl he hf hw hs hn ih =>
    obtain ⟨cs, h1, h2, h3⟩ := ih
    have hpar := hm.paramsOf.stylus
    refine ⟨cs ++ [(corrected, i)], by simp [h1], fun hwb c hc => ?_, ?_⟩
    · rcases List.mem_append.1 hc with hc | hc
      · exact h2 hwb c hc
      · simp only [List.mem_singleton] at hc
        have : m.wobble.params.isEnabled = false := by rw [hm.paramsOf.wobble]; exact hwb
        simp [WobbleSmoother.update, this] at hw
        simp [hc, hw.2]
    · rw [← hpar] at h3
      have := WindowOf.step (by rw [hpar]; exact hv) h3 hs
      rw [stylus_update_params hs, hpar] at this
      rw [rawSamples_append]
      exact this
  | @up es m last i stylus n loop out hm hl he hf hs hn hq ih =>
    obtain ⟨cs, h1, h2, h3⟩ := ih
    have hpar := hm.paramsOf.stylus
    refine ⟨cs ++ [(i.position, i)], by simp [h1], fun hwb c hc => ?_, ?_⟩
    · rcases List.mem_append.1 hc with hc | hc
      · exact h2 hwb c hc
      · simp only [List.mem_singleton] at hc
        simp [hc]
    · rw [← hpar] at h3
      have := WindowOf.step (by rw [hpar]; exact hv) h3 hs
      rw [stylus_update_params hs, hpar] at this
      rw [rawSamples_append]
      exact this

end Ink
