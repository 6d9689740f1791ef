import Verif.Lemmas.Pace
import Verif.Lemmas.LoopValue
import Verif.Props.Ordinary
import Verif.Props.Heading
/-!
# Ordinary strokes on floats, from the inputs alone: C72

C71 without conditions on the results: whether they are finite, how often they come, and how many they are.
-/
namespace Ink
noncomputable section
open Scalar Arith Fl

/-- A stroke with usual parameters and inputs: the inputs (rejected ones included) lie in the region of size `R` and their times can be
told apart, the output rate suits the spring, and the stroke is not too long. -/
structure Plain (p : StrokeModelParams (Fl f32) (Fl f64)) (R g G : ℝ) (es : List (Event (Fl f32) (Fl f64))) : Prop where
  mass : Finite p.position.springMassConstant
  drag : Finite p.position.dragConstant
  suits : Suits (num p.position.springMassConstant) (num p.position.dragConstant)
    (spacing p.sampling.maxOutputsPerCall.toNat (num p.sampling.minOutputRate) (2 ^ 20)) (2 * R)
  rate : 1 ≤ num p.sampling.minOutputRate ∧ num p.sampling.minOutputRate ≤ 2 ^ 60
  loop : p.position.loop.isEnabled = true → Finite p.position.loop.speedLowerBound ∧ Finite p.position.loop.speedUpperBound ∧
    Finite p.position.loop.strengthAtLower ∧ Finite p.position.loop.strengthAtUpper
  wobble : p.wobble.isEnabled = true → 1 / 2 ^ 20 ≤ num p.wobble.timeout ∧ num p.wobble.timeout ≤ 2 ^ 20 ∧
    es.length * (3 * (num p.wobble.timeout + 2 * G)) ≤ 2 ^ 17 * num p.wobble.timeout
  region : 1 / 2 ^ 50 ≤ R
  inputs : ∀ e ∈ es, InReach R e.input.position
  early : ∀ e ∈ es, |num e.input.time| ≤ 2 ^ 19
  spaced : es.IsChain (Spaced g G)
  gaps : 1 / 2 ^ 20 ≤ g ∧ g ≤ 1 ∧ 0 ≤ G ∧ G ≤ 2 ^ 20
  exact : (acceptedOf es).IsChain fun a b => ExactDifference a.time b.time
  short : es.length * p.sampling.maxOutputsPerCall.toNat + 1000 ≤ 2 ^ 18

section Lemmas
variable [Libm] {R g G B : ℝ} {N : ℕ} {p : StrokeModelParams (Fl f32) (Fl f64)} {es es' : List (Event (Fl f32) (Fl f64))}
  {m : StrokeModeler (Fl f32) (Fl f64)}

/-- The results are finite in time, and the speeds are numbers. -/
theorem sound_results [LibmFair] (hz : Sizes R g G) (hB : 6 * R / g ≤ B ∧ B ≤ 2 ^ 99) {s : StylusModeler (Fl f32) (Fl f64)}
    {tips : List (TipState (Fl f32) (Fl f64))} {l l' : LoopModeler (Fl f32) (Fl f64)} {c : Fl f32} {t : Fl f64} {k : ℕ}
    {out : List (Result (Fl f32) (Fl f64))} (h : modelStylusGo s tips l c t = .ok (l', out))
    (hs : s.state.inputs ≠ [] ∨ (l.params.isEnabled = false ∧ c = 1)) (hin : ∀ x ∈ s.state.inputs, Sampled R g x)
    (hv : validateLoopParams l.params = .ok) (hf : l.params.isEnabled = true → FiniteLoop l.params) (hc : Fl.isNaN c = false)
    (hl : Speeds l k) (hk : k + tips.length ≤ 2147483647) (ht : ∀ q ∈ tips, Finite q.time ∧ InReach B q.velocity) :
    (∀ r ∈ out, Finite r.time) ∧ Speeds l' (k + tips.length) := by
  induction tips generalizing l l' c t out k with
  | nil =>
    simp only [modelStylusGo, Outcome.ok.injEq, Prod.mk.injEq] at h
    rw [← h.1, ← h.2]
    exact ⟨by simp, hl⟩
  | cons tip tips ih =>
    simp only [modelStylusGo] at h
    obtain ⟨q, hq, h⟩ := Outcome.bind_eq_ok.1 h
    obtain ⟨r, hr, h⟩ := Outcome.bind_eq_ok.1 h
    obtain ⟨⟨l₁, out'⟩, h₁, h⟩ := Outcome.bind_eq_ok.1 h
    simp only [Outcome.pure_eq, Outcome.ok.injEq, Prod.mk.injEq] at h
    obtain ⟨rfl, rfl⟩ := h
    obtain ⟨tf, tv⟩ := ht tip (by simp)
    have hdr := drawn_result hz hq hr (hs.imp_right And.right) hin
    have hrt : Finite r.time := by
      obtain ⟨o, -, rfl⟩ := interpResult_ok hr
      rcases StylusModeler.query_ok hq with ⟨he, rfl⟩ | ⟨hne, p, r, hp, hr', rfl⟩
      · obtain ⟨-, rfl⟩ := hs.resolve_left (fun h => h he)
        exact interpTime_zero_not_nan tf
      · exact interpTime_same_finite tf hc
    obtain ⟨-, -, -, hvel, -⟩ := hdr hrt
    have hvel := hvel B hB.1 (hB.2.trans (by norm_num)) tv
    have hmag : Clock r.velocity.magnitude ∧ 0 ≤ num r.velocity.magnitude := by
      have hb : 101 / 100 * B ≤ 2 ^ 100 := by
        calc 101 / 100 * B ≤ 101 / 100 * 2 ^ 99 := by linarith [hB.2]
          _ ≤ 2 ^ 100 := by norm_num
      obtain ⟨h1, h2, -⟩ := hypot_reach hvel.finx hvel.finy hb hvel.x hvel.y
      exact ⟨.inl h1, h2⟩
    have hl' := hl.update hmag tip.time
    have hpar : (l.update r.velocity tip.time).1.params = l.params := loop_update_params ..
    rw [List.length_cons] at hk ⊢
    have hc' : Fl.isNaN (l.update r.velocity tip.time).2 = false := by
      have := loop_number (l := (l.update r.velocity tip.time).1) (by rw [hpar]; exact hv) (by rw [hpar]; exact hf) hl' (by omega)
      unfold LoopModeler.update at this ⊢
      split
      · exact (finite_lit one_lt_two_pow : Finite (1 : Fl f32)).1
      · rename_i hoff
        rw [if_neg hoff] at this
        exact this
    obtain ⟨i1, i2⟩ := ih h₁ (hs.imp_right fun ⟨h1, h2⟩ => ⟨by rw [hpar]; exact h1, by simp [LoopModeler.update, h1]⟩)
      (by rw [hpar]; exact hv) (by rw [hpar]; exact hf) hc' hl' (by omega) fun q hq => ht q (by simp [hq])
    refine ⟨fun r hr => ?_, by rw [show k + (tips.length + 1) = k + 1 + tips.length by omega]; exact i2⟩
    rcases List.mem_cons.1 hr with rfl | hr
    · exact hrt
    · exact i1 r hr

/-- The times of the tips, and what follows for the results if the tips are not too fast. -/
structure Traced (p : StrokeModelParams (Fl f32) (Fl f64)) (N : ℕ) (B : ℝ) (es es' : List (Event (Fl f32) (Fl f64)))
    (l : LoopModeler (Fl f32) (Fl f64)) : Prop where
  finite : ∀ r ∈ resultsOf es', Finite r.time
  gaps : ((resultsOf es').map fun r => num r.time).IsChain fun x y => 0 ≤ y - x ∧ y - x ≤ spacing N (num p.sampling.minOutputRate) (2 ^ 20)
  sound : (resultsOf es').length ≤ 2147483647 → (∀ r ∈ resultsOf es', InReach B r.velocity) →
    (∀ r ∈ resultsOf es, Finite r.time) ∧ Speeds l (resultsOf es').length

omit [Libm] in
theorem ghost_nums (tips : List (TipState (Fl f32) (Fl f64))) : (tips.map ghost).map (fun r => num r.time) = tips.map fun q => num q.time := by
  rw [List.map_map]; rfl

omit [Libm] in
theorem Traced.add {l l' : LoopModeler (Fl f32) (Fl f64)} (h : Traced p N B es es' l) {s : ℝ}
    (hlast : ((resultsOf es').map fun r => num r.time).getLast? = some s) {tips : List (TipState (Fl f32) (Fl f64))}
    (hp : OnPace N (num p.sampling.minOutputRate) s tips) {out : List (Result (Fl f32) (Fl f64))}
    (hs : ∀ k, Speeds l k → k + tips.length ≤ 2147483647 → (∀ q ∈ tips, Finite q.time ∧ InReach B q.velocity) →
      (∀ r ∈ out, Finite r.time) ∧ Speeds l' (k + tips.length)) (i i' : Input (Fl f32) (Fl f64)) :
    Traced p N B (es ++ [⟨i, some out⟩]) (es' ++ [⟨i', some (tips.map ghost)⟩]) l' := by
  constructor
  · intro r hr
    rw [resultsOf_append] at hr
    rcases List.mem_append.1 hr with hr | hr
    · exact h.finite r hr
    · obtain ⟨q, hq, rfl⟩ := List.mem_map.1 hr
      exact (hp.finite q hq).1
  · rw [resultsOf_append, List.map_append, ghost_nums]
    exact chain_glue h.gaps hp.gaps hlast
  · rw [resultsOf_append, resultsOf_append, List.length_append, List.length_map]
    intro hlen hvel
    obtain ⟨h1, h2⟩ := h.sound (by omega) fun r hr => hvel r (by simp [hr])
    obtain ⟨h3, h4⟩ := hs _ h2 hlen fun q hq => ⟨(hp.finite q hq).1, hvel (ghost q) (by simp; exact .inr ⟨q, hq, rfl⟩)⟩
    refine ⟨fun r hr => ?_, h4⟩
    rcases List.mem_append.1 hr with hr | hr
    · exact h1 r hr
    · exact h3 r hr

/-- What becomes of the tips. -/
theorem answered [LibmFair] (hB : 6 * R / g ≤ B ∧ B ≤ 2 ^ 99) (hloop : p.position.loop.isEnabled = true → FiniteLoop p.position.loop)
    {m' : StrokeModeler (Fl f32) (Fl f64)} {loop : LoopModeler (Fl f32) (Fl f64)} {t : Fl f64} {tips : List (TipState (Fl f32) (Fl f64))}
    {out : List (Result (Fl f32) (Fl f64))} (h : Course p es m) (h' : Course p es' m') (ht : Tidy p R g G es')
    (hq : modelStylus tips m'.stylus m.loop t = .ok (loop, out)) :
    List.Forall₂ (Drawn R g) out (tips.map ghost) ∧
    ∀ k, Speeds m.loop k → k + tips.length ≤ 2147483647 → (∀ q ∈ tips, Finite q.time ∧ InReach B q.velocity) →
      (∀ r ∈ out, Finite r.time) ∧ Speeds loop (k + tips.length) := by
  have hlv : validateLoopParams p.position.loop = .ok := (andThen_ok (validParts h.valid).2.2.1).1
  have hpar := h.paramsOf.loop
  have hoff : m'.stylus.state.inputs ≠ [] ∨ (m.loop.params.isEnabled = false ∧ m.loop.getInterpolationValue = 1) := by
    refine (samples_or_off h').imp_right fun hl => ?_
    have : m.loop.params.isEnabled = false := by rw [hpar]; exact hl
    exact ⟨this, by simp [LoopModeler.getInterpolationValue, this]⟩
  have hheld := fun x hx => ((h'.going ht).held x hx).1
  refine ⟨drawn_results ht.sizes hq hoff hheld, fun k hk hlen htips => ?_⟩
  have hv : validateLoopParams m.loop.params = .ok := by rw [hpar]; exact hlv
  have hf : m.loop.params.isEnabled = true → FiniteLoop m.loop.params := by rw [hpar]; exact hloop
  exact sound_results ht.sizes hB hq hoff hheld hv hf (loop_number hv hf hk (by omega)) hk hlen htips

/-- The spring under a stroke with usual parameters and inputs: as `Course.ghost`, and it comes with the times of the tips. -/
theorem course_trace [LibmFair] (h : Course p es m) (ht : Tidy p R g G es) (hck : Clocked p N es) (hN : 1 ≤ N)
    (hB : 6 * R / g ≤ B ∧ B ≤ 2 ^ 99) (hloop : p.position.loop.isEnabled = true → FiniteLoop p.position.loop) :
    ∃ es' q, Springs SameMotion p.still es' (m.lastInput.map fun l => ({ l.input with position := l.correctedPosition }, l.correctedPosition)) q ∧
      (m.lastInput ≠ none → q = m.position.state) ∧ List.Forall₂ (Ghosted R g) es es' ∧ Traced p N B es es' m.loop ∧
      (∀ last, m.lastInput = some last → ((resultsOf es').map fun r => num r.time).getLast? = some (num last.input.time) ∧
        (resultsOf es').length ≤ es.length * N) ∧ (resultsOf es').length ≤ es.length * N + 1000 := by
  induction h with
  | @down i stylus predictor _ he hfi hs hp =>
    have hx := ht.inputs _ (List.mem_singleton.2 rfl)
    have hR : 0 < R := ht.sizes.bounds.1
    have hi := finite_of_isFinite hfi.time
    refine ⟨_, StrokeModeler.startState i, .down (r := StrokeModeler.downResult i) he rfl rfl rfl rfl (by constructor <;> rfl), fun _ => rfl, ?_,
      ⟨?_, ?_, ?_⟩, ?_, ?_⟩
    · exact .cons ⟨hx.mono (by linarith), .some (.cons (drawn_refl ht.sizes _) .nil)⟩ .nil
    · intro r hr
      simp only [resultsOf, List.flatMap_cons, Option.getD_some, List.flatMap_nil, List.append_nil, List.mem_singleton] at hr
      rw [hr]
      exact hi
    · simp [resultsOf]
    · intro _ _
      refine ⟨fun r hr => ?_, ⟨by simp [LoopModeler.reset], Nat.zero_le _⟩⟩
      simp only [resultsOf, List.flatMap_cons, Option.getD_some, List.flatMap_nil, List.append_nil, List.mem_singleton] at hr
      rw [hr]
      exact hi
    · rintro last ⟨⟩
      refine ⟨rfl, ?_⟩
      simpa [resultsOf] using hN
    · simp [resultsOf]
  | @move es m last i wobble corrected stylus n predictor loop out hm hl' he hfi hw hs hn hp hq ih =>
    obtain ⟨es', q, ih, hq', hes, htr, hlast, hcount⟩ := ih ht.init hck.init
    obtain ⟨l1, l2⟩ := hlast _ hl'
    rw [hl'] at ih
    obtain rfl := hq' (by simp [hl'])
    obtain ⟨hdr, hsnd⟩ := answered hB hloop hm (.move hm hl' he hfi hw hs hn hp hq) ht hq
    have hcor := ((hm.going ht.init).smooth hm hl' ht (finite_of_isFinite hfi.time) hw).2
    obtain ⟨g1, g2, -, -, g5⟩ := path_pace hm (Course.inStep hm hck.init) hl' hfi hck hn corrected
    have hpath := springPath_go p.position last.correctedPosition last.input.time corrected i.time n n.toNat 1 (by omega) m.position.state
    have hst := alongPathGo_state p.position last.correctedPosition last.input.time corrected i.time n n.toNat 1 m.position.state
    have hmot := same_ghost (m.moveTips last i corrected n).2
    have htr' := htr.add l1 g1 hsnd i { i with position := corrected }
    have hnums : ((resultsOf (es' ++ [⟨{ i with position := corrected }, some ((m.moveTips last i corrected n).2.map ghost)⟩])).map
        fun r => num r.time).getLast? = some (num i.time) := by
      rw [resultsOf_append, List.map_append, ghost_nums, last_glue l1]
      exact g2
    have hlen : (resultsOf (es' ++ [⟨{ i with position := corrected }, some ((m.moveTips last i corrected n).2.map ghost)⟩])).length ≤
        (es ++ [(⟨i, some out⟩ : Event (Fl f32) (Fl f64))]).length * N := by
      rw [resultsOf_append, List.length_append, List.length_append, List.length_map, List.length_singleton, Nat.add_mul, Nat.one_mul]
      exact Nat.add_le_add l2 g5
    change Traced p N B _ (es' ++ [⟨_, some ((m.moveTips last i corrected n).2.map ghost)⟩]) _ at htr'
    generalize hout' : (m.moveTips last i corrected n).2.map ghost = out' at *
    refine ⟨_, (m.moveTips last i corrected n).1.state, ?_, fun _ => rfl, List.rel_append hes (.cons ⟨hcor, .some hdr⟩ .nil), htr', ?_, hlen.trans (Nat.le_add_right _ _)⟩
    · unfold StrokeModeler.moveTips PositionModeler.updateAlongLinearPath at hmot ⊢
      rw [hm.paramsOf.position] at hmot ⊢
      have := Springs.move (i := { i with position := corrected }) ih he (fun _ => rfl) hpath hmot
      rw [List.getLastD_eq_getLast?, ← hst] at this
      exact this
    · rintro last' ⟨⟩
      exact ⟨hnums, hlen⟩
  | @late es m last i wobble corrected stylus s hm hl' he hfi hw hs hn ih =>
    obtain ⟨es', q, ih, hq', hes, htr, hlast, hcount⟩ := ih ht.init hck.init
    have hcor := ((hm.going ht.init).smooth hm hl' ht (finite_of_isFinite hfi.time) hw).2
    rw [hl'] at ih
    have e : ∀ (es : List (Event (Fl f32) (Fl f64))) (i : Input (Fl f32) (Fl f64)), resultsOf (es ++ [⟨i, none⟩]) = resultsOf es := by
      intro es i; simp [resultsOf]
    have e2 : es.length * N ≤ (es ++ [(⟨i, none⟩ : Event (Fl f32) (Fl f64))]).length * N := Nat.mul_le_mul_right _ (by simp)
    refine ⟨_, q, ?_, hq', List.rel_append hes (.cons (b := ⟨{ i with position := corrected }, none⟩) ⟨hcor, .none⟩ .nil), ?_, ?_, ?_⟩
    · change Springs _ _ _ (m.lastInput.map _) _
      rw [hl']
      exact .late ih he
    · obtain ⟨a1, a2, a3⟩ := htr
      exact ⟨by rw [e]; exact a1, by rw [e]; exact a2, by rw [e, e]; exact a3⟩
    · intro last' hl''
      rw [e]
      exact ⟨(hlast last' hl'').1, (hlast last' hl'').2.trans e2⟩
    · rw [e]
      omega
  | @up es m last i stylus n loop out hm hl' he hfi hs hn hq ih =>
    obtain ⟨es', q, ih, hq', hes, htr, hlast, hcount⟩ := ih ht.init hck.init
    obtain ⟨l1, l2⟩ := hlast _ hl'
    rw [hl'] at ih
    obtain rfl := hq' (by simp [hl'])
    obtain ⟨hdr, hsnd⟩ := answered hB hloop hm (.up hm hl' he hfi hs hn hq) ht hq
    have hR : 0 < R := ht.sizes.bounds.1
    have hx : InReach (2 * R) i.position := (ht.inputs ⟨i, some out⟩ (by simp)).mono (by linarith)
    obtain ⟨g1, g2⟩ := up_pace hm (Course.inStep hm hck.init) hl' hfi hck hn
    have hpath := springPath_go p.position last.correctedPosition last.input.time i.position i.time n n.toNat 1 (by omega) m.position.state
    have hst := alongPathGo_state p.position last.correctedPosition last.input.time i.position i.time n n.toNat 1 m.position.state
    have hmot := same_ghost (m.upTips p last i n).2
    have htr' := htr.add l1 g1 hsnd i i
    have hlen : (resultsOf (es' ++ [⟨i, some ((m.upTips p last i n).2.map ghost)⟩])).length ≤ (es ++ [(⟨i, some out⟩ : Event (Fl f32) (Fl f64))]).length * N + 1000 := by
      rw [resultsOf_append, List.length_append, List.length_append, List.length_map, List.length_singleton, Nat.add_mul, Nat.one_mul]
      omega
    generalize hout' : (m.upTips p last i n).2.map ghost = out' at *
    unfold StrokeModeler.upTips PositionModeler.updateAlongLinearPath PositionModeler.modelEndOfStroke at hmot
    dsimp only at hmot
    rw [hm.paramsOf.position] at hmot
    generalize hA : PositionModeler.alongPathGo p.position last.correctedPosition last.input.time i.position i.time n n.toNat 1
      m.position.state = A at hmot hpath hst
    obtain ⟨r1, r2⟩ := springRest_go p.position i.position p.sampling.endOfStrokeStoppingDistance p.sampling.endOfStrokeMaxIterations.toNat
      (1 / p.sampling.minOutputRate) A.1
    rw [← List.getLastD_eq_getLast?] at hst
    generalize hB' : PositionModeler.endOfStrokeGo p.position i.position p.sampling.endOfStrokeStoppingDistance
      p.sampling.endOfStrokeMaxIterations.toNat (1 / p.sampling.minOutputRate) A.1 = B' at hmot r1 r2
    rw [hst] at r1 r2
    have hcons : List.Forall₂ (Ghosted R g) (es ++ [⟨i, some out⟩]) (es' ++ [⟨i, some out'⟩]) := List.rel_append hes (.cons ⟨hx, .some hdr⟩ .nil)
    clear hout'
    split at hmot
    · rename_i hnil
      rw [List.isEmpty_iff, List.append_eq_nil_iff] at hnil
      obtain ⟨n1, n2⟩ := hnil
      rw [n1] at hpath r2
      cases hmot with
      | cons hr hrest =>
        cases hrest
        exact ⟨_, _, .stop (p := p.still) ih he hpath (r2 n2) hr, fun h => absurd rfl h, hcons, htr', by rintro last ⟨⟩, hlen⟩
    · rename_i hne
      exact ⟨_, _, .up (p := p.still) ih he hpath r1 (by simpa using hne) hmot, fun h => absurd rfl h, hcons, htr', by rintro last ⟨⟩, hlen⟩

omit [Libm] in
/-- Accepted inputs come at the same time or at least `g` apart. -/
theorem spaced_accepted (hg : 0 < g) (h : es.IsChain (Spaced g G)) :
    (acceptedOf es).IsChain fun a b => num a.time = num b.time ∨ g ≤ num b.time - num a.time := by
  have h1 : es.IsChain fun e f => num e.input.time = num f.input.time ∨ g ≤ num f.input.time - num e.input.time :=
    h.imp fun e f h => h.1.imp_left Eq.symm
  have tr : IsTrans (Event (Fl f32) (Fl f64)) fun e f => num e.input.time = num f.input.time ∨ g ≤ num f.input.time - num e.input.time := by
    refine ⟨fun a b c hab hbc => ?_⟩
    rcases hab with hab | hab
    · rw [hab]; exact hbc
    · rcases hbc with hbc | hbc
      · rw [← hbc]; exact .inr hab
      · exact .inr (by linarith)
  have h2 := List.isChain_iff_pairwise.1 h1
  have h3 : (acceptedOf es).Pairwise fun a b => num a.time = num b.time ∨ g ≤ num b.time - num a.time := by
    unfold acceptedOf
    rw [List.pairwise_map]
    exact h2.filter _
  exact h3.isChain

/-- What follows for a stroke with usual parameters and inputs. -/
theorem Plain.facts (hc : Plain p R g G es) (hv : validateStrokeModelParams p = .ok) (hne : es ≠ []) :
    Sizes R g G ∧ Tidy p R g G es ∧ Clocked p p.sampling.maxOutputsPerCall.toNat es ∧ 1 ≤ p.sampling.maxOutputsPerCall.toNat ∧
    6 * R / g ≤ max (6 * R / g) (11 / 5 * ((Real.sqrt (num p.position.springMassConstant))⁻¹ *
      reach (num p.position.springMassConstant) (num p.position.dragConstant) (2 * R))) ∧
    max (6 * R / g) (11 / 5 * ((Real.sqrt (num p.position.springMassConstant))⁻¹ *
      reach (num p.position.springMassConstant) (num p.position.dragConstant) (2 * R))) ≤ 2 ^ 99 ∧
    0 ≤ fade (num p.position.springMassConstant) (num p.position.dragConstant) := by
  have hz : Sizes R g G := ⟨⟨hc.region, by linarith [hc.suits.size.2, (by positivity : (0 : ℝ) < 1 / 2 ^ 50), hc.region]⟩, ⟨hc.gaps.1, hc.gaps.2.1⟩, hc.gaps.2.2⟩
  obtain ⟨hR, hg, ⟨v1, v2⟩, ⟨a1, a2⟩⟩ := hz.bounds
  have ht : Tidy p R g G es := ⟨hz, hc.inputs, fun e he => (hc.early e he).trans (by norm_num), hc.spaced, fun hon =>
    ⟨⟨hz.region, hz.long, (hc.wobble hon).1, (hc.wobble hon).2.1⟩, (hc.wobble hon).2.2⟩⟩
  obtain ⟨-, -, -, hmax, -⟩ := validSamplingParts (validParts hv).2.2.2.1
  have hshort := hc.short
  have hlen1 : 1 ≤ es.length := List.length_pos_iff.2 hne
  have hNle := Nat.mul_le_mul_right p.sampling.maxOutputsPerCall.toNat hlen1
  have hg' : (1 / 2 ^ 149 : ℝ) ≤ g := le_trans (by norm_num) hc.gaps.1
  have hck : Clocked p p.sampling.maxOutputsPerCall.toNat es := by
    refine ⟨hc.exact, (spaced_accepted hg hc.spaced).imp fun a b h => h.imp_right fun h => le_trans hg' h, fun i hi => ?_,
      hc.rate, by omega, by omega⟩
    · simp only [acceptedOf, List.mem_map, List.mem_filter] at hi
      obtain ⟨e, ⟨he, -⟩, rfl⟩ := hi
      exact hc.early e he
  obtain ⟨z1, z2, z3, z4, z5⟩ := reach_size hc.suits hc.region
  have hω : 11 / 5 * ((Real.sqrt (num p.position.springMassConstant))⁻¹ *
      reach (num p.position.springMassConstant) (num p.position.dragConstant) (2 * R)) ≤ 2 ^ 99 := by
    have hL : 0 ≤ reach (num p.position.springMassConstant) (num p.position.dragConstant) (2 * R) := by rw [z2]; linarith
    have := mul_le_mul z4 z5 hL (by positivity)
    calc _ ≤ 11 / 5 * ((2 : ℝ) ^ 8 * 2 ^ 80) := by linarith
      _ ≤ 2 ^ 99 := by norm_num
  refine ⟨hz, ht, hck, by omega, le_max_left _ _, max_le (by
      calc 6 * R / g = 6 * (R / g) := by ring
        _ ≤ 6 * 2 ^ 70 := by linarith
        _ ≤ 2 ^ 99 := by norm_num) hω, ?_⟩
  obtain ⟨g1, g2, -⟩ := hc.suits.pos
  unfold fade
  positivity

omit [Libm] in
theorem part_length {es : List (Event (Fl f32) (Fl f64))} (hes : (resultsOf es).length ≤ 2 ^ 18) : ∀ e ∈ es, (e.results.getD []).length ≤ 2 ^ 20 := by
  intro e he
  have : (e.results.getD []).length ≤ (resultsOf es).length := by
    obtain ⟨a, b, rfl⟩ := List.append_of_mem he
    simp only [resultsOf, List.flatMap_append, List.flatMap_cons, List.length_append]
    omega
  omega

end Lemmas

section Theorems
variable [Libm] [LibmFair] {ops : List (Op (Fl f32) (Fl f64))} {rs : List (Response (Fl f32) (Fl f64))} {m : StrokeModeler (Fl f32) (Fl f64)}

/-- C72: on floats, the results of a stroke with usual parameters and inputs come in the order of their times and often enough, they are
finite, and they stay near the inputs. -/
theorem C72_plain_float (h : Session ops rs m) (hr : Regular ops rs) {p : StrokeModelParams (Fl f32) (Fl f64)}
    (hp : (known ops rs).params = some p) (hne : strokeOf ops rs ≠ []) {R g G : ℝ} (hc : Plain p R g G (strokeOf ops rs)) :
    Paced (spacing p.sampling.maxOutputsPerCall.toNat (num p.sampling.minOutputRate) (2 ^ 20)) (resultsOf (strokeOf ops rs)) ∧
    ∀ r ∈ resultsOf (strokeOf ops rs),
      InReach (5 * reach (num p.position.springMassConstant) (num p.position.dragConstant) R) r.position ∧
      InReach (7 * (R / g) + 5 * ((Real.sqrt (num p.position.springMassConstant))⁻¹ *
        reach (num p.position.springMassConstant) (num p.position.dragConstant) R)) r.velocity ∧
      InReach (13 * (R / g ^ 2) + 11 * (((Real.sqrt (num p.position.springMassConstant))⁻¹ + num p.position.dragConstant) *
        ((Real.sqrt (num p.position.springMassConstant))⁻¹ *
          reach (num p.position.springMassConstant) (num p.position.dragConstant) R))) r.acceleration := by
  obtain ⟨p', m₀, hp', hcourse, -⟩ := h.course hr hne
  rw [hp, Option.some.injEq] at hp'
  subst hp'
  obtain ⟨hz, ht, hck, hN, hB1, hB2, hfade⟩ := hc.facts hcourse.valid hne
  have hshort := hc.short
  obtain ⟨es', q, hs, -, hes, htr, -, hcount⟩ := course_trace hcourse ht hck hN ⟨hB1, hB2⟩
    fun hon => ⟨(hc.loop hon).1, (hc.loop hon).2.1, (hc.loop hon).2.2.1, (hc.loop hon).2.2.2⟩
  have hall := drawn_all hes
  have hpaced : Paced (spacing p.sampling.maxOutputsPerCall.toNat (num p.sampling.minOutputRate) (2 ^ 20)) (resultsOf es') :=
    ⟨htr.finite, (List.isChain_map _).1 htr.gaps⟩
  have hlight : ∀ k, k < (resultsOf es').length → (k : ℝ) ≤ 2 ^ 18 := by
    intro k hk
    have : k ≤ 2 ^ 18 := by omega
    exact_mod_cast this
  have hin : ∀ i ∈ acceptedOf es', InReach (2 * R) i.position := by
    intro i hi
    simp only [acceptedOf, List.mem_map, List.mem_filter] at hi
    obtain ⟨e', ⟨he', -⟩, rfl⟩ := hi
    obtain ⟨e, -, he⟩ := mem_right hes he'
    exact he.input
  have hb := springs_bounded (p := p.still) hs rfl (s := spacing p.sampling.maxOutputsPerCall.toNat (num p.sampling.minOutputRate) (2 ^ 20))
    hc.mass hc.drag hc.suits hin (part_length (by omega)) hpaced (Weights.count hpaced hfade) hlight
  obtain ⟨hfin, -⟩ := htr.sound (by omega) fun r hr => (hb r hr).2.1.mono (le_max_right _ _)
  obtain ⟨t1, t2⟩ := same_times hall hfin
  have hpaced' := hpaced.times t1.symm hfin
  have hlen := hall.length_eq
  refine ⟨hpaced', ?_⟩
  exact C71_ordinary_float h hr hp hne ⟨hc.mass, hc.drag, hc.suits, hc.region, hc.inputs, fun e he => (hc.early e he).trans (by norm_num),
    hc.spaced, hc.gaps, hc.wobble, part_length (by omega), hpaced'⟩ (Weights.count hpaced' hfade) fun k hk => hlight k (by omega)

/-- C24 on floats for usual parameters and inputs, loop mitigation included: if all inputs so far have a pressure in [0, 1], the results
have a pressure in [0, 1]; if they have a tilt in [0, 2], the results have a tilt in [0, 2]. -/
theorem C24_plain_range_float (h : Session ops rs m) (hr : Regular ops rs) {p : StrokeModelParams (Fl f32) (Fl f64)}
    (hp : (known ops rs).params = some p) {R g G : ℝ} (hc : Plain p R g G (strokeOf ops rs)) {e f : Event (Fl f32) (Fl f64)}
    {a b : List (Event (Fl f32) (Fl f64))} (hs : strokeOf ops rs = e :: (a ++ f :: b)) {out : List (Result (Fl f32) (Fl f64))}
    (hout : f.results = some out) {r : Result (Fl f32) (Fl f64)} (hmem : r ∈ out) :
    ((∀ i ∈ e :: (a ++ [f]), InRange 1 i.input.pressure) → InRange 1 r.pressure) ∧
    ((∀ i ∈ e :: (a ++ [f]), InRange 2 i.input.tilt) → InRange 2 r.tilt) := by
  have hfin : Fl.isNaN r.time = false := by
    refine ((C72_plain_float h hr hp (by rw [hs]; simp) hc).1.1 r ?_).1
    simp only [resultsOf, List.mem_flatMap]
    exact ⟨f, by rw [hs]; simp, by rw [hout]; exact hmem⟩
  obtain ⟨k1, k2⟩ := C24_stylus_range_float_partial h hr hp hs hout hmem
  have off : ∀ {q : Bool}, ¬ (q = true ∧ Scalar.isNaN r.time = true) := fun hq => by
    have := hq.2
    rw [show Scalar.isNaN r.time = Fl.isNaN r.time from rfl, hfin] at this
    cases this
  exact ⟨fun hin => (k1 hin).2.resolve_left off, fun hin => (k2 hin).2.resolve_left off⟩

/-- C25 on floats for usual parameters and inputs, loop mitigation included: if all inputs so far have an orientation between 0 and 2^27,
the results have an orientation in [0, 2π). -/
theorem C25_plain_heading_float (h : Session ops rs m) (hr : Regular ops rs) {p : StrokeModelParams (Fl f32) (Fl f64)}
    (hp : (known ops rs).params = some p) {R g G : ℝ} (hc : Plain p R g G (strokeOf ops rs)) {e f : Event (Fl f32) (Fl f64)}
    {a b : List (Event (Fl f32) (Fl f64))} (hs : strokeOf ops rs = e :: (a ++ f :: b)) {out : List (Result (Fl f32) (Fl f64))}
    (hout : f.results = some out) {r : Result (Fl f32) (Fl f64)} (hmem : r ∈ out)
    (hin : ∀ i ∈ e :: (a ++ [f]), FromZeroTo (2 ^ 27) i.input.orientation) : Direction r.orientation := by
  have hfin : Fl.isNaN r.time = false := by
    refine ((C72_plain_float h hr hp (by rw [hs]; simp) hc).1.1 r ?_).1
    simp only [resultsOf, List.mem_flatMap]
    exact ⟨f, by rw [hs]; simp, by rw [hout]; exact hmem⟩
  refine (C25_known_heading_float h hr hp hs hout hmem hin).2.resolve_left fun hq => ?_
  have := hq.2
  rw [show Scalar.isNaN r.time = Fl.isNaN r.time from rfl, hfin] at this
  cases this

end Theorems

section Examples
open Ex

/-- What can be checked of a stroke with these parameters. -/
def Ex.fullCheck (es : List (Event F32 F64)) : Bool :=
  es.all (fun e => within 4 e.input.position && timeWithin 2 e.input.time && ((0 ≤ᵇ e.input.pressure) && (e.input.pressure ≤ᵇ 1)) &&
    ((0 ≤ᵇ e.input.tilt) && (e.input.tilt ≤ᵇ 2))) && spacedCheck es && tellApart (acceptedOf es) && decide (es.length ≤ 4)

theorem Ex.full_plain {es : List (Event F32 F64)} (h : fullCheck es = true) : Plain fullParams 4 (1 / 64) (1 / 32) es ∧
    ∀ e ∈ es, InRange 1 e.input.pressure ∧ InRange 2 e.input.tilt := by
  simp only [fullCheck, Bool.and_eq_true, decide_eq_true_eq, List.all_eq_true] at h
  obtain ⟨⟨⟨h2, h3⟩, h4⟩, h8⟩ := h
  have hrate : num fullParams.sampling.minOutputRate = 180 := num_lit (f := f64) (n := 180) (by decide)
  have hs : Suits (num fullParams.position.springMassConstant) (num fullParams.position.dragConstant)
      (spacing fullParams.sampling.maxOutputsPerCall.toNat (num fullParams.sampling.minOutputRate) (2 ^ 20)) (2 * 4) := by
    have := calm_suits
    have e : spacing fullParams.sampling.maxOutputsPerCall.toNat (num fullParams.sampling.minOutputRate) (2 ^ 20) ≤ 1 / 170 := by
      rw [hrate]
      change spacing 20 180 _ ≤ _
      unfold spacing
      norm_num
    have e0 : 0 < spacing fullParams.sampling.maxOutputsPerCall.toNat (num fullParams.sampling.minOutputRate) (2 ^ 20) := by
      rw [hrate]
      change 0 < spacing 20 180 _
      unfold spacing
      norm_num
    obtain ⟨s1, s2, s3⟩ := this.step
    have d0 : 0 < num fullParams.position.dragConstant := this.pos.2.1
    refine ⟨this.mass, this.drag, ⟨e0, le_trans ?_ s2, le_trans (by linarith) s3⟩, by norm_num⟩
    exact mul_le_mul_of_nonneg_left e (by change 0 ≤ 2 * num fullParams.position.dragConstant; linarith)
  obtain ⟨t1, t2⟩ := full_timeout
  refine ⟨⟨calm_mass.1, by decide +kernel, hs, by rw [hrate]; norm_num, fun _ => ⟨?_, ?_, ?_, ?_⟩, fun _ => ⟨?_, ?_, ?_⟩, by norm_num,
    fun e he => within_iff (h2 e he).1.1.1, fun e he => (timeWithin_iff (h2 e he).1.1.2).2.trans (by norm_num), spacedCheck_iff h3, by norm_num,
    (tellApart_iff h4).1, ?_⟩, fun e he => ⟨(h2 e he).1.2, (h2 e he).2⟩⟩
  · decide +kernel
  · decide +kernel
  · decide +kernel
  · decide +kernel
  · exact le_trans (by norm_num) t1
  · exact t2.trans (by norm_num)
  · have h8 : (es.length : ℝ) ≤ 4 := by exact_mod_cast h8
    have := mul_le_mul_of_nonneg_right h8 (by linarith : 0 ≤ 3 * (num fullParams.wobble.timeout + 2 * (1 / 32)))
    linarith
  · have : fullParams.sampling.maxOutputsPerCall.toNat = 20 := rfl
    rw [this]
    omega

/-- C72 and C24 apply to a stroke of a Down, two Moves and an Up with more than ten results, with wobble smoothing, loop mitigation and
pressures and tilts in range. -/
example : ∃ (rs : List (Response F32 F64)) (m : StrokeModeler F32 F64), Session fullOps rs m ∧ Regular fullOps rs ∧
    (known fullOps rs).params = some fullParams ∧ strokeOf fullOps rs ≠ [] ∧ Plain fullParams 4 (1 / 64) (1 / 32) (strokeOf fullOps rs) ∧
    10 ≤ (resultsOf (strokeOf fullOps rs)).length ∧ fullParams.wobble.isEnabled = true ∧ fullParams.position.loop.isEnabled = true ∧
    ∀ e ∈ strokeOf fullOps rs, InRange 1 e.input.pressure ∧ InRange 2 e.input.tilt := by
  obtain ⟨rs, m, h, hP⟩ := exists_session (ops := fullOps) (P := fun rs _ => noStale fullOps rs && fullCheck (strokeOf fullOps rs) &&
    decide ((known fullOps rs).params = some fullParams ∧ 10 ≤ (resultsOf (strokeOf fullOps rs)).length ∧
      (strokeOf fullOps rs).length = 4)) (by kernel_rfl)
  simp only [Bool.and_eq_true, decide_eq_true_eq] at hP
  obtain ⟨⟨h1, h2⟩, h5, h6, h8⟩ := hP
  refine ⟨rs, m, h, ⟨noStale_iff h1, ?_⟩, h5, ?_, (full_plain h2).1, h6, rfl, rfl, (full_plain h2).2⟩
  · intro a p b h hd
    have hm : Op.resetParams p ∈ fullOps := by simp [h]
    simp [fullOps] at hm
    simp [hm, fullParams, params] at hd
  · intro h0
    rw [h0] at h8
    simp at h8

end Examples

end
end Ink
