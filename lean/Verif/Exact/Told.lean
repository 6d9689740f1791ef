import Verif.Exact.Refine
import Verif.Lemmas.Ref
/-!
# All results of a stroke on exact numbers
-/
namespace Ink
open Scalar Arith XR
noncomputable section
open Classical

namespace XR
variable {p : StrokeModelParams XR XR} {P : Ref.Params}

theorem touch_isMove {i : Input XR XR} : (touch i).IsMove ↔ i.eventType ≠ .up := by
  unfold touch; split
  · rename_i h; simp [Ref.Touch.IsMove, h]
  · rename_i h; simp [Ref.Touch.IsMove, h]

theorem touch_time (i : Input XR XR) : (touch i).time = toReal i.time := by
  unfold touch; split <;> rfl

/-- The inputs of a stroke come in order, and the Up is the last. -/
theorem course_ordered (hr : Realizes p P) (hv : P.Valid) {e : Event XR XR} {rest : List (Event XR XR)} {m : StrokeModeler XR XR}
    (h : Course p (e :: rest) m) :
    Ref.Ordered P (Ref.start (toPoint e.input.position) (toReal e.input.time)) (rest.map fun f => touch f.input) ∧
    ∀ l i, (rest.map fun f => touch f.input) = l ++ [i] → ∀ j ∈ l, j.IsMove := by
  induction rest using List.reverseRecOn generalizing m with
  | nil => exact ⟨trivial, by simp⟩
  | append_singleton l f ih =>
    obtain ⟨m₁, h₁⟩ := h.init (List.cons_append (a := e) (as := l) (bs := [f])).symm (by simp)
    obtain ⟨m₂, _, ht⟩ := course_told (b := []) hr hv (e := e) (a := l) (f := f) h
    obtain ⟨h1, h2⟩ := ht.order l f rfl
    rw [List.map_append, List.map_singleton, Ref.ordered_append]
    refine ⟨⟨(ih h₁).1, h2⟩, ?_⟩
    intro l' i hl j hj
    obtain ⟨rfl, _⟩ := List.append_inj' hl rfl
    simp only [List.mem_map] at hj
    obtain ⟨g, hg, rfl⟩ := hj
    rw [touch_isMove, h1 g hg]
    simp

/-- Loop mitigation or not, the results have the times of the tip states. -/
theorem Modeled.times {s : StylusModeler XR XR} {lp : LoopParams XR XR} (hs : FinIn s) (hne : lp.isEnabled = true → s.state.inputs ≠ [])
    {hist : List (Result XR XR)} {t : ℝ} {tips : List Ref.Tip} {out : List (Result XR XR)} (h : Modeled s lp hist t tips out) :
    out.map (·.time) = tips.map fun q => fin q.time := by
  induction h with
  | nil => rfl
  | @cons hist t c q a r qs out hq hc h0 h1 hoff hr h ih =>
    obtain ⟨qa, hqa⟩ := query_isTip hs (fun v hv => getStrokeNormal_fin q t v hv) hq
    obtain ⟨o, _, rfl⟩ := interpResult_ok hr
    have hb : (makeResultFromTipState (tip q) a).kin = tip q := rfl
    have hk := interpResultWith_kin hqa hb c o
    have ht : (interpResultWith a (makeResultFromTipState (tip q) a) (fin c) o).time = fin (Ref.lerp qa.time q.time (clamp c)) :=
      congrArg TipState.time hk
    rw [List.map_cons, List.map_cons, ih, ht, clamp_of_mem h0 h1]
    congr 2
    cases hon : lp.isEnabled with
    | false => rw [hoff hon, Ref.lerp_one]
    | true =>
      have h4 : a.time = (tip q).time := query_time (hne hon) hq
      have h5 : a.time = fin qa.time := congrArg TipState.time hqa
      rw [h5] at h4
      have h6 : qa.time = q.time := fin_inj.1 h4
      simp [Ref.lerp, h6]

theorem Tale.inputs_ne {e : Event XR XR} {rest : List (Event XR XR)} {m : StrokeModeler XR XR} (h : Tale p P e rest m)
    (hv : validateStrokeModelParams p = .ok) (hu : p.stylus.useStrokeNormalProjection = true) : m.stylus.state.inputs ≠ [] := by
  obtain ⟨raws, h1, h2⟩ := h.window
  obtain ⟨_, h3⟩ := h1.suffix hu
  have h4 := (validStylus hv).1 hu
  have h5 : raws.length = rest.length + 1 := by have := congrArg List.length h2.pressure; simpa using this
  intro hc
  rw [hc, h5] at h3
  simp only [List.length_nil] at h3
  omega

/-- The times of all results of a stroke. -/
theorem course_times (hr : Realizes p P) (hv : P.Valid) {e : Event XR XR} {rest : List (Event XR XR)} {m : StrokeModeler XR XR}
    (h : Course p (e :: rest) m) (hl : LoopOk p.position.loop) : (resultsOf (e :: rest)).map (·.time) =
      (Ref.told P (toPoint e.input.position) (toReal e.input.time) (rest.map fun f => touch f.input)).map fun q => fin q.time := by
  induction rest using List.reverseRecOn generalizing m with
  | nil =>
    obtain ⟨e', rest, he, ht⟩ := course_tale hr hv h
    simp only [List.cons.injEq] at he
    rw [← he.1] at ht
    have := congrArg TipState.time (kin_downResult ht.finite)
    simp only [resultsOf, List.flatMap_cons, ht.first, Option.getD_some, List.flatMap_nil, List.append_nil, List.map_cons, List.map_nil,
      Ref.told, Ref.stroke, Ref.answers]
    congr 1
  | append_singleton l f ih =>
    obtain ⟨m₁, h₁⟩ := h.init (List.cons_append (a := e) (as := l) (bs := [f])).symm (by simp)
    obtain ⟨m₂, h₂, ht⟩ := course_told (b := []) hr hv (e := e) (a := l) (f := f) h
    have := ih h₁
    have e1 : resultsOf (e :: (l ++ [f])) = resultsOf (e :: l) ++ f.results.getD [] := by simp [resultsOf]
    rw [e1, List.map_append, this]
    simp only [List.map_append, List.map_singleton, Ref.told_append]
    congr 1
    have ha := ht.answer l f rfl
    change _ = List.map (fun q => fin q.time) ((Ref.advance P (state P e l) (touch f.input)).2.getD [])
    cases hf : f.results with
    | none => rw [hf] at ha; rw [ha]; rfl
    | some out =>
      rw [hf] at ha
      obtain ⟨tips, h1, h2⟩ := ha
      rw [h1]
      exact (h2 hl).times ht.finIn fun hon => ht.inputs_ne h.valid ((validParts h.valid).1 hon)

theorem acceptedOf_append (es : List (Event XR XR)) (f : Event XR XR) :
    acceptedOf (es ++ [f]) = acceptedOf es ++ if f.results.isSome then [f.input] else [] := by
  simp only [acceptedOf, List.filter_append, List.map_append]
  cases h : f.results <;> simp [h]

/-- The anchor is the last accepted input. -/
theorem course_anchor (hr : Realizes p P) (hv : P.Valid) {e : Event XR XR} {rest : List (Event XR XR)} {m : StrokeModeler XR XR}
    (h : Course p (e :: rest) m) (hm : ∀ f ∈ rest, f.input.eventType = .move) :
    ∃ prev, (acceptedOf (e :: rest)).getLast? = some prev ∧ prev.time = fin (state P e rest).anchor.2 := by
  induction rest using List.reverseRecOn generalizing m with
  | nil =>
    obtain ⟨e', rest, he, ht⟩ := course_tale hr hv h
    simp only [List.cons.injEq] at he
    rw [← he.1] at ht
    exact ⟨e.input, by simp [acceptedOf, ht.first], (finiteInput_eq ht.finite).2⟩
  | append_singleton l f ih =>
    obtain ⟨m₁, h₁⟩ := h.init (List.cons_append (a := e) (as := l) (bs := [f])).symm (by simp)
    obtain ⟨m₂, h₂, ht⟩ := course_told (b := []) hr hv (e := e) (a := l) (f := f) h
    obtain ⟨prev, hp, hpt⟩ := ih h₁ fun g hg => hm g (by simp [hg])
    have ha := ht.answer l f rfl
    rw [← List.cons_append, acceptedOf_append, state_append]
    have hmv := hm f (by simp)
    have htouch : touch f.input = .move (toPoint f.input.position) (toReal f.input.time) := by simp [touch, hmv]
    rw [htouch] at ha ⊢
    cases hf : f.results with
    | none =>
      rw [hf] at ha
      rw [(Ref.move_late ha).2]
      exact ⟨prev, by simpa using hp, hpt⟩
    | some out =>
      rw [hf] at ha
      obtain ⟨tips, h1, _⟩ := ha
      obtain ⟨_, _, _, _, h3⟩ := Ref.move_answer h1
      rw [h3]
      exact ⟨f.input, by simp, (finiteInput_eq (ht.inputs f (by simp)).1).2⟩

/-- The tip states behind the results of an input. -/
theorem course_answer (hr : Realizes p P) (hv : P.Valid) {e f : Event XR XR} {a b : List (Event XR XR)} {m : StrokeModeler XR XR}
    (h : Course p (e :: (a ++ f :: b)) m) {out : List (Result XR XR)} (hf : f.results = some out) :
    ∃ tips prev, (Ref.advance P (state P e a) (touch f.input)).2 = some tips ∧
      (acceptedOf (e :: a)).getLast? = some prev ∧ prev.time = fin (state P e a).anchor.2 ∧
      Ref.Synced (state P e a) ∧ (state P e a).anchor.2 ≤ toReal f.input.time ∧ FiniteInput f.input ∧
      (LoopOk p.position.loop → out.map (·.time) = tips.map fun q => fin q.time) ∧
      (p.position.loop.isEnabled = false → out.map Result.kin = tips.map tip) := by
  obtain ⟨m₂, h₂, ht⟩ := course_told hr hv (e := e) (a := a) (f := f) (b := b) (by simpa using h)
  obtain ⟨m₁, h₁⟩ := h₂.init (l := e :: a) (e := f) rfl (by simp)
  obtain ⟨h1, h2⟩ := ht.order a f rfl
  obtain ⟨prev, hp, hpt⟩ := course_anchor hr hv h₁ h1
  have ha := ht.answer a f rfl
  rw [hf] at ha
  obtain ⟨tips, h3, h4⟩ := ha
  refine ⟨tips, prev, h3, hp, hpt, Ref.synced_after hv (Ref.synced_start _ _) (course_ordered hr hv h₁).1, ?_,
    (ht.inputs f (by simp)).1, fun hl => ?_, fun hl => ?_⟩
  · rwa [touch_time] at h2
  · exact (h4 hl).times ht.finIn fun hon => ht.inputs_ne h.valid ((validParts h.valid).1 hon)
  · exact (h4 (.inl hl)).kin ht.finIn hl

/-- Between the Down and another input there are only Moves. -/
theorem course_moves (hr : Realizes p P) (hv : P.Valid) {e f : Event XR XR} {a b : List (Event XR XR)} {m : StrokeModeler XR XR}
    (h : Course p (e :: (a ++ f :: b)) m) : ∀ i ∈ a.map (fun f => touch f.input), i.IsMove := by
  obtain ⟨m₂, h₂, ht⟩ := course_told hr hv (e := e) (a := a) (f := f) (b := b) (by simpa using h)
  intro i hi
  obtain ⟨g, hg, rfl⟩ := List.mem_map.1 hi
  rw [touch_isMove, (ht.order a f rfl).1 g hg]
  simp

/-- Without loop mitigation, the results are the tip states. -/
theorem course_results (hr : Realizes p P) (hv : P.Valid) {e : Event XR XR} {rest : List (Event XR XR)} {m : StrokeModeler XR XR}
    (h : Course p (e :: rest) m) (hl : p.position.loop.isEnabled = false) : (resultsOf (e :: rest)).map Result.kin =
      (Ref.told P (toPoint e.input.position) (toReal e.input.time) (rest.map fun f => touch f.input)).map tip := by
  have h1 := congrArg (fun l => l.flatMap (·.getD [])) (course_kins hr hv h hl)
  have e1 : ∀ l : List (Event XR XR), (resultsOf l).map Result.kin = (l.map kins).flatMap (·.getD []) := by
    intro l
    simp only [resultsOf, List.map_flatMap, List.flatMap_map, kins]
    congr 1; funext f; cases f.results <;> rfl
  have e2 : ∀ l : List (Option (List Ref.Tip)), (l.map (Option.map (List.map tip))).flatMap (·.getD []) =
      (l.flatMap (·.getD [])).map tip := by
    intro l
    simp only [List.map_flatMap, List.flatMap_map]
    congr 1; funext f; cases f <;> rfl
  rw [e1]
  refine h1.trans ?_
  rw [e2]
  rfl

/-- What a regular history says about the modeler. -/
theorem _root_.Ink.Session.stroke {ops : List (Op XR XR)} {rs : List (Response XR XR)} {m : StrokeModeler XR XR}
    (h : Session ops rs m) (hr : Regular ops rs) (hp : (known ops rs).params = some p) {e : Event XR XR}
    {rest : List (Event XR XR)} (hs : strokeOf ops rs = e :: rest) :
    ∃ P m₀, Realizes p P ∧ P.Valid ∧ Course p (e :: rest) m₀ ∧ SameLive m m₀ := by
  obtain ⟨p', m₀, hp', hc, hsl⟩ := h.course hr (by rw [hs]; simp)
  rw [hp, Option.some.injEq] at hp'
  subst hp'
  obtain ⟨P, h1, h2⟩ := realizes_of_valid hc.valid
  rw [hs] at hc
  exact ⟨P, m₀, h1, h2, hc, hsl⟩

end XR
end
end Ink
