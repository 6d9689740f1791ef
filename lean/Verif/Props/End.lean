import Verif.Exact.Predict
import Verif.Props.SaveRestore
import Verif.Props.Counts
import Verif.Examples.Exact
import Verif.Examples.Kalman
/-!
# Stroke-end prediction (C29), on exact numbers
-/
namespace Ink
open Scalar Arith XR
noncomputable section
open Classical

section
variable {F D : Type} [Scalar F] [Scalar D] [Arith F D]

/-- One more input that is accepted and is not a Down. -/
theorem regular_update {ops : List (Op F D)} {rs : List (Response F D)} {m m' : StrokeModeler F D} {i : Input F D}
    {u : List (Result F D)} {r : Response F D} (h : Session ops rs m) (hr : Regular ops rs) (he : i.eventType ≠ .down)
    (hs : step m (.update i u) = .ok (m', r)) (hok : r.status = .ok) :
    Session (ops ++ [.update i u]) (rs ++ [r]) m' ∧ Regular (ops ++ [.update i u]) (rs ++ [r]) ∧
      (known (ops ++ [.update i u]) (rs ++ [r])).params = (known ops rs).params ∧
      strokeOf (ops ++ [.update i u]) (rs ++ [r]) = strokeOf ops rs ++ [⟨i, some (r.results.drop u.length)⟩] := by
  have hlen : ops.length = rs.length := (run_length h).symm
  have h' := h.snoc hs
  refine ⟨h', ⟨?_, ?_⟩, ?_, ?_⟩
  · intro n hn
    have hlt : n < ops.length := by
      by_contra hc
      rw [List.getElem?_append_right (by omega)] at hn
      have := List.mem_of_getElem? hn
      simp at this
    rw [List.getElem?_append_left hlt] at hn
    rw [List.take_append_of_le_length (by omega), List.take_append_of_le_length (by omega)]
    exact hr.noStale n hn
  · intro a p b hab hd
    rcases List.eq_nil_or_concat b with rfl | ⟨b', x, rfl⟩
    · have := congrArg List.getLast? hab
      simp at this
    · rw [List.concat_eq_append, ← List.cons_append, ← List.append_assoc] at hab
      have := (List.append_inj' hab rfl).1
      exact hr.noDisable a p b' this hd
  · rw [← h'.known, ← h.known]
    simp only [step] at hs
    obtain ⟨⟨m₁, s, v'⟩, hu, hs⟩ := Outcome.bind_eq_ok.1 hs
    simp only [Outcome.pure_eq, Outcome.ok.injEq, Prod.mk.injEq] at hs
    obtain ⟨rfl, -⟩ := hs
    exact update_params hu
  · have hk : (view ops rs).known = m.known := by rw [(h.viewInv hr).known]
    have hn : refusal (view ops rs).known i = none := by
      rw [hk]
      simp only [step] at hs
      obtain ⟨⟨m₁, s, v'⟩, hu, hs⟩ := Outcome.bind_eq_ok.1 hs
      simp only [Outcome.pure_eq, Outcome.ok.injEq, Prod.mk.injEq] at hs
      obtain ⟨rfl, rfl⟩ := hs
      rcases update_ok hu with ⟨c, msg, -, hc, -⟩ | ⟨hn, -⟩
      · rw [hc] at hok; cases hok
      · exact hn
    unfold strokeOf view
    rw [viewFrom_append _ hlen]
    change ((view ops rs).after _ _).events = _
    simp only [StrokeView.after, hn, hok, ↓reduceIte, he]
    rfl

/-- The last input of a stroke in progress is no Up. -/
theorem Course.last_not_up {p : StrokeModelParams F D} {es : List (Event F D)} {m : StrokeModeler F D} (h : Course p es m)
    {last : LastInput F D} (hl : m.lastInput = some last) : last.input.eventType ≠ .up := by
  induction h with
  | down _ he =>
    simp only [Option.some.injEq] at hl
    rw [← hl, he]; simp
  | move _ _ he =>
    simp only [Option.some.injEq] at hl
    rw [← hl, he]; simp
  | late hm hl' he hf hw hs hn ih => exact ih (by rw [← hl])
  | up => simp at hl

omit [Scalar F] in
/-- The stroke-end predictor remembers the last position. -/
theorem feed_strokeEnd {q : StrokeEndPredictor F D} {cs : List (Vec2 F × D)} (hne : cs ≠ []) {pr : Option (Predictor F D)}
    (h : feed (some (.strokeEnd q)) cs = .ok pr) :
    pr = some (.strokeEnd { q with lastPosition := cs.getLast?.map Prod.fst }) := by
  induction cs generalizing q with
  | nil => exact absurd rfl hne
  | cons c cs ih =>
    simp only [feed, List.foldlM_cons, updatePredictor, Predictor.update, Outcome.map_ok, Outcome.ok_bind] at h
    rcases cs with _ | ⟨c', cs⟩
    · simp only [List.foldlM_nil] at h
      have : Outcome.ok _ = Outcome.ok pr := h
      rw [← Outcome.ok.inj this]
      rfl
    · rw [ih (by simp) h, List.getLast?_cons_cons]

end

namespace Ref

/-- The last place the predictor has been given is the anchor of the next input. -/
theorem known_last (P : Params) (pos : ℂ) (time : ℝ) (is : List Touch) (hm : ∀ i ∈ is, i.IsMove) :
    (known P pos time is).getLast? = some (after P (start pos time) is).anchor := by
  induction is using List.reverseRecOn with
  | nil => simp [known, heard, after, start]
  | append_singleton is i ih =>
    have ih := ih fun j hj => hm j (by simp [hj])
    have hi := hm i (by simp)
    simp only [known] at ih ⊢
    rw [heard_append, ← List.cons_append, List.getLast?_append, ih, after_append]
    cases i with
    | up x t => exact absurd hi (by simp [Touch.IsMove])
    | move x t =>
      simp only [hears, advance]
      cases hmv : (move P (after P (start pos time) is) x t).2 with
      | some a => simp
      | none =>
        simp only [List.getLast?_nil, Option.none_or, Option.some.injEq]
        unfold move at hmv ⊢
        dsimp only at hmv ⊢
        split
        · rename_i hc; simp [hc] at hmv
        · rfl

/-- An Up at the anchor needs no steps. -/
theorem steps_zero (P : Params) (q : Tip) (x : ℂ) : steps P q x 0 = 0 := by
  have h : turn q.vel (q.vel + velocityGain P q x 0) = 0 := by
    simp only [velocityGain, zero_div, zero_smul, add_zero, turn]
    split
    · rfl
    · rename_i hc
      push Not at hc
      exact InnerProductGeometry.angle_self hc.1
  unfold steps
  rw [h]
  cases P.maxAngle <;> simp

end Ref

variable {ops : List (Op XR XR)} {rs : List (Response XR XR)} {m m' : StrokeModeler XR XR} {p : StrokeModelParams XR XR}
  {v : List (Result XR XR)} {r : Response XR XR}

/-- C29, on exact numbers: let `q` be the last tip state of the stroke in progress (as long as there is no loop mitigation: its
last result) and `a` where its last accepted input was taken to be (without smoothing: its position). A prediction of the
stroke-end predictor consists of the end-of-stroke tip states from `q` towards `a`; and if instead the stroke were ended by an Up
at `a`, at the time of the last input, the results of the Up would be the same, except that it always gives one. -/
theorem C29_stroke_end_exact (h : Session ops rs m) (hr : Regular ops rs) (hp : (known ops rs).params = some p)
    (hk : p.prediction = .strokeEnd) (hi : (known ops rs).prev ≠ none) (hst : step m (.predict v) = .ok (m', r)) :
    ∃ (P : Ref.Params) (q : Ref.Tip) (a : ℂ) (t : ℝ), Realizes p P ∧ P.Valid ∧
      (LoopOk p.position.loop → (resultsOf (strokeOf ops rs)).getLast?.map (·.time) = some (fin q.time)) ∧
      (p.position.loop.isEnabled = false → (resultsOf (strokeOf ops rs)).getLast?.map Result.kin = some (tip q)) ∧
      (acceptedOf (strokeOf ops rs)).getLast?.map (·.time) = some (fin t) ∧
      (p.wobble.isEnabled = false → (acceptedOf (strokeOf ops rs)).getLast?.map (·.position) = some (V a)) ∧
      r.status = .ok ∧
      (LoopOk p.position.loop → r.results.map (·.time) = (Ref.settle P a P.maxIter (1 / P.rate) q).2.map fun c => fin c.time) ∧
      (p.position.loop.isEnabled = false → r.results.map Result.kin = (Ref.settle P a P.maxIter (1 / P.rate) q).2.map tip) ∧
      ∀ i u m'' r'', i.eventType = .up → i.position = V a → i.time = fin t → step m (.update i u) = .ok (m'', r'') →
        r''.status = .ok ∧ ∃ out, r''.results = u ++ out ∧
          (LoopOk p.position.loop → if r.results = [] then out.length = 1 else out.map (·.time) = r.results.map (·.time)) ∧
          (p.position.loop.isEnabled = false →
            if r.results = [] then out.length = 1 else out.map Result.kin = r.results.map Result.kin) := by
  have hl : m.lastInput ≠ none := by
    intro hc
    rw [← h.known] at hi
    simp [StrokeModeler.known, hc] at hi
  obtain ⟨e, rest, hs⟩ := List.exists_cons_of_ne_nil (h.in_progress hr hl)
  obtain ⟨P, m₀, hreal, hv, hc, hsame⟩ := h.stroke hr hp hs
  have hl₀ : m₀.lastInput ≠ none := by rw [← hsame.last]; exact hl
  have hmp : m₀.params ≠ none := by
    rw [← hsame.params]
    rw [← h.known] at hp
    have : m.params = some p := hp
    simp [this]
  obtain ⟨e', rest', he, hfed, hft, hfp⟩ := course_fed hreal hv hc
  rw [List.cons.injEq] at he
  obtain ⟨rfl, rfl⟩ := he
  obtain ⟨e', rest', he', htale⟩ := course_tale hreal hv hc
  rw [List.cons.injEq] at he'
  obtain ⟨rfl, rfl⟩ := he'
  have hmoves : ∀ i ∈ rest.map (fun f => touch f.input), i.IsMove := by
    intro i hi
    obtain ⟨f, hf, rfl⟩ := List.mem_map.1 hi
    rw [touch_isMove, htale.going hl₀ f hf]
    simp
  have hlast : (news P e rest).getLast? = some (state P e rest).anchor := Ref.known_last P _ _ _ hmoves
  simp only [StrokeModeler.makePredictor, hk] at hfed
  have hpred := feed_strokeEnd (by simp [given, news, Ref.known]) hfed
  simp only [given, List.getLast?_map, hlast, Option.map_some] at hpred
  rw [hc.fedInputs_eq hl₀, ← hs] at hft hfp
  have hcons : ∀ q : Ref.Tip, Predictor.constructPrediction (.strokeEnd
      { position := p.position, sampling := p.sampling, lastPosition := some (V (state P e rest).anchor.1) }) (tip q) =
      .ok ((Ref.settle P (state P e rest).anchor.1 P.maxIter (1 / P.rate) q).2.map tip) := by
    intro q
    simp only [Predictor.constructPrediction, StrokeEndPredictor.constructPrediction]
    have e1 : (1 : XR) / p.sampling.minOutputRate = fin (1 / P.rate) := by
      rw [hreal.rate, lit1, fin_div _ hv.rate.ne']
    rw [e1, modelEndOfStroke_eq hreal hv _ rfl q rfl]
  have htime : (acceptedOf (strokeOf ops rs)).getLast?.map (·.time) = some (fin (state P e rest).anchor.2) := by
    rw [← List.getLast?_map, ← hft, List.getLast?_map, hlast]; rfl
  simp only [step] at hst
  obtain ⟨⟨m₁, st, v'⟩, hu, hst⟩ := Outcome.bind_eq_ok.1 hst
  simp only [Outcome.pure_eq, Outcome.ok.injEq, Prod.mk.injEq] at hst
  obtain ⟨rfl, rfl⟩ := hst
  obtain ⟨b', hu', -⟩ := hsame.predict_ok hu
  obtain ⟨h4, tips, h5, h6⟩ := course_predict hreal hv hc hpred hmp hl₀ hu'
  rw [hcons, Outcome.ok.injEq] at h5
  obtain ⟨h7, h8⟩ := h6 _ h5.symm
  refine ⟨P, (state P e rest).tip, (state P e rest).anchor.1, (state P e rest).anchor.2, hreal, hv, fun hlo => ?_, fun hoff => ?_, htime,
    fun hw => ?_, h4, fun hlo => (h7 hlo).2, h8, ?_⟩
  · rw [hs, ← List.getLast?_map, course_times hreal hv hc hlo, List.getLast?_map, Ref.told_last _ _ _ hmoves]
    rfl
  · rw [hs, ← List.getLast?_map, course_results hreal hv hc hoff, List.getLast?_map, Ref.told_last _ _ _ hmoves]
    rfl
  · rw [← List.getLast?_map, ← hfp hw, List.getLast?_map, hlast]; rfl
  · intro i u m'' r'' hie hip hit hup
    have hok : r''.status = .ok := by
      have hup' := hup
      simp only [step] at hup'
      obtain ⟨⟨m₂, st', v''⟩, huu, hup'⟩ := Outcome.bind_eq_ok.1 hup'
      simp only [Outcome.pure_eq, Outcome.ok.injEq, Prod.mk.injEq] at hup'
      obtain ⟨rfl, rfl⟩ := hup'
      have hmp' : m.params = some p := by rw [← h.known] at hp; exact hp
      obtain ⟨last, hla⟩ := Option.ne_none_iff_exists'.1 hl
      have href := htale.refines hl₀
      obtain ⟨ha1, ha2⟩ := href.anchor last (by rw [← hsame.last, hla])
      have hx : i.position = V (toPoint i.position) := by rw [hip, toPoint_V]
      obtain ⟨st, hst⟩ := numberOfSteps_eq hreal hv (state P e rest).tip hx ha2 hit le_rfl
      rw [← href.tip, ← hsame.live.position, sub_self, Ref.steps_zero, if_pos hv.maxOut.le] at hst
      have hdown : last.input.eventType ≠ .up := by
        exact hc.last_not_up (by rw [← hsame.last, hla])
      rcases update_ok huu with ⟨c, msg, hcc, _⟩ | ⟨_, q, hq, ⟨he', _⟩ | ⟨last', he', hl', hx⟩ | ⟨last', he', hl', hx⟩⟩
      · exfalso
        have hne : Input.eq last.input i = false := by
          simp [Input.eq, hie, hdown]
        simp [refusal, StrokeModeler.known, hmp', hla, hie, EventType.isKnown, hip, hit, ha2, hne, V] at hcc
      · rw [hie] at he'; cases he'
      · rw [hie] at he'; cases he'
      · rw [hmp', Option.some.injEq] at hq
        subst hq
        rw [hla, Option.some.injEq] at hl'
        subst hl'
        rcases StrokeModeler.processUp_ok hla hx with ⟨hn, _⟩ | ⟨_, _, _, _, _, _, _, rfl, rfl, rfl⟩
        · rw [hst] at hn; simp at hn
        · rfl
    refine ⟨hok, ?_⟩
    obtain ⟨h', hr', hp', hs'⟩ := regular_update h hr (by simp [hie]) hup hok
    rw [hp] at hp'
    rw [hs, List.cons_append] at hs'
    obtain ⟨P', m₂, hreal', hv', hc', -⟩ := h'.stroke hr' hp' hs'
    obtain ⟨tips, prev, a1, -, -, -, -, -, a2, a3⟩ := course_answer hreal hv hc' (f := ⟨i, some (r''.results.drop u.length)⟩) rfl
    have hpre : ∃ out, r''.results = u ++ out := by
      obtain ⟨_, out, _, ho, -⟩ := update_count hup hok
      exact ⟨out, ho⟩
    obtain ⟨out, ho⟩ := hpre
    rw [ho, List.drop_left] at a2 a3
    dsimp only at a1
    rw [touch_up hie, hip, hit, toPoint_V, toReal_fin] at a1
    obtain ⟨n, hn, -, path, hpath, ending, cand, hset, htips⟩ := Ref.up_answer a1
    rw [sub_self, Ref.steps_zero] at hn
    rw [hn] at hpath
    have hpath : path = [] := by rw [hpath]; simp [Ref.upsample, Ref.follow]
    subst hpath
    simp only [List.getLastD_nil, List.nil_append] at hset htips
    rw [← hset] at h7 h8
    refine ⟨out, ho, fun hlo => ?_, fun hoff => ?_⟩
    · have h9 := (h7 hlo).2
      have h10 := a2 hlo
      split
      · rename_i hnil
        have hnil : v' = [] := hnil
        rw [hnil] at h9
        have : ending = [] := by simpa using h9.symm
        rw [if_pos this] at htips
        rw [htips] at h10
        simpa using congrArg List.length h10
      · rename_i hnil
        have hnil : v' ≠ [] := hnil
        have : ending ≠ [] := by rintro rfl; simp at h9; exact hnil h9
        rw [if_neg this] at htips
        rw [h10, htips]; exact h9.symm
    · have h9 := h8 hoff
      have h10 := a3 hoff
      split
      · rename_i hnil
        have hnil : v' = [] := hnil
        rw [hnil] at h9
        have : ending = [] := by simpa using h9.symm
        rw [if_pos this] at htips
        rw [htips] at h10
        simpa using congrArg List.length h10
      · rename_i hnil
        have hnil : v' ≠ [] := hnil
        have : ending ≠ [] := by rintro rfl; simp at h9; exact hnil h9
        rw [if_neg this] at htips
        rw [h10, htips]; exact h9.symm

section Examples
open Ex

example : ∃ (ops : List (Op XR XR)) (rs : List (Response XR XR)) (m m' : StrokeModeler XR XR) (r : Response XR XR)
    (p : StrokeModelParams XR XR), Session ops rs m ∧ Regular ops rs ∧ (known ops rs).params = some p ∧ p.prediction = .strokeEnd ∧
    (known ops rs).prev ≠ none ∧ (strokeOf ops rs).length = 3 ∧ step m (.predict []) = .ok (m', r) := by
  have hfo : XR.Follows xparams (xin .down (pt 3 4) 0 0.2 1 2)
      [xin .move (pt 3.2 4.2) (1 / 30) 0.3 1.1 2.1, xin .move (pt 3.5 4.2) (2 / 30) 0.4 1.2 2.2] := by
    obtain ⟨h1, h2, h3, h4, h5, h6, h7, h8, -⟩ := xfollows xparams rfl
    exact ⟨h1, h2, h3, .inl rfl, h5, h6, h7, .inl rfl, trivial⟩
  obtain ⟨rs, m, h, hr, hp, hs, hres, hsafe⟩ := exists_stroke_safe xparams_valid rfl ⟨isFinite_fin _, isFinite_fin _, isFinite_fin _⟩
    (good_fin _) hfo (by simp)
  have hmp : m.params = some xparams := by rw [← h.known] at hp; exact hp
  obtain ⟨m', s, v', hpr, -⟩ := predict_returns tame hsafe [] (by
    intro pr hpr
    have hl := (h.predInv hr.noDisable).live _ hmp
    rw [hpr] at hl
    cases pr with
    | strokeEnd q => exact ⟨_, rfl⟩
    | kalman q => simp [StrokeModeler.makePredictor, xparams, Predictor.reset] at hl)
  refine ⟨_, rs, m, m', ⟨s, v'⟩, xparams, h, hr, hp, rfl, ?_, ?_, by simp only [step, hpr, Outcome.ok_bind, Outcome.pure_eq]⟩
  · intro hprev
    obtain ⟨e, rest, hst⟩ := List.exists_cons_of_ne_nil (l := strokeOf _ rs) (by intro hc; rw [hc] at hs; simp at hs)
    obtain ⟨P, m₀, -, -, hc, hsame⟩ := h.stroke hr hp hst
    have hl : m₀.lastInput = none := by
      rw [← h.known] at hprev
      rw [← hsame.last]
      simpa [StrokeModeler.known] using hprev
    rcases List.eq_nil_or_concat rest with rfl | ⟨l, f, rfl⟩
    · rw [hst] at hs; simp at hs
    · have hf : f.input.eventType ≠ .up := by
        rw [hst, List.concat_eq_append] at hs
        have := congrArg List.getLast? hs
        simp only [List.map_cons, List.map_append, List.map_nil, ← List.cons_append, List.getLast?_concat] at this
        simp only [List.getLast?_cons_cons, List.getLast?_singleton, Option.some.injEq] at this
        rw [this]; simp [xin]
      rw [List.concat_eq_append, ← List.cons_append] at hc
      exact absurd hl (hc.goes_on hf)
  · have := congrArg List.length hs
    simpa using this

end Examples

end
end Ink
