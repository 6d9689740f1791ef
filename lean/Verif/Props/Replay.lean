import Verif.Lemmas.Stroke
import Verif.Examples.Base
/-!
# C55: only the current stroke matters
-/
namespace Ink
open Scalar Arith

variable {F D : Type} [Scalar F] [Scalar D] [Arith F D]

theorem late_code {m m' : StrokeModeler F D} {i : Input F D} {v v' : List (Result F D)} {c : Code} {msg : String}
    (hr : refusal m.known i = none) (h : m.update i v = .ok (m', .err c msg, v')) : c = .invalidArgument ∧ v' = v := by
  rcases update_ok h with ⟨_, _, hr', _⟩ | ⟨_, p, hp, ⟨_, hl, h⟩ | ⟨last, _, hl, h⟩ | ⟨last, _, hl, h⟩⟩
  · simp [hr] at hr'
  · obtain ⟨_, _, _, _, hc, _⟩ := StrokeModeler.processDown_ok hl h
    simp at hc
  · obtain ⟨_, _, _, _, _, ⟨hn, _, rfl⟩ | ⟨_, _, _, _, _, _, _, hc, _⟩⟩ := StrokeModeler.processMove_ok hl h
    · obtain ⟨_, hc⟩ := numberOfSteps_error hn
      simp only [Status.err.injEq] at hc
      exact ⟨hc.1, rfl⟩
    · simp at hc
  · rcases StrokeModeler.processUp_ok hl h with ⟨hn, _, rfl⟩ | ⟨_, _, _, _, _, _, _, hc, _⟩
    · obtain ⟨_, hc⟩ := numberOfSteps_error hn
      simp only [Status.err.injEq] at hc
      exact ⟨hc.1, rfl⟩
    · simp at hc

theorem Straight.replays {p : StrokeModelParams F D} {es : List (Event F D)} {m : StrokeModeler F D}
    (h : Straight p es m) : Replays p es m := by
  have aux : ∀ {es : List (Event F D)} {m m' : StrokeModeler F D} {e : Event F D} {r : Response F D},
      Replays p es m → step m (.update e.input []) = .ok (m', r) →
      (match e.results with
        | some out => r = ⟨.ok, out⟩
        | none => ∃ msg, r = ⟨.err .invalidArgument msg, []⟩) → Replays p (es ++ [e]) m' := by
    rintro es m m' e r ⟨rs, hs, hf⟩ hst hr
    have hlen := run_length hs
    obtain ⟨r0, rs, rfl⟩ : ∃ r0 t, rs = r0 :: t := by
      cases rs with
      | nil => simp [replay] at hlen
      | cons a b => exact ⟨a, b, rfl⟩
    refine ⟨r0 :: rs ++ [r], ?_, ?_⟩
    · have : replay p (es ++ [e]) = replay p es ++ [.update e.input []] := by simp [replay]
      rw [this]
      exact run_append_eq hs (by simp [run, hst])
    · simp only [List.cons_append, List.tail_cons] at hf ⊢
      exact List.rel_append hf (.cons hr .nil)
  induction h with
  | down hv he h =>
    refine aux (es := []) (m := (StrokeModeler.default.resetParams p).1) (r := ⟨.ok, _⟩) ⟨[⟨.ok, []⟩], ?_, by simp⟩ (by simp only [step, h]; rfl) rfl
    simp [Session, replay, run, step, resetParams_of_valid _ hv]
  | input hm he h ih => exact aux ih (by simp only [step, h]; rfl) rfl
  | late hm hr he h ih =>
    obtain ⟨rfl, rfl⟩ := late_code hr h
    exact aux ih (by simp only [step, h]; rfl) ⟨_, rfl⟩

/-- C55: after any regular history, in the middle of a stroke (or after its Up), the modeler behaves as a new one that
was given the same parameters and the inputs of this stroke only, up to a `Restore` reaching back to before; and those
inputs give the same results there. In particular everything undone by `Restore`, all `Predict`s and all earlier strokes
leave no trace. -/
theorem C55_only_the_stroke_matters {ops : List (Op F D)} {rs : List (Response F D)} {m : StrokeModeler F D}
    {p : StrokeModelParams F D} (h : Session ops rs m) (hr : Regular ops rs) (hp : (known ops rs).params = some p)
    (hne : strokeOf ops rs ≠ []) :
    ∃ m₀, Replays p (strokeOf ops rs) m₀ ∧ ∀ later : List (Op F D), NoDisableAfterSave (ops ++ later) →
      (∀ x y, later = x ++ .restore :: y → .save ∈ x) → observe m later = observe m₀ later := by
  obtain ⟨p', m₀, hp', hst, hsl⟩ := h.straight hr hne
  rw [hp, Option.some.injEq] at hp'
  subst hp'
  refine ⟨m₀, hst.replays, fun later hn hres => ?_⟩
  have hi := h.predInv hr.noDisable
  obtain ⟨rs₀, hs₀, _⟩ := hst.replays
  have hns : Op.save ∉ replay p (strokeOf ops rs) := by simp [replay]
  have hi₀ := hs₀.predInv (fun a q b hab _ hm => hns (by rw [hab]; simp [hm]))
  have hno : m₀.savedPredictor = none := hi₀.fresh hns
  have hpar : m.params = some p := by rw [hsl.params, hst.params]
  have heq : Equiv False (Op.save ∈ ops) m m₀ := by
    refine ⟨hsl.params, hsl.last, by simp, by rw [hsl.live.predictor], fun _ => hsl.live, by simp, by simp, by simp, ?_, ?_⟩
    · intro hpn
      refine ⟨hi.stale p hpar ?_, hno⟩
      rw [← makePredictor_eq_none, ← hi.live p hpar, hpn]
      rfl
    · exact fun hs => ⟨hi.fresh hs, hno⟩
  refine heq.observe later ?_ ?_ (.inr hres)
  · exact fun x q y hxy hd hm => hn (ops ++ x) q y (by simp [hxy]) hd (by simp [hm])
  · intro hsv q hq hd
    obtain ⟨u, w, rfl⟩ := List.append_of_mem hq
    exact hn (ops ++ u) q w (by simp) hd (by simp [hsv])

section Examples
open Ex

/-- Two strokes; in the second a prediction is made, an input undone by Restore and another one found too far. -/
def Ex.detours : List (Op F32 F64) :=
  [.resetParams params] ++ stroke2 ++
  [.update (inp .down 3 4 1) [], .predict [], .save, .update (inp .move (fl 33 10) 4 (d 101 100)) [], .restore,
   .update (inp .move (fl 32 10) 4 (d 102 100)) [], .update (inp .move 4 4 100) []]

/-- Whether no Restore of the history is stale, computed. -/
def Ex.noStale (ops : List (Op F32 F64)) (rs : List (Response F32 F64)) : Bool :=
  (List.range ops.length).all fun n =>
    !(decide (ops[n]? = some .restore)) || !(view (ops.take n) (rs.take n)).stale

theorem Ex.noStale_iff {ops : List (Op F32 F64)} {rs : List (Response F32 F64)} (h : noStale ops rs = true) :
    NoStaleRestore ops rs := by
  intro n hn
  have hlt : n < ops.length := by
    by_contra hc
    rw [List.getElem?_eq_none (by omega)] at hn
    simp at hn
  have := List.all_eq_true.1 h n (List.mem_range.2 hlt)
  simpa [hn] using this

theorem Ex.noDisable_detours : NoDisableAfterSave detours := by
  intro a p b h hd
  have hm : Op.resetParams p ∈ detours := by simp [h]
  simp [detours, stroke2] at hm
  simp [hm, params] at hd

/-- the history is regular, and its current stroke has three inputs, the last one being too far -/
example : ∃ rs m, Session detours rs m ∧ Regular detours rs ∧
    ((strokeOf detours rs).map fun e => (e.input.time, e.results.isSome)) =
      [(1, true), (d 102 100, true), (100, false)] := by
  obtain ⟨rs, m, h, hP⟩ := exists_session (ops := detours) (P := fun rs _ => noStale detours rs &&
    decide (((strokeOf detours rs).map fun e => (e.input.time, e.results.isSome)) =
      [(1, true), (d 102 100, true), (100, false)])) (by kernel_rfl)
  simp only [Bool.and_eq_true, decide_eq_true_eq] at hP
  exact ⟨rs, m, h, ⟨noStale_iff hP.1, noDisable_detours⟩, hP.2⟩
end Examples

end Ink
