import Verif.Exact.Angle
import Verif.Exact.Refine
/-!
# Strokes on exact numbers

Exact numbers cannot be evaluated, so that there are strokes at all has to be proved. This is used beside the theorems on exact
numbers to show that their hypotheses are met.
-/
namespace Ink
open Scalar Arith XR

namespace XR

/-- Reset(p) and then the inputs one after the other, on a new modeler. -/
def calls (p : StrokeModelParams XR XR) (is : List (Input XR XR)) : List (Op XR XR) :=
  .resetParams p :: is.map fun i => .update i []

/-- The input is not too far from `prev`: there is no limit, or only the time matters and there is enough room. -/
def Near (p : StrokeModelParams XR XR) (prev i : Input XR XR) : Prop :=
  p.sampling.maxOutputsPerCall = 2147483647 ∨ (p.sampling.maxEstimatedAngle = fin (-1) ∧
    (toReal i.time - toReal prev.time) * toReal p.sampling.minOutputRate ≤ p.sampling.maxOutputsPerCall)

/-- The inputs may follow `prev` in a stroke. -/
def Follows (p : StrokeModelParams XR XR) (prev : Input XR XR) : List (Input XR XR) → Prop
  | [] => True
  | i :: is => Fits prev i ∧ Near p prev i ∧ Good i.orientation ∧ (i.eventType = .move ∨ (i.eventType = .up ∧ is = [])) ∧
    Follows p i is

theorem near_steps {p : StrokeModelParams XR XR} {P : Ref.Params} (hr : Realizes p P) (hv : P.Valid) {prev i : Input XR XR}
    (h : Near p prev i) (q : Ref.Tip) (x : ℂ) : Ref.steps P q x (toReal i.time - toReal prev.time) ≤ P.maxOut := by
  unfold Ref.steps
  rcases h with h | ⟨h1, h2⟩
  · rw [← hr.maxOut, h]
    exact min_le_left _ _
  · have hn : P.maxAngle = none := by
      have := hr.maxAngle
      cases ha : P.maxAngle with
      | none => rfl
      | some a =>
        rw [ha] at this
        dsimp only at this
        rw [h1, fin_inj] at this
        have := (hv.maxAngle a ha).1
        linarith
    rw [hr.rate, toReal_fin, hr.maxOut] at h2
    rw [hn]
    exact (min_le_right _ _).trans (max_le (Int.ceil_le.2 h2) hv.maxOut.le)

theorem regular_calls (p : StrokeModelParams XR XR) (is : List (Input XR XR)) (rs : List (Response XR XR)) :
    Regular (calls p is) rs := by
  constructor
  · intro n hn
    have := List.mem_of_getElem? hn
    simp [calls] at this
  · intro a q b h _ hs
    have : Op.save ∈ calls p is := by rw [h]; simp [hs]
    simp [calls] at this

theorem update_accepted {p : StrokeModelParams XR XR} (hv : validateStrokeModelParams p = .ok)
    {ops : List (Op XR XR)} {rs : List (Response XR XR)}
    {m : StrokeModeler XR XR} (h : Session ops rs m) (hr : Regular ops rs) (hp : m.params = some p) {last : LastInput XR XR}
    (hl : m.lastInput = some last) {k : ℕ} (hs : Safe Good k m) (hk : (k : ℤ) < intMax) {i : Input XR XR} (hf : Fits last.input i)
    (hnear : Near p last.input i) (hg : Good i.orientation) (he : i.eventType = .move ∨ i.eventType = .up) :
    ∃ m' out, m.update i [] = .ok (m', .ok, out) ∧ Safe Good (k + 1) m' ∧
      (m'.lastInput.map (·.input) = if i.eventType = .up then none else some i) := by
  obtain ⟨m', s, v', hu, hs'⟩ := update_returns tame hs hk i hg []
  have hne := h.in_progress hr (by simp [hl])
  obtain ⟨p', m₀, hp', hc, hsl⟩ := h.course hr hne
  rw [← h.known] at hp'
  have : p' = p := by
    have : m.params = some p' := hp'
    rw [hp] at this
    exact (Option.some.inj this).symm
  subst this
  obtain ⟨P, hreal, hP⟩ := realizes_of_valid hv
  obtain ⟨e, rest, _, htale⟩ := course_tale hreal hP hc
  have href := htale.refines (by rw [← hsl.last, hl]; simp)
  obtain ⟨ha1, ha2⟩ := href.anchor last (by rw [← hsl.last, hl])
  obtain ⟨h1, h2⟩ := finiteInput_eq hf.toFiniteInput
  have hle := hf.later
  rw [h2, ha2] at hle
  obtain ⟨st, hst⟩ := numberOfSteps_eq hreal hP _ h1 ha2 h2 (by simpa using hle)
  rw [← href.tip, ← hsl.live.position, if_pos] at hst
  · rcases update_ok hu with ⟨c, msg, hc, _⟩ | ⟨_, q, hq, ⟨he', _⟩ | ⟨last', he', hl', hx⟩ | ⟨last', he', hl', hx⟩⟩
    · exfalso
      have hk : i.eventType.isKnown := by rcases he with he | he <;> simp [he, EventType.isKnown]
      have hd : i.eventType ≠ .down := by rcases he with he | he <;> simp [he]
      simp [refusal, StrokeModeler.known, hp, hl, hk, hf.x, hf.y, hf.time, hf.new, hf.later, hd] at hc
    · rcases he with he | he <;> simp [he] at he'
    · rw [hp, Option.some.injEq] at hq
      subst hq
      rw [hl, Option.some.injEq] at hl'
      subst hl'
      obtain ⟨_, _, _, _, _, ⟨hn, _⟩ | ⟨_, _, _, _, _, _, _, rfl, rfl, rfl⟩⟩ := StrokeModeler.processMove_ok hl hx
      · rw [hst] at hn; simp at hn
      · exact ⟨_, _, hu, hs', by simp [he']⟩
    · rw [hp, Option.some.injEq] at hq
      subst hq
      rw [hl, Option.some.injEq] at hl'
      subst hl'
      rcases StrokeModeler.processUp_ok hl hx with ⟨hn, _⟩ | ⟨_, _, _, _, _, _, _, rfl, rfl, rfl⟩
      · rw [hst] at hn; simp at hn
      · exact ⟨_, _, hu, hs', by simp [he']⟩
  · have := near_steps hreal hP hnear (state P e rest).tip (toPoint i.position)
    rw [ha2, toReal_fin] at this
    exact this

theorem exists_more {p : StrokeModelParams XR XR} (hv : validateStrokeModelParams p = .ok)
    (is : List (Input XR XR)) :
    ∀ (js : List (Input XR XR)) (prev : Input XR XR) (rs : List (Response XR XR)) (m : StrokeModeler XR XR) (k : ℕ),
      Session (calls p js) rs m → m.params = some p → m.lastInput.map (·.input) = some prev → Safe Good k m →
      ((k + is.length : ℕ) : ℤ) < intMax → Follows p prev is →
      (strokeOf (calls p js) rs).map Event.input = js → (∀ e ∈ strokeOf (calls p js) rs, e.results.isSome = true) →
      ∃ rs' m', Session (calls p (js ++ is)) rs' m' ∧ m'.params = some p ∧
        (strokeOf (calls p (js ++ is)) rs').map Event.input = js ++ is ∧
        (∀ e ∈ strokeOf (calls p (js ++ is)) rs', e.results.isSome = true) ∧ Safe Good (k + is.length) m' := by
  induction is with
  | nil =>
    intro js prev rs m k h hp _ hs _ _ he hr
    exact ⟨rs, m, by simpa using h, hp, by simpa using he, by simpa using hr, hs⟩
  | cons i is ih =>
    intro js prev rs m k h hp hl₀ hs hk hfo he hr
    obtain ⟨hf, hnear, hg, hev, hfo⟩ := hfo
    obtain ⟨last, hl, rfl⟩ : ∃ last, m.lastInput = some last ∧ last.input = prev := by simpa using hl₀
    obtain ⟨m', out, hu, hs', hl'⟩ := update_accepted hv h (regular_calls _ _ _) hp hl hs
      (by simp at hk; omega) hf hnear hg (hev.imp id And.left)
    have hops : calls p (js ++ [i]) = calls p js ++ [.update i []] := by simp [calls]
    have hst : step m (.update i []) = .ok (m', ⟨.ok, out⟩) := by simp [step, hu]
    have hses : Session (calls p (js ++ [i])) (rs ++ [⟨.ok, out⟩]) m' := by
      rw [hops]; exact run_append_eq h (by simp [run, hst])
    have hkn := h.known
    have hvk : (view (calls p js) rs).known = known (calls p js) rs := (h.viewInv (regular_calls _ _ _)).known.symm.trans hkn
    have hstroke : strokeOf (calls p (js ++ [i])) (rs ++ [⟨.ok, out⟩]) = strokeOf (calls p js) rs ++ [⟨i, some out⟩] := by
      unfold strokeOf view
      rw [hops, viewFrom_append _ (run_length h).symm]
      simp only [viewFrom, StrokeView.after]
      change (if refusal (view (calls p js) rs).known i = none then _ else _ : StrokeView XR XR).events = _
      have hk : i.eventType.isKnown := by rcases hev with he | he <;> simp [he, EventType.isKnown]
      have hd : i.eventType ≠ .down := by rcases hev with he | he <;> simp [he]
      rw [if_pos]
      · simp only [↓reduceIte, if_neg hd, List.length_nil, List.drop_zero]
      · rw [hvk, ← hkn]
        simp [refusal, StrokeModeler.known, hp, hl, hk, hf.x, hf.y, hf.time, hf.new, hf.later, hd]
    have he' : (strokeOf (calls p (js ++ [i])) (rs ++ [⟨.ok, out⟩])).map Event.input = js ++ [i] := by
      rw [hstroke, List.map_append, he]; rfl
    have hr' : ∀ e ∈ strokeOf (calls p (js ++ [i])) (rs ++ [⟨.ok, out⟩]), e.results.isSome = true := by
      rw [hstroke]
      intro e hmem
      rcases List.mem_append.1 hmem with hmem | hmem
      · exact hr e hmem
      · rw [List.mem_singleton] at hmem; rw [hmem]; rfl
    have hp' : m'.params = some p := by rw [update_params hu, hp]
    rcases hev with hev | ⟨hev, rfl⟩
    · have := ih (js ++ [i]) i _ m' (k + 1) hses hp' (by rw [hl', hev]; simp) hs' (by simp at hk ⊢; omega) hfo he' hr'
      rwa [List.append_assoc, List.singleton_append, Nat.add_right_comm] at this
    · exact ⟨_, m', hses, hp', he', hr', hs'⟩

/-- There is a stroke with the given inputs, all of them accepted, and all is well after it. -/
theorem exists_stroke_safe {p : StrokeModelParams XR XR} (hv : validateStrokeModelParams p = .ok)
    {i : Input XR XR} (he : i.eventType = .down) (hf : FiniteInput i)
    (hg : Good i.orientation) {is : List (Input XR XR)} (h : Follows p i is) (hlen : is.length < 2147483645) :
    ∃ rs m, Session (calls p (i :: is)) rs m ∧ Regular (calls p (i :: is)) rs ∧ (known (calls p (i :: is)) rs).params = some p ∧
      (strokeOf (calls p (i :: is)) rs).map Event.input = i :: is ∧
      (∀ e ∈ strokeOf (calls p (i :: is)) rs, e.results.isSome = true) ∧ Safe Good (2 + is.length) m := by
  have h0 : step (.default : StrokeModeler XR XR) (.resetParams p) = .ok ((StrokeModeler.default.resetParams p).1, ⟨.ok, []⟩) := by
    simp [step, resetParams_of_valid _ hv]
  obtain ⟨m₁, r, hm₁, hs₁⟩ := step_returns tame (safe_default (Good := Good)) (by simp [intMax]) (.resetParams p) trivial
  rw [h0] at hm₁
  simp only [Outcome.ok.injEq, Prod.mk.injEq] at hm₁
  obtain ⟨rfl, rfl⟩ := hm₁
  obtain ⟨m, s, out, hu, hs⟩ := update_returns tame hs₁ (by simp [intMax]) i hg []
  rw [resetParams_of_valid _ hv] at hu h0
  have hu' := hu
  rcases update_ok hu with ⟨c, msg, hc, _⟩ | ⟨hrf, q, hq, ⟨_, hl, hx⟩ | ⟨last', he', _⟩ | ⟨last', he', _⟩⟩
  · exfalso
    simp [refusal, StrokeModeler.known, he, EventType.isKnown, hf.x, hf.y, hf.time] at hc
  · simp only [Option.some.injEq] at hq
    subst hq
    obtain ⟨sty, pr, _, _, rfl, hm, rfl⟩ := StrokeModeler.processDown_ok hl hx
    have hses : Session (calls p [i]) [⟨.ok, []⟩, ⟨.ok, [] ++ [StrokeModeler.downResult i]⟩] m := by
      simp only [Session, calls, List.map_cons, List.map_nil, run, step, resetParams_of_valid _ hv, Outcome.ok_bind]
      rw [hu']
      rfl
    have hstroke : strokeOf (calls p [i]) [⟨.ok, []⟩, ⟨.ok, [] ++ [StrokeModeler.downResult i]⟩] =
        [⟨i, some [StrokeModeler.downResult i]⟩] := by
      simp [strokeOf, view, calls, viewFrom, StrokeView.after, StrokeView.initial, Known.after, refusal, he, EventType.isKnown,
        hf.x, hf.y, hf.time]
    obtain ⟨rs, m', h1, h2, h3, h4⟩ := exists_more hv is [i] i _ _ 2 hses (by rw [hm]; rfl) (by rw [hm]; rfl) hs (by simp [intMax]; omega) h
      (by rw [hstroke]; rfl) (by rw [hstroke]; simp)
    refine ⟨rs, m', h1, regular_calls _ _ _, ?_, h3, h4⟩
    rw [List.singleton_append] at h1
    rw [← h1.known]; exact h2
  · simp [he] at he'
  · simp [he] at he'

/-- There is a stroke with the given inputs, all of them accepted. -/
theorem exists_stroke {p : StrokeModelParams XR XR} (hv : validateStrokeModelParams p = .ok)
    {i : Input XR XR} (he : i.eventType = .down) (hf : FiniteInput i)
    (hg : Good i.orientation) {is : List (Input XR XR)} (h : Follows p i is) (hlen : is.length < 2147483645) :
    ∃ rs m, Session (calls p (i :: is)) rs m ∧ Regular (calls p (i :: is)) rs ∧ (known (calls p (i :: is)) rs).params = some p ∧
      (strokeOf (calls p (i :: is)) rs).map Event.input = i :: is ∧
      ∀ e ∈ strokeOf (calls p (i :: is)) rs, e.results.isSome = true := by
  obtain ⟨rs, m, h1, h2, h3, h4, h5, -⟩ := exists_stroke_safe hv he hf hg h hlen
  exact ⟨rs, m, h1, h2, h3, h4, h5⟩

end XR
end Ink
