import Verif.Exact.Told
import Verif.Examples.Exact
/-!
# Result times on exact numbers: C17, C18, C19

The modeler is given by any regular history (see C55); `strokeOf` is the current stroke as the client saw it. Loop mitigation is
off or its parameters are numbers: validation lets NaN pass (C38), and then everything is NaN.
-/
namespace Ink
open Scalar Arith XR

variable {ops : List (Op XR XR)} {rs : List (Response XR XR)} {m : StrokeModeler XR XR} {p : StrokeModelParams XR XR}
  {e : Event XR XR} {rest : List (Event XR XR)}

/-- C17: along a stroke, from the Down through the end-of-stroke results, time never goes backwards. -/
theorem C17_times_monotone_exact (h : Session ops rs m) (hr : Regular ops rs) (hp : (known ops rs).params = some p)
    (hl : LoopOk p.position.loop) (hs : strokeOf ops rs ≠ []) :
    ∃ ts : List ℝ, (resultsOf (strokeOf ops rs)).map (·.time) = ts.map fin ∧ ts.Pairwise (· ≤ ·) := by
  obtain ⟨e, rest, hs⟩ := List.exists_cons_of_ne_nil hs
  obtain ⟨P, m₀, h1, h2, hc, _⟩ := h.stroke hr hp hs
  rw [hs]
  obtain ⟨ho, hm⟩ := course_ordered h1 h2 hc
  refine ⟨_, (course_times h1 h2 hc hl).trans (List.map_map (f := Ref.Tip.time) (g := fin)).symm, ?_⟩
  have := Ref.told_gap h2 _ _ _ ho hm
  rw [← List.isChain_iff_pairwise, List.isChain_map]
  exact this.imp fun a b h => h.1

/-- C19: consecutive results of a stroke, including the first ones of a call relative to the last ones of the call before, and
including the end-of-stroke results, are at most 1 / min_output_rate apart. This needs a limit on the outputs per call: without one
the number of steps is cut off at the largest int, see `C19_refuted`. -/
theorem C19_min_output_rate_exact (h : Session ops rs m) (hr : Regular ops rs) (hp : (known ops rs).params = some p)
    (hl : LoopOk p.position.loop) (hmax : p.sampling.maxOutputsPerCall < 2147483647) (hs : strokeOf ops rs ≠ []) :
    ∃ (rate : ℝ) (ts : List ℝ), p.sampling.minOutputRate = fin rate ∧ 0 < rate ∧
      (resultsOf (strokeOf ops rs)).map (·.time) = ts.map fin ∧ ts.IsChain fun a b => b - a ≤ 1 / rate := by
  obtain ⟨e, rest, hs⟩ := List.exists_cons_of_ne_nil hs
  obtain ⟨P, m₀, h1, h2, hc, _⟩ := h.stroke hr hp hs
  rw [hs]
  obtain ⟨ho, hm⟩ := course_ordered h1 h2 hc
  refine ⟨_, _, h1.rate, h2.rate, (course_times h1 h2 hc hl).trans (List.map_map (f := Ref.Tip.time) (g := fin)).symm, ?_⟩
  have := Ref.told_gap h2 _ _ _ ho hm
  rw [List.isChain_map]
  exact this.imp fun a b h => h.2 (by rw [← h1.maxOut]; exact hmax)

/-- C18, Move: with `prev` the accepted input before it, the results of a Move lie after `prev` and not after the Move, the last
one is at the time of the Move; and if there are none no time has passed. -/
theorem C18_move_times_exact (h : Session ops rs m) (hr : Regular ops rs) (hp : (known ops rs).params = some p)
    (hl : LoopOk p.position.loop) {a b : List (Event XR XR)} {f : Event XR XR} (hs : strokeOf ops rs = e :: (a ++ f :: b))
    (hf : f.input.eventType = .move) {out : List (Result XR XR)} (hout : f.results = some out) :
    ∃ (prev : Input XR XR) (t₀ t : ℝ) (ts : List ℝ), (acceptedOf (e :: a)).getLast? = some prev ∧ prev.time = fin t₀ ∧
      f.input.time = fin t ∧ t₀ ≤ t ∧ out.map (·.time) = ts.map fin ∧
      (∀ u ∈ ts, t₀ ≤ u ∧ (t₀ < t → t₀ < u) ∧ u ≤ t) ∧ (∀ u, ts.getLast? = some u → u = t) ∧ (ts = [] → t₀ = t) := by
  obtain ⟨P, m₀, h1, h2, hc, _⟩ := h.stroke hr hp hs
  obtain ⟨tips, prev, h3, h4, h5, h6, h7, h8, h9, _⟩ := course_answer h1 h2 hc hout
  have htouch : touch f.input = .move (toPoint f.input.position) (toReal f.input.time) := by simp [touch, hf]
  rw [htouch] at h3
  obtain ⟨i1, i2, i3⟩ := Ref.move_times h2 h6 h7 h3
  refine ⟨prev, _, _, tips.map Ref.Tip.time, h4, h5, (finiteInput_eq h8).2, h7, ?_, ?_, ?_, ?_⟩
  · rw [h9 hl, List.map_map]; rfl
  · intro u hu
    obtain ⟨q, hq, rfl⟩ := List.mem_map.1 hu
    exact i1 q hq
  · intro u hu
    rw [List.getLast?_map] at hu
    obtain ⟨q, hq, rfl⟩ := Option.map_eq_some_iff.1 hu
    exact i2 q hq
  · intro h0
    exact i3 (List.map_eq_nil_iff.1 h0)

/-- C18, Up: the results of an Up lie after the accepted input before it, the last one not before the Up, and none later than
end_of_stroke_max_iterations / min_output_rate after it. There is at least one. -/
theorem C18_up_times_exact (h : Session ops rs m) (hr : Regular ops rs) (hp : (known ops rs).params = some p)
    (hl : LoopOk p.position.loop) {a b : List (Event XR XR)} {f : Event XR XR} (hs : strokeOf ops rs = e :: (a ++ f :: b))
    (hf : f.input.eventType = .up) {out : List (Result XR XR)} (hout : f.results = some out) :
    ∃ (prev : Input XR XR) (t₀ t rate : ℝ) (ts : List ℝ), (acceptedOf (e :: a)).getLast? = some prev ∧ prev.time = fin t₀ ∧
      f.input.time = fin t ∧ t₀ ≤ t ∧ p.sampling.minOutputRate = fin rate ∧ out.map (·.time) = ts.map fin ∧ ts ≠ [] ∧
      (∀ u ∈ ts, t₀ ≤ u ∧ u ≤ t + p.sampling.endOfStrokeMaxIterations / rate) ∧ (∀ u, ts.getLast? = some u → t ≤ u) := by
  obtain ⟨P, m₀, h1, h2, hc, _⟩ := h.stroke hr hp hs
  obtain ⟨tips, prev, h3, h4, h5, h6, h7, h8, h9, _⟩ := course_answer h1 h2 hc hout
  have htouch : touch f.input = .up (toPoint f.input.position) (toReal f.input.time) := by simp [touch, hf]
  rw [htouch] at h3
  obtain ⟨i1, i2, i3⟩ := Ref.up_times h2 h6 h7 h3
  refine ⟨prev, _, _, _, tips.map Ref.Tip.time, h4, h5, (finiteInput_eq h8).2, h7, h1.rate, ?_, by simpa using i1, ?_, ?_⟩
  · rw [h9 hl, List.map_map]; rfl
  · intro u hu
    obtain ⟨q, hq, rfl⟩ := List.mem_map.1 hu
    rw [h1.maxIter]
    exact_mod_cast i2 q hq
  · intro u hu
    rw [List.getLast?_map] at hu
    obtain ⟨q, hq, rfl⟩ := Option.map_eq_some_iff.1 hu
    exact i3 q hq

section Examples
open Ex

/-- The theorems apply to a stroke of four inputs with stylus data, with loop mitigation and without. -/
example (on : Bool) : ∃ rs m p e a f b out, Session (calls p xinputs) rs m ∧ Regular (calls p xinputs) rs ∧
    (known (calls p xinputs) rs).params = some p ∧ p.position.loop.isEnabled = on ∧ LoopOk p.position.loop ∧
    p.sampling.maxOutputsPerCall < 2147483647 ∧ strokeOf (calls p xinputs) rs = e :: (a ++ f :: b) ∧
    f.input.eventType = .move ∧ a ≠ [] ∧ b ≠ [] ∧ f.results = some out := by
  cases on with
  | false =>
    obtain ⟨rs, m, h1, h2, h3, h4, h5⟩ := xstroke xparams xparams_valid rfl
    obtain ⟨o₁, o₂, o₃, o₄, h6⟩ := xevents h4 h5
    exact ⟨rs, m, xparams, _, [_], _, [_], _, h1, h2, h3, rfl, .inl rfl, by simp [xparams], h6, rfl, by simp, by simp, rfl⟩
  | true =>
    obtain ⟨rs, m, h1, h2, h3, h4, h5⟩ := xstroke xloop xloop_valid rfl
    obtain ⟨o₁, o₂, o₃, o₄, h6⟩ := xevents h4 h5
    exact ⟨rs, m, xloop, _, [_], _, [_], _, h1, h2, h3, rfl, xloop_ok, by simp [xloop, xparams], h6, rfl, by simp, by simp, rfl⟩

example : ∃ rs m p e a f b out, Session (calls p xinputs) rs m ∧ Regular (calls p xinputs) rs ∧
    (known (calls p xinputs) rs).params = some p ∧ LoopOk p.position.loop ∧ strokeOf (calls p xinputs) rs = e :: (a ++ f :: b) ∧
    f.input.eventType = .up ∧ f.results = some out := by
  obtain ⟨rs, m, h1, h2, h3, h4, h5⟩ := xstroke xloop xloop_valid rfl
  obtain ⟨o₁, o₂, o₃, o₄, h6⟩ := xevents h4 h5
  exact ⟨rs, m, xloop, _, [_, _], _, [], _, h1, h2, h3, xloop_ok, h6, rfl, rfl⟩

/-- Parameters without a limit on the outputs per call. -/
noncomputable def xunlimited : StrokeModelParams XR XR :=
  { xparams with sampling := { xparams.sampling with maxOutputsPerCall := 2147483647 } }

theorem xunlimited_valid : validateStrokeModelParams xunlimited = .ok := by unfold xunlimited xparams; valid

/-- C19 fails if max_outputs_per_call is the largest int: a Move so late that more steps would be needed is accepted with fewer. -/
theorem C19_refuted : ¬ ∀ (ops : List (Op XR XR)) (rs : List (Response XR XR)) (m : StrokeModeler XR XR) (p : StrokeModelParams XR XR),
    Session ops rs m → Regular ops rs → (known ops rs).params = some p → p.position.loop.isEnabled = false → strokeOf ops rs ≠ [] →
    ∃ (rate : ℝ) (ts : List ℝ), p.sampling.minOutputRate = fin rate ∧
      (resultsOf (strokeOf ops rs)).map (·.time) = ts.map fin ∧ ts.IsChain fun a b => b - a ≤ 1 / rate := by
  intro hall
  let i : Input XR XR := xin .down (pt 0 0) 0 0 0 0
  let j : Input XR XR := xin .move (pt 0 0) (2 ^ 32 / 180) 0 0 0
  obtain ⟨rs, m, h1, h2, h3, h4, h5⟩ := exists_stroke (i := i) (is := [j]) xunlimited_valid rfl
    ⟨isFinite_fin _, isFinite_fin _, isFinite_fin _⟩ (good_fin _)
    ⟨fits_xin (by norm_num), .inl rfl, good_fin _, .inl rfl, trivial⟩ (by simp)
  generalize hes : strokeOf (calls xunlimited [i, j]) rs = es at h4 h5
  match es, h4, h5 with
  | [⟨_, ri⟩, ⟨_, rj⟩], h4, h5 =>
    simp only [List.map_cons, List.map_nil, List.cons.injEq, and_true] at h4
    obtain ⟨rfl, rfl⟩ := h4
    obtain ⟨P, m₀, hP, hv, hc, _⟩ := h1.stroke h2 h3 hes
    obtain ⟨rate, ts, hrate, hts, hch⟩ := hall _ _ _ _ h1 h2 h3 rfl (by rw [hes]; simp)
    have hP180 : P.rate = 180 := by have := hP.rate; simpa [xunlimited, xparams] using this.symm
    have hrate : rate = 180 := by simpa [xunlimited, xparams] using hrate.symm
    rw [hes, course_times hP hv hc (.inl rfl)] at hts
    obtain ⟨out, hrj⟩ := Option.isSome_iff_exists.1 (h5 ⟨j, rj⟩ (by simp))
    obtain ⟨tips, prev, h6, h7, h8, h9, h10, h11, _⟩ := course_answer (a := []) (b := []) (f := ⟨j, rj⟩) hP hv hc hrj
    have ht0 : toReal i.time = 0 := rfl
    have htj : touch j = .move (toPoint j.position) (2 ^ 32 / 180) := rfl
    have htold : Ref.told P (toPoint i.position) (toReal i.time) [touch j] =
        (Ref.start (toPoint i.position) (toReal i.time)).tip :: tips := by
      have := Ref.told_append (P := P) (toPoint i.position) (toReal i.time) [] (touch j)
      rw [List.nil_append] at this
      rw [this]
      have h6' : (Ref.advance P (Ref.after P (Ref.start (toPoint i.position) (toReal i.time)) []) (touch j)).2 = some tips := h6
      rw [h6']
      rfl
    have hts : ts = (Ref.told P (toPoint i.position) (toReal i.time) [touch j]).map Ref.Tip.time := by
      apply List.map_injective_iff.2 (fun a b h => fin_inj.1 h : Function.Injective fin)
      rw [← hts, List.map_map]; rfl
    rw [hts, List.isChain_map, htold] at hch
    rw [show touch (Event.input ⟨j, rj⟩) = touch j from rfl, htj] at h6
    obtain ⟨n, hn, _, rfl, _⟩ := Ref.move_answer h6
    have hst : state P ⟨i, ri⟩ [] = Ref.start (toPoint i.position) (toReal i.time) := rfl
    rw [hst] at hch hn
    have hn' : n = 2147483647 := by
      rw [hn]
      unfold Ref.steps
      refine min_eq_left (le_max_of_le_left ?_)
      rw [Int.le_ceil_iff, hP180]
      simp only [Ref.start, ht0]
      norm_num
    have hcn := Ref.follow_chain (P := P) (q := (Ref.start (toPoint i.position) (toReal i.time)).tip)
      (a := (Ref.start (toPoint i.position) (toReal i.time)).anchor)
      (b := ((Ref.smooth P (Ref.start (toPoint i.position) (toReal i.time)) (toPoint j.position) (2 ^ 32 / 180)).2, 2 ^ 32 / 180))
      (n := n.toNat) rfl
    generalize hfl : Ref.follow P _ _ = l at hch hcn
    cases l with
    | nil =>
      have := congrArg List.length hfl
      rw [Ref.follow_length, Ref.upsample_length, hn'] at this
      simp at this
    | cons c l =>
      rw [List.isChain_cons_cons] at hch hcn
      have h1 := hch.1
      rw [hcn.1, hn', hrate, show ((2147483647 : ℤ).toNat : ℝ) = 2147483647 by norm_cast] at h1
      simp only [Ref.start, ht0] at h1
      norm_num at h1
  | [], h4, _ => simp at h4
  | [_], h4, _ => simp at h4
  | _ :: _ :: _ :: _, h4, _ => simp at h4

end Examples
end Ink
