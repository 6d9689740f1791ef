import Verif.Exact.Told
import Verif.Examples.Exact
/-!
# The modeled path on exact numbers: C27, C28, C36

Without loop mitigation the kinematic fields of the results are those of the spring model of the README.
-/
namespace Ink
open Scalar Arith XR

variable {ops ops' : List (Op XR XR)} {rs rs' : List (Response XR XR)} {m m' : StrokeModeler XR XR} {p p' : StrokeModelParams XR XR}
  {e : Event XR XR} {rest : List (Event XR XR)}

/-- C27: position, velocity, acceleration and time of the results of each input of a stroke are those of `Ref.stroke`, which is
README algorithms 1 to 4 for the same parameters and the positions and times of the inputs; exactly the Moves too far from
the last input have no results. -/
theorem C27_spring_recursion_exact (h : Session ops rs m) (hr : Regular ops rs) (hp : (known ops rs).params = some p)
    (hl : p.position.loop.isEnabled = false) (hs : strokeOf ops rs = e :: rest) :
    ∃ P : Ref.Params, Realizes p P ∧ P.Valid ∧ e.input.eventType = .down ∧
      (∀ f ∈ e :: rest, f.input.position = V (toPoint f.input.position) ∧ f.input.time = fin (toReal f.input.time)) ∧
      (e :: rest).map kins =
        (Ref.stroke P (toPoint e.input.position) (toReal e.input.time) (rest.map fun f => touch f.input)).map
          (Option.map (List.map tip)) := by
  obtain ⟨P, m₀, h1, h2, hc, _⟩ := h.stroke hr hp hs
  obtain ⟨e', rest', he, ht⟩ := course_tale h1 h2 hc
  obtain ⟨rfl, rfl⟩ := List.cons.inj he
  refine ⟨P, h1, h2, ht.down, ?_, course_kins h1 h2 hc hl⟩
  intro f hf
  rcases List.mem_cons.1 hf with rfl | hf
  · exact finiteInput_eq ht.finite
  · exact finiteInput_eq (ht.inputs f hf).1

/-- The parameters that matter for the spring model. -/
theorem XR.Realizes.congr {P : Ref.Params} (h : Realizes p P) (h1 : p.wobble = p'.wobble) (h2 : p.position = p'.position)
    (h3 : p.sampling = p'.sampling) : Realizes p' P where
  mass := by rw [← h2]; exact h.mass
  drag := by rw [← h2]; exact h.drag
  rate := by rw [← h3]; exact h.rate
  stop := by rw [← h3]; exact h.stop
  maxIter := by rw [← h3]; exact h.maxIter
  maxOut := by rw [← h3]; exact h.maxOut
  maxAngle := by rw [← h3]; exact h.maxAngle
  wobble := by rw [← h1]; exact h.wobble

/-- The part of an input that matters for the spring model. -/
def bareInput (i : Input XR XR) : EventType × Vec2 XR × XR := (i.eventType, i.position, i.time)

/-- C36: without loop mitigation neither the stylus data of the inputs nor the stylus and prediction parameters have any
influence on position, velocity, acceleration and time of the results, nor on whether there are any. -/
theorem C36_stylus_irrelevant_exact (h : Session ops rs m) (hr : Regular ops rs) (hp : (known ops rs).params = some p)
    (h' : Session ops' rs' m') (hr' : Regular ops' rs') (hp' : (known ops' rs').params = some p')
    (hl : p.position.loop.isEnabled = false) (hw : p.wobble = p'.wobble) (hpos : p.position = p'.position)
    (hsam : p.sampling = p'.sampling)
    (hi : (strokeOf ops rs).map (fun f => bareInput f.input) = (strokeOf ops' rs').map fun f => bareInput f.input) :
    (strokeOf ops rs).map kins = (strokeOf ops' rs').map kins := by
  cases hs : strokeOf ops rs with
  | nil =>
    rw [hs] at hi
    rw [List.map_eq_nil_iff.1 hi.symm]
  | cons e rest =>
    cases hs' : strokeOf ops' rs' with
    | nil => rw [hs, hs'] at hi; simp at hi
    | cons e' rest' =>
      rw [hs, hs'] at hi
      simp only [List.map_cons, List.cons.injEq] at hi
      obtain ⟨P, m₀, h1, h2, hc, _⟩ := h.stroke hr hp hs
      obtain ⟨_, m₀', _, _, hc', _⟩ := h'.stroke hr' hp' hs'
      rw [course_kins h1 h2 hc hl, course_kins (h1.congr hw hpos hsam) h2 hc' (by rw [← hpos]; exact hl)]
      obtain ⟨⟨_, hi1, hi2⟩, hi3⟩ := (by simpa [bareInput] using hi : (e.input.eventType = e'.input.eventType ∧
        e.input.position = e'.input.position ∧ e.input.time = e'.input.time) ∧ _)
      have ht : (rest.map fun f => touch f.input) = rest'.map fun f => touch f.input := by
        have : ∀ l : List (Event XR XR), (l.map fun f => touch f.input) = (l.map fun f => bareInput f.input).map fun b =>
            if b.1 = .up then .up (toPoint b.2.1) (toReal b.2.2) else .move (toPoint b.2.1) (toReal b.2.2) := by
          intro l; simp [touch, bareInput]
        rw [this, this, hi.2]
      rw [hi1, hi2, ht]

/-- C28: let `q` be the last result before an accepted Up, at `w` and time `t`. The results of the Up are those up to time `t` and
the end-of-stroke results. These are at most end_of_stroke_max_iterations many; each is strictly closer to `w` than the one
before (the first: than the last result before it), and at least the stopping distance from it; all but the last are
at least the stopping distance from `w`. If there would be no result at all, there is a single one closer than the stopping
distance to `q`. -/
theorem C28_end_of_stroke_exact (h : Session ops rs m) (hr : Regular ops rs) (hp : (known ops rs).params = some p)
    (hl : p.position.loop.isEnabled = false) {a b : List (Event XR XR)} {f : Event XR XR} (hs : strokeOf ops rs = e :: (a ++ f :: b))
    (hf : f.input.eventType = .up) {out : List (Result XR XR)} (hout : f.results = some out) :
    ∃ (w : ℂ) (t stop : ℝ) (q : Ref.Tip) (along ending : List Ref.Tip), f.input.position = V w ∧ f.input.time = fin t ∧
      p.sampling.endOfStrokeStoppingDistance = fin stop ∧ 0 < stop ∧ (resultsOf (e :: a)).getLast?.map Result.kin = some (tip q) ∧
      (∀ u ∈ along, u.time ≤ t) ∧ (∀ u ∈ ending, t < u.time) ∧ (ending.length : ℤ) ≤ p.sampling.endOfStrokeMaxIterations ∧
      (along.getLastD q :: ending).IsChain (fun a b => ‖w - b.pos‖ < ‖w - a.pos‖ ∧ stop ≤ ‖b.pos - a.pos‖) ∧
      (∀ b ∈ ending.dropLast, stop ≤ ‖w - b.pos‖) ∧
      (out.map Result.kin = (along ++ ending).map tip ∨
        along = [] ∧ ending = [] ∧ ∃ c, out.map Result.kin = [tip c] ∧ ‖c.pos - q.pos‖ < stop) := by
  obtain ⟨P, m₀, h1, h2, hc, _⟩ := h.stroke hr hp hs
  obtain ⟨tips, prev, h3, h4, h5, h6, h7, h8, _, h9⟩ := course_answer h1 h2 hc hout
  have htouch : touch f.input = .up (toPoint f.input.position) (toReal f.input.time) := by simp [touch, hf]
  rw [htouch] at h3
  obtain ⟨n, hn, hmax, path, hpath, ending, cand, hset, htips⟩ := Ref.up_answer h3
  obtain ⟨i1, i2⟩ := Ref.settle_chain h2 (toPoint f.input.position) P.maxIter (1 / P.rate) (path.getLastD (state P e a).tip)
  have i3 := Ref.settle_length (P := P) (toPoint f.input.position) P.maxIter (1 / P.rate) (path.getLastD (state P e a).tip)
  have i4 := Ref.settle_later (P := P) (toPoint f.input.position) P.maxIter (one_div_pos.2 h2.rate) (path.getLastD (state P e a).tip)
  have i5 := Ref.settle_cand h2 (toPoint f.input.position) P.maxIter (1 / P.rate) (path.getLastD (state P e a).tip)
  rw [← hset] at i1 i2 i3 i4 i5
  have hlast : (path.getLastD (state P e a).tip).time = toReal f.input.time := by
    rw [hpath, hn]; exact Ref.follow_last_time (Ref.no_step h2 h6 h7)
  rw [hlast] at i4
  refine ⟨_, _, P.stop, (state P e a).tip, path, ending, (finiteInput_eq h8).1, (finiteInput_eq h8).2, h1.stop, h2.stop, ?_, ?_, i4,
    by rw [h1.maxIter]; exact_mod_cast i3, i1, i2, ?_⟩
  · obtain ⟨m₁, h₁⟩ := hc.take (a := e :: a) (b := f :: b) (by simp)
    obtain ⟨_, ho⟩ := course_ordered h1 h2 hc
    have hm := (course_moves h1 h2 hc)
    rw [← List.getLast?_map, course_results h1 h2 h₁ hl, List.getLast?_map, Ref.told_last _ _ _ hm]
    rfl
  · rw [hpath]
    exact fun u hu => (Ref.follow_times_mem (a := (state P e a).anchor) (b := (_, _)) h7 u hu).2
  · rw [h9 hl, htips]
    split
    · rename_i h0
      obtain ⟨rfl, rfl⟩ := List.append_eq_nil_iff.1 h0
      exact .inr ⟨rfl, rfl, cand, rfl, i5 rfl⟩
    · exact .inl rfl

section Examples
open Ex

/-- The theorems apply to a stroke of four inputs. -/
example : ∃ rs m e a f out, Session (calls xparams xinputs) rs m ∧ Regular (calls xparams xinputs) rs ∧
    (known (calls xparams xinputs) rs).params = some xparams ∧ xparams.position.loop.isEnabled = false ∧
    strokeOf (calls xparams xinputs) rs = e :: (a ++ [f]) ∧ a ≠ [] ∧ f.input.eventType = .up ∧ f.results = some out := by
  obtain ⟨rs, m, h1, h2, h3, h4, h5⟩ := xstroke xparams xparams_valid rfl
  obtain ⟨o₁, o₂, o₃, o₄, h6⟩ := xevents h4 h5
  exact ⟨rs, m, _, [_, _], _, _, h1, h2, h3, rfl, h6, by simp, rfl, rfl⟩

/-- C36 applies to the same stroke modeled with stroke normals and closest points. -/
example : ∃ p p' rs rs' m m', Session (calls p xinputs) rs m ∧ Regular (calls p xinputs) rs ∧
    (known (calls p xinputs) rs).params = some p ∧ Session (calls p' xinputs) rs' m' ∧ Regular (calls p' xinputs) rs' ∧
    (known (calls p' xinputs) rs').params = some p' ∧ p.position.loop.isEnabled = false ∧ p.wobble = p'.wobble ∧
    p.position = p'.position ∧ p.sampling = p'.sampling ∧ p.stylus ≠ p'.stylus ∧
    (strokeOf (calls p xinputs) rs).map (fun f => bareInput f.input) =
      (strokeOf (calls p' xinputs) rs').map (fun f => bareInput f.input) ∧ (strokeOf (calls p xinputs) rs).length = 4 := by
  obtain ⟨rs, m, h1, h2, h3, h4, h5⟩ := xstroke xparams xparams_valid rfl
  have hv : validateStrokeModelParams { xparams with stylus := xloop.stylus } = .ok := by unfold xloop xparams; valid
  obtain ⟨rs', m', h1', h2', h3', h4', h5'⟩ := xstroke { xparams with stylus := xloop.stylus } hv rfl
  refine ⟨xparams, _, rs, rs', m, m', h1, h2, h3, h1', h2', h3', rfl, rfl, rfl, rfl, by simp [xparams, xloop], ?_, ?_⟩
  · have := congrArg (List.map bareInput) (h4.trans h4'.symm)
    rwa [List.map_map, List.map_map] at this
  · have := congrArg List.length h4
    simpa [xinputs] using this

end Examples
end Ink
