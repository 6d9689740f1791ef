import Verif.Exact.Answer
import Verif.Examples.Exact
/-!
# Where the results of an input come from, on exact numbers: C24, C25, C26, C33, C34, C37
-/
namespace Ink
open Scalar Arith XR
noncomputable section

variable {ops : List (Op XR XR)} {rs : List (Response XR XR)} {m : StrokeModeler XR XR} {p : StrokeModelParams XR XR}
  {e : Event XR XR} {a b : List (Event XR XR)} {f : Event XR XR} {out : List (Result XR XR)}

/-- The inputs of a stroke up to and including that of `f`. -/
def soFar (e : Event XR XR) (a : List (Event XR XR)) (f : Event XR XR) : List (Input XR XR) := (e :: a ++ [f]).map Event.input

/-- C37: the whole story of the results of an input after the Down. `tips` are the states of the spring model of the README for
this input; there are as many results, in the same order, and `Explained` tells how each comes about: the tip state is
projected to the samples held, which are those of all inputs so far (`polyline`) except for the first `j`, and the
result lies between the sample at the projection and the tip state. -/
theorem C37_results_explained_exact (h : Session ops rs m) (hr : Regular ops rs) (hp : (known ops rs).params = some p)
    (hl : LoopOk p.position.loop) (hs : strokeOf ops rs = e :: (a ++ f :: b)) (hout : f.results = some out) :
    ∃ P tips j, Realizes p P ∧ P.Valid ∧ (Ref.advance P (state P e a) (touch f.input)).2 = some tips ∧
      j < (polyline P e (a ++ [f])).length ∧ Held p.stylus ((polyline P e (a ++ [f])).map Ref.Tip.time) j ∧
      Explained p.stylus.useStrokeNormalProjection p.position.loop ((polyline P e (a ++ [f])).drop j)
        ((soFar e a f).drop j) (soFar e a f) (resultsOf a) (before (state P e a) f.input) tips out := by
  obtain ⟨P, m₀, h1, h2, hc, _⟩ := h.stroke hr hp hs
  obtain ⟨tips, j, h3, h4, h5⟩ := course_explained h1 h2 hc hl hout
  refine ⟨P, tips, j, h1, h2, h3, ?_, h4, h5⟩
  have := h4.lt hc.valid (by rw [Ne, List.map_eq_nil_iff, ← List.length_eq_zero_iff, polyline_length]; simp)
  rwa [List.length_map] at this

/-- C37: position, velocity and acceleration of each result lie on the segment between a point of the polyline of the raw
samples and the modeled tip state, at the same ratio; the time is exactly that of the tip state; there is one result per
tip state. Without mitigation all of them are those of the tip state. -/
theorem C37_between_exact (h : Session ops rs m) (hr : Regular ops rs) (hp : (known ops rs).params = some p)
    (hl : LoopOk p.position.loop) (hs : strokeOf ops rs = e :: (a ++ f :: b)) (hout : f.results = some out) :
    ∃ P tips, Realizes p P ∧ P.Valid ∧ (Ref.advance P (state P e a) (touch f.input)).2 = some tips ∧ out.length = tips.length ∧
      ∀ (k : ℕ) (r : Result XR XR), out[k]? = some r → ∃ q raw c, tips[k]? = some q ∧ 0 ≤ c ∧ c ≤ 1 ∧
        (p.position.loop.isEnabled = false → c = 1) ∧
        (∃ x y, [x, y] <:+: polyline P e (a ++ [f]) ∧ ∃ u, 0 ≤ u ∧ u ≤ 1 ∧ raw = Ref.between x y u) ∧
        r.position = V (Ref.lerp raw.pos q.pos c) ∧ r.velocity = V (Ref.lerp raw.vel q.vel c) ∧
        r.acceleration = V (Ref.lerp raw.acc q.acc c) ∧ r.time = fin q.time := by
  obtain ⟨P, tips, j, h1, h2, h3, hj, _, h5⟩ := C37_results_explained_exact h hr hp hl hs hout
  refine ⟨P, tips, h1, h2, h3, h5.length, fun k r hk => ?_⟩
  have hlen : 2 ≤ (polyline P e (a ++ [f])).length := by rw [polyline_length]; simp
  obtain ⟨t, q, _, h6, h7, h8⟩ := h5.get hk
  by_cases hb : p.stylus.useStrokeNormalProjection = false ∧ Bare (soFar e a f)
  · obtain ⟨x, y, u, i1, i2, i3, _⟩ := pair_of_foot hlen hj (pos := ((polyline P e (a ++ [f])).drop j).map Ref.Tip.pos) (by simp) 0
      (foot := none) (by simp)
    refine ⟨q, _, 1, h6, zero_le_one, le_rfl, fun _ => rfl, ⟨x, y, i1, u, i2, i3, rfl⟩, ?_⟩
    rw [h7 hb]
    simp [bareResult, Ref.lerp]
  · obtain ⟨foot, c, hx⟩ := h8 hb
    obtain ⟨x, y, u, i1, i2, i3, _, i5, _⟩ := pair_of_foot hlen hj (pos := ((polyline P e (a ++ [f])).drop j).map Ref.Tip.pos) (by simp)
      q.pos (foot := foot) (fun k u hku => by have := hx.proj; rw [hku] at this; exact this.on)
    refine ⟨q, _, c, h6, hx.nonneg, hx.le, hx.off, ⟨x, y, i1, u, i2, i3, rfl⟩, ?_⟩
    have hk := hx.kin
    simp only [Result.kin, tip, TipState.mk.injEq, Ref.between, Ref.footSample, i5] at hk
    refine ⟨hk.1, hk.2.1, hk.2.2.1, hk.2.2.2.trans ?_⟩
    simp [Ref.lerp]

theorem Bare.not {all : List (Input XR XR)} {g : Input XR XR → XR} (hg : ∀ i ∈ all, ∃ v, 0 ≤ v ∧ g i = fin v)
    (h : ∃ i ∈ all, isUnknown (g i) = true) : False := by
  obtain ⟨i, hi, hu⟩ := h
  obtain ⟨v, h0, hv⟩ := hg i hi
  simp [isUnknown, hv, not_lt.2 h0] at hu

/-- C26: every result of an input after the Down gets its stylus data from two consecutive inputs of the stroke, a fraction `u` of
the way from the one to the other, which is the same for pressure, tilt and orientation; orientation takes the shorter way
round (C25). (A field that some input so far lacks is -1, see C23; infinite values are not covered.) -/
theorem C26_stylus_between_exact (h : Session ops rs m) (hr : Regular ops rs) (hp : (known ops rs).params = some p)
    (hl : LoopOk p.position.loop) (hs : strokeOf ops rs = e :: (a ++ f :: b)) (hout : f.results = some out)
    {r : Result XR XR} (hmem : r ∈ out) :
    ∃ (i i' : Input XR XR) (u : ℝ), [i, i'] <:+: soFar e a f ∧ 0 ≤ u ∧ u ≤ 1 ∧
      ((∀ i ∈ soFar e a f, ∃ v, 0 ≤ v ∧ i.pressure = fin v) →
        ∃ v v', i.pressure = fin v ∧ i'.pressure = fin v' ∧ r.pressure = fin ((1 - u) * v + u * v')) ∧
      ((∀ i ∈ soFar e a f, ∃ v, 0 ≤ v ∧ i.tilt = fin v) →
        ∃ v v', i.tilt = fin v ∧ i'.tilt = fin v' ∧ r.tilt = fin ((1 - u) * v + u * v')) ∧
      ((∀ i ∈ soFar e a f, ∃ v, 0 ≤ v ∧ i.orientation = fin v) →
        ∃ v v' θ, i.orientation = fin v ∧ i'.orientation = fin v' ∧ r.orientation = fin θ ∧ Ref.OnArc v v' u θ) := by
  obtain ⟨P, tips, j, h1, h2, h3, hj, _, h5⟩ := C37_results_explained_exact h hr hp hl hs hout
  obtain ⟨k, hk⟩ := List.mem_iff_getElem?.1 hmem
  obtain ⟨t, q, _, h6, h7, h8⟩ := h5.get hk
  have hlen : (soFar e a f).length = (polyline P e (a ++ [f])).length := by rw [polyline_length]; simp [soFar]
  have hlen2 : 2 ≤ (soFar e a f).length := by simp [soFar]
  rw [← hlen] at hj
  have hmem : ∀ {x y : Input XR XR}, [x, y] <:+: soFar e a f → x ∈ soFar e a f ∧ y ∈ soFar e a f :=
    fun h => ⟨h.subset (by simp), h.subset (by simp)⟩
  by_cases hb : p.stylus.useStrokeNormalProjection = false ∧ Bare (soFar e a f)
  · obtain ⟨x, y, u, i1, i2, i3, _⟩ := pair_of_foot hlen2 hj (pos := ((polyline P e (a ++ [f])).drop j).map Ref.Tip.pos) (by simp [hlen]) 0
      (foot := none) (by simp)
    exact ⟨x, y, u, i1, i2, i3, fun hg => (Bare.not hg hb.2.1).elim, fun hg => (Bare.not hg hb.2.2.1).elim,
      fun hg => (Bare.not hg hb.2.2.2).elim⟩
  · obtain ⟨foot, c, hx⟩ := h8 hb
    obtain ⟨x, y, u, i1, i2, i3, i4, _, i6⟩ := pair_of_foot hlen2 hj (pos := ((polyline P e (a ++ [f])).drop j).map Ref.Tip.pos)
      (by simp [hlen]) q.pos (foot := foot) (fun k u hku => by have := hx.proj; rw [hku] at this; exact this.on)
    obtain ⟨mx, my⟩ := hmem i1
    have key : ∀ (g : Input XR XR → XR) (w : XR), (∀ i ∈ soFar e a f, ∃ v, 0 ≤ v ∧ g i = fin v) →
        w = fin (Ref.value (((polyline P e (a ++ [f])).drop j).map Ref.Tip.pos) q.pos foot (((soFar e a f).drop j).map fun i => toReal (g i))) →
        ∃ v v', g x = fin v ∧ g y = fin v' ∧ w = fin ((1 - u) * v + u * v') := by
      intro g w hg hw
      obtain ⟨v, _, hv⟩ := hg x mx
      obtain ⟨v', _, hv'⟩ := hg y my
      refine ⟨v, v', hv, hv', ?_⟩
      rw [hw, i4 fun i => toReal (g i), hv, hv']
      simp only [toReal, Ref.lerp, smul_eq_mul]
      congr 1; ring
    refine ⟨x, y, u, i1, i2, i3, fun hg => key _ _ hg (hx.pressure hg), fun hg => key _ _ hg (hx.tilt hg), fun hg => ?_⟩
    obtain ⟨v, _, hv⟩ := hg x mx
    obtain ⟨v', _, hv'⟩ := hg y my
    obtain ⟨θ, hθ, harc⟩ := hx.orientation hg
    have := i6 (fun i => toReal i.orientation) θ harc
    simp only [hv, hv', toReal] at this
    exact ⟨v, v', θ, hv, hv', hθ, this⟩

/-- C24: pressures stay within the bounds of the inputs; tilt likewise. -/
theorem C24_pressure_bounds_exact (h : Session ops rs m) (hr : Regular ops rs) (hp : (known ops rs).params = some p)
    (hl : LoopOk p.position.loop) (hs : strokeOf ops rs = e :: (a ++ f :: b)) (hout : f.results = some out) {lo hi : ℝ} (h0 : 0 ≤ lo)
    {r : Result XR XR} (hmem : r ∈ out) :
    ((∀ i ∈ soFar e a f, ∃ v, lo ≤ v ∧ v ≤ hi ∧ i.pressure = fin v) → ∃ w, r.pressure = fin w ∧ lo ≤ w ∧ w ≤ hi) ∧
    ((∀ i ∈ soFar e a f, ∃ v, lo ≤ v ∧ v ≤ hi ∧ i.tilt = fin v) → ∃ w, r.tilt = fin w ∧ lo ≤ w ∧ w ≤ hi) := by
  obtain ⟨i, i', u, h1, h2, h3, h4, h5, _⟩ := C26_stylus_between_exact h hr hp hl hs hout hmem
  have mx : i ∈ soFar e a f := h1.subset (by simp)
  have my : i' ∈ soFar e a f := h1.subset (by simp)
  have key : ∀ (g : Input XR XR → XR) (w : XR), (∀ i ∈ soFar e a f, ∃ v, lo ≤ v ∧ v ≤ hi ∧ g i = fin v) →
      ((∀ i ∈ soFar e a f, ∃ v, 0 ≤ v ∧ g i = fin v) → ∃ v v', g i = fin v ∧ g i' = fin v' ∧ w = fin ((1 - u) * v + u * v')) →
      ∃ x, w = fin x ∧ lo ≤ x ∧ x ≤ hi := by
    intro g w hg hw
    obtain ⟨v, v', e1, e2, e3⟩ := hw fun i hi => by
      obtain ⟨v, h1, _, h3⟩ := hg i hi
      exact ⟨v, h0.trans h1, h3⟩
    obtain ⟨v₁, b1, b2, b3⟩ := hg i mx
    obtain ⟨v₂, c1, c2, c3⟩ := hg i' my
    obtain rfl := fin_inj.1 (e1.symm.trans b3)
    obtain rfl := fin_inj.1 (e2.symm.trans c3)
    refine ⟨_, e3, ?_, ?_⟩ <;> nlinarith
  exact ⟨fun hg => key _ _ hg h4, fun hg => key _ _ hg h5⟩

/-- C25: interpolation of orientations returns a direction in [0, 2π] on the shorter arc. -/
theorem C25_interpAngle_exact (x y : ℝ) {u : ℝ} (h0 : 0 ≤ u) (h1 : u ≤ 1) :
    ∃ θ, interpAngle (fin x : XR) (fin y) (fin u) = .ok (fin θ) ∧ Ref.OnArc x y u θ ∧
      (u = 0 → ∃ n : ℤ, θ = x + n * (2 * Real.pi)) ∧ (u = 1 → ∃ n : ℤ, θ = y + n * (2 * Real.pi)) := by
  obtain ⟨θ, h2, h3⟩ := interpAngle_arc x y h0 h1
  refine ⟨θ, h2, h3, ?_, ?_⟩
  · rintro rfl
    obtain ⟨δ, m, n, _, _, h4⟩ := h3.eq
    exact ⟨n, by rw [h4]; ring⟩
  · rintro rfl
    obtain ⟨δ, m, n, _, h5, h4⟩ := h3.eq
    exact ⟨m + n, by rw [h4]; push_cast; linarith⟩

/-- C33: in closest-point mode, if some stylus field is known for all inputs of the stroke so far, the results are at the tip states,
and their stylus data are those at the point of the polyline of the samples held that is closest to the tip. Only if a single sample
is held (max_input_samples = 1) there is no such point, and its values are reported. -/
theorem C33_closest_point_exact (h : Session ops rs m) (hr : Regular ops rs) (hp : (known ops rs).params = some p)
    (hn : p.stylus.useStrokeNormalProjection = false) (hs : strokeOf ops rs = e :: (a ++ f :: b)) (hout : f.results = some out)
    (hb : ¬ Bare (soFar e a f)) :
    ∃ (poss : List ℂ) (ins : List (Input XR XR)), ins = (soFar e a f).drop ((soFar e a f).length - p.stylus.maxInputSamples.toNat) ∧
      (∃ P, Realizes p P ∧ P.Valid ∧
        poss = (((polyline P e (a ++ [f])).map Ref.Tip.pos).drop ((soFar e a f).length - p.stylus.maxInputSamples.toNat))) ∧
      ∀ r ∈ out, ∃ (x : ℂ) (foot : Option (ℕ × ℝ)), r.position = V x ∧
        (match foot with
          | none => ins.length = 1
          | some (k, u) => Ref.Closest poss x k u) ∧
        ((∀ i ∈ soFar e a f, ∃ v, 0 ≤ v ∧ i.pressure = fin v) →
          r.pressure = fin (Ref.value poss x foot (ins.map fun i => toReal i.pressure))) ∧
        ((∀ i ∈ soFar e a f, ∃ v, 0 ≤ v ∧ i.tilt = fin v) →
          r.tilt = fin (Ref.value poss x foot (ins.map fun i => toReal i.tilt))) ∧
        ((∀ i ∈ soFar e a f, ∃ v, 0 ≤ v ∧ i.orientation = fin v) →
          ∃ θ, r.orientation = fin θ ∧ Ref.arcValue poss x foot (ins.map fun i => toReal i.orientation) θ) := by
  have hval : p.position.loop.isEnabled = false := by
    obtain ⟨_, _, _, _, hc, _⟩ := h.stroke hr hp hs
    have := (validParts hc.valid).1
    rw [hn] at this
    simpa using this
  obtain ⟨P, tips, j, h1, h2, h3, hj, h4, h5⟩ := C37_results_explained_exact h hr hp (.inl hval) hs hout
  have hlen : (soFar e a f).length = (polyline P e (a ++ [f])).length := by rw [polyline_length]; simp [soFar]
  have hj' := h4.closest hn
  rw [List.length_map, ← hlen] at hj'
  refine ⟨_, _, rfl, ⟨P, h1, h2, rfl⟩, fun r hmem => ?_⟩
  rw [← hj', ← List.map_drop]
  obtain ⟨k, hk⟩ := List.mem_iff_getElem?.1 hmem
  obtain ⟨t, q, _, h6, h7, h8⟩ := h5.get hk
  obtain ⟨foot, c, hx⟩ := h8 (fun h => hb h.2)
  obtain rfl := hx.off hval
  refine ⟨q.pos, foot, ?_, ?_, hx.pressure, hx.tilt, hx.orientation⟩
  · have := congrArg TipState.position hx.kin
    simpa [Result.kin, tip, Ref.between, Ref.lerp] using this
  · have := hx.proj
    rw [hn] at this
    unfold Ref.Foot at this
    cases foot with
    | none => simpa [hlen] using this
    | some ku => exact this

/-- C34: in normal-projection mode, let `n` be the stroke normal at the tip state `q` of a result. The projection is a point `x` of
the polyline of the samples held on the line through the tip along `n`; no other crossing on the same side is nearer. It is on the
right (`s < 0`) if there is no crossing on the left, or if there are crossings on both sides and the acceleration points to the
left. Segments along the line do not count. If nothing crosses the line, the values of the first or the last sample held are
reported, whichever is closer. -/
theorem C34_normal_projection_exact (h : Session ops rs m) (hr : Regular ops rs) (hp : (known ops rs).params = some p)
    (hl : LoopOk p.position.loop) (hn : p.stylus.useStrokeNormalProjection = true) (hs : strokeOf ops rs = e :: (a ++ f :: b))
    (hout : f.results = some out) :
    ∃ P tips j, Realizes p P ∧ P.Valid ∧ (Ref.advance P (state P e a) (touch f.input)).2 = some tips ∧
      Held p.stylus ((polyline P e (a ++ [f])).map Ref.Tip.time) j ∧
      ∀ (k : ℕ) (r : Result XR XR), out[k]? = some r → ∃ (t : ℝ) (q : Ref.Tip) (foot : Option (ℕ × ℝ)) (c : ℝ),
        (before (state P e a) f.input :: tips.map Ref.Tip.time)[k]? = some t ∧ tips[k]? = some q ∧ 0 ≤ c ∧ c ≤ 1 ∧
        r.kin = tip (Ref.between (Ref.footSample ((polyline P e (a ++ [f])).drop j) q foot) q c) ∧
        let poss := ((polyline P e (a ++ [f])).drop j).map Ref.Tip.pos
        ∀ n, Ref.normal q t = some n →
          (foot = none → ∀ k u s, ¬ Ref.Crossing poss q.pos n k u s) ∧
          ∀ k u, foot = some (k, u) → ∃ s, Ref.along poss k u = q.pos + s • n ∧ Ref.Crossing poss q.pos n k u s ∧
            (∀ k' u' s', Ref.Crossing poss q.pos n k' u' s' → (s' < 0 ↔ s < 0) → |s| ≤ |s'|) ∧
            (s < 0 ↔ (∃ k' u' s', Ref.Crossing poss q.pos n k' u' s' ∧ s' < 0) ∧
              ((∀ k' u' s', Ref.Crossing poss q.pos n k' u' s' → s' < 0) ∨ 0 < (inner ℝ n q.acc : ℝ))) := by
  obtain ⟨P, tips, j, h1, h2, h3, hj, h4, h5⟩ := C37_results_explained_exact h hr hp hl hs hout
  refine ⟨P, tips, j, h1, h2, h3, h4, fun k r hk => ?_⟩
  obtain ⟨t, q, h6, h7, _, h8⟩ := h5.get hk
  obtain ⟨foot, c, hx⟩ := h8 (fun h => by rw [hn] at h; exact absurd h.1 (by simp))
  refine ⟨t, q, foot, c, h6, h7, hx.nonneg, hx.le, hx.kin, ?_⟩
  intro poss n hnorm
  have hproj := hx.proj
  rw [hn, hnorm] at hproj
  unfold Ref.Foot at hproj
  refine ⟨?_, ?_⟩
  · rintro rfl k u s hc
    exact hproj ⟨k, u, s, hc, trivial⟩
  · rintro k u rfl
    simp only at hproj
    split at hproj
    · rename_i hside
      obtain ⟨s, hs1, hs2, hs3⟩ := hproj
      refine ⟨s, hs1.eq, hs1, fun k' u' s' hc hiff => (hs3 k' u' s' hc (hiff.2 hs2)).1, ?_⟩
      refine ⟨fun _ => ?_, fun _ => hs2⟩
      obtain ⟨⟨k', u', s', hc, hs'⟩, hor⟩ := hside
      refine ⟨⟨k', u', s', hc, hs'⟩, hor.imp (fun hno k' u' s' hc => ?_) id⟩
      by_contra hneg
      exact hno ⟨k', u', s', hc, not_lt.1 hneg⟩
    · rename_i hside
      obtain ⟨s, hs1, hs2, hs3⟩ := hproj
      refine ⟨s, hs1.eq, hs1, fun k' u' s' hc hiff => (hs3 k' u' s' hc (not_lt.1 fun h => not_lt.2 hs2 (hiff.1 h))).1, ?_⟩
      refine ⟨fun h => absurd h (not_lt.2 hs2), fun ⟨⟨k', u', s', hc, hs'⟩, hor⟩ => ?_⟩
      refine absurd ⟨⟨k', u', s', hc, hs'⟩, hor.imp (fun hall => ?_) id⟩ hside
      rintro ⟨k', u', s', hc, hs'⟩
      exact absurd (hall k' u' s' hc) (not_lt.2 hs')

section Examples
open Ex

theorem soFar_xin {P : Input XR XR → Prop} {o₁ o₂ o₃ o₄ : Option (List (Result XR XR))} (h : ∀ i ∈ xinputs, P i) :
    ∀ i ∈ soFar ⟨xin .down (pt 3 4) 0 0.2 1 2, o₁⟩ [⟨xin .move (pt 3.2 4.2) (1 / 30) 0.3 1.1 2.1, o₂⟩,
      ⟨xin .move (pt 3.5 4.2) (2 / 30) 0.4 1.2 2.2, o₃⟩] ⟨xin .up (pt 3.6 4.1) (3 / 30) 0.5 1.3 2.3, o₄⟩, P i := h

theorem xinputs_known (i : Input XR XR) (hi : i ∈ xinputs) : (∃ v, 0 ≤ v ∧ i.pressure = fin v) ∧ (∃ v, 0 ≤ v ∧ i.tilt = fin v) ∧
    (∃ v, 0 ≤ v ∧ i.orientation = fin v) ∧ ∃ v, 0.2 ≤ v ∧ v ≤ 0.5 ∧ i.pressure = fin v := by
  simp only [xinputs, List.mem_cons, List.not_mem_nil, or_false] at hi
  rcases hi with rfl | rfl | rfl | rfl <;>
    exact ⟨⟨_, by norm_num, rfl⟩, ⟨_, by norm_num, rfl⟩, ⟨_, by norm_num, rfl⟩, ⟨_, by norm_num, by norm_num, rfl⟩⟩

/-- The theorems apply, with and without loop mitigation, to a stroke of four inputs that report all stylus data. -/
example (on : Bool) : ∃ p rs m e a f out, Session (calls p xinputs) rs m ∧ Regular (calls p xinputs) rs ∧
    (known (calls p xinputs) rs).params = some p ∧ LoopOk p.position.loop ∧ p.position.loop.isEnabled = on ∧
    p.stylus.useStrokeNormalProjection = on ∧
    strokeOf (calls p xinputs) rs = e :: (a ++ [f]) ∧ a.length = 2 ∧ f.input.eventType = .up ∧ f.results = some out ∧
    (∀ i ∈ soFar e a f, ∃ v, 0 ≤ v ∧ i.pressure = fin v) ∧ (∀ i ∈ soFar e a f, ∃ v, 0 ≤ v ∧ i.tilt = fin v) ∧
    (∀ i ∈ soFar e a f, ∃ v, 0 ≤ v ∧ i.orientation = fin v) ∧
    (∀ i ∈ soFar e a f, ∃ v, 0.2 ≤ v ∧ v ≤ 0.5 ∧ i.pressure = fin v) ∧ ¬ Bare (soFar e a f) := by
  have hbare : ∀ {all : List (Input XR XR)}, (∀ i ∈ all, ∃ v, 0 ≤ v ∧ i.pressure = fin v) → ¬ Bare all :=
    fun h1 h2 => Bare.not h1 h2.1
  cases on with
  | false =>
    obtain ⟨rs, m, h1, h2, h3, h4, h5⟩ := xstroke xparams xparams_valid rfl
    obtain ⟨o₁, o₂, o₃, o₄, h6⟩ := xevents h4 h5
    exact ⟨xparams, rs, m, _, [_, _], _, _, h1, h2, h3, .inl rfl, rfl, rfl, h6, rfl, rfl, rfl, soFar_xin fun i hi => (xinputs_known i hi).1,
      soFar_xin fun i hi => (xinputs_known i hi).2.1, soFar_xin fun i hi => (xinputs_known i hi).2.2.1,
      soFar_xin fun i hi => (xinputs_known i hi).2.2.2, hbare (soFar_xin fun i hi => (xinputs_known i hi).1)⟩
  | true =>
    obtain ⟨rs, m, h1, h2, h3, h4, h5⟩ := xstroke xloop xloop_valid rfl
    obtain ⟨o₁, o₂, o₃, o₄, h6⟩ := xevents h4 h5
    exact ⟨xloop, rs, m, _, [_, _], _, _, h1, h2, h3, xloop_ok, rfl, rfl, h6, rfl, rfl, rfl, soFar_xin fun i hi => (xinputs_known i hi).1,
      soFar_xin fun i hi => (xinputs_known i hi).2.1, soFar_xin fun i hi => (xinputs_known i hi).2.2.1,
      soFar_xin fun i hi => (xinputs_known i hi).2.2.2, hbare (soFar_xin fun i hi => (xinputs_known i hi).1)⟩

/-- A crossing: the segment from (-1, 1) to (1, 1) and the vertical line through the origin. -/
example : Ref.Crossing [Ex.pt (-1) 1, Ex.pt 1 1] 0 Complex.I 0 (1 / 2) 1 := by
  refine ⟨⟨by simp, by norm_num, by norm_num⟩, ?_, ?_⟩
  · simp [Ref.cross, Ex.pt]
  · apply Complex.ext <;> norm_num [Ref.along, Ref.lerp, Ex.pt]

end Examples
end
end Ink
