import Verif.Lemmas.Drag
import Verif.Props.Swing
import Verif.Props.Foresee
import Verif.Props.Settle
import Verif.Props.Motion
/-!
# A spring with much drag: C74, C75, C76
-/
namespace Ink
open Scalar Arith XR
noncomputable section
open Classical

variable {ops : List (Op XR XR)} {rs : List (Response XR XR)} {m m' : StrokeModeler XR XR} {p : StrokeModelParams XR XR}
  {e : Event XR XR} {b : List (Event XR XR)}

/-- There is enough drag for the spring not to swing, and the output rate is at least the drag constant. -/
structure MuchDrag (p : StrokeModelParams XR XR) (M d : ℝ) : Prop where
  mass : p.position.springMassConstant = fin M
  drag : p.position.dragConstant = fin d
  enough : 4 ≤ M * d ^ 2
  rate : ∃ r, p.sampling.minOutputRate = fin r ∧ d ≤ r
  cap : p.sampling.maxOutputsPerCall < 2147483647

theorem MuchDrag.damped {M d : ℝ} (h : MuchDrag p M d) {P : Ref.Params} (hr : Realizes p P) :
    P.mass = M ∧ P.drag = d ∧ P.Damped ∧ P.maxOut < 2147483647 := by
  obtain ⟨r, h1, h2⟩ := h.rate
  have e1 := fin_inj.1 (hr.mass.symm.trans h.mass)
  have e2 := fin_inj.1 (hr.drag.symm.trans h.drag)
  have e3 := fin_inj.1 (hr.rate.symm.trans h1)
  have e4 := h.cap
  rw [hr.maxOut] at e4
  exact ⟨e1, e2, ⟨by rw [e1, e2]; exact h.enough, by rw [e2, e3]; exact h2⟩, e4⟩

/-- The inputs are in `S`; and in order of time, if wobble smoothing is enabled. -/
structure Within (p : StrokeModelParams XR XR) (S : Set ℂ) (es : List (Event XR XR)) : Prop where
  mem : ∀ f ∈ es, ∃ y ∈ S, f.input.position = V y
  order : p.wobble.isEnabled = true → (es.map Event.input).Pairwise (fun i j => (i.time ≤ᵇ j.time) = true)

/-- An invariant of the tip for a stroke with inputs in a convex set. -/
theorem course_inside {P : Ref.Params} (h1 : Realizes p P) (h2 : P.Valid) (hcap : P.maxOut < 2147483647) {m₀ : StrokeModeler XR XR}
    (hc : Course p (e :: b) m₀) {S : Set ℂ} (hS : Convex ℝ S) (hx : Within p S (e :: b)) {I : Ref.Tip → Prop} (hk : Ref.Kept P S I)
    (hstart : I (state P e []).tip) :
    (∀ b₁ f b₂, b = b₁ ++ f :: b₂ → (Ref.place P (state P e b₁) (touch f.input)).1 ∈ S ∧
      (∀ q ∈ polyline P e (b₁ ++ [f]), q.pos ∈ S) ∧
      ∀ tips, (Ref.advance P (state P e b₁) (touch f.input)).2 = some tips → ∀ u ∈ tips, I u) ∧
    (state P e b).anchor.1 ∈ S ∧ I (state P e b).tip := by
  have hin : ∀ f ∈ e :: b, toPoint f.input.position ∈ S := by
    intro f hf
    obtain ⟨y, h1, h2⟩ := hx.mem f hf
    rw [h2, toPoint_V]; exact h1
  have hpl : ∀ b₁ f b₂, b = b₁ ++ f :: b₂ → (Ref.place P (state P e b₁) (touch f.input)).1 ∈ S := by
    intro b₁ f b₂ hb'
    have hw := hx.order
    rw [hb'] at hc hw hin
    refine course_place h1 h2 hc hS (hin f (by simp)) fun hwb => ⟨hw hwb, fun i hi _ => hin i ?_⟩
    simp only [List.mem_cons, List.mem_append] at hi ⊢
    tauto
  refine ⟨fun b₁ f b₂ hb' => ⟨hpl b₁ f b₂ hb', ?_, ?_⟩, ?_⟩
  · refine Ref.polyline_mem (hin e (by simp)) ?_
    intro l i l' h
    obtain ⟨c₁, c₂, hc12, e1, e2⟩ := List.map_eq_append_iff.1 h
    obtain ⟨f', c₃, rfl, e3, e4⟩ := List.map_eq_cons_iff.1 e2
    rw [← e1, ← e3]
    refine hpl c₁ f' (c₃ ++ b₂) ?_
    rw [hb', ← List.singleton_append, ← List.append_assoc, hc12]; simp
  · intro tips ht
    exact course_kept_tips (a' := []) h1 h2 hc hcap hS hk (hin e (by simp)) hstart hpl hb' ht
  · obtain ⟨ho, _⟩ := course_ordered h1 h2 hc
    refine hk.after hS h2 hcap (Ref.synced_start _ _) (hin e (by simp)) hstart ho ?_
    intro l i l' h
    obtain ⟨c₁, c₂, rfl, e1, e2⟩ := List.map_eq_append_iff.1 h
    obtain ⟨f', c₃, rfl, e3, e4⟩ := List.map_eq_cons_iff.1 e2
    rw [← e1, ← e3]
    exact hpl c₁ f' c₃ rfl

/-- C74: with much drag the results of a stroke are in every convex set that contains its inputs: the pen does not swing past any of its
turns. (With wobble smoothing the inputs have to be in order of time.) -/
theorem C74_hull_exact (h : Session ops rs m) (hr : Regular ops rs) (hp : (known ops rs).params = some p) (hl : LoopOk p.position.loop)
    {M d : ℝ} (hd : MuchDrag p M d) {S : Set ℂ} (hS : Convex ℝ S) (hx : Within p S (strokeOf ops rs)) :
    ∀ r ∈ resultsOf (strokeOf ops rs), ∃ y ∈ S, r.position = V y := by
  intro r hrb
  cases hs : strokeOf ops rs with
  | nil => rw [hs] at hrb; simp [resultsOf] at hrb
  | cons e b =>
  rw [hs] at hrb hx
  obtain ⟨P, m₀, h1, h2, hc, _⟩ := h.stroke hr hp hs
  obtain ⟨-, -, hdamp, hcap⟩ := hd.damped h1
  obtain ⟨α, β, hrates⟩ := Ref.rates_of_damped h2 hdamp
  have hstart : (state P e []).tip.pos ∈ S ∧ Ref.heading α (state P e []).tip ∈ S := by
    obtain ⟨y, hy, h2⟩ := hx.mem e (by simp)
    have : (state P e []).tip.pos ∈ S := by
      simp only [state, List.map_nil, Ref.after, List.foldl_nil, Ref.start, h2, toPoint_V]; exact hy
    refine ⟨this, ?_⟩
    have h0 : (state P e []).tip.vel = 0 := rfl
    rw [Ref.heading, h0, smul_zero, add_zero]; exact this
  obtain ⟨hnear, -⟩ := course_inside h1 h2 hcap hc hS hx (Ref.kept_hull hdamp hrates hS) hstart
  have hsplit : resultsOf (e :: b) = resultsOf [e] ++ resultsOf b := by simp [resultsOf]
  rw [hsplit, List.mem_append] at hrb
  rcases hrb with hrb | hrb
  · obtain ⟨e', rest', he, ht⟩ := course_tale h1 h2 hc
    obtain ⟨rfl, rfl⟩ := List.cons.inj he
    have hf := ht.first
    simp only [resultsOf, hf, List.flatMap_cons, List.flatMap_nil, Option.getD_some, List.append_nil, List.mem_singleton] at hrb
    obtain ⟨y, hy1, hy2⟩ := hx.mem e (by simp)
    exact ⟨y, hy1, by rw [hrb]; exact hy2⟩
  · obtain ⟨b₁, f, b₂, out, hbf, hres, hrf⟩ := mem_resultsOf hrb
    rw [hbf] at hs
    obtain ⟨k, hk⟩ := List.mem_iff_getElem?.1 hrf
    rw [hbf] at hc
    obtain ⟨tips, j, h3, h4, h5⟩ := course_explained h1 h2 hc hl hres
    obtain ⟨_, hpoly, htips⟩ := hnear b₁ f b₂ hbf
    obtain ⟨t, q, _, h6, h7, h8⟩ := h5.get hk
    have hq := (htips tips h3 q (List.mem_of_getElem? h6)).1
    by_cases hbare : p.stylus.useStrokeNormalProjection = false ∧ Bare (soFar e b₁ f)
    · exact ⟨q.pos, hq, by rw [h7 hbare]; rfl⟩
    · obtain ⟨foot, w, hx'⟩ := h8 hbare
      have hlen : j < (polyline P e (b₁ ++ [f])).length := by
        have := h4.lt hc.valid (by rw [Ne, List.map_eq_nil_iff, ← List.length_eq_zero_iff, polyline_length]; simp)
        rwa [List.length_map] at this
      refine ⟨_, ?_, congrArg TipState.position hx'.kin⟩
      refine Ref.lerp_mem hS ?_ hq hx'.nonneg hx'.le
      refine Ref.value_mem hS ?_ ?_ rfl (fun k u hku => by have := hx'.proj; rw [hku] at this; exact this.on)
      · intro z hz
        obtain ⟨q', hq', rfl⟩ := List.mem_map.1 hz
        exact hpoly q' (List.mem_of_mem_drop hq')
      · rw [Ne, List.map_eq_nil_iff, List.drop_eq_nil_iff]; omega

/-- C74 for predictions with the stroke-end predictor and without loop mitigation. -/
theorem C74_prediction_exact (h : Session ops rs m) (hr : Regular ops rs) (hp : (known ops rs).params = some p)
    (hk : p.prediction = .strokeEnd) (hi : (known ops rs).prev ≠ none) (hoff : p.position.loop.isEnabled = false)
    {M d : ℝ} (hd : MuchDrag p M d) {S : Set ℂ} (hS : Convex ℝ S) (hx : Within p S (strokeOf ops rs)) {v : List (Result XR XR)}
    {r : Response XR XR} (hst : step m (.predict v) = .ok (m', r)) :
    r.status = .ok ∧ ∀ q ∈ r.results, ∃ y ∈ S, q.position = V y := by
  obtain ⟨P, e, b, h1, h2, h3, h4, h5⟩ := XR.ends h hr hp hk hi hoff hst
  refine ⟨h4, ?_⟩
  obtain ⟨_, m₀, -, -, hc, _⟩ := h.stroke hr hp h3
  rw [h3] at hx
  obtain ⟨-, -, hdamp, hcap⟩ := hd.damped h1
  obtain ⟨α, β, hrates⟩ := Ref.rates_of_damped h2 hdamp
  have hstart : (state P e []).tip.pos ∈ S ∧ Ref.heading α (state P e []).tip ∈ S := by
    obtain ⟨y, hy, h2⟩ := hx.mem e (by simp)
    have : (state P e []).tip.pos ∈ S := by
      simp only [state, List.map_nil, Ref.after, List.foldl_nil, Ref.start, h2, toPoint_V]; exact hy
    refine ⟨this, ?_⟩
    have h0 : (state P e []).tip.vel = 0 := rfl
    rw [Ref.heading, h0, smul_zero, add_zero]; exact this
  have hkept := Ref.kept_hull hdamp hrates hS
  obtain ⟨-, hanchor, hq⟩ := course_inside h1 h2 hcap hc hS hx hkept hstart
  have hend := (hkept.settle h2 hanchor P.maxIter (dt := 1 / P.rate) (one_div_pos.2 h2.rate)
    (by rw [one_div, inv_mul_cancel₀ h2.rate.ne']) hq).2
  intro q hqr
  have : q.kin ∈ r.results.map Result.kin := List.mem_map_of_mem hqr
  rw [h5] at this
  obtain ⟨u, hu, h6⟩ := List.mem_map.1 this
  exact ⟨u.pos, (hend u hu).1, (congrArg TipState.position h6).symm⟩

/-- C74 is sharp: with less drag (and without wobble smoothing, loop mitigation and resampling by angle) the pen swings past its turns.
Whatever the output rate, for all short times `h` there is a number `n` such that if after a Down at `x` the pen rests at `a` for `n`
Moves, one after each time `h`, some result is not between the two points. -/
theorem C74_swings_exact (hval : validateStrokeModelParams p = .ok) {M d f : ℝ} (hM : p.position.springMassConstant = fin M)
    (hd : p.position.dragConstant = fin d) (hf : p.sampling.minOutputRate = fin f) (hloop : p.position.loop.isEnabled = false)
    (hwobble : p.wobble.isEnabled = false) (hangle : p.sampling.maxEstimatedAngle = fin (-1)) (hlt : M * d ^ 2 < 4) :
    ∃ h₀ : ℝ, 0 < h₀ ∧ ∀ h, 0 < h → h ≤ h₀ → ∃ n : ℕ,
      ∀ {ops : List (Op XR XR)} {rs : List (Response XR XR)} {m : StrokeModeler XR XR} {e : Event XR XR} {es : List (Event XR XR)}
        {x a : ℂ} {t₀ : ℝ}, Session ops rs m → Regular ops rs → (known ops rs).params = some p → strokeOf ops rs = e :: es →
        e.input.position = V x → e.input.time = fin t₀ → x ≠ a → n ≤ es.length →
        (∀ j (h' : j < es.length), MoveAt a (t₀ + (j + 1 : ℕ) * h) es[j].input) →
        ∃ r ∈ resultsOf (e :: es), ∃ y, r.position = V y ∧ y ∉ segment ℝ x a := by
  obtain ⟨P, r0, v0⟩ := realizes_of_valid hval
  have e1 : P.mass = M := by have := r0.mass; rw [hM, fin_inj] at this; exact this.symm
  have e2 : P.drag = d := by have := r0.drag; rw [hd, fin_inj] at this; exact this.symm
  have e3 : P.rate = f := by have := r0.rate; rw [hf, fin_inj] at this; exact this.symm
  have hw := no_wobble r0 hwobble
  have ha := no_angle r0 v0 hangle
  obtain ⟨h₀, hpos, hall⟩ := swing_short (e1 ▸ v0.mass) (e2 ▸ v0.drag) (e3 ▸ v0.rate) hlt
  refine ⟨h₀, hpos, fun h h0 hle => ?_⟩
  obtain ⟨hr1, hr2⟩ := hall h h0 hle
  obtain ⟨n, hn⟩ := swing_past (e1 ▸ v0.mass) h0 hr2
  refine ⟨n, ?_⟩
  intro ops rs m e es x a t₀ hses hr hp hs hx ht hne hlen hm
  have hres := swung_stroke r0 v0 hloop hw ha h0 (by rw [e3]; exact hr1) hses hr hp hs hx ht hm
  have hmem : V (a + (swing P.mass P.drag h n).1 • (x - a)) ∈ (resultsOf (e :: es)).map (·.position) := by
    rw [hres]
    exact List.mem_map.2 ⟨n, List.mem_range.2 (by omega), rfl⟩
  obtain ⟨r, h1, h2⟩ := List.mem_map.1 hmem
  refine ⟨r, h1, _, h2, ?_⟩
  rw [e1, e2]
  rintro ⟨u, v, hu, hv, huv, heq⟩
  have hz : ((u - (swing M d h n).1 : ℝ) : ℂ) * (x - a) = 0 := by
    simp only [Complex.real_smul] at heq
    have hv' : (v : ℂ) = 1 - u := by
      have : v = 1 - u := by linarith
      rw [this]; push_cast; rfl
    rw [hv'] at heq
    push_cast
    linear_combination heq
  rcases mul_eq_zero.1 hz with h3 | h3
  · have : u - (swing M d h n).1 = 0 := by exact_mod_cast h3
    linarith
  · exact hne (sub_eq_zero.1 h3)

/-- All results of a stroke have a property that steps towards the anchor preserve. -/
theorem course_drawn {P : Ref.Params} (h1 : Realizes p P) (h2 : P.Valid) (hcap : P.maxOut < 2147483647) (hw : P.wobble = none)
    {m₀ : StrokeModeler XR XR} (hc : Course p (e :: b) m₀) {a : ℂ × ℝ} {l : List (ℂ × ℝ)} (hacc : pathOf (acceptedOf (e :: b)) = a :: l)
    {S : ℝ} (hsl : Ref.Slow S a l) {I : Ref.Tip → Prop} (hI : Ref.Drawn P {i | i.1 = Ref.anchorAt a l i.2} I)
    (hstart : I (Ref.start a.1 a.2).tip) :
    a = (toPoint e.input.position, toReal e.input.time) ∧
    ∀ u ∈ Ref.told P (toPoint e.input.position) (toReal e.input.time) (b.map fun f => touch f.input), I u := by
  have hdown : e.results ≠ none := by
    obtain ⟨e', rest, he, ht⟩ := course_tale h1 h2 hc
    obtain ⟨rfl, rfl⟩ := List.cons.inj he
    rw [ht.first]; simp
  have htr := course_track (a := []) h1 h2 hw hc
  obtain ⟨out, hout⟩ := Option.ne_none_iff_exists'.1 hdown
  have e1 : pathOf (acceptedOf (e :: b)) = (toPoint e.input.position, toReal e.input.time) :: pathOf (acceptedOf b) := by
    simp [acceptedOf, hout, pathOf]
  rw [e1] at hacc
  obtain ⟨rfl, rfl⟩ := List.cons.inj hacc
  rw [← htr] at hsl hI
  obtain ⟨ho, hmv⟩ := course_ordered h1 h2 hc
  have hall := hI.answers h2 hcap (Ref.synced_start _ _) hstart ho (by
    intro l i l' hl' hne
    rcases List.eq_nil_or_concat l' with rfl | ⟨l'', j, rfl⟩
    · exact absurd rfl hne
    · refine hmv (l ++ i :: l'') j ?_ i (by simp)
      rw [hl']; simp) hsl (fun t _ => rfl)
  refine ⟨rfl, fun u hu => ?_⟩
  simp only [Ref.told, Ref.stroke, List.flatMap_cons, Option.getD_some, List.mem_append, List.mem_singleton, List.mem_flatMap] at hu
  rcases hu with rfl | ⟨o, ho', hu⟩
  · exact hstart
  · exact hall o ho' u hu

/-- C75: with much drag and without wobble smoothing and loop mitigation, if the pen never goes back in some direction (`ℓ` is the
coordinate) then neither do the results; and their velocities do not point back. Accepted inputs at the same time have to be at the same
place. -/
theorem C75_onward_exact (h : Session ops rs m) (hr : Regular ops rs) (hp : (known ops rs).params = some p)
    (hl : p.position.loop.isEnabled = false) (hw : p.wobble.isEnabled = false) {M d : ℝ} (hd : MuchDrag p M d)
    {a : ℂ × ℝ} {l : List (ℂ × ℝ)} (hacc : pathOf (acceptedOf (strokeOf ops rs)) = a :: l) {S : ℝ} (hsl : Ref.Slow S a l)
    {ℓ : ℂ →ₗ[ℝ] ℝ} (hℓ : (a :: l).IsChain fun b c => ℓ b.1 ≤ ℓ c.1) :
    ∃ us : List Ref.Tip, (resultsOf (strokeOf ops rs)).map Result.kin = us.map tip ∧ (∀ u ∈ us, 0 ≤ ℓ u.vel) ∧
      us.Pairwise fun u u' => ℓ u.pos ≤ ℓ u'.pos := by
  cases hs : strokeOf ops rs with
  | nil => exact ⟨[], by simp [resultsOf]⟩
  | cons e b =>
  obtain ⟨P, m₀, h1, h2, hc, _⟩ := h.stroke hr hp hs
  obtain ⟨-, -, hdamp, hcap⟩ := hd.damped h1
  obtain ⟨α, β, hrates⟩ := Ref.rates_of_damped h2 hdamp
  rw [hs] at hacc
  have hstart : a.2 ≤ (Ref.start a.1 a.2).tip.time ∧ 0 ≤ ℓ (Ref.start a.1 a.2).tip.vel ∧
      ℓ (Ref.heading α (Ref.start a.1 a.2).tip) ≤ ℓ (Ref.anchorAt a l (Ref.start a.1 a.2).tip.time) := by
    simp [Ref.start, Ref.heading, Ref.anchorAt_start hsl]
  obtain ⟨rfl, hall⟩ := course_drawn h1 h2 hcap (no_wobble h1 hw) hc hacc hsl (Ref.drawn_rise hdamp hrates hsl hℓ) hstart
  obtain ⟨ho, hmv⟩ := course_ordered h1 h2 hc
  refine ⟨_, course_results h1 h2 hc hl, fun u hu => (hall u hu).2.1, ?_⟩
  have hgap := Ref.told_gap h2 (toPoint e.input.position) (toReal e.input.time) _ ho hmv
  have hstep := Ref.stepped_told (P := P) (toPoint e.input.position) (toReal e.input.time) _ hmv
  have : IsTrans Ref.Tip fun u u' => ℓ u.pos ≤ ℓ u'.pos := ⟨fun _ _ _ => le_trans⟩
  rw [← List.isChain_iff_pairwise, List.isChain_iff_getElem]
  intro k hk
  have g1 := (List.isChain_iff_getElem.1 hgap k hk).1
  have g2 := List.isChain_iff_getElem.1 hstep k hk
  have g3 := (hall _ (List.getElem_mem hk)).2.1
  rw [g2, map_add, map_smul, smul_eq_mul]
  have := mul_nonneg (sub_nonneg.2 g1) g3
  linarith

/-- C76: with much drag and without wobble smoothing and loop mitigation, if the accepted inputs never move faster than `S`, then no result
is faster than `S (1 + drag / (2 rate))`, thus `3/2 S`; and none is farther than `S (mass * drag + 1 / rate)` from where the pen was at
the time of the result. -/
theorem C76_speed_exact (h : Session ops rs m) (hr : Regular ops rs) (hp : (known ops rs).params = some p)
    (hl : p.position.loop.isEnabled = false) (hw : p.wobble.isEnabled = false) {M d rate : ℝ} (hd : MuchDrag p M d)
    (hrate : p.sampling.minOutputRate = fin rate)
    {a : ℂ × ℝ} {l : List (ℂ × ℝ)} (hacc : pathOf (acceptedOf (strokeOf ops rs)) = a :: l) {S : ℝ} (hS : 0 ≤ S) (hsl : Ref.Slow S a l) :
    ∀ r ∈ resultsOf (strokeOf ops rs), ∃ u : Ref.Tip, r.kin = tip u ∧ ‖u.vel‖ ≤ S * (1 + d / (2 * rate)) ∧
      ‖u.vel‖ ≤ 3 / 2 * S ∧ ‖u.pos - Ref.anchorAt a l u.time‖ ≤ S * (M * d + 1 / rate) := by
  intro r hmem
  cases hs : strokeOf ops rs with
  | nil => rw [hs] at hmem; simp [resultsOf] at hmem
  | cons e b =>
  obtain ⟨P, m₀, h1, h2, hc, _⟩ := h.stroke hr hp hs
  obtain ⟨hPM, hPd, hdamp, hcap⟩ := hd.damped h1
  have hPr : P.rate = rate := fin_inj.1 (h1.rate.symm.trans hrate)
  obtain ⟨α, β, hrates⟩ := Ref.rates_of_damped h2 hdamp
  rw [hs] at hacc hmem
  have hstart : a.2 ≤ (Ref.start a.1 a.2).tip.time ∧
      Ref.Keeping P α β S (Ref.anchorAt a l (Ref.start a.1 a.2).tip.time) (Ref.start a.1 a.2).tip := by
    refine ⟨le_rfl, ?_, ?_⟩
    · have := h2.rate
      have := hrates.pos'
      simp only [Ref.start, norm_zero]
      positivity
    · simp [Ref.start, Ref.heading, Ref.anchorAt_start hsl, hS]
  obtain ⟨-, hall⟩ := course_drawn h1 h2 hcap (no_wobble h1 hw) hc hacc hsl (Ref.drawn_keeping h2 hdamp hrates hS hsl) hstart
  have hkin := List.mem_map_of_mem (f := Result.kin) hmem
  rw [course_results h1 h2 hc hl] at hkin
  obtain ⟨u, hu, hut⟩ := List.mem_map.1 hkin
  have hu := (hall u hu).2
  have hspeed := Ref.keeping_speed h2 hrates hS hu
  have hdist := Ref.keeping_dist h2 hrates hS hu
  rw [hPd, hPr] at hspeed
  rw [hPM, hPd, hPr] at hdist
  refine ⟨u, hut.symm, hspeed, hspeed.trans ?_, by rw [norm_sub_rev]; exact hdist⟩
  have hr0 : 0 < rate := hPr ▸ h2.rate
  have : d / (2 * rate) ≤ 1 / 2 := by
    rw [div_le_div_iff₀ (by positivity) (by norm_num)]
    have := hdamp.rate
    rw [hPd, hPr] at this
    linarith
  nlinarith

section Examples
open Ex

/-- The parameters of the unit tests with twice the drag and without wobble smoothing. -/
def Ex.xheavy : StrokeModelParams XR XR := { xplain with position := { xplain.position with dragConstant := fin 144 } }

/-- With wobble smoothing, loop mitigation and stroke normals. -/
def Ex.xheavyLoop : StrokeModelParams XR XR := { xloop with position := { xloop.position with dragConstant := fin 144 } }

theorem Ex.xheavy_valid : validateStrokeModelParams xheavy = .ok := by unfold xheavy xplain xparams; valid

theorem Ex.xheavyLoop_valid : validateStrokeModelParams xheavyLoop = .ok := by unfold xheavyLoop xloop xparams; valid

theorem Ex.xheavy_drag : MuchDrag xheavy (11 / 32400) 144 ∧ MuchDrag xheavyLoop (11 / 32400) 144 :=
  ⟨⟨rfl, rfl, by norm_num, ⟨180, rfl, by norm_num⟩, by simp [xheavy, xplain, xparams]⟩,
    ⟨rfl, rfl, by norm_num, ⟨180, rfl, by norm_num⟩, by simp [xheavyLoop, xloop, xparams]⟩⟩

/-- C74 applies with all features on, the convex set being the smallest. -/
example : ∃ rs m, Session (calls xheavyLoop xinputs) rs m ∧ Regular (calls xheavyLoop xinputs) rs ∧
    (known (calls xheavyLoop xinputs) rs).params = some xheavyLoop ∧ LoopOk xheavyLoop.position.loop ∧
    MuchDrag xheavyLoop (11 / 32400) 144 ∧
    Within xheavyLoop (convexHull ℝ {pt 3 4, pt 3.2 4.2, pt 3.5 4.2, pt 3.6 4.1}) (strokeOf (calls xheavyLoop xinputs) rs) ∧
    (strokeOf (calls xheavyLoop xinputs) rs).length = 4 := by
  obtain ⟨rs, m, h1, h2, h3, h4, h5⟩ := xstroke xheavyLoop xheavyLoop_valid rfl
  refine ⟨rs, m, h1, h2, h3, xloop_ok, xheavy_drag.2, ⟨?_, fun _ => ?_⟩, ?_⟩
  · obtain ⟨o₁, o₂, o₃, o₄, hs⟩ := xevents h4 h5
    rw [hs]
    simp only [List.mem_cons, List.not_mem_nil, or_false, forall_eq_or_imp, forall_eq]
    refine ⟨⟨pt 3 4, subset_convexHull ℝ _ ?_, rfl⟩, ⟨pt 3.2 4.2, subset_convexHull ℝ _ ?_, rfl⟩, ⟨pt 3.5 4.2, subset_convexHull ℝ _ ?_, rfl⟩,
      ⟨pt 3.6 4.1, subset_convexHull ℝ _ ?_, rfl⟩⟩ <;> simp
  · rw [h4]
    simp [xinputs, xin]
    norm_num
  · have := congrArg List.length h4
    simpa [xinputs] using this

/-- A stroke of three inputs in progress, and a prediction. -/
theorem Ex.xopen {p : StrokeModelParams XR XR} (hv : validateStrokeModelParams p = .ok) (hsam : p.sampling = xparams.sampling)
    (hend : p.prediction = .strokeEnd) : ∃ ops rs m m' r, Session ops rs m ∧ Regular ops rs ∧ (known ops rs).params = some p ∧
      (known ops rs).prev ≠ none ∧ (strokeOf ops rs).map Event.input =
        [xin .down (pt 3 4) 0 0.2 1 2, xin .move (pt 3.2 4.2) (1 / 30) 0.3 1.1 2.1, xin .move (pt 3.5 4.2) (2 / 30) 0.4 1.2 2.2] ∧
      step m (.predict []) = .ok (m', r) := by
  have hfo : XR.Follows p (xin .down (pt 3 4) 0 0.2 1 2)
      [xin .move (pt 3.2 4.2) (1 / 30) 0.3 1.1 2.1, xin .move (pt 3.5 4.2) (2 / 30) 0.4 1.2 2.2] := by
    obtain ⟨h1, h2, h3, h4, h5, h6, h7, h8, -⟩ := xfollows p hsam
    exact ⟨h1, h2, h3, .inl rfl, h5, h6, h7, .inl rfl, trivial⟩
  obtain ⟨rs, m, h, hr, hp, hs, hres, hsafe⟩ := exists_stroke_safe hv rfl ⟨isFinite_fin _, isFinite_fin _, isFinite_fin _⟩
    (good_fin _) hfo (by simp)
  have hmp : m.params = some p := by rw [← h.known] at hp; exact hp
  obtain ⟨m', s, v', hpr, -⟩ := predict_returns tame hsafe [] (by
    intro pr hpr
    have hl := (h.predInv hr.noDisable).live _ hmp
    rw [hpr] at hl
    cases pr with
    | strokeEnd q => exact ⟨_, rfl⟩
    | kalman q => simp [StrokeModeler.makePredictor, hend, Predictor.reset] at hl)
  refine ⟨_, rs, m, m', ⟨s, v'⟩, h, hr, hp, ?_, hs, by simp only [step, hpr, Outcome.ok_bind, Outcome.pure_eq]⟩
  intro hprev
  obtain ⟨e, rest, hst⟩ := List.exists_cons_of_ne_nil (l := strokeOf _ rs) (by intro hc; rw [hc] at hs; simp at hs)
  obtain ⟨P, m₀, -, -, hc, hsame⟩ := h.stroke hr hp hst
  have hl : m₀.lastInput = none := by
    rw [← h.known] at hprev
    rw [← hsame.last]
    simpa [StrokeModeler.known] using hprev
  rcases List.eq_nil_or_concat rest with rfl | ⟨l, f, rfl⟩
  · rw [hst] at hs; simp at hs
  · have hf : f.input.eventType ≠ .up := by
      rw [hst, List.concat_eq_append] at hs
      have := congrArg List.getLast? hs
      simp only [List.map_cons, List.map_append, List.map_nil, ← List.cons_append, List.getLast?_concat] at this
      simp only [List.getLast?_cons_cons, List.getLast?_singleton, Option.some.injEq] at this
      rw [this]; simp [xin]
    rw [List.concat_eq_append, ← List.cons_append] at hc
    exact absurd hl (hc.goes_on hf)

/-- There is a prediction to which C74 applies. -/
example : ∃ ops rs m m' r, Session ops rs m ∧ Regular ops rs ∧ (known ops rs).params = some xheavy ∧ xheavy.prediction = .strokeEnd ∧
    (known ops rs).prev ≠ none ∧ xheavy.position.loop.isEnabled = false ∧ MuchDrag xheavy (11 / 32400) 144 ∧
    Within xheavy (convexHull ℝ {pt 3 4, pt 3.2 4.2, pt 3.5 4.2}) (strokeOf ops rs) ∧ step m (.predict []) = .ok (m', r) := by
  obtain ⟨ops, rs, m, m', r, h1, h2, h3, h4, h5, h6⟩ := xopen xheavy_valid rfl rfl
  refine ⟨ops, rs, m, m', r, h1, h2, h3, rfl, h4, rfl, xheavy_drag.1, ⟨?_, by simp [xheavy, xplain]⟩, h6⟩
  intro f hf
  have := List.mem_map_of_mem (f := Event.input) hf
  rw [h5] at this
  simp only [List.mem_cons, List.not_mem_nil, or_false] at this
  rcases this with h | h | h <;> rw [h]
  · exact ⟨pt 3 4, subset_convexHull ℝ _ (by simp), rfl⟩
  · exact ⟨pt 3.2 4.2, subset_convexHull ℝ _ (by simp), rfl⟩
  · exact ⟨pt 3.5 4.2, subset_convexHull ℝ _ (by simp), rfl⟩

/-- The pen goes on to the right, at no more than 10 per unit of time: C75 and C76 apply. -/
example : ∃ rs m a l, Session (calls xheavy xinputs) rs m ∧ Regular (calls xheavy xinputs) rs ∧
    (known (calls xheavy xinputs) rs).params = some xheavy ∧ xheavy.position.loop.isEnabled = false ∧ xheavy.wobble.isEnabled = false ∧
    MuchDrag xheavy (11 / 32400) 144 ∧ xheavy.sampling.minOutputRate = fin 180 ∧
    pathOf (acceptedOf (strokeOf (calls xheavy xinputs) rs)) = a :: l ∧ Ref.Slow 10 a l ∧
    (a :: l).IsChain (fun b c => Complex.reLm b.1 ≤ Complex.reLm c.1) ∧ l.length = 3 := by
  obtain ⟨rs, m, h1, h2, h3, h4, h5⟩ := xstroke xheavy xheavy_valid rfl
  refine ⟨rs, m, (pt 3 4, 0), [(pt 3.2 4.2, 1 / 30), (pt 3.5 4.2, 2 / 30), (pt 3.6 4.1, 3 / 30)], h1, h2, h3, rfl, rfl, xheavy_drag.1, rfl, ?_, ?_, ?_, rfl⟩
  · obtain ⟨o₁, o₂, o₃, o₄, h⟩ := xevents h4 h5
    rw [h]
    simp [acceptedOf, pathOf, xin]
  · have key : ∀ z : ℂ, z.re ^ 2 + z.im ^ 2 ≤ (1 / 3) ^ 2 → ‖z‖ ≤ 1 / 3 := fun z hz => le_of_sq_le (by rw [Ref.norm_sq_eq]; exact hz) (by norm_num)
    simp only [Ref.Slow, List.isChain_cons_cons, List.isChain_singleton, and_true]
    refine ⟨⟨by norm_num, ?_⟩, ⟨by norm_num, ?_⟩, by norm_num, ?_⟩ <;>
      refine (key _ ?_).trans (by norm_num) <;> simp only [pt, Complex.sub_re, Complex.sub_im] <;> norm_num
  · simp only [List.isChain_cons_cons, List.isChain_singleton, and_true, Complex.reLm_coe, pt]
    norm_num

/-- Moves at `a`, one after each time `h`. -/
def Ex.restingBy (a : ℂ) (h : ℝ) (k : ℕ) : ℕ → List (Input XR XR)
  | 0 => []
  | n + 1 => xin .move a (0 + (k + 1 : ℕ) * h) 0.3 1.1 2.1 :: restingBy a h (k + 1) n

theorem Ex.restingBy_follows {p : StrokeModelParams XR XR} (hp : p.sampling = xparams.sampling) {h : ℝ} (h0 : 0 < h) (h1 : h * 180 ≤ 1)
    (a : ℂ) (n : ℕ) : ∀ (k : ℕ) (e : EventType) (x : ℂ),
    XR.Follows p (xin e x (0 + k * h) 0.3 1.1 2.1) (restingBy a h k n) := by
  induction n with
  | zero => intros; trivial
  | succ n ih =>
    intro k e x
    refine ⟨fits_xin (by push_cast; linarith), .inr ⟨by rw [hp]; rfl, ?_⟩, good_fin _, .inl rfl, ih _ _ _⟩
    rw [hp]
    simp [xin, xparams]
    linarith

theorem Ex.restingBy_spec (a : ℂ) (h : ℝ) (n : ℕ) : ∀ k, (restingBy a h k n).length = n ∧
    ∀ j (h' : j < (restingBy a h k n).length), MoveAt a (0 + (k + j + 1 : ℕ) * h) (restingBy a h k n)[j] := by
  induction n with
  | zero => intro k; exact ⟨rfl, fun j h => by simp [restingBy] at h⟩
  | succ n ih =>
    intro k
    obtain ⟨h1, h2⟩ := ih (k + 1)
    refine ⟨by simp [restingBy, h1], fun j h => ?_⟩
    cases j with
    | zero => exact ⟨rfl, rfl, rfl⟩
    | succ j =>
      have := h2 j (by simpa [restingBy] using h)
      rw [show k + 1 + j + 1 = k + (j + 1) + 1 by omega] at this
      simpa [restingBy] using this

/-- The parameters of the unit tests have too little drag; and there are strokes as in `C74_swings_exact` for them. -/
example (x a : ℂ) {h : ℝ} (h0 : 0 < h) (h1 : h * 180 ≤ 1) (n : ℕ) (hn : n < 2147483645) :
    validateStrokeModelParams xplain = .ok ∧ xplain.position.springMassConstant = fin (11 / 32400) ∧
    xplain.position.dragConstant = fin 72 ∧ xplain.position.loop.isEnabled = false ∧
    xplain.wobble.isEnabled = false ∧ xplain.sampling.maxEstimatedAngle = fin (-1) ∧ (11 / 32400 * 72 ^ 2 : ℝ) < 4 ∧
    ∃ ops rs m e es, Session ops rs m ∧ Regular ops rs ∧ (known ops rs).params = some xplain ∧ strokeOf ops rs = e :: es ∧
      e.input.position = V x ∧ e.input.time = fin 0 ∧ es.length = n ∧
      ∀ j (h' : j < es.length), MoveAt a (0 + (j + 1 : ℕ) * h) es[j].input := by
  have hv : validateStrokeModelParams xplain = .ok := by unfold xplain xparams; valid
  refine ⟨hv, rfl, rfl, rfl, rfl, rfl, by norm_num, ?_⟩
  obtain ⟨s1, s2⟩ := restingBy_spec a h n 0
  have hf := restingBy_follows (p := xplain) rfl h0 h1 a n 0 .down x
  rw [Nat.cast_zero, zero_mul, add_zero] at hf
  obtain ⟨rs, m, h1, h2, h3, h4, -⟩ := exists_stroke hv rfl ⟨isFinite_fin _, isFinite_fin _, isFinite_fin _⟩ (good_fin _) hf
    (by rw [s1]; exact hn)
  refine ⟨calls xplain (xin .down x 0 0.3 1.1 2.1 :: restingBy a h 0 n), rs, m, ?_⟩
  generalize strokeOf _ rs = l at h4 ⊢
  cases l with
  | nil => simp at h4
  | cons e es =>
    simp only [List.map_cons, List.cons.injEq] at h4
    obtain ⟨h4, h5⟩ := h4
    refine ⟨e, es, h1, h2, h3, rfl, by rw [h4]; rfl, by rw [h4]; rfl, ?_, ?_⟩
    · rw [← s1, ← h5, List.length_map]
    · intro j h'
      have h'' : j < (restingBy a h 0 n).length := by rw [← h5, List.length_map]; exact h'
      have e1 : es[j].input = (restingBy a h 0 n)[j] := by
        have : (es.map Event.input)[j]'(by simpa using h') = (restingBy a h 0 n)[j] := by simp only [h5]
        simpa using this
      rw [e1]
      simpa using s2 j h''

end Examples
end
end Ink
