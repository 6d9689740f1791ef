import Verif.Exact.Answer
import Verif.Spec.Isometry
import Verif.Examples.Exact
/-!
# Strokes that are turned by any angle, on exact numbers: C61
-/
namespace Ink
open Scalar Arith XR
noncomputable section

/-- The input at the image of its position. -/
def Input.image (L : ℂ ≃ₗᵢ[ℝ] ℂ) (i : Input XR XR) : Input XR XR := { i with position := V (L (toPoint i.position)) }

/-- `r'` is the image of `r`. Pressure and tilt are the same; infinite ones in the inputs `is` are not covered. -/
structure ImageOf (L : ℂ ≃ₗᵢ[ℝ] ℂ) (is : List (Input XR XR)) (r r' : Result XR XR) : Prop where
  position : ∃ z, r.position = V z ∧ r'.position = V (L z)
  velocity : ∃ z, r.velocity = V z ∧ r'.velocity = V (L z)
  acceleration : ∃ z, r.acceleration = V z ∧ r'.acceleration = V (L z)
  time : r'.time = r.time
  pressure : (∀ i ∈ is, i.pressure ≠ inf false) → r'.pressure = r.pressure
  tilt : (∀ i ∈ is, i.tilt ≠ inf false) → r'.tilt = r.tilt

theorem ImageOf.mono {L : ℂ ≃ₗᵢ[ℝ] ℂ} {is js : List (Input XR XR)} (hs : ∀ i ∈ is, i ∈ js) {r r' : Result XR XR} (h : ImageOf L is r r') :
    ImageOf L js r r' :=
  ⟨h.position, h.velocity, h.acceleration, h.time, fun hp => h.pressure fun i hi => hp i (hs i hi), fun hp => h.tilt fun i hi => hp i (hs i hi)⟩

theorem ImageOf.of_kin {L : ℂ ≃ₗᵢ[ℝ] ℂ} {is : List (Input XR XR)} {r r' : Result XR XR} {q : Ref.Tip} (h : r.kin = tip q)
    (h' : r'.kin = tip (q.image L)) (hp : (∀ i ∈ is, i.pressure ≠ inf false) → r'.pressure = r.pressure)
    (ht : (∀ i ∈ is, i.tilt ≠ inf false) → r'.tilt = r.tilt) : ImageOf L is r r' := by
  simp only [Result.kin, tip, TipState.mk.injEq, Ref.Tip.image] at h h'
  exact ⟨⟨_, h.1, h'.1⟩, ⟨_, h.2.1, h'.2.1⟩, ⟨_, h.2.2.1, h'.2.2.1⟩, by rw [h.2.2.2, h'.2.2.2], hp, ht⟩

/-- A value that is not infinite is known or not. -/
theorem known_or (is : List (Input XR XR)) (g : Input XR XR → XR) (h : ∀ i ∈ is, g i ≠ inf false) :
    (∀ i ∈ is, ∃ v, 0 ≤ v ∧ g i = fin v) ∨ ∃ i ∈ is, isUnknown (g i) = true := by
  by_contra hc
  rw [not_or] at hc
  obtain ⟨h1, h2⟩ := hc
  rw [not_forall] at h1
  obtain ⟨i, hi⟩ := h1
  rw [Classical.not_imp] at hi
  obtain ⟨hi, hn⟩ := hi
  apply h2
  refine ⟨i, hi, ?_⟩
  have hne := h i hi
  cases hg : g i with
  | fin v =>
    have : ¬ 0 ≤ v := fun h0 => hn ⟨v, h0, hg⟩
    simpa [isUnknown] using this
  | inf s =>
    cases s with
    | false => exact absurd hg hne
    | true => rfl
  | nan => rfl

theorem loopAfter_image {L : ℂ ≃ₗᵢ[ℝ] ℂ} {is : List (Input XR XR)} {hist hist' : List (Result XR XR)}
    (h : List.Forall₂ (ImageOf L is) hist hist') (lp : LoopParams XR XR) : loopAfter lp hist' = loopAfter lp hist := by
  unfold loopAfter
  generalize LoopModeler.default.reset lp = s
  induction h generalizing s with
  | nil => rfl
  | cons h _ ih =>
    rw [List.foldl_cons, List.foldl_cons, ih]
    obtain ⟨z, h1, h2⟩ := h.velocity
    congr 2
    unfold LoopModeler.update
    rw [h.time, h1, h2, V_magnitude, V_magnitude, L.norm_map]

theorem explained_image {L : ℂ ≃ₗᵢ[ℝ] ℂ} {nm : Bool} (hL : nm = true → Ref.Rotates L) {lp : LoopParams XR XR} {win : List Ref.Tip}
    {ins all : List (Input XR XR)} {hist : List (Result XR XR)} {t : ℝ} {tips : List Ref.Tip} {out : List (Result XR XR)}
    (h : Explained nm lp win ins all hist t tips out) {hist' out' : List (Result XR XR)} (hh : List.Forall₂ (ImageOf L all) hist hist')
    (h' : Explained nm lp (win.map (Ref.Tip.image L)) (ins.map (Input.image L)) (all.map (Input.image L)) hist' t
      (tips.map (Ref.Tip.image L)) out') : List.Forall₂ (ImageOf L all) out out' := by
  have hbare : Bare (all.map (Input.image L)) ↔ Bare all := by
    simp only [Bare, List.mem_map, exists_exists_and_eq_and]
    rfl
  induction h generalizing hist' out' with
  | nil => cases h'; exact .nil
  | @cons hist t q r qs out hx _ ih =>
    cases h' with
    | @cons _ _ _ r' _ out' hx' ht' =>
      rw [hbare] at hx'
      have key : ImageOf L all r r' := by
        by_cases hb : nm = false ∧ Bare all
        · rw [hx.1 hb, hx'.1 hb]
          exact .of_kin (q := q) rfl rfl (fun _ => rfl) (fun _ => rfl)
        · obtain ⟨foot, c, h⟩ := hx.2 hb
          obtain ⟨foot', c', h'⟩ := hx'.2 hb
          have epos : (win.map (Ref.Tip.image L)).map Ref.Tip.pos = (win.map Ref.Tip.pos).map L := by
            simp [Function.comp_def, Ref.Tip.image]
          have hf := h'.proj
          rw [epos] at hf
          obtain rfl := (h.proj.image hL).unique hf
          obtain rfl : c = c' := by
            have e1 := h.ratio
            have e2 := h'.ratio
            rw [loopAfter_image hh, e1] at e2
            simpa using e2
          have field : ∀ g : Input XR XR → XR, (∀ i, g (i.image L) = g i) →
              Ref.value ((win.map (Ref.Tip.image L)).map Ref.Tip.pos) (q.image L).pos foot ((ins.map (Input.image L)).map fun i => toReal (g i)) =
                Ref.value (win.map Ref.Tip.pos) q.pos foot (ins.map fun i => toReal (g i)) := by
            intro g hg
            have e2 : ((ins.map (Input.image L)).map fun i => toReal (g i)) = ins.map fun i => toReal (g i) := by
              rw [List.map_map]; exact List.map_congr_left fun i _ => by rw [Function.comp_apply, hg]
            rw [epos, e2]
            exact Ref.value_image' (E := ℝ) _ _ _ _
          have hall : ∀ g : Input XR XR → XR, (∀ i, g (i.image L) = g i) → ∀ Q : XR → Prop, (∀ i ∈ all, Q (g i)) →
              ∀ i ∈ all.map (Input.image L), Q (g i) := by
            intro g hg Q hQ i hi
            obtain ⟨i', hi', rfl⟩ := List.mem_map.1 hi
            rw [hg]; exact hQ i' hi'
          have hex : ∀ g : Input XR XR → XR, (∀ i, g (i.image L) = g i) → (∃ i ∈ all, isUnknown (g i) = true) →
              ∃ i ∈ all.map (Input.image L), isUnknown (g i) = true := by
            rintro g hg ⟨i, hi, hu⟩
            exact ⟨_, List.mem_map_of_mem hi, by rw [hg]; exact hu⟩
          refine .of_kin h.kin ?_ ?_ ?_
          · rw [h'.kin, Ref.footSample_image, Ref.between_image]
          · intro hp
            rcases known_or all (·.pressure) hp with hk | hk
            · rw [h.pressure hk, h'.pressure (hall (·.pressure) (fun _ => rfl) (fun x => ∃ v, 0 ≤ v ∧ x = fin v) hk),
                field (·.pressure) fun _ => rfl]
            · rw [h.lacking.1 hk, h'.lacking.1 (hex (·.pressure) (fun _ => rfl) hk)]
          · intro hp
            rcases known_or all (·.tilt) hp with hk | hk
            · rw [h.tilt hk, h'.tilt (hall (·.tilt) (fun _ => rfl) (fun x => ∃ v, 0 ≤ v ∧ x = fin v) hk), field (·.tilt) fun _ => rfl]
            · rw [h.lacking.2.1 hk, h'.lacking.2.1 (hex (·.tilt) (fun _ => rfl) hk)]
      exact .cons key (ih (List.rel_append hh (.cons key .nil)) ht' )

theorem XR.Held.unique {p : StylusParams XR} {times : List ℝ} {j j' : ℕ} (h : Held p times j) (h' : Held p times j')
    (hj : j ≤ times.length) (hj' : j' ≤ times.length) : j = j' := by
  cases hu : p.useStrokeNormalProjection with
  | false => rw [h.closest hu, h'.closest hu]
  | true =>
    have := congrArg List.length ((h.held hu).trans (h'.held hu).symm)
    simp only [List.length_map, List.length_drop] at this
    omega

theorem touch_image (L : ℂ ≃ₗᵢ[ℝ] ℂ) (i : Input XR XR) : touch (i.image L) = (touch i).image L := by
  unfold touch Input.image
  dsimp only
  split <;> rfl

/-- `e'` is the image of the event `e`. -/
structure EventImage (L : ℂ ≃ₗᵢ[ℝ] ℂ) (is : List (Input XR XR)) (e e' : Event XR XR) : Prop where
  input : e'.input = e.input.image L
  results : Option.Rel (List.Forall₂ (ImageOf L is)) e.results e'.results

theorem EventImage.mono {L : ℂ ≃ₗᵢ[ℝ] ℂ} {is js : List (Input XR XR)} (hs : ∀ i ∈ is, i ∈ js) {e e' : Event XR XR} (h : EventImage L is e e') :
    EventImage L js e e' := by
  refine ⟨h.input, ?_⟩
  have h := h.results
  generalize e.results = x at h ⊢
  generalize e'.results = y at h ⊢
  cases h with
  | none => exact .none
  | some h => exact .some (h.imp fun _ _ => .mono hs)

theorem resultsOf_image {L : ℂ ≃ₗᵢ[ℝ] ℂ} {is : List (Input XR XR)} {es es' : List (Event XR XR)}
    (h : List.Forall₂ (EventImage L is) es es') : List.Forall₂ (ImageOf L is) (resultsOf es) (resultsOf es') := by
  induction h with
  | nil => exact .nil
  | @cons e e' es es' h _ ih =>
    simp only [resultsOf, List.flatMap_cons] at ih ⊢
    refine List.rel_append ?_ ih
    have h := h.results
    cases h1 : e.results <;> cases h2 : e'.results <;> rw [h1, h2] at h <;> cases h
    · exact .nil
    · assumption

theorem course_image {p : StrokeModelParams XR XR} {P : Ref.Params} (hr : Realizes p P) (hv : P.Valid) (hl : LoopOk p.position.loop)
    {L : ℂ ≃ₗᵢ[ℝ] ℂ} (hL : p.stylus.useStrokeNormalProjection = true → Ref.Rotates L) {e e' : Event XR XR} {rest rest' : List (Event XR XR)}
    {m m' : StrokeModeler XR XR} (h : Course p (e :: rest) m) (h' : Course p (e' :: rest') m') (he : e'.input = e.input.image L)
    (hin : rest'.map Event.input = (rest.map Event.input).map (Input.image L)) : 
    List.Forall₂ (EventImage L ((e :: rest).map Event.input)) (e :: rest) (e' :: rest') := by
  induction rest using List.reverseRecOn generalizing rest' m m' with
  | nil =>
    obtain rfl : rest' = [] := by simpa using hin
    obtain ⟨_, _, h1, ht⟩ := course_tale hr hv h
    obtain ⟨_, _, h2, ht'⟩ := course_tale hr hv h'
    cases h1; cases h2
    refine .cons ⟨he, ?_⟩ .nil
    rw [ht.first, ht'.first]
    refine .some (.cons ?_ .nil)
    refine .of_kin (kin_downResult ht.finite) ?_ (fun _ => ?_) (fun _ => ?_)
    · rw [kin_downResult ht'.finite, he]
      simp only [Input.image, toPoint_V, Ref.start_image]
      rfl
    · simp [StrokeModeler.downResult, he, Input.image]
    · simp [StrokeModeler.downResult, he, Input.image]
  | append_singleton a f ih =>
    obtain ⟨a', f', rfl⟩ : ∃ a' f', rest' = a' ++ [f'] := by
      rcases List.eq_nil_or_concat rest' with rfl | ⟨a', f', rfl⟩
      · simp at hin
      · exact ⟨a', f', by simp⟩
    simp only [List.map_append, List.map_cons, List.map_nil] at hin
    obtain ⟨hin, hf⟩ := List.append_inj' hin rfl
    simp only [List.cons.injEq, and_true] at hf
    obtain ⟨m₁, h₁⟩ := h.init (List.cons_append (a := e) (as := a) (bs := [f])).symm (by simp)
    obtain ⟨m₁', h₁'⟩ := h'.init (List.cons_append (a := e') (as := a') (bs := [f'])).symm (by simp)
    have hi := ih h₁ h₁' hin
    -- the reference model
    have et : (a'.map fun f => touch f.input) = (a.map fun f => touch f.input).map (Ref.Touch.image L) := by
      have := congrArg (List.map touch) hin
      simp only [List.map_map, Function.comp_def, touch_image] at this ⊢
      exact this
    have ep : toPoint e'.input.position = L (toPoint e.input.position) := by rw [he]; rfl
    have eτ : toReal e'.input.time = toReal e.input.time := by rw [he]; rfl
    have es : state P e' a' = (state P e a).image L := by
      unfold state
      rw [ep, eτ, et, Ref.start_image, Ref.after_image]
    have ef : touch f'.input = (touch f.input).image L := by rw [hf, touch_image]
    have el : polyline P e' (a' ++ [f']) = (polyline P e (a ++ [f])).map (Ref.Tip.image L) := by
      unfold polyline
      rw [ep, eτ, List.map_append, List.map_append, et, List.map_singleton, List.map_singleton, ef, ← Ref.polyline_image, List.map_append,
        List.map_singleton]
    have elt : (polyline P e' (a' ++ [f'])).map Ref.Tip.time = (polyline P e (a ++ [f])).map Ref.Tip.time := by
      rw [el, List.map_map]; rfl
    have ea := Ref.advance_image (L := L) P (state P e a) (touch f.input)
    rw [← es, ← ef] at ea
    have eb : before (state P e' a') f'.input = before (state P e a) f.input := by
      unfold before
      rw [es, hf]; rfl
    have eall : (e' :: a' ++ [f']).map Event.input = ((e :: a ++ [f]).map Event.input).map (Input.image L) := by
      simp only [List.cons_append, List.map_cons, List.map_append, List.map_nil, he, hf, hin]
    have hsub : ∀ i ∈ (e :: a).map Event.input, i ∈ (e :: (a ++ [f])).map Event.input := by
      intro i hi
      simp only [List.map_cons, List.map_append, List.mem_cons, List.mem_append] at hi ⊢
      tauto
    have hi := hi.imp fun _ _ => EventImage.mono hsub
    have hist : List.Forall₂ (ImageOf L ((e :: (a ++ [f])).map Event.input)) (resultsOf a) (resultsOf a') := by
      cases hi with
      | cons _ hi => exact resultsOf_image hi
    have key : EventImage L ((e :: (a ++ [f])).map Event.input) f f' := by
      refine ⟨hf, ?_⟩
      obtain ⟨_, _, ht⟩ := course_told (b := []) hr hv h
      obtain ⟨_, _, ht'⟩ := course_told (b := []) hr hv h'
      have hans := ht.answer a f rfl
      have hans' := ht'.answer a' f' rfl
      cases h1 : f.results with
      | none =>
        rw [h1] at hans
        cases h2 : f'.results with
        | none => exact .none
        | some out' =>
          rw [h2] at hans'
          obtain ⟨tips, h3, _⟩ := hans'
          rw [ea, hans] at h3
          simp at h3
      | some out =>
        obtain ⟨tips, j, g1, g2, g3⟩ := course_explained (b := []) hr hv h hl h1
        cases h2 : f'.results with
        | none =>
          rw [h2] at hans'
          rw [ea, g1] at hans'
          simp at hans'
        | some out' =>
          obtain ⟨tips', j', g1', g2', g3'⟩ := course_explained (b := []) hr hv h' hl h2
          rw [ea, g1, Option.map_some, Option.some.injEq] at g1'
          rw [elt] at g2'
          have hne : (polyline P e (a ++ [f])).map Ref.Tip.time ≠ [] := by
            rw [Ne, List.map_eq_nil_iff, ← List.length_eq_zero_iff, polyline_length]; simp
          obtain rfl := g2.unique g2' (g2.lt h.valid hne).le (g2'.lt h.valid hne).le
          rw [← g1', el, eall, eb, ← List.map_drop, ← List.map_drop] at g3'
          exact .some (explained_image hL g3 hist g3')
    rw [← List.cons_append, ← List.cons_append]
    exact List.rel_append hi (.cons key .nil)

/-- The second of two histories is that of the image of the stroke of the first. -/
structure ImageStroke (L : ℂ ≃ₗᵢ[ℝ] ℂ) (p : StrokeModelParams XR XR) (ops ops' : List (Op XR XR)) (rs rs' : List (Response XR XR)) : Prop where
  params : (known ops rs).params = some p
  params' : (known ops' rs').params = some p
  inputs : (strokeOf ops' rs').map Event.input = ((strokeOf ops rs).map Event.input).map (Input.image L)

/-- C61: turned strokes give turned results, for any angle and, in closest-point mode, for mirror images as well. Take two strokes with the
same parameters, in two histories that may have nothing else in common. If the inputs of the second are those of the first, at
positions that are moved by an isometry of the plane that fixes the origin, a rotation if stroke normals are used, then the same inputs
are accepted, and each has as many results, whose positions, velocities and accelerations are moved by the isometry and whose times,
pressures and tilts are the same. -/
theorem C61_isometry_exact {L : ℂ ≃ₗᵢ[ℝ] ℂ} {p : StrokeModelParams XR XR} {ops ops' : List (Op XR XR)} {rs rs' : List (Response XR XR)}
    {m m' : StrokeModeler XR XR} (h : Session ops rs m) (h' : Session ops' rs' m') (hr : Regular ops rs) (hr' : Regular ops' rs')
    (hi : ImageStroke L p ops ops' rs rs') (hl : LoopOk p.position.loop) (hL : p.stylus.useStrokeNormalProjection = true → Ref.Rotates L) :
    List.Forall₂ (EventImage L ((strokeOf ops rs).map Event.input)) (strokeOf ops rs) (strokeOf ops' rs') := by
  have hin := hi.inputs
  cases hs : strokeOf ops rs with
  | nil =>
    rw [hs] at hin
    have : strokeOf ops' rs' = [] := by simpa using hin
    rw [this]; exact .nil
  | cons e rest =>
    rw [hs] at hin
    cases hs' : strokeOf ops' rs' with
    | nil => rw [hs'] at hin; simp at hin
    | cons e' rest' =>
      rw [hs'] at hin
      simp only [List.map_cons, List.cons.injEq] at hin
      obtain ⟨P, _, h1, h2, hc, _⟩ := h.stroke hr hi.params hs
      obtain ⟨_, _, _, _, hc', _⟩ := h'.stroke hr' hi.params' hs'
      exact course_image h1 h2 hl hL hc hc' hin.1 hin.2

/-- C61 for rotations: `u` is the unit complex number to multiply with. -/
theorem C61_rotation_exact (u : Circle) {p : StrokeModelParams XR XR} {ops ops' : List (Op XR XR)} {rs rs' : List (Response XR XR)}
    {m m' : StrokeModeler XR XR} (h : Session ops rs m) (h' : Session ops' rs' m') (hr : Regular ops rs) (hr' : Regular ops' rs')
    (hi : ImageStroke (rotation u) p ops ops' rs rs') (hl : LoopOk p.position.loop) :
    List.Forall₂ (EventImage (rotation u) ((strokeOf ops rs).map Event.input)) (strokeOf ops rs) (strokeOf ops' rs') :=
  C61_isometry_exact h h' hr hr' hi hl fun _ z => by rw [rotation_apply, rotation_apply]; ring

open Ex in
/-- Example: with loop mitigation and stroke normals, a stroke of four inputs and the stroke turned by any angle; everything is
accepted and there are results. -/
example (u : Circle) : ∃ rs rs' m m', Session (calls xloop xinputs) rs m ∧ Session (calls xloop (xinputs.map (Input.image (rotation u)))) rs' m' ∧
    Regular (calls xloop xinputs) rs ∧ Regular (calls xloop (xinputs.map (Input.image (rotation u)))) rs' ∧
    ImageStroke (rotation u) xloop (calls xloop xinputs) (calls xloop (xinputs.map (Input.image (rotation u)))) rs rs' ∧
    LoopOk xloop.position.loop ∧ xloop.position.loop.isEnabled = true ∧ xloop.stylus.useStrokeNormalProjection = true ∧
    (strokeOf (calls xloop xinputs) rs).map Event.input = xinputs ∧
    ∀ e ∈ strokeOf (calls xloop xinputs) rs, e.results.isSome = true := by
  obtain ⟨rs, m, h1, h2, h3, h4, h5⟩ := xstroke xloop xloop_valid rfl
  have hn : ∀ {e e' : EventType} {z z' : ℂ} {t t' pr pr' tl tl' o o' : ℝ}, (t' - t) * 180 ≤ 20 →
      Near xloop (xin e z t pr tl o) (xin e' z' t' pr' tl' o') := by
    intro e e' z z' t t' pr pr' tl tl' o o' ht
    refine .inr ⟨rfl, ?_⟩
    simpa [xin, xparams, xloop] using ht
  have hf : XR.Follows xloop (xin .down (rotation u (pt 3 4)) 0 0.2 1 2) (xinputs.tail.map (Input.image (rotation u))) :=
    ⟨fits_xin (by norm_num), hn (by norm_num), good_fin _, .inl rfl, fits_xin (by norm_num), hn (by norm_num), good_fin _, .inl rfl,
      fits_xin (by norm_num), hn (by norm_num), good_fin _, .inr ⟨rfl, rfl⟩, trivial⟩
  obtain ⟨rs', m', k1, k2, k3, k4, k5⟩ := exists_stroke xloop_valid rfl ⟨isFinite_fin _, isFinite_fin _, isFinite_fin _⟩ (good_fin _) hf (by simp [xinputs])
  exact ⟨rs, rs', m, m', h1, k1, h2, k2, ⟨h3, k3, by rw [h4]; exact k4⟩, xloop_ok, rfl, rfl, h4, h5⟩

end
end Ink
