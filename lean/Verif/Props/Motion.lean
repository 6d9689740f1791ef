import Verif.Lemmas.Solve
import Verif.Props.Settle
/-!
# The equation of motion on exact numbers: C64
-/
namespace Ink
noncomputable section
open Scalar Arith XR
open Classical

variable {p : StrokeModelParams XR XR} {e : Event XR XR} {b : List (Event XR XR)}

/-- Without wobble smoothing inputs are taken to be where they are. -/
theorem place_plain {P : Ref.Params} (hw : P.wobble = none) (s : Ref.State) (i : Input XR XR) :
    Ref.place P s (touch i) = (toPoint i.position, toReal i.time) := by
  unfold touch
  split
  · rfl
  · simp [Ref.place, Ref.smooth, hw]

/-- The way of the anchor. -/
theorem course_track {P : Ref.Params} (hr : Realizes p P) (hv : P.Valid) (hw : P.wobble = none) {m₀ : StrokeModeler XR XR}
    {a : List (Event XR XR)} (hc : Course p (e :: (a ++ b)) m₀) :
    Ref.track P (state P e a) (b.map fun f => touch f.input) = pathOf (acceptedOf b) := by
  induction b generalizing a with
  | nil => rfl
  | cons f b ih =>
    have ih := ih (a := a ++ [f]) (by simpa using hc)
    rw [state_append] at ih
    obtain ⟨m₂, _, ht⟩ := course_told hr hv (e := e) (a := a) (f := f) (b := b) (by simpa using hc)
    have ha := ht.answer a f rfl
    rw [List.map_cons, Ref.track, ih, place_plain hw]
    cases hf : f.results with
    | none =>
      rw [hf] at ha
      rw [ha]
      simp [acceptedOf, hf]
    | some out =>
      rw [hf] at ha
      obtain ⟨tips, h1, _⟩ := ha
      rw [h1]
      simp [acceptedOf, hf, pathOf]

/-- C64: the results of a stroke solve the differential equation of the README up to an error that is proportional to the inverse of
the output rate. For each mass and drag there is a constant such that for all strokes without wobble smoothing and loop
mitigation, with a rate that is high enough for the spring, the following holds. Let the accepted inputs never be faster than `S`.
Let `x` and `v` be any solution for an anchor that goes from one accepted input to the next in a straight line and then stays,
the pen being at rest at the start. Then every result, those of the Up included, is as close to it in position and in velocity. -/
theorem C64_motion_exact_partial {M d : ℝ} (hM : 0 < M) (hd : 0 < d) : ∃ C : ℝ, 0 ≤ C ∧
    ∀ {ops : List (Op XR XR)} {rs : List (Response XR XR)} {m : StrokeModeler XR XR} {p : StrokeModelParams XR XR}, Session ops rs m →
      Regular ops rs → (known ops rs).params = some p → p.position.loop.isEnabled = false → p.wobble.isEnabled = false → RateOk p M d →
      ∀ {rate : ℝ}, p.sampling.minOutputRate = fin rate →
      ∀ {a : ℂ × ℝ} {l : List (ℂ × ℝ)}, pathOf (acceptedOf (strokeOf ops rs)) = a :: l → ∀ {S : ℝ}, 0 ≤ S → Ref.Slow S a l →
      ∀ {T : ℝ} {x v : ℝ → ℂ}, Ref.Obeys M d (Ref.anchorAt a l) a.2 T x v → x a.2 = a.1 → v a.2 = 0 →
      ∀ r ∈ resultsOf (strokeOf ops rs), ∃ u : Ref.Tip, r.kin = tip u ∧
        (u.time ≤ T → ‖u.pos - x u.time‖ ≤ C * S / rate ∧ ‖u.vel - v u.time‖ ≤ C * S / rate) := by
  have hE : 0 ≤ Ref.errRate M d := by
    have := Ref.lagRoot_nonneg M d
    unfold Ref.errRate Ref.stepRate Ref.jerkRate Ref.accRate
    positivity
  have hC : 0 ≤ (2 * Real.sqrt M + 11 / 5) * Ref.errRate M d := by positivity
  refine ⟨_, hC, ?_⟩
  intro ops rs m p h hr hp hl hw hrate rate hrt a l hacc S hS hsl T x v hm hx hv0 r hmem
  cases hs : strokeOf ops rs with
  | nil => rw [hs] at hmem; simp [resultsOf] at hmem
  | cons e b =>
  obtain ⟨P, m₀, h1, h2, hc, _⟩ := h.stroke hr hp hs
  obtain ⟨hPM, hPd, hst, hcap⟩ := hrate.stable h1
  have hPr : P.rate = rate := fin_inj.1 (h1.rate.symm.trans hrt)
  have hr0 : 0 < rate := hPr ▸ h2.rate
  have hPw : P.wobble = none := by
    have := h1.wobble
    cases hP : P.wobble with
    | none => rfl
    | some t =>
      obtain ⟨t, lo, hi⟩ := t
      rw [hP] at this
      simp only at this
      rw [this] at hw
      cases hw
  have hdown : e.results ≠ none := by
    obtain ⟨e', rest, he, ht⟩ := course_tale h1 h2 hc
    obtain ⟨rfl, rfl⟩ := List.cons.inj he
    rw [ht.first]; simp
  have htr := course_track (a := []) h1 h2 hPw hc
  obtain ⟨out, hout⟩ := Option.ne_none_iff_exists'.1 hdown
  rw [hs] at hacc hmem
  have e1 : pathOf (acceptedOf (e :: b)) = (toPoint e.input.position, toReal e.input.time) :: pathOf (acceptedOf b) := by
    simp [acceptedOf, hout, pathOf]
  rw [e1] at hacc
  obtain ⟨rfl, rfl⟩ := List.cons.inj hacc
  rw [← htr] at hsl hm
  rw [← hPM, ← hPd] at hm
  obtain ⟨ho, hmv⟩ := course_ordered h1 h2 hc
  have hall := Ref.stroke_motion hst h2 hcap hS ho (by
    intro l i l' hl' hne
    rcases List.eq_nil_or_concat l' with rfl | ⟨l'', j, rfl⟩
    · exact absurd rfl hne
    · refine hmv (l ++ i :: l'') j ?_ i (by simp)
      rw [hl']; simp) hsl hm hx hv0
  have hkin : r.kin ∈ (Ref.told P (toPoint e.input.position) (toReal e.input.time) (b.map fun f => touch f.input)).map tip := by
    rw [← course_results h1 h2 hc hl]; exact List.mem_map_of_mem hmem
  obtain ⟨u, hu, hut⟩ := List.mem_map.1 hkin
  refine ⟨u, hut.symm, fun hT => ?_⟩
  have hnear : Ref.Near P S T x v u := by
    simp only [Ref.told, Ref.stroke, List.flatMap_cons, Option.getD_some, List.mem_append, List.mem_singleton, List.mem_flatMap] at hu
    rcases hu with rfl | ⟨o, ho', hu⟩
    · intro _
      have : 0 ≤ Ref.errCap P S := by
        have := h2.rate
        unfold Ref.errCap; rw [hPM, hPd]; positivity
      simp only [Ref.start, hx, hv0, sub_self, Ref.gauge_zero]
      exact ⟨this, this⟩
    · exact hall o ho' u hu
  obtain ⟨k1, k2⟩ := Ref.near_dist hst h2 hnear hT
  unfold Ref.errCap at k1 k2
  rw [hPM, hPd, hPr] at k1 k2
  have hq : 0 ≤ Ref.errRate M d * S / rate := by positivity
  have hsq := Real.sqrt_nonneg M
  have e2 : (2 * Real.sqrt M + 11 / 5) * Ref.errRate M d * S / rate = (2 * Real.sqrt M + 11 / 5) * (Ref.errRate M d * S / rate) := by ring
  rw [e2]
  constructor <;> nlinarith [mul_nonneg hsq hq]

/-- C64: there is such a solution for every duration. -/
theorem C64_motion_exists (M d : ℝ) {a : ℂ × ℝ} {l : List (ℂ × ℝ)} {S : ℝ} (hS : 0 ≤ S) (hs : Ref.Slow S a l) (T : ℝ) :
    ∃ x v : ℝ → ℂ, x a.2 = a.1 ∧ v a.2 = 0 ∧ Ref.Obeys M d (Ref.anchorAt a l) a.2 T x v := Ref.motion_exists M d hS hs T

section Examples
open Ex

/-- The theorem applies to the parameters of the unit tests without wobble smoothing. -/
example : ∃ p rs m a l, p = { xparams with wobble := { xparams.wobble with isEnabled := false } } ∧ Session (calls p xinputs) rs m ∧
    Regular (calls p xinputs) rs ∧ (known (calls p xinputs) rs).params = some p ∧ RateOk p (11 / 32400) 72 ∧
    pathOf (acceptedOf (strokeOf (calls p xinputs) rs)) = a :: l ∧ Ref.Slow 10 a l ∧
    l = [(pt 3.2 4.2, 1 / 30), (pt 3.5 4.2, 2 / 30), (pt 3.6 4.1, 3 / 30)] := by
  obtain ⟨rs, m, h1, h2, h3, h4, h5⟩ := xstroke { xparams with wobble := { xparams.wobble with isEnabled := false } }
    (by unfold xparams; valid) rfl
  refine ⟨_, rs, m, (pt 3 4, 0), _, rfl, h1, h2, h3, ⟨rfl, rfl, ⟨180, rfl, by norm_num, by norm_num⟩, by simp [xparams]⟩, ?_, ?_, rfl⟩
  · obtain ⟨o₁, o₂, o₃, o₄, h⟩ := xevents h4 h5
    rw [h]
    simp [acceptedOf, pathOf, xin]
  · have key : ∀ z : ℂ, z.re ^ 2 + z.im ^ 2 ≤ (1 / 3) ^ 2 → ‖z‖ ≤ 1 / 3 := fun z hz => le_of_sq_le (by rw [Ref.norm_sq_eq]; exact hz) (by norm_num)
    simp only [Ref.Slow, List.isChain_cons_cons, List.isChain_singleton, and_true]
    refine ⟨⟨by norm_num, ?_⟩, ⟨by norm_num, ?_⟩, by norm_num, ?_⟩ <;>
      refine (key _ ?_).trans (by norm_num) <;> simp only [pt, Complex.sub_re, Complex.sub_im] <;> norm_num

end Examples
end
end Ink
