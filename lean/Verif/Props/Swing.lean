import Verif.Lemmas.Swing
import Verif.Props.Blend
/-!
# When the tip settles: C66
-/
namespace Ink
open Scalar Arith XR Filter Topology
noncomputable section

namespace Ref
variable {P : Params}

/-- The state after a Down at `x` and Moves at `a`, one after each time `h`. -/
structure Swung (P : Params) (h : ℝ) (x a : ℂ) (t₀ : ℝ) (k : ℕ) (s : State) : Prop where
  pos : s.tip.pos = a + (swing P.mass P.drag h k).1 • (x - a)
  vel : s.tip.vel = (swing P.mass P.drag h k).2 • (x - a)
  time : s.tip.time = t₀ + k * h
  anchor : s.anchor.2 = t₀ + k * h

theorem swung_move (hv : P.Valid) (hw : P.wobble = none) (ha : P.maxAngle = none) {h : ℝ} (h0 : 0 < h) (h1 : h * P.rate ≤ 1) {x a : ℂ}
    {t₀ t : ℝ} {k : ℕ} {s : State} (hs' : Swung P h x a t₀ k s) (ht : t = t₀ + (k + 1 : ℕ) * h) :
    ∃ q : Tip, (move P s a t).2 = some [q] ∧ q.pos = a + (swing P.mass P.drag h (k + 1)).1 • (x - a) ∧
      Swung P h x a t₀ (k + 1) (move P s a t).1 := by
  have hr := hv.rate
  have hm := hv.mass.ne'
  have hdt : t - s.anchor.2 = h := by rw [hs'.anchor, ht]; push_cast; ring
  have hn : steps P s.tip a (t - s.anchor.2) = 1 := by
    unfold steps
    have : ⌈h * P.rate⌉ = 1 := by
      rw [Int.ceil_eq_iff]
      have := mul_pos h0 hr
      push_cast
      constructor <;> linarith
    rw [hdt, ha, this]
    simp
  have hs : smooth P s a t = (s.window, a) := by simp [smooth, hw]
  have hup : upsample s.anchor (a, t) 1 = [(a, t)] := by
    simp [upsample, lerp]
  unfold move
  simp only [hs]
  rw [hn, if_pos (by have := hv.maxOut; omega)]
  simp only [Int.toNat_one, hup, follow, List.getLastD_cons, List.getLastD_nil]
  have hst : t - s.tip.time = h := by rw [hs'.time, ht]; push_cast; ring
  have hvel : (spring P s.tip (a, t)).vel = (swing P.mass P.drag h (k + 1)).2 • (x - a) := by
    simp only [spring, swing, hst, hs'.pos, hs'.vel, Complex.real_smul]
    push_cast
    field_simp
    ring
  have hpos : (spring P s.tip (a, t)).pos = a + (swing P.mass P.drag h (k + 1)).1 • (x - a) := by
    have e : (spring P s.tip (a, t)).pos = s.tip.pos + (t - s.tip.time) • (spring P s.tip (a, t)).vel := rfl
    rw [e, hvel, hst, hs'.pos]
    simp only [swing, Complex.real_smul]
    push_cast
    ring
  exact ⟨_, rfl, hpos, hpos, hvel, ht, ht⟩

theorem swung_start (h : ℝ) (x a : ℂ) (t₀ : ℝ) : Swung P h x a t₀ 0 (start x t₀) :=
  ⟨by simp [start, swing], by simp [start, swing], by simp [start], by simp [start]⟩

end Ref

/-- The input is a Move at `a` at the time `t`. -/
structure MoveAt (a : ℂ) (t : ℝ) (i : Input XR XR) : Prop where
  type : i.eventType = .move
  position : i.position = V a
  time : i.time = fin t

variable {p : StrokeModelParams XR XR} {P : Ref.Params}

theorem swung_events (hv : P.Valid) (hw : P.wobble = none) (ha : P.maxAngle = none) {h : ℝ} (h0 : 0 < h) (h1 : h * P.rate ≤ 1) {x a : ℂ}
    {t₀ : ℝ} (es : List (Event XR XR)) :
    ∀ {k : ℕ} {s : Ref.State}, Ref.Swung P h x a t₀ k s →
      (∀ j (h' : j < es.length), MoveAt a (t₀ + (k + j + 1 : ℕ) * h) es[j].input) →
      es.map kins = (Ref.answers P s (es.map fun f => touch f.input)).map (Option.map (List.map tip)) →
      (resultsOf es).map (·.position) =
        (List.range es.length).map fun j => V (a + (swing P.mass P.drag h (k + j + 1)).1 • (x - a)) := by
  induction es with
  | nil => intros; rfl
  | cons e es ih =>
    intro k s hs hm hk
    have hm0 := hm 0 (by simp)
    simp only [List.getElem_cons_zero, add_zero] at hm0
    have ht : touch e.input = .move a (t₀ + (k + 1 : ℕ) * h) := by
      simp [touch, hm0.type, hm0.position, hm0.time]
    simp only [List.map_cons, Ref.answers, List.cons.injEq, ht, Ref.advance] at hk
    obtain ⟨q, q1, q2, q3⟩ := Ref.swung_move hv hw ha h0 h1 hs rfl
    rw [q1] at hk
    obtain ⟨o, ho, ho'⟩ := Option.map_eq_some_iff.1 hk.1
    rw [List.map_cons, List.map_nil, List.map_eq_cons_iff] at ho'
    obtain ⟨r, o, rfl, hr, ho''⟩ := ho'
    obtain rfl := List.map_eq_nil_iff.1 ho''
    have hrest := ih q3 (fun j h => by
      have := hm (j + 1) (by simpa using h)
      rw [show k + (j + 1) + 1 = k + 1 + j + 1 by omega] at this
      simpa using this) hk.2
    have hres : resultsOf (e :: es) = r :: resultsOf es := by simp [resultsOf, ho]
    rw [hres, List.map_cons, hrest, List.length_cons, List.range_succ_eq_map, List.map_cons, List.map_map]
    congr 1
    · have := congrArg TipState.position hr
      simp only [Result.kin, tip] at this
      rw [this, q2]
    · apply List.map_congr_left
      intro j _
      simp only [Function.comp_apply]
      rw [show k + 1 + j + 1 = k + j.succ + 1 by omega]

/-- The results of a stroke with a Down at `x` and Moves at `a`, one after each time `h`, without wobble smoothing, loop mitigation and
resampling by angle. -/
theorem swung_stroke {ops : List (Op XR XR)} {rs : List (Response XR XR)} {m : StrokeModeler XR XR} {e : Event XR XR}
    {es : List (Event XR XR)} {x a : ℂ} {t₀ h : ℝ} (r0 : Realizes p P) (v0 : P.Valid) (hloop : p.position.loop.isEnabled = false)
    (hw : P.wobble = none) (ha : P.maxAngle = none) (h0 : 0 < h) (h1 : h * P.rate ≤ 1) (hses : Session ops rs m) (hr : Regular ops rs)
    (hp : (known ops rs).params = some p) (hs : strokeOf ops rs = e :: es) (hx : e.input.position = V x) (ht : e.input.time = fin t₀)
    (hm : ∀ j (h' : j < es.length), MoveAt a (t₀ + (j + 1 : ℕ) * h) es[j].input) :
    (resultsOf (e :: es)).map (·.position) =
      (List.range (es.length + 1)).map fun k => V (a + (swing P.mass P.drag h k).1 • (x - a)) := by
  obtain ⟨_, _, -, -, c1, -⟩ := hses.stroke hr hp hs
  have k1 := course_kins r0 v0 c1 hloop
  simp only [Ref.stroke, List.map_cons, List.cons.injEq] at k1
  have hx' : toPoint e.input.position = x := by rw [hx]; simp
  have ht' : toReal e.input.time = t₀ := by rw [ht]; simp
  rw [hx', ht'] at k1
  have := swung_events v0 hw ha h0 h1 es (Ref.swung_start h x a t₀) (fun j h => by simpa using hm j h) k1.2
  obtain ⟨o, ho, ho'⟩ := Option.map_eq_some_iff.1 k1.1
  rw [List.map_cons, List.map_nil, List.map_eq_cons_iff] at ho'
  obtain ⟨r, o, rfl, hr, ho''⟩ := ho'
  obtain rfl := List.map_eq_nil_iff.1 ho''
  have hres : resultsOf (e :: es) = r :: resultsOf es := by simp [resultsOf, ho]
  rw [hres, List.map_cons, this, List.range_succ_eq_map, List.map_cons, List.map_map]
  congr 1
  · have := congrArg TipState.position hr
    simp only [Result.kin, tip] at this
    rw [this]
    simp [Ref.start, swing]
  · apply List.map_congr_left
    intro j _
    simp

theorem no_wobble (hr : Realizes p P) (h : p.wobble.isEnabled = false) : P.wobble = none := by
  have := hr.wobble
  cases hw : P.wobble with
  | none => rfl
  | some w =>
    rw [hw] at this
    simp only at this
    rw [this] at h
    cases h

theorem no_angle (hr : Realizes p P) (hv : P.Valid) (h : p.sampling.maxEstimatedAngle = fin (-1)) : P.maxAngle = none := by
  have := hr.maxAngle
  cases ha : P.maxAngle with
  | none => rfl
  | some a =>
    rw [ha] at this
    simp only at this
    rw [this, fin_inj] at h
    have := (hv.maxAngle a ha).1
    linarith

/-- C66: when the tip settles. Without wobble smoothing, loop mitigation and resampling by angle, for any parameters that pass
validation there is a sequence of factors such that every stroke with a Down at `x` and Moves at `a`, one for each period of the output
rate, has its results at `a + κ k * (x - a)`; and these tend to `a` if and only if
2 * drag_constant / rate + 1 / (spring_mass_constant * rate^2) < 4. -/
theorem C66_settles_iff_exact (hval : validateStrokeModelParams p = .ok) {M d f : ℝ} (hM : p.position.springMassConstant = fin M)
    (hd : p.position.dragConstant = fin d) (hf : p.sampling.minOutputRate = fin f) (hloop : p.position.loop.isEnabled = false)
    (hwobble : p.wobble.isEnabled = false) (hangle : p.sampling.maxEstimatedAngle = fin (-1)) :
    ∃ κ : ℕ → ℝ, (Tendsto κ atTop (𝓝 0) ↔ 2 * d / f + 1 / (M * f ^ 2) < 4) ∧
      ∀ {ops : List (Op XR XR)} {rs : List (Response XR XR)} {m : StrokeModeler XR XR} {e : Event XR XR} {es : List (Event XR XR)}
        {x a : ℂ} {t₀ : ℝ}, Session ops rs m → Regular ops rs → (known ops rs).params = some p → strokeOf ops rs = e :: es →
        e.input.position = V x → e.input.time = fin t₀ →
        (∀ j (h : j < es.length), MoveAt a (t₀ + (j + 1 : ℕ) / f) es[j].input) →
        (resultsOf (e :: es)).map (·.position) = (List.range (es.length + 1)).map fun k => V (a + κ k * (x - a)) := by
  obtain ⟨P₀, r0, v0⟩ := realizes_of_valid hval
  have e1 : P₀.mass = M := by have := r0.mass; rw [hM, fin_inj] at this; exact this.symm
  have e2 : P₀.drag = d := by have := r0.drag; rw [hd, fin_inj] at this; exact this.symm
  have e3 : P₀.rate = f := by have := r0.rate; rw [hf, fin_inj] at this; exact this.symm
  have hM0 := v0.mass
  have hd0 := v0.drag
  have hf0 := v0.rate
  rw [e1] at hM0
  rw [e2] at hd0
  rw [e3] at hf0
  have hw := no_wobble r0 hwobble
  have ha := no_angle r0 v0 hangle
  refine ⟨fun k => (swing M d (1 / f) k).1, ?_, ?_⟩
  · rw [swing_tendsto hM0 hd0 (by positivity)]
    have : 2 * d * (1 / f) + (1 / f) ^ 2 / M = 2 * d / f + 1 / (M * f ^ 2) := by field_simp
    rw [this]
  · intro ops rs m e es x a t₀ h hr hp hs hx ht hm
    have := swung_stroke r0 v0 hloop hw ha (h := 1 / f) (by positivity) (by rw [e3, one_div, inv_mul_cancel₀ hf0.ne']) h hr hp hs hx ht
      (fun j h => by rw [mul_one_div]; exact hm j h)
    rw [this]
    simp [e1, e2]

section Examples
open Ex

/-- Moves at `a`, one for each period of the rate 180. -/
def Ex.resting (a : ℂ) (t₀ : ℝ) (k : ℕ) : ℕ → List (Input XR XR)
  | 0 => []
  | n + 1 => xin .move a (t₀ + (k + 1 : ℕ) / 180) 0.3 1.1 2.1 :: resting a t₀ (k + 1) n

theorem Ex.resting_follows (a : ℂ) (t₀ : ℝ) (n : ℕ) : ∀ (k : ℕ) (e : EventType) (x : ℂ),
    XR.Follows xplain (xin e x (t₀ + k / 180) 0.3 1.1 2.1) (resting a t₀ k n) := by
  induction n with
  | zero => intros; trivial
  | succ n ih =>
    intro k e x
    refine ⟨fits_xin (by push_cast; linarith), .inr ⟨rfl, ?_⟩, good_fin _, .inl rfl, ih _ _ _⟩
    simp [xin, xparams, xplain]
    linarith

theorem Ex.resting_spec (a : ℂ) (t₀ : ℝ) (n : ℕ) : ∀ k, (resting a t₀ k n).length = n ∧
    ∀ j (h : j < (resting a t₀ k n).length), MoveAt a (t₀ + (k + j + 1 : ℕ) / 180) (resting a t₀ k n)[j] := by
  induction n with
  | zero => intro k; exact ⟨rfl, fun j h => by simp [resting] at h⟩
  | succ n ih =>
    intro k
    obtain ⟨h1, h2⟩ := ih (k + 1)
    refine ⟨by simp [resting, h1], fun j h => ?_⟩
    cases j with
    | zero => exact ⟨rfl, rfl, rfl⟩
    | succ j =>
      have := h2 j (by simpa [resting] using h)
      rw [show k + 1 + j + 1 = k + (j + 1) + 1 by omega] at this
      simpa [resting] using this

/-- The parameters of the unit tests meet the condition; and there are such strokes with any number of Moves. -/
example (x a : ℂ) (t₀ : ℝ) (n : ℕ) (hn : n < 2147483645) :
    validateStrokeModelParams xplain = .ok ∧ xplain.position.springMassConstant = fin (11 / 32400) ∧
    xplain.position.dragConstant = fin 72 ∧ xplain.sampling.minOutputRate = fin 180 ∧ xplain.position.loop.isEnabled = false ∧
    xplain.wobble.isEnabled = false ∧ xplain.sampling.maxEstimatedAngle = fin (-1) ∧
    (2 * 72 / 180 + 1 / (11 / 32400 * 180 ^ 2) : ℝ) < 4 ∧
    ∃ ops rs m e es, Session ops rs m ∧ Regular ops rs ∧ (known ops rs).params = some xplain ∧ strokeOf ops rs = e :: es ∧
      e.input.position = V x ∧ e.input.time = fin t₀ ∧ es.length = n ∧
      ∀ j (h : j < es.length), MoveAt a (t₀ + (j + 1 : ℕ) / 180) es[j].input := by
  have hv : validateStrokeModelParams xplain = .ok := by unfold xplain xparams; valid
  refine ⟨hv, rfl, rfl, rfl, rfl, rfl, rfl, by norm_num, ?_⟩
  obtain ⟨s1, s2⟩ := resting_spec a t₀ n 0
  have hf := resting_follows a t₀ n 0 .down x
  rw [Nat.cast_zero, zero_div, add_zero] at hf
  obtain ⟨rs, m, h1, h2, h3, h4, -⟩ := exists_stroke hv rfl ⟨isFinite_fin _, isFinite_fin _, isFinite_fin _⟩ (good_fin _) hf
    (by rw [s1]; exact hn)
  refine ⟨calls xplain (xin .down x t₀ 0.3 1.1 2.1 :: resting a t₀ 0 n), rs, m, ?_⟩
  generalize strokeOf _ rs = l at h4 ⊢
  cases l with
  | nil => simp at h4
  | cons e es =>
    simp only [List.map_cons, List.cons.injEq] at h4
    obtain ⟨h4, h5⟩ := h4
    refine ⟨e, es, h1, h2, h3, rfl, by rw [h4]; rfl, by rw [h4]; rfl, ?_, ?_⟩
    · rw [← s1, ← h5, List.length_map]
    · intro j h
      have h' : j < (resting a t₀ 0 n).length := by rw [← h5, List.length_map]; exact h
      have e1 : es[j].input = (resting a t₀ 0 n)[j] := by
        have : (es.map Event.input)[j]'(by simpa using h) = (resting a t₀ 0 n)[j] := by simp only [h5]
        simpa using this
      rw [e1]
      simpa using s2 j h'

end Examples

end
end Ink
