import Verif.Props.Rotate
import Verif.Props.Forecast
import Verif.Props.End
/-!
# Predictions of strokes that are turned by any angle, on exact numbers: C61
-/
namespace Ink
open Scalar Arith XR
noncomputable section
open Classical

namespace Ref

/-- What the filter believes depends on the measurements in a linear way; how uncertain it is does not depend on them at all. -/
theorem believe_linear {β : Type} (q r a b : ℝ) (l : List β) (f g : β → ℝ) :
    (believe q r (l.map fun i => a * f i + b * g i)).mean = a • (believe q r (l.map f)).mean + b • (believe q r (l.map g)).mean ∧
    (believe q r (l.map fun i => a * f i + b * g i)).cov = (believe q r (l.map f)).cov ∧
    (believe q r (l.map g)).cov = (believe q r (l.map f)).cov := by
  induction l using List.reverseRecOn with
  | nil => simp [believe, Belief.initial]
  | append_singleton l i ih =>
    rcases l with _ | ⟨j, l⟩
    · refine ⟨?_, rfl, rfl⟩
      ext k
      simp only [List.nil_append, List.map_singleton, believe, List.foldl_nil, Belief.first, Pi.add_apply, Pi.smul_apply, smul_eq_mul]
      split <;> simp
    · obtain ⟨h1, h2, h3⟩ := ih
      simp only [List.map_append, List.map_singleton]
      rw [believe_snoc _ _ (by simp), believe_snoc _ _ (by simp), believe_snoc _ _ (by simp)]
      revert h1 h2 h3
      generalize believe q r ((j :: l).map fun i => a * f i + b * g i) = B
      generalize believe q r ((j :: l).map f) = B₁
      generalize believe q r ((j :: l).map g) = B₂
      intro h1 h2 h3
      have hg : (B.predict q).gain r = (B₁.predict q).gain r := by
        simp only [Belief.gain, Belief.innovation, Belief.predict, h2]
      have hg' : (B₂.predict q).gain r = (B₁.predict q).gain r := by
        simp only [Belief.gain, Belief.innovation, Belief.predict, h3]
      refine ⟨?_, ?_, ?_⟩
      · simp only [Belief.correct, hg, hg']
        simp only [Belief.predict, h1, Matrix.mulVec_add, Matrix.mulVec_smul, dotProduct_add, dotProduct_smul]
        ext k
        simp only [Pi.add_apply, Pi.smul_apply, smul_eq_mul]
        ring
      · simp only [Belief.correct, hg]
        simp only [Belief.predict, h2]
      · simp only [Belief.correct, hg']
        simp only [Belief.predict, h3]

variable {L : ℂ ≃ₗᵢ[ℝ] ℂ}

/-- The image of a motion. -/
def Motion.image (L : ℂ ≃ₗᵢ[ℝ] ℂ) (m : Motion) : Motion := ⟨L m.pos, L m.vel, L m.acc, L m.jerk⟩

theorem later_image (m : Motion) (t : ℝ) : (m.image L).later t = (m.later t).image L := by
  simp only [Motion.later, Motion.image, map_add, map_smul]

theorem mean_image (q r : ℝ) (ins : List (ℂ × ℝ)) (i : Fin 4) :
    (⟨(believe q r ((ins.map (imagePt L)).map fun i => i.1.re)).mean i, (believe q r ((ins.map (imagePt L)).map fun i => i.1.im)).mean i⟩ : ℂ) =
      L ⟨(believe q r (ins.map fun i => i.1.re)).mean i, (believe q r (ins.map fun i => i.1.im)).mean i⟩ := by
  have hL : ∀ z : ℂ, L z = z.re • L 1 + z.im • L Complex.I := by
    intro z
    conv_lhs => rw [← Complex.re_add_im z]
    rw [map_add]
    congr 1
    · rw [← map_smul, Complex.real_smul, mul_one]
    · rw [← map_smul, Complex.real_smul]
  have h1 := (believe_linear q r (L 1).re (L Complex.I).re ins (fun i => i.1.re) (fun i => i.1.im)).1
  have h2 := (believe_linear q r (L 1).im (L Complex.I).im ins (fun i => i.1.re) (fun i => i.1.im)).1
  have e1 : (ins.map (imagePt L)).map (fun i => i.1.re) = ins.map fun i => (L 1).re * i.1.re + (L Complex.I).re * i.1.im := by
    rw [List.map_map]
    refine List.map_congr_left fun i _ => ?_
    show (L i.1).re = _
    rw [hL]
    simp
    ring
  have e2 : (ins.map (imagePt L)).map (fun i => i.1.im) = ins.map fun i => (L 1).im * i.1.re + (L Complex.I).im * i.1.im := by
    rw [List.map_map]
    refine List.map_congr_left fun i _ => ?_
    show (L i.1).im = _
    rw [hL]
    simp
    ring
  rw [e1, e2, h1, h2]
  refine Eq.trans ?_ (hL _).symm
  apply Complex.ext <;> simp <;> ring

theorem sight_image (K : Foresight) (ins : List (ℂ × ℝ)) : sight K (ins.map (imagePt L)) = (sight K ins).image L := by
  have e : latest K (ins.map (imagePt L)) = latest K ins := by
    simp only [latest, List.length_map, List.map_map]
    rfl
  simp only [sight, estimate, mean_image, Motion.image, map_smul, e]

theorem bridge_image (p₀ v₀ p₁ v₁ : ℂ) (T s : ℝ) : bridge (L p₀) (L v₀) (L p₁) (L v₁) T s =
    (L (bridge p₀ v₀ p₁ v₁ T s).1, L (bridge p₀ v₀ p₁ v₁ T s).2.1, L (bridge p₀ v₀ p₁ v₁ T s).2.2) := by
  simp only [bridge, map_add, map_smul]

theorem catchUp_image (K : Foresight) (rate : ℝ) (q : Tip) (m : Motion) : catchUp K rate (q.image L) (m.image L) = catchUp K rate q m := by
  simp only [catchUp, Tip.image, Motion.image, norm_sub_image, L.norm_map]

theorem connect_image (K : Foresight) (rate : ℝ) (q : Tip) (m : Motion) :
    connect K rate (q.image L) (m.image L) = (connect K rate q m).map (Tip.image L) := by
  simp only [connect, catchUp_image, List.map_map]
  refine List.map_congr_left fun i _ => ?_
  simp only [Function.comp_apply, Tip.image, Motion.image, bridge_image]

theorem trust_image (K : Foresight) (n : ℕ) (x : ℂ) (m : Motion) : trust K n (L x) (m.image L) = trust K n x m := by
  simp only [trust, trustError, trustSpeed, trustLine, later_image]
  simp only [Motion.image, norm_sub_image, ← map_smul, ← map_add]

theorem extrapolate_image (rate : ℝ) (m : Motion) (t : ℝ) (n : ℕ) :
    extrapolate rate (m.image L) t n = (extrapolate rate m t n).map (Tip.image L) := by
  simp only [extrapolate, later_image, List.map_map]
  rfl

theorem forecast_image (K : Foresight) (rate : ℝ) (q : Tip) (ins : List (ℂ × ℝ)) :
    forecast K rate (q.image L) (ins.map (imagePt L)) = (forecast K rate q ins).map (Tip.image L) := by
  have e : ((ins.map (imagePt L)).map Prod.fst).getLastD 0 = L ((ins.map Prod.fst).getLastD 0) := by
    rw [← getLastD_image', List.map_map, List.map_map]
    rfl
  simp only [forecast, List.length_map]
  split
  · rfl
  · simp only [beyond, horizon, sight_image, connect_image, extrapolate_image, catchUp_image, List.length_map, e, trust_image, List.map_append]
    rfl

theorem hears_image (P : Params) (s : State) (i : Touch) : hears P (s.image L) (i.image L) = (hears P s i).map (imagePt L) := by
  have h := advance_image (L := L) P s i
  cases i with
  | up x t => rfl
  | move x t =>
    unfold hears
    rw [h]
    cases (advance P s (.move x t)).2 <;> rfl

theorem heard_image (P : Params) (s : State) (is : List Touch) :
    heard P (s.image L) (is.map (Touch.image L)) = (heard P s is).map (imagePt L) := by
  induction is generalizing s with
  | nil => rfl
  | cons i is ih => simp only [List.map_cons, heard, hears_image, advance_image, ih, List.map_append]

theorem known_image (P : Params) (x : ℂ) (t : ℝ) (is : List Touch) :
    known P (L x) t (is.map (Touch.image L)) = (known P x t is).map (imagePt L) := by
  simp only [known, start_image, heard_image, List.map_cons]
  rfl

end Ref

variable {ops ops' : List (Op XR XR)} {rs rs' : List (Response XR XR)} {m m₁ m' m₁' : StrokeModeler XR XR} {p : StrokeModelParams XR XR}
  {v v' : List (Result XR XR)} {r r' : Response XR XR}

/-- The parameters on real numbers are determined by those of the modeler. -/
theorem XR.Realizes.unique {P P' : Ref.Params} (h : Realizes p P) (h' : Realizes p P') (hv : P.Valid) (hv' : P'.Valid) : P = P' := by
  have e1 := fin_inj.1 (h.mass.symm.trans h'.mass)
  have e2 := fin_inj.1 (h.drag.symm.trans h'.drag)
  have e3 := fin_inj.1 (h.rate.symm.trans h'.rate)
  have e4 := fin_inj.1 (h.stop.symm.trans h'.stop)
  have e5 : P.maxIter = P'.maxIter := by have := h.maxIter.symm.trans h'.maxIter; exact_mod_cast this
  have e6 := h.maxOut.symm.trans h'.maxOut
  have e7 : P.maxAngle = P'.maxAngle := by
    have a := h.maxAngle
    have a' := h'.maxAngle
    have b := hv.maxAngle
    have b' := hv'.maxAngle
    cases hP : P.maxAngle with
    | none =>
      cases hP' : P'.maxAngle with
      | none => rfl
      | some x =>
        rw [hP] at a
        rw [hP'] at a'
        have := fin_inj.1 (a.symm.trans a')
        have := (b' x hP').1
        linarith
    | some y =>
      cases hP' : P'.maxAngle with
      | none =>
        rw [hP] at a
        rw [hP'] at a'
        have := fin_inj.1 (a.symm.trans a')
        have := (b y hP).1
        linarith
      | some x =>
        rw [hP] at a
        rw [hP'] at a'
        rw [fin_inj.1 (a.symm.trans a')]
  have e8 : P.wobble = P'.wobble := by
    have a := h.wobble
    have a' := h'.wobble
    rcases hP : P.wobble with _ | ⟨t, lo, hi⟩
    · rcases hP' : P'.wobble with _ | ⟨t', lo', hi'⟩
      · rfl
      · rw [hP] at a
        rw [hP'] at a'
        simp only at a a'
        rw [a'] at a
        cases a
    · rcases hP' : P'.wobble with _ | ⟨t', lo', hi'⟩
      · rw [hP] at a
        rw [hP'] at a'
        simp only at a a'
        rw [a] at a'
        cases a'
      · rw [hP] at a
        rw [hP'] at a'
        simp only at a a'
        rw [a] at a'
        simp only [WobbleParams.mk.injEq, fin_inj, true_and] at a'
        obtain ⟨rfl, rfl, rfl⟩ := a'
        rfl
  cases P
  cases P'
  simp only at e1 e2 e3 e4 e5 e6 e7 e8
  subst e1 e2 e3 e4 e5 e6 e7 e8
  rfl

theorem XR.Foresees.unique {k : KalmanParams XR XR} {K K' : Ref.Foresight} (h : Foresees k K) (h' : Foresees k K') : K = K' := by
  have e1 := fin_inj.1 (h.process.symm.trans h'.process)
  have e2 := fin_inj.1 (h.noise.symm.trans h'.noise)
  have e3 := h.stable.symm.trans h'.stable
  have e4 : K.times = K'.times := by have := h.times.symm.trans h'.times; exact_mod_cast this
  have e5 := fin_inj.1 (h.catchup.symm.trans h'.catchup)
  have e6 := fin_inj.1 (h.accWeight.symm.trans h'.accWeight)
  have e7 := fin_inj.1 (h.jerkWeight.symm.trans h'.jerkWeight)
  have e8 := fin_inj.1 (h.interval.symm.trans h'.interval)
  have e9 := h.samples.symm.trans h'.samples
  have e10 := fin_inj.1 (h.maxError.symm.trans h'.maxError)
  have e11 := fin_inj.1 (h.minSpeed.symm.trans h'.minSpeed)
  have e12 := fin_inj.1 (h.maxSpeed.symm.trans h'.maxSpeed)
  have e13 := fin_inj.1 (h.maxDeviation.symm.trans h'.maxDeviation)
  have e14 : K.baseline = K'.baseline := by
    have a := h.baseline.symm.trans h'.baseline
    cases hK : K.baseline <;> cases hK' : K'.baseline <;> rw [hK, hK'] at a <;> simp_all
  cases K
  cases K'
  simp only at e1 e2 e3 e4 e5 e6 e7 e8 e9 e10 e11 e12 e13 e14
  subst e1 e2 e3 e4 e5 e6 e7 e8 e9 e10 e11 e12 e13 e14
  rfl

/-- What the stroke-end predictor predicts, by the reference model. -/
theorem XR.ends (h : Session ops rs m) (hr : Regular ops rs) (hp : (known ops rs).params = some p) (hk : p.prediction = .strokeEnd)
    (hi : (known ops rs).prev ≠ none) (hoff : p.position.loop.isEnabled = false) (hst : step m (.predict v) = .ok (m', r)) :
    ∃ P e rest, Realizes p P ∧ P.Valid ∧ strokeOf ops rs = e :: rest ∧
      r.status = .ok ∧ r.results.map Result.kin = (Ref.settle P (state P e rest).anchor.1 P.maxIter (1 / P.rate) (state P e rest).tip).2.map tip := by
  have hl : m.lastInput ≠ none := by
    intro hc
    rw [← h.known] at hi
    simp [StrokeModeler.known, hc] at hi
  obtain ⟨e, rest, hs⟩ := List.exists_cons_of_ne_nil (h.in_progress hr hl)
  obtain ⟨P, m₀, hreal, hv, hc, hsame⟩ := h.stroke hr hp hs
  have hl₀ : m₀.lastInput ≠ none := by rw [← hsame.last]; exact hl
  have hmp : m₀.params ≠ none := by
    rw [← hsame.params]
    rw [← h.known] at hp
    have : m.params = some p := hp
    simp [this]
  obtain ⟨e', rest', he, hfed, hft, hfp⟩ := course_fed hreal hv hc
  rw [List.cons.injEq] at he
  obtain ⟨rfl, rfl⟩ := he
  obtain ⟨e', rest', he', htale⟩ := course_tale hreal hv hc
  rw [List.cons.injEq] at he'
  obtain ⟨rfl, rfl⟩ := he'
  have hmoves : ∀ i ∈ rest.map (fun f => touch f.input), i.IsMove := by
    intro i hi
    obtain ⟨f, hf, rfl⟩ := List.mem_map.1 hi
    rw [touch_isMove, htale.going hl₀ f hf]
    simp
  have hlast : (news P e rest).getLast? = some (state P e rest).anchor := Ref.known_last P _ _ _ hmoves
  simp only [StrokeModeler.makePredictor, hk] at hfed
  have hpred := feed_strokeEnd (by simp [given, news, Ref.known]) hfed
  simp only [given, List.getLast?_map, hlast, Option.map_some] at hpred
  have hcons : ∀ q : Ref.Tip, Predictor.constructPrediction (.strokeEnd
      { position := p.position, sampling := p.sampling, lastPosition := some (V (state P e rest).anchor.1) }) (tip q) =
      .ok ((Ref.settle P (state P e rest).anchor.1 P.maxIter (1 / P.rate) q).2.map tip) := by
    intro q
    simp only [Predictor.constructPrediction, StrokeEndPredictor.constructPrediction]
    have e1 : (1 : XR) / p.sampling.minOutputRate = fin (1 / P.rate) := by
      rw [hreal.rate, lit1, fin_div _ hv.rate.ne']
    rw [e1, modelEndOfStroke_eq hreal hv _ rfl q rfl]
  simp only [step] at hst
  obtain ⟨⟨m₁, st, v'⟩, hu, hst⟩ := Outcome.bind_eq_ok.1 hst
  simp only [Outcome.pure_eq, Outcome.ok.injEq, Prod.mk.injEq] at hst
  obtain ⟨rfl, rfl⟩ := hst
  obtain ⟨b', hu', -⟩ := hsame.predict_ok hu
  obtain ⟨h4, tips, h5, h6⟩ := course_predict hreal hv hc hpred hmp hl₀ hu'
  rw [hcons, Outcome.ok.injEq] at h5
  exact ⟨P, e, rest, hreal, hv, hs, h4, (h6 _ h5.symm).2 hoff⟩

theorem state_image {P : Ref.Params} {L : ℂ ≃ₗᵢ[ℝ] ℂ} {e e' : Event XR XR} {rest rest' : List (Event XR XR)}
    (he : e'.input = e.input.image L) (hin : rest'.map Event.input = (rest.map Event.input).map (Input.image L)) :
    state P e' rest' = (state P e rest).image L ∧ news P e' rest' = (news P e rest).map (Ref.imagePt L) := by
  have et : (rest'.map fun f => touch f.input) = (rest.map fun f => touch f.input).map (Ref.Touch.image L) := by
    have := congrArg (List.map touch) hin
    simp only [List.map_map, Function.comp_def, touch_image] at this ⊢
    exact this
  have ep : toPoint e'.input.position = L (toPoint e.input.position) := by rw [he]; rfl
  have eτ : toReal e'.input.time = toReal e.input.time := by rw [he]; rfl
  constructor
  · unfold state
    rw [ep, eτ, et, Ref.start_image, Ref.after_image]
  · unfold news
    rw [ep, eτ, et, Ref.known_image]

theorem forall₂_image {L : ℂ ≃ₗᵢ[ℝ] ℂ} {out out' : List (Result XR XR)} {ts : List Ref.Tip} (h : out.map Result.kin = ts.map tip)
    (h' : out'.map Result.kin = (ts.map (Ref.Tip.image L)).map tip) :
    List.Forall₂ (fun r r' : Result XR XR => ∃ q : Ref.Tip, r.kin = tip q ∧ r'.kin = tip (q.image L)) out out' := by
  induction ts generalizing out out' with
  | nil =>
    obtain rfl : out = [] := by simpa using h
    obtain rfl : out' = [] := by simpa using h'
    exact .nil
  | cons q ts ih =>
    rcases out with _ | ⟨r, out⟩
    · simp at h
    rcases out' with _ | ⟨r', out'⟩
    · simp at h'
    simp only [List.map_cons, List.cons.injEq] at h h'
    exact .cons ⟨q, h.1, h'.1⟩ (ih h.2 h'.2)

/-- C61 for predictions: predictions of turned or mirrored strokes are turned or mirrored, with either predictor, as long as
there is no loop mitigation. (For the Kalman predictor time has to pass between the inputs; otherwise its estimate is not a number.) -/
theorem C61_prediction_exact {L : ℂ ≃ₗᵢ[ℝ] ℂ} (h : Session ops rs m) (h' : Session ops' rs' m') (hr : Regular ops rs) (hr' : Regular ops' rs')
    (hi : ImageStroke L p ops ops' rs rs') (hoff : p.position.loop.isEnabled = false)
    (hd : p.prediction ≠ .disabled) (hk : ∀ k, p.prediction = .kalman k → TimePasses k (acceptedOf (strokeOf ops rs)))
    (hin : (known ops rs).prev ≠ none) (hin' : (known ops' rs').prev ≠ none) (hst : step m (.predict v) = .ok (m₁, r))
    (hst' : step m' (.predict v') = .ok (m₁', r')) :
    r.status = .ok ∧ r'.status = .ok ∧
    List.Forall₂ (fun a b : Result XR XR => ∃ q : Ref.Tip, a.kin = tip q ∧ b.kin = tip (q.image L)) r.results r'.results := by
  have hinp := hi.inputs
  cases hpp : p.prediction with
  | disabled => exact absurd hpp hd
  | strokeEnd =>
    obtain ⟨P, e, rest, h1, h2, h3, h4, h5⟩ := XR.ends h hr hi.params hpp hin hoff hst
    obtain ⟨P', e', rest', h1', h2', h3', h4', h5'⟩ := XR.ends h' hr' hi.params' hpp hin' hoff hst'
    obtain rfl := h1.unique h1' h2 h2'
    rw [h3, h3'] at hinp
    simp only [List.map_cons, List.cons.injEq] at hinp
    have es := (state_image (P := P) hinp.1 hinp.2).1
    refine ⟨h4, h4', forall₂_image h5 ?_⟩
    rw [h5', es]
    simp only [Ref.State.image, Ref.settle_image]
  | kalman k =>
    have ht := hk k hpp
    obtain ⟨P, K, e, rest, w⟩ := h.watched hr hi.params hpp hin
    obtain ⟨P', K', e', rest', w'⟩ := h'.watched hr' hi.params' hpp hin'
    obtain rfl := w.realizes.unique w'.realizes w.valid w'.valid
    obtain rfl := w.foresees.unique w'.foresees
    rw [w.stroke, w'.stroke] at hinp
    simp only [List.map_cons, List.cons.injEq] at hinp
    obtain ⟨es, en⟩ := state_image (P := P) hinp.1 hinp.2
    have hpace := pace_ne w.foresees w.times ht
    obtain ⟨h1, -, h2⟩ := w.foretold (.inr hpace) v m₁ r hst
    obtain ⟨h1', -, h2'⟩ := w'.foretold (.inr (by
      rw [en]
      have : Ref.latest K ((news P e rest).map (Ref.imagePt L)) = Ref.latest K (news P e rest) := by
        simp only [Ref.latest, List.length_map, List.map_map]
        rfl
      rw [this]
      exact hpace)) v' m₁' r' hst'
    refine ⟨h1, h1', forall₂_image (h2 hoff) ?_⟩
    rw [h2' hoff, es, en]
    simp only [Ref.State.image, Ref.forecast_image]

/-- C61 for predictions and rotations. -/
theorem C61_prediction_rotation_exact (u : Circle) (h : Session ops rs m) (h' : Session ops' rs' m') (hr : Regular ops rs) (hr' : Regular ops' rs')
    (hi : ImageStroke (rotation u) p ops ops' rs rs') (hoff : p.position.loop.isEnabled = false)
    (hd : p.prediction ≠ .disabled) (hk : ∀ k, p.prediction = .kalman k → TimePasses k (acceptedOf (strokeOf ops rs)))
    (hin : (known ops rs).prev ≠ none) (hin' : (known ops' rs').prev ≠ none) (hst : step m (.predict v) = .ok (m₁, r))
    (hst' : step m' (.predict v') = .ok (m₁', r')) :
    r.status = .ok ∧ r'.status = .ok ∧
    List.Forall₂ (fun a b : Result XR XR => ∃ q : Ref.Tip, a.kin = tip q ∧
      b.kin = tip ⟨u * q.pos, u * q.vel, u * q.acc, q.time⟩) r.results r'.results := by
  obtain ⟨h1, h2, h3⟩ := C61_prediction_exact h h' hr hr' hi hoff hd hk hin hin' hst hst'
  exact ⟨h1, h2, h3.imp fun a b => fun ⟨q, e1, e2⟩ => ⟨q, e1, by rw [e2]; simp only [Ref.Tip.image, rotation_apply]⟩⟩

open Ex in
/-- Example: a stroke of two inputs and the stroke turned by 180 degrees, with the Kalman predictor; Predict returns something for both. -/
example : ∃ (p : StrokeModelParams XR XR) (k : KalmanParams XR XR) (ops ops' : List (Op XR XR)) (rs rs' : List (Response XR XR))
    (m m' m₁ m₁' : StrokeModeler XR XR) (r r' : Response XR XR), Session ops rs m ∧ Session ops' rs' m' ∧ Regular ops rs ∧ Regular ops' rs' ∧
    ImageStroke (rotation (-1)) p ops ops' rs rs' ∧ p.position.loop.isEnabled = false ∧ p.prediction = .kalman k ∧
    TimePasses k (acceptedOf (strokeOf ops rs)) ∧ (known ops rs).prev ≠ none ∧ (known ops' rs').prev ≠ none ∧
    step m (.predict []) = .ok (m₁, r) ∧ step m' (.predict []) = .ok (m₁', r') ∧ r.results ≠ [] := by
  obtain ⟨rs, m, m₁, r, h1, h2, h3, h4, h5, h6, h7⟩ :=
    xtwo_predict xkalman_valid rfl rfl (c := 0.02) rfl (by norm_num) (x := 1) (by norm_num) le_rfl
  obtain ⟨rs', m', m₁', r', k1, k2, k3, k4, k5, k6, k7⟩ :=
    xtwo_predict xkalman_valid rfl rfl (c := 0.02) rfl (by norm_num) (x := -1) (by norm_num) (by norm_num)
  have ht : TimePasses xkalman (acceptedOf (strokeOf (calls (xpredict xkalman) (xtwo 1)) rs)) := by rw [h5]; exact xtwo_passes rfl 1
  refine ⟨xpredict xkalman, xkalman, _, _, rs, rs', m, m', m₁, m₁', r, r', h1, k1, h2, k2, ⟨h3, k3, ?_⟩, rfl, rfl, ht, h4, k4, h7, k7, ?_⟩
  · rw [k6, h6]
    simp only [xtwo, List.map_cons, List.map_nil, Input.image, xin, toPoint_V, rotation_apply, List.cons.injEq, Input.mk.injEq, V_inj, and_true, true_and]
    constructor <;> apply Complex.ext <;> simp [pt]
  · obtain ⟨P, K, ins, q, -, n, c, hn, hl, -⟩ := C43_connector_exact h1 h2 h3 (k := xkalman) rfl h4 ht (by rw [h5]; simp [xtwo, xkalman]) rfl h7
    intro hc
    rw [hc] at hl
    simp at hl
    omega
end
end Ink
