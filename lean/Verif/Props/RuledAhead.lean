import Verif.Props.Ruled
import Verif.Props.Farsight
import Verif.Props.Ahead
/-!
# Predictions along an axis during usual strokes on floats: C81
-/
namespace Ink
open Scalar Arith
section Ahead
open Fl
variable [Libm] [LibmFair] {ops : List (Op (Fl f32) (Fl f64))} {rs : List (Response (Fl f32) (Fl f64))} {m m' : StrokeModeler (Fl f32) (Fl f64)}

/-- C81, predictions during usual strokes: with the stroke end predictor there are no NaN coordinates either. -/
theorem C81_usual_prediction_float (h : Session ops rs m) (hr : Regular ops rs) {p : StrokeModelParams (Fl f32) (Fl f64)}
    (hp : (known ops rs).params = some p) (hw : p.wobble.isEnabled = false) (hend : p.prediction = .strokeEnd)
    {R g G : ℝ} (hpl : Plain p R g G (strokeOf ops rs)) {c : Fl f32} (hc : isFinite c = true)
    {v : List (Result (Fl f32) (Fl f64))} {resp : Response (Fl f32) (Fl f64)} (hst : step m (.predict v) = .ok (m', resp)) :
    ((∀ f ∈ strokeOf ops rs, (f.input.position.x =ᵇ c) = true) → ∀ r ∈ resp.results,
      (r.position.x =ᵇ c) = true ∧ (r.velocity.x =ᵇ 0) = true ∧ (r.acceleration.x =ᵇ 0) = true) ∧
    ((∀ f ∈ strokeOf ops rs, (f.input.position.y =ᵇ c) = true) → ∀ r ∈ resp.results,
      (r.position.y =ᵇ c) = true ∧ (r.velocity.y =ᵇ 0) = true ∧ (r.acceleration.y =ᵇ 0) = true) := by
  obtain ⟨-, -, hb⟩ := C73_ahead_float h hr hp hend hpl hst
  obtain ⟨hx, hy⟩ := C81_prediction_float h hr hp hw hc hst
  refine ⟨fun hin r hr => ?_, fun hin r hr => ?_⟩
  · obtain ⟨a, b, d⟩ := hx hin r hr
    obtain ⟨a', b', d'⟩ := hb r hr
    exact ⟨a.sure a'.finx, b.sure b'.finx, d.sure d'.finx⟩
  · obtain ⟨a, b, d⟩ := hy hin r hr
    obtain ⟨a', b', d'⟩ := hb r hr
    exact ⟨a.sure a'.finy, b.sure b'.finy, d.sure d'.finy⟩

/-- C81, predictions during usual strokes: likewise with the Kalman predictor under the conditions of C78. -/
theorem C81_usual_kalman_float (h : Session ops rs m) (hr : Regular ops rs) {p : StrokeModelParams (Fl f32) (Fl f64)}
    (hp : (known ops rs).params = some p) (hw : p.wobble.isEnabled = false) {k : KalmanParams (Fl f32) (Fl f64)} (hk : p.prediction = .kalman k)
    (hpn : k.processNoise = Scalar.ofRatio 26458 100000000) (hmn : k.measurementNoise = Scalar.ofRatio 26458 1000000)
    (hi : (known ops rs).prev ≠ none) {R g G : ℝ} (hpl : Plain p R g G (strokeOf ops rs))
    (hR : reach (num p.position.springMassConstant) (num p.position.dragConstant) R ≤ 2 ^ 20) (hg : 1 / 2 ^ 10 ≤ g)
    (hrate : num p.sampling.minOutputRate ≤ 2 ^ 10)
    (hcatch : 26 * reach (num p.position.springMassConstant) (num p.position.dragConstant) R / num k.minCatchupVelocity *
      num p.sampling.minOutputRate ≤ 2 ^ 27)
    (hint : num k.predictionInterval * num p.sampling.minOutputRate ≤ 2 ^ 8)
    (ha : |num k.accelerationWeight| ≤ 2 ^ 3) (hj : |num k.jerkWeight| ≤ 2 ^ 3) (hmax : 2 ≤ k.maxTimeSamples) (hmin : 2 ≤ k.minStableIteration)
    (hapart : (acceptedOf (strokeOf ops rs)).IsChain fun a b => g ≤ num b.time - num a.time) {c : Fl f32} (hc : isFinite c = true)
    {v : List (Result (Fl f32) (Fl f64))} {resp : Response (Fl f32) (Fl f64)} (hst : step m (.predict v) = .ok (m', resp)) :
    ((∀ f ∈ strokeOf ops rs, (f.input.position.x =ᵇ c) = true) → ∀ r ∈ resp.results,
      (r.position.x =ᵇ c) = true ∧ (r.velocity.x =ᵇ 0) = true ∧ (r.acceleration.x =ᵇ 0) = true) ∧
    ((∀ f ∈ strokeOf ops rs, (f.input.position.y =ᵇ c) = true) → ∀ r ∈ resp.results,
      (r.position.y =ᵇ c) = true ∧ (r.velocity.y =ᵇ 0) = true ∧ (r.acceleration.y =ᵇ 0) = true) := by
  have hb := C78_farsight_float h hr hp hk hpn hmn hi hpl hR hg hrate hcatch hint ha hj hmax hmin hapart hst
  obtain ⟨hx, hy⟩ := C81_prediction_float h hr hp hw hc hst
  refine ⟨fun hin r hr => ?_, fun hin r hr => ?_⟩
  · obtain ⟨a, b, d⟩ := hx hin r hr
    obtain ⟨a', b', d', -⟩ := hb r hr
    exact ⟨a.sure a'.finx, b.sure b'.finx, d.sure d'.finx⟩
  · obtain ⟨a, b, d⟩ := hy hin r hr
    obtain ⟨a', b', d', -⟩ := hb r hr
    exact ⟨a.sure a'.finy, b.sure b'.finy, d.sure d'.finy⟩

end Ahead

section Examples
open Ex Fl

/-- A Down and two Moves on the line y = 1/3. -/
def Ex.railOps (p : StrokeModelParams F32 F64) : List (Op F32 F64) :=
  [.resetParams p, .update ⟨.down, ⟨0, fl 1 3⟩, 0, 1, 1, -1⟩ [], .update ⟨.move, ⟨fl 1 100, fl 1 3⟩, d 1 50, 1, 1, -1⟩ [],
   .update ⟨.move, ⟨1, fl 1 3⟩, d 2 50, 1, 1, -1⟩ []]

/-- C81 applies to predictions of the stroke end predictor in the middle of this stroke, and Predict returns. -/
example [Libm] : ∃ (rs : List (Response F32 F64)) (m : StrokeModeler F32 F64), Session (railOps ruledParams) rs m ∧ Regular (railOps ruledParams) rs ∧
    (known (railOps ruledParams) rs).params = some ruledParams ∧ ruledParams.wobble.isEnabled = false ∧ ruledParams.prediction = .strokeEnd ∧
    Plain ruledParams 4 (1 / 64) (1 / 32) (strokeOf (railOps ruledParams) rs) ∧ isFinite (fl 1 3) = true ∧
    (∀ f ∈ strokeOf (railOps ruledParams) rs, (f.input.position.y =ᵇ fl 1 3) = true) ∧
    ∃ m' r, step m (.predict []) = .ok (m', r) ∧ 1 ≤ r.results.length := by
  obtain ⟨rs, m, h, hP⟩ := exists_session (ops := railOps ruledParams) (P := fun rs m => noStale (railOps ruledParams) rs &&
    fullCheck (strokeOf (railOps ruledParams) rs) && decide ((known (railOps ruledParams) rs).params = some ruledParams) &&
    (strokeOf (railOps ruledParams) rs).all (fun f => f.input.position.y =ᵇ fl 1 3) &&
    match step m (.predict []) with
    | .ok (_, r) => decide (1 ≤ r.results.length)
    | _ => false) (by kernel_rfl)
  simp only [Bool.and_eq_true, decide_eq_true_eq, List.all_eq_true] at hP
  obtain ⟨⟨⟨⟨h1, h2⟩, h5⟩, h7⟩, h8⟩ := hP
  have hpl := (full_plain h2).1
  refine ⟨rs, m, h, ⟨noStale_iff h1, ?_⟩, h5, rfl, rfl,
    ⟨hpl.mass, hpl.drag, hpl.suits, hpl.rate, hpl.loop, by simp [ruledParams], hpl.region, hpl.inputs, hpl.early, hpl.spaced, hpl.gaps,
      hpl.exact, hpl.short⟩, by decide +kernel, h7, ?_⟩
  · intro a p b h hd
    have hm : Op.resetParams p ∈ railOps ruledParams := by simp [h]
    simp [railOps] at hm
    simp [hm, ruledParams, fullParams, params] at hd
  · split at h8
    · rename_i m' r hs
      exact ⟨m', r, hs, of_decide_eq_true h8⟩
    · cases h8

/-- The parameters of the example for C77 without wobble smoothing. -/
def Ex.railParams : StrokeModelParams F32 F64 := { foreParams with wobble := { foreParams.wobble with isEnabled := false } }

/-- C81 applies to predictions of the Kalman predictor under the conditions of C78, and Predict returns. -/
example [Libm] [LibmFair] : ∃ (rs : List (Response F32 F64)) (m : StrokeModeler F32 F64), Session (railOps railParams) rs m ∧ Regular (railOps railParams) rs ∧
    (known (railOps railParams) rs).params = some railParams ∧ railParams.wobble.isEnabled = false ∧ railParams.prediction = .kalman testKalman ∧
    testKalman.processNoise = Scalar.ofRatio 26458 100000000 ∧ testKalman.measurementNoise = Scalar.ofRatio 26458 1000000 ∧
    (known (railOps railParams) rs).prev ≠ none ∧ Plain railParams 4 (1 / 64) (1 / 32) (strokeOf (railOps railParams) rs) ∧
    reach (num railParams.position.springMassConstant) (num railParams.position.dragConstant) 4 ≤ 2 ^ 20 ∧ (1 : ℝ) / 2 ^ 10 ≤ 1 / 64 ∧
    num railParams.sampling.minOutputRate ≤ 2 ^ 10 ∧
    26 * reach (num railParams.position.springMassConstant) (num railParams.position.dragConstant) 4 /
      num testKalman.minCatchupVelocity * num railParams.sampling.minOutputRate ≤ 2 ^ 27 ∧
    num testKalman.predictionInterval * num railParams.sampling.minOutputRate ≤ 2 ^ 8 ∧
    |num testKalman.accelerationWeight| ≤ 2 ^ 3 ∧ |num testKalman.jerkWeight| ≤ 2 ^ 3 ∧
    2 ≤ testKalman.maxTimeSamples ∧ 2 ≤ testKalman.minStableIteration ∧
    ((acceptedOf (strokeOf (railOps railParams) rs)).IsChain fun a b => 1 / 64 ≤ num b.time - num a.time) ∧
    isFinite (fl 1 3) = true ∧ (∀ f ∈ strokeOf (railOps railParams) rs, (f.input.position.y =ᵇ fl 1 3) = true) ∧
    testKalman.minStableIteration ≤ (acceptedOf (strokeOf (railOps railParams) rs)).length ∧
    ∃ m' r, step m (.predict []) = .ok (m', r) := by
  obtain ⟨rs, m, h, hP⟩ := exists_session (ops := railOps railParams) (P := fun rs _ => noStale (railOps railParams) rs &&
    fullCheck (strokeOf (railOps railParams) rs) &&
    decide ((acceptedOf (strokeOf (railOps railParams) rs)).IsChain fun a b => (2 : ℤ) ^ f64.q ≤ 64 * (Fl.key b.time - Fl.key a.time)) &&
    (strokeOf (railOps railParams) rs).all (fun f => f.input.position.y =ᵇ fl 1 3) &&
    decide ((known (railOps railParams) rs).params = some railParams ∧ (known (railOps railParams) rs).prev ≠ none ∧
      2 ≤ (acceptedOf (strokeOf (railOps railParams) rs)).length)) (by kernel_rfl)
  simp only [Bool.and_eq_true] at hP
  obtain ⟨⟨⟨⟨h1, h2⟩, h3⟩, h6⟩, h4⟩ := hP
  rw [decide_eq_true_eq] at h4
  rw [List.all_eq_true] at h6
  obtain ⟨f1, f2, f3⟩ := fore_facts
  have hreg : Regular (railOps railParams) rs := by
    refine ⟨noStale_iff h1, ?_⟩
    intro a p b h hd
    have hm : Op.resetParams p ∈ railOps railParams := by simp [h]
    simp [railOps] at hm
    simp [hm, railParams, foreParams] at hd
  have hpl := (full_plain h2).1
  have hpl' : Plain railParams 4 (1 / 64) (1 / 32) (strokeOf (railOps railParams) rs) :=
    ⟨hpl.mass, hpl.drag, hpl.suits, hpl.rate, hpl.loop, by simp [railParams], hpl.region, hpl.inputs, hpl.early, hpl.spaced, hpl.gaps,
      hpl.exact, hpl.short⟩
  refine ⟨rs, m, h, hreg, h4.1, rfl, rfl, by decide +kernel, by decide +kernel, h4.2.1, hpl', f3.trans (by norm_num), by norm_num,
    by change num foreParams.sampling.minOutputRate ≤ _; rw [f1]; norm_num, fore_limits.1,
    by change _ * num foreParams.sampling.minOutputRate ≤ _; rw [f1]; norm_num; linarith, ?_, ?_, by decide, by decide, times_apart h3,
    by decide +kernel, h6, by change (2 : ℤ) ≤ _; exact_mod_cast h4.2.2, ?_⟩
  · have h1 : |Fl.key testKalman.accelerationWeight| ≤ (2 : ℤ) ^ 3 * 2 ^ f32.q := by decide +kernel
    have : |((Fl.key testKalman.accelerationWeight : ℤ) : ℝ)| ≤ (2 : ℝ) ^ 3 * 2 ^ f32.q := by exact_mod_cast h1
    rw [num, abs_div, abs_of_pos (by positivity : (0 : ℝ) < 2 ^ f32.q), div_le_iff₀ (by positivity)]
    exact this
  · have h1 : |Fl.key testKalman.jerkWeight| ≤ (2 : ℤ) ^ 3 * 2 ^ f32.q := by decide +kernel
    have : |((Fl.key testKalman.jerkWeight : ℤ) : ℝ)| ≤ (2 : ℝ) ^ 3 * 2 ^ f32.q := by exact_mod_cast h1
    rw [num, abs_div, abs_of_pos (by positivity : (0 : ℝ) < 2 ^ f32.q), div_le_iff₀ (by positivity)]
    exact this
  · obtain ⟨m', r, hs, -⟩ := C77_foretold_float h hreg h4.1 rfl (by decide +kernel) (by decide +kernel) h4.2.1 hpl' fore_limits.1 fore_limits.2
      (by
        intro op hop
        have ho : ∀ r, Fl.val (-1 : F32) = some r → r ≤ ((2 ^ 27 : ℝ) : EReal) := by
          apply Fl.tidy_iff.1
          right
          rw [Fl.num_neg, Fl.num_one]
          norm_num
        simp only [railOps, List.mem_cons, List.not_mem_nil, or_false] at hop
        rcases hop with rfl | rfl | rfl | rfl
        · trivial
        all_goals exact ho) (by simp [railOps]) []
    exact ⟨m', r, hs⟩

end Examples
end Ink
