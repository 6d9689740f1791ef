import Verif.Lemmas.PlanRun1
import Verif.Lemmas.PlanRun2
/-! # The plan of the Kalman filter of kalman_predictor_test.cc -/
namespace Ink
open Scalar Fl

theorem Plan.run_trans (pl : Plan) {n : ℕ} {s t : Plan.State} (h : pl.steps n s (fun u => decide (u = t)) = true) (h' : ∃ m, pl.run m t = true) :
    ∃ m, pl.run m s = true := by
  obtain ⟨m, h'⟩ := h'
  exact ⟨m + n, pl.steps_trans h h'⟩

theorem testPlan_runs : ∃ n, testPlan.run n Plan.start = true := by
  have h0 := stretch0
  have h1 := stretch1
  have h2 := stretch2
  have h3 := stretch3
  have h4 := stretch4
  have h5 := stretch5
  have h6 := stretch6
  have h7 := stretch7
  have h8 := stretch8
  rw [stretch_eq] at h0 h1 h2 h3 h4 h5 h6 h7 h8
  refine testPlan.run_trans h0 ?_
  refine testPlan.run_trans h1 ?_
  refine testPlan.run_trans h2 ?_
  refine testPlan.run_trans h3 ?_
  refine testPlan.run_trans h4 ?_
  refine testPlan.run_trans h5 ?_
  refine testPlan.run_trans h6 ?_
  refine testPlan.run_trans h7 ?_
  exact ⟨0, h8⟩

/-- The noises of kalman_predictor_test.cc. -/
def testNoise : Fl f64 := Scalar.ofRatio 26458 100000000
@[inherit_doc testNoise] def testMeasurementNoise : Fl f64 := Scalar.ofRatio 26458 1000000

theorem testNoise_is : Dy.Is testNoise (.num false 4880639547022073 1010) := by
  have h : testNoise = Scalar.ofInt 26458 / Scalar.ofInt 100000000 := by decide +kernel
  have e : (.num false 4880639547022073 1010 : Dy) = Dy.ofInt 26458 / Dy.ofInt 100000000 := by decide +kernel
  rw [h, e]
  exact Dy.is_ofInt.div Dy.is_ofInt

theorem testMeasurementNoise_is : Dy.Is testMeasurementNoise (.num false 7625999292221989 1016) := by
  have h : testMeasurementNoise = Scalar.ofInt 26458 / Scalar.ofInt 1000000 := by decide +kernel
  have e : (.num false 7625999292221989 1016 : Dy) = Dy.ofInt 26458 / Dy.ofInt 1000000 := by decide +kernel
  rw [h, e]
  exact Dy.is_ofInt.div Dy.is_ofInt

/-- Whatever the filter of kalman_predictor_test.cc measures, however often: its estimate is finite and bounded by the measurements. -/
theorem measured {A : ℝ} (hA : Decent A) {n : ℤ} {zs : List (Fl f64)} (hne : zs ≠ []) (hzs : ∀ z ∈ zs, Finite z ∧ |Fl.num z| ≤ A)
    {f : KalmanFilter (Fl f64)} (hm : measure (makeKalmanFilter testNoise testMeasurementNoise n) zs = .ok f) :
    Plan.Bounded A 3 4 6 3 f.stateEstimation := by
  obtain ⟨N, hN⟩ := testPlan_runs
  have := testPlan.bounded_measure testPlan_ok hA hN (n' := 4) rfl testNoise_is testMeasurementNoise_is hne hzs hm
  simpa [testPlan] using this

end Ink
