import Verif.Lemmas.TestPlan
import Verif.Examples.Base
/-! # The plan of the Kalman filter of kalman_predictor_test.cc, followed by the kernel -/
namespace Ink
open scoped Ink.Ex

theorem stretch0 : stretch Plan.start 23 (fun _ u => decide (u = state1)) = true := by kernel_rfl

theorem stretch1 : stretch state1 23 (fun _ u => decide (u = state2)) = true := by kernel_rfl

theorem stretch2 : stretch state2 23 (fun _ u => decide (u = state3)) = true := by kernel_rfl

theorem stretch3 : stretch state3 23 (fun _ u => decide (u = state4)) = true := by kernel_rfl

end Ink
