import Verif.Lemmas.TestPlan
import Verif.Examples.Base
/-! # The plan of the Kalman filter of kalman_predictor_test.cc, followed by the kernel -/
namespace Ink
open scoped Ink.Ex

theorem stretch4 : stretch state4 23 (fun _ u => decide (u = state5)) = true := by kernel_rfl

theorem stretch5 : stretch state5 23 (fun _ u => decide (u = state6)) = true := by kernel_rfl

theorem stretch6 : stretch state6 23 (fun _ u => decide (u = state7)) = true := by kernel_rfl

theorem stretch7 : stretch state7 23 (fun _ u => decide (u = state8)) = true := by kernel_rfl

theorem stretch8 : stretch state8 0 (fun pl s => pl.visit s fun t => pl.visit t fun u => decide (u = s)) = true := by kernel_rfl

end Ink
