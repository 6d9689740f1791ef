import Verif.Model.Session
import Verif.IEEE.Libm
import Verif.IEEE.Round
import Verif.IEEE.Reference
import Verif.Spec.History
import Verif.Lemmas.Predictor
import Verif.Lemmas.Equiv
import Verif.Examples.Base
import Verif.Props.Protocol
import Verif.Lemmas.Buffer
import Verif.Lemmas.Tips
import Verif.Props.SaveRestore
import Verif.Props.Counts
import Verif.Spec.Track
import Verif.Lemmas.Track
import Verif.Lemmas.Query
import Verif.Props.Stylus
import Verif.Spec.Stroke
import Verif.Lemmas.Stroke
import Verif.Props.Replay
import Verif.Exact.XR
import Verif.Lemmas.Course
import Verif.Spec.Ref
import Verif.Exact.Kin
import Verif.Exact.Wobble
import Verif.Lemmas.Total
import Verif.Exact.Stylus
import Verif.Exact.Refine
import Verif.Exact.Angle
import Verif.Exact.Exists
import Verif.Lemmas.Window
import Verif.Exact.Loop
import Verif.Lemmas.Ref
import Verif.Exact.Told
import Verif.Examples.Exact
import Verif.Props.Times
import Verif.Props.Spring
import Verif.Spec.Foot
import Verif.Exact.Foot
import Verif.Exact.Answer
import Verif.Props.Projection
import Verif.Spec.Average
import Verif.Props.Wobble
import Verif.IEEE.Value
import Verif.Props.Params
import Verif.Props.Turn
import Verif.Props.Window
import Verif.Spec.Mitigation
import Verif.Exact.Mitigate
import Verif.Props.Loop
import Verif.Lemmas.Fed
import Verif.Lemmas.Forecast
import Verif.Spec.Forecast
import Verif.Exact.Filter
import Verif.Exact.Forecast
import Verif.Exact.Predict
import Verif.Props.Kalman
import Verif.Props.Filter
import Verif.Examples.Kalman
import Verif.Props.Forecast
import Verif.Props.Finite
import Verif.IEEE.Real
import Verif.IEEE.Angle
import Verif.IEEE.Tame
import Verif.Props.Total
import Verif.Props.End
import Verif.Spec.Units
import Verif.Exact.Units
import Verif.Exact.Convert
import Verif.Exact.Agnostic
import Verif.Props.Units
import Verif.Props.Memory
import Verif.Props.MoveCount
import Verif.Props.FloatTimes
import Verif.Props.FloatSpring
import Verif.Props.FloatStylus
import Verif.Spec.Symmetry
import Verif.Lemmas.Symmetry
import Verif.Lemmas.SymmetryKalman
import Verif.IEEE.Symmetry
import Verif.Exact.Symmetry
import Verif.Props.Symmetry
import Verif.Lemmas.Settle
import Verif.Props.Settle
import Verif.Props.Forget
import Verif.Props.Rotate
import Verif.Props.Rounding
import Verif.Props.FloatRate
import Verif.Tests.StrokeModeler
import Verif.Tests.Parts
import Verif.Props.Motion
import Verif.Props.UpTimes
import Verif.Props.Blend
import Verif.Props.Swing
import Verif.Spec.Redundant
import Verif.Props.Redundant
import Verif.Model.Move
import Verif.Props.Moved
import Verif.Props.Overflow
import Verif.Lemmas.Learn
import Verif.Props.Learn
import Verif.Props.Foresee
import Verif.Props.Thrown
import Verif.Lemmas.Close
import Verif.Props.Close
import Verif.IEEE.Fair
import Verif.Lemmas.Average
import Verif.Spec.Ordinary
import Verif.Props.Ordinary
import Verif.Lemmas.Pace
import Verif.Lemmas.LoopValue
import Verif.Props.Plain
import Verif.Props.Heading
import Verif.Props.Ahead
import Verif.Lemmas.Drag
import Verif.Props.Drag
import Verif.IEEE.Dyadic
import Verif.IEEE.Double
import Verif.Lemmas.Hold
import Verif.Lemmas.Gain
import Verif.Lemmas.Plan
import Verif.Lemmas.TestPlan
import Verif.Lemmas.PlanRun1
import Verif.Lemmas.PlanRun2
import Verif.Lemmas.PlanRun
import Verif.Lemmas.Reckon
import Verif.Props.Foretell
import Verif.Lemmas.Cap
import Verif.Props.Farsight
import Verif.Props.Upcoming
import Verif.Props.Steady
import Verif.Lemmas.Line
import Verif.Props.Ruled
import Verif.Props.RuledAhead
import Verif.Audit
