import Verif.Model.Position
import Verif.Model.Kalman
/-!
# internal/prediction/input_predictor.h, internal/prediction/stroke_end_predictor.*

The class hierarchy of InputPredictor is an inductive type; `MakeCopy` is the identity on values.
-/
namespace Ink
open Scalar Arith

/-- StrokeEndPredictor, stroke_end_predictor.h:36-57 -/
structure StrokeEndPredictor (F D : Type) where
  position : PositionModelerParams F D
  sampling : SamplingParams F D
  lastPosition : Option (Vec2 F)
deriving Repr, DecidableEq

/-- InputPredictor, input_predictor.h:30-56 -/
inductive Predictor (F D : Type) where
  | kalman (p : KalmanPredictor F D)
  | strokeEnd (p : StrokeEndPredictor F D)
deriving Repr, DecidableEq

variable {F D : Type} [Scalar F] [Scalar D] [Arith F D]

namespace StrokeEndPredictor

/-- StrokeEndPredictor::ConstructPrediction, stroke_end_predictor.cc:32-48 -/
def constructPrediction (p : StrokeEndPredictor F D) (last : TipState F D) : List (TipState F D) :=
  match p.lastPosition with
  | none => []
  | some anchor =>
    ((PositionModeler.reset last p.position).modelEndOfStroke anchor (1 / p.sampling.minOutputRate)
      p.sampling.endOfStrokeMaxIterations p.sampling.endOfStrokeStoppingDistance).2

end StrokeEndPredictor

namespace Predictor

/-- Reset: kalman_predictor.cc:53-58, stroke_end_predictor.h:44 -/
def reset : Predictor F D → Predictor F D
  | kalman p => kalman p.reset
  | strokeEnd p => strokeEnd { p with lastPosition := none }

/-- Update: kalman_predictor.cc:60-71, stroke_end_predictor.cc:28-30 -/
def update (pr : Predictor F D) (position : Vec2 F) (time : D) : Outcome (Predictor F D) :=
  match pr with
  | kalman p => kalman <$> p.update position time
  | strokeEnd p => .ok (strokeEnd { p with lastPosition := some position })

/-- ConstructPrediction: kalman_predictor.cc:109-126, stroke_end_predictor.cc:32-48. The output vector is
cleared first by both, so its previous contents do not matter. -/
def constructPrediction (pr : Predictor F D) (last : TipState F D) : Outcome (List (TipState F D)) :=
  match pr with
  | kalman p => p.constructPrediction last
  | strokeEnd p => .ok (p.constructPrediction last)

end Predictor
end Ink
