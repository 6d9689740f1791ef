import Verif.Tests.StrokeModeler
/-!
# Unit tests of the parts of the code, replayed on the model

kalman_predictor_test.cc, utils_test.cc, loop_contraction_mitigation_modeler_test.cc, position_modeler_test.cc and
stylus_state_modeler_test.cc, as far as they ask for numbers that stroke_modeler_test.cc does not reach. Tests of the
transcription, not proofs about it.
-/
namespace Ink.Tests
open Scalar Ex

/-! ## kalman_predictor_test.cc -/

/-- kDefaultKalmanParams, kalman_predictor_test.cc:40-49 -/
def kalman : KalmanParams F32 F64 :=
  ⟨d 26458 100000000, d 26458 1000000, 4, 20, fl 1 100, fl 1 2, fl 1 10, d 1 60, ⟨20, fl 4 100, 3, 15, fl 2 10, fl 4 10⟩⟩

/-- kDefaultSamplingParams, kalman_predictor_test.cc:50-51 -/
def sampling (rate : Nat) : SamplingParams F32 F64 := ⟨ofInt rate, fl 1 1000, 20, 100000, -1⟩

/-- Positions in tenths, times in hundredths. -/
def updates (p : KalmanPredictor F32 F64) : List (Int × Int × Int) → Outcome (KalmanPredictor F32 F64)
  | [] => .ok p
  | (x, y, t) :: l => do updates (← p.update ⟨fl x 10, fl y 10⟩ (d t 100)) l

/-- Equal up to a relative error of 1e-4, for a value given in 1 / `k`. -/
def rel (k : Nat) (x : F32) (e : Int) : Bool :=
  !x.isNaN && !x.isInf && (x.key * k - e * 2 ^ f32.q).natAbs * 10000 ≤ e.natAbs * 2 ^ f32.q

/-- StateNear: the estimate has these coordinates, the position in 1e-6, velocity in 1e-4, acceleration and jerk in 1e-2. -/
def stateNear (s : Option (KalmanState F32)) : List Int → Bool
  | [x, y, u, v, a, b, j, k] => s.any fun s =>
    rel 1000000 s.position.x x && rel 1000000 s.position.y y && rel 10000 s.velocity.x u && rel 10000 s.velocity.y v &&
      rel 100 s.acceleration.x a && rel 100 s.acceleration.y b && rel 100 s.jerk.x j && rel 100 s.jerk.y k
  | _ => false

/-- TipStateNear: all coordinates and the time within 1e-4 of these, given in 1e-4. -/
def tipNear (s : TipState F32 F64) : List Int → Bool
  | [x, y, u, v, a, b, t] =>
    [(s.position.x, x), (s.position.y, y), (s.velocity.x, u), (s.velocity.y, v), (s.acceleration.x, a),
      (s.acceleration.y, b)].all (fun (r, e) => near 10000 r (e, 10000)) && near 10000 s.time (t, 10000)
  | _ => false

def tipsNear : List (TipState F32 F64) → List (List Int) → Bool
  | [], [] => true
  | r :: rs, e :: es => tipNear r e && tipsNear rs es
  | _, _ => false

/-- The estimate and the prediction after some updates. -/
def predicts (p : KalmanPredictor F32 F64) (us : List (Int × Int × Int)) (last : TipState F32 F64) (state : Option (List Int))
    (tips : List (List Int)) : Bool :=
  match updates p us with
  | .ok p => (match state with
      | none => p.getEstimatedState.isNone
      | some e => stateNear p.getEstimatedState e) &&
    match p.constructPrediction last with
    | .ok l => tipsNear l tips
    | _ => false
  | _ => false

/-! TypicalCase -/

#guard predicts (.make kalman (sampling 180)) [(0, 0, 0), (1, 0, 1), (2, 0, 2)] ⟨⟨4, 3⟩, ⟨2, -4⟩, ⟨0, 0⟩, 3⟩ none []
#guard predicts (.make kalman (sampling 180)) [(0, 0, 0), (1, 0, 1), (2, 0, 2), (3, 0, 3)]
  ⟨⟨fl 2 10, 0⟩, ⟨10, 0⟩, ⟨0, 0⟩, d 3 100⟩ (some [300780, 0, 135840, 0, -6681, 0, -338280, 0])
  [[2454, 0, 77094, 0, 3225341, 0, 356], [3008, 0, 135837, 0, 17922293, 0, 411], [3751, 0, 131604, 0, -855994, 0, 467]]
#guard predicts (.make kalman (sampling 180)) [(0, 0, 0), (1, 0, 1), (2, 0, 2), (3, 0, 3), (5, 1, 4)]
  ⟨⟨fl 3 10, 0⟩, ⟨10, 0⟩, ⟨0, 0⟩, d 4 100⟩ (some [497050, 97146, 282170, 167320, 67191, 81382, 445430, 699820])
  [[3732, 253, 170470, 89317, 16395513, 15058695, 456], [4970, 971, 282172, 167319, 23817412, 13021912, 511],
   [6643, 2029, 320188, 213611, 6966608, 8526960, 567]]

/-! AlternateParams -/

#guard predicts (.make { kalman with predictionInterval := d 25 1000 } (sampling 200))
  [(20, 50, 100), (22, 49, 102), (23, 47, 104), (23, 44, 106)]
  ⟨⟨fl 225 100, fl 475 100⟩, ⟨1, -20⟩, ⟨0, 0⟩, d 106 100⟩
  (some [2301600, 4399200, -39981, -243740, -33822, -28812, -185290, -58431])
  [[22700, 46417, 59170, -230547, 3250957, -4512554, 10650], [22982, 45221, 42510, -245126, -9915108, -1318937, 10700],
   [23016, 43992, -39981, -243736, -23081169, 1874680, 10750], [22773, 42738, -57123, -258215, -3474863, -2910376, 10800]]
#guard predicts (.make { kalman with predictionInterval := d 25 1000 } (sampling 200))
  [(20, 50, 100), (22, 49, 102), (23, 47, 104), (23, 44, 106), (22, 42, 108)]
  ⟨⟨fl 225 100, fl 45 10⟩, ⟨-1, -20⟩, ⟨0, 0⟩, d 108 100⟩
  (some [2198700, 4193300, -114570, -119530, -32801, 18532, -113380, 156980])
  [[22499, 44070, 5082, -172661, 268056, 4986296, 10850], [22505, 43265, -7319, -150137, -5228471, 4023434, 10900],
   [22380, 42561, -47203, -132427, -10724998, 3060573, 10950], [21987, 41933, -114569, -119531, -16221525, 2097711, 11000],
   [21373, 41359, -131112, -110068, -3336810, 1931709, 11050]]

/-! ## utils_test.cc -/

#guard normalize01 (1 : F32) 2 (fl 3 2) == fl 1 2
#guard normalize01 (7 : F32) 3 4 == fl 3 4
#guard normalize01 (-1 : F32) 1 2 == 1
#guard normalize01 (1 : F32) 1 1 == 0
#guard normalize01 (1 : F32) 1 0 == 0
#guard normalize01 (1 : F32) 1 2 == 1
#guard interp (-1 : F32) 2 (-3) == -1
#guard interp (5 : F32) 7 20 == 7
#guard inverseLerp (1 : F32) 2 0 == -1
#guard inverseLerp (1 : F32) 2 3 == 2
#guard inverseLerp (1 : F32) 1 2 == 0

/-- InterpAngle within 1e-6, all angles in hundredths of π. -/
def angle (a b t e : Int) : Bool :=
  let hundredths (n : Int) : F32 := Arith.narrow (D := F64) (ofRatio n 100 * Arith.pi F32)
  match interpAngle (D := F64) (hundredths a) (hundredths b) (fl t 1000) with
  | .ok r => !r.isNaN && (r.key - (hundredths e).key).natAbs * 1000000 ≤ 2 ^ f32.q
  | _ => false

#guard angle 25 50 400 35
#guard angle 105 25 500 65
#guard angle 25 175 100 20
#guard angle 25 175 700 190
#guard angle 160 40 250 180
#guard angle 160 40 625 10

#guard distance (⟨1, 1⟩ : Vec2 F32) ⟨-2, 5⟩ == 5
#guard nearestPointOnSegment (⟨0, 0⟩ : Vec2 F32) ⟨1, 0⟩ ⟨fl 1 4, fl 1 2⟩ == fl 1 4
#guard nearestPointOnSegment (⟨3, 4⟩ : Vec2 F32) ⟨5, 6⟩ ⟨-1, -1⟩ == 0
#guard nearestPointOnSegment (⟨20, 10⟩ : Vec2 F32) ⟨10, 5⟩ ⟨2, 2⟩ == 1
#guard nearestPointOnSegment (⟨0, 5⟩ : Vec2 F32) ⟨5, 0⟩ ⟨3, 3⟩ == fl 1 2
#guard nearestPointOnSegment (⟨3, 7⟩ : Vec2 F32) ⟨3, 7⟩ ⟨0, -20⟩ == 0

/-- GetStrokeNormal, the expected vector in 1e-4. -/
def normal (u v a b : Int) (t t₀ : F64) (e : Option (Int × Int)) : Bool :=
  match getStrokeNormal (⟨⟨0, 0⟩, ⟨ofInt u, ofInt v⟩, ⟨ofInt a, ofInt b⟩, t⟩ : TipState F32 F64) t₀, e with
  | none, none => true
  | some n, some e => near 10000 n.x (e.1, 10000) && near 10000 n.y (e.2, 10000)
  | _, _ => false

#guard normal 0 0 0 0 (d 2 10) (d 1 10) none
#guard normal 0 0 4 3 (d 2 10) (d 1 10) (some (-30000, 40000))
#guard normal 2 3 0 0 (d 2 10) (d 1 10) (some (-30000, 20000))
#guard normal 0 1 (-1) 0 1 0 (some (-17071, -7071))
#guard normal 1 0 3 4 (d 2 10) (d 1 10) (some (-2941, 19558))
#guard normal 3 0 (-3) 0 (d 2 10) (d 1 10) (some (0, 30000))

#guard projectToSegmentAlongNormal (⟨1, 1⟩ : Vec2 F32) ⟨3, 1⟩ ⟨2, 0⟩ ⟨0, 1⟩ == some (fl 1 2)
#guard projectToSegmentAlongNormal (⟨1, 1⟩ : Vec2 F32) ⟨5, 1⟩ ⟨4, 0⟩ ⟨0, 1⟩ == some (fl 3 4)
#guard projectToSegmentAlongNormal (⟨1, 1⟩ : Vec2 F32) ⟨1, 5⟩ ⟨0, 2⟩ ⟨1, 0⟩ == some (fl 1 4)
#guard projectToSegmentAlongNormal (⟨1, 1⟩ : Vec2 F32) ⟨5, 1⟩ ⟨0, 1⟩ ⟨0, 0⟩ == none
#guard projectToSegmentAlongNormal (⟨1, 1⟩ : Vec2 F32) ⟨5, 1⟩ ⟨0, 2⟩ ⟨0, 1⟩ == none

/-! ## loop_contraction_mitigation_modeler_test.cc -/

/-- kDefaultParams of the test -/
def loop : LoopParams F32 F64 := ⟨true, 0, 100, 1, 0, d 6 10, 5⟩

/-- The values after each of the updates (velocity, time in hundredths), within 1e-4 of these, given in thousandths. -/
def mitigates (m : LoopModeler F32 F64) : List (Int × Int × Int × Int) → Bool
  | [] => true
  | (u, v, t, e) :: l =>
    let (m', r) := m.update ⟨ofInt u, ofInt v⟩ (d t 100)
    near 10000 r (e, 1000) && near 10000 m'.getInterpolationValue (e, 1000) && mitigates m' l

#guard (LoopModeler.default.reset loop : LoopModeler F32 F64).getInterpolationValue == 1
#guard mitigates (LoopModeler.default.reset loop) [(3, 4, 0, 950), (0, 3, 10, 960), (-10, 0, 20, 940)]
#guard mitigates (LoopModeler.default.reset loop)
  [(0, 5, 0, 950), (0, 3, 15, 960), (-10, 0, 30, 940), (0, 2, 50, 950), (0, 2, 65, 956), (0, 2, 75, 962)]

/-! ## position_modeler_test.cc, NumberOfStepsBetweenInputs -/

/-- The number of steps, or none for InvalidArgument. -/
def steps (tip : TipState F32 F64) (a b : Vec2 F32) (t : F64) (sampling : SamplingParams F32 F64) (mass : F32)
    (e : Option Int) : Bool :=
  match numberOfStepsBetweenInputs tip ⟨.down, a, 0, -1, -1, -1⟩ ⟨.down, b, t, -1, -1, -1⟩ sampling
      { PositionModelerParams.default with springMassConstant := mass } with
  | .ok (.ok n) => e == some n
  | .ok (.error (.err .invalidArgument _)) => e == none
  | _ => false

/-- SamplingParams with these values -/
def rate (r : F64) (most : Int := 100000) (angle : F64 := -1) : SamplingParams F32 F64 := ⟨r, -1, 20, most, angle⟩

def still : TipState F32 F64 := ⟨⟨0, 0⟩, ⟨0, 0⟩, ⟨0, 0⟩, 0⟩
def mass : F32 := fl 11 32400

#guard steps still ⟨0, 0⟩ ⟨1, 0⟩ 1 (rate (d 1 10)) mass (some 1)
#guard steps still ⟨0, 0⟩ ⟨1, 0⟩ 20 (rate (d 1 10)) mass (some 2)
#guard steps still ⟨0, 0⟩ ⟨1, 0⟩ 1 (rate 2147483648 2147483647) mass (some 2147483647)
#guard steps still ⟨0, 0⟩ ⟨1, 0⟩ 20 (rate (d 1 10) 2) mass (some 2)
#guard steps still ⟨0, 0⟩ ⟨1, 0⟩ 20 (rate (d 1 10) 1) mass none
#guard steps ⟨⟨5, .nan⟩, ⟨1, 1⟩, ⟨0, 0⟩, 0⟩ ⟨5, 0⟩ ⟨25, 20⟩ 20 (rate (d 1 10) 1) mass none
#guard steps ⟨⟨5, .inf false⟩, ⟨1, 1⟩, ⟨0, 0⟩, 0⟩ ⟨5, 0⟩ ⟨25, 20⟩ 20 (rate (d 1 10) 1) mass none
#guard steps ⟨⟨5, 0⟩, ⟨.inf false, 1⟩, ⟨0, 0⟩, 0⟩ ⟨5, 0⟩ ⟨25, 20⟩ 20 (rate (d 1 10) 1) mass none
#guard steps ⟨⟨5, 0⟩, ⟨1, 1⟩, ⟨0, 0⟩, 0⟩ ⟨5, 0⟩ ⟨25, .inf false⟩ 20 (rate (d 1 10) 1) mass none
#guard steps ⟨⟨fl (34 * 10 ^ 37) 1, 0⟩, ⟨1, 1⟩, ⟨0, 0⟩, 0⟩ ⟨5, 0⟩ ⟨fl 50001 10000, fl 1 10000⟩ (d 1 10000) (rate (d 1 10) 1)
  (fl 1 2) none
#guard steps ⟨⟨fl (34 * 10 ^ 35) 1, 0⟩, ⟨1, 1⟩, ⟨0, 0⟩, 0⟩ ⟨5, 0⟩ ⟨fl 50001 10000, fl 1 10000⟩ (d 1 10000) (rate (d 1 10) 1)
  (fl 1 2) (some 1)
#guard steps ⟨⟨0, 0⟩, ⟨0, 1⟩, ⟨0, 0⟩, 0⟩ ⟨0, 0⟩ ⟨500, 0⟩ 1 (rate (d 1 10) 100000 (Arith.pi F32 / 180)) mass (some 90)
#guard steps ⟨⟨0, 0⟩, ⟨0, 1⟩, ⟨0, 0⟩, 0⟩ ⟨0, 0⟩ ⟨0, 0⟩ 1 (rate (d 1 10) 100000 (Arith.pi F32 / 180)) mass (some 1)
#guard steps ⟨⟨0, 0⟩, ⟨0, 1⟩, ⟨0, 0⟩, 0⟩ ⟨0, 0⟩ ⟨0, fl 1 10000⟩ 1 (rate (d 1 10) 100000 (Arith.pi F32 / 180)) mass (some 1)

/-! ## stylus_state_modeler_test.cc -/

/-- Updates with position, time in tenths, and all three stylus values in tenths. -/
def watches (m : StylusModeler F32 F64) : List (Int × Int × Int × Int) → Outcome (StylusModeler F32 F64)
  | [] => .ok m
  | (x, y, t, v) :: l => do watches (← m.update ⟨ofInt x, ofInt y⟩ (d t 10) ⟨fl v 10, fl v 10, fl v 10⟩) l

/-- StrokeNormalProjectionChoosesCorrectTargetIfMultipleIntersections -/
def normals : Outcome (StylusModeler F32 F64) :=
  watches (StylusModeler.default.reset ⟨-1, true, 5, d 3 10⟩) [(0, 0, 0, 0), (0, 4, 1, 2), (2, 4, 2, 4), (2, 0, 3, 6)]

/-- `Query` at position `(x, 2)` with the normal `(1, 0)`. -/
def asks (x : Int) (a b : F32) (e : List (Int × Nat)) : Bool :=
  match normals.bind fun m => m.query ⟨⟨ofInt x, 2⟩, ⟨0, 0⟩, ⟨a, b⟩, d 15 100⟩ (some ⟨1, 0⟩) with
  | .ok r => resultNear r e
  | _ => false

def left : List (Int × Nat) :=
  [(0, 1), (2, 1), (0, 1), (20, 1), (0, 1), (200, 1), (15, 100), (1, 10), (1, 10), (1, 10)]
def right : List (Int × Nat) :=
  [(2, 1), (2, 1), (10, 1), (-20, 1), (0, 1), (-400, 1), (15, 100), (5, 10), (5, 10), (5, 10)]

#guard asks (-1) 0 (fl (-5) 10) left
#guard asks 3 0 (fl (-5) 10) right
#guard asks 1 1 (-1) left
#guard asks 1 (-1) (-1) right

end Ink.Tests
