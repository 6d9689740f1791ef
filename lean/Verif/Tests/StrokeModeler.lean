import Verif.Examples.Base
/-!
# The unit tests of the code, replayed on the model

stroke_modeler_test.cc call by call, with the values it expects and its tolerances (kTol = 1e-4, kAccelTol = 1e-3,
stroke_modeler_test.cc:35-37). These are tests of the transcription, not proofs about it: they show that the model on
IEEE floats gives the numbers that the code gives. Written by tools/unittests.py from the text of the tests.
-/
namespace Ink.Tests
open Scalar Ex

/-- One statement of a test. The vectors of results are numbered. -/
inductive Check where
  /-- A call with vector `v`, and its expected status: none for not checked, `some none` for OK. -/
  | call (o : List (Result F32 F64) → Op F32 F64) (v : Nat) (status : Option (Option Code))
  | clear (v : Nat)
  /-- The vector holds results near these: position, velocity, acceleration, time, then pressure, tilt, orientation
  (-1 when left out), each as a fraction. -/
  | see (v : Nat) (expected : List (List (Int × Nat)))
  | same (v w : Nat)
  | some (v : Nat)

/-- `x` is a number within `1 / tol` of the fraction `e`. -/
def near {f : Fmt} (tol : Nat) (x : Fl f) (e : Int × Nat) : Bool :=
  !x.isNaN && !x.isInf && (x.key * e.2 - e.1 * 2 ^ f.q).natAbs * tol ≤ 2 ^ f.q * e.2

/-- ResultNear, type_matchers.cc -/
def resultNear (r : Result F32 F64) : List (Int × Nat) → Bool
  | x :: y :: u :: v :: a :: b :: t :: rest =>
    near 10000 r.position.x x && near 10000 r.position.y y && near 10000 r.velocity.x u && near 10000 r.velocity.y v &&
      near 1000 r.acceleration.x a && near 1000 r.acceleration.y b && near 10000 r.time t &&
      match rest with
      | [] => near 10000 r.pressure (-1, 1) && near 10000 r.tilt (-1, 1) && near 10000 r.orientation (-1, 1)
      | [p, t, o] => near 10000 r.pressure p && near 10000 r.tilt t && near 10000 r.orientation o
      | _ => false
  | _ => false

/-- All results are near the expected ones, one by one. -/
def allNear : List (Result F32 F64) → List (List (Int × Nat)) → Bool
  | [], [] => true
  | r :: rs, e :: es => resultNear r e && allNear rs es
  | _, _ => false

/-- The code of a status. -/
def code : Status → Option Code
  | .ok => none
  | .err c _ => Option.some c

/-- The test goes through from modeler `m`, the vectors holding `vs`. -/
def passes (m : StrokeModeler F32 F64) (vs : Nat → List (Result F32 F64)) : List Check → Bool
  | [] => true
  | .clear v :: cs => passes m (fun w => if w = v then [] else vs w) cs
  | .see v es :: cs => allNear (vs v) es && passes m vs cs
  | .same v w :: cs => vs v == vs w && passes m vs cs
  | .some v :: cs => !(vs v).isEmpty && passes m vs cs
  | .call o v st :: cs =>
    match step m (o (vs v)) with
    | .ok (m', r) =>
      (st.all fun s => s == code r.status) &&
        passes m' (match o [] with
          | .update .. | .predict .. => fun w => if w = v then r.results else vs w
          | _ => vs) cs
    | _ => false

/-- kDefaultParams, stroke_modeler_test.cc:38-52, with the default limit of outputs per call. -/
def defaults : StrokeModelParams F32 F64 := { params with sampling := { params.sampling with maxOutputsPerCall := 100000 } }

/-- NoPredictionUponInit -/
def noPredictionUponInit : List Check :=
  [.call (fun _ => .resetParams defaults) 0 (some none),
   .call .predict 0 (some (some .failedPrecondition))]

#guard passes .default (fun _ => []) noPredictionUponInit

/-- NoPredictionWithDisabledPredictor -/
def noPredictionWithDisabledPredictor : List Check :=
  [.call (fun _ => .resetParams { params with sampling := { params.sampling with maxOutputsPerCall := 100000 }, prediction := .disabled }) 0 (some none),
   .call .predict 0 (some (some .failedPrecondition))]

#guard passes .default (fun _ => []) noPredictionWithDisabledPredictor

/-- InputRateSlowerThanMinOutputRate -/
def inputRateSlowerThanMinOutputRate : List Check :=
  [.call (fun _ => .resetParams defaults) 0 (some none),
   .call (.update ⟨.down, ⟨3, 4⟩, 0, (-1), (-1), (-1)⟩) 0 (some none),
   .see 0 [[(3, 1), (4, 1), (0, 1), (0, 1), (0, 1), (0, 1), (0, 1)]],
   .call .predict 0 (some none),
   .see 0 [],
   .clear 0,
   .call (.update ⟨.move, ⟨(fl 16 5), (fl 21 5)⟩, (d 3333333333333333 100000000000000000), (-1), (-1), (-1)⟩) 0 (some none),
   .see 0 [[(30019, 10000), (40019, 10000), (4007, 10000), (4007, 10000), (841557, 10000), (210391, 2500), (3, 625)],
     [(30069, 10000), (40069, 10000), (10381, 10000), (10381, 10000), (669189, 5000), (1338369, 10000), (19, 2000)],
     [(15077, 5000), (20077, 5000), (17883, 10000), (17883, 10000), (315093, 2000), (1575459, 10000), (143, 10000)],
     [(7569, 2500), (10069, 2500), (12813, 5000), (12813, 5000), (1626039, 10000), (1626021, 10000), (19, 1000)],
     [(30433, 10000), (40433, 10000), (3301, 1000), (3301, 1000), (155067, 1000), (775333, 5000), (119, 5000)],
     [(15311, 5000), (20311, 5000), (7933, 2000), (7933, 2000), (55903, 400), (349391, 2500), (143, 5000)],
     [(15419, 5000), (20419, 5000), (45397, 10000), (45397, 10000), (601809, 5000), (9629, 80), (333, 10000)]],
   .call .predict 0 (some none),
   .see 0 [[(6219, 2000), (8219, 2000), (46253, 10000), (46253, 10000), (77109, 5000), (154223, 10000), (389, 10000)],
     [(31331, 10000), (41331, 10000), (42563, 10000), (42563, 10000), (-664341, 10000), (-664339, 10000), (111, 2500)],
     [(15767, 5000), (20767, 5000), (36479, 10000), (36479, 10000), (-1095083, 10000), (-1095081, 10000), (1, 20)],
     [(15849, 5000), (20849, 5000), (3689, 1250), (3689, 1250), (-626989, 5000), (-156747, 1250), (139, 2500)],
     [(1989, 625), (2614, 625), (22649, 10000), (22649, 10000), (-617659, 5000), (-123531, 1000), (611, 10000)],
     [(6383, 2000), (8383, 2000), (16473, 10000), (16473, 10000), (-555909, 5000), (-555903, 5000), (667, 10000)],
     [(15989, 5000), (20989, 5000), (11269, 10000), (11269, 10000), (-936643, 10000), (-234159, 2500), (361, 5000)],
     [(3999, 1250), (5249, 1250), (1279, 1250), (1279, 1250), (-74639, 1000), (-93299, 1250), (46, 625)]],
   .clear 0,
   .call (.update ⟨.move, ⟨(fl 7 2), (fl 21 5)⟩, (d 6666666666666667 100000000000000000), (-1), (-1), (-1)⟩) 0 (some none),
   .see 0 [[(15543, 5000), (20529, 5000), (26071, 5000), (46131, 10000), (1416557, 10000), (154223, 10000), (381, 10000)],
     [(3921, 1250), (8253, 2000), (59103, 10000), (10883, 2500), (1461873, 10000), (-6821, 125), (429, 10000)],
     [(31681, 10000), (829, 200), (32871, 5000), (38917, 10000), (348503, 2500), (-969169, 10000), (119, 2500)],
     [(16011, 5000), (41609, 10000), (17931, 2500), (6657, 2000), (628153, 5000), (-591371, 5000), (131, 2500)],
     [(8097, 2500), (41739, 10000), (19219, 2500), (27361, 10000), (270477, 2500), (-1244087, 10000), (571, 10000)],
     [(1311, 400), (20921, 5000), (40569, 5000), (541, 250), (895049, 10000), (-1201309, 10000), (619, 10000)],
     [(33177, 10000), (524, 125), (84531, 10000), (4109, 2500), (712473, 10000), (-1092959, 10000), (667, 10000)]],
   .call .predict 0 (some none),
   .see 0 [[(269, 80), (20991, 5000), (16109, 2000), (2233, 2000), (-717427, 10000), (-189753, 2000), (361, 5000)],
     [(17009, 5000), (42021, 10000), (70831, 10000), (6987, 10000), (-1748469, 10000), (-751957, 10000), (389, 5000)],
     [(4293, 1250), (42043, 10000), (14641, 2500), (1923, 5000), (-110407, 500), (-113103, 2000), (833, 10000)],
     [(17299, 5000), (10513, 2500), (1147, 250), (1611, 10000), (-570801, 2500), (-100561, 2500), (889, 10000)],
     [(8697, 2500), (10513, 2500), (17049, 5000), (31, 2500), (-1060339, 5000), (-267709, 10000), (59, 625)],
     [(34921, 10000), (2628, 625), (23929, 10000), (-39, 500), (-1830373, 10000), (-20331, 1250), (1, 10)],
     [(2186, 625), (8409, 2000), (19791, 10000), (-203, 2000), (-93112, 625), (-42411, 5000), (257, 2500)],
     [(35001, 10000), (10511, 2500), (17911, 10000), (-549, 5000), (-1353759, 10000), (-59543, 10000), (521, 5000)]],
   .clear 0,
   .call (.update ⟨.up, ⟨(fl 37 10), (fl 22 5)⟩, (d 1 10), (-1), (-1), (-1)⟩) 0 (some none),
   .see 0 [[(33583, 10000), (10499, 2500), (42561, 5000), (637, 400), (124129, 10000), (-107201, 10000), (357, 5000)],
     [(16991, 5000), (10521, 2500), (10479, 1250), (9267, 5000), (-270783, 10000), (547731, 10000), (381, 5000)],
     [(34369, 10000), (21097, 5000), (81393, 10000), (23017, 10000), (-256111, 5000), (470771, 5000), (81, 1000)],
     [(34743, 10000), (42329, 10000), (39181, 5000), (14217, 5000), (-159167, 2500), (284363, 2500), (857, 10000)],
     [(351, 100), (10623, 2500), (75143, 10000), (34101, 10000), (-337963, 5000), (74389, 625), (181, 2000)],
     [(35443, 10000), (1067, 250), (4501, 625), (9889, 2500), (-82071, 1250), (572697, 5000), (119, 1250)],
     [(35773, 10000), (10723, 2500), (69159, 10000), (8901, 2000), (-599999, 10000), (259861, 2500), (1, 10)],
     [(7223, 2000), (43141, 10000), (3079, 500), (2802, 625), (-170539, 1250), (58833, 10000), (66, 625)],
     [(91, 25), (43369, 10000), (25717, 5000), (40953, 10000), (-913127, 5000), (-349157, 5000), (1111, 10000)],
     [(18313, 5000), (43563, 10000), (40671, 10000), (17451, 5000), (-1937401, 10000), (-1089119, 10000), (1167, 10000)],
     [(9199, 2500), (43719, 10000), (6103, 2000), (28099, 10000), (-1827957, 10000), (-612299, 5000), (611, 5000)],
     [(9229, 2500), (21919, 5000), (1353, 625), (10731, 5000), (-399029, 2500), (-1194551, 10000), (639, 5000)],
     [(9249, 2500), (10981, 2500), (359, 250), (15529, 10000), (-655953, 5000), (-533963, 5000), (1333, 10000)],
     [(9257, 2500), (1099, 250), (144, 125), (3261, 2500), (-1022117, 10000), (-111859, 1250), (1361, 10000)]],
   .call .predict 0 (some (some .failedPrecondition))]

#guard passes .default (fun _ => []) inputRateSlowerThanMinOutputRate

/-- InputRateSlowerThanMinOutputRateNormalProjection -/
def inputRateSlowerThanMinOutputRateNormalProjection : List Check :=
  [.call (fun _ => .resetParams { params with sampling := { params.sampling with maxOutputsPerCall := 100000 }, stylus := ⟨20, true, 10, (d 167 500)⟩ }) 0 (some none),
   .call (.update ⟨.down, ⟨3, 4⟩, 0, (-1), (-1), (-1)⟩) 0 (some none),
   .see 0 [[(3, 1), (4, 1), (0, 1), (0, 1), (0, 1), (0, 1), (0, 1)]],
   .call .predict 0 (some none),
   .see 0 [],
   .clear 0,
   .call (.update ⟨.move, ⟨(fl 16 5), (fl 21 5)⟩, (d 3333333333333333 100000000000000000), (-1), (-1), (-1)⟩) 0 (some none),
   .see 0 [[(30019, 10000), (40019, 10000), (4007, 10000), (4007, 10000), (841557, 10000), (210391, 2500), (3, 625)],
     [(30069, 10000), (40069, 10000), (10381, 10000), (10381, 10000), (669189, 5000), (1338369, 10000), (19, 2000)],
     [(15077, 5000), (20077, 5000), (17883, 10000), (17883, 10000), (315093, 2000), (1575459, 10000), (143, 10000)],
     [(7569, 2500), (10069, 2500), (12813, 5000), (12813, 5000), (1626039, 10000), (1626021, 10000), (19, 1000)],
     [(30433, 10000), (40433, 10000), (3301, 1000), (3301, 1000), (155067, 1000), (775333, 5000), (119, 5000)],
     [(15311, 5000), (20311, 5000), (7933, 2000), (7933, 2000), (55903, 400), (349391, 2500), (143, 5000)],
     [(15419, 5000), (20419, 5000), (45397, 10000), (45397, 10000), (601809, 5000), (9629, 80), (333, 10000)]],
   .call .predict 0 (some none),
   .see 0 [[(6219, 2000), (8219, 2000), (46253, 10000), (46253, 10000), (77109, 5000), (154223, 10000), (389, 10000)],
     [(31331, 10000), (41331, 10000), (42563, 10000), (42563, 10000), (-664341, 10000), (-664339, 10000), (111, 2500)],
     [(15767, 5000), (20767, 5000), (36479, 10000), (36479, 10000), (-1095083, 10000), (-1095081, 10000), (1, 20)],
     [(15849, 5000), (20849, 5000), (3689, 1250), (3689, 1250), (-626989, 5000), (-156747, 1250), (139, 2500)],
     [(1989, 625), (2614, 625), (22649, 10000), (22649, 10000), (-617659, 5000), (-123531, 1000), (611, 10000)],
     [(6383, 2000), (8383, 2000), (16473, 10000), (16473, 10000), (-555909, 5000), (-555903, 5000), (667, 10000)],
     [(15989, 5000), (20989, 5000), (11269, 10000), (11269, 10000), (-936643, 10000), (-234159, 2500), (361, 5000)],
     [(3999, 1250), (5249, 1250), (1279, 1250), (1279, 1250), (-74639, 1000), (-93299, 1250), (46, 625)]],
   .clear 0,
   .call (.update ⟨.move, ⟨(fl 7 2), (fl 21 5)⟩, (d 6666666666666667 100000000000000000), (-1), (-1), (-1)⟩) 0 (some none),
   .see 0 [[(15543, 5000), (20529, 5000), (26071, 5000), (46131, 10000), (1416557, 10000), (154223, 10000), (381, 10000)],
     [(3921, 1250), (8253, 2000), (59103, 10000), (10883, 2500), (1461873, 10000), (-6821, 125), (429, 10000)],
     [(31681, 10000), (829, 200), (32871, 5000), (38917, 10000), (348503, 2500), (-969169, 10000), (119, 2500)],
     [(16011, 5000), (41609, 10000), (17931, 2500), (6657, 2000), (628153, 5000), (-591371, 5000), (131, 2500)],
     [(8097, 2500), (41739, 10000), (19219, 2500), (27361, 10000), (270477, 2500), (-1244087, 10000), (571, 10000)],
     [(1311, 400), (20921, 5000), (40569, 5000), (541, 250), (895049, 10000), (-1201309, 10000), (619, 10000)],
     [(33177, 10000), (524, 125), (84531, 10000), (4109, 2500), (712473, 10000), (-1092959, 10000), (667, 10000)]],
   .call .predict 0 (some none),
   .see 0 [[(269, 80), (20991, 5000), (16109, 2000), (2233, 2000), (-717427, 10000), (-189753, 2000), (361, 5000)],
     [(17009, 5000), (42021, 10000), (70831, 10000), (6987, 10000), (-1748469, 10000), (-751957, 10000), (389, 5000)],
     [(4293, 1250), (42043, 10000), (14641, 2500), (1923, 5000), (-110407, 500), (-113103, 2000), (833, 10000)],
     [(17299, 5000), (10513, 2500), (1147, 250), (1611, 10000), (-570801, 2500), (-100561, 2500), (889, 10000)],
     [(8697, 2500), (10513, 2500), (17049, 5000), (31, 2500), (-1060339, 5000), (-267709, 10000), (59, 625)],
     [(34921, 10000), (2628, 625), (23929, 10000), (-39, 500), (-1830373, 10000), (-20331, 1250), (1, 10)],
     [(2186, 625), (8409, 2000), (19791, 10000), (-203, 2000), (-93112, 625), (-42411, 5000), (257, 2500)],
     [(35001, 10000), (10511, 2500), (17911, 10000), (-549, 5000), (-1353759, 10000), (-59543, 10000), (521, 5000)]],
   .clear 0,
   .call (.update ⟨.up, ⟨(fl 37 10), (fl 22 5)⟩, (d 1 10), (-1), (-1), (-1)⟩) 0 (some none),
   .see 0 [[(33583, 10000), (10499, 2500), (42561, 5000), (637, 400), (124129, 10000), (-107201, 10000), (357, 5000)],
     [(16991, 5000), (10521, 2500), (10479, 1250), (9267, 5000), (-270783, 10000), (547731, 10000), (381, 5000)],
     [(34369, 10000), (21097, 5000), (81393, 10000), (23017, 10000), (-256111, 5000), (470771, 5000), (81, 1000)],
     [(34743, 10000), (42329, 10000), (39181, 5000), (14217, 5000), (-159167, 2500), (284363, 2500), (857, 10000)],
     [(351, 100), (10623, 2500), (75143, 10000), (34101, 10000), (-337963, 5000), (74389, 625), (181, 2000)],
     [(35443, 10000), (1067, 250), (4501, 625), (9889, 2500), (-82071, 1250), (572697, 5000), (119, 1250)],
     [(35773, 10000), (10723, 2500), (69159, 10000), (8901, 2000), (-599999, 10000), (259861, 2500), (1, 10)],
     [(7223, 2000), (43141, 10000), (3079, 500), (2802, 625), (-170539, 1250), (58833, 10000), (66, 625)],
     [(91, 25), (43369, 10000), (25717, 5000), (40953, 10000), (-913127, 5000), (-349157, 5000), (1111, 10000)],
     [(18313, 5000), (43563, 10000), (40671, 10000), (17451, 5000), (-1937401, 10000), (-1089119, 10000), (1167, 10000)],
     [(9199, 2500), (43719, 10000), (6103, 2000), (28099, 10000), (-1827957, 10000), (-612299, 5000), (611, 5000)],
     [(9229, 2500), (21919, 5000), (1353, 625), (10731, 5000), (-399029, 2500), (-1194551, 10000), (639, 5000)],
     [(9249, 2500), (10981, 2500), (359, 250), (15529, 10000), (-655953, 5000), (-533963, 5000), (1333, 10000)],
     [(9257, 2500), (1099, 250), (144, 125), (3261, 2500), (-1022117, 10000), (-111859, 1250), (1361, 10000)]],
   .call .predict 0 (some (some .failedPrecondition))]

#guard passes .default (fun _ => []) inputRateSlowerThanMinOutputRateNormalProjection

/-- InputRateSlowerThanMinOutputRateNormalProjectionWithLoopMitigation -/
def inputRateSlowerThanMinOutputRateNormalProjectionWithLoopMitigation : List Check :=
  [.call (fun _ => .resetParams { params with position := { params.position with loop := ⟨true, 0, 10, 1, 0, 20, 10⟩ }, sampling := { params.sampling with maxOutputsPerCall := 100000 }, stylus := ⟨20, true, 10, (d 167 500)⟩ }) 0 (some none),
   .call (.update ⟨.down, ⟨3, 4⟩, 0, (-1), (-1), (-1)⟩) 0 (some none),
   .see 0 [[(3, 1), (4, 1), (0, 1), (0, 1), (0, 1), (0, 1), (0, 1)]],
   .call .predict 0 (some none),
   .see 0 [],
   .clear 0,
   .call (.update ⟨.move, ⟨(fl 16 5), (fl 21 5)⟩, (d 3333333333333333 100000000000000000), (-1), (-1), (-1)⟩) 0 (some none),
   .see 0 [[(30019, 10000), (40019, 10000), (4007, 10000), (4007, 10000), (841557, 10000), (210391, 2500), (47619, 10000000)],
     [(30069, 10000), (40069, 10000), (9909, 10000), (9909, 10000), (633011, 5000), (633007, 5000), (952381, 100000000)],
     [(15077, 5000), (20077, 5000), (16577, 10000), (16577, 10000), (358511, 2500), (1434039, 10000), (142857, 10000000)],
     [(7569, 2500), (10069, 2500), (23131, 10000), (23131, 10000), (1427971, 10000), (285591, 2000), (47619, 2500000)],
     [(30433, 10000), (40433, 10000), (14607, 5000), (14607, 5000), (1330543, 10000), (1330539, 10000), (47619, 2000000)],
     [(15311, 5000), (20311, 5000), (17371, 5000), (17371, 5000), (240247, 2000), (1201227, 10000), (142857, 5000000)],
     [(15419, 5000), (20419, 5000), (19891, 5000), (19891, 5000), (539527, 5000), (1079059, 10000), (333333, 10000000)]],
   .call .predict 0 (some none),
   .see 0 [[(310949, 100000), (410949, 100000), (209957, 50000), (419913, 100000), (418473, 10000), (104619, 2500), (388889, 10000000)],
     [(156657, 50000), (206657, 50000), (104097, 25000), (416387, 100000), (-9939, 12500), (-397503, 500000), (111111, 2500000)],
     [(15767, 5000), (20767, 5000), (400923, 100000), (200461, 50000), (-6303, 400), (-78787, 5000), (1, 20)],
     [(15849, 5000), (20849, 5000), (380299, 100000), (380299, 100000), (-14803, 1000), (-14803, 1000), (138889, 2500000)],
     [(159119, 50000), (209119, 50000), (358047, 100000), (179023, 50000), (-550763, 100000), (-22029, 4000), (611111, 10000000)],
     [(319153, 100000), (419153, 100000), (168083, 50000), (168083, 50000), (742517, 100000), (29703, 4000), (666667, 10000000)],
     [(319779, 100000), (419779, 100000), (63173, 20000), (63173, 20000), (13229, 625), (211667, 10000), (361111, 5000000)],
     [(319921, 100000), (419921, 100000), (78133, 25000), (78133, 25000), (331267, 10000), (20704, 625), (736111, 10000000)]],
   .clear 0,
   .call (.update ⟨.move, ⟨(fl 7 2), (fl 21 5)⟩, (d 6666666666666667 100000000000000000), (-1), (-1), (-1)⟩) 0 (some none),
   .see 0 [[(155403, 50000), (410611, 100000), (228787, 50000), (104143, 25000), (127197, 1000), (5137, 125), (47619, 1250000)],
     [(313529, 100000), (412867, 100000), (522357, 100000), (211003, 50000), (136649, 1000), (363411, 50000), (428571, 10000000)],
     [(63299, 20000), (41509, 10000), (294099, 50000), (424741, 100000), (17653, 125), (-138951, 50000), (47619, 1000000)],
     [(159857, 50000), (104333, 25000), (655079, 100000), (10843, 2500), (144959, 1000), (225051, 50000), (52381, 1000000)],
     [(80879, 25000), (418583, 100000), (44107, 6250), (394619, 100000), (27357, 200), (-218567, 100000), (571429, 10000000)],
     [(163787, 50000), (419189, 100000), (372263, 50000), (331069, 100000), (122731, 1000), (-173051, 10000), (77381, 1250000)],
     [(331707, 100000), (419611, 100000), (779387, 100000), (268079, 100000), (10901, 100), (-65571, 2000), (666667, 10000000)]],
   .call .predict 0 (some none),
   .see 0 [[(336237, 100000), (209959, 50000), (195601, 25000), (49773, 25000), (183341, 5000), (-130231, 2500), (361111, 5000000)],
     [(340191, 100000), (84019, 20000), (190007, 25000), (8721, 6250), (-123829, 10000), (-340579, 5000), (388889, 5000000)],
     [(171723, 50000), (84037, 20000), (72649, 10000), (907921, 1000000), (-67613, 2000), (-204883, 2500), (833333, 10000000)],
     [(345987, 100000), (420219, 100000), (689701, 100000), (530171, 1000000), (-381399, 10000), (-232457, 2500), (888889, 10000000)],
     [(34787, 10000), (210109, 50000), (163493, 25000), (126919, 500000), (-162467, 5000), (-101051, 1000), (236111, 2500000)],
     [(349187, 100000), (210099, 50000), (24863, 4000), (647929, 10000000), (-21597, 1000), (-106379, 1000), (1, 10)],
     [(349741, 100000), (210093, 50000), (76119, 12500), (-998237, 100000000), (-804681, 100000), (-859, 8), (51389, 500000)],
     [(34999, 10000), (420179, 100000), (18856, 3125), (-212697, 5000000), (-132479, 50000), (-13533, 125), (104167, 1000000)]],
   .clear 0,
   .call (.update ⟨.up, ⟨(fl 37 10), (fl 22 5)⟩, (d 1 10), (-1), (-1), (-1)⟩) 0 (some none),
   .see 0 [[(167911, 50000), (209991, 50000), (50097, 6250), (56413, 25000), (382747, 5000), (-2561, 250), (357143, 5000000)],
     [(33993, 10000), (420377, 100000), (102151, 12500), (96621, 50000), (67929, 1250), (-445963, 50000), (152381, 2000000)],
     [(86011, 25000), (420831, 100000), (830583, 100000), (81847, 50000), (24549, 625), (-23511, 1000), (202381, 2500000)],
     [(348211, 100000), (210679, 50000), (3379, 400), (131753, 100000), (144257, 5000), (-10039, 200), (857143, 10000000)],
     [(351793, 100000), (105837, 25000), (25627, 3125), (177303, 100000), (74213, 5000), (-361067, 10000), (452381, 5000000)],
     [(17749, 5000), (425891, 100000), (390843, 50000), (6261, 2500), (631893, 1000000), (-771963, 100000), (952381, 10000000)],
     [(22377, 6250), (2678, 625), (744861, 100000), (40107, 12500), (-124313, 10000), (94243, 5000), (1, 10)],
     [(361221, 100000), (215659, 50000), (688897, 100000), (378287, 100000), (-571107, 10000), (165751, 10000), (26389, 250000)],
     [(363911, 100000), (433797, 100000), (314159, 50000), (206767, 50000), (-878043, 10000), (48697, 2500), (111111, 1000000)],
     [(91517, 25000), (217921, 50000), (570713, 100000), (432859, 100000), (-2581, 25), (153727, 5000), (116667, 1000000)],
     [(367711, 100000), (2734, 625), (260033, 50000), (440827, 100000), (-108429, 1000), (455063, 10000), (61111, 500000)],
     [(368899, 100000), (3509, 800), (238987, 50000), (2756, 625), (-26769, 250), (607109, 10000), (63889, 500000)],
     [(46213, 12500), (439453, 100000), (55573, 12500), (87201, 20000), (-101873, 1000), (93273, 1250), (133333, 1000000)],
     [(370043, 100000), (219903, 50000), (430761, 100000), (433629, 100000), (-937887, 10000), (3379, 40), (136111, 1000000)]],
   .call .predict 0 (some (some .failedPrecondition))]

#guard passes .default (fun _ => []) inputRateSlowerThanMinOutputRateNormalProjectionWithLoopMitigation

/-- InputRateFasterThanMinOutputRate -/
def inputRateFasterThanMinOutputRate : List Check :=
  [.call (fun _ => .resetParams defaults) 0 (some none),
   .call (.update ⟨.down, ⟨5, (-3)⟩, 2, (-1), (-1), (-1)⟩) 0 (some none),
   .see 0 [[(5, 1), (-3, 1), (0, 1), (0, 1), (0, 1), (0, 1), (2, 1)]],
   .call .predict 0 (some none),
   .see 0 [],
   .clear 0,
   .call (.update ⟨.move, ⟨5, (fl (-31) 10)⟩, (d 10016666666666667 5000000000000000), (-1), (-1), (-1)⟩) 0 (some none),
   .see 0 [[(5, 1), (-30033, 10000), (0, 1), (-4909, 5000), (0, 1), (-736363, 2500), (20033, 10000)]],
   .call .predict 0 (some none),
   .see 0 [[(5, 1), (-30153, 10000), (0, 1), (-21719, 10000), (0, 1), (-428429, 2000), (20089, 10000)],
     [(5, 1), (-30303, 10000), (0, 1), (-5377, 2000), (0, 1), (-185977, 2000), (1259, 625)],
     [(5, 1), (-3807, 1250), (0, 1), (-27541, 10000), (0, 1), (-14749, 1250), (101, 50)],
     [(5, 1), (-30597, 10000), (0, 1), (-2543, 1000), (0, 1), (94967, 2500), (1266, 625)],
     [(5, 1), (-15359, 5000), (0, 1), (-5463, 2500), (0, 1), (644053, 10000), (20311, 10000)],
     [(5, 1), (-30817, 10000), (0, 1), (-17719, 10000), (0, 1), (744011, 10000), (20367, 10000)],
     [(5, 1), (-30893, 10000), (0, 1), (-3407, 2500), (0, 1), (147269, 2000), (10211, 5000)],
     [(5, 1), (-7737, 2500), (0, 1), (-4967, 5000), (0, 1), (664807, 10000), (10239, 5000)],
     [(5, 1), (-15493, 5000), (0, 1), (-1363, 2000), (0, 1), (70181, 1250), (20533, 10000)]],
   .clear 0,
   .call (.update ⟨.move, ⟨(fl 199 40), (fl (-127) 40)⟩, (d 2006666666666667 1000000000000000), (-1), (-1), (-1)⟩) 0 (some none),
   .see 0 [[(6249, 1250), (-15057, 5000), (-491, 2000), (-12161, 5000), (-368183, 5000), (-2175619, 5000), (20067, 10000)]],
   .call .predict 0 (some none),
   .see 0 [[(24981, 5000), (-3793, 1250), (-543, 1000), (-5171, 1250), (-535537, 10000), (-153407, 500), (10061, 5000)],
     [(12481, 2500), (-30609, 10000), (-6721, 10000), (-23917, 5000), (-116237, 5000), (-1163963, 10000), (10089, 5000)],
     [(24943, 5000), (-30873, 10000), (-1377, 2000), (-9473, 2000), (-14749, 5000), (42179, 5000), (20233, 10000)],
     [(49851, 10000), (-3111, 1000), (-3179, 5000), (-21389, 5000), (94971, 10000), (412841, 5000), (20289, 10000)],
     [(2491, 500), (-31311, 10000), (-5463, 10000), (-36137, 10000), (80507, 5000), (1195413, 10000), (2543, 1250)],
     [(12449, 2500), (-31471, 10000), (-443, 1000), (-28867, 10000), (37201, 2000), (654289, 5000), (51, 25)],
     [(49777, 10000), (-31593, 10000), (-3407, 10000), (-21881, 10000), (184089, 10000), (314379, 2500), (2557, 1250)],
     [(49763, 10000), (-396, 125), (-621, 2500), (-157, 100), (83099, 5000), (13907, 125), (20511, 10000)],
     [(24877, 5000), (-31739, 10000), (-213, 1250), (-2641, 2500), (28073, 2000), (924447, 10000), (20567, 10000)]],
   .clear 0,
   .call (.update ⟨.move, ⟨(fl 49 10), (fl (-16) 5)⟩, (d 10050000000000001 5000000000000000), (-1), (-1), (-1)⟩) 0 (some none),
   .see 0 [[(49953, 10000), (-30237, 10000), (-11603, 10000), (-9251, 2500), (-1372311, 5000), (-3804507, 10000), (201, 100)]],
   .call .predict 0 (some none),
   .see 0 [[(12457, 2500), (-30521, 10000), (-22559, 10000), (-51049, 10000), (-985997, 5000), (-505623, 2000), (5039, 2500)],
     [(49677, 10000), (-1233, 400), (-27081, 10000), (-10967, 2000), (-814051, 10000), (-8519, 125), (20211, 10000)],
     [(24763, 5000), (-6223, 2000), (-27333, 10000), (-26061, 5000), (-22641, 5000), (122099, 2500), (20267, 10000)],
     [(49387, 10000), (-31369, 10000), (-24999, 10000), (-11439, 2500), (210047, 5000), (1145943, 10000), (10161, 5000)],
     [(12317, 2500), (-31579, 10000), (-10663, 5000), (-2361, 625), (165283, 2500), (359073, 2500), (10189, 5000)],
     [(49173, 10000), (-31743, 10000), (-1074, 625), (-14777, 5000), (93207, 1250), (369983, 2500), (20433, 10000)],
     [(491, 100), (-6373, 2000), (-821, 625), (-4387, 2000), (29143, 400), (685789, 5000), (20489, 10000)],
     [(49047, 10000), (-639, 200), (-9513, 10000), (-15369, 10000), (65209, 1000), (590937, 5000), (1284, 625)],
     [(49011, 10000), (-16003, 5000), (-259, 400), (-627, 625), (546929, 10000), (60038, 625), (103, 50)]],
   .clear 0,
   .call (.update ⟨.move, ⟨(fl 193 40), (fl (-16) 5)⟩, (d 2516666666666667 1250000000000000), (-1), (-1), (-1)⟩) 0 (some none),
   .see 0 [[(12467, 2500), (-30389, 10000), (-1277, 500), (-45431, 10000), (-4181093, 10000), (-505623, 2000), (20133, 10000)]],
   .call .predict 0 (some none),
   .see 0 [[(12409, 2500), (-30687, 10000), (-41801, 10000), (-53627, 10000), (-2926871, 10000), (-1475319, 10000), (20189, 10000)],
     [(4937, 1000), (-6197, 2000), (-47757, 10000), (-5367, 1000), (-268029, 2500), (-7651, 10000), (5061, 2500)],
     [(49109, 10000), (-3907, 1250), (-46989, 10000), (-3051, 625), (13821, 1000), (218411, 2500), (203, 100)],
     [(391, 80), (-15743, 5000), (-42257, 10000), (-20733, 5000), (170367, 2000), (1322997, 10000), (5089, 2500)],
     [(48677, 10000), (-31671, 10000), (-4447, 1250), (-33287, 10000), (1202579, 10000), (294467, 2000), (20411, 10000)],
     [(1213, 250), (-7953, 2500), (-28333, 10000), (-25353, 10000), (13037, 100), (178511, 1250), (20467, 10000)],
     [(48401, 10000), (-15957, 5000), (-21411, 10000), (-1143, 625), (622923, 5000), (635857, 5000), (10261, 5000)],
     [(12079, 2500), (-15991, 5000), (-957, 625), (-6193, 5000), (548937, 5000), (1062279, 10000), (10289, 5000)],
     [(1207, 250), (-3201, 1000), (-6393, 5000), (-10053, 10000), (113661, 1250), (840051, 10000), (10303, 5000)],
     [(3017, 625), (-32017, 10000), (-12209, 10000), (-9529, 10000), (208013, 2500), (47143, 625), (20613, 10000)]],
   .clear 0,
   .call (.update ⟨.move, ⟨(fl 19 4), (fl (-129) 40)⟩, (d 2016666666666667 1000000000000000), (-1), (-1), (-1)⟩) 0 (some none),
   .see 0 [[(24863, 5000), (-6113, 2000), (-2133, 500), (-52803, 10000), (-5135957, 10000), (-1105839, 5000), (20167, 10000)]],
   .call .predict 0 (some none),
   .see 0 [[(49381, 10000), (-15447, 5000), (-31009, 5000), (-59261, 10000), (-871119, 2500), (-232489, 2000), (10111, 5000)],
     [(12251, 2500), (-6243, 2000), (-13599, 2000), (-57749, 10000), (-537917, 5000), (34033, 1250), (10139, 5000)],
     [(608, 125), (-31501, 10000), (-327, 50), (-51591, 10000), (233573, 5000), (69271, 625), (20333, 10000)],
     [(48319, 10000), (-31741, 10000), (-57897, 10000), (-43207, 10000), (675231, 5000), (754613, 5000), (20389, 10000)],
     [(48051, 10000), (-7983, 2500), (-12033, 2500), (-4281, 1250), (439421, 2500), (322511, 2000), (5111, 2500)],
     [(47841, 10000), (-1283, 400), (-18949, 5000), (-25759, 10000), (1842227, 10000), (763979, 5000), (41, 20)],
     [(47683, 10000), (-2011, 625), (-3539, 1250), (-4581, 2500), (43137, 250), (669147, 5000), (5139, 2500)],
     [(11893, 2500), (-8061, 2500), (-9993, 5000), (-6099, 5000), (1498577, 10000), (110283, 1000), (20611, 10000)],
     [(23763, 5000), (-32271, 10000), (-829, 500), (-1961, 2000), (613099, 5000), (861299, 10000), (20639, 10000)]],
   .clear 0,
   .call (.update ⟨.move, ⟨(fl 47 10), (fl (-33) 10)⟩, (d 4040000000000001 2000000000000000), (-1), (-1), (-1)⟩) 0 (some none),
   .see 0 [[(49529, 10000), (-15389, 5000), (-3699, 625), (-32021, 5000), (-4957209, 10000), (-1685769, 5000), (101, 50)]],
   .call .predict 0 (some none),
   .see 0 [[(49101, 10000), (-15597, 5000), (-38443, 5000), (-4674, 625), (-1593197, 5000), (-966797, 5000), (1266, 625)],
     [(24327, 5000), (-31607, 10000), (-40259, 5000), (-74431, 10000), (-326849, 5000), (63579, 10000), (20311, 10000)],
     [(9647, 2000), (-15991, 5000), (-75377, 10000), (-16863, 2500), (185069, 2000), (157013, 1250), (20367, 10000)],
     [(2992, 625), (-32299, 10000), (-818, 125), (-57133, 10000), (894327, 5000), (928713, 5000), (10211, 5000)],
     [(23787, 5000), (-32553, 10000), (-53529, 10000), (-11437, 2500), (2144027, 10000), (1024681, 5000), (10239, 5000)],
     [(2959, 625), (-16373, 5000), (-10379, 2500), (-17379, 5000), (540587, 2500), (123639, 625), (20533, 10000)],
     [(23587, 5000), (-6577, 2000), (-15267, 5000), (-6251, 2500), (1976767, 10000), (877851, 5000), (20589, 10000)],
     [(2941, 625), (-32979, 10000), (-21169, 10000), (-16879, 10000), (1685711, 10000), (1462573, 10000), (5161, 2500)],
     [(4703, 1000), (-33, 10), (-19283, 10000), (-3819, 2500), (67891, 500), (1153739, 10000), (10329, 5000)],
     [(47017, 10000), (-3301, 1000), (-919, 500), (-907, 625), (81308, 625), (1100859, 10000), (4133, 2000)]],
   .clear 0,
   .call (.update ⟨.move, ⟨(fl 187 40), (fl (-17) 5)⟩, (d 1011666666666667 500000000000000), (-1), (-1), (-1)⟩) 0 (some none),
   .see 0 [[(6161, 1250), (-15523, 5000), (-3613, 500), (-16061, 2000), (-3922747, 10000), (-4879053, 10000), (20233, 10000)]],
   .call .predict 0 (some none),
   .see 0 [[(3051, 625), (-15791, 5000), (-84881, 10000), (-3861, 400), (-2271831, 10000), (-729907, 2500), (20289, 10000)],
     [(9669, 2000), (-8031, 2500), (-42369, 5000), (-48741, 5000), (2587, 1000), (-86133, 5000), (2543, 1250)],
     [(23959, 5000), (-32619, 10000), (-19237, 2500), (-17839, 2000), (1402131, 10000), (149181, 1000), (51, 25)],
     [(9511, 2000), (-16521, 5000), (-65279, 10000), (-76113, 10000), (525107, 2500), (1177319, 5000), (2557, 1250)],
     [(2954, 625), (-33383, 10000), (-52343, 10000), (-12269, 2000), (2328451, 10000), (1329137, 5000), (20511, 10000)],
     [(47043, 10000), (-33643, 10000), (-39823, 10000), (-46907, 10000), (2253593, 10000), (259879, 1000), (20567, 10000)],
     [(11721, 2500), (-4229, 1250), (-28691, 10000), (-1699, 500), (1001901, 5000), (2326849, 10000), (10311, 5000)],
     [(5847, 1250), (-33961, 10000), (-19403, 10000), (-4627, 2000), (417941, 2500), (244019, 1250), (10339, 5000)],
     [(2922, 625), (-3399, 1000), (-17569, 10000), (-20983, 10000), (16507, 125), (387467, 2500), (5173, 2500)]],
   .clear 0,
   .call (.update ⟨.move, ⟨(fl 187 40), (fl (-141) 40)⟩, (d 20266666666666673 10000000000000000), (-1), (-1), (-1)⟩) 0 (some none),
   .see 0 [[(24511, 5000), (-31387, 10000), (-79833, 10000), (-10231, 1000), (-2271831, 10000), (-3300723, 5000), (20267, 10000)]],
   .call .predict 0 (some none),
   .see 0 [[(48549, 10000), (-32079, 10000), (-8507, 1000), (-62301, 5000), (-942781, 10000), (-4012599, 10000), (10161, 5000)],
     [(24051, 5000), (-32783, 10000), (-80479, 10000), (-2533, 200), (82639, 1000), (-46077, 1250), (10189, 5000)],
     [(47711, 10000), (-33429, 10000), (-8801, 1250), (-23273, 2000), (362553, 2000), (925643, 5000), (20433, 10000)],
     [(47389, 10000), (-33983, 10000), (-11593, 2000), (-6226, 625), (2239801, 10000), (3014933, 10000), (20489, 10000)],
     [(47137, 10000), (-3443, 1000), (-4523, 1000), (-8051, 1000), (2292397, 10000), (429879, 1250), (1284, 625)],
     [(46951, 10000), (-34773, 10000), (-33477, 10000), (-61727, 10000), (1057777, 5000), (422607, 1250), (103, 50)],
     [(46821, 10000), (-17511, 5000), (-23381, 10000), (-22423, 5000), (1817131, 10000), (3038597, 10000), (1291, 625)],
     [(46737, 10000), (-4399, 1250), (-15199, 10000), (-30641, 10000), (1472879, 10000), (2557003, 10000), (20711, 10000)],
     [(23359, 5000), (-35231, 10000), (-6813, 5000), (-27813, 10000), (1132437, 10000), (407119, 2000), (829, 400)]],
   .clear 0,
   .call (.update ⟨.up, ⟨(fl 47 10), (fl (-18) 5)⟩, (d 20300000000000007 10000000000000000), (-1), (-1), (-1)⟩) 0 (some none),
   .see 0 [[(48753, 10000), (-31797, 10000), (-80521, 10000), (-123049, 10000), (-206429, 10000), (-1244337, 2000), (203, 100)],
     [(1933, 400), (-32589, 10000), (-77, 10), (-142607, 10000), (7921, 125), (-3520363, 10000), (5089, 2500)],
     [(11987, 2500), (-267, 80), (-4243, 625), (-141377, 10000), (328043, 2000), (4427, 200), (20411, 10000)],
     [(11909, 2500), (-6817, 2000), (-56249, 10000), (-127787, 10000), (104751, 500), (2446249, 10000), (20467, 10000)],
     [(4739, 1000), (-6937, 2000), (-5519, 1250), (-21603, 2000), (544363, 2500), (3558801, 10000), (10261, 5000)],
     [(5901, 1250), (-8791, 2500), (-411, 125), (-86333, 10000), (2028961, 10000), (975701, 2500), (10289, 5000)],
     [(47079, 10000), (-4441, 1250), (-2891, 1250), (-2619, 400), (877707, 5000), (3754407, 10000), (20633, 10000)],
     [(9399, 2000), (-35789, 10000), (-7587, 5000), (-2938, 625), (286341, 2000), (1662031, 5000), (20689, 10000)],
     [(9389, 2000), (-7193, 2000), (-4511, 5000), (-6331, 2000), (44293, 400), (2763669, 10000), (2593, 1250)],
     [(23471, 5000), (-4497, 1250), (-437, 500), (-30899, 10000), (203009, 2500), (2176189, 10000), (5187, 2500)]],
   .call .predict 0 (some (some .failedPrecondition))]

#guard passes .default (fun _ => []) inputRateFasterThanMinOutputRate

/-- WobbleSmoothed -/
def wobbleSmoothed : List Check :=
  [.call (fun _ => .resetParams defaults) 0 (some none),
   .call (.update ⟨.down, ⟨(-6), (-2)⟩, 4, (-1), (-1), (-1)⟩) 0 (some none),
   .see 0 [[(-6, 1), (-2, 1), (0, 1), (0, 1), (0, 1), (0, 1), (4, 1)]],
   .clear 0,
   .call (.update ⟨.move, ⟨(fl (-301) 50), (-2)⟩, (d 40167 10000), (-1), (-1), (-1)⟩) 0 (some none),
   .see 0 [[(-60003, 10000), (-2, 1), (-123, 2000), (0, 1), (-36819, 2500), (0, 1), (20021, 5000)],
     [(-60009, 10000), (-2, 1), (-407, 2500), (0, 1), (-9709, 400), (0, 1), (10021, 2500)],
     [(-60021, 10000), (-2, 1), (-717, 2500), (0, 1), (-74249, 2500), (0, 1), (321, 80)],
     [(-60039, 10000), (-2, 1), (-4203, 10000), (0, 1), (-19983, 625), (0, 1), (40167, 10000)]],
   .clear 0,
   .call (.update ⟨.move, ⟨(fl (-301) 50), (fl (-101) 50)⟩, (d 20167 5000), (-1), (-1), (-1)⟩) 0 (some none),
   .see 0 [[(-60059, 10000), (-20001, 10000), (-4921, 10000), (-307, 10000), (-42983, 2500), (-36819, 5000), (40209, 10000)],
     [(-60081, 10000), (-4001, 2000), (-517, 1000), (-407, 5000), (-59729, 10000), (-24271, 2000), (40251, 10000)],
     [(-30051, 5000), (-2001, 1000), (-5079, 10000), (-717, 5000), (21807, 10000), (-148493, 10000), (10073, 2500)],
     [(-30061, 5000), (-20019, 10000), (-951, 2000), (-2101, 10000), (7771, 1000), (-7993, 500), (20167, 5000)]],
   .clear 0,
   .call (.update ⟨.move, ⟨(fl (-151) 25), (fl (-101) 50)⟩, (d 8100200000000001 2000000000000000), (-1), (-1), (-1)⟩) 0 (some none),
   .see 0 [[(-60141, 10000), (-2003, 1000), (-4489, 10000), (-2563, 10000), (63733, 10000), (-110507, 10000), (5047, 1250)],
     [(-60159, 10000), (-10021, 5000), (-4277, 10000), (-357, 1250), (5067, 1000), (-14063, 2000), (20209, 5000)],
     [(-3761, 625), (-4011, 2000), (-823, 2000), (-1509, 5000), (779, 200), (-38603, 10000), (40459, 10000)],
     [(-60193, 10000), (-20067, 10000), (-1997, 5000), (-1539, 5000), (14379, 5000), (-2887, 2000), (40501, 10000)]],
   .clear 0,
   .call (.update ⟨.move, ⟨(fl (-151) 25), (fl (-51) 25)⟩, (d 4066800000000001 1000000000000000), (-1), (-1), (-1)⟩) 0 (some none),
   .see 0 [[(-60209, 10000), (-10041, 5000), (-391, 1000), (-843, 2500), (10071, 5000), (-70427, 10000), (40543, 10000)],
     [(-2409, 400), (-10049, 5000), (-241, 625), (-1907, 5000), (1309, 1000), (-105977, 10000), (8117, 2000)],
     [(-60241, 10000), (-5029, 2500), (-153, 400), (-2169, 5000), (747, 1000), (-125399, 10000), (20313, 5000)],
     [(-60257, 10000), (-2517, 1250), (-3811, 10000), (-4891, 10000), (1587, 5000), (-132543, 10000), (10167, 2500)]]]

#guard passes .default (fun _ => []) wobbleSmoothed

/-- WobbleNotSmoothedIfNotEnabled -/
def wobbleNotSmoothedIfNotEnabled : List Check :=
  [.call (fun _ => .resetParams { params with wobble := { params.wobble with isEnabled := false }, sampling := { params.sampling with maxOutputsPerCall := 100000 } }) 0 (some none),
   .call (.update ⟨.down, ⟨(-6), (-2)⟩, 4, (-1), (-1), (-1)⟩) 0 (some none),
   .see 0 [[(-6, 1), (-2, 1), (0, 1), (0, 1), (0, 1), (0, 1), (4, 1)]],
   .clear 0,
   .call (.update ⟨.move, ⟨(fl (-301) 50), (-2)⟩, (d 40167 10000), (-1), (-1), (-1)⟩) 0 (some none),
   .see 0 [[(-60003, 10000), (-2, 1), (-123, 2000), (0, 1), (-36819, 2500), (0, 1), (20021, 5000)],
     [(-60009, 10000), (-2, 1), (-407, 2500), (0, 1), (-9709, 400), (0, 1), (10021, 2500)],
     [(-60021, 10000), (-2, 1), (-717, 2500), (0, 1), (-74249, 2500), (0, 1), (321, 80)],
     [(-60039, 10000), (-2, 1), (-4203, 10000), (0, 1), (-19983, 625), (0, 1), (40167, 10000)]],
   .clear 0,
   .call (.update ⟨.move, ⟨(fl (-301) 50), (fl (-101) 50)⟩, (d 20167 5000), (-1), (-1), (-1)⟩) 0 (some none),
   .see 0 [[(-60059, 10000), (-20003, 10000), (-4921, 10000), (-123, 2000), (-42983, 2500), (-36819, 2500), (40209, 10000)],
     [(-60081, 10000), (-20009, 10000), (-517, 1000), (-407, 2500), (-59729, 10000), (-242711, 10000), (40251, 10000)],
     [(-30051, 5000), (-20021, 10000), (-5079, 10000), (-717, 2500), (21807, 10000), (-297, 10), (10073, 2500)],
     [(-30061, 5000), (-20039, 10000), (-951, 2000), (-4203, 10000), (7771, 1000), (-79931, 2500), (20167, 5000)]],
   .clear 0,
   .call (.update ⟨.move, ⟨(fl (-151) 25), (fl (-101) 50)⟩, (d 8100200000000001 2000000000000000), (-1), (-1), (-1)⟩) 0 (some none),
   .see 0 [[(-60143, 10000), (-20059, 10000), (-4899, 10000), (-4921, 10000), (-4307, 1250), (-171929, 10000), (5047, 1250)],
     [(-12033, 2000), (-20081, 10000), (-5363, 10000), (-517, 1000), (-55561, 5000), (-29867, 5000), (20209, 5000)],
     [(-6019, 1000), (-10051, 5000), (-6027, 10000), (-5079, 10000), (-159053, 10000), (5451, 2500), (40459, 10000)],
     [(-30109, 5000), (-10061, 5000), (-1699, 2500), (-951, 2000), (-92201, 5000), (19427, 2500), (40501, 10000)]],
   .clear 0,
   .call (.update ⟨.move, ⟨(fl (-151) 25), (fl (-51) 25)⟩, (d 4066800000000001 1000000000000000), (-1), (-1), (-1)⟩) 0 (some none),
   .see 0 [[(-7531, 1250), (-20143, 10000), (-3493, 5000), (-4899, 10000), (-45389, 10000), (-17229, 5000), (40543, 10000)],
     [(-15069, 2500), (-4033, 2000), (-169, 250), (-5363, 10000), (6771, 1250), (-11113, 1000), (8117, 2000)],
     [(-30151, 5000), (-2019, 1000), (-1251, 2000), (-6027, 10000), (60509, 5000), (-31809, 2000), (20313, 5000)],
     [(-2413, 400), (-10109, 5000), (-279, 500), (-1699, 2500), (3231, 200), (-46101, 2500), (10167, 2500)]]]

#guard passes .default (fun _ => []) wobbleNotSmoothedIfNotEnabled

/-- UpdateAppendsToResults -/
def updateAppendsToResults : List Check :=
  [.call (fun _ => .resetParams defaults) 0 (some none),
   .call (.update ⟨.down, ⟨5, (-3)⟩, 2, (-1), (-1), (-1)⟩) 0 (some none),
   .see 0 [[(5, 1), (-3, 1), (0, 1), (0, 1), (0, 1), (0, 1), (2, 1)]],
   .call (.update ⟨.move, ⟨5, (fl (-31) 10)⟩, (d 10016666666666667 5000000000000000), (-1), (-1), (-1)⟩) 0 (some none),
   .see 0 [[(5, 1), (-3, 1), (0, 1), (0, 1), (0, 1), (0, 1), (2, 1)],
     [(5, 1), (-30033, 10000), (0, 1), (-4909, 5000), (0, 1), (-736363, 2500), (20033, 10000)]]]

#guard passes .default (fun _ => []) updateAppendsToResults

/-- Reset -/
def reset : List Check :=
  [.call (fun _ => .resetParams defaults) 0 (some none),
   .call (.update ⟨.down, ⟨(-8), (-10)⟩, 0, (-1), (-1), (-1)⟩) 0 (some none),
   .some 0,
   .call .predict 0 (some none),
   .see 0 [],
   .clear 0,
   .call (.update ⟨.move, ⟨0, 0⟩, (d 1 50), (-1), (-1), (-1)⟩) 0 (some none),
   .some 0,
   .call .predict 0 (some none),
   .some 0,
   .clear 0,
   .call (.update ⟨.move, ⟨(-11), (-5)⟩, (d 1 25), (-1), (-1), (-1)⟩) 0 (some none),
   .some 0,
   .call .predict 0 (some none),
   .some 0,
   .call (fun _ => .resetParams defaults) 0 (some none),
   .call .predict 0 (some (some .failedPrecondition))]

#guard passes .default (fun _ => []) reset

/-- IgnoreInputsBeforeTDown -/
def ignoreInputsBeforeTDown : List Check :=
  [.call (fun _ => .resetParams defaults) 0 (some none),
   .call (.update ⟨.move, ⟨0, 0⟩, 0, (-1), (-1), (-1)⟩) 0 (some (some .failedPrecondition)),
   .see 0 [],
   .clear 0,
   .call (.update ⟨.up, ⟨0, 0⟩, 1, (-1), (-1), (-1)⟩) 0 (some (some .failedPrecondition)),
   .see 0 []]

#guard passes .default (fun _ => []) ignoreInputsBeforeTDown

/-- IgnoreTDownWhileStrokeIsInProgress -/
def ignoreTDownWhileStrokeIsInProgress : List Check :=
  [.call (fun _ => .resetParams defaults) 0 (some none),
   .call (.update ⟨.down, ⟨0, 0⟩, 0, (-1), (-1), (-1)⟩) 0 (some none),
   .some 0,
   .clear 0,
   .call (.update ⟨.down, ⟨1, 1⟩, 1, (-1), (-1), (-1)⟩) 0 (some (some .failedPrecondition)),
   .see 0 [],
   .clear 0,
   .call (.update ⟨.move, ⟨1, 1⟩, 1, (-1), (-1), (-1)⟩) 0 (some none),
   .some 0,
   .clear 0,
   .call (.update ⟨.down, ⟨2, 2⟩, 2, (-1), (-1), (-1)⟩) 0 (some (some .failedPrecondition)),
   .see 0 []]

#guard passes .default (fun _ => []) ignoreTDownWhileStrokeIsInProgress

/-- AlternateParams -/
def alternateParams : List Check :=
  [.call (fun _ => .resetParams { params with sampling := { params.sampling with minOutputRate := 70, maxOutputsPerCall := 100000 } }) 0 (some none),
   .call (.update ⟨.down, ⟨0, 0⟩, 3, (fl 1 2), (fl 1 5), (fl 2 5)⟩) 0 (some none),
   .see 0 [[(0, 1), (0, 1), (0, 1), (0, 1), (0, 1), (0, 1), (3, 1), (1, 2), (1, 5), (2, 5)]],
   .call .predict 0 (some none),
   .see 0 [],
   .clear 0,
   .call (.update ⟨.move, ⟨0, (fl 1 2)⟩, (d 151 50), (fl 2 5), (fl 3 10), (fl 3 10)⟩) 0 (some none),
   .see 0 [[(0, 1), (46, 625), (0, 1), (18409, 2500), (0, 1), (1840909, 2500), (301, 100), (4853, 10000), (2147, 10000), (3853, 10000)],
     [(0, 1), (1099, 5000), (0, 1), (73101, 5000), (0, 1), (7256529, 10000), (151, 50), (57, 125), (61, 250), (89, 250)]],
   .call .predict 0 (some none),
   .see 0 [[(0, 1), (3823, 10000), (0, 1), (113709, 10000), (0, 1), (-1137237, 5000), (30343, 10000), (847, 2000), (553, 2000), (647, 2000)],
     [(0, 1), (1121, 2500), (0, 1), (9257, 2000), (0, 1), (-235983, 500), (15243, 5000), (4103, 10000), (2897, 10000), (3103, 10000)],
     [(0, 1), (191, 400), (0, 1), (20389, 10000), (0, 1), (-1812747, 10000), (30629, 10000), (809, 2000), (591, 2000), (609, 2000)],
     [(0, 1), (2451, 5000), (0, 1), (8873, 10000), (0, 1), (-100767, 1250), (30771, 10000), (201, 500), (149, 500), (151, 500)],
     [(0, 1), (4957, 10000), (0, 1), (967, 2500), (0, 1), (-175159, 5000), (15457, 5000), (4009, 10000), (2991, 10000), (3009, 10000)],
     [(0, 1), (4981, 10000), (0, 1), (843, 5000), (0, 1), (-3819, 250), (31057, 10000), (1001, 2500), (749, 2500), (751, 2500)],
     [(0, 1), (312, 625), (0, 1), (147, 2000), (0, 1), (-66579, 10000), (78, 25), (2001, 5000), (1499, 5000), (1501, 5000)]],
   .clear 0,
   .call (.update ⟨.move, ⟨(fl 1 5), 1⟩, (d 76 25), (fl 3 10), (fl 2 5), (fl 1 5)⟩) 0 (some none),
   .see 0 [[(59, 2000), (4169, 10000), (5891, 2000), (197093, 10000), (589091, 2000), (5089161, 10000), (303, 100), (2083, 5000), (1417, 5000), (1583, 5000)],
     [(879, 10000), (6439, 10000), (58481, 10000), (113463, 5000), (725653, 2500), (2983311, 10000), (76, 25), (3691, 10000), (3309, 10000), (2691, 10000)]],
   .call .predict 0 (some none),
   .see 0 [[(1529, 10000), (8487, 10000), (11371, 2500), (71687, 5000), (-90979, 1000), (-5848687, 10000), (30543, 10000), (3293, 10000), (3707, 10000), (2293, 10000)],
     [(897, 5000), (4669, 5000), (9257, 5000), (59577, 10000), (-235983, 1250), (-73322, 125), (15343, 5000), (391, 1250), (242, 625), (133, 625)],
     [(191, 1000), (607, 625), (2039, 2500), (26159, 10000), (-725099, 10000), (-2339289, 10000), (30829, 10000), (191, 625), (493, 1250), (257, 1250)],
     [(1961, 10000), (4937, 5000), (3549, 10000), (11389, 10000), (-64491, 2000), (-258467, 2500), (30971, 10000), (189, 625), (497, 1250), (253, 1250)],
     [(1983, 10000), (1989, 2000), (1547, 10000), (993, 2000), (-140127, 10000), (-449693, 10000), (15557, 5000), (3011, 10000), (3989, 10000), (2011, 10000)],
     [(1993, 10000), (1247, 1250), (337, 5000), (541, 2500), (-3819, 625), (-49017, 2500), (31257, 10000), (601, 2000), (799, 2000), (401, 2000)],
     [(1997, 10000), (999, 1000), (147, 5000), (943, 10000), (-26631, 10000), (-17091, 2000), (157, 50), (1501, 5000), (1999, 5000), (1001, 5000)]],
   .clear 0,
   .call (.update ⟨.move, ⟨(fl 2 5), (fl 7 5)⟩, (d 153 50), (fl 1 5), (fl 7 10), 0⟩) 0 (some none),
   .see 0 [[(417, 2500), (1089, 1250), (78837, 10000), (227349, 10000), (407133, 2000), (2639, 625), (61, 20), (649, 2000), (751, 2000), (449, 2000)],
     [(103, 400), (5453, 5000), (90771, 10000), (219411, 10000), (298331, 2500), (-793721, 10000), (153, 50), (2761, 10000), (1179, 2500), (761, 5000)]],
   .call .predict 0 (some none),
   .see 0 [[(679, 2000), (3169, 2500), (57349, 10000), (123913, 10000), (-93579, 400), (-3342453, 5000), (30743, 10000), (93, 400), (753, 1250), (651, 10000)],
     [(747, 2000), (13421, 10000), (23831, 10000), (13039, 2500), (-146644, 625), (-313937, 625), (15443, 5000), (1071, 5000), (6573, 10000), (71, 2500)],
     [(777, 2000), (3437, 2500), (10463, 10000), (11427, 5000), (-233929, 2500), (-2051091, 10000), (31029, 10000), (1031, 5000), (3407, 5000), (31, 2500)],
     [(79, 200), (1389, 1000), (1139, 2500), (4977, 5000), (-413547, 10000), (-112883, 1250), (31171, 10000), (2027, 10000), (6919, 10000), (27, 5000)],
     [(1989, 5000), (872, 625), (993, 5000), (4339, 10000), (-179877, 10000), (-393021, 10000), (15657, 5000), (503, 2500), (1393, 2000), (3, 1250)],
     [(399, 1000), (13979, 10000), (433, 5000), (1891, 10000), (-19607, 2500), (-85673, 5000), (31457, 10000), (401, 2000), (1397, 2000), (1, 1000)],
     [(999, 2500), (13991, 10000), (377, 10000), (103, 1250), (-17091, 5000), (-1867, 250), (79, 25), (1001, 5000), (6993, 10000), (1, 2500)]],
   .clear 0,
   .call (.update ⟨.up, ⟨(fl 7 10), (fl 17 10)⟩, (d 77 25), (fl 1 10), 1, 0⟩) 0 (some none),
   .see 0 [[(3691, 10000), (6437, 5000), (55779, 5000), (24593, 1250), (2078707, 10000), (-90669, 400), (307, 100), (141, 625), (6231, 10000), (32, 625)],
     [(2489, 5000), (183, 125), (128701, 10000), (176629, 10000), (85717, 500), (-502877, 2500), (77, 25), (173, 1000), (7809, 10000), (0, 1)],
     [(6141, 10000), (7993, 5000), (20351, 2500), (94261, 10000), (-662163, 2000), (-720719, 1250), (30943, 10000), (82, 625), (1133, 1250), (0, 1)],
     [(414, 625), (16557, 10000), (16911, 5000), (39953, 10000), (-3330701, 10000), (-3801579, 10000), (15543, 5000), (71, 625), (9591, 10000), (0, 1)],
     [(1709, 2500), (16807, 10000), (14851, 10000), (1093, 625), (-265601, 2000), (-39313, 250), (31229, 10000), (1059, 10000), (4911, 5000), (0, 1)],
     [(6929, 10000), (4229, 2500), (3233, 5000), (3809, 5000), (-586943, 10000), (-345473, 5000), (31371, 10000), (513, 5000), (4961, 5000), (0, 1)],
     [(6969, 10000), (16963, 10000), (2819, 10000), (3321, 10000), (-127649, 5000), (-150397, 5000), (15757, 5000), (1011, 10000), (4983, 5000), (0, 1)],
     [(3493, 5000), (2123, 1250), (1229, 10000), (1447, 10000), (-111311, 10000), (-131133, 10000), (31657, 10000), (201, 2000), (1997, 2000), (0, 1)],
     [(3497, 5000), (16993, 10000), (107, 2000), (631, 10000), (-24257, 5000), (-57153, 10000), (159, 50), (501, 5000), (4997, 5000), (0, 1)]],
   .call .predict 0 (some (some .failedPrecondition))]

#guard passes .default (fun _ => []) alternateParams

/-- GenerateOutputOnTUpEvenIfNoTimeDelta -/
def generateOutputOnTUpEvenIfNoTimeDelta : List Check :=
  [.call (fun _ => .resetParams defaults) 0 (some none),
   .clear 0,
   .call (.update ⟨.down, ⟨5, 5⟩, 0, (-1), (-1), (-1)⟩) 0 (some none),
   .see 0 [[(5, 1), (5, 1), (0, 1), (0, 1), (0, 1), (0, 1), (0, 1)]],
   .clear 0,
   .call (.update ⟨.move, ⟨5, 5⟩, (d 1 500), (-1), (-1), (-1)⟩) 0 (some none),
   .see 0 [[(5, 1), (5, 1), (0, 1), (0, 1), (0, 1), (0, 1), (1, 500)]],
   .clear 0,
   .call (.update ⟨.up, ⟨5, 5⟩, (d 1 500), (-1), (-1), (-1)⟩) 0 (some none),
   .see 0 [[(5, 1), (5, 1), (0, 1), (0, 1), (0, 1), (0, 1), (19, 2500)]]]

#guard passes .default (fun _ => []) generateOutputOnTUpEvenIfNoTimeDelta

/-- RejectInputIfNegativeTimeDelta -/
def rejectInputIfNegativeTimeDelta : List Check :=
  [.call (fun _ => .resetParams defaults) 0 (some none),
   .call (.update ⟨.down, ⟨0, 0⟩, 0, (-1), (-1), (-1)⟩) 0 (some none),
   .some 0,
   .clear 0,
   .call (.update ⟨.move, ⟨1, 1⟩, (d (-1) 10), (-1), (-1), (-1)⟩) 0 (some (some .invalidArgument)),
   .see 0 [],
   .clear 0,
   .call (.update ⟨.move, ⟨1, 1⟩, 1, (-1), (-1), (-1)⟩) 0 (some none),
   .some 0,
   .clear 0,
   .call (.update ⟨.up, ⟨1, 1⟩, (d 9 10), (-1), (-1), (-1)⟩) 0 (some (some .invalidArgument)),
   .see 0 []]

#guard passes .default (fun _ => []) rejectInputIfNegativeTimeDelta

/-- RejectDuplicateInput -/
def rejectDuplicateInput : List Check :=
  [.call (fun _ => .resetParams defaults) 0 (some none),
   .call (.update ⟨.down, ⟨0, 0⟩, 0, (fl 1 5), (fl 3 10), (fl 2 5)⟩) 0 (some none),
   .some 0,
   .clear 0,
   .call (.update ⟨.down, ⟨0, 0⟩, 0, (fl 1 5), (fl 3 10), (fl 2 5)⟩) 0 (some (some .invalidArgument)),
   .see 0 [],
   .clear 0,
   .call (.update ⟨.move, ⟨1, 2⟩, 1, (fl 1 10), (fl 1 5), (fl 3 10)⟩) 0 (some none),
   .some 0,
   .clear 0,
   .call (.update ⟨.move, ⟨1, 2⟩, 1, (fl 1 10), (fl 1 5), (fl 3 10)⟩) 0 (some (some .invalidArgument)),
   .see 0 []]

#guard passes .default (fun _ => []) rejectDuplicateInput

/-- FarApartTimesDoNotCrashForMove -/
def farApartTimesDoNotCrashForMove : List Check :=
  [.call (fun _ => .resetParams defaults) 0 (some none),
   .call (.update ⟨.down, ⟨0, 0⟩, 0, (fl 1 5), (fl 3 10), (fl 2 5)⟩) 0 (some none),
   .some 0,
   .clear 0,
   .call (.update ⟨.move, ⟨0, 0⟩, 2147483647, (fl 1 5), (fl 3 10), (fl 2 5)⟩) 0 (some (some .invalidArgument)),
   .see 0 []]

#guard passes .default (fun _ => []) farApartTimesDoNotCrashForMove

/-- FarApartTimesDoNotCrashForUp -/
def farApartTimesDoNotCrashForUp : List Check :=
  [.call (fun _ => .resetParams defaults) 0 (some none),
   .call (.update ⟨.down, ⟨0, 0⟩, 0, (fl 1 5), (fl 3 10), (fl 2 5)⟩) 0 (some none),
   .some 0,
   .clear 0,
   .call (.update ⟨.up, ⟨0, 0⟩, 2147483647, (fl 1 5), (fl 3 10), (fl 2 5)⟩) 0 (some (some .invalidArgument)),
   .see 0 []]

#guard passes .default (fun _ => []) farApartTimesDoNotCrashForUp

/-- FirstResetMustPassParams -/
def firstResetMustPassParams : List Check :=
  [.call (fun _ => .reset) 0 (some (some .failedPrecondition))]

#guard passes .default (fun _ => []) firstResetMustPassParams

/-- ResetKeepsParamsAndResetsStroke -/
def resetKeepsParamsAndResetsStroke : List Check :=
  [.call (fun _ => .resetParams defaults) 0 (some none),
   .call (.update ⟨.down, ⟨3, 4⟩, 0, (-1), (-1), (-1)⟩) 0 (some none),
   .call (fun _ => .reset) 0 (some none),
   .clear 0,
   .call (.update ⟨.down, ⟨3, 4⟩, 0, (-1), (-1), (-1)⟩) 0 (some none)]

#guard passes .default (fun _ => []) resetKeepsParamsAndResetsStroke

/-- SaveAndRestore -/
def saveAndRestore : List Check :=
  [.call (fun _ => .resetParams defaults) 0 (some none),
   .call (fun _ => .save) 0 none,
   .call (.update ⟨.down, ⟨(-6), (-2)⟩, 4, (-1), (-1), (-1)⟩) 0 (some none),
   .see 0 [[(-6, 1), (-2, 1), (0, 1), (0, 1), (0, 1), (0, 1), (4, 1)]],
   .call (fun _ => .save) 0 none,
   .clear 0,
   .call (.update ⟨.up, ⟨(fl (-301) 50), (-2)⟩, (d 40167 10000), (-1), (-1), (-1)⟩) 0 (some none),
   .see 0 [[(-60003, 10000), (-2, 1), (-123, 2000), (0, 1), (-36819, 2500), (0, 1), (20021, 5000)],
     [(-60009, 10000), (-2, 1), (-407, 2500), (0, 1), (-9709, 400), (0, 1), (10021, 2500)],
     [(-60021, 10000), (-2, 1), (-717, 2500), (0, 1), (-74249, 2500), (0, 1), (321, 80)],
     [(-60039, 10000), (-2, 1), (-4203, 10000), (0, 1), (-19983, 625), (0, 1), (40167, 10000)],
     [(-15017, 2500), (-2, 1), (-2579, 5000), (0, 1), (-42983, 2500), (0, 1), (40223, 10000)],
     [(-60097, 10000), (-2, 1), (-2631, 5000), (0, 1), (-18749, 10000), (0, 1), (20139, 5000)],
     [(-15031, 2500), (-2, 1), (-4847, 10000), (0, 1), (74861, 10000), (0, 1), (20167, 5000)],
     [(-60147, 10000), (-2, 1), (-1039, 2500), (0, 1), (124229, 10000), (0, 1), (40389, 10000)],
     [(-12033, 2000), (-2, 1), (-841, 2500), (0, 1), (142557, 10000), (0, 1), (8089, 2000)],
     [(-3009, 500), (-2, 1), (-2583, 10000), (0, 1), (140591, 10000), (0, 1), (81, 20)],
     [(-6019, 1000), (-2, 1), (-47, 250), (0, 1), (12663, 1000), (0, 1), (10139, 2500)]],
   .call (fun _ => .restore) 0 none,
   .clear 0,
   .call (.update ⟨.up, ⟨(fl (-301) 50), (-2)⟩, (d 40167 10000), (-1), (-1), (-1)⟩) 0 (some none),
   .see 0 [[(-60003, 10000), (-2, 1), (-123, 2000), (0, 1), (-36819, 2500), (0, 1), (20021, 5000)],
     [(-60009, 10000), (-2, 1), (-407, 2500), (0, 1), (-9709, 400), (0, 1), (10021, 2500)],
     [(-60021, 10000), (-2, 1), (-717, 2500), (0, 1), (-74249, 2500), (0, 1), (321, 80)],
     [(-60039, 10000), (-2, 1), (-4203, 10000), (0, 1), (-19983, 625), (0, 1), (40167, 10000)],
     [(-15017, 2500), (-2, 1), (-2579, 5000), (0, 1), (-42983, 2500), (0, 1), (40223, 10000)],
     [(-60097, 10000), (-2, 1), (-2631, 5000), (0, 1), (-18749, 10000), (0, 1), (20139, 5000)],
     [(-15031, 2500), (-2, 1), (-4847, 10000), (0, 1), (74861, 10000), (0, 1), (20167, 5000)],
     [(-60147, 10000), (-2, 1), (-1039, 2500), (0, 1), (124229, 10000), (0, 1), (40389, 10000)],
     [(-12033, 2000), (-2, 1), (-841, 2500), (0, 1), (142557, 10000), (0, 1), (8089, 2000)],
     [(-3009, 500), (-2, 1), (-2583, 10000), (0, 1), (140591, 10000), (0, 1), (81, 20)],
     [(-6019, 1000), (-2, 1), (-47, 250), (0, 1), (12663, 1000), (0, 1), (10139, 2500)]],
   .call (fun _ => .restore) 0 none,
   .clear 0,
   .call (.update ⟨.up, ⟨(fl (-301) 50), (-2)⟩, (d 40167 10000), (-1), (-1), (-1)⟩) 0 (some none),
   .see 0 [[(-60003, 10000), (-2, 1), (-123, 2000), (0, 1), (-36819, 2500), (0, 1), (20021, 5000)],
     [(-60009, 10000), (-2, 1), (-407, 2500), (0, 1), (-9709, 400), (0, 1), (10021, 2500)],
     [(-60021, 10000), (-2, 1), (-717, 2500), (0, 1), (-74249, 2500), (0, 1), (321, 80)],
     [(-60039, 10000), (-2, 1), (-4203, 10000), (0, 1), (-19983, 625), (0, 1), (40167, 10000)],
     [(-15017, 2500), (-2, 1), (-2579, 5000), (0, 1), (-42983, 2500), (0, 1), (40223, 10000)],
     [(-60097, 10000), (-2, 1), (-2631, 5000), (0, 1), (-18749, 10000), (0, 1), (20139, 5000)],
     [(-15031, 2500), (-2, 1), (-4847, 10000), (0, 1), (74861, 10000), (0, 1), (20167, 5000)],
     [(-60147, 10000), (-2, 1), (-1039, 2500), (0, 1), (124229, 10000), (0, 1), (40389, 10000)],
     [(-12033, 2000), (-2, 1), (-841, 2500), (0, 1), (142557, 10000), (0, 1), (8089, 2000)],
     [(-3009, 500), (-2, 1), (-2583, 10000), (0, 1), (140591, 10000), (0, 1), (81, 20)],
     [(-6019, 1000), (-2, 1), (-47, 250), (0, 1), (12663, 1000), (0, 1), (10139, 2500)]],
   .call (fun _ => .reset) 0 (some none),
   .clear 0,
   .call (.update ⟨.down, ⟨(-6), (-2)⟩, 4, (-1), (-1), (-1)⟩) 0 (some none),
   .see 0 [[(-6, 1), (-2, 1), (0, 1), (0, 1), (0, 1), (0, 1), (4, 1)]],
   .clear 0,
   .call (.update ⟨.up, ⟨(fl (-301) 50), (-2)⟩, (d 40167 10000), (-1), (-1), (-1)⟩) 0 (some none),
   .call (fun _ => .restore) 0 none,
   .clear 0,
   .call (.update ⟨.up, ⟨(fl (-301) 50), (-2)⟩, (d 40167 10000), (-1), (-1), (-1)⟩) 0 (some (some .failedPrecondition))]

#guard passes .default (fun _ => []) saveAndRestore

/-- UpdateUpdateIdenticalToUpdatePredictUpdate -/
def updateUpdateIdenticalToUpdatePredictUpdate : List Check :=
  [.call (fun _ => .resetParams defaults) 0 (some none),
   .call (.update ⟨.down, ⟨(-6), (-2)⟩, 0, (fl 1 2), (fl 1 2), (fl 1 2)⟩) 1 (some none),
   .clear 1,
   .call (.update ⟨.move, ⟨(fl (-31) 5), (-2)⟩, (d 167 10000), (fl 12 25), (fl 2 5), (fl 2 5)⟩) 1 (some none),
   .clear 1,
   .call .predict 1 (some none),
   .clear 1,
   .call (.update ⟨.move, ⟨(fl (-31) 5), (fl (-11) 5)⟩, (d 167 5000), (fl 12 25), (fl 2 5), (fl 2 5)⟩) 1 (some none),
   .call (fun _ => .resetParams defaults) 0 (some none),
   .call (.update ⟨.down, ⟨(-6), (-2)⟩, 0, (fl 1 2), (fl 1 2), (fl 1 2)⟩) 2 (some none),
   .clear 2,
   .call (.update ⟨.move, ⟨(fl (-31) 5), (-2)⟩, (d 167 10000), (fl 12 25), (fl 2 5), (fl 2 5)⟩) 2 (some none),
   .clear 2,
   .call (.update ⟨.move, ⟨(fl (-31) 5), (fl (-11) 5)⟩, (d 167 5000), (fl 12 25), (fl 2 5), (fl 2 5)⟩) 2 (some none),
   .same 1 2]

#guard passes .default (fun _ => []) updateUpdateIdenticalToUpdatePredictUpdate

end Ink.Tests
