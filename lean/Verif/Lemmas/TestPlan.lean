import Verif.Lemmas.Plan
/-!
# The Kalman filter of kalman_predictor_test.cc

The process noise is .00026458 and the measurement noise .026458 (kalman_predictor_test.cc, and the recommended values of params.h).
The kernel follows the plan until it repeats, after some 190 measurements, in stretches of 23.
-/
namespace Ink
open Scalar Fl Hold
noncomputable section

def testPlan : Plan where
  filter := makeKalmanFilter (.num false 4880639547022073 1010) (.num false 7625999292221989 1016) 4
  frame := {
    u0 := ⟨4, 20, 15, 4⟩, u1 := ⟨-11, -14, -3, 1⟩, u2 := ⟨-18, -24, -15, -6⟩, u3 := ⟨8, 1, 3, 0⟩
    t0 := ⟨-291, -12, 780, -1029⟩, t1 := ⟨-42, -384, 240, 1062⟩, t2 := ⟨-201, -72, 560, -1539⟩, t3 := ⟨408, -684, 1200, -1488⟩
    det := 6180, n0 := 23, n1 := 35, n2 := 22, n3 := 8 }
  window := 8
  ratios := [90, 100, 150, 200, 400, 800]
  b0 := 3
  b1 := 4
  b2 := 6
  b3 := 3

theorem testPlan_ok : testPlan.Ok where
  frame := by
    constructor
    · decide
    · intro v
      apply Hold.ext <;> simp only [testPlan, Frame.build, Frame.coords, dotR, mulV] <;> push_cast <;> ring
    all_goals simp only [testPlan]; norm_num
  b0 := by decide
  b1 := by decide
  b2 := by decide
  b3 := by decide

/-- A stretch of the plan, with its constants evaluated. -/
def stretch (s : Plan.State) (n : ℕ) (cont : Plan → Plan.State → Bool) : Bool :=
  forceF testPlan.filter fun g => Plan.steps { testPlan with filter := g } n s (cont { testPlan with filter := g })

theorem stretch_eq (s : Plan.State) (n : ℕ) (cont : Plan → Plan.State → Bool) : stretch s n cont = testPlan.steps n s (cont testPlan) := by
  unfold stretch
  rw [forceF_eq]

/-- The states after 23, 46, ... measurements more than the first. -/
def state1 : Plan.State where
  cov :=
    ⟨⟨.num false 5872583497883678 1016, .num false 8323987578988996 1015, .num false 6980623380252100 1014, .num false 5852710392954752 1012⟩,
       ⟨.num false 8323987578988996 1015, .num false 5462022881638830 1016, .num false 6166402497563850 1015, .num false 6568145292235431 1013⟩,
       ⟨.num false 6980623380252099 1014, .num false 6166402497563850 1015, .num false 8429212785602880 1014, .num false 5486053356172720 1013⟩,
       ⟨.num false 5852710392954748 1012, .num false 6568145292235430 1013, .num false 5486053356172722 1013, .num false 4600356895145359 1012⟩⟩
  cs :=
     [⟨.ofNat 3307442487, .ofNat 2344037355, .ofNat 982872800, .ofNat 206015621⟩,
      ⟨.ofNat 1420505595, .ofNat 58986910, .negSucc 224540519, .negSucc 90261799⟩,
      ⟨.ofNat 310700195, .negSucc 949072667, .negSucc 624452737, .negSucc 155152339⟩,
      ⟨.negSucc 224817858, .negSucc 1118808003, .negSucc 556461356, .negSucc 108357931⟩,
      ⟨.negSucc 377255287, .negSucc 834828375, .negSucc 289723812, .negSucc 29720456⟩,
      ⟨.negSucc 313090884, .negSucc 396021881, .negSucc 7713745, .ofNat 35618731⟩,
      ⟨.negSucc 162233390, .ofNat 651270, .ofNat 190071577, .ofNat 69587928⟩,
      ⟨.negSucc 12062041, .ofNat 256693300, .ofNat 272840273, .ofNat 72310810⟩]
  rest := 285100021

def state2 : Plan.State where
  cov :=
    ⟨⟨.num false 5871699523906440 1016, .num false 8321018773167102 1015, .num false 6978280006151991 1014, .num false 5852215051918965 1012⟩,
       ⟨.num false 8321018773167102 1015, .num false 5459004933232893 1016, .num false 6163381869758615 1015, .num false 6566480412003460 1013⟩,
       ⟨.num false 6978280006151993 1014, .num false 6163381869758614 1015, .num false 8425548508549772 1014, .num false 5484637228306716 1013⟩,
       ⟨.num false 5852215051918966 1012, .num false 6566480412003459 1013, .num false 5484637228306716 1013, .num false 4599597101074336 1012⟩⟩
  cs :=
     [⟨.ofNat 3306944632, .ofNat 2343201338, .ofNat 982542853, .ofNat 205998185⟩,
      ⟨.ofNat 1420681690, .ofNat 59444834, .negSucc 224261205, .negSucc 90207417⟩,
      ⟨.ofNat 311237865, .negSucc 948053974, .negSucc 623980309, .negSucc 155099086⟩,
      ⟨.negSucc 224211800, .negSucc 1117841610, .negSucc 556111146, .negSucc 108351961⟩,
      ⟨.negSucc 376847283, .negSucc 834395126, .negSucc 289705906, .negSucc 29781033⟩,
      ⟨.negSucc 313100633, .negSucc 396439895, .negSucc 8122812, .ofNat 35499015⟩,
      ⟨.negSucc 162797327, .negSucc 721875, .ofNat 189270653, .ofNat 69441517⟩,
      ⟨.negSucc 13183752, .ofNat 254536313, .ofNat 271822857, .ofNat 72190281⟩]
  rest := 282337124

def state3 : Plan.State where
  cov :=
    ⟨⟨.num false 5871699486446772 1016, .num false 8321018621522653 1015, .num false 6978279854673758 1014, .num false 5852214968510348 1012⟩,
       ⟨.num false 8321018621522651 1015, .num false 5459004748257358 1016, .num false 6163381653324890 1015, .num false 6566480252706387 1013⟩,
       ⟨.num false 6978279854673756 1014, .num false 6163381653324886 1015, .num false 8425548228907891 1014, .num false 5484637111116775 1013⟩,
       ⟨.num false 5852214968510344 1012, .num false 6566480252706383 1013, .num false 5484637111116773 1013, .num false 4599597044967868 1012⟩⟩
  cs :=
     [⟨.ofNat 3306944611, .ofNat 2343201295, .ofNat 982542831, .ofNat 205998182⟩,
      ⟨.ofNat 1420681701, .ofNat 59444867, .negSucc 224261184, .negSucc 90207413⟩,
      ⟨.ofNat 311237890, .negSucc 948053915, .negSucc 623980275, .negSucc 155099081⟩,
      ⟨.negSucc 224211776, .negSucc 1117841563, .negSucc 556111123, .negSucc 108351958⟩,
      ⟨.negSucc 376847273, .negSucc 834395120, .negSucc 289705911, .negSucc 29781036⟩,
      ⟨.negSucc 313100643, .negSucc 396439942, .negSucc 8122849, .ofNat 35499006⟩,
      ⟨.negSucc 162797360, .negSucc 721966, .ofNat 189270596, .ofNat 69441506⟩,
      ⟨.negSucc 13183806, .ofNat 254536188, .ofNat 271822788, .ofNat 72190269⟩]
  rest := 282069625

def state4 : Plan.State where
  cov :=
    ⟨⟨.num false 5871699486445567 1016, .num false 8321018621517667 1015, .num false 6978279854668668 1014, .num false 5852214968507412 1012⟩,
       ⟨.num false 8321018621517669 1015, .num false 5459004748249733 1016, .num false 6163381653314678 1015, .num false 6566480252697486 1013⟩,
       ⟨.num false 6978279854668671 1014, .num false 6163381653314684 1015, .num false 8425548228892616 1014, .num false 5484637111109350 1013⟩,
       ⟨.num false 5852214968507413 1012, .num false 6566480252697491 1013, .num false 5484637111109350 1013, .num false 4599597044963937 1012⟩⟩
  cs :=
     [⟨.ofNat 3306944611, .ofNat 2343201295, .ofNat 982542831, .ofNat 205998182⟩,
      ⟨.ofNat 1420681701, .ofNat 59444867, .negSucc 224261184, .negSucc 90207413⟩,
      ⟨.ofNat 311237890, .negSucc 948053915, .negSucc 623980275, .negSucc 155099081⟩,
      ⟨.negSucc 224211776, .negSucc 1117841563, .negSucc 556111123, .negSucc 108351958⟩,
      ⟨.negSucc 376847273, .negSucc 834395120, .negSucc 289705911, .negSucc 29781036⟩,
      ⟨.negSucc 313100643, .negSucc 396439942, .negSucc 8122849, .ofNat 35499006⟩,
      ⟨.negSucc 162797360, .negSucc 721966, .ofNat 189270596, .ofNat 69441506⟩,
      ⟨.negSucc 13183806, .ofNat 254536188, .ofNat 271822788, .ofNat 72190269⟩]
  rest := 282045917

def state5 : Plan.State where
  cov :=
    ⟨⟨.num false 5871699486445566 1016, .num false 8321018621517666 1015, .num false 6978279854668668 1014, .num false 5852214968507410 1012⟩,
       ⟨.num false 8321018621517668 1015, .num false 5459004748249731 1016, .num false 6163381653314678 1015, .num false 6566480252697483 1013⟩,
       ⟨.num false 6978279854668669 1014, .num false 6163381653314678 1015, .num false 8425548228892616 1014, .num false 5484637111109346 1013⟩,
       ⟨.num false 5852214968507410 1012, .num false 6566480252697484 1013, .num false 5484637111109348 1013, .num false 4599597044963934 1012⟩⟩
  cs :=
     [⟨.ofNat 3306944611, .ofNat 2343201295, .ofNat 982542831, .ofNat 205998182⟩,
      ⟨.ofNat 1420681701, .ofNat 59444867, .negSucc 224261184, .negSucc 90207413⟩,
      ⟨.ofNat 311237890, .negSucc 948053915, .negSucc 623980275, .negSucc 155099081⟩,
      ⟨.negSucc 224211776, .negSucc 1117841563, .negSucc 556111123, .negSucc 108351958⟩,
      ⟨.negSucc 376847273, .negSucc 834395120, .negSucc 289705911, .negSucc 29781036⟩,
      ⟨.negSucc 313100643, .negSucc 396439942, .negSucc 8122849, .ofNat 35499006⟩,
      ⟨.negSucc 162797360, .negSucc 721966, .ofNat 189270596, .ofNat 69441506⟩,
      ⟨.negSucc 13183806, .ofNat 254536188, .ofNat 271822788, .ofNat 72190269⟩]
  rest := 282043815

def state6 : Plan.State where
  cov :=
    ⟨⟨.num false 5871699486445566 1016, .num false 8321018621517665 1015, .num false 6978279854668670 1014, .num false 5852214968507412 1012⟩,
       ⟨.num false 8321018621517666 1015, .num false 5459004748249738 1016, .num false 6163381653314686 1015, .num false 6566480252697488 1013⟩,
       ⟨.num false 6978279854668670 1014, .num false 6163381653314684 1015, .num false 8425548228892618 1014, .num false 5484637111109350 1013⟩,
       ⟨.num false 5852214968507412 1012, .num false 6566480252697488 1013, .num false 5484637111109352 1013, .num false 4599597044963936 1012⟩⟩
  cs :=
     [⟨.ofNat 3306944611, .ofNat 2343201295, .ofNat 982542831, .ofNat 205998182⟩,
      ⟨.ofNat 1420681701, .ofNat 59444867, .negSucc 224261184, .negSucc 90207413⟩,
      ⟨.ofNat 311237890, .negSucc 948053915, .negSucc 623980275, .negSucc 155099081⟩,
      ⟨.negSucc 224211776, .negSucc 1117841563, .negSucc 556111123, .negSucc 108351958⟩,
      ⟨.negSucc 376847273, .negSucc 834395120, .negSucc 289705911, .negSucc 29781036⟩,
      ⟨.negSucc 313100643, .negSucc 396439942, .negSucc 8122849, .ofNat 35499006⟩,
      ⟨.negSucc 162797360, .negSucc 721966, .ofNat 189270596, .ofNat 69441506⟩,
      ⟨.negSucc 13183806, .ofNat 254536188, .ofNat 271822788, .ofNat 72190269⟩]
  rest := 282043629

def state7 : Plan.State where
  cov :=
    ⟨⟨.num false 5871699486445566 1016, .num false 8321018621517666 1015, .num false 6978279854668669 1014, .num false 5852214968507410 1012⟩,
       ⟨.num false 8321018621517666 1015, .num false 5459004748249731 1016, .num false 6163381653314679 1015, .num false 6566480252697486 1013⟩,
       ⟨.num false 6978279854668670 1014, .num false 6163381653314676 1015, .num false 8425548228892614 1014, .num false 5484637111109348 1013⟩,
       ⟨.num false 5852214968507412 1012, .num false 6566480252697484 1013, .num false 5484637111109347 1013, .num false 4599597044963936 1012⟩⟩
  cs :=
     [⟨.ofNat 3306944611, .ofNat 2343201295, .ofNat 982542831, .ofNat 205998182⟩,
      ⟨.ofNat 1420681701, .ofNat 59444867, .negSucc 224261184, .negSucc 90207413⟩,
      ⟨.ofNat 311237890, .negSucc 948053915, .negSucc 623980275, .negSucc 155099081⟩,
      ⟨.negSucc 224211776, .negSucc 1117841563, .negSucc 556111123, .negSucc 108351958⟩,
      ⟨.negSucc 376847273, .negSucc 834395120, .negSucc 289705911, .negSucc 29781036⟩,
      ⟨.negSucc 313100643, .negSucc 396439942, .negSucc 8122849, .ofNat 35499006⟩,
      ⟨.negSucc 162797360, .negSucc 721966, .ofNat 189270596, .ofNat 69441506⟩,
      ⟨.negSucc 13183806, .ofNat 254536188, .ofNat 271822788, .ofNat 72190269⟩]
  rest := 282043615

def state8 : Plan.State where
  cov :=
    ⟨⟨.num false 5871699486445566 1016, .num false 8321018621517666 1015, .num false 6978279854668668 1014, .num false 5852214968507411 1012⟩,
       ⟨.num false 8321018621517665 1015, .num false 5459004748249734 1016, .num false 6163381653314680 1015, .num false 6566480252697485 1013⟩,
       ⟨.num false 6978279854668668 1014, .num false 6163381653314678 1015, .num false 8425548228892610 1014, .num false 5484637111109346 1013⟩,
       ⟨.num false 5852214968507412 1012, .num false 6566480252697484 1013, .num false 5484637111109347 1013, .num false 4599597044963935 1012⟩⟩
  cs :=
     [⟨.ofNat 3306944611, .ofNat 2343201295, .ofNat 982542831, .ofNat 205998182⟩,
      ⟨.ofNat 1420681701, .ofNat 59444867, .negSucc 224261184, .negSucc 90207413⟩,
      ⟨.ofNat 311237890, .negSucc 948053915, .negSucc 623980275, .negSucc 155099081⟩,
      ⟨.negSucc 224211776, .negSucc 1117841563, .negSucc 556111123, .negSucc 108351958⟩,
      ⟨.negSucc 376847273, .negSucc 834395120, .negSucc 289705911, .negSucc 29781036⟩,
      ⟨.negSucc 313100643, .negSucc 396439942, .negSucc 8122849, .ofNat 35499006⟩,
      ⟨.negSucc 162797360, .negSucc 721966, .ofNat 189270596, .ofNat 69441506⟩,
      ⟨.negSucc 13183806, .ofNat 254536188, .ofNat 271822788, .ofNat 72190269⟩]
  rest := 282043615

end
end Ink
