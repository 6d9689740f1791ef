# Generates /verif/properties.jsonl. One tuple per property.
import json
SM="ink_stroke_modeler/stroke_modeler.cc"; SMH="ink_stroke_modeler/stroke_modeler.h"
I="ink_stroke_modeler/internal/"; K=I+"prediction/kalman_predictor.cc"; KF=I+"prediction/kalman_filter/"
P="ink_stroke_modeler/params.cc"; PH="ink_stroke_modeler/params.h"; T="ink_stroke_modeler/types.cc"; TH="ink_stroke_modeler/types.h"
S=I+"stylus_state_modeler.cc"; W=I+"wobble_smoother.cc"; PM=I+"position_modeler.cc"; PMH=I+"position_modeler.h"
U=I+"utils.cc"; UH=I+"utils.h"; L=I+"loop_contraction_mitigation_modeler.cc"; E=I+"prediction/stroke_end_predictor.cc"
props=[
("Uninitialised modeler refuses everything",
 "Until some call to Reset(params) has succeeded, every Update, every Predict and every Reset() returns FailedPrecondition; Update leaves its results vector as it was and Predict leaves it empty. Calls to Save and Restore and failing Reset(params) calls in between do not change that.",
 "all finite call histories containing no successful Reset(params), all inputs, all contents of the results vectors",
 "Ranges over every call history and every payload; a test fixes one short history.",
 [SM+":StrokeModeler::Update",SM+":StrokeModeler::Predict",SM+":StrokeModeler::Reset"]),
("A failing Reset(params) changes nothing",
 "If Reset(params) returns an error, the modeler behaves from then on exactly as if the call had not been made: every later call returns the same status and the same results.",
 "all call histories before, all invalid params, all call histories after",
 "Equality of all futures cannot be sampled.",
 [SM+":StrokeModeler::Reset",P+":ValidateStrokeModelParams"]),
("Update accepts exactly the documented streams",
 "Update accepts an input exactly when the model is initialised, position and time are finite, the input is not equal to the previous one of the stroke, its time is not earlier than the previous one's, the event type fits (Down iff no stroke is in progress), and the requested number of samples is available; otherwise it returns FailedPrecondition (uninitialised, event type does not fit) or InvalidArgument (everything else), with the checks applied in that documented order. In any history the in-progress flag and 'previous input' are those of the last accepted input.",
 "all modeler states and inputs; all call histories without Save/Restore",
 "The automaton must hold for every stream of events and all times.",
 [SM+":StrokeModeler::Update",SM+":StrokeModeler::ProcessDownEvent",SM+":StrokeModeler::ProcessMoveEvent",SM+":StrokeModeler::ProcessUpEvent"]),
("Update appends to results or leaves it alone",
 "When Update returns an error the results vector is unmodified; when it succeeds the old contents remain as a prefix, and the appended results and the new modeler state do not depend on what the vector contained.",
 "all states, inputs and vector contents",
 "Independence from arbitrary vector contents, for all states.",
 [SM+":StrokeModeler::Update",SMH+":StrokeModeler::Update"]),
("A rejected input has no effect on the stroke",
 "If Update returns an error, every later call behaves as if the rejected Update had never been made. (FALSE for a Move rejected for being too far apart / non-finite: the wobble smoother and stylus model have already absorbed it. Proved for every other rejection, refuted for that one.)",
 "all states, all rejected inputs, all later call histories",
 "Equality of all futures after any rejected input.",
 [SM+":StrokeModeler::ProcessMoveEvent",SM+":StrokeModeler::ProcessUpEvent"]),
("Predict never influences the stroke",
 "Predict does not change the modeler: removing any set of Predict calls from any call history leaves the status and results of all other calls unchanged, and calling Predict twice in a row gives the same answer.",
 "all call histories, all positions of Predict calls in them",
 "Interleavings of Predict with all other calls are unbounded.",
 [SM+":StrokeModeler::Predict",SMH+":tip_state_buffer_"]),
("Restore undoes everything since Save within the stroke",
 "After Save, any sequence of Updates (no new Down accepted), Predicts and Restores followed by Restore leaves the modeler behaving exactly as right after the Save, for all later calls.",
 "all states at the Save, all call sequences between Save and Restore, all later histories",
 "Quantifies over all continuations before and after the Restore.",
 [SM+":StrokeModeler::Save",SM+":StrokeModeler::Restore",I+"wobble_smoother.cc:Restore",S+":Restore",PMH+":Restore",L+":Restore"]),
("Restore does nothing if Save was not called for this stroke",
 "If Save has not been called since the last successful Reset, or not since the Down that began the current stroke, Restore has no effect. (Proved for 'since the last Reset'; REFUTED for a Save made in an earlier stroke: Restore then mixes the two strokes.)",
 "all call histories and inputs",
 "Depends on the whole call history.",
 [SM+":StrokeModeler::Restore",SMH+":StrokeModeler::Restore",SM+":StrokeModeler::ResetInternal"]),
("Restore does not consume the save point",
 "Restore can be repeated: Restore twice is the same as once, and after Restore, further updates and another Restore the modeler again behaves as right after Save.",
 "all states with an active save, all sequences between Restores",
 "Arbitrary many Restores after arbitrary updates.",
 [SM+":StrokeModeler::Restore"]),
("Reset gives a fresh modeler",
 "After a successful Reset(params), or Reset(), every later call behaves as on a newly constructed modeler on which only Reset with the same params was called. (REFUTED when the new params disable prediction and a Save was made under earlier params: see C12.)",
 "all call histories before the reset, all params, all histories after it",
 "Equality of all futures after any past.",
 [SM+":StrokeModeler::Reset",SM+":StrokeModeler::ResetInternal"]),
("Strokes are independent",
 "The results of a stroke depend only on the params and on the inputs given since its Down: whatever strokes were modeled before (without a Restore reaching back to them), the same inputs give the same results and predictions.",
 "all earlier histories, all strokes",
 "Needs all earlier histories.",
 [SM+":StrokeModeler::ProcessDownEvent"]),
("Disabled prediction stays disabled",
 "If the params of the last successful Reset(params) disable prediction, Predict returns FailedPrecondition in every later state until the next Reset(params). (Proved for histories in which no Save happened under earlier params with prediction enabled; REFUTED in general: Restore revives the stale saved predictor.)",
 "all call histories",
 "The violating history spans two Resets and a Save/Restore pair.",
 [SM+":StrokeModeler::Save",SM+":StrokeModeler::Restore",PH+":DisabledPredictorParams"]),
("Predict's status and output discipline",
 "Predict returns OK exactly when the model is initialised, a predictor is present and a stroke is in progress, otherwise FailedPrecondition with an empty results vector; in every case the previous contents of the vector are gone and do not influence the output.",
 "all states and vector contents",
 "All states and contents.",
 [SM+":StrokeModeler::Predict"]),
("Down echoes the input",
 "An accepted Down appends exactly one result: the input's position, time, pressure, tilt and orientation, with zero velocity and acceleration.",
 "all initialised states without a stroke in progress, all valid Down inputs",
 "All inputs and prior histories.",
 [SM+":StrokeModeler::ProcessDownEvent"]),
("A successful Update yields at least one Result",
 "Each Update that succeeds appends at least one Result. (Proved for Down, Up and for Moves whose requested step count is positive; REFUTED for a Move carrying the same timestamp as the previous input.)",
 "all states and accepted inputs",
 "Hinges on exact zero/underflow cases of the time difference for every state.",
 [SMH+":StrokeModeler::Update",PM+":NumberOfStepsBetweenInputs"]),
("Output count limits",
 "No call to Update or Predict generates more than max_outputs_per_call results. (Proved: Down and Move respect it, Up exceeds it by at most end_of_stroke_max_iterations, a stroke-end prediction has at most end_of_stroke_max_iterations results. REFUTED for Up and for Kalman predictions.)",
 "all params, states, inputs",
 "Bound must hold for all params and states.",
 [PM+":NumberOfStepsBetweenInputs",PMH+":ModelEndOfStroke",PH+":max_outputs_per_call",K+":ConstructCubicConnector"]),
("Result times never go backwards",
 "Along a stroke, the times of all results, in order, are non-decreasing, including across calls and the end-of-stroke results.",
 "all valid params, all strokes of any length",
 "Every stroke length, every rounding of the interpolated times.",
 [PMH+":UpdateAlongLinearPath",PMH+":ModelEndOfStroke",UH+":Interp",SM+":ModelStylus"]),
("Results span the input times",
 "The results of an accepted Move that produces any end at the time of that input; those of an Up end at or after its time and at most end_of_stroke_max_iterations / min_output_rate later; all lie after the previous input.",
 "all valid params, states, inputs",
 "All strokes.",
 [PMH+":UpdateAlongLinearPath",PMH+":ModelEndOfStroke"]),
("Minimum output rate",
 "Consecutive results of an in-progress stroke (and the first result of a call relative to the previous input) are at most 1/min_output_rate apart in time.",
 "all valid params, all accepted Moves",
 "For all deltas and rates; ceil boundary.",
 [PM+":NumberOfStepsBetweenInputs",PMH+":UpdateAlongLinearPath"]),
("Update, Reset, Save and Restore never crash or hang",
 "For any sequence of API calls with arbitrary float arguments, no call has undefined behaviour (out-of-range deque access, float-to-int conversion out of range, empty optional access) and each one terminates. (Proved under IEEE arithmetic for inputs whose orientation is negative, NaN or at most 2^27; REFUTED for larger orientations: Update hangs.)",
 "all call histories, all float/double arguments including NaN and infinities, all valid params",
 "This is the fuzz test's target; fuzzing samples.",
 ["ink_stroke_modeler/stroke_modeler_fuzz_test.cc:StrokeModelerDoesNotCrash",UH+":InterpAngle",PM+":NumberOfStepsBetweenInputs",W+":Update",S+":Query"]),
("Predict never crashes or hangs",
 "Predict has no undefined behaviour and terminates in every reachable state. (Proved for the stroke-end predictor and disabled prediction; REFUTED for the Kalman predictor: the number of predicted points is converted to int out of range.)",
 "all call histories and valid params",
 "All reachable states.",
 [K+":ConstructCubicConnector",K+":NumberOfPointsToPredict",E+":ConstructPrediction"]),
("Angle normalisation terminates exactly up to 2^27",
 "Interpolating an orientation terminates if and only if the angles handed to normalisation are NaN or of magnitude at most 2^27 (float), and the result then lies in [0, 2*pi).",
 "all floats",
 "2^32 floats times rounding behaviour at each loop iteration.",
 [UH+":InterpAngle"]),
("Unknown stylus fields are sticky",
 "Once an input of the stroke has a negative or NaN pressure (tilt, orientation), every later result and prediction of the stroke reports -1 for that field, and the other fields are not affected by it.",
 "all strokes",
 "All strokes and positions of the unknown value.",
 [S+":Update",S+":Query",U+":InterpResult"]),
("Pressure stays in [0,1]",
 "If all inputs of a stroke have pressure in [0,1], then every result after the Down has pressure in [0,1]; tilt likewise never exceeds the bounds of the inputs in exact arithmetic and stays in [0, 2] under float rounding when inputs lie in [0, 2].",
 "all strokes, all float values",
 "Rounding at each interpolation.",
 [UH+":Interp",S+":Query",U+":InterpResult"]),
("Orientation takes the shorter way round",
 "Interpolated orientation moves from the first to the second input's orientation along the shorter arc, is normalised to [0,2*pi], agrees with the end points (mod 2*pi) at 0 and 1.",
 "all angles and ratios (exact arithmetic)",
 "Continuum of angles.",
 [UH+":InterpAngle"]),
("Stylus values are interpolated between two consecutive raw inputs",
 "Every pressure and tilt reported after the Down is either -1 or lies between the values of two consecutive inputs of the window (exact arithmetic).",
 "all strokes",
 "All strokes.",
 [S+":Query",U+":InterpResult"]),
("Position modelling is the documented spring-mass recursion",
 "With loop mitigation off, the results of a stroke are position, velocity and acceleration given by the documented recursion (README Algorithms 2 and 3) driven by the upsampled corrected inputs, starting at rest at the Down position.",
 "all valid params with mitigation off, all strokes (exact arithmetic)",
 "Functional correctness for all strokes.",
 [PM+":PositionModeler::Update",PMH+":UpdateAlongLinearPath","README.md:Algorithm #3"]),
("End-of-stroke modelling approaches the final input",
 "The end-of-stroke results are at most end_of_stroke_max_iterations many, each strictly closer to the final input than the one before, each moved by at least the stopping distance, and only the last one may be within the stopping distance of the final input.",
 "all params, tip states, anchors (exact arithmetic for distances; any arithmetic for the count)",
 "All states.",
 [PMH+":ModelEndOfStroke","README.md:Algorithm #4"]),
("Stroke-end prediction is what Up would add",
 "With the stroke-end predictor, the tip states predicted are those that an Up at the same time and position would produce by end-of-stroke modelling (except that Up always emits at least one).",
 "all in-progress states, wobble smoothing not altering the last position, no angle upsampling",
 "All states.",
 [E+":ConstructPrediction",SM+":ProcessUpEvent","README.md"]),
("Wobble smoothing is a time-weighted moving average",
 "The smoothed position of a Move interpolates between the duration-weighted average of the inputs of the last `timeout` and the raw position, according to the average speed over the same window: raw at speed_ceiling and above, average at speed_floor and below.",
 "all input sequences of a stroke (exact arithmetic)",
 "Running sums must equal window sums after any number of inputs.",
 [W+":Update"]),
("Wobble smoothing stays in the hull / can be switched off",
 "The smoothed position lies in the bounding box of the inputs of the window, and with wobble smoothing disabled it is the raw position exactly.",
 "all input sequences (exact arithmetic; any arithmetic for the disabled case)",
 "All sequences.",
 [W+":Update"]),
("Stylus window contents",
 "The stylus model holds exactly the most recent max_input_samples inputs (closest-point mode), resp. the shortest suffix having at least min_input_samples samples and spanning more than min_sample_duration after dropping (normal-projection mode); it never exceeds the documented size.",
 "all input sequences",
 "All sequences.",
 [S+":ShouldDropOldestInput",S+":Update"]),
("Closest-point projection is optimal",
 "In closest-point mode the reported stylus state is interpolated at a point of the raw polyline window at minimal distance from the modeled tip.",
 "all polylines and tips (exact arithmetic)",
 "Continuum of polylines.",
 [S+":ProjectToClosestPoint",UH+":NearestPointOnSegment"]),
("Normal projection really lies on the normal",
 "In normal-projection mode a successful projection is a point of a raw polyline segment lying on the line through the tip along the stroke normal, is the nearest such point on its side, and the side is chosen opposite to the acceleration when both exist.",
 "all polylines, tips and normals (exact arithmetic)",
 "Continuum of polylines.",
 [S+":ProjectAlongStrokeNormal",U+":ProjectToSegmentAlongNormal"]),
("Loop mitigation strength is bounded and monotone",
 "The interpolation value lies between the two configured strengths, equals the one at the lower/upper speed bound outside the speed range, never increases with the average speed, and is 1 when mitigation is disabled or no speed was seen.",
 "all params accepted by validation, all speed histories (exact arithmetic)",
 "All histories.",
 [L+":GetInterpolationValue",L+":Update"]),
("Without mitigation the spring model is output unchanged",
 "With loop mitigation disabled, position, velocity and acceleration of each result are those of the spring model (exact arithmetic; bit-exact up to signed zero under IEEE arithmetic when the stroke carries no stylus data in closest-point mode).",
 "all strokes",
 "All strokes.",
 [SM+":ModelStylus",U+":InterpResult"]),
("Each result is between the raw projection and the spring model",
 "With mitigation, position, velocity, acceleration of each result lie on the segment between the projection to the raw input polyline and the modeled tip state; its time is exactly the tip state's; there is exactly one result per tip state.",
 "all strokes (time and count: any arithmetic with exact t+(t-t)*c=t, shown for IEEE; segment: exact arithmetic)",
 "All strokes.",
 [SM+":ModelStylus",U+":InterpResult"]),
("Reset(params) accepts exactly the documented parameter ranges",
 "Reset(params) succeeds iff every parameter meets its documented constraint, with NaN/infinite parameters rejected wherever a finite positive one is required. (REFUTED: NaN values of the loop-mitigation and baseline-confidence fields are accepted.)",
 "all parameter structures over all floats including NaN and infinities",
 "All combinations of float parameters.",
 [P+":ValidateStrokeModelParams",I+"validation.h"]),
("Inputs are accepted by validation iff position and time are finite; duplicates are caught",
 "ValidateInput succeeds iff event type is known and position and time are finite, whatever pressure, tilt and orientation are. A repeated identical input is rejected (REFUTED when a field is NaN).",
 "all inputs over all floats",
 "All floats.",
 [T+":ValidateInput",TH+":operator==(Input)"]),
("Unit-agnostic: translation of the coordinate system",
 "Translating all inputs by a vector translates the positions of all results and predictions by it and changes nothing else (statuses, counts, times, velocities, stylus data).",
 "all valid params, all call histories, all translation vectors (exact arithmetic)",
 "Hyperproperty over pairs of histories.",
 [SMH+":class comment","README.md"]),
("Unit-agnostic: unit of distance",
 "Scaling all inputs and all distance-valued parameters by a positive factor scales positions, velocities and accelerations of all results by it and changes nothing else.",
 "all valid params, all call histories, all positive factors (exact arithmetic)",
 "Hyperproperty over pairs of histories.",
 [SMH+":class comment",PH+":unit-agnostic comment"]),
("Unit-agnostic: origin and unit of time",
 "Shifting all input times shifts all result times and changes nothing else; scaling times (and time-valued parameters accordingly) rescales times, velocities and accelerations accordingly.",
 "all valid params, all call histories (exact arithmetic)",
 "Hyperproperty over pairs of histories.",
 [SMH+":class comment",PH+":unit-agnostic comment",TH+":Time"]),
("Kalman connector joins tip and estimate smoothly",
 "The first part of a Kalman prediction is sampled from the cubic that starts at the last tip position and velocity and ends at the estimated position and velocity; it has at least one point and its last point is the estimate.",
 "all tip states and estimates (exact arithmetic)",
 "Continuum of states.",
 [K+":ConstructCubicConnector"]),
("Kalman prediction time grid and horizon",
 "The times of a Kalman prediction are spaced by exactly 1/min_output_rate starting from the last tip state, and the part beyond the estimate never lasts longer than prediction_interval. (REFUTED for the horizon when prediction_interval*min_output_rate is not an integer; proved up to rounding up to the next sample.)",
 "all states and params (exact arithmetic)",
 "All params.",
 [K+":ConstructCubicPrediction",K+":NumberOfPointsToPredict",PH+":prediction_interval"]),
("Kalman prediction needs min_stable_iteration inputs",
 "With the Kalman predictor, Predict succeeds with an empty prediction while the stroke has had fewer than min_stable_iteration accepted inputs, and predicts at least one point from then on.",
 "all strokes and params",
 "All strokes.",
 [KF+"kalman_filter.h:Stable",K+":GetEstimatedState"]),
("Kalman filter stays well conditioned",
 "After any number of observations the error covariance is symmetric positive semidefinite, the innovation variance is at least measurement_noise (no division by zero), and the posterior position variance is at most measurement_noise after the second observation.",
 "all positive noise parameters, all observation sequences (exact arithmetic)",
 "Inductive invariant over unbounded sequences.",
 [KF+"kalman_filter.cc:Update",KF+"axis_predictor.cc:MakeKalmanFilter"]),
("Kalman filter tracks a resting pen exactly",
 "If all inputs have the same position the estimate is exactly that position with zero velocity, acceleration and jerk, for any number of inputs.",
 "all positions, noise parameters, sequence lengths (exact arithmetic)",
 "Unbounded sequences.",
 [KF+"kalman_filter.cc:Update"]),
("Prediction confidence is a fraction",
 "Each confidence factor lies in [0,1], so the number of points predicted beyond the estimate is between 0 and ceil(prediction_interval * min_output_rate).",
 "all states and valid params (exact arithmetic)",
 "All states.",
 [K+":NumberOfPointsToPredict"]),
("Matrix and vector helpers compute the textbook operations",
 "Product, sum, difference, transpose, outer product and dot product agree with the standard definitions of linear algebra.",
 "all matrices and vectors (exact arithmetic)",
 "Continuum.",
 [KF+"matrix.h"]),
("AbsoluteAngleTo is the angle between vectors",
 "It fails iff a component is non-finite; otherwise it is in [0,pi], symmetric, 0 if a vector is zero, and is the Euclidean angle.",
 "all pairs of vectors",
 "Continuum / all floats.",
 [T+":Vec2::AbsoluteAngleTo"]),
("Speed window of loop mitigation",
 "The moving average of speed is over the smallest number of samples >= min_discrete_speed_samples that spans at least min_speed_sampling_window. (REFUTED: the code drops one sample too many and keeps a span of at most the window; the actual behaviour is characterised.)",
 "all speed histories",
 "All histories.",
 [L+":Update",PH+":min_speed_sampling_window"]),
("Angle-based upsampling bounds the turn per step",
 "If max_estimated_angle_to_traverse_per_input is set, the number of steps n of an accepted input satisfies n * max_angle >= estimated angle, and n is the smallest integer meeting the rate and angle requirements.",
 "all states, inputs, params (exact arithmetic)",
 "All states.",
 [PM+":NumberOfStepsBetweenInputs"]),
("Finite inputs give finite results",
 "All result fields are finite when all input fields are. (REFUTED under float arithmetic: a finite stroke whose raw velocity overflows yields NaN results even though loop mitigation is disabled.)",
 "all strokes over all floats",
 "Overflow behaviour for all values.",
 [SM+":ModelStylus",S+":Update"]),
("Sub-modelers hold bounded memory",
 "Whatever the stroke length, the number of samples kept by the stylus model in closest-point mode, the Kalman timestamps and, for a bounded time window, wobble and speed samples never exceed their documented limits.",
 "all strokes of any length",
 "Unbounded strokes.",
 [S+":Update",K+":Update",W+":Update",L+":Update"]),
("Only the current stroke matters",
 "After any history (without a Restore into an earlier stroke and without disabling prediction after a Save) the modeler behaves, during a stroke and after its Up, exactly as a newly constructed one that was given the same parameters and then only the inputs of this stroke; those inputs give the same results there. What was undone by Restore, predictions, rejected inputs and earlier strokes leave no trace.",
 "all call histories, all continuations",
 "Needs all histories and all continuations.",
 [SM+":Update",SM+":Restore",SM+":Predict",SM+":Reset"]),
("Turned strokes give turned results",
 "For any parameters and any sequence of calls: if the positions of all inputs are turned by 90 degrees, every call answers with the same status code; positions, velocities and accelerations of all results and predictions are turned by 90 degrees; times, pressures, tilts and orientations are the same. On floats this holds bit by bit, except for signs of zeros.",
 "all call sequences, all parameters, all floats",
 "A hidden preference for an axis can sit in any branch; only a proof covers all of them.",
 [SM+":Update",SM+":Predict",S+":Query",U+":GetStrokeNormal",K+":ConstructPrediction"]),
("Mirrored strokes give mirrored results",
 "For any parameters and any sequence of calls: the mirror image of a session (all positions mirrored in an axis) has the mirror images of its results. (REFUTED with use_stroke_normal_projection: if inputs pass the tip on both sides and it is not accelerated sideways, the left side wins; proved in closest-point mode.)",
 "all call sequences, all parameters, all floats",
 "The asymmetry shows only in exact ties.",
 [SM+":Update",S+":ProjectAlongStrokeNormal",S+":Query"]),
("The tip settles at a resting pen",
 "Once the pen rests at a point (and the wobble window holds nothing else), the distance of the results from that point decays at least exponentially with time, whatever the spacing of the inputs, bounded in terms of the distance and speed at the start or of how far away the inputs had been. (REFUTED for parameters that pass validation but whose drag is too strong for the output rate: there the distance triples with each Move; proved when 2*drag <= min_output_rate and 4 <= mass*drag*min_output_rate.)",
 "all strokes, all spacings, any number of resting inputs, exact numbers",
 "Convergence concerns inputs without end and every spacing of them.",
 [PM+":PositionModeler::Update",PMH+":UpdateAlongLinearPath",PMH+":ModelEndOfStroke",SM+":StrokeModeler::Update"]),
("Results stay near the inputs",
 "If all inputs of a stroke lie in a disk around x, all its results lie in a disk around x that is larger by a factor which depends only on the spring parameters. (REFUTED for parameters that pass validation but whose drag is too strong for the output rate; proved when 2*drag <= min_output_rate and 4 <= mass*drag*min_output_rate.)",
 "all strokes of any length, exact numbers",
 "Overshoot could build up over any number of inputs.",
 [PM+":Update",PMH+":ModelEndOfStroke",SM+":ModelStylus"]),
("Wobble smoothing forgets",
 "Where a Move is taken to be does not depend on the inputs of the stroke that are older than the timeout of the wobble smoother: two strokes whose inputs agree from an input on that is older than the timeout give the same corrected position; so a pen that rests is modeled where it rests. (REFUTED under float arithmetic: running sums lose digits for good, so a pen that has been at 10^8 and rests at 1 is modeled at 0.)",
 "all pairs of strokes",
 "Compares arbitrary pasts; the loss shows only after excursions.",
 [W+":Update",SM+":ProcessMoveEvent"]),
("Strokes turned by any angle",
 "In exact arithmetic, turning all inputs of a stroke about the origin by any angle turns the positions, velocities and accelerations of all results by this angle; the same inputs are accepted, there are as many results, and times, pressures and tilts are the same. If stylus data is found by the closest point, the same holds for every reflection. Without loop mitigation predictions are turned or reflected as well, with either predictor.",
 "all strokes with any history before, all angles, all reflections",
 "Pairs of strokes and a continuum of angles; on floats rounding hides the relation.",
 [SM+":Update",PM+":Update",S+":Query",U+":GetStrokeNormal",L+":Update"]),
("On floats, the tip stays near the inputs",
 "In single and double precision, without wobble smoothing, loop mitigation and stylus data: if the inputs are within R, mass and drag constant have usual sizes and the results come often enough for the spring, then all positions, velocities and accelerations of the results are numbers, the positions are within 52 (k + 1/k) R, k being the drag constant times the root of the mass, and the velocities are bounded accordingly. The number of results is not limited if they are not too close to each other in time, and may be 2^18 otherwise.",
 "all such strokes of any length with any history before",
 "Rounding errors of arbitrarily many steps; a test sees some strokes, and an overflow or a slow drift may need a very long one.",
 [PM+":PositionModeler::Update",PMH+":UpdateAlongLinearPath",PMH+":ModelEndOfStroke",SM+":StrokeModeler::Update"]),
("Rounding errors do not build up",
 "In single and double precision, without wobble smoothing, loop mitigation and stylus data: take the exact spring model of the README with the same inputs and the times of the results. If inputs and results are within R, velocities are of the matching size, and the results come often enough for the spring, then each position differs from the exact one by at most w R / 2^19, and velocities accordingly, where the weight w counts recent results: it is at most the number of results so far, and if results are at least g apart it is at most 20 (1 + M d^2) / (d g), however long the stroke.",
 "all such strokes of any length with any history before",
 "The exact results are real numbers that no test computes, and the claim is about the errors of all steps together.",
 [PM+":PositionModeler::Update",PMH+":UpdateAlongLinearPath",PMH+":ModelEndOfStroke",SM+":StrokeModeler::Update"]),
("Results solve the differential equation of the README as the output rate grows",
 "The README describes the pen by the differential equation s'' = (Phi - s)/M - k_d s' for an anchor Phi that goes from input to input in straight lines, and says that it is integrated by Euler's method. For each M and k_d there is a constant C such that for every stroke without wobble smoothing and loop mitigation whose accepted inputs are never faster than S, and every output rate f with f >= 2 k_d and f >= 4/(M k_d), each result, those of the Up included, differs from the solution of the equation at its time by at most C S / f in position and in velocity, however long the stroke is.",
 "all strokes, all spacings of inputs, all rates above the bound; all solutions of the equation",
 "The solution is not computed anywhere in the code; the claim compares all results of all strokes at all rates with a limit.",
 [PM+":PositionModeler::Update",PMH+":UpdateAlongLinearPath",PMH+":ModelEndOfStroke",SM+":StrokeModeler::Update"]),
("A blend of two strokes gives a blend of their results",
 "Without wobble smoothing, loop mitigation and resampling by angle the modeler is linear in the positions of the inputs. Take three strokes with the same parameters and with inputs of the same types at the same times. If each input of the third is at (1-c) x + c y, x and y being the positions of the inputs of the two others and c any number, then the same inputs are accepted, the Down and each Move have as many results at the same times, and their positions, velocities and accelerations are the same blends of those of the two others.",
 "all triples of strokes in any histories, all parameters without the three features, all real c",
 "It relates three runs of any length and any real c; the code has no notion of a blend.",
 [PM+":PositionModeler::Update",PMH+":UpdateAlongLinearPath",SM+":StrokeModeler::ProcessMoveEvent",SM+":StrokeModeler::ProcessDownEvent"]),
("When the tip settles: the exact condition",
 "Validation accepts parameters for which the modeled tip swings about a resting pen for ever. Without wobble smoothing, loop mitigation and resampling by angle, for any valid parameters there are factors kappa(k) such that each stroke with a Down at x and Moves at a, one for each period of min_output_rate, has its k-th result at a + kappa(k) (x - a), whatever x, a and the number of Moves. These factors tend to 0 if and only if 2 drag_constant / rate + 1 / (spring_mass_constant rate^2) < 4.",
 "all valid parameters; all such strokes of any length; if and only if",
 "A limit over strokes of any length, and a sharp boundary in the space of parameters, on which it is hard to hit with a test.",
 [PM+":PositionModeler::Update",PMH+":UpdateAlongLinearPath","ink_stroke_modeler/params.cc:ValidatePositionModelerParams"]),
("Redundant inputs change nothing",
 "Without wobble smoothing, loop mitigation and resampling by angle: take a stroke, and between two successive accepted inputs insert one more Move that lies on the straight way between them, at a place and time at which the modeler would have upsampled to anyway (after k of the n = ceil(dt * min_output_rate) equal steps). Then positions, velocities, accelerations and times of all results of the stroke, including those of later inputs and of the Up, are exactly the same.",
 "all valid parameters with these modes off; all strokes of any length, wherever the input is inserted, whatever its stylus data",
 "Compares all pairs of strokes, and an inserted input influences all later results; a test looks at some pairs.",
 [SM+":StrokeModeler::ProcessMoveEvent",SM+":StrokeModeler::ProcessUpEvent",PM+":PositionModeler::Update",PMH+":UpdateAlongLinearPath"]),
("A modeler that was moved from can be reset",
 "A StrokeModeler can be moved. Whatever state it was in and whatever the move left in its containers, the object that was moved from can be used again after a successful Reset: it then behaves as a new modeler with the same parameters, for all later calls.",
 "all states, all valid but unspecified contents of the containers of the object that was moved from, all valid parameters, all later calls",
 "What a move leaves in a container is unspecified and differs between standard libraries; a test sees one of them.",
 [SMH+":StrokeModeler",SM+":StrokeModeler::Reset",SM+":StrokeModeler::ResetInternal",SM+":StrokeModeler::Predict"]),
("The Kalman predictor learns steady motions",
 "If the pen moves with constant velocity, acceleration or jerk and its inputs come at even intervals, the motion that the Kalman predictor goes on with approaches that of the pen as the stroke goes on: the estimated position and velocity come as close to those of the pen as one likes; how close, in proportion to the motion per interval, depends on the variances and the number of inputs only.",
 "all variances, all motions with constant jerk, all intervals between inputs, all numbers of inputs, all histories before the stroke",
 "Convergence is a statement about arbitrarily long strokes; the tests feed about ten inputs and compare with recorded numbers.",
 [K+":KalmanPredictor::Update",K+":KalmanPredictor::GetEstimatedState",K+":KalmanPredictor::ConstructPrediction",KF+"kalman_filter.cc:Update"]),
("Small changes have small effects, which fade",
 "Two strokes with the same times whose inputs are never more than eps apart have results that are never more than a constant times eps apart, the constant depending on the parameters only and not on the length of the stroke. If the inputs are the same from some time on, the difference of the results decays exponentially from then on. (Without wobble smoothing, loop mitigation and resampling by angle, before the Up.)",
 "all pairs of strokes of any length, all distances eps, all parameters with a rate high enough for the spring, all histories before the strokes",
 "A bound that is uniform in the length of the stroke cannot be observed in finitely many runs.",
 [SM+":StrokeModeler::ProcessMoveEvent",PM+":PositionModeler::Update",PMH+":PositionModeler::UpdateAlongLinearPath"]),
("On floats, ordinary strokes stay near their inputs, with all features on",
 "With wobble smoothing, loop mitigation, stroke normals and stylus data on or off, all results of a stroke have finite positions, velocities and accelerations, and these are bounded: the positions by a constant times the size of the region of the inputs, the velocities and accelerations by this over the shortest time between inputs and over the response time of the spring. The constant depends on the parameters only. (The numbers have usual sizes, inputs at different times are at least g and at most G apart, and the results come often enough for the spring. With wobble smoothing, whose running sums collect rounding errors, a stroke has at most 2^17 T / (3 (T + 2 G)) inputs, T being the timeout; without it the number of inputs is not limited.)",
 "all such strokes, all usual parameters, all histories before the stroke, all math libraries",
 "Rounding errors, overflows and divisions by small sums depend on every bit of the inputs; a test sees some strokes.",
 [SM+":StrokeModeler::ProcessMoveEvent",W+":WobbleSmoother::Update",S+":StylusStateModeler::Query",L+":LoopContractionMitigationModeler::Update",PM+":PositionModeler::Update"]),
("On floats, usual inputs give finite results near them, often enough",
 "If the parameters have usual sizes and the inputs lie in a region, can be told apart by their times and are not too many, then all results of the stroke are finite: they come in the order of their times, at most a period of the output rate (and a little more) apart, their positions are bounded by a constant times the size of the region, and velocities and accelerations by this over the shortest time between inputs and over the response time of the spring. Nothing is assumed of the results. All features may be on or off.",
 "all such strokes, all usual parameters, all histories before the stroke, all math libraries",
 "That no NaN or infinity ever comes up depends on every bit of the inputs and of all intermediate results; a test sees some strokes.",
 [SM+":StrokeModeler::ProcessMoveEvent",SM+":StrokeModeler::ProcessUpEvent",W+":WobbleSmoother::Update",S+":StylusStateModeler::Query",L+":LoopContractionMitigationModeler::GetInterpolationValue",PM+":PositionModeler::Update"]),
("On floats, stroke-end predictions for usual inputs are finite and near them",
 "Under the conditions of C72 on parameters and inputs, what Predict returns with the stroke-end predictor is finite: the predicted results follow the results of the stroke in the order of their times, at most a period of the output rate (and a little more) apart, there are at most 1000 of them, their positions are bounded by a constant times the size of the region of the inputs, velocities and accelerations as in C72; pressures, tilts and orientations are in range if those of the inputs are. All features may be on or off.",
 "all such strokes at any point, all usual parameters, all histories before the stroke, all math libraries",
 "Predict can be called after each input; that no NaN or infinity comes up depends on every bit of all intermediate results.",
 [SM+":StrokeModeler::Predict","ink_stroke_modeler/internal/prediction/stroke_end_predictor.cc:StrokeEndPredictor::ConstructPrediction",S+":StylusStateModeler::Query",PM+":PositionModeler::ModelEndOfStroke"]),
("With enough drag the pen does not swing past its turns",
 "If spring_mass_constant * drag_constant^2 is at least 4 and the output rate at least drag_constant, all results of a stroke lie in every convex set that contains its inputs, with or without wobble smoothing, loop mitigation and stroke normals; and so do stroke-end predictions (without loop mitigation). With less drag this fails for every choice of parameters (without smoothing, mitigation and resampling by angle): a pen that rests after a jump has results beyond its resting place. The recommended parameters have less.",
 "all strokes of any length, all convex sets, all valid parameters, all histories before the stroke",
 "Whether results ever leave a region is a statement about all strokes; where the boundary between parameters lies cannot be seen from single runs.",
 [PM+":PositionModeler::Update",PMH+":PositionModeler::UpdateAlongLinearPath",PMH+":PositionModeler::ModelEndOfStroke",SM+":StrokeModeler::ProcessMoveEvent","ink_stroke_modeler/params.h:PositionModelerParams"]),
("With enough drag the pen does not go back where its inputs do not",
 "If spring_mass_constant * drag_constant^2 is at least 4 and the output rate at least drag_constant, and the accepted inputs never go back in some direction, then the results do not go back in this direction either, and their velocities do not point back; the end of the stroke included. (Without wobble smoothing and loop mitigation; inputs at the same time are at the same place.)",
 "all directions, all strokes of any length, all such parameters, all histories before the stroke",
 "Monotony is a statement about each pair of results of each stroke.",
 [PM+":PositionModeler::Update",PMH+":PositionModeler::UpdateAlongLinearPath",PMH+":PositionModeler::ModelEndOfStroke"]),
("With enough drag results are hardly faster than the pen and close behind it",
 "If spring_mass_constant * drag_constant^2 is at least 4 and the output rate at least drag_constant, and the accepted inputs are never faster than S, then no result is faster than S * (1 + drag_constant / (2 * rate)), which is at most 3/2 S, and none is farther than S * (spring_mass_constant * drag_constant + 1 / rate) from where the pen was at its time on the straight way from input to input. (Without wobble smoothing and loop mitigation.)",
 "all strokes of any length, all speeds, all such parameters, all histories before the stroke",
 "Uniform bounds on speed and distance for all strokes cannot be observed in finitely many runs.",
 [PM+":PositionModeler::Update",PMH+":PositionModeler::UpdateAlongLinearPath",PMH+":PositionModeler::ModelEndOfStroke","ink_stroke_modeler/params.h:PositionModelerParams"]),
("Kalman predictions return for usual strokes, with a bounded number of results",
 "With IEEE floats, the Kalman predictor and the noises of its test (process_noise .00026458, measurement_noise .026458), Predict returns with status ok during every stroke of usual parameters and inputs (positions in a region of size R, times that can be told apart, an output rate that suits the spring, at most 2^18 results; wobble smoothing, loop mitigation and stroke normals allowed): no conversion to int is out of range, whatever the inputs were. It appends at most 3 * rate * (26 * reach / min_catchup_velocity + prediction_interval) + 8 results, where reach is a multiple of R that depends on the spring only.",
 "all such strokes of any length up to 2^18 results, all other parameters of the predictor, all previous calls on the modeler",
 "The estimate of the filter is a sum over all inputs, with weights that depend on the rounding of the covariance in all steps before; that it stays bounded for all inputs and any number of steps, and that the following conversions to int are defined, cannot be seen from some strokes.",
 [K+":KalmanPredictor::ConstructPrediction",K+":KalmanPredictor::ConstructCubicConnector",K+":KalmanPredictor::NumberOfPointsToPredict",KF+"kalman_filter.cc:KalmanFilter::Update",KF+"axis_predictor.cc:MakeKalmanFilter",SM+":StrokeModeler::Predict"]),
("Kalman predictions are finite for usual strokes",
 "With IEEE floats, the Kalman predictor and the noises of its test, everything that Predict returns during a stroke of usual parameters and inputs (as for C77) is finite: positions, velocities and accelerations of at most 2^99 and finite times. This holds if accepted inputs are at least 1/2^10 apart in time, reach is at most 2^20, there are at most 2^10 results per unit of time and 2^8 per prediction_interval, acceleration_weight and jerk_weight are at most 8, and min_stable_iteration and max_time_samples are at least 2.",
 "all such strokes of any length up to 2^18 results, all other parameters of the predictor, all previous calls on the modeler",
 "The predictor divides by the average time between inputs, its square and its cube, and extrapolates with the result for hundreds of steps; that nothing overflows or becomes NaN for any inputs cannot be seen from some strokes.",
 [K+":KalmanPredictor::GetEstimatedState",K+":KalmanPredictor::ConstructCubicConnector",K+":KalmanPredictor::ConstructCubicPrediction",K+":EvaluateCubic",SM+":StrokeModeler::Predict"]),
("Prediction times never go backwards on floats",
 "With IEEE floats, the times of the results of one call of Predict never go backwards, for both predictors and any parameters and inputs. If the differences of the times of consecutive accepted inputs are exact, as when each time is at most twice the one before, then no predicted result is before a result of the stroke.",
 "all valid params with either predictor, all strokes of any length, all previous calls on the modeler, all roundings",
 "The times are computed in double precision from float fractions and a rounded sample period; that no rounding swaps two of them cannot be seen from some strokes.",
 [K+":KalmanPredictor::ConstructCubicConnector",K+":KalmanPredictor::ConstructCubicPrediction","ink_stroke_modeler/internal/prediction/stroke_end_predictor.cc:ConstructPrediction",SM+":StrokeModeler::Predict"]),
("Constant pressure, tilt and orientation are kept exactly",
 "With IEEE floats, if all inputs of a stroke have the same pressure (any finite value that is not negative), then all results of the stroke and of Predict have exactly this pressure; likewise for tilt, and for an orientation of at most 2 pi. With loop mitigation a value may be NaN instead, but then the time of the result is NaN too.",
 "all valid params with any predictor, all strokes of any length and shape, all previous calls on the modeler, all roundings",
 "The values are interpolated at ratios that depend on all positions and times and are then interpolated again for loop mitigation; that none of this ever rounds a constant away cannot be seen from some strokes.",
 ["ink_stroke_modeler/internal/utils.h:Interp","ink_stroke_modeler/internal/utils.h:InterpAngle","ink_stroke_modeler/internal/utils.cc:InterpResult","ink_stroke_modeler/internal/stylus_state_modeler.cc:StylusStateModeler::Query",SM+":ModelStylus"]),
("Strokes along an axis stay exactly on it",
 "With IEEE floats and wobble smoothing switched off, if all inputs of a stroke have the same x coordinate c, then all results of the stroke, and all predictions of both predictors, have a position with exactly that x coordinate, and a velocity and acceleration of zero in x; the same holds for y. A coordinate can be NaN instead, but not for strokes with usual parameters and inputs (those of C72, for predictions of the Kalman predictor those of C78). Without rounding errors results and predictions are on the line with wobble smoothing too; with it floats may leave the line, even if the pen rests.",
 "all valid params without wobble smoothing, all strokes of any length along an axis, with any times and with loop mitigation and projection along normals or not, all previous calls on the modeler, all roundings",
 "A ruler stroke that drifts off its line by one unit in the last place after many inputs is not seen in a test with a tolerance and a few inputs.",
 ["ink_stroke_modeler/internal/position_modeler.cc:PositionModeler::Update","ink_stroke_modeler/internal/position_modeler.h:UpdateAlongLinearPath","ink_stroke_modeler/internal/position_modeler.h:ModelEndOfStroke","ink_stroke_modeler/internal/utils.cc:InterpResult",SM+":ModelStylus",K+":KalmanPredictor::ConstructCubicConnector",KF+"kalman_filter.cc:KalmanFilter::Update"]),
]
with open('/verif/properties.jsonl','w') as f:
    for n,(t,s,q,w,a) in enumerate(props,1):
        f.write(json.dumps({"id":f"C{n:02d}","title":t,"statement":s,"quantifier":q,"why_tests_cant":w,"anchors":a},ensure_ascii=False)+"\n")
