{"id": "C01", "title": "Uninitialised modeler refuses everything", "statement": "Until some call to Reset(params) has succeeded, every Update, every Predict and every Reset() returns FailedPrecondition; Update leaves its results vector as it was and Predict leaves it empty. Calls to Save and Restore and failing Reset(params) calls in between do not change that.", "quantifier": "all finite call histories containing no successful Reset(params), all inputs, all contents of the results vectors", "why_tests_cant": "Ranges over every call history and every payload; a test fixes one short history.", "anchors": ["ink_stroke_modeler/stroke_modeler.cc:StrokeModeler::Update", "ink_stroke_modeler/stroke_modeler.cc:StrokeModeler::Predict", "ink_stroke_modeler/stroke_modeler.cc:StrokeModeler::Reset"]}
{"id": "C02", "title": "A failing Reset(params) changes nothing", "statement": "If Reset(params) returns an error, the modeler behaves from then on exactly as if the call had not been made: every later call returns the same status and the same results.", "quantifier": "all call histories before, all invalid params, all call histories after", "why_tests_cant": "Equality of all futures cannot be sampled.", "anchors": ["ink_stroke_modeler/stroke_modeler.cc:StrokeModeler::Reset", "ink_stroke_modeler/params.cc:ValidateStrokeModelParams"]}
{"id": "C03", "title": "Update accepts exactly the documented streams", "statement": "Update accepts an input exactly when the model is initialised, position and time are finite, the input is not equal to the previous one of the stroke, its time is not earlier than the previous one's, the event type fits (Down iff no stroke is in progress), and the requested number of samples is available; otherwise it returns FailedPrecondition (uninitialised, event type does not fit) or InvalidArgument (everything else), with the checks applied in that documented order. In any history the in-progress flag and 'previous input' are those of the last accepted input.", "quantifier": "all modeler states and inputs; all call histories without Save/Restore", "why_tests_cant": "The automaton must hold for every stream of events and all times.", "anchors": ["ink_stroke_modeler/stroke_modeler.cc:StrokeModeler::Update", "ink_stroke_modeler/stroke_modeler.cc:StrokeModeler::ProcessDownEvent", "ink_stroke_modeler/stroke_modeler.cc:StrokeModeler::ProcessMoveEvent", "ink_stroke_modeler/stroke_modeler.cc:StrokeModeler::ProcessUpEvent"]}
{"id": "C04", "title": "Update appends to results or leaves it alone", "statement": "When Update returns an error the results vector is unmodified; when it succeeds the old contents remain as a prefix, and the appended results and the new modeler state do not depend on what the vector contained.", "quantifier": "all states, inputs and vector contents", "why_tests_cant": "Independence from arbitrary vector contents, for all states.", "anchors": ["ink_stroke_modeler/stroke_modeler.cc:StrokeModeler::Update", "ink_stroke_modeler/stroke_modeler.h:StrokeModeler::Update"]}
{"id": "C05", "title": "A rejected input has no effect on the stroke", "statement": "If Update returns an error, every later call behaves as if the rejected Update had never been made. (FALSE for a Move rejected for being too far apart / non-finite: the wobble smoother and stylus model have already absorbed it. Proved for every other rejection, refuted for that one.)", "quantifier": "all states, all rejected inputs, all later call histories", "why_tests_cant": "Equality of all futures after any rejected input.", "anchors": ["ink_stroke_modeler/stroke_modeler.cc:StrokeModeler::ProcessMoveEvent", "ink_stroke_modeler/stroke_modeler.cc:StrokeModeler::ProcessUpEvent"]}
{"id": "C06", "title": "Predict never influences the stroke", "statement": "Predict does not change the modeler: removing any set of Predict calls from any call history leaves the status and results of all other calls unchanged, and calling Predict twice in a row gives the same answer.", "quantifier": "all call histories, all positions of Predict calls in them", "why_tests_cant": "Interleavings of Predict with all other calls are unbounded.", "anchors": ["ink_stroke_modeler/stroke_modeler.cc:StrokeModeler::Predict", "ink_stroke_modeler/stroke_modeler.h:tip_state_buffer_"]}
{"id": "C07", "title": "Restore undoes everything since Save within the stroke", "statement": "After Save, any sequence of Updates (no new Down accepted), Predicts and Restores followed by Restore leaves the modeler behaving exactly as right after the Save, for all later calls.", "quantifier": "all states at the Save, all call sequences between Save and Restore, all later histories", "why_tests_cant": "Quantifies over all continuations before and after the Restore.", "anchors": ["ink_stroke_modeler/stroke_modeler.cc:StrokeModeler::Save", "ink_stroke_modeler/stroke_modeler.cc:StrokeModeler::Restore", "ink_stroke_modeler/internal/wobble_smoother.cc:Restore", "ink_stroke_modeler/internal/stylus_state_modeler.cc:Restore", "ink_stroke_modeler/internal/position_modeler.h:Restore", "ink_stroke_modeler/internal/loop_contraction_mitigation_modeler.cc:Restore"]}
{"id": "C08", "title": "Restore does nothing if Save was not called for this stroke", "statement": "If Save has not been called since the last successful Reset, or not since the Down that began the current stroke, Restore has no effect. (Proved for 'since the last Reset'; REFUTED for a Save made in an earlier stroke: Restore then mixes the two strokes.)", "quantifier": "all call histories and inputs", "why_tests_cant": "Depends on the whole call history.", "anchors": ["ink_stroke_modeler/stroke_modeler.cc:StrokeModeler::Restore", "ink_stroke_modeler/stroke_modeler.h:StrokeModeler::Restore", "ink_stroke_modeler/stroke_modeler.cc:StrokeModeler::ResetInternal"]}
{"id": "C09", "title": "Restore does not consume the save point", "statement": "Restore can be repeated: Restore twice is the same as once, and after Restore, further updates and another Restore the modeler again behaves as right after Save.", "quantifier": "all states with an active save, all sequences between Restores", "why_tests_cant": "Arbitrary many Restores after arbitrary updates.", "anchors": ["ink_stroke_modeler/stroke_modeler.cc:StrokeModeler::Restore"]}
{"id": "C10", "title": "Reset gives a fresh modeler", "statement": "After a successful Reset(params), or Reset(), every later call behaves as on a newly constructed modeler on which only Reset with the same params was called. (REFUTED when the new params disable prediction and a Save was made under earlier params: see C12.)", "quantifier": "all call histories before the reset, all params, all histories after it", "why_tests_cant": "Equality of all futures after any past.", "anchors": ["ink_stroke_modeler/stroke_modeler.cc:StrokeModeler::Reset", "ink_stroke_modeler/stroke_modeler.cc:StrokeModeler::ResetInternal"]}
{"id": "C11", "title": "Strokes are independent", "statement": "The results of a stroke depend only on the params and on the inputs given since its Down: whatever strokes were modeled before (without a Restore reaching back to them), the same inputs give the same results and predictions.", "quantifier": "all earlier histories, all strokes", "why_tests_cant": "Needs all earlier histories.", "anchors": ["ink_stroke_modeler/stroke_modeler.cc:StrokeModeler::ProcessDownEvent"]}
{"id": "C12", "title": "Disabled prediction stays disabled", "statement": "If the params of the last successful Reset(params) disable prediction, Predict returns FailedPrecondition in every later state until the next Reset(params). (Proved for histories in which no Save happened under earlier params with prediction enabled; REFUTED in general: Restore revives the stale saved predictor.)", "quantifier": "all call histories", "why_tests_cant": "The violating history spans two Resets and a Save/Restore pair.", "anchors": ["ink_stroke_modeler/stroke_modeler.cc:StrokeModeler::Save", "ink_stroke_modeler/stroke_modeler.cc:StrokeModeler::Restore", "ink_stroke_modeler/params.h:DisabledPredictorParams"]}
{"id": "C13", "title": "Predict's status and output discipline", "statement": "Predict returns OK exactly when the model is initialised, a predictor is present and a stroke is in progress, otherwise FailedPrecondition with an empty results vector; in every case the previous contents of the vector are gone and do not influence the output.", "quantifier": "all states and vector contents", "why_tests_cant": "All states and contents.", "anchors": ["ink_stroke_modeler/stroke_modeler.cc:StrokeModeler::Predict"]}
{"id": "C14", "title": "Down echoes the input", "statement": "An accepted Down appends exactly one result: the input's position, time, pressure, tilt and orientation, with zero velocity and acceleration.", "quantifier": "all initialised states without a stroke in progress, all valid Down inputs", "why_tests_cant": "All inputs and prior histories.", "anchors": ["ink_stroke_modeler/stroke_modeler.cc:StrokeModeler::ProcessDownEvent"]}
{"id": "C15", "title": "A successful Update yields at least one Result", "statement": "Each Update that succeeds appends at least one Result. (Proved for Down, Up and for Moves whose requested step count is positive; REFUTED for a Move carrying the same timestamp as the previous input.)", "quantifier": "all states and accepted inputs", "why_tests_cant": "Hinges on exact zero/underflow cases of the time difference for every state.", "anchors": ["ink_stroke_modeler/stroke_modeler.h:StrokeModeler::Update", "ink_stroke_modeler/internal/position_modeler.cc:NumberOfStepsBetweenInputs"]}
{"id": "C16", "title": "Output count limits", "statement": "No call to Update or Predict generates more than max_outputs_per_call results. (Proved: Down and Move respect it, Up exceeds it by at most end_of_stroke_max_iterations, a stroke-end prediction has at most end_of_stroke_max_iterations results. REFUTED for Up and for Kalman predictions.)", "quantifier": "all params, states, inputs", "why_tests_cant": "Bound must hold for all params and states.", "anchors": ["ink_stroke_modeler/internal/position_modeler.cc:NumberOfStepsBetweenInputs", "ink_stroke_modeler/internal/position_modeler.h:ModelEndOfStroke", "ink_stroke_modeler/params.h:max_outputs_per_call", "ink_stroke_modeler/internal/prediction/kalman_predictor.cc:ConstructCubicConnector"]}
{"id": "C17", "title": "Result times never go backwards", "statement": "Along a stroke, the times of all results, in order, are non-decreasing, including across calls and the end-of-stroke results.", "quantifier": "all valid params, all strokes of any length", "why_tests_cant": "Every stroke length, every rounding of the interpolated times.", "anchors": ["ink_stroke_modeler/internal/position_modeler.h:UpdateAlongLinearPath", "ink_stroke_modeler/internal/position_modeler.h:ModelEndOfStroke", "ink_stroke_modeler/internal/utils.h:Interp", "ink_stroke_modeler/stroke_modeler.cc:ModelStylus"]}
{"id": "C18", "title": "Results span the input times", "statement": "The results of an accepted Move that produces any end at the time of that input; those of an Up end at or after its time and at most end_of_stroke_max_iterations / min_output_rate later; all lie after the previous input.", "quantifier": "all valid params, states, inputs", "why_tests_cant": "All strokes.", "anchors": ["ink_stroke_modeler/internal/position_modeler.h:UpdateAlongLinearPath", "ink_stroke_modeler/internal/position_modeler.h:ModelEndOfStroke"]}
{"id": "C19", "title": "Minimum output rate", "statement": "Consecutive results of an in-progress stroke (and the first result of a call relative to the previous input) are at most 1/min_output_rate apart in time.", "quantifier": "all valid params, all accepted Moves", "why_tests_cant": "For all deltas and rates; ceil boundary.", "anchors": ["ink_stroke_modeler/internal/position_modeler.cc:NumberOfStepsBetweenInputs", "ink_stroke_modeler/internal/position_modeler.h:UpdateAlongLinearPath"]}
{"id": "C20", "title": "Update, Reset, Save and Restore never crash or hang", "statement": "For any sequence of API calls with arbitrary float arguments, no call has undefined behaviour (out-of-range deque access, float-to-int conversion out of range, empty optional access) and each one terminates. (Proved under IEEE arithmetic for inputs whose orientation is negative, NaN or at most 2^27; REFUTED for larger orientations: Update hangs.)", "quantifier": "all call histories, all float/double arguments including NaN and infinities, all valid params", "why_tests_cant": "This is the fuzz test's target; fuzzing samples.", "anchors": ["ink_stroke_modeler/stroke_modeler_fuzz_test.cc:StrokeModelerDoesNotCrash", "ink_stroke_modeler/internal/utils.h:InterpAngle", "ink_stroke_modeler/internal/position_modeler.cc:NumberOfStepsBetweenInputs", "ink_stroke_modeler/internal/wobble_smoother.cc:Update", "ink_stroke_modeler/internal/stylus_state_modeler.cc:Query"]}
{"id": "C21", "title": "Predict never crashes or hangs", "statement": "Predict has no undefined behaviour and terminates in every reachable state. (Proved for the stroke-end predictor and disabled prediction; REFUTED for the Kalman predictor: the number of predicted points is converted to int out of range.)", "quantifier": "all call histories and valid params", "why_tests_cant": "All reachable states.", "anchors": ["ink_stroke_modeler/internal/prediction/kalman_predictor.cc:ConstructCubicConnector", "ink_stroke_modeler/internal/prediction/kalman_predictor.cc:NumberOfPointsToPredict", "ink_stroke_modeler/internal/prediction/stroke_end_predictor.cc:ConstructPrediction"]}
{"id": "C22", "title": "Angle normalisation terminates exactly up to 2^27", "statement": "Interpolating an orientation terminates if and only if the angles handed to normalisation are NaN or of magnitude at most 2^27 (float), and the result then lies in [0, 2*pi).", "quantifier": "all floats", "why_tests_cant": "2^32 floats times rounding behaviour at each loop iteration.", "anchors": ["ink_stroke_modeler/internal/utils.h:InterpAngle"]}
{"id": "C23", "title": "Unknown stylus fields are sticky", "statement": "Once an input of the stroke has a negative or NaN pressure (tilt, orientation), every later result and prediction of the stroke reports -1 for that field, and the other fields are not affected by it.", "quantifier": "all strokes", "why_tests_cant": "All strokes and positions of the unknown value.", "anchors": ["ink_stroke_modeler/internal/stylus_state_modeler.cc:Update", "ink_stroke_modeler/internal/stylus_state_modeler.cc:Query", "ink_stroke_modeler/internal/utils.cc:InterpResult"]}
{"id": "C24", "title": "Pressure stays in [0,1]", "statement": "If all inputs of a stroke have pressure in [0,1], then every result after the Down has pressure in [0,1]; tilt likewise never exceeds the bounds of the inputs in exact arithmetic and stays in [0, 2] under float rounding when inputs lie in [0, 2].", "quantifier": "all strokes, all float values", "why_tests_cant": "Rounding at each interpolation.", "anchors": ["ink_stroke_modeler/internal/utils.h:Interp", "ink_stroke_modeler/internal/stylus_state_modeler.cc:Query", "ink_stroke_modeler/internal/utils.cc:InterpResult"]}
{"id": "C25", "title": "Orientation takes the shorter way round", "statement": "Interpolated orientation moves from the first to the second input's orientation along the shorter arc, is normalised to [0,2*pi], agrees with the end points (mod 2*pi) at 0 and 1.", "quantifier": "all angles and ratios (exact arithmetic)", "why_tests_cant": "Continuum of angles.", "anchors": ["ink_stroke_modeler/internal/utils.h:InterpAngle"]}
{"id": "C26", "title": "Stylus values are interpolated between two consecutive raw inputs", "statement": "Every pressure and tilt reported after the Down is either -1 or lies between the values of two consecutive inputs of the window (exact arithmetic).", "quantifier": "all strokes", "why_tests_cant": "All strokes.", "anchors": ["ink_stroke_modeler/internal/stylus_state_modeler.cc:Query", "ink_stroke_modeler/internal/utils.cc:InterpResult"]}
{"id": "C27", "title": "Position modelling is the documented spring-mass recursion", "statement": "With loop mitigation off, the results of a stroke are position, velocity and acceleration given by the documented recursion (README Algorithms 2 and 3) driven by the upsampled corrected inputs, starting at rest at the Down position.", "quantifier": "all valid params with mitigation off, all strokes (exact arithmetic)", "why_tests_cant": "Functional correctness for all strokes.", "anchors": ["ink_stroke_modeler/internal/position_modeler.cc:PositionModeler::Update", "ink_stroke_modeler/internal/position_modeler.h:UpdateAlongLinearPath", "README.md:Algorithm #3"]}
{"id": "C28", "title": "End-of-stroke modelling approaches the final input", "statement": "The end-of-stroke results are at most end_of_stroke_max_iterations many, each strictly closer to the final input than the one before, each moved by at least the stopping distance, and only the last one may be within the stopping distance of the final input.", "quantifier": "all params, tip states, anchors (exact arithmetic for distances; any arithmetic for the count)", "why_tests_cant": "All states.", "anchors": ["ink_stroke_modeler/internal/position_modeler.h:ModelEndOfStroke", "README.md:Algorithm #4"]}
{"id": "C29", "title": "Stroke-end prediction is what Up would add", "statement": "With the stroke-end predictor, the tip states predicted are those that an Up at the same time and position would produce by end-of-stroke modelling (except that Up always emits at least one).", "quantifier": "all in-progress states, wobble smoothing not altering the last position, no angle upsampling", "why_tests_cant": "All states.", "anchors": ["ink_stroke_modeler/internal/prediction/stroke_end_predictor.cc:ConstructPrediction", "ink_stroke_modeler/stroke_modeler.cc:ProcessUpEvent", "README.md"]}
{"id": "C30", "title": "Wobble smoothing is a time-weighted moving average", "statement": "The smoothed position of a Move interpolates between the duration-weighted average of the inputs of the last `timeout` and the raw position, according to the average speed over the same window: raw at speed_ceiling and above, average at speed_floor and below.", "quantifier": "all input sequences of a stroke (exact arithmetic)", "why_tests_cant": "Running sums must equal window sums after any number of inputs.", "anchors": ["ink_stroke_modeler/internal/wobble_smoother.cc:Update"]}
{"id": "C31", "title": "Wobble smoothing stays in the hull / can be switched off", "statement": "The smoothed position lies in the bounding box of the inputs of the window, and with wobble smoothing disabled it is the raw position exactly.", "quantifier": "all input sequences (exact arithmetic; any arithmetic for the disabled case)", "why_tests_cant": "All sequences.", "anchors": ["ink_stroke_modeler/internal/wobble_smoother.cc:Update"]}
{"id": "C32", "title": "Stylus window contents", "statement": "The stylus model holds exactly the most recent max_input_samples inputs (closest-point mode), resp. the shortest suffix having at least min_input_samples samples and spanning more than min_sample_duration after dropping (normal-projection mode); it never exceeds the documented size.", "quantifier": "all input sequences", "why_tests_cant": "All sequences.", "anchors": ["ink_stroke_modeler/internal/stylus_state_modeler.cc:ShouldDropOldestInput", "ink_stroke_modeler/internal/stylus_state_modeler.cc:Update"]}
{"id": "C33", "title": "Closest-point projection is optimal", "statement": "In closest-point mode the reported stylus state is interpolated at a point of the raw polyline window at minimal distance from the modeled tip.", "quantifier": "all polylines and tips (exact arithmetic)", "why_tests_cant": "Continuum of polylines.", "anchors": ["ink_stroke_modeler/internal/stylus_state_modeler.cc:ProjectToClosestPoint", "ink_stroke_modeler/internal/utils.h:NearestPointOnSegment"]}
{"id": "C34", "title": "Normal projection really lies on the normal", "statement": "In normal-projection mode a successful projection is a point of a raw polyline segment lying on the line through the tip along the stroke normal, is the nearest such point on its side, and the side is chosen opposite to the acceleration when both exist.", "quantifier": "all polylines, tips and normals (exact arithmetic)", "why_tests_cant": "Continuum of polylines.", "anchors": ["ink_stroke_modeler/internal/stylus_state_modeler.cc:ProjectAlongStrokeNormal", "ink_stroke_modeler/internal/utils.cc:ProjectToSegmentAlongNormal"]}
{"id": "C35", "title": "Loop mitigation strength is bounded and monotone", "statement": "The interpolation value lies between the two configured strengths, equals the one at the lower/upper speed bound outside the speed range, never increases with the average speed, and is 1 when mitigation is disabled or no speed was seen.", "quantifier": "all params accepted by validation, all speed histories (exact arithmetic)", "why_tests_cant": "All histories.", "anchors": ["ink_stroke_modeler/internal/loop_contraction_mitigation_modeler.cc:GetInterpolationValue", "ink_stroke_modeler/internal/loop_contraction_mitigation_modeler.cc:Update"]}
{"id": "C36", "title": "Without mitigation the spring model is output unchanged", "statement": "With loop mitigation disabled, position, velocity and acceleration of each result are those of the spring model (exact arithmetic; bit-exact up to signed zero under IEEE arithmetic when the stroke carries no stylus data in closest-point mode).", "quantifier": "all strokes", "why_tests_cant": "All strokes.", "anchors": ["ink_stroke_modeler/stroke_modeler.cc:ModelStylus", "ink_stroke_modeler/internal/utils.cc:InterpResult"]}
{"id": "C37", "title": "Each result is between the raw projection and the spring model", "statement": "With mitigation, position, velocity, acceleration of each result lie on the segment between the projection to the raw input polyline and the modeled tip state; its time is exactly the tip state's; there is exactly one result per tip state.", "quantifier": "all strokes (time and count: any arithmetic with exact t+(t-t)*c=t, shown for IEEE; segment: exact arithmetic)", "why_tests_cant": "All strokes.", "anchors": ["ink_stroke_modeler/stroke_modeler.cc:ModelStylus", "ink_stroke_modeler/internal/utils.cc:InterpResult"]}
{"id": "C38", "title": "Reset(params) accepts exactly the documented parameter ranges", "statement": "Reset(params) succeeds iff every parameter meets its documented constraint, with NaN/infinite parameters rejected wherever a finite positive one is required. (REFUTED: NaN values of the loop-mitigation and baseline-confidence fields are accepted.)", "quantifier": "all parameter structures over all floats including NaN and infinities", "why_tests_cant": "All combinations of float parameters.", "anchors": ["ink_stroke_modeler/params.cc:ValidateStrokeModelParams", "ink_stroke_modeler/internal/validation.h"]}
{"id": "C39", "title": "Inputs are accepted by validation iff position and time are finite; duplicates are caught", "statement": "ValidateInput succeeds iff event type is known and position and time are finite, whatever pressure, tilt and orientation are. A repeated identical input is rejected (REFUTED when a field is NaN).", "quantifier": "all inputs over all floats", "why_tests_cant": "All floats.", "anchors": ["ink_stroke_modeler/types.cc:ValidateInput", "ink_stroke_modeler/types.h:operator==(Input)"]}
{"id": "C40", "title": "Unit-agnostic: translation of the coordinate system", "statement": "Translating all inputs by a vector translates the positions of all results and predictions by it and changes nothing else (statuses, counts, times, velocities, stylus data).", "quantifier": "all valid params, all call histories, all translation vectors (exact arithmetic)", "why_tests_cant": "Hyperproperty over pairs of histories.", "anchors": ["ink_stroke_modeler/stroke_modeler.h:class comment", "README.md"]}
{"id": "C41", "title": "Unit-agnostic: unit of distance", "statement": "Scaling all inputs and all distance-valued parameters by a positive factor scales positions, velocities and accelerations of all results by it and changes nothing else.", "quantifier": "all valid params, all call histories, all positive factors (exact arithmetic)", "why_tests_cant": "Hyperproperty over pairs of histories.", "anchors": ["ink_stroke_modeler/stroke_modeler.h:class comment", "ink_stroke_modeler/params.h:unit-agnostic comment"]}
{"id": "C42", "title": "Unit-agnostic: origin and unit of time", "statement": "Shifting all input times shifts all result times and changes nothing else; scaling times (and time-valued parameters accordingly) rescales times, velocities and accelerations accordingly.", "quantifier": "all valid params, all call histories (exact arithmetic)", "why_tests_cant": "Hyperproperty over pairs of histories.", "anchors": ["ink_stroke_modeler/stroke_modeler.h:class comment", "ink_stroke_modeler/params.h:unit-agnostic comment", "ink_stroke_modeler/types.h:Time"]}
{"id": "C43", "title": "Kalman connector joins tip and estimate smoothly", "statement": "The first part of a Kalman prediction is sampled from the cubic that starts at the last tip position and velocity and ends at the estimated position and velocity; it has at least one point and its last point is the estimate.", "quantifier": "all tip states and estimates (exact arithmetic)", "why_tests_cant": "Continuum of states.", "anchors": ["ink_stroke_modeler/internal/prediction/kalman_predictor.cc:ConstructCubicConnector"]}
{"id": "C44", "title": "Kalman prediction time grid and horizon", "statement": "The times of a Kalman prediction are spaced by exactly 1/min_output_rate starting from the last tip state, and the part beyond the estimate never lasts longer than prediction_interval. (REFUTED for the horizon when prediction_interval*min_output_rate is not an integer; proved up to rounding up to the next sample.)", "quantifier": "all states and params (exact arithmetic)", "why_tests_cant": "All params.", "anchors": ["ink_stroke_modeler/internal/prediction/kalman_predictor.cc:ConstructCubicPrediction", "ink_stroke_modeler/internal/prediction/kalman_predictor.cc:NumberOfPointsToPredict", "ink_stroke_modeler/params.h:prediction_interval"]}
{"id": "C45", "title": "Kalman prediction needs min_stable_iteration inputs", "statement": "With the Kalman predictor, Predict succeeds with an empty prediction while the stroke has had fewer than min_stable_iteration accepted inputs, and predicts at least one point from then on.", "quantifier": "all strokes and params", "why_tests_cant": "All strokes.", "anchors": ["ink_stroke_modeler/internal/prediction/kalman_filter/kalman_filter.h:Stable", "ink_stroke_modeler/internal/prediction/kalman_predictor.cc:GetEstimatedState"]}
{"id": "C46", "title": "Kalman filter stays well conditioned", "statement": "After any number of observations the error covariance is symmetric positive semidefinite, the innovation variance is at least measurement_noise (no division by zero), and the posterior position variance is at most measurement_noise after the second observation.", "quantifier": "all positive noise parameters, all observation sequences (exact arithmetic)", "why_tests_cant": "Inductive invariant over unbounded sequences.", "anchors": ["ink_stroke_modeler/internal/prediction/kalman_filter/kalman_filter.cc:Update", "ink_stroke_modeler/internal/prediction/kalman_filter/axis_predictor.cc:MakeKalmanFilter"]}
{"id": "C47", "title": "Kalman filter tracks a resting pen exactly", "statement": "If all inputs have the same position the estimate is exactly that position with zero velocity, acceleration and jerk, for any number of inputs.", "quantifier": "all positions, noise parameters, sequence lengths (exact arithmetic)", "why_tests_cant": "Unbounded sequences.", "anchors": ["ink_stroke_modeler/internal/prediction/kalman_filter/kalman_filter.cc:Update"]}
{"id": "C48", "title": "Prediction confidence is a fraction", "statement": "Each confidence factor lies in [0,1], so the number of points predicted beyond the estimate is between 0 and ceil(prediction_interval * min_output_rate).", "quantifier": "all states and valid params (exact arithmetic)", "why_tests_cant": "All states.", "anchors": ["ink_stroke_modeler/internal/prediction/kalman_predictor.cc:NumberOfPointsToPredict"]}
{"id": "C49", "title": "Matrix and vector helpers compute the textbook operations", "statement": "Product, sum, difference, transpose, outer product and dot product agree with the standard definitions of linear algebra.", "quantifier": "all matrices and vectors (exact arithmetic)", "why_tests_cant": "Continuum.", "anchors": ["ink_stroke_modeler/internal/prediction/kalman_filter/matrix.h"]}
{"id": "C50", "title": "AbsoluteAngleTo is the angle between vectors", "statement": "It fails iff a component is non-finite; otherwise it is in [0,pi], symmetric, 0 if a vector is zero, and is the Euclidean angle.", "quantifier": "all pairs of vectors", "why_tests_cant": "Continuum / all floats.", "anchors": ["ink_stroke_modeler/types.cc:Vec2::AbsoluteAngleTo"]}
{"id": "C51", "title": "Speed window of loop mitigation", "statement": "The moving average of speed is over the smallest number of samples >= min_discrete_speed_samples that spans at least min_speed_sampling_window. (REFUTED: the code drops one sample too many and keeps a span of at most the window; the actual behaviour is characterised.)", "quantifier": "all speed histories", "why_tests_cant": "All histories.", "anchors": ["ink_stroke_modeler/internal/loop_contraction_mitigation_modeler.cc:Update", "ink_stroke_modeler/params.h:min_speed_sampling_window"]}
{"id": "C52", "title": "Angle-based upsampling bounds the turn per step", "statement": "If max_estimated_angle_to_traverse_per_input is set, the number of steps n of an accepted input satisfies n * max_angle >= estimated angle, and n is the smallest integer meeting the rate and angle requirements.", "quantifier": "all states, inputs, params (exact arithmetic)", "why_tests_cant": "All states.", "anchors": ["ink_stroke_modeler/internal/position_modeler.cc:NumberOfStepsBetweenInputs"]}
{"id": "C53", "title": "Finite inputs give finite results", "statement": "All result fields are finite when all input fields are. (REFUTED under float arithmetic: a finite stroke whose raw velocity overflows yields NaN results even though loop mitigation is disabled.)", "quantifier": "all strokes over all floats", "why_tests_cant": "Overflow behaviour for all values.", "anchors": ["ink_stroke_modeler/stroke_modeler.cc:ModelStylus", "ink_stroke_modeler/internal/stylus_state_modeler.cc:Update"]}
{"id": "C54", "title": "Sub-modelers hold bounded memory", "statement": "Whatever the stroke length, the number of samples kept by the stylus model in closest-point mode, the Kalman timestamps and, for a bounded time window, wobble and speed samples never exceed their documented limits.", "quantifier": "all strokes of any length", "why_tests_cant": "Unbounded strokes.", "anchors": ["ink_stroke_modeler/internal/stylus_state_modeler.cc:Update", "ink_stroke_modeler/internal/prediction/kalman_predictor.cc:Update", "ink_stroke_modeler/internal/wobble_smoother.cc:Update", "ink_stroke_modeler/internal/loop_contraction_mitigation_modeler.cc:Update"]}
{"id": "C55", "title": "Only the current stroke matters", "statement": "After any history (without a Restore into an earlier stroke and without disabling prediction after a Save) the modeler behaves, during a stroke and after its Up, exactly as a newly constructed one that was given the same parameters and then only the inputs of this stroke; those inputs give the same results there. What was undone by Restore, predictions, rejected inputs and earlier strokes leave no trace.", "quantifier": "all call histories, all continuations", "why_tests_cant": "Needs all histories and all continuations.", "anchors": ["ink_stroke_modeler/stroke_modeler.cc:Update", "ink_stroke_modeler/stroke_modeler.cc:Restore", "ink_stroke_modeler/stroke_modeler.cc:Predict", "ink_stroke_modeler/stroke_modeler.cc:Reset"]}
{"id": "C56", "title": "Turned strokes give turned results", "statement": "For any parameters and any sequence of calls: if the positions of all inputs are turned by 90 degrees, every call answers with the same status code; positions, velocities and accelerations of all results and predictions are turned by 90 degrees; times, pressures, tilts and orientations are the same. On floats this holds bit by bit, except for signs of zeros.", "quantifier": "all call sequences, all parameters, all floats", "why_tests_cant": "A hidden preference for an axis can sit in any branch; only a proof covers all of them.", "anchors": ["ink_stroke_modeler/stroke_modeler.cc:Update", "ink_stroke_modeler/stroke_modeler.cc:Predict", "ink_stroke_modeler/internal/stylus_state_modeler.cc:Query", "ink_stroke_modeler/internal/utils.cc:GetStrokeNormal", "ink_stroke_modeler/internal/prediction/kalman_predictor.cc:ConstructPrediction"]}
{"id": "C57", "title": "Mirrored strokes give mirrored results", "statement": "For any parameters and any sequence of calls: the mirror image of a session (all positions mirrored in an axis) has the mirror images of its results. (REFUTED with use_stroke_normal_projection: if inputs pass the tip on both sides and it is not accelerated sideways, the left side wins; proved in closest-point mode.)", "quantifier": "all call sequences, all parameters, all floats", "why_tests_cant": "The asymmetry shows only in exact ties.", "anchors": ["ink_stroke_modeler/stroke_modeler.cc:Update", "ink_stroke_modeler/internal/stylus_state_modeler.cc:ProjectAlongStrokeNormal", "ink_stroke_modeler/internal/stylus_state_modeler.cc:Query"]}
{"id": "C58", "title": "The tip settles at a resting pen", "statement": "Once the pen rests at a point (and the wobble window holds nothing else), the distance of the results from that point decays at least exponentially with time, whatever the spacing of the inputs, bounded in terms of the distance and speed at the start or of how far away the inputs had been. (REFUTED for parameters that pass validation but whose drag is too strong for the output rate: there the distance triples with each Move; proved when 2*drag <= min_output_rate and 4 <= mass*drag*min_output_rate.)", "quantifier": "all strokes, all spacings, any number of resting inputs, exact numbers", "why_tests_cant": "Convergence concerns inputs without end and every spacing of them.", "anchors": ["ink_stroke_modeler/internal/position_modeler.cc:PositionModeler::Update", "ink_stroke_modeler/internal/position_modeler.h:UpdateAlongLinearPath", "ink_stroke_modeler/internal/position_modeler.h:ModelEndOfStroke", "ink_stroke_modeler/stroke_modeler.cc:StrokeModeler::Update"]}
{"id": "C59", "title": "Results stay near the inputs", "statement": "If all inputs of a stroke lie in a disk around x, all its results lie in a disk around x that is larger by a factor which depends only on the spring parameters. (REFUTED for parameters that pass validation but whose drag is too strong for the output rate; proved when 2*drag <= min_output_rate and 4 <= mass*drag*min_output_rate.)", "quantifier": "all strokes of any length, exact numbers", "why_tests_cant": "Overshoot could build up over any number of inputs.", "anchors": ["ink_stroke_modeler/internal/position_modeler.cc:Update", "ink_stroke_modeler/internal/position_modeler.h:ModelEndOfStroke", "ink_stroke_modeler/stroke_modeler.cc:ModelStylus"]}
{"id": "C60", "title": "Wobble smoothing forgets", "statement": "Where a Move is taken to be does not depend on the inputs of the stroke that are older than the timeout of the wobble smoother: two strokes whose inputs agree from an input on that is older than the timeout give the same corrected position; so a pen that rests is modeled where it rests. (REFUTED under float arithmetic: running sums lose digits for good, so a pen that has been at 10^8 and rests at 1 is modeled at 0.)", "quantifier": "all pairs of strokes", "why_tests_cant": "Compares arbitrary pasts; the loss shows only after excursions.", "anchors": ["ink_stroke_modeler/internal/wobble_smoother.cc:Update", "ink_stroke_modeler/stroke_modeler.cc:ProcessMoveEvent"]}
{"id": "C61", "title": "Strokes turned by any angle", "statement": "In exact arithmetic, turning all inputs of a stroke about the origin by any angle turns the positions, velocities and accelerations of all results by this angle; the same inputs are accepted, there are as many results, and times, pressures and tilts are the same. If stylus data is found by the closest point, the same holds for every reflection. Without loop mitigation predictions are turned or reflected as well, with either predictor.", "quantifier": "all strokes with any history before, all angles, all reflections", "why_tests_cant": "Pairs of strokes and a continuum of angles; on floats rounding hides the relation.", "anchors": ["ink_stroke_modeler/stroke_modeler.cc:Update", "ink_stroke_modeler/internal/position_modeler.cc:Update", "ink_stroke_modeler/internal/stylus_state_modeler.cc:Query", "ink_stroke_modeler/internal/utils.cc:GetStrokeNormal", "ink_stroke_modeler/internal/loop_contraction_mitigation_modeler.cc:Update"]}
{"id": "C62", "title": "On floats, the tip stays near the inputs", "statement": "In single and double precision, without wobble smoothing, loop mitigation and stylus data: if the inputs are within R, mass and drag constant have usual sizes and the results come often enough for the spring, then all positions, velocities and accelerations of the results are numbers, the positions are within 52 (k + 1/k) R, k being the drag constant times the root of the mass, and the velocities are bounded accordingly. The number of results is not limited if they are not too close to each other in time, and may be 2^18 otherwise.", "quantifier": "all such strokes of any length with any history before", "why_tests_cant": "Rounding errors of arbitrarily many steps; a test sees some strokes, and an overflow or a slow drift may need a very long one.", "anchors": ["ink_stroke_modeler/internal/position_modeler.cc:PositionModeler::Update", "ink_stroke_modeler/internal/position_modeler.h:UpdateAlongLinearPath", "ink_stroke_modeler/internal/position_modeler.h:ModelEndOfStroke", "ink_stroke_modeler/stroke_modeler.cc:StrokeModeler::Update"]}
{"id": "C63", "title": "Rounding errors do not build up", "statement": "In single and double precision, without wobble smoothing, loop mitigation and stylus data: take the exact spring model of the README with the same inputs and the times of the results. If inputs and results are within R, velocities are of the matching size, and the results come often enough for the spring, then each position differs from the exact one by at most w R / 2^19, and velocities accordingly, where the weight w counts recent results: it is at most the number of results so far, and if results are at least g apart it is at most 20 (1 + M d^2) / (d g), however long the stroke.", "quantifier": "all such strokes of any length with any history before", "why_tests_cant": "The exact results are real numbers that no test computes, and the claim is about the errors of all steps together.", "anchors": ["ink_stroke_modeler/internal/position_modeler.cc:PositionModeler::Update", "ink_stroke_modeler/internal/position_modeler.h:UpdateAlongLinearPath", "ink_stroke_modeler/internal/position_modeler.h:ModelEndOfStroke", "ink_stroke_modeler/stroke_modeler.cc:StrokeModeler::Update"]}
{"id": "C64", "title": "Results solve the differential equation of the README as the output rate grows", "statement": "The README describes the pen by the differential equation s'' = (Phi - s)/M - k_d s' for an anchor Phi that goes from input to input in straight lines, and says that it is integrated by Euler's method. For each M and k_d there is a constant C such that for every stroke without wobble smoothing and loop mitigation whose accepted inputs are never faster than S, and every output rate f with f >= 2 k_d and f >= 4/(M k_d), each result, those of the Up included, differs from the solution of the equation at its time by at most C S / f in position and in velocity, however long the stroke is.", "quantifier": "all strokes, all spacings of inputs, all rates above the bound; all solutions of the equation", "why_tests_cant": "The solution is not computed anywhere in the code; the claim compares all results of all strokes at all rates with a limit.", "anchors": ["ink_stroke_modeler/internal/position_modeler.cc:PositionModeler::Update", "ink_stroke_modeler/internal/position_modeler.h:UpdateAlongLinearPath", "ink_stroke_modeler/internal/position_modeler.h:ModelEndOfStroke", "ink_stroke_modeler/stroke_modeler.cc:StrokeModeler::Update"]}
{"id": "C65", "title": "A blend of two strokes gives a blend of their results", "statement": "Without wobble smoothing, loop mitigation and resampling by angle the modeler is linear in the positions of the inputs. Take three strokes with the same parameters and with inputs of the same types at the same times. If each input of the third is at (1-c) x + c y, x and y being the positions of the inputs of the two others and c any number, then the same inputs are accepted, the Down and each Move have as many results at the same times, and their positions, velocities and accelerations are the same blends of those of the two others.", "quantifier": "all triples of strokes in any histories, all parameters without the three features, all real c", "why_tests_cant": "It relates three runs of any length and any real c; the code has no notion of a blend.", "anchors": ["ink_stroke_modeler/internal/position_modeler.cc:PositionModeler::Update", "ink_stroke_modeler/internal/position_modeler.h:UpdateAlongLinearPath", "ink_stroke_modeler/stroke_modeler.cc:StrokeModeler::ProcessMoveEvent", "ink_stroke_modeler/stroke_modeler.cc:StrokeModeler::ProcessDownEvent"]}
{"id": "C66", "title": "When the tip settles: the exact condition", "statement": "Validation accepts parameters for which the modeled tip swings about a resting pen for ever. Without wobble smoothing, loop mitigation and resampling by angle, for any valid parameters there are factors kappa(k) such that each stroke with a Down at x and Moves at a, one for each period of min_output_rate, has its k-th result at a + kappa(k) (x - a), whatever x, a and the number of Moves. These factors tend to 0 if and only if 2 drag_constant / rate + 1 / (spring_mass_constant rate^2) < 4.", "quantifier": "all valid parameters; all such strokes of any length; if and only if", "why_tests_cant": "A limit over strokes of any length, and a sharp boundary in the space of parameters, on which it is hard to hit with a test.", "anchors": ["ink_stroke_modeler/internal/position_modeler.cc:PositionModeler::Update", "ink_stroke_modeler/internal/position_modeler.h:UpdateAlongLinearPath", "ink_stroke_modeler/params.cc:ValidatePositionModelerParams"]}
{"id": "C67", "title": "Redundant inputs change nothing", "statement": "Without wobble smoothing, loop mitigation and resampling by angle: take a stroke, and between two successive accepted inputs insert one more Move that lies on the straight way between them, at a place and time at which the modeler would have upsampled to anyway (after k of the n = ceil(dt * min_output_rate) equal steps). Then positions, velocities, accelerations and times of all results of the stroke, including those of later inputs and of the Up, are exactly the same.", "quantifier": "all valid parameters with these modes off; all strokes of any length, wherever the input is inserted, whatever its stylus data", "why_tests_cant": "Compares all pairs of strokes, and an inserted input influences all later results; a test looks at some pairs.", "anchors": ["ink_stroke_modeler/stroke_modeler.cc:StrokeModeler::ProcessMoveEvent", "ink_stroke_modeler/stroke_modeler.cc:StrokeModeler::ProcessUpEvent", "ink_stroke_modeler/internal/position_modeler.cc:PositionModeler::Update", "ink_stroke_modeler/internal/position_modeler.h:UpdateAlongLinearPath"]}
{"id": "C68", "title": "A modeler that was moved from can be reset", "statement": "A StrokeModeler can be moved. Whatever state it was in and whatever the move left in its containers, the object that was moved from can be used again after a successful Reset: it then behaves as a new modeler with the same parameters, for all later calls.", "quantifier": "all states, all valid but unspecified contents of the containers of the object that was moved from, all valid parameters, all later calls", "why_tests_cant": "What a move leaves in a container is unspecified and differs between standard libraries; a test sees one of them.", "anchors": ["ink_stroke_modeler/stroke_modeler.h:StrokeModeler", "ink_stroke_modeler/stroke_modeler.cc:StrokeModeler::Reset", "ink_stroke_modeler/stroke_modeler.cc:StrokeModeler::ResetInternal", "ink_stroke_modeler/stroke_modeler.cc:StrokeModeler::Predict"]}
{"id": "C69", "title": "The Kalman predictor learns steady motions", "statement": "If the pen moves with constant velocity, acceleration or jerk and its inputs come at even intervals, the motion that the Kalman predictor goes on with approaches that of the pen as the stroke goes on: the estimated position and velocity come as close to those of the pen as one likes; how close, in proportion to the motion per interval, depends on the variances and the number of inputs only.", "quantifier": "all variances, all motions with constant jerk, all intervals between inputs, all numbers of inputs, all histories before the stroke", "why_tests_cant": "Convergence is a statement about arbitrarily long strokes; the tests feed about ten inputs and compare with recorded numbers.", "anchors": ["ink_stroke_modeler/internal/prediction/kalman_predictor.cc:KalmanPredictor::Update", "ink_stroke_modeler/internal/prediction/kalman_predictor.cc:KalmanPredictor::GetEstimatedState", "ink_stroke_modeler/internal/prediction/kalman_predictor.cc:KalmanPredictor::ConstructPrediction", "ink_stroke_modeler/internal/prediction/kalman_filter/kalman_filter.cc:Update"]}
{"id": "C70", "title": "Small changes have small effects, which fade", "statement": "Two strokes with the same times whose inputs are never more than eps apart have results that are never more than a constant times eps apart, the constant depending on the parameters only and not on the length of the stroke. If the inputs are the same from some time on, the difference of the results decays exponentially from then on. (Without wobble smoothing, loop mitigation and resampling by angle, before the Up.)", "quantifier": "all pairs of strokes of any length, all distances eps, all parameters with a rate high enough for the spring, all histories before the strokes", "why_tests_cant": "A bound that is uniform in the length of the stroke cannot be observed in finitely many runs.", "anchors": ["ink_stroke_modeler/stroke_modeler.cc:StrokeModeler::ProcessMoveEvent", "ink_stroke_modeler/internal/position_modeler.cc:PositionModeler::Update", "ink_stroke_modeler/internal/position_modeler.h:PositionModeler::UpdateAlongLinearPath"]}
{"id": "C71", "title": "On floats, ordinary strokes stay near their inputs, with all features on", "statement": "With wobble smoothing, loop mitigation, stroke normals and stylus data on or off, all results of a stroke have finite positions, velocities and accelerations, and these are bounded: the positions by a constant times the size of the region of the inputs, the velocities and accelerations by this over the shortest time between inputs and over the response time of the spring. The constant depends on the parameters only. (The numbers have usual sizes, inputs at different times are at least g and at most G apart, and the results come often enough for the spring. With wobble smoothing, whose running sums collect rounding errors, a stroke has at most 2^17 T / (3 (T + 2 G)) inputs, T being the timeout; without it the number of inputs is not limited.)", "quantifier": "all such strokes, all usual parameters, all histories before the stroke, all math libraries", "why_tests_cant": "Rounding errors, overflows and divisions by small sums depend on every bit of the inputs; a test sees some strokes.", "anchors": ["ink_stroke_modeler/stroke_modeler.cc:StrokeModeler::ProcessMoveEvent", "ink_stroke_modeler/internal/wobble_smoother.cc:WobbleSmoother::Update", "ink_stroke_modeler/internal/stylus_state_modeler.cc:StylusStateModeler::Query", "ink_stroke_modeler/internal/loop_contraction_mitigation_modeler.cc:LoopContractionMitigationModeler::Update", "ink_stroke_modeler/internal/position_modeler.cc:PositionModeler::Update"]}
{"id": "C72", "title": "On floats, usual inputs give finite results near them, often enough", "statement": "If the parameters have usual sizes and the inputs lie in a region, can be told apart by their times and are not too many, then all results of the stroke are finite: they come in the order of their times, at most a period of the output rate (and a little more) apart, their positions are bounded by a constant times the size of the region, and velocities and accelerations by this over the shortest time between inputs and over the response time of the spring. Nothing is assumed of the results. All features may be on or off.", "quantifier": "all such strokes, all usual parameters, all histories before the stroke, all math libraries", "why_tests_cant": "That no NaN or infinity ever comes up depends on every bit of the inputs and of all intermediate results; a test sees some strokes.", "anchors": ["ink_stroke_modeler/stroke_modeler.cc:StrokeModeler::ProcessMoveEvent", "ink_stroke_modeler/stroke_modeler.cc:StrokeModeler::ProcessUpEvent", "ink_stroke_modeler/internal/wobble_smoother.cc:WobbleSmoother::Update", "ink_stroke_modeler/internal/stylus_state_modeler.cc:StylusStateModeler::Query", "ink_stroke_modeler/internal/loop_contraction_mitigation_modeler.cc:LoopContractionMitigationModeler::GetInterpolationValue", "ink_stroke_modeler/internal/position_modeler.cc:PositionModeler::Update"]}
{"id": "C73", "title": "On floats, stroke-end predictions for usual inputs are finite and near them", "statement": "Under the conditions of C72 on parameters and inputs, what Predict returns with the stroke-end predictor is finite: the predicted results follow the results of the stroke in the order of their times, at most a period of the output rate (and a little more) apart, there are at most 1000 of them, their positions are bounded by a constant times the size of the region of the inputs, velocities and accelerations as in C72; pressures, tilts and orientations are in range if those of the inputs are. All features may be on or off.", "quantifier": "all such strokes at any point, all usual parameters, all histories before the stroke, all math libraries", "why_tests_cant": "Predict can be called after each input; that no NaN or infinity comes up depends on every bit of all intermediate results.", "anchors": ["ink_stroke_modeler/stroke_modeler.cc:StrokeModeler::Predict", "ink_stroke_modeler/internal/prediction/stroke_end_predictor.cc:StrokeEndPredictor::ConstructPrediction", "ink_stroke_modeler/internal/stylus_state_modeler.cc:StylusStateModeler::Query", "ink_stroke_modeler/internal/position_modeler.cc:PositionModeler::ModelEndOfStroke"]}
{"id": "C74", "title": "With enough drag the pen does not swing past its turns", "statement": "If spring_mass_constant * drag_constant^2 is at least 4 and the output rate at least drag_constant, all results of a stroke lie in every convex set that contains its inputs, with or without wobble smoothing, loop mitigation and stroke normals; and so do stroke-end predictions (without loop mitigation). With less drag this fails for every choice of parameters (without smoothing, mitigation and resampling by angle): a pen that rests after a jump has results beyond its resting place. The recommended parameters have less.", "quantifier": "all strokes of any length, all convex sets, all valid parameters, all histories before the stroke", "why_tests_cant": "Whether results ever leave a region is a statement about all strokes; where the boundary between parameters lies cannot be seen from single runs.", "anchors": ["ink_stroke_modeler/internal/position_modeler.cc:PositionModeler::Update", "ink_stroke_modeler/internal/position_modeler.h:PositionModeler::UpdateAlongLinearPath", "ink_stroke_modeler/internal/position_modeler.h:PositionModeler::ModelEndOfStroke", "ink_stroke_modeler/stroke_modeler.cc:StrokeModeler::ProcessMoveEvent", "ink_stroke_modeler/params.h:PositionModelerParams"]}
{"id": "C75", "title": "With enough drag the pen does not go back where its inputs do not", "statement": "If spring_mass_constant * drag_constant^2 is at least 4 and the output rate at least drag_constant, and the accepted inputs never go back in some direction, then the results do not go back in this direction either, and their velocities do not point back; the end of the stroke included. (Without wobble smoothing and loop mitigation; inputs at the same time are at the same place.)", "quantifier": "all directions, all strokes of any length, all such parameters, all histories before the stroke", "why_tests_cant": "Monotony is a statement about each pair of results of each stroke.", "anchors": ["ink_stroke_modeler/internal/position_modeler.cc:PositionModeler::Update", "ink_stroke_modeler/internal/position_modeler.h:PositionModeler::UpdateAlongLinearPath", "ink_stroke_modeler/internal/position_modeler.h:PositionModeler::ModelEndOfStroke"]}
{"id": "C76", "title": "With enough drag results are hardly faster than the pen and close behind it", "statement": "If spring_mass_constant * drag_constant^2 is at least 4 and the output rate at least drag_constant, and the accepted inputs are never faster than S, then no result is faster than S * (1 + drag_constant / (2 * rate)), which is at most 3/2 S, and none is farther than S * (spring_mass_constant * drag_constant + 1 / rate) from where the pen was at its time on the straight way from input to input. (Without wobble smoothing and loop mitigation.)", "quantifier": "all strokes of any length, all speeds, all such parameters, all histories before the stroke", "why_tests_cant": "Uniform bounds on speed and distance for all strokes cannot be observed in finitely many runs.", "anchors": ["ink_stroke_modeler/internal/position_modeler.cc:PositionModeler::Update", "ink_stroke_modeler/internal/position_modeler.h:PositionModeler::UpdateAlongLinearPath", "ink_stroke_modeler/internal/position_modeler.h:PositionModeler::ModelEndOfStroke", "ink_stroke_modeler/params.h:PositionModelerParams"]}
{"id": "C77", "title": "Kalman predictions return for usual strokes, with a bounded number of results", "statement": "With IEEE floats, the Kalman predictor and the noises of its test (process_noise .00026458, measurement_noise .026458), Predict returns with status ok during every stroke of usual parameters and inputs (positions in a region of size R, times that can be told apart, an output rate that suits the spring, at most 2^18 results; wobble smoothing, loop mitigation and stroke normals allowed): no conversion to int is out of range, whatever the inputs were. It appends at most 3 * rate * (26 * reach / min_catchup_velocity + prediction_interval) + 8 results, where reach is a multiple of R that depends on the spring only.", "quantifier": "all such strokes of any length up to 2^18 results, all other parameters of the predictor, all previous calls on the modeler", "why_tests_cant": "The estimate of the filter is a sum over all inputs, with weights that depend on the rounding of the covariance in all steps before; that it stays bounded for all inputs and any number of steps, and that the following conversions to int are defined, cannot be seen from some strokes.", "anchors": ["ink_stroke_modeler/internal/prediction/kalman_predictor.cc:KalmanPredictor::ConstructPrediction", "ink_stroke_modeler/internal/prediction/kalman_predictor.cc:KalmanPredictor::ConstructCubicConnector", "ink_stroke_modeler/internal/prediction/kalman_predictor.cc:KalmanPredictor::NumberOfPointsToPredict", "ink_stroke_modeler/internal/prediction/kalman_filter/kalman_filter.cc:KalmanFilter::Update", "ink_stroke_modeler/internal/prediction/kalman_filter/axis_predictor.cc:MakeKalmanFilter", "ink_stroke_modeler/stroke_modeler.cc:StrokeModeler::Predict"]}
{"id": "C78", "title": "Kalman predictions are finite for usual strokes", "statement": "With IEEE floats, the Kalman predictor and the noises of its test, everything that Predict returns during a stroke of usual parameters and inputs (as for C77) is finite: positions, velocities and accelerations of at most 2^99 and finite times. This holds if accepted inputs are at least 1/2^10 apart in time, reach is at most 2^20, there are at most 2^10 results per unit of time and 2^8 per prediction_interval, acceleration_weight and jerk_weight are at most 8, and min_stable_iteration and max_time_samples are at least 2.", "quantifier": "all such strokes of any length up to 2^18 results, all other parameters of the predictor, all previous calls on the modeler", "why_tests_cant": "The predictor divides by the average time between inputs, its square and its cube, and extrapolates with the result for hundreds of steps; that nothing overflows or becomes NaN for any inputs cannot be seen from some strokes.", "anchors": ["ink_stroke_modeler/internal/prediction/kalman_predictor.cc:KalmanPredictor::GetEstimatedState", "ink_stroke_modeler/internal/prediction/kalman_predictor.cc:KalmanPredictor::ConstructCubicConnector", "ink_stroke_modeler/internal/prediction/kalman_predictor.cc:KalmanPredictor::ConstructCubicPrediction", "ink_stroke_modeler/internal/prediction/kalman_predictor.cc:EvaluateCubic", "ink_stroke_modeler/stroke_modeler.cc:StrokeModeler::Predict"]}
{"id": "C79", "title": "Prediction times never go backwards on floats", "statement": "With IEEE floats, the times of the results of one call of Predict never go backwards, for both predictors and any parameters and inputs. If the differences of the times of consecutive accepted inputs are exact, as when each time is at most twice the one before, then no predicted result is before a result of the stroke.", "quantifier": "all valid params with either predictor, all strokes of any length, all previous calls on the modeler, all roundings", "why_tests_cant": "The times are computed in double precision from float fractions and a rounded sample period; that no rounding swaps two of them cannot be seen from some strokes.", "anchors": ["ink_stroke_modeler/internal/prediction/kalman_predictor.cc:KalmanPredictor::ConstructCubicConnector", "ink_stroke_modeler/internal/prediction/kalman_predictor.cc:KalmanPredictor::ConstructCubicPrediction", "ink_stroke_modeler/internal/prediction/stroke_end_predictor.cc:ConstructPrediction", "ink_stroke_modeler/stroke_modeler.cc:StrokeModeler::Predict"]}
{"id": "C80", "title": "Constant pressure, tilt and orientation are kept exactly", "statement": "With IEEE floats, if all inputs of a stroke have the same pressure (any finite value that is not negative), then all results of the stroke and of Predict have exactly this pressure; likewise for tilt, and for an orientation of at most 2 pi. With loop mitigation a value may be NaN instead, but then the time of the result is NaN too.", "quantifier": "all valid params with any predictor, all strokes of any length and shape, all previous calls on the modeler, all roundings", "why_tests_cant": "The values are interpolated at ratios that depend on all positions and times and are then interpolated again for loop mitigation; that none of this ever rounds a constant away cannot be seen from some strokes.", "anchors": ["ink_stroke_modeler/internal/utils.h:Interp", "ink_stroke_modeler/internal/utils.h:InterpAngle", "ink_stroke_modeler/internal/utils.cc:InterpResult", "ink_stroke_modeler/internal/stylus_state_modeler.cc:StylusStateModeler::Query", "ink_stroke_modeler/stroke_modeler.cc:ModelStylus"]}
{"id": "C81", "title": "Strokes along an axis stay exactly on it", "statement": "With IEEE floats and wobble smoothing switched off, if all inputs of a stroke have the same x coordinate c, then all results of the stroke, and all predictions of both predictors, have a position with exactly that x coordinate, and a velocity and acceleration of zero in x; the same holds for y. A coordinate can be NaN instead, but not for strokes with usual parameters and inputs (those of C72, for predictions of the Kalman predictor those of C78). Without rounding errors results and predictions are on the line with wobble smoothing too; with it floats may leave the line, even if the pen rests.", "quantifier": "all valid params without wobble smoothing, all strokes of any length along an axis, with any times and with loop mitigation and projection along normals or not, all previous calls on the modeler, all roundings", "why_tests_cant": "A ruler stroke that drifts off its line by one unit in the last place after many inputs is not seen in a test with a tolerance and a few inputs.", "anchors": ["ink_stroke_modeler/internal/position_modeler.cc:PositionModeler::Update", "ink_stroke_modeler/internal/position_modeler.h:UpdateAlongLinearPath", "ink_stroke_modeler/internal/position_modeler.h:ModelEndOfStroke", "ink_stroke_modeler/internal/utils.cc:InterpResult", "ink_stroke_modeler/stroke_modeler.cc:ModelStylus", "ink_stroke_modeler/internal/prediction/kalman_predictor.cc:KalmanPredictor::ConstructCubicConnector", "ink_stroke_modeler/internal/prediction/kalman_filter/kalman_filter.cc:KalmanFilter::Update"]}
