{
 "C05": "Refuted in general (C05_refuted): a Move rejected for needing too many samples has already been absorbed by the wobble smoother and the stylus window. C05_thrown_refuted shows how bad it gets: one rejected input with a wrong time sends the tip more than a million away from the accepted inputs, which are all at the origin. Proved for every other rejection.",
 "C07": "Refuted in general (C07_refuted) when the Save was made under params that disable prediction after an earlier Save; proved for histories without that and for continuations that stay in the stroke.",
 "C08": "Proved when no Save was made since the last successful Reset; refuted (C08_refuted) for a Save made in an earlier stroke.",
 "C10": "Proved for histories in which no Reset(params) disabling prediction follows a Save; refuted otherwise (C10_refuted).",
 "C11": "Any arithmetic, for any history, with the calls after it not reaching back with a Restore. PARTIAL: false if prediction is disabled after a Save (C11_refuted): the modeler keeps the saved predictor.",
 "C12": "Proved when no Save precedes the disabling Reset; refuted otherwise (C12_refuted).",
 "C15": "Down and Up: any arithmetic. Move: on exact numbers every Move that is later than its predecessor; on floats if it is at least 2^-149 s later and the rate is at least 1. PARTIAL: false for a Move at the time of its predecessor (C15_refuted) and for one later by less than a float can hold (C15_close_refuted).",
 "C16": "Refuted for Up and for Kalman predictions; proved limits: Move and Down at most max_outputs_per_call, Up at most end_of_stroke_max_iterations more, stroke-end prediction at most end_of_stroke_max_iterations.",
 "C17": "Proved for the whole stroke on exact numbers. On floats: within one call always; along the stroke if the differences of consecutive input times are exact, for instance if no time is more than twice the one before (exactDifference_of_le). PARTIAL: false on floats without that (C17_refuted): a Move can have a result after its own time.",
 "C18": "Proved on exact numbers for Move and Up. On floats for Move: no result before the previous input; none after the Move and the last one at its time if the difference of the input times is exact. On floats for Up, at a rate of at least 1 per second and at least 2^-149 s after the previous input: no result before that input, and, if the difference is exact, the last one not before the Up and none later than it by more than end_of_stroke_max_iterations / min_output_rate and rounding. PARTIAL: false on floats without exact differences (C18_refuted).",
 "C19": "Proved on exact numbers when max_outputs_per_call is below the largest int; refuted otherwise (C19_refuted): the number of steps is cut off at the largest int. On floats refuted even then (C19_float_refuted): results may be farther apart by rounding errors. C19_min_output_rate_float_partial bounds how much: by the fraction N / 2^21 of the period, N being the number of results per call, and by T / 2^50, T being a bound of the times, if the differences of input times are exact.",
 "C24": "False on floats as stated: with loop mitigation the interpolation value can be NaN (a strength of NaN is accepted), which makes pressures NaN (C24_refuted). Proved: on exact numbers, and on floats for Moves, Ups and predictions: in range without loop mitigation, in range or NaN with it, and NaN only if the result's time is NaN as well; so in range also with loop mitigation for usual parameters and inputs (C24_plain_range_float, conditions as in C72).",
 "C26": "Proved on exact numbers; infinite values are excluded.",
 "C27": "Proved on exact numbers.",
 "C28": "Proved on exact numbers without loop mitigation.",
 "C30": "Proved on exact numbers for inputs in order of time; after a Move rejected for being too far ahead a later input can be older than the window.",
 "C31": "The bounding box is proved on exact numbers for inputs in order of time; the disabled case for any arithmetic.",
 "C32": "Contents proved for any arithmetic; the exact window of normal-projection mode on exact numbers for inputs in order of time.",
 "C35": "Exact arithmetic; mitigation enabled with finite parameters (validation lets NaN pass, C38). The ratio of every result of every stroke is the documented function of the mean speed. If both speed bounds coincide the strength at the lower bound is used for all speeds.",
 "C36": "On exact numbers: equal strokes under different stylus settings have the same position, velocity, acceleration and time. On floats: without loop mitigation, in closest-point mode and without stylus data, every result is a step of the spring model (written out in Spec/Spring.lean), number by number; only zeros may lose their sign.",
 "C37": "Proved on exact numbers.",
 "C38": "The accepted parameters are characterised on floats and the error code is InvalidArgument; the documented ranges are refuted as the criterion (C38_refuted): NaN is accepted for loop-mitigation values, and there are undocumented upper limits.",
 "C39": "The accepted inputs are characterised on floats; recognition of duplicates is refuted for inputs with NaN fields (C39_refuted) and proved otherwise.",
 "C43": "Proved on exact numbers without loop mitigation, if time passes between the inputs whose times are kept.",
 "C44": "Grid proved on exact numbers; the horizon is refuted (C44_refuted) and proved up to one time step (C44_horizon_exact).",
 "C45": "Empty until stable: any arithmetic. At least one point once stable: floats and exact numbers. Histories whose Restores do not reach a stale save point (Regular).",
 "C46": "Proved on exact numbers, both for the filter alone and for the two filters of every stroke.",
 "C47": "PARTIAL: Proved on exact numbers, if time passes between the inputs whose times are kept. Refuted for max_time_samples = 1: the resting pen is predicted at NaN (C47_refuted).",
 "C48": "Proved on exact numbers.",
 "C49": "Proved on exact numbers.",
 "C50": "Proved on exact numbers (the angle is the geometric one) and on floats (range, symmetry, failure exactly for components that are not finite).",
 "C51": "The documented number of samples is refuted (C51_refuted); which samples the code averages is characterised for all strokes (C51_window_exact), and the difference to the header (C51_documented).",
 "C52": "Proved on exact numbers.",
 "C53": "PARTIAL: On exact numbers finite inputs give finite results for every regular stroke. Refuted on floats: a Move within 1e-40 s of the last input makes the later results NaN (C53_refuted). For usual parameters and inputs (Plain, see C72) the positions, velocities, accelerations and times of all results are finite on floats too (C72_plain_float).",
 "C20": "On IEEE floats: every call except Predict returns after any calls, provided no orientation exceeds 2^27 (needed: C20_refuted shows Update looping forever at 2^28) and, with the Kalman predictor, fewer than 2^31 - 1 calls have been made (needed too: C20_overflow_refuted, the counter of the filter overflows at input 2^31 of a stroke).",
 "C21": "Proved for the stroke-end predictor and disabled prediction on IEEE floats; refuted for the Kalman predictor (C21_refuted, undefined float-to-int conversion). On exact numbers C21_kalman_exact says exactly when. For usual strokes and the noises of the predictor's test, see C77.",
 "C22": "Exact characterisation on floats: returns iff both angles are NaN or of magnitude at most 2^27; the result is in [0, 2*pi) unless an argument is NaN.",
 "C29": "On exact numbers: an Up at the raw position and time of the last input is accepted and adds the predicted tips (one tip when none is predicted). Times with a regular loop-mitigation setting, whole tip states without loop mitigation. The anchor is identified with the last raw position when wobble smoothing is off; it is the last smoothed position otherwise.",
 "C40": "On exact numbers, for all sequences of calls whatsoever (no hypotheses).",
 "C41": "On exact numbers, for all sequences of calls; the two noise parameters of the Kalman predictor are kept. If they are converted as the variances they are documented to be, the property is false (C41_variances_refuted): the initial covariance of the filter is fixed to the identity.",
 "C42": "On exact numbers. Origin: all sequences of calls. Unit: all sequences of calls in which the speed sampling window is on the same side of the hard-coded limit of 10000 (params.cc:44) in both units; without that it is false (C42_refuted).",
 "C54": "In any arithmetic, for all sequences of calls. For the Kalman times with the parameters in force it is assumed that prediction was not disabled after a Save (C07, C12). The windows of the wobble smoother and the loop mitigation are bounded in time, as documented; their number of samples is not (C54_crowd_exact).",
 "C56": "Floats (with a math library whose hypot is symmetric and even, as C Annex F demands) and exact numbers; all parameters, all calls.",
 "C57": "False with stroke normals (C57_refuted: a tie between both sides goes to the left). Proved for all sessions in closest-point mode, on floats and on exact numbers.",
 "C58": "False for parameters that pass validation (C58_refuted: drag 4, mass 1, rate 1; distance triples with each Move). Proved on exact numbers when the rate is high enough for the spring (as with the recommended parameters), for any spacing of inputs, with wobble smoothing and loop mitigation. Missing: rates between the condition and the true stability limit (for Moves in step with the output rate the limit is known exactly, see C66); max_outputs_per_call = INT_MAX; floats.",
 "C59": "False for parameters that pass validation (C59_refuted). Proved on exact numbers under the same condition on the rate, with wobble smoothing and loop mitigation. Missing: as for C58.",
 "C60": "Proved on exact numbers for inputs in order of time. False on floats (C60_refuted, for any math library): sums are updated by adding and subtracting (wobble_smoother.cc:52-60), so rounding errors of an excursion stay for the rest of the stroke.",
 "C61": "Exact numbers, any loop mitigation and stroke normals; whole sessions before the strokes may differ. Predictions of both predictors (position, velocity, acceleration, time) without loop mitigation; with the Kalman predictor if time passes between the inputs. Orientation is not covered here (C56 covers it for quarter turns). The proof also shows that the description of the results in C37 determines them.",
 "C62": "The conditions on the stroke are in Calm (Spec/Shadow.lean); the weights of the results, which have to be at most 2^18, in Weights, with Weights.count and Weights.even for the two cases. The accelerations are bounded as well.",
 "C63": "The exact tips are in Shadow (Spec/Shadow.lean), on real numbers, with the anchors at exactly equal parts of the way. Times are those of the results, which are rounded as well.",
 "C64": "PARTIAL: on exact numbers. The way of the anchor (anchorAt) and the equation (Obeys) are in Spec/Motion.lean; C64_motion_exists shows that the equation has solutions, of any duration. For floats see C63, which bounds the distance to the exact steps.",
 "C65": "Proved on exact numbers, for the Down and all Moves. The results of an Up are not linear in the positions: the end of the stroke depends on distances.",
 "C66": "Proved on exact numbers.",
 "C67": "Proved on exact numbers.",
 "C68": "Any arithmetic for Reset(params), with later calls that do not disable prediction after a Save (cf. C10). PARTIAL: false for Reset() (C68_refuted): the predictor went with the move, the parameters stay, so Predict fails as if prediction were disabled.",
 "C69": "On exact numbers, without smoothing and loop mitigation. PARTIAL: true for the position, with a bound that depends on the variances and the number of inputs only and tends to 0; false for the velocity (C69_refuted), which comes out too great by N/(N-1), N being the number of the inputs whose times are looked at (max_time_samples at most): the code divides by the number of times instead of the number of intervals.",
 "C70": "On exact numbers, for inputs before the Up. RateOk is the condition on the rate of C58; the recommended parameters meet it.",
 "C71": "The conditions on the stroke are in Ordinary (Spec/Ordinary.lean). Results are blends of a tip of the spring and of an input, so positions are bounded by both. The math library is assumed not to return grossly too long hypotenuses (LibmFair).",
 "C72": "The conditions, on parameters and inputs only, are in Plain (Props/Plain.lean). The differences of the times of consecutive accepted inputs have to be exact in double precision (as they are if the times are within a factor of two of each other); without this the last result of a call may come at a wrong time, see C18. The parameters of the loop mitigation have to be finite: NaNs pass validation.",
 "C25": "Arc and normalisation on exact numbers. On floats: in every state the results of Moves, Ups and predictions have an orientation of -1, NaN or in [0, 2π) (C25_heading_float); if all orientations of the inputs are known and at most 2^27, in [0, 2π) (NaN only if the time of the result is NaN, which needs loop mitigation; never for usual parameters and inputs, C25_plain_heading_float).",
 "C73": "The conditions are those of C72 (Plain in Props/Plain.lean). For the Kalman predictor nothing of the sort is proved on floats; see C21.",
 "C74": "Proved on exact numbers. max_outputs_per_call has to be less than INT_MAX (else the number of steps is capped and they may be too long).",
 "C75": "Proved on exact numbers. max_outputs_per_call has to be less than INT_MAX.",
 "C76": "Proved on exact numbers. max_outputs_per_call has to be less than INT_MAX.",
 "C77": "Proved on IEEE floats for the noises of the predictor's test. The run of the covariance on doubles does not depend on the inputs; it is evaluated in the kernel until it repeats (Verif/Lemmas/PlanRun.lean), which settles strokes of any length.",
 "C78": "Proved on IEEE floats for the noises of the predictor's test, with bounds that are powers of two. The bound 2^99 is crude: it only shows that nothing overflows.",
 "C79": "Proved on IEEE floats for every predictor, all parameters and all inputs, whenever Predict returns. A result time may be NaN with loop mitigation (C17); then it compares as neither before nor after. The condition of the second part is that of C17; without it the results of the stroke themselves can go backwards (`C17_refuted`).",
 "C80": "Proved on IEEE floats for all parameters and inputs, for the results of the stroke and for predictions whenever Predict returns. The NaN case is that of `C24_refuted`.",
 "C81": "Proved on IEEE floats for all parameters without wobble smoothing, for results up to NaN and without that exception for the strokes of C72. On exact numbers also with wobble smoothing, if the loop parameters are as in C53. C81_sharp_float shows a resting pen with wobble smoothing and the parameters of the unit tests whose result is elsewhere on floats. Predictions of both predictors likewise, whenever there are any: up to NaN, and without that exception under the conditions of C73 and C78. On exact numbers predictions are up to NaN."
}