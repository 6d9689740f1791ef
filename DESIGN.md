# Formal model of ink-stroke-modeler: design

Target: `google/ink-stroke-modeler` in `/repo` (C++), read as text, neither built nor run.
Everything here is Lean 4 (4.33.0) with single Mathlib modules, under `lean/Verif`.

## 1. Approach

The C++ code is transcribed function by function into total, computable Lean functions that are
*generic in the arithmetic*: `float` is a type `F`, `double` a type `D`, related by a type class
(`Verif/Scalar.lean`: comparison, +,-,*,/, abs, ceil, `widen : F → D`, `narrow : D → F`, hypot, acos,
conversions to int). The same transcription is then used at three levels.

* **Any arithmetic.** State-machine properties (acceptance protocol, error atomicity, save/restore, reset,
  purity of Predict, counts, stickiness of unknown fields, ...) are proved for every instance of the class,
  with no assumption on the operations unless a theorem lists it.
* **IEEE-754** (`Verif/IEEE`). A bit-accurate, computable model of binary32 and binary64 with
  round-to-nearest-even, subnormals, signed zero, infinities and NaN. `hypot` and `acos` are a parameter
  with a recorded specification (`Libm`), theorems hold for every libm meeting it.
  Used for absence of undefined behaviour, termination of loops, monotone times, ranges, and the
  counterexamples (evaluated by the kernel on actual floats).
* **Exact arithmetic** (`Verif/Exact`, type `XR`). Extended reals `nan | ±inf | fin r` with `r : ℝ`; division by zero gives
  inf or nan as in IEEE, so no totalised `x/0 = 0` is used. Used for the functional (algorithmic) properties:
  spring model, averages, projections, equivariance, Kalman filter. There is one zero, the largest finite number is `inf`
  (so the clamp in kalman_predictor.cc:158 is the identity), narrowing and widening are the identity.

Undefined behaviour and non-termination are outcomes: `Outcome α = ok a | ub why | diverge`.
Out-of-range deque/optional access, out-of-range float→int conversion and int overflow give `ub`.
`while` loops over floats are defined with `partial_fixpoint` on the flat order whose bottom is `diverge`, so
`diverge` is exactly non-termination of the loop. Loops over containers are structural recursion.

The API is a state machine (`Model/Session.lean`): operations `reset params`, `reset`, `update`, `predict`, `save`,
`restore`; `step : State → Op → Outcome (State × Response)`; histories are lists of operations.
"Behaves like" is equality of all responses for all future histories, proved by simulation relations.

## 2. Trusted base

* Lean's kernel; the axioms `propext`, `Classical.choice`, `Quot.sound` only (`Verif/Audit.lean` prints the axioms of each
  property theorem during the build). No `sorry`, no own axioms, no `native_decide`/`bv_decide`.
* The transcription itself: each model definition cites the file and lines it transcribes. `Verif/Tests` replays the unit tests of the
  code on the model with IEEE floats during the build (`#guard`, so these are tests and not proofs): all 22 tests of
  stroke_modeler_test.cc call by call (232 expectations, 340 expected results, generated from the text of the test by
  `tools/unittests.py`), and the numbers of kalman_predictor_test.cc, utils_test.cc, NumberOfStepsBetweenInputsTest, and parts of the
  loop mitigation and stylus tests. All expectations are met within the tolerances of the tests.
* C++ assumptions: `float`/`double` are IEEE binary32/binary64, FLT_EVAL_METHOD = 0, no contraction to FMA, default rounding,
  no -ffast-math; double→float overflow gives infinity (IEC 60559); `int` 32 bit; `size_t` 64 bit.
* libm: `std::hypot`, `std::acos` are not modelled beyond the specification in `IEEE/Libm.lean`. C56 and C57 also assume `LibmEven`
  (`IEEE/Symmetry.lean`): hypot does not depend on signs and order, acos not on the sign of zero. C71–C73, C77 and C78 also assume
  `LibmFair` (`IEEE/Fair.lean`): far from overflow, hypot(x, y) ≤ 2(|x| + |y|). NaNs are not told apart.

Not modelled: memory exhaustion (`bad_alloc`), the text of error messages (only the absl status code and a tag of which check
failed), `AbslStringify`/`ToFormattedString`, build files,
deprecated-member handling outside the listed functions. The experimental/unused
code paths are modelled when reachable from the API. Deque sizes and indices are natural numbers; they are taken to be below 2^31
where the code casts them to `int`.

## 3. Layout

* `Outcome.lean`, `Scalar.lean`: outcomes of a call, the arithmetic classes.
* `Model/`: the transcription, one file per source file. `Model/Session.lean`: the API as a state machine.
* `IEEE/`: `Basic` (floats and their operations), `Libm` (record of assumptions on hypot/acos), `Reference` (a math library that meets
  the record, so it is not contradictory), `Round`/`Real`/`Value` (`num` = the real a finite float stands for, `rd` = rounding as a
  function ℝ → ℝ; a float operation is the rounding of the real one), `Angle` (the loops of utils.h), `Tame` (what calls need to return),
  `Times`, `Interp`, `Symmetry`, `Fair` (errors of sums and averages), `Dyadic`/`Double` (doubles as mantissa and exponent, for long runs in the
  kernel, and errors of double operations).
* `Exact/`: `XR` and, function by function, the proof that the transcription on exact numbers is the reference model.
* `Spec/`: the vocabulary of the theorems. `History` (what a client knows: parameters in force, previous accepted input, save points),
  `Stroke` (the stroke in progress as the client sees it; `Regular`: no Restore reaches a save point of an earlier stroke and prediction
  is not disabled after a Save), `Ref` (spring model over ℂ, from the README), `Average` (wobble smoothing as a moving average),
  `Foot` (projections), `Mitigation` (loop mitigation), `Forecast` (textbook Kalman filter with Mathlib matrices, Hermite connector,
  extrapolation, confidence), `Units`, `Symmetry` (turned and mirrored sessions), `Spring` (the spring step in any arithmetic), `Track` (unknown fields). Nothing in `Ref`, `Average`, `Foot`,
  `Mitigation` and `Forecast` refers to the transcription.
* `Lemmas/`: theorems for any arithmetic. Central ones: `h.stroke` (every regular history comes down to one stroke on a new modeler)
  and `h.course` (that stroke, step by step), `SameLive` (states that answer alike until the next Down). `Hold`, `Gain`, `Plan`: what a Kalman
  filter can estimate on doubles, from a computation that does not involve the inputs; `TestPlan` and `PlanRun` carry it out for C77.
* `Props/`: the property theorems `Cnn_...`, each followed by an `example` that exhibits a case meeting its hypotheses.
* `Examples/`: concrete sessions. On floats they are evaluated by the kernel (`kernel_rfl`); those that involve `[Libm]` keep one
  component of every vector zero, so that hypot is determined by its specification. `partial_fixpoint` loops do not reduce in the
  kernel, so orientations are unknown (-1) there.
* `Tests/`: the unit tests of the code, replayed on the model.
* `Audit.lean`: prints the axioms of each property theorem (generated, like `MANIFEST.json`, by `tools/manifest.py`).
* `tools/`: `props.py` (writes `properties.jsonl`), `manifest.py`, `mutate.py` (applies a wrong edit to a scratch copy, replaces failing proofs
  by `sorry` so that later modules build, and reports the property theorems that then depend on it), `log.py` (writes `seeded/LOG.jsonl`).

## 4. Properties

Statements are in `properties.jsonl`; `MANIFEST.json` lists the theorems. A = any arithmetic, I = IEEE, X = exact.
"refuted" means a theorem `Cnn_refuted` proves the negation with a concrete witness history; the other theorems prove
the strongest true versions we have. All partial claims are of that kind: nothing is partial for lack of a proof alone, except
where the note in the manifest says so.

| id | level | what is modelled and how it is proved |
|----|-------|----------------------------------------|
| C01, C02 | A | invariant over histories; `step` returns the same state on a failed reset |
| C03 | A | iff-characterisation of `update`'s status by a spec over (params, previous accepted input, input, step count) |
| C04 | A | case analysis of `update`; independence of the vector's contents |
| C05 | A, I | state equality for all rejections but the late one; refuted for the late one |
| C06 | A | simulation relation ignoring the scratch buffer |
| C07, C09 | A, I | saved copies never change by update/predict/restore except an accepted Down; C07 refuted after disabling prediction |
| C08 | A, I | invariant "no active save"; refuted for a Save of an earlier stroke |
| C10, C12 | A, I | simulation ignoring inactive saved fields; refuted: a stale saved predictor comes back |
| C11 | A, I | Down overwrites all live state; refuted when prediction was disabled after a Save |
| C13, C14 | A | case analysis |
| C15 | A, X, I | number of tips; refuted for simultaneous Moves and, on floats, for Moves less than 2^-150 s apart |
| C16 | A, I | bounds on list lengths; refuted for Up and Kalman |
| C17 | X, I | X: all strokes. I: within a call, along strokes with exact time differences; refuted otherwise |
| C18 | X, I | last element of the upsampled list; refuted on floats without exact differences |
| C19 | X, I | ceil inequality; refuted when the step count is cut off at INT_MAX; on floats with a bound on the rounding errors (IEEE/Rate.lean), refuted without |
| C20 | I | invariants on deques, bounds on float→int, termination of angle loops; refuted: endless loop for orientation 2^28; overflow of a counter |
| C21 | I, X | as C20; refuted for Kalman (undefined conversion); exact criterion on exact numbers |
| C22 | I | returns iff both angles are NaN or at most 2^27 in magnitude |
| C23 | A | invariant on the window and flags |
| C24 | X, I | interpolation of values in [0,1] (`Within`); refuted for a NaN strength |
| C25 | X, I | case analysis with 2π arithmetic; on floats the range of the results |
| C26, C33, C34, C37 | X | every result is explained by a foot point on the raw polyline (`Spec/Foot`), closest or along the normal |
| C27, C28 | X | refinement of the transcription to `Spec/Ref` |
| C29 | X | both sides are the same end-of-stroke function |
| C30, C31 | X, A | invariant: running sums = sums over the window; window characterised over the history |
| C32 | A, X | windows as suffixes of the raw inputs |
| C35, C51 | X | the ratio is the documented function of the mean speed; C51 refuted: one sample fewer than documented |
| C36 | X, I | exact: independent of the stylus settings; floats: without stylus data the spring steps themselves, number by number |
| C38, C39 | I | characterisation of what validation accepts; refuted against the documentation |
| C40, C41, C42 | X | simulation between two runs; C41 refuted for converted variances, C42 for the hard-coded window limit |
| C43, C44, C47, C48 | X | the Kalman prediction is `Ref.forecast`; C44 refuted (horizon rounded up), C47 refuted for max_time_samples = 1 |
| C45 | A, X | iteration counter invariant |
| C46, C49 | X | equality with the textbook filter over Mathlib matrices; covariance positive definite |
| C50 | X, I | Mathlib's `InnerProductGeometry.angle`; range and symmetry on floats |
| C52 | X | least number of steps |
| C53 | X, I | finite on exact numbers; refuted on floats |
| C54 | A, X | bounds on the deques for all sequences of calls |
| C55 | A | only the parameters and the accepted inputs of the current stroke matter |
| C56 | I, X | relation between a session and its turned image (`Lemmas/Symmetry`), for any arithmetic with sign laws |
| C57 | I, X | the same for mirror images in closest-point mode; refuted with stroke normals |
| C58, C59 | X | a quadratic energy that every step of admissible length shrinks (`Lemmas/Settle`), carried through upsampling, wobble smoothing and the end of the stroke; refuted for output rates too low for the spring |
| C60 | X, I | the window in closed form (C30) does not see older inputs; refuted on floats (running sums) |
| C61 | X | the reference model and the projection commute with isometries (Spec/Isometry.lean), and C37's description determines the results |
| C62 | I | the errors of one step (IEEE/Spring.lean) in the norm that the exact step shrinks (Lemmas/Drift.lean), along the spring steps of C36 |
| C63 | I | as C62, with the sizes of the results as they are |
| C64 | X | the lag behind the anchor is bounded by its speed; so are then the acceleration and its change, and the error of a step by the square of its length (Lemmas/Motion.lean); the norm of Lemmas/Drift.lean shrinks; solutions by the exponential of the linear part (Lemmas/Solve.lean) |
| C65 | X | three strokes of the reference model side by side (Spec/Blend.lean) |
| C66 | X | linear recursion of second order; a quadratic form that decreases if the roots are in the unit disk, otherwise a root that is at most -1 (Lemmas/Swing.lean) |
| C67 | X | the reference upsampling of a path with an extra node is the concatenation of the parts (Spec/Redundant.lean); spring state, time and anchor then agree, and later answers depend on nothing else |
| C68 | A; I | the state equivalence of C10 holds after Reset(params) from any memory without a saved predictor (Model/Move.lean says what a move leaves) |
| C69 | X | the inverse covariance bounds the error and never grows; the gain is bounded below along the errors that are seen, so the surprises are square-summable; four surprises determine the error (Lemmas/Learn.lean) |
| C70 | X | the difference of two strokes is a stroke; the energy of C58/C59 bounds it (Lemmas/Close.lean) |
| C71 | I | the error of the window sums of the wobble smoother (Lemmas/Average.lean) keeps the smoothed inputs in a region of twice the size; the spring under the stroke follows C62; results are blends of its tips and of raw samples |
| C72 | I | the times of the tips follow from the inputs as in C19 (Lemmas/Pace.lean); by C62 the tips are bounded, so the loop mitigation has a value (Lemmas/LoopValue.lean) and the results are finite; then C71 |
| C73 | I | a prediction of the stroke-end predictor is the end of a stroke whose Up is at the last corrected position: appended to the exact spring beside the stroke (C62), the bounds of C72 hold for it |
| C74 | X | with the two real decay rates α ≥ β of the spring, a step of length at most 1/drag maps the tip and the point `pos + vel/α` it is heading for to convex combinations of these two and the anchor; converse: the recursion after a jump has complex roots and changes its sign |
| C75 | X | the same decomposition for one coordinate: the tip stays behind its heading point, and this behind the anchor |
| C76 | X | invariant for speed and distance of the heading point from the moving anchor, along the path of the anchor as in C64 |
| C77 | I | the covariance of the filter does not depend on the inputs: its run on doubles is evaluated in the kernel (with doubles as mantissa and exponent) until it repeats; a weighted sum over the gains bounds the estimate for all inputs; with the spring bounds of C72 this bounds the arguments of both conversions to int |
| C78 | I | the bounds of C77 on the estimate, divided by the average time between inputs (at least 1/2^12 if they are 1/2^10 apart), bound the cubic and its extrapolation by powers of two (`Lemmas/Cap.lean`), which rounding does not exceed; the results made from the tips are as in C72 |
| C79 | I | rounding is monotone, so the fractions i/n, their products with the duration and the sums with the time of the tip keep their order; the steps of the extrapolation and of the end of stroke add a time that is not negative; result times are those of the tips or NaN (C17) |
| C80 | I | the difference of two equal floats is zero, so every interpolation between them is exact, also for angles in [0, 2π]; the ratio of a projection is never NaN (C24), that of loop mitigation can be |
| C81 | I, X | zero times or over anything is zero or NaN, and the difference of two equal floats is zero, so the spring never gets a force across the line; with C72 there is no NaN. The estimate of a Kalman filter that has seen only one number is this number with derivatives zero, as it is corrected by a multiple of zero, and the connector starts and ends there. The argument is made once for any arithmetic (`Lines` and `Rails` in Lemmas/Line.lean); on exact numbers the average of the wobble smoother is on the line too, on floats it is not (`C81_sharp_float`) |

## 5. Where code and documentation disagree

Proved (the `_refuted` theorem has the witness):

* C05: a Move rejected for needing too many outputs has already entered the wobble smoother and the stylus window.
  One such Move with a wrong time can ruin the rest of the stroke: its sample stays in the smoother with a large weight, and later results
  are arbitrarily far from all accepted inputs (`C05_thrown_refuted`; stroke_modeler.cc:288-302, wobble_smoother.cc:45-60).
* C07, C10, C11, C12: `Save` with prediction disabled keeps an earlier saved predictor, `Restore` brings it back (stroke_modeler.cc:325, 338).
* C08: a save point survives the end of its stroke and the next Down (stroke_modeler.cc:333 only asks for a Save since the last Reset), so
  Restore in a later stroke mixes the two strokes.
* C15: a Move at the time of its predecessor yields nothing.
* C16: Up may exceed max_outputs_per_call by end_of_stroke_max_iterations; Kalman predictions are not limited at all.
* C17, C18: on floats a Move can have a result after its own time (interpolation of times rounds).
* C19: the number of steps is cut off at INT_MAX. On floats, consecutive results may be farther apart than the period by rounding errors, e.g. at the end of a stroke at 8 seconds.
* C20: an orientation of 2^28 makes Update loop for ever (adding 2π to a float that large changes nothing).
  With the Kalman predictor, input number 2^31 of a stroke overflows `iter_num_` (kalman_filter.cc), a signed int.
* C21: Predict converts an out-of-range float to int (undefined) for tame parameters.
* C24: a NaN interpolation strength is accepted and makes pressures NaN.
* C38: NaN passes validation of the loop mitigation parameters and of baseline_linearity_confidence; kPi itself is rejected as
  the maximal angle; there are undocumented upper limits. The label for prediction_interval says "jerk_weight".
* C39: duplicates with NaN fields are not recognised.
* C41, C42: the filter's initial covariance and the limit of the sampling window are absolute numbers.
* C44: the predicted duration is rounded up to a whole number of time steps, so it can exceed prediction_interval.
* C47: with max_time_samples = 1 the time step is 0/1 and a resting pen is predicted at NaN.
* C51: loop mitigation keeps one sample fewer than documented; it averages the speeds of the results, not of the raw inputs (params.h:55-59).
* C53: inputs 1e-40 s apart make later results NaN.
* C57: along the stroke normal a tie between both sides goes to the left (stylus_state_modeler.cc:165-173), so mirror images differ.
* C58, C59: nothing relates the spring constants to min_output_rate (position_modeler.cc:55-66 integrates by plain steps), so accepted
  parameters such as drag 4, mass 1, rate 1 make the tip run away from a resting pen, three times as far with each Move.
* C69: the predictor takes the length of a time step to be the time between the first and the last of the inputs divided by
  their number (kalman_predictor.cc:92-94), and calls it "the average observed time delta", although there is one interval less than there are inputs. So the predicted velocity of a
  pen in uniform motion is too great by the factor N/(N-1) however long the stroke is: 5 % with the parameters of the tests, and
  twice the pen's with `max_time_samples` = 2.
* C68: `Reset()` on a modeler that was moved from succeeds and keeps the parameters, but the predictor is gone: prediction is off
  although the parameters ask for it. (Nothing documents what a moved-from modeler can be used for.)
* C60: on floats the running sums of the wobble smoother (wobble_smoother.cc:52-60) keep the rounding errors of inputs that have left
  the window: after an excursion to 10^8 a pen resting at 1 is modeled at 0 until the stroke ends.

Noticed while transcribing, without a theorem of its own: a Move passes its own time as `prev_time` to ModelStylus, Up the previous one
(stroke_modeler.cc:259, 315); the comment on GetStrokeNormal is false when velocity or acceleration vanish; the README's wobble
average is not weighted by time; params.h calls spring_mass_constant the mass times the spring constant (it is the quotient).

## 6. Wrong programs

`seeded/mutants*.json` are wrong edits of the transcription, `seeded/LOG.jsonl` what became of the theorems. A theorem is listed as
failed if its proof, or a lemma it uses, no longer checks; for the claim named in each entry the statement itself is false
of the edited program.
