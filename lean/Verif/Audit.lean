import Verif.Props.Ahead
import Verif.Props.Blend
import Verif.Props.Close
import Verif.Props.Counts
import Verif.Props.Drag
import Verif.Props.End
import Verif.Props.Farsight
import Verif.Props.Filter
import Verif.Props.Finite
import Verif.Props.FloatRate
import Verif.Props.FloatSpring
import Verif.Props.FloatStylus
import Verif.Props.FloatTimes
import Verif.Props.Forecast
import Verif.Props.Foresee
import Verif.Props.Foretell
import Verif.Props.Forget
import Verif.Props.Heading
import Verif.Props.Kalman
import Verif.Props.Learn
import Verif.Props.Loop
import Verif.Props.Memory
import Verif.Props.Motion
import Verif.Props.MoveCount
import Verif.Props.Moved
import Verif.Props.Ordinary
import Verif.Props.Overflow
import Verif.Props.Params
import Verif.Props.Plain
import Verif.Props.Projection
import Verif.Props.Protocol
import Verif.Props.Redundant
import Verif.Props.Replay
import Verif.Props.Rotate
import Verif.Props.Rounding
import Verif.Props.Ruled
import Verif.Props.RuledAhead
import Verif.Props.SaveRestore
import Verif.Props.Settle
import Verif.Props.Spring
import Verif.Props.Steady
import Verif.Props.Stylus
import Verif.Props.Swing
import Verif.Props.Symmetry
import Verif.Props.Thrown
import Verif.Props.Times
import Verif.Props.Total
import Verif.Props.Turn
import Verif.Props.Units
import Verif.Props.UpTimes
import Verif.Props.Upcoming
import Verif.Props.Window
import Verif.Props.Wobble
/-! The axioms used by each property theorem (generated by tools/manifest.py). -/
#print axioms Ink.C01_uninitialised_refuses
#print axioms Ink.C02_failed_reset_no_effect
#print axioms Ink.C03_acceptance
#print axioms Ink.C04_append_or_leave_alone
#print axioms Ink.C05_rejected_no_effect_partial
#print axioms Ink.C05_refuted
#print axioms Ink.C05_thrown_refuted
#print axioms Ink.C06_predict_no_influence
#print axioms Ink.C06_predict_twice
#print axioms Ink.C07_restore_undoes_partial
#print axioms Ink.C07_refuted
#print axioms Ink.C08_restore_without_save_partial
#print axioms Ink.C08_refuted
#print axioms Ink.C09_restore_idempotent
#print axioms Ink.C09_restore_again
#print axioms Ink.C10_reset_params_fresh_partial
#print axioms Ink.C10_reset_fresh_partial
#print axioms Ink.C10_refuted
#print axioms Ink.C11_strokes_independent_partial
#print axioms Ink.C11_refuted
#print axioms Ink.C12_disabled_partial
#print axioms Ink.C12_refuted
#print axioms Ink.C13_predict_discipline
#print axioms Ink.C14_down_echo
#print axioms Ink.C15_at_least_one_partial
#print axioms Ink.C15_refuted
#print axioms Ink.C15_move_exact_partial
#print axioms Ink.C15_move_float_partial
#print axioms Ink.C15_close_refuted
#print axioms Ink.C16_update_limit_partial
#print axioms Ink.C16_stroke_end_prediction_limit
#print axioms Ink.C16_up_refuted
#print axioms Ink.C16_predict_refuted
#print axioms Ink.C17_call_float_partial
#print axioms Ink.C17_times_monotone_float_partial
#print axioms Ink.C17_refuted
#print axioms Ink.C17_times_monotone_exact
#print axioms Ink.C18_move_times_float_partial
#print axioms Ink.C18_refuted
#print axioms Ink.C18_move_times_exact
#print axioms Ink.C18_up_times_exact
#print axioms Ink.C18_up_times_float_partial
#print axioms Ink.C19_min_output_rate_float_partial
#print axioms Ink.C19_float_refuted
#print axioms Ink.C19_min_output_rate_exact
#print axioms Ink.C19_refuted
#print axioms Ink.C20_overflow_refuted
#print axioms Ink.C20_calls_return_partial
#print axioms Ink.C20_refuted
#print axioms Ink.C21_predict_returns_partial
#print axioms Ink.C21_refuted
#print axioms Ink.C21_kalman_exact
#print axioms Ink.C22_interpAngle_float
#print axioms Ink.C23_unknown_sticky
#print axioms Ink.C24_stylus_range_float_partial
#print axioms Ink.C24_prediction_range_float_partial
#print axioms Ink.C24_refuted
#print axioms Ink.C24_plain_range_float
#print axioms Ink.C24_pressure_bounds_exact
#print axioms Ink.C25_heading_float
#print axioms Ink.C25_predicted_heading_float
#print axioms Ink.C25_known_heading_float
#print axioms Ink.C25_known_predicted_float
#print axioms Ink.C25_plain_heading_float
#print axioms Ink.C25_interpAngle_exact
#print axioms Ink.C26_stylus_between_exact
#print axioms Ink.C27_spring_recursion_exact
#print axioms Ink.C28_end_of_stroke_exact
#print axioms Ink.C29_stroke_end_exact
#print axioms Ink.C30_moving_average_exact
#print axioms Ink.C31_disabled
#print axioms Ink.C31_hull_exact
#print axioms Ink.C32_last_inputs
#print axioms Ink.C32_shortest_exact
#print axioms Ink.C33_closest_point_exact
#print axioms Ink.C34_normal_projection_exact
#print axioms Ink.C35_ratio_exact
#print axioms Ink.C35_strength
#print axioms Ink.C36_spring_float
#print axioms Ink.C36_stylus_irrelevant_exact
#print axioms Ink.C37_results_explained_exact
#print axioms Ink.C37_between_exact
#print axioms Ink.C38_ranges_partial
#print axioms Ink.C38_refuted
#print axioms Ink.C39_inputs
#print axioms Ink.C39_duplicates_partial
#print axioms Ink.C39_refuted
#print axioms Ink.C40_translation
#print axioms Ink.C41_unit_of_distance
#print axioms Ink.C41_conversion
#print axioms Ink.C41_variances_refuted
#print axioms Ink.C42_origin_of_time
#print axioms Ink.C42_unit_of_time
#print axioms Ink.C42_refuted
#print axioms Ink.C43_connector_exact
#print axioms Ink.C44_grid_exact
#print axioms Ink.C44_horizon_exact
#print axioms Ink.C44_refuted
#print axioms Ink.C45_empty_until_stable
#print axioms Ink.C45_predicts_once_stable
#print axioms Ink.C45_predicts_once_stable_exact
#print axioms Ink.C46_filter_exact
#print axioms Ink.C46_stroke_exact
#print axioms Ink.C47_refuted
#print axioms Ink.C47_rest_exact
#print axioms Ink.C48_confidence_exact
#print axioms Ink.C49_linear_algebra_exact
#print axioms Ink.C50_angle_exact
#print axioms Ink.C50_angle_float
#print axioms Ink.C51_recent
#print axioms Ink.C51_window_exact
#print axioms Ink.C51_documented
#print axioms Ink.C51_refuted
#print axioms Ink.C52_least_steps_exact
#print axioms Ink.C53_finite_exact
#print axioms Ink.C53_refuted
#print axioms Ink.C54_bounded_memory
#print axioms Ink.C54_bounded_always
#print axioms Ink.C54_crowd_exact
#print axioms Ink.C55_only_the_stroke_matters
#print axioms Ink.C56_turn
#print axioms Ink.C56_turn_exact
#print axioms Ink.C56_results_exact
#print axioms Ink.C57_mirror_partial
#print axioms Ink.C57_mirror_exact_partial
#print axioms Ink.C57_refuted
#print axioms Ink.C58_settles_exact_partial
#print axioms Ink.C58_settles_mitigated_exact_partial
#print axioms Ink.C58_refuted
#print axioms Ink.C59_bounded_exact_partial
#print axioms Ink.C59_refuted
#print axioms Ink.C60_forgets_exact_partial
#print axioms Ink.C60_refuted
#print axioms Ink.C61_prediction_exact
#print axioms Ink.C61_prediction_rotation_exact
#print axioms Ink.C61_isometry_exact
#print axioms Ink.C61_rotation_exact
#print axioms Ink.C62_bounded_float
#print axioms Ink.C63_rounding_float
#print axioms Ink.C64_motion_exact_partial
#print axioms Ink.C64_motion_exists
#print axioms Ink.C65_blend_exact
#print axioms Ink.C66_settles_iff_exact
#print axioms Ink.C67_redundant_exact
#print axioms Ink.C68_moved_from_partial
#print axioms Ink.C68_refuted
#print axioms Ink.C69_learns_exact_partial
#print axioms Ink.C69_refuted
#print axioms Ink.C70_close_exact
#print axioms Ink.C70_fades_exact
#print axioms Ink.C71_ordinary_float
#print axioms Ink.C72_plain_float
#print axioms Ink.C73_ahead_float
#print axioms Ink.C73_ahead_stylus_float
#print axioms Ink.C74_hull_exact
#print axioms Ink.C74_prediction_exact
#print axioms Ink.C74_swings_exact
#print axioms Ink.C75_onward_exact
#print axioms Ink.C76_speed_exact
#print axioms Ink.C77_foretold_float
#print axioms Ink.C78_farsight_float
#print axioms Ink.C79_upcoming_float
#print axioms Ink.C80_steady_float
#print axioms Ink.C80_prediction_float
#print axioms Ink.C81_axis_float
#print axioms Ink.C81_prediction_float
#print axioms Ink.C81_usual_float
#print axioms Ink.C81_axis_exact
#print axioms Ink.C81_prediction_exact
#print axioms Ink.C81_sharp_float
#print axioms Ink.C81_usual_prediction_float
#print axioms Ink.C81_usual_kalman_float
