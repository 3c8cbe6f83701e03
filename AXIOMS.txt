'Verif.C01_clock_monotone' depends on axioms: [propext, Classical.choice, Quot.sound]
'Verif.C01_no_event_in_past' depends on axioms: [propext, Classical.choice, Quot.sound]
'Verif.C02_step_takes_first_event' depends on axioms: [propext, Classical.choice, Quot.sound]
'Verif.C02_order_of_scheduling' depends on axioms: [propext, Classical.choice, Quot.sound]
'Verif.C02_hold_order' depends on axioms: [propext, Classical.choice, Quot.sound]
'Verif.C02_new_event' depends on axioms: [propext, Classical.choice, Quot.sound]
'Verif.C02_given' depends on axioms: [propext, Classical.choice, Quot.sound]
'Verif.C27_at_least' depends on axioms: [propext, Classical.choice, Quot.sound]
'Verif.C27_claimers' depends on axioms: [propext, Classical.choice, Quot.sound]
'Verif.C27_sum' depends on axioms: [propext, Classical.choice, Quot.sound]
'Verif.C27_capacity' depends on axioms: [propext, Classical.choice, Quot.sound]
'Verif.C27_capacity_exact' depends on axioms: [propext, Classical.choice, Quot.sound]
'Verif.C27_overload' depends on axioms: [propext, Classical.choice, Quot.sound]
'Verif.C27_sum_counterexample' depends on axioms: [propext, Classical.choice, Quot.sound]
'Verif.C27_capacity_counterexample' depends on axioms: [propext, Classical.choice, Quot.sound]
'Verif.C28_bounds' depends on axioms: [propext, Classical.choice, Quot.sound]
'Verif.C28_not_negative' depends on axioms: [propext, Classical.choice, Quot.sound]
'Verif.C28_amounts' depends on axioms: [propext, Classical.choice, Quot.sound]
'Verif.C28_granted' depends on axioms: [propext, Classical.choice, Quot.sound]
'Verif.C30_in_turn' depends on axioms: [propext, Classical.choice, Quot.sound]
'Verif.C30_position' depends on axioms: [propext, Classical.choice, Quot.sound]
'Verif.C30_never_overtakes' depends on axioms: [propext, Classical.choice, Quot.sound]
'Verif.C30_waits' depends on axioms: [propext, Classical.choice, Quot.sound]
'Verif.C30_not_served' depends on axioms: [propext, Classical.choice, Quot.sound]
'Verif.C31_all_or_nothing' depends on axioms: [propext, Classical.choice, Quot.sound]
'Verif.C31_claims_rise' depends on axioms: [propext, Classical.choice, Quot.sound]
'Verif.C31_demand' depends on axioms: [propext, Classical.choice, Quot.sound]
'Verif.C31_request' depends on axioms: [propext, Classical.choice, Quot.sound]
'Verif.C31_timeout' depends on axioms: [propext, Classical.choice, Quot.sound]
'Verif.C31_at_once' depends on axioms: [propext, Classical.choice, Quot.sound]
'Verif.Chain.C11_operations' depends on axioms: [propext, Classical.choice, Quot.sound]
'Verif.Chain.C11_outcome' depends on axioms: [propext, Classical.choice, Quot.sound]
'Verif.Chain.C11_observers' depends on axioms: [propext, Classical.choice, Quot.sound]
'Verif.Chain.C12_sorted' depends on axioms: [propext, Classical.choice, Quot.sound]
'Verif.Chain.C12_new' depends on axioms: [propext, Classical.choice, Quot.sound]
'Verif.Chain.C12_fifo' depends on axioms: [propext, Classical.choice, Quot.sound]
'Verif.Chain.C12_insert_counterexample' depends on axioms: [propext, Classical.choice, Quot.sound]
'Verif.Chain.C13_accounting' depends on axioms: [propext, Classical.choice, Quot.sound]
'Verif.Chain.C13_reset' depends on axioms: [propext, Classical.choice, Quot.sound]
'Verif.Chain.C13_length' depends on axioms: [propext, Classical.choice, Quot.sound]
'Verif.Chain.C14_within' depends on axioms: [propext, Classical.choice, Quot.sound]
'Verif.Chain.C14_full' depends on axioms: [propext, Classical.choice, Quot.sound]
'Verif.Chain.C14_room' depends on axioms: [propext, Classical.choice, Quot.sound]
'Verif.Chain.C14_invariant' depends on axioms: [propext, Classical.choice, Quot.sound]
'Verif.Chain.C15_membership' depends on axioms: [propext, Classical.choice, Quot.sound]
'Verif.Chain.C15_only_live' depends on axioms: [propext, Classical.choice, Quot.sound]
'Verif.Chain.C15_misuse' depends on axioms: [propext, Classical.choice, Quot.sound]
'Verif.Chain.C16_loop' depends on axioms: [propext, Classical.choice, Quot.sound]
'Verif.Chain.C16_once' depends on axioms: [propext, Classical.choice, Quot.sound]
'Verif.Chain.C16_plain' depends on axioms: [propext, Classical.choice, Quot.sound]
'Verif.Chain.C17_little' depends on axioms: [propext, Classical.choice, Quot.sound]
'Verif.Chain.C17_little_world' depends on axioms: [propext, Classical.choice, Quot.sound]
'Verif.Chain.C52_union' depends on axioms: [propext, Classical.choice, Quot.sound]
'Verif.Chain.C52_intersection' depends on axioms: [propext, Classical.choice, Quot.sound]
'Verif.Chain.C52_difference' depends on axioms: [propext, Classical.choice, Quot.sound]
'Verif.Chain.C52_symmetric_difference' depends on axioms: [propext, Classical.choice, Quot.sound]
'Verif.Chain.C52_copy' depends on axioms: [propext, Classical.choice, Quot.sound]
'Verif.Chain.C52_copy_capacity' depends on axioms: [propext, Classical.choice, Quot.sound]
'Verif.Chain.C52_clear' depends on axioms: [propext, Classical.choice, Quot.sound]
'Verif.Chain.C52_move' depends on axioms: [propext, Classical.choice, Quot.sound]
'Verif.Chain.C52_extend' depends on axioms: [propext, Classical.choice, Quot.sound]
'Verif.Chain.C52_extend_ok' depends on axioms: [propext, Classical.choice, Quot.sound]
'Verif.Chain.C52_extend_clear' depends on axioms: [propext, Classical.choice, Quot.sound]
'Verif.Chain.C53_available_partial' depends on axioms: [propext, Classical.choice, Quot.sound]
'Verif.Chain.C53_copy_counterexample' depends on axioms: [propext, Classical.choice, Quot.sound]
'Verif.Util.C43_before_partial' depends on axioms: [propext, Classical.choice, Quot.sound]
'Verif.Util.C43_after' depends on axioms: [propext, Classical.choice, Quot.sound]
'Verif.Util.C43_infinite' depends on axioms: [propext, Classical.choice, Quot.sound]
'Verif.Util.C43_reversed' depends on axioms: [propext, Classical.choice, Quot.sound]
'Verif.Util.C43_line' depends on axioms: [propext, Classical.choice, Quot.sound]
'Verif.Util.C43_between_monotone' depends on axioms: [propext, Classical.choice, Quot.sound]
'Verif.Util.C43_elementwise' depends on axioms: [propext, Classical.choice, Quot.sound]
'Verif.Util.C43_none' depends on axioms: [propext, Classical.choice, Quot.sound]
'Verif.Util.C43_empty_interval' depends on axioms: [propext, Classical.choice, Quot.sound]
'Verif.Util.C43_empty_interval_counterexample' depends on axioms: [propext, Classical.choice, Quot.sound]
'Verif.Util.C44_searchsorted' depends on axioms: [propext, Classical.choice, Quot.sound]
'Verif.Util.C44_insertion' depends on axioms: [propext, Classical.choice, Quot.sound]
'Verif.Util.C44_interp' depends on axioms: [propext, Classical.choice, Quot.sound]
'Verif.Util.C44_refuse' depends on axioms: [propext, Quot.sound]
'Verif.Util.C45_arange_up' depends on axioms: [propext, Classical.choice, Quot.sound]
'Verif.Util.C45_arange_down' depends on axioms: [propext, Classical.choice, Quot.sound]
'Verif.Util.C45_arange_zero_step' depends on axioms: [propext, Classical.choice, Quot.sound]
'Verif.Util.C45_linspace' depends on axioms: [propext, Classical.choice, Quot.sound]
'Verif.Util.C46_base' depends on axioms: [propext]
'Verif.Util.C46_sequence' depends on axioms: [propext, Quot.sound]
'Verif.Util.C46_unique_partial' depends on axioms: [propext, Classical.choice, Quot.sound]
'Verif.Util.C46_counterexample' depends on axioms: [propext, Classical.choice, Quot.sound]
'Verif.Util.C47_items' depends on axioms: [propext, Quot.sound]
'Verif.Util.C47_read' depends on axioms: [propext]
'Verif.Distr.C37_accepts' depends on axioms: [propext, Classical.choice, Quot.sound]
'Verif.Distr.C37_monotone' depends on axioms: [propext, Classical.choice, Quot.sound]
'Verif.Distr.C37_inverse' depends on axioms: [propext, Classical.choice, Quot.sound]
'Verif.Distr.C37_points' depends on axioms: [propext, Classical.choice, Quot.sound]
'Verif.Distr.C38_interval_partial' depends on axioms: [propext, Classical.choice, Quot.sound]
'Verif.Distr.C38_lengths' depends on axioms: [propext, Classical.choice, Quot.sound]
'Verif.Distr.C38_equal' depends on axioms: [propext, Classical.choice, Quot.sound]
'Verif.Distr.C38_mean' depends on axioms: [propext, Classical.choice, Quot.sound]
'Verif.Distr.C38_without_replacement' depends on axioms: [propext, Classical.choice, Quot.sound]
'Verif.Distr.C38_refused' depends on axioms: [propext, Classical.choice, Quot.sound]
'Verif.Distr.C38_cum_partial' depends on axioms: [propext, Classical.choice, Quot.sound]
'Verif.Distr.C38_cum_mean' depends on axioms: [propext, Classical.choice, Quot.sound]
'Verif.Distr.C38_zero_counterexample' depends on axioms: [propext, Classical.choice, Quot.sound]
'Verif.Distr.C38_distribution_counterexample' depends on axioms: [propext, Classical.choice, Quot.sound]
'Verif.Distr.C38_mean_counterexample' depends on axioms: [propext, Classical.choice, Quot.sound]
'Verif.Distr.C39_outcome' depends on axioms: [propext, Classical.choice, Quot.sound]
'Verif.Distr.C39_respects' depends on axioms: [propext, Classical.choice, Quot.sound]
'Verif.Distr.C39_crossed' depends on axioms: [propext, Classical.choice, Quot.sound]
'Verif.Distr.C39_default_fail' depends on axioms: [propext, Classical.choice, Quot.sound]
'Verif.Distr.C39_bounded_sample' depends on axioms: [propext, Classical.choice, Quot.sound]
'Verif.Distr.C40_sample' depends on axioms: [propext, Classical.choice, Quot.sound]
'Verif.Distr.C40_mean' depends on axioms: [propext, Classical.choice, Quot.sound]
'Verif.Distr.C40_constant' depends on axioms: [propext, Classical.choice, Quot.sound]
'Verif.Distr.C40_no_mean' depends on axioms: [propext, Classical.choice, Quot.sound]
'Verif.Distr.C40_operators' depends on axioms: [propext, Classical.choice, Quot.sound]
'Verif.Distr.C40_makes' depends on axioms: [propext, Classical.choice, Quot.sound]
'Verif.Distr.C40_map' depends on axioms: [propext]
'Verif.Distr.C41_meaning' depends on axioms: [propext, Classical.choice, Quot.sound]
'Verif.Distr.C41_round_trip' depends on axioms: [propext, Classical.choice, Quot.sound]
'Verif.Distr.C41_via' depends on axioms: [propext, Classical.choice, Quot.sound]
'Verif.Distr.C41_no_unit' depends on axioms: [propext, Classical.choice, Quot.sound]
'Verif.Distr.C41_scaling_partial' depends on axioms: [propext, Classical.choice, Quot.sound]
'Verif.Distr.C41_cdf' depends on axioms: [propext, Classical.choice, Quot.sound]
'Verif.Distr.C41_pdf' depends on axioms: [propext, Classical.choice, Quot.sound]
'Verif.Distr.C41_cumpdf' depends on axioms: [propext, Classical.choice, Quot.sound]
'Verif.Distr.C41_constant_sample' depends on axioms: [propext, Classical.choice, Quot.sound]
'Verif.Distr.C41_constant_counterexample' depends on axioms: [propext, Classical.choice, Quot.sound]
'Verif.Distr.C41_erlang_counterexample' depends on axioms: [propext, Classical.choice, Quot.sound]
'Verif.Mon.C18_value_at' depends on axioms: [propext, Classical.choice, Quot.sound]
'Verif.Mon.C18_value_now' depends on axioms: [propext, Classical.choice, Quot.sound]
'Verif.Mon.C18_value_before' depends on axioms: [propext, Classical.choice, Quot.sound]
'Verif.Mon.C19_duration' depends on axioms: [propext, Classical.choice, Quot.sound]
'Verif.Mon.C19_duration_zero' depends on axioms: [propext, Classical.choice, Quot.sound]
'Verif.Mon.C19_mean' depends on axioms: [propext, Classical.choice, Quot.sound]
'Verif.Mon.C19_variance' depends on axioms: [propext, Classical.choice, Quot.sound]
'Verif.Mon.C19_value_duration' depends on axioms: [propext, Classical.choice, Quot.sound]
'Verif.Mon.C19_bin_duration' depends on axioms: [propext, Classical.choice, Quot.sound]
'Verif.Mon.C20_plain' depends on axioms: [propext, Classical.choice, Quot.sound]
'Verif.Mon.C20_level_partial' depends on axioms: [propext, Classical.choice, Quot.sound]
'Verif.Mon.C20_weight_zero_counterexample' depends on axioms: [propext, Classical.choice, Quot.sound]
'Verif.Mon.C20_level_counterexample' depends on axioms: [propext, Classical.choice, Quot.sound]
'Verif.Mon.C21_sums' depends on axioms: [propext, Classical.choice, Quot.sound]
'Verif.Mon.C21_level_partial' depends on axioms: [propext, Classical.choice, Quot.sound]
'Verif.Mon.C21_plain' depends on axioms: [propext, Classical.choice, Quot.sound]
'Verif.Mon.C21_counterexample' depends on axioms: [propext, Classical.choice, Quot.sound]
'Verif.Mon.C24_ends' depends on axioms: [propext, Classical.choice, Quot.sound]
'Verif.Mon.C24_weighted' depends on axioms: [propext, Classical.choice, Quot.sound]
'Verif.Mon.C24_weighted_monotone' depends on axioms: [propext, Classical.choice, Quot.sound]
'Verif.Mon.C24_plain' depends on axioms: [propext, Classical.choice, Quot.sound]
'Verif.Mon.C24_plain_monotone' depends on axioms: [propext, Classical.choice, Quot.sound]
'Verif.Mon.C24_level' depends on axioms: [propext, Classical.choice, Quot.sound]
'Verif.Mon.C24_tallies' depends on axioms: [propext, Classical.choice, Quot.sound]
'Verif.Mon.C24_plain_counterexample' depends on axioms: [propext, Classical.choice, Quot.sound]
'Verif.Mon.C25_duration' depends on axioms: [propext, Classical.choice, Quot.sound]
'Verif.Mon.C25_weight' depends on axioms: [propext, Classical.choice, Quot.sound]
'Verif.Mon.C25_entries' depends on axioms: [propext, Classical.choice, Quot.sound]
'Verif.Mon.C25_histogram_duration' depends on axioms: [propext, Classical.choice, Quot.sound]
'Verif.Mon.C25_histogram' depends on axioms: [propext, Classical.choice, Quot.sound]
'Verif.Mon.C25_values_duration' depends on axioms: [propext, Classical.choice, Quot.sound]
'Verif.Mon.C25_values_entries' depends on axioms: [propext, Classical.choice, Quot.sound]
'Verif.Mon.C25_autoscale' depends on axioms: [propext, Classical.choice, Quot.sound]
'Verif.Mon.C22_level' depends on axioms: [propext, Classical.choice, Quot.sound]
'Verif.Mon.C22_merges' depends on axioms: [propext, Classical.choice, Quot.sound]
'Verif.Mon.C22_plain' depends on axioms: [propext, Classical.choice, Quot.sound]
'Verif.Mon.C22_now_counterexample' depends on axioms: [propext, Classical.choice, Quot.sound]
'Verif.Mon.C22_types_counterexample' depends on axioms: [propext, Classical.choice, Quot.sound]
'Verif.Mon.C23_plain' depends on axioms: [propext, Classical.choice, Quot.sound]
'Verif.Mon.C23_level' depends on axioms: [propext, Classical.choice, Quot.sound]
'Verif.Mon.C23_history' depends on axioms: [propext, Classical.choice, Quot.sound]
'Verif.Mon.C23_off_counterexample' depends on axioms: [propext, Classical.choice, Quot.sound]
'Verif.Mon.C23_start_counterexample' depends on axioms: [propext, Classical.choice, Quot.sound]
'Verif.Mon.C23_twice_counterexample' depends on axioms: [propext, Classical.choice, Quot.sound]
'Verif.Mon.C23_offset_counterexample' depends on axioms: [propext, Classical.choice, Quot.sound]
'Verif.Mon.C23_modulo' depends on axioms: [propext, Classical.choice, Quot.sound]
'Verif.Mon.C23_modulo_level' depends on axioms: [propext, Classical.choice, Quot.sound]
'Verif.Mon.C23_windows' depends on axioms: [propext, Classical.choice, Quot.sound]
'Verif.Mon.C23_night_counterexample' depends on axioms: [propext, Classical.choice, Quot.sound]
'Verif.Mon.C23_open_counterexample' depends on axioms: [propext, Classical.choice, Quot.sound]
'Verif.Mon.C23_modulo_off_counterexample' depends on axioms: [propext, Classical.choice, Quot.sound]
'Verif.Mon.C26_x_map_level' depends on axioms: [propext, Classical.choice, Quot.sound]
'Verif.Mon.C26_x_map_plain' depends on axioms: [propext, Classical.choice, Quot.sound]
'Verif.Mon.C26_multiply' depends on axioms: [propext, Classical.choice, Quot.sound]
'Verif.Mon.C26_mean' depends on axioms: [propext, Classical.choice, Quot.sound]
'Verif.Mon.C26_t_multiply' depends on axioms: [propext, Classical.choice, Quot.sound]
'Verif.Mon.C26_weights_counterexample' depends on axioms: [propext, Classical.choice, Quot.sound]
'Verif.Mon.C26_types_counterexample' depends on axioms: [propext, Classical.choice, Quot.sound]
'Verif.Mon.C26_off_counterexample' depends on axioms: [propext, Classical.choice, Quot.sound]
'Verif.Mon.C26_t_multiply_counterexample' depends on axioms: [propext, Classical.choice, Quot.sound]
'Verif.Mon.C50_cyclic' depends on axioms: [propext, Classical.choice, Quot.sound]
'Verif.Mon.C50_plain' depends on axioms: [propext, Classical.choice, Quot.sound]
'Verif.Mon.C50_level' depends on axioms: [propext, Classical.choice, Quot.sound]
'Verif.Mon.C50_one' does not depend on any axioms
'Verif.Mon.C50_early_counterexample' depends on axioms: [propext, Classical.choice, Quot.sound]
'Verif.Mon.C50_two_counterexample' does not depend on any axioms
'Verif.Traj.C48_length' depends on axioms: [propext, Classical.choice, Quot.sound]
'Verif.Traj.C48_phases' depends on axioms: [propext, Classical.choice, Quot.sound]
'Verif.Traj.C48_top_speed' depends on axioms: [propext, Classical.choice, Quot.sound]
'Verif.Traj.C48_accepted' depends on axioms: [propext, Classical.choice, Quot.sound]
'Verif.Traj.C48_zero_counterexample' depends on axioms: [propext, Classical.choice, Quot.sound]
'Verif.Traj.C49_sums' depends on axioms: [propext, Classical.choice, Quot.sound]
'Verif.Traj.C49_follow' depends on axioms: [propext, Classical.choice, Quot.sound]
'Verif.Traj.C49_covered' depends on axioms: [propext, Classical.choice, Quot.sound]
'Verif.Traj.C49_standstill' depends on axioms: [propext, Classical.choice, Quot.sound]
'Verif.Traj.C49_polygon' depends on axioms: [propext, Classical.choice, Quot.sound]
'Verif.Traj.C49_circle' depends on axioms: [propext, Classical.choice, Quot.sound]
'Verif.Traj.C49_first' depends on axioms: [propext, Classical.choice, Quot.sound]
'Verif.Traj.C49_nested_counterexample' depends on axioms: [propext, Classical.choice, Quot.sound]
'Verif.Traj.C49_circle_counterexample' depends on axioms: [propext, Classical.choice, Quot.sound]
'Verif.Traj.C54_polygon' depends on axioms: [propext, Classical.choice, Quot.sound]
'Verif.Traj.C54_polygon_ends' depends on axioms: [propext, Classical.choice, Quot.sound]
'Verif.Traj.C54_circle' depends on axioms: [propext, Classical.choice, Quot.sound]
'Verif.Traj.C54_polygon_accepted' depends on axioms: [propext, Classical.choice, Quot.sound]
'Verif.Traj.C54_circle_accepted' depends on axioms: [propext, Classical.choice, Quot.sound]
'Verif.Traj.C54_length_counterexample' depends on axioms: [propext, Classical.choice, Quot.sound]
'Verif.C03_at_most_one' depends on axioms: [propext, Classical.choice, Quot.sound]
'Verif.C03_no_event' depends on axioms: [propext, Classical.choice, Quot.sound]
'Verif.C03_one_event' depends on axioms: [propext, Classical.choice, Quot.sound]
'Verif.C03_never' depends on axioms: [propext, Classical.choice, Quot.sound]
'Verif.C03_event_status' depends on axioms: [propext, Classical.choice, Quot.sound]
'Verif.C03_request_nothing_counterexample' depends on axioms: [propext, Classical.choice, Quot.sound]
'Verif.C03_self_preemption_counterexample' depends on axioms: [propext, Classical.choice, Quot.sound]
'Verif.C03_remaining_duration_counterexample' depends on axioms: [propext, Classical.choice, Quot.sound]
'Verif.C04_hold_refused' depends on axioms: [propext, Classical.choice, Quot.sound]
'Verif.C04_activate_refused' depends on axioms: [propext, Classical.choice, Quot.sound]
'Verif.C04_create_refused' depends on axioms: [propext, Classical.choice, Quot.sound]
'Verif.C04_run_refused' depends on axioms: [propext, Classical.choice, Quot.sound]
'Verif.C04_remaining_refused' depends on axioms: [propext, Classical.choice, Quot.sound]
'Verif.C04_resume_refused' depends on axioms: [propext, Classical.choice, Quot.sound]
'Verif.C04_hold' depends on axioms: [propext, Classical.choice, Quot.sound]
'Verif.C04_activate' depends on axioms: [propext, Classical.choice, Quot.sound]
'Verif.C04_create' depends on axioms: [propext, Classical.choice, Quot.sound]
'Verif.C04_run' depends on axioms: [propext, Classical.choice, Quot.sound]
'Verif.C04_request' depends on axioms: [propext, Classical.choice, Quot.sound]
'Verif.C04_wait' depends on axioms: [propext, Classical.choice, Quot.sound]
'Verif.C04_from_store' depends on axioms: [propext, Classical.choice, Quot.sound]
'Verif.C04_to_store' depends on axioms: [propext, Classical.choice, Quot.sound]
'Verif.C04_never_before_now' depends on axioms: [propext, Classical.choice, Quot.sound]
'Verif.C05_queue' depends on axioms: [propext, Classical.choice, Quot.sound]
'Verif.C05_hold' depends on axioms: [propext, Classical.choice, Quot.sound]
'Verif.C05_wrong_status' depends on axioms: [propext, Classical.choice, Quot.sound]
'Verif.C05_stores' depends on axioms: [propext, Classical.choice, Quot.sound]
'Verif.C05_request_wait' depends on axioms: [propext, Classical.choice, Quot.sound]
'Verif.C05_interrupt' depends on axioms: [propext, Classical.choice, Quot.sound]
'Verif.C05_hold_counterexample' depends on axioms: [propext, Classical.choice, Quot.sound]
'Verif.C05_activate_counterexample' depends on axioms: [propext, Classical.choice, Quot.sound]
'Verif.C06_exact' depends on axioms: [propext, Classical.choice, Quot.sound]
'Verif.C06_never_late' depends on axioms: [propext, Classical.choice, Quot.sound]
'Verif.C06_interrupted' depends on axioms: [propext, Classical.choice, Quot.sound]
'Verif.C06_remaining' depends on axioms: [propext, Classical.choice, Quot.sound]
'Verif.C08_nobody_forgotten' depends on axioms: [propext, Classical.choice, Quot.sound]
'Verif.C08_turn' depends on axioms: [propext, Classical.choice, Quot.sound]
'Verif.C08_event' depends on axioms: [propext, Classical.choice, Quot.sound]
'Verif.C08_in_order' depends on axioms: [propext, Classical.choice, Quot.sound]
'Verif.C08_skip_counterexample' depends on axioms: [propext, Classical.choice, Quot.sound]
'Verif.C09_moves' depends on axioms: [propext, Classical.choice, Quot.sound]
'Verif.C09_resume' depends on axioms: [propext, Classical.choice, Quot.sound]
'Verif.C09_illegal' depends on axioms: [propext, Classical.choice, Quot.sound]
'Verif.C09_others' depends on axioms: [propext, Classical.choice, Quot.sound]
'Verif.C09_untouched' depends on axioms: [propext, Classical.choice, Quot.sound]
'Verif.C09_step' depends on axioms: [propext, Classical.choice, Quot.sound]
'Verif.C09_kept_request_counterexample' depends on axioms: [propext, Classical.choice, Quot.sound]
'Verif.C10_executed' depends on axioms: [propext, Classical.choice, Quot.sound]
'Verif.C10_clock' depends on axioms: [propext, Classical.choice, Quot.sound]
'Verif.C10_stop' depends on axioms: [propext, Classical.choice, Quot.sound]
'Verif.C10_stop_default' depends on axioms: [propext, Classical.choice, Quot.sound]
'Verif.C10_till' depends on axioms: [propext, Classical.choice, Quot.sound]
'Verif.C10_duration' depends on axioms: [propext, Classical.choice, Quot.sound]
'Verif.C10_past' depends on axioms: [propext, Classical.choice, Quot.sound]
'Verif.C10_no_end' depends on axioms: [propext, Classical.choice, Quot.sound]
'Verif.C10_activate_main_counterexample' depends on axioms: [propext, Classical.choice, Quot.sound]
'Verif.C51_now' depends on axioms: [propext, Classical.choice, Quot.sound]
'Verif.C51_shift' depends on axioms: [propext, Classical.choice, Quot.sound]
'Verif.C51_ever_after' depends on axioms: [propext, Classical.choice, Quot.sound]
'Verif.C51_relative' depends on axioms: [propext, Classical.choice, Quot.sound]
'Verif.C51_monitor_get' depends on axioms: [propext, Classical.choice, Quot.sound]
'Verif.C51_slice_counterexample' depends on axioms: [propext, Classical.choice, Quot.sound]
'Verif.C07_out' depends on axioms: [propext, Classical.choice, Quot.sound]
'Verif.C07_data' depends on axioms: [propext, Classical.choice, Quot.sound]
'Verif.C07_others_keep' depends on axioms: [propext, Classical.choice, Quot.sound]
'Verif.C07_lowered' depends on axioms: [propext, Classical.choice, Quot.sound]
'Verif.C07_nobody_waits' depends on axioms: [propext, Classical.choice, Quot.sound]
'Verif.C07_unyielded_counterexample' depends on axioms: [propext, Classical.choice, Quot.sound]
'Verif.C33_wait' depends on axioms: [propext, Classical.choice, Quot.sound]
'Verif.C33_wait_for' depends on axioms: [propext, Classical.choice, Quot.sound]
'Verif.C33_condition_stays' depends on axioms: [propext, Classical.choice, Quot.sound]
'Verif.C33_nobody_missed' depends on axioms: [propext, Classical.choice, Quot.sound]
'Verif.C33_set' depends on axioms: [propext, Classical.choice, Quot.sound]
'Verif.C33_interrupted_counterexample' depends on axioms: [propext, Classical.choice, Quot.sound]
'Verif.C34_trigger_all' depends on axioms: [propext, Classical.choice, Quot.sound]
'Verif.C34_trigger_max' depends on axioms: [propext, Classical.choice, Quot.sound]
'Verif.C34_first_n' depends on axioms: [propext, Classical.choice, Quot.sound]
'Verif.C34_at_most' depends on axioms: [propext, Classical.choice, Quot.sound]
'Verif.C34_value_after_counterexample' depends on axioms: [propext, Classical.choice, Quot.sound]
'Verif.C34_max_zero_counterexample' depends on axioms: [propext, Classical.choice, Quot.sound]
'Verif.C35_turnover' depends on axioms: [propext, Classical.choice, Quot.sound]
'Verif.C35_story' depends on axioms: [propext, Classical.choice, Quot.sound]
'Verif.C35_conservation' depends on axioms: [propext, Classical.choice, Quot.sound]
'Verif.C35_capacity' depends on axioms: [propext, Classical.choice, Quot.sound]
'Verif.C35_rescan_counterexample' depends on axioms: [propext, Classical.choice, Quot.sound]
'Verif.C36_from_store' depends on axioms: [propext, Classical.choice, Quot.sound]
'Verif.C36_from_store_key' depends on axioms: [propext, Classical.choice, Quot.sound]
'Verif.C36_from_store_keys' depends on axioms: [propext, Classical.choice, Quot.sound]
'Verif.C36_enter' depends on axioms: [propext, Classical.choice, Quot.sound]
'Verif.C36_leave' depends on axioms: [propext, Classical.choice, Quot.sound]
'Verif.C36_to_store' depends on axioms: [propext, Classical.choice, Quot.sound]
'Verif.C36_enter_returns' depends on axioms: [propext, Classical.choice, Quot.sound]
'Verif.C36_to_store_returns' depends on axioms: [propext, Classical.choice, Quot.sound]
'Verif.C36_from_store_returns' depends on axioms: [propext, Classical.choice, Quot.sound]
'Verif.C36_key_counterexample' depends on axioms: [propext, Classical.choice, Quot.sound]
'Verif.C36_recursion' depends on axioms: [propext, Classical.choice, Quot.sound]
'Verif.C36_recursion_counterexample' depends on axioms: [propext, Classical.choice, Quot.sound]
'Verif.Generator.C42_iat' depends on axioms: [propext, Classical.choice, Quot.sound]
'Verif.Generator.C42_iat_ends' depends on axioms: [propext, Classical.choice, Quot.sound]
'Verif.Generator.C42_iat_order' depends on axioms: [propext, Classical.choice, Quot.sound]
'Verif.Generator.C42_equidistant' depends on axioms: [propext, Classical.choice, Quot.sound]
'Verif.Generator.C42_disturbance' depends on axioms: [propext, Classical.choice, Quot.sound]
'Verif.Generator.C42_moments' depends on axioms: [propext, Classical.choice, Quot.sound]
'Verif.Generator.C42_spread' depends on axioms: [propext, Classical.choice, Quot.sound]
'Verif.Generator.C42_nothing' depends on axioms: [propext, Classical.choice, Quot.sound]
'Verif.Generator.C42_iat_starts' depends on axioms: [propext, Classical.choice, Quot.sound]
'Verif.Generator.C42_equidistant_starts' depends on axioms: [propext, Classical.choice, Quot.sound]
'Verif.Generator.C42_moments_starts' depends on axioms: [propext, Classical.choice, Quot.sound]
'Verif.Generator.C42_spread_starts' depends on axioms: [propext, Classical.choice, Quot.sound]
'Verif.Generator.C42_equidistant_disturbance_counterexample' depends on axioms: [propext, Classical.choice, Quot.sound]
'Verif.Generator.C42_disturbance_counterexample' depends on axioms: [propext, Classical.choice, Quot.sound]
'Verif.Generator.C42_force_at_counterexample' depends on axioms: [propext, Classical.choice, Quot.sound]
'Verif.Generator.C42_spread_duration_counterexample' depends on axioms: [propext, Classical.choice, Quot.sound]
'Verif.Generator.C42_reset_counterexample' depends on axioms: [propext, Classical.choice, Quot.sound]
'Verif.C29_served_partial' depends on axioms: [propext, Classical.choice, Quot.sound]
'Verif.C29_after_partial' depends on axioms: [propext, Classical.choice, Quot.sound]
'Verif.C29_first_in_line' depends on axioms: [propext, Classical.choice, Quot.sound]
'Verif.C29_short' depends on axioms: [propext, Classical.choice, Quot.sound]
'Verif.C29_first_counterexample' depends on axioms: [propext, Classical.choice, Quot.sound]
'Verif.C29_highest_counterexample' depends on axioms: [propext, Classical.choice, Quot.sound]
'Verif.C29_interrupted_counterexample' depends on axioms: [propext, Classical.choice, Quot.sound]
'Verif.C29_resumed_counterexample' depends on axioms: [propext, Classical.choice, Quot.sound]
'Verif.C29_preemptive_counterexample' depends on axioms: [propext, Classical.choice, Quot.sound]
'Verif.C32_bumped_partial' depends on axioms: [propext, Classical.choice, Quot.sound]
'Verif.C32_only_lower_partial' depends on axioms: [propext, Classical.choice, Quot.sound]
'Verif.C32_fits' depends on axioms: [propext, Classical.choice, Quot.sound]
'Verif.C32_lowest' depends on axioms: [propext, Classical.choice, Quot.sound]
'Verif.C32_more_counterexample' depends on axioms: [propext, Classical.choice, Quot.sound]
'Verif.C32_in_vain_counterexample' depends on axioms: [propext, Classical.choice, Quot.sound]
'Verif.C32_self_counterexample' depends on axioms: [propext, Classical.choice, Quot.sound]
'Verif.C55_higher' depends on axioms: [propext, Classical.choice, Quot.sound]
'Verif.C55_lower' depends on axioms: [propext, Classical.choice, Quot.sound]
'Verif.C55_fraction_counterexample' depends on axioms: [propext, Classical.choice, Quot.sound]
'Verif.Mon.C56_statistics' depends on axioms: [propext, Classical.choice, Quot.sound]
'Verif.Mon.C56_stored' depends on axioms: [propext, Classical.choice, Quot.sound]
'Verif.Mon.C56_counts' depends on axioms: [propext, Classical.choice, Quot.sound]
'Verif.Mon.C56_percentile' depends on axioms: [propext, Classical.choice, Quot.sound]
'Verif.Distr.C57_uniform' depends on axioms: [propext, Classical.choice, Quot.sound]
'Verif.Distr.C57_int_uniform' depends on axioms: [propext, Classical.choice, Quot.sound]
'Verif.Distr.C57_cdf' depends on axioms: [propext, Classical.choice, Quot.sound]
'Verif.Distr.C57_pdf' depends on axioms: [propext, Classical.choice, Quot.sound]
'Verif.Distr.C57_cum_pdf' depends on axioms: [propext, Classical.choice, Quot.sound]
'Verif.Distr.C57_arithmetic' depends on axioms: [propext, Classical.choice, Quot.sound]
'Verif.C58_gives_up' depends on axioms: [propext, Classical.choice, Quot.sound]
'Verif.C58_kept' depends on axioms: [propext, Classical.choice, Quot.sound]
'Verif.C59_until_event' depends on axioms: [propext, Classical.choice, Quot.sound]
'Verif.C59_passivate' depends on axioms: [propext, Classical.choice, Quot.sound]
'Verif.C59_frozen' depends on axioms: [propext, Classical.choice, Quot.sound]
'Verif.C59_set' depends on axioms: [propext, Classical.choice, Quot.sound]
'Verif.C59_hold_interrupted' depends on axioms: [propext, Classical.choice, Quot.sound]
'Verif.C59_passive_again_counterexample' depends on axioms: [propext, Classical.choice, Quot.sound]
'Verif.C59_interrupted_counterexample' depends on axioms: [propext, Classical.choice, Quot.sound]
'Verif.Mon.C60_weighted' depends on axioms: [propext, Classical.choice, Quot.sound]
'Verif.Mon.C60_plain' depends on axioms: [propext, Classical.choice, Quot.sound]
'Verif.Mon.C60_exact_counterexample' depends on axioms: [propext, Classical.choice, Quot.sound]
'Verif.Mon.C60_zero_weight_counterexample' depends on axioms: [propext, Classical.choice, Quot.sound]
'Verif.Traj.C61_polygon' depends on axioms: [propext, Classical.choice, Quot.sound]
'Verif.Traj.C61_circle' depends on axioms: [propext, Classical.choice, Quot.sound]
'Verif.Traj.C61_standstill' depends on axioms: [propext, Classical.choice, Quot.sound]
'Verif.Traj.C61_in_trajectory' depends on axioms: [propext, Classical.choice, Quot.sound]
'Verif.Traj.C61_in_polygon' depends on axioms: [propext, Classical.choice, Quot.sound]
'Verif.C62_leave' depends on axioms: [propext, Classical.choice, Quot.sound]
'Verif.C62_enter' depends on axioms: [propext, Classical.choice, Quot.sound]
'Verif.C62_from_store' depends on axioms: [propext, Classical.choice, Quot.sound]
'Verif.C62_to_store' depends on axioms: [propext, Classical.choice, Quot.sound]
'Verif.C63_hold' depends on axioms: [propext, Classical.choice, Quot.sound]
'Verif.C63_passivate' depends on axioms: [propext, Classical.choice, Quot.sound]
'Verif.C63_activate' depends on axioms: [propext, Classical.choice, Quot.sound]
'Verif.C63_create' depends on axioms: [propext, Classical.choice, Quot.sound]
'Verif.C63_interrupt' depends on axioms: [propext, Classical.choice, Quot.sound]
'Verif.C63_resume' depends on axioms: [propext, Classical.choice, Quot.sound]
'Verif.C63_standby' depends on axioms: [propext, Classical.choice, Quot.sound]
'Verif.C63_remaining' depends on axioms: [propext, Classical.choice, Quot.sound]
'Verif.C63_run' depends on axioms: [propext, Classical.choice, Quot.sound]
'Verif.C63_step' depends on axioms: [propext, Classical.choice, Quot.sound]
'Verif.C63_state' depends on axioms: [propext, Classical.choice, Quot.sound]
'Verif.C63_wait' depends on axioms: [propext, Classical.choice, Quot.sound]
'Verif.C63_waitFor' depends on axioms: [propext, Classical.choice, Quot.sound]
'Verif.C63_fromStore_wait' depends on axioms: [propext, Classical.choice, Quot.sound]
'Verif.C63_fromStore_take' depends on axioms: [propext, Classical.choice, Quot.sound]
'Verif.C63_toStore' depends on axioms: [propext, Classical.choice, Quot.sound]
'Verif.C63_end' depends on axioms: [propext, Classical.choice, Quot.sound]
'Verif.Chain.C64_slice' depends on axioms: [propext, Classical.choice, Quot.sound]
'Verif.Chain.C64_delete_slice' depends on axioms: [propext, Classical.choice, Quot.sound]
'Verif.Chain.C64_delete' depends on axioms: [propext, Classical.choice, Quot.sound]
'Verif.Chain.C64_pop' depends on axioms: [propext, Classical.choice, Quot.sound]
'Verif.Chain.C64_pop_counterexample' depends on axioms: [propext, Classical.choice, Quot.sound]
'Verif.C65_request' depends on axioms: [propext, Classical.choice, Quot.sound]
'Verif.C65_from_store' depends on axioms: [propext, Classical.choice, Quot.sound]
'Verif.C65_to_store' depends on axioms: [propext, Classical.choice, Quot.sound]
'Verif.C65_wait' depends on axioms: [propext, Classical.choice, Quot.sound]
'Verif.C65_wait_for' depends on axioms: [propext, Classical.choice, Quot.sound]
'Verif.C65_claim' depends on axioms: [propext, Classical.choice, Quot.sound]
'Verif.C66_unmixed' depends on axioms: [propext, Classical.choice, Quot.sound]
'Verif.C66_set_capacity' depends on axioms: [propext, Classical.choice, Quot.sound]
'Verif.C66_release_anonymous' depends on axioms: [propext, Classical.choice, Quot.sound]
'Verif.C66_release_resource' depends on axioms: [propext, Classical.choice, Quot.sound]
'Verif.C66_release' depends on axioms: [propext, Classical.choice, Quot.sound]
'Verif.C66_release_all' depends on axioms: [propext, Classical.choice, Quot.sound]
'Verif.C66_cancel' depends on axioms: [propext, Classical.choice, Quot.sound]
'Verif.C66_end' depends on axioms: [propext, Classical.choice, Quot.sound]
'Verif.C66_request' depends on axioms: [propext, Classical.choice, Quot.sound]
'Verif.C66_release_counterexample' depends on axioms: [propext, Classical.choice, Quot.sound]
'Verif.C67_release' depends on axioms: [propext, Classical.choice, Quot.sound]
'Verif.C67_several' depends on axioms: [propext, Classical.choice, Quot.sound]
'Verif.C67_all' depends on axioms: [propext, Classical.choice, Quot.sound]
'Verif.C67_anonymous' depends on axioms: [propext, Classical.choice, Quot.sound]
'Verif.C67_set_capacity' depends on axioms: [propext, Classical.choice, Quot.sound]
'Verif.C67_resource' depends on axioms: [propext, Classical.choice, Quot.sound]
'Verif.C67_resource_nobody_waits' depends on axioms: [propext, Classical.choice, Quot.sound]
'Verif.C67_resource_counterexample' depends on axioms: [propext, Classical.choice, Quot.sound]
'Verif.C68_pending' depends on axioms: [propext, Classical.choice, Quot.sound]
'Verif.C68_priority_none' depends on axioms: [propext, Quot.sound]
'Verif.C68_inf' depends on axioms: [propext, Classical.choice, Quot.sound]
'Verif.C68_none' depends on axioms: [propext, Classical.choice, Quot.sound]
'Verif.C68_becomes' depends on axioms: [propext, Classical.choice, Quot.sound]
'Verif.C68_interrupted_counterexample' depends on axioms: [propext, Classical.choice, Quot.sound]
'Verif.C68_standby_counterexample' depends on axioms: [propext, Classical.choice, Quot.sound]
'Verif.C69_next' depends on axioms: [propext, Classical.choice, Quot.sound]
'Verif.C69_inf' depends on axioms: [propext, Classical.choice, Quot.sound]
'Verif.C69_first' depends on axioms: [propext, Classical.choice, Quot.sound]
'Verif.C69_skip_counterexample' depends on axioms: [propext, Classical.choice, Quot.sound]
'Verif.C69_reset_counterexample' depends on axioms: [propext, Classical.choice, Quot.sound]
'Verif.C70_now' depends on axioms: [propext, Classical.choice, Quot.sound]
'Verif.C70_occupancy' depends on axioms: [propext, Classical.choice, Quot.sound]
'Verif.C70_history' depends on axioms: [propext, Classical.choice, Quot.sound]
'Verif.C70_occupancy_counterexample' depends on axioms: [propext, Classical.choice, Quot.sound]
'Verif.C71_asked' depends on axioms: [propext, Classical.choice, Quot.sound]
'Verif.C71_failed' depends on axioms: [propext, Classical.choice, Quot.sound]
'Verif.C71_others' depends on axioms: [propext, Classical.choice, Quot.sound]
'Verif.C71_bumped' depends on axioms: [propext, Classical.choice, Quot.sound]
'Verif.C72_interrupted' depends on axioms: [propext, Classical.choice, Quot.sound]
'Verif.C73_origin' depends on axioms: [propext, Classical.choice, Quot.sound]
'Verif.C73_enter' depends on axioms: [propext, Classical.choice, Quot.sound]
'Verif.C73_to_store' depends on axioms: [propext, Classical.choice, Quot.sound]
'Verif.C73_leave' depends on axioms: [propext, Classical.choice, Quot.sound]
'Verif.C73_from_store' depends on axioms: [propext, Classical.choice, Quot.sound]
'Verif.C74_nothing_left' depends on axioms: [propext, Classical.choice, Quot.sound]
'Verif.C74_served' depends on axioms: [propext, Classical.choice, Quot.sound]
'Verif.Distr.C75_exponential' depends on axioms: [propext, Classical.choice, Quot.sound]
'Verif.Distr.C75_normal' depends on axioms: [propext, Classical.choice, Quot.sound]
'Verif.Distr.C75_uniform' depends on axioms: [propext, Classical.choice, Quot.sound]
'Verif.Distr.C75_triangular' depends on axioms: [propext, Classical.choice, Quot.sound]
'Verif.Distr.C75_weibull_beta' depends on axioms: [propext, Classical.choice, Quot.sound]
'Verif.Distr.C75_gamma' depends on axioms: [propext, Classical.choice, Quot.sound]
'Verif.Distr.C75_erlang' depends on axioms: [propext, Classical.choice, Quot.sound]
'Verif.Distr.C75_pdf' depends on axioms: [propext, Classical.choice, Quot.sound]
'Verif.Distr.C75_cum_pdf' depends on axioms: [propext, Classical.choice, Quot.sound]
'Verif.Distr.C75_no_mean' depends on axioms: [propext, Classical.choice, Quot.sound]
'Verif.Mon.C76_level' depends on axioms: [propext, Classical.choice, Quot.sound]
'Verif.Mon.C76_plain' depends on axioms: [propext, Classical.choice, Quot.sound]
'Verif.Mon.C77_level' depends on axioms: [propext, Classical.choice, Quot.sound]
'Verif.Mon.C77_plain' depends on axioms: [propext, Classical.choice, Quot.sound]
'Verif.Mon.C77_add_now_counterexample' depends on axioms: [propext, Classical.choice, Quot.sound]
'Verif.Mon.C78_values' depends on axioms: [propext, Classical.choice, Quot.sound]
'Verif.Mon.C78_force_counterexample' depends on axioms: [propext, Classical.choice, Quot.sound]
'Verif.Distr.C79_meaning' depends on axioms: [propext, Classical.choice, Quot.sound]
'Verif.Distr.C79_set' depends on axioms: [propext, Classical.choice, Quot.sound]
'Verif.Distr.C79_reset_now' depends on axioms: [propext, Classical.choice, Quot.sound]
'Verif.Distr.C79_text' depends on axioms: [propext, Classical.choice, Quot.sound]
'Verif.C80_single_server' depends on axioms: [propext, Classical.choice, Quot.sound]
'Verif.C80_waiting' depends on axioms: [propext, Classical.choice, Quot.sound]
'Verif.C80_one_at_a_time' depends on axioms: [propext, Classical.choice, Quot.sound]
'Verif.C81_servers' depends on axioms: [propext, Classical.choice, Quot.sound]
'Verif.C81_counter' depends on axioms: [propext, Classical.choice, Quot.sound]
'Verif.C81_one' depends on axioms: [propext, Classical.choice, Quot.sound]
'Verif.Chain.C82_arrival_rate' depends on axioms: [propext, Classical.choice, Quot.sound]
'Verif.Chain.C82_departure_rate' depends on axioms: [propext, Classical.choice, Quot.sound]
'Verif.Chain.C82_apart' depends on axioms: [propext, Classical.choice, Quot.sound]
'Verif.Chain.C83_compare' depends on axioms: [propext, Classical.choice, Quot.sound]
'Verif.Chain.C83_component_with_name' depends on axioms: [propext, Classical.choice, Quot.sound]
'Verif.C84_buffer' depends on axioms: [propext, Classical.choice, Quot.sound]
'Verif.C84_flow' depends on axioms: [propext, Classical.choice, Quot.sound]
'Verif.C84_room' depends on axioms: [propext, Classical.choice, Quot.sound]
'Verif.C84_order' depends on axioms: [propext, Classical.choice, Quot.sound]
'Verif.C85_clerk' depends on axioms: [propext, Classical.choice, Quot.sound]
'Verif.C85_same' depends on axioms: [propext, Classical.choice, Quot.sound]
'Verif.C86_now' depends on axioms: [propext, Classical.choice, Quot.sound]
'Verif.C86_history' depends on axioms: [propext, Classical.choice, Quot.sound]
'Verif.C86_only' depends on axioms: [propext, Classical.choice, Quot.sound]
'Verif.C86_set' depends on axioms: [propext, Classical.choice, Quot.sound]
'Verif.C86_trigger' depends on axioms: [propext, Classical.choice, Quot.sound]
'Verif.C87_clerks' depends on axioms: [propext, Classical.choice, Quot.sound]
'Verif.C87_same' depends on axioms: [propext, Classical.choice, Quot.sound]
'Verif.C88_once' depends on axioms: [propext, Classical.choice, Quot.sound]
'Verif.C88_taken' depends on axioms: [propext, Classical.choice, Quot.sound]
'Verif.C89_claims' depends on axioms: [propext, Classical.choice, Quot.sound]
'Verif.C89_requests' depends on axioms: [propext, Classical.choice, Quot.sound]
'Verif.C89_idle' depends on axioms: [propext, Classical.choice, Quot.sound]
'Verif.C89_zero_counterexample' depends on axioms: [propext, Classical.choice, Quot.sound]
'Verif.C90_in_rank' depends on axioms: [propext, Classical.choice, Quot.sound]
'Verif.C90_never_passes' depends on axioms: [propext, Classical.choice, Quot.sound]
'Verif.C91_unit' depends on axioms: [propext, Classical.choice, Quot.sound]
'Verif.C91_statistics' depends on axioms: [propext, Classical.choice, Quot.sound]
'Verif.C91_from_the_start' depends on axioms: [propext, Classical.choice, Quot.sound]
'Verif.C91_models' depends on axioms: [propext, Classical.choice, Quot.sound]
'Verif.Poisson.C92_make' depends on axioms: [propext, Classical.choice, Quot.sound]
'Verif.Poisson.C92_sample' depends on axioms: [propext, Classical.choice, Quot.sound]
'Verif.Poisson.C92_law' depends on axioms: [propext, Classical.choice, Quot.sound]
'Verif.Poisson.C92_fallback' depends on axioms: [propext, Classical.choice, Quot.sound]
'Verif.Poisson.C92_fallback_counterexample' depends on axioms: [propext, Classical.choice, Quot.sound]
'Verif.DistSpec.C93_names' depends on axioms: [propext, Classical.choice, Quot.sound]
'Verif.DistSpec.C93_plain' depends on axioms: [propext, Classical.choice, Quot.sound]
'Verif.DistSpec.C93_other' depends on axioms: [propext, Classical.choice, Quot.sound]
'Verif.DistSpec.C93_unit' depends on axioms: [propext, Classical.choice, Quot.sound]
'Verif.DistSpec.C93_counterexample' depends on axioms: [propext, Classical.choice, Quot.sound]
'Verif.Spline.C94_bezier' depends on axioms: [propext, Classical.choice, Quot.sound]
'Verif.Spline.C94_bezier_shape' depends on axioms: [propext, Classical.choice, Quot.sound]
'Verif.Spline.C94_catmull_rom' depends on axioms: [propext, Classical.choice, Quot.sound]
'Verif.Spline.C94_unique' depends on axioms: [propext, Classical.choice, Quot.sound]
'Verif.Spline.C94_apply' depends on axioms: [propext, Classical.choice, Quot.sound]
'Verif.Spline.C94_polygon' depends on axioms: [propext, Classical.choice, Quot.sound]
'Verif.Spline.C94_straight' depends on axioms: [propext, Classical.choice, Quot.sound]
'Verif.Spline.C94_counterexample' depends on axioms: [propext, Classical.choice, Quot.sound]
'Verif.RegPolygon.C95_corners' depends on axioms: [propext, Classical.choice, Quot.sound]
'Verif.RegPolygon.C95_regular' depends on axioms: [propext, Classical.choice, Quot.sound]
'Verif.RegPolygon.C95_counterexample' depends on axioms: [propext, Classical.choice, Quot.sound]
'Verif.Distr.C96_law' depends on axioms: [propext, Classical.choice, Quot.sound]
'Verif.Distr.C96_samples' depends on axioms: [propext, Classical.choice, Quot.sound]
'Verif.C97_roles' depends on axioms: [propext, Classical.choice, Quot.sound]
'Verif.C97_from_the_start' depends on axioms: [propext, Classical.choice, Quot.sound]
'Verif.C97_models' depends on axioms: [propext, Classical.choice, Quot.sound]
'Verif.Mon.C98_values' depends on axioms: [propext, Classical.choice, Quot.sound]
'Verif.Mon.C98_refused' depends on axioms: [propext, Classical.choice, Quot.sound]
'Verif.Mon.C98_types_counterexample' depends on axioms: [propext, Classical.choice, Quot.sound]
'Verif.Mon.C98_offset_counterexample' depends on axioms: [propext, Classical.choice, Quot.sound]
'Verif.Reg.C99_register' depends on axioms: [propext, Classical.choice, Quot.sound]
'Verif.Reg.C99_history' depends on axioms: [propext, Classical.choice, Quot.sound]
'Verif.Reg.C99_queues_counterexample' depends on axioms: [propext, Classical.choice, Quot.sound]
'Verif.Reg.C99_monitors_counterexample' depends on axioms: [propext, Classical.choice, Quot.sound]
'Verif.Reg.C100_queue' depends on axioms: [propext, Classical.choice, Quot.sound]
'Verif.Reg.C100_all' depends on axioms: [propext, Classical.choice, Quot.sound]
'Verif.Reg.C100_exclude_counterexample' depends on axioms: [propext, Classical.choice, Quot.sound]
'Verif.Color.C101_roundtrip' depends on axioms: [propext, Classical.choice, Quot.sound]
'Verif.Color.C101_hash' depends on axioms: [propext, Classical.choice, Quot.sound]
'Verif.Color.C101_name' depends on axioms: [propext, Classical.choice, Quot.sound]
'Verif.Color.C101_fg_bg_pair' depends on axioms: [propext]
'Verif.Color.C101_tuple' depends on axioms: [propext]
'Verif.Color.C101_refused' depends on axioms: [propext, Classical.choice, Quot.sound]
'Verif.Color.C101_blanks' depends on axioms: [propext, Quot.sound]
'Verif.Color.C101_interpolate_same' depends on axioms: [propext, Classical.choice, Quot.sound]
'Verif.Color.C101_dark' depends on axioms: [propext, Classical.choice, Quot.sound]
'Verif.Color.C101_interpolate' depends on axioms: [propext, Classical.choice, Quot.sound]
'Verif.Color.C101_interpolate_order' depends on axioms: [propext, Classical.choice, Quot.sound]
'Verif.Color.C101_contrast' depends on axioms: [propext, Classical.choice, Quot.sound]
'Verif.Color.C101_endless_counterexample' depends on axioms: [propext, Classical.choice, Quot.sound]
'Verif.Color.C101_sign_counterexample' depends on axioms: [propext]
'Verif.C102_order' depends on axioms: [propext, Classical.choice, Quot.sound]
'Verif.C102_from_the_start' depends on axioms: [propext, Classical.choice, Quot.sound]
'Verif.C102_models' depends on axioms: [propext, Classical.choice, Quot.sound]
'Verif.C102_shift_counterexample' depends on axioms: [propext, Classical.choice, Quot.sound]
'Verif.ItemValue.C103_float' depends on axioms: [propext, Classical.choice, Quot.sound]
'Verif.ItemValue.C103_int' depends on axioms: [propext, Classical.choice, Quot.sound]
'Verif.ItemValue.C103_bool' depends on axioms: [propext, Classical.choice, Quot.sound]
'Verif.ItemValue.C103_special' depends on axioms: [propext, Classical.choice, Quot.sound]
'Verif.ItemValue.C103_underscore' depends on axioms: [propext, Classical.choice, Quot.sound]
'Verif.ItemValue.C103_underscore_refused' depends on axioms: [propext, Classical.choice, Quot.sound]
'Verif.ItemValue.C103_agree' depends on axioms: [propext, Classical.choice, Quot.sound]
'Verif.ItemValue.C103_each' depends on axioms: [propext, Classical.choice, Quot.sound]
'Verif.ItemValue.C103_file' depends on axioms: [propext, Classical.choice, Quot.sound]
'Verif.ItemValue.C103_comma_counterexample' depends on axioms: [propext, Classical.choice, Quot.sound]
'Verif.ItemValue.C103_tiny_counterexample' depends on axioms: [propext, Classical.choice, Quot.sound]
'Verif.View.C104_roundtrip' depends on axioms: [propext, Classical.choice, Quot.sound]
'Verif.View.C104_corners' depends on axioms: [propext, Classical.choice, Quot.sound]
'Verif.View.C104_anchors' depends on axioms: [propext, Classical.choice, Quot.sound]
'Verif.View.C104_anchors_fixed' depends on axioms: [propext, Classical.choice, Quot.sound]
'Verif.View.C104_wheel' depends on axioms: [propext, Classical.choice, Quot.sound]
'Verif.View.C104_zoomed' depends on axioms: [propext, Classical.choice, Quot.sound]
'Verif.View.C104_pan' depends on axioms: [propext, Classical.choice, Quot.sound]
'Verif.View.C104_unzoom' depends on axioms: [propext, Classical.choice, Quot.sound]
'Verif.View.C104_wheel_counterexample' depends on axioms: [propext, Classical.choice, Quot.sound]
'Verif.View.C104_back_counterexample' depends on axioms: [propext, Classical.choice, Quot.sound]
'Verif.View.C104_pan_counterexample' depends on axioms: [propext, Classical.choice, Quot.sound]
'Verif.AnimClock.C105_shown' depends on axioms: [propext, Classical.choice, Quot.sound]
'Verif.AnimClock.C105_forward' depends on axioms: [propext, Classical.choice, Quot.sound]
'Verif.AnimClock.C105_rate' depends on axioms: [propext, Classical.choice, Quot.sound]
'Verif.AnimClock.C105_buttons' depends on axioms: [propext, Classical.choice, Quot.sound]
'Verif.AnimClock.C105_unsynced' depends on axioms: [propext, Classical.choice, Quot.sound]
'Verif.AnimClock.C105_step' depends on axioms: [propext, Classical.choice, Quot.sound]
'Verif.AnimClock.C105_single' depends on axioms: [propext, Classical.choice, Quot.sound]
'Verif.AnimClock.C105_kernel' depends on axioms: [propext, Classical.choice, Quot.sound]
'Verif.AnimClock.C105_button_counterexample' depends on axioms: [propext, Classical.choice, Quot.sound]
'Verif.Tween.C106_smooth' depends on axioms: [propext, Classical.choice, Quot.sound]
'Verif.Tween.C106_no_jump' depends on axioms: [propext, Classical.choice, Quot.sound]
'Verif.Tween.C106_line' depends on axioms: [propext, Classical.choice, Quot.sound]
'Verif.Tween.C106_arrives' depends on axioms: [propext, Classical.choice, Quot.sound]
'Verif.Tween.C106_rest' depends on axioms: [propext, Classical.choice, Quot.sound]
'Verif.Tween.C106_past' depends on axioms: [propext, Classical.choice, Quot.sound]
'Verif.Tween.C106_never' depends on axioms: [propext, Classical.choice, Quot.sound]
'Verif.Tween.C106_create' depends on axioms: [propext, Classical.choice, Quot.sound]
'Verif.Tween.C106_given' depends on axioms: [propext, Classical.choice, Quot.sound]
'Verif.Tween.C106_now_counterexample' depends on axioms: [propext, Classical.choice, Quot.sound]
'Verif.QueueAnim.C107_shown' depends on axioms: [propext, Classical.choice, Quot.sound]
'Verif.QueueAnim.C107_place' depends on axioms: [propext, Classical.choice, Quot.sound]
'Verif.QueueAnim.C107_apart' depends on axioms: [propext, Classical.choice, Quot.sound]
'Verif.QueueAnim.C107_objects' depends on axioms: [propext, Classical.choice, Quot.sound]
'Verif.QueueAnim.C107_count' depends on axioms: [propext, Classical.choice, Quot.sound]
'Verif.QueueAnim.C107_kept' depends on axioms: [propext, Classical.choice, Quot.sound]
'Verif.QueueAnim.C107_remove' depends on axioms: [propext, Classical.choice, Quot.sound]
'Verif.QueueAnim.C107_show_counterexample' depends on axioms: [propext, Classical.choice, Quot.sound]
'Verif.Movie.C108_frame' depends on axioms: [propext, Classical.choice, Quot.sound]
'Verif.Movie.C108_nothing' depends on axioms: [propext, Classical.choice, Quot.sound]
'Verif.Movie.C108_single' depends on axioms: [propext, Classical.choice, Quot.sound]
'Verif.Movie.C108_repeat' depends on axioms: [propext, Classical.choice, Quot.sound]
'Verif.Movie.C108_mirror' depends on axioms: [propext, Classical.choice, Quot.sound]
'Verif.Movie.C108_refused' depends on axioms: [propext, Classical.choice, Quot.sound]
'Verif.Movie.C108_screen' depends on axioms: [propext, Classical.choice, Quot.sound]
'Verif.Movie.C108_end_counterexample' depends on axioms: [propext, Classical.choice, Quot.sound]
'Verif.Movie.C108_stays_counterexample' depends on axioms: [propext, Classical.choice, Quot.sound]
'Verif.Video.C109_shown' depends on axioms: [propext, Classical.choice, Quot.sound]
'Verif.Video.C109_files' depends on axioms: [propext, Classical.choice, Quot.sound]
'Verif.Video.C109_times' depends on axioms: [propext, Classical.choice, Quot.sound]
'Verif.Video.C109_forward' depends on axioms: [propext, Classical.choice, Quot.sound]
'Verif.Video.C109_spacing' depends on axioms: [propext, Classical.choice, Quot.sound]
'Verif.Video.C109_gif' depends on axioms: [propext, Classical.choice, Quot.sound]
'Verif.Video.C109_pingpong' depends on axioms: [propext, Quot.sound]
'Verif.Video.C109_params_counterexample' depends on axioms: [propext, Classical.choice, Quot.sound]
'Verif.Pad.C110_inside' depends on axioms: [propext, Classical.choice, Quot.sound]
'Verif.Pad.C110_middle' depends on axioms: [propext, Classical.choice, Quot.sound]
'Verif.Pad.C110_scale' depends on axioms: [propext, Classical.choice, Quot.sound]
'Verif.Pad.C110_fills' depends on axioms: [propext, Classical.choice, Quot.sound]
'Verif.Pad.C110_refused' depends on axioms: [propext, Classical.choice, Quot.sound]
'Verif.Pad.C110_thin_counterexample' depends on axioms: [propext, Classical.choice, Quot.sound]
'Verif.Snapshots.C111_accepted' depends on axioms: [propext, Quot.sound]
'Verif.Snapshots.C111_distinct' depends on axioms: [propext, Classical.choice, Quot.sound]
'Verif.Snapshots.C111_number' depends on axioms: [propext, Classical.choice, Quot.sound]
'Verif.Snapshots.C111_removed' depends on axioms: [propext, Classical.choice, Quot.sound]
'Verif.Snapshots.C111_fresh' depends on axioms: [propext, Classical.choice, Quot.sound]
'Verif.Snapshots.C111_removed_counterexample' depends on axioms: [propext, Classical.choice, Quot.sound]
