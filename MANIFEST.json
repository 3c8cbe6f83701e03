{
 "claims": [
  {
   "property": "C01",
   "status": "proved",
   "theorems": [
    "Verif.C01_clock_monotone",
    "Verif.C01_no_event_in_past"
   ],
   "note": "all histories, also with calls that raise"
  },
  {
   "property": "C02",
   "status": "proved",
   "theorems": [
    "Verif.C02_step_takes_first_event",
    "Verif.C02_order_of_scheduling",
    "Verif.C02_hold_order",
    "Verif.C02_new_event",
    "Verif.C02_given"
   ],
   "note": "event list is modelled with CPython's heapq algorithms"
  },
  {
   "property": "C27",
   "status": "proved",
   "theorems": [
    "Verif.C27_at_least",
    "Verif.C27_claimers",
    "Verif.C27_sum",
    "Verif.C27_capacity",
    "Verif.C27_capacity_exact",
    "Verif.C27_overload",
    "Verif.C27_sum_counterexample",
    "Verif.C27_capacity_counterexample"
   ],
   "note": "all histories, also with calls that raise; counterexamples show that the provisos of the statement are needed"
  },
  {
   "property": "C28",
   "status": "proved",
   "theorems": [
    "Verif.C28_bounds",
    "Verif.C28_not_negative",
    "Verif.C28_amounts",
    "Verif.C28_granted"
   ],
   "note": "all histories"
  },
  {
   "property": "C30",
   "status": "proved",
   "theorems": [
    "Verif.C30_in_turn",
    "Verif.C30_position",
    "Verif.C30_never_overtakes",
    "Verif.C30_waits",
    "Verif.C30_not_served"
   ],
   "note": "all histories; C30_never_overtakes: no negative releases; C30_waits, C30_not_served: legal histories (Calm), resources that are not preemptive"
  },
  {
   "property": "C31",
   "status": "proved",
   "theorems": [
    "Verif.C31_all_or_nothing",
    "Verif.C31_claims_rise",
    "Verif.C31_demand",
    "Verif.C31_request",
    "Verif.C31_timeout",
    "Verif.C31_at_once"
   ],
   "note": "every call is a path of atomic steps on requests, claims and waiting lists; requests and time-outs for histories without failing calls"
  },
  {
   "property": "C11",
   "status": "proved",
   "theorems": [
    "Verif.Chain.C11_operations",
    "Verif.Chain.C11_outcome",
    "Verif.Chain.C11_observers"
   ],
   "note": "pointer level model (doubly linked Qmembers with sentinels) refines a list; any number of queues; stores excluded"
  },
  {
   "property": "C12",
   "status": "proved",
   "theorems": [
    "Verif.Chain.C12_sorted",
    "Verif.Chain.C12_new",
    "Verif.Chain.C12_fifo",
    "Verif.Chain.C12_insert_counterexample"
   ],
   "note": "also for enter_at_head/in_front_of/behind; fails for Queue.insert at the end (counterexample)"
  },
  {
   "property": "C13",
   "status": "proved",
   "theorems": [
    "Verif.Chain.C13_accounting",
    "Verif.Chain.C13_reset",
    "Verif.Chain.C13_length"
   ],
   "note": "the rates themselves: C82"
  },
  {
   "property": "C14",
   "status": "proved",
   "theorems": [
    "Verif.Chain.C14_within",
    "Verif.Chain.C14_full",
    "Verif.Chain.C14_room",
    "Verif.Chain.C14_invariant"
   ],
   "note": ""
  },
  {
   "property": "C15",
   "status": "proved",
   "theorems": [
    "Verif.Chain.C15_membership",
    "Verif.Chain.C15_only_live",
    "Verif.Chain.C15_misuse"
   ],
   "note": ""
  },
  {
   "property": "C16",
   "status": "proved",
   "theorems": [
    "Verif.Chain.C16_loop",
    "Verif.Chain.C16_once",
    "Verif.Chain.C16_plain"
   ],
   "note": "ordinary queues, not the internal queues of resources/states and stores"
  },
  {
   "property": "C17",
   "status": "proved",
   "theorems": [
    "Verif.Chain.C17_little",
    "Verif.Chain.C17_little_world"
   ],
   "note": "without monitor resets; exact arithmetic"
  },
  {
   "property": "C52",
   "status": "proved",
   "theorems": [
    "Verif.Chain.C52_union",
    "Verif.Chain.C52_intersection",
    "Verif.Chain.C52_difference",
    "Verif.Chain.C52_symmetric_difference",
    "Verif.Chain.C52_copy",
    "Verif.Chain.C52_copy_capacity",
    "Verif.Chain.C52_clear",
    "Verif.Chain.C52_move",
    "Verif.Chain.C52_extend",
    "Verif.Chain.C52_extend_ok",
    "Verif.Chain.C52_extend_clear"
   ],
   "note": "source of extend is a queue"
  },
  {
   "property": "C53",
   "status": "partial",
   "theorems": [
    "Verif.Chain.C53_available_partial",
    "Verif.Chain.C53_copy_counterexample"
   ],
   "note": "false for an empty queue made by copy(copy_capacity=True): available quantity is inf (counterexample); holds otherwise"
  },
  {
   "property": "C43",
   "status": "partial",
   "theorems": [
    "Verif.Util.C43_before_partial",
    "Verif.Util.C43_after",
    "Verif.Util.C43_infinite",
    "Verif.Util.C43_reversed",
    "Verif.Util.C43_line",
    "Verif.Util.C43_between_monotone",
    "Verif.Util.C43_elementwise",
    "Verif.Util.C43_none",
    "Verif.Util.C43_empty_interval",
    "Verif.Util.C43_empty_interval_counterexample"
   ],
   "note": "all of it for t0 != t1; with t0 = t1 the second value is returned also for t < t0 (counterexample)"
  },
  {
   "property": "C44",
   "status": "proved",
   "theorems": [
    "Verif.Util.C44_searchsorted",
    "Verif.Util.C44_insertion",
    "Verif.Util.C44_interp",
    "Verif.Util.C44_refuse"
   ],
   "note": "bisect algorithm of CPython is modelled; scalar fp; without numpy"
  },
  {
   "property": "C45",
   "status": "proved",
   "theorems": [
    "Verif.Util.C45_arange_up",
    "Verif.Util.C45_arange_down",
    "Verif.Util.C45_arange_zero_step",
    "Verif.Util.C45_linspace"
   ],
   "note": "exact arithmetic; with step 0 arange does not end"
  },
  {
   "property": "C46",
   "status": "partial",
   "theorems": [
    "Verif.Util.C46_base",
    "Verif.Util.C46_sequence",
    "Verif.Util.C46_unique_partial",
    "Verif.Util.C46_counterexample"
   ],
   "note": "sequence numbers proved; names are unique among dot names and among comma names; x. and x, collide (counterexample)"
  },
  {
   "property": "C47",
   "status": "proved",
   "theorems": [
    "Verif.Util.C47_items",
    "Verif.Util.C47_read"
   ],
   "note": "all layouts with blanks, tabs, quotes, braces, comments, CR/LF"
  },
  {
   "property": "C37",
   "status": "proved",
   "theorems": [
    "Verif.Distr.C37_accepts",
    "Verif.Distr.C37_monotone",
    "Verif.Distr.C37_inverse",
    "Verif.Distr.C37_points"
   ],
   "note": "as a function of the random number r in [0,1); exact arithmetic"
  },
  {
   "property": "C38",
   "status": "partial",
   "theorems": [
    "Verif.Distr.C38_interval_partial",
    "Verif.Distr.C38_lengths",
    "Verif.Distr.C38_equal",
    "Verif.Distr.C38_mean",
    "Verif.Distr.C38_without_replacement",
    "Verif.Distr.C38_refused",
    "Verif.Distr.C38_cum_partial",
    "Verif.Distr.C38_cum_mean",
    "Verif.Distr.C38_zero_counterexample",
    "Verif.Distr.C38_distribution_counterexample",
    "Verif.Distr.C38_mean_counterexample"
   ],
   "note": "proved for every random number except 0, where the sample is the number 0 (counterexample); a distribution as value is returned unsampled if the probabilities are equal, and its mean is taken in the wrong time unit (counterexamples)"
  },
  {
   "property": "C39",
   "status": "proved",
   "theorems": [
    "Verif.Distr.C39_outcome",
    "Verif.Distr.C39_respects",
    "Verif.Distr.C39_crossed",
    "Verif.Distr.C39_default_fail",
    "Verif.Distr.C39_bounded_sample"
   ],
   "note": "any distribution to be bounded, any stream"
  },
  {
   "property": "C40",
   "status": "proved",
   "theorems": [
    "Verif.Distr.C40_sample",
    "Verif.Distr.C40_mean",
    "Verif.Distr.C40_constant",
    "Verif.Distr.C40_no_mean",
    "Verif.Distr.C40_operators",
    "Verif.Distr.C40_makes",
    "Verif.Distr.C40_map"
   ],
   "note": "any expression tree; pow is a parameter"
  },
  {
   "property": "C41",
   "status": "partial",
   "theorems": [
    "Verif.Distr.C41_meaning",
    "Verif.Distr.C41_round_trip",
    "Verif.Distr.C41_via",
    "Verif.Distr.C41_no_unit",
    "Verif.Distr.C41_scaling_partial",
    "Verif.Distr.C41_cdf",
    "Verif.Distr.C41_pdf",
    "Verif.Distr.C41_cumpdf",
    "Verif.Distr.C41_constant_sample",
    "Verif.Distr.C41_constant_counterexample",
    "Verif.Distr.C41_erlang_counterexample"
   ],
   "note": "false for the mean of Constant and for Erlang (counterexamples); proved for the other distributions"
  },
  {
   "property": "C18",
   "status": "proved",
   "theorems": [
    "Verif.Mon.C18_value_at",
    "Verif.Mon.C18_value_now",
    "Verif.Mon.C18_value_before"
   ],
   "note": "any history of tallies, switching and resets; offsets of the environment included"
  },
  {
   "property": "C19",
   "status": "proved",
   "theorems": [
    "Verif.Mon.C19_duration",
    "Verif.Mon.C19_duration_zero",
    "Verif.Mon.C19_mean",
    "Verif.Mon.C19_variance",
    "Verif.Mon.C19_value_duration",
    "Verif.Mon.C19_bin_duration"
   ],
   "note": "against an independent integral of the signal; the standard deviation is stated before the square root"
  },
  {
   "property": "C20",
   "status": "partial",
   "theorems": [
    "Verif.Mon.C20_plain",
    "Verif.Mon.C20_level_partial",
    "Verif.Mon.C20_weight_zero_counterexample",
    "Verif.Mon.C20_level_counterexample"
   ],
   "note": "proved for non level monitors with positive weights, and for mean and standard deviation (and the duration after reading these) of level monitors; the rest is false: counterexamples"
  },
  {
   "property": "C21",
   "status": "partial",
   "theorems": [
    "Verif.Mon.C21_sums",
    "Verif.Mon.C21_level_partial",
    "Verif.Mon.C21_plain",
    "Verif.Mon.C21_counterexample"
   ],
   "note": "proved for non level monitors and for all sums over level monitors; the cached lists themselves may be stale after switching off: counterexample"
  },
  {
   "property": "C24",
   "status": "proved",
   "theorems": [
    "Verif.Mon.C24_ends",
    "Verif.Mon.C24_weighted",
    "Verif.Mon.C24_weighted_monotone",
    "Verif.Mon.C24_plain",
    "Verif.Mon.C24_plain_monotone",
    "Verif.Mon.C24_level",
    "Verif.Mon.C24_tallies",
    "Verif.Mon.C24_plain_counterexample"
   ],
   "note": "all percentile functions on any list of values and weights, and for the monitors of any history; the counterexample shows why the unweighted case is over n-1 entries"
  },
  {
   "property": "C25",
   "status": "proved",
   "theorems": [
    "Verif.Mon.C25_duration",
    "Verif.Mon.C25_weight",
    "Verif.Mon.C25_entries",
    "Verif.Mon.C25_histogram_duration",
    "Verif.Mon.C25_histogram",
    "Verif.Mon.C25_values_duration",
    "Verif.Mon.C25_values_entries",
    "Verif.Mon.C25_autoscale"
   ],
   "note": "any ascending list of boundaries, the bins of print_histogram, the values, and the automatic scaling"
  },
  {
   "property": "C22",
   "status": "proved",
   "theorems": [
    "Verif.Mon.C22_level",
    "Verif.Mon.C22_merges",
    "Verif.Mon.C22_plain",
    "Verif.Mon.C22_now_counterexample",
    "Verif.Mon.C22_types_counterexample"
   ],
   "note": "any number of monitors, each with any history; the counterexamples show why now itself and mixed typed monitors are excluded"
  },
  {
   "property": "C23",
   "status": "proved",
   "theorems": [
    "Verif.Mon.C23_plain",
    "Verif.Mon.C23_level",
    "Verif.Mon.C23_history",
    "Verif.Mon.C23_off_counterexample",
    "Verif.Mon.C23_start_counterexample",
    "Verif.Mon.C23_twice_counterexample",
    "Verif.Mon.C23_offset_counterexample",
    "Verif.Mon.C23_modulo",
    "Verif.Mon.C23_modulo_level",
    "Verif.Mon.C23_windows",
    "Verif.Mon.C23_night_counterexample",
    "Verif.Mon.C23_open_counterexample",
    "Verif.Mon.C23_modulo_off_counterexample"
   ],
   "note": "slices with a start; slices with a modulo of level monitors: those that were never off, when no window is open at the moment of slicing (otherwise the counterexamples)"
  },
  {
   "property": "C26",
   "status": "proved",
   "theorems": [
    "Verif.Mon.C26_x_map_level",
    "Verif.Mon.C26_x_map_plain",
    "Verif.Mon.C26_multiply",
    "Verif.Mon.C26_mean",
    "Verif.Mon.C26_t_multiply",
    "Verif.Mon.C26_weights_counterexample",
    "Verif.Mon.C26_types_counterexample",
    "Verif.Mon.C26_off_counterexample",
    "Verif.Mon.C26_t_multiply_counterexample"
   ],
   "note": "any function; the counterexamples show the cases excluded in the statement"
  },
  {
   "property": "C50",
   "status": "proved",
   "theorems": [
    "Verif.Mon.C50_cyclic",
    "Verif.Mon.C50_plain",
    "Verif.Mon.C50_level",
    "Verif.Mon.C50_one",
    "Verif.Mon.C50_early_counterexample",
    "Verif.Mon.C50_two_counterexample"
   ],
   "note": "the process of the period monitor is a sequence of next events at arbitrary moments"
  },
  {
   "property": "C48",
   "status": "proved",
   "theorems": [
    "Verif.Traj.C48_length",
    "Verif.Traj.C48_phases",
    "Verif.Traj.C48_top_speed",
    "Verif.Traj.C48_accepted",
    "Verif.Traj.C48_zero_counterexample"
   ],
   "note": "over the real numbers; the counterexample is a movement that is refused"
  },
  {
   "property": "C49",
   "status": "proved",
   "theorems": [
    "Verif.Traj.C49_sums",
    "Verif.Traj.C49_follow",
    "Verif.Traj.C49_covered",
    "Verif.Traj.C49_standstill",
    "Verif.Traj.C49_polygon",
    "Verif.Traj.C49_circle",
    "Verif.Traj.C49_first",
    "Verif.Traj.C49_nested_counterexample",
    "Verif.Traj.C49_circle_counterexample"
   ],
   "note": "any list of trajectory objects with durations that are not negative"
  },
  {
   "property": "C54",
   "status": "proved",
   "theorems": [
    "Verif.Traj.C54_polygon",
    "Verif.Traj.C54_polygon_ends",
    "Verif.Traj.C54_circle",
    "Verif.Traj.C54_polygon_accepted",
    "Verif.Traj.C54_circle_accepted",
    "Verif.Traj.C54_length_counterexample"
   ],
   "note": "over the real numbers; splines are not modelled"
  },
  {
   "property": "C03",
   "status": "proved",
   "theorems": [
    "Verif.C03_at_most_one",
    "Verif.C03_no_event",
    "Verif.C03_one_event",
    "Verif.C03_never",
    "Verif.C03_event_status",
    "Verif.C03_request_nothing_counterexample",
    "Verif.C03_self_preemption_counterexample",
    "Verif.C03_remaining_duration_counterexample"
   ],
   "note": "all histories of calls that return normally with the exceptions in the statement, each of which has a counterexample"
  },
  {
   "property": "C04",
   "status": "proved",
   "theorems": [
    "Verif.C04_hold_refused",
    "Verif.C04_activate_refused",
    "Verif.C04_create_refused",
    "Verif.C04_run_refused",
    "Verif.C04_remaining_refused",
    "Verif.C04_resume_refused",
    "Verif.C04_hold",
    "Verif.C04_activate",
    "Verif.C04_create",
    "Verif.C04_run",
    "Verif.C04_request",
    "Verif.C04_wait",
    "Verif.C04_from_store",
    "Verif.C04_to_store",
    "Verif.C04_never_before_now"
   ],
   "note": "refusals in every sane history (also with exceptions); the outcome of calls that return in histories without exceptions"
  },
  {
   "property": "C05",
   "status": "proved",
   "theorems": [
    "Verif.C05_queue",
    "Verif.C05_hold",
    "Verif.C05_wrong_status",
    "Verif.C05_stores",
    "Verif.C05_request_wait",
    "Verif.C05_interrupt",
    "Verif.C05_hold_counterexample",
    "Verif.C05_activate_counterexample"
   ],
   "note": "the refusals named in the statement; for hold of a scheduled component and activate in the past the claim is false (counterexamples)"
  },
  {
   "property": "C06",
   "status": "proved",
   "theorems": [
    "Verif.C06_exact",
    "Verif.C06_never_late",
    "Verif.C06_interrupted",
    "Verif.C06_remaining"
   ],
   "note": "every course of events in which only interrupt and resume are called for the component; the calls return normally"
  },
  {
   "property": "C08",
   "status": "proved",
   "theorems": [
    "Verif.C08_nobody_forgotten",
    "Verif.C08_turn",
    "Verif.C08_event",
    "Verif.C08_in_order",
    "Verif.C08_skip_counterexample"
   ],
   "note": "simulations that only use the calls of the model, none of them made for a component that is waiting to be served by the same call chain; nobody uses skip_standby, and with it the claim is false (counterexample)"
  },
  {
   "property": "C09",
   "status": "proved",
   "theorems": [
    "Verif.C09_moves",
    "Verif.C09_resume",
    "Verif.C09_illegal",
    "Verif.C09_others",
    "Verif.C09_untouched",
    "Verif.C09_step",
    "Verif.C09_kept_request_counterexample"
   ],
   "note": "C09_illegal and C09_others hold in every state; C09_moves is about calls that return, in reachable states under the conditions of Calm"
  },
  {
   "property": "C10",
   "status": "proved",
   "theorems": [
    "Verif.C10_executed",
    "Verif.C10_clock",
    "Verif.C10_stop",
    "Verif.C10_stop_default",
    "Verif.C10_till",
    "Verif.C10_duration",
    "Verif.C10_past",
    "Verif.C10_no_end",
    "Verif.C10_activate_main_counterexample"
   ],
   "note": "the processes don't touch main and make calls under the conditions of Calm; with a process activating main the run ends earlier (counterexample)"
  },
  {
   "property": "C51",
   "status": "proved",
   "theorems": [
    "Verif.C51_now",
    "Verif.C51_shift",
    "Verif.C51_ever_after",
    "Verif.C51_relative",
    "Verif.C51_monitor_get",
    "Verif.C51_slice_counterexample"
   ],
   "note": "every state, every further sequence of calls; in the calls after reset_now the absolute times are adapted; Monitor.slice with a start does not follow the shift (counterexample)"
  },
  {
   "property": "C07",
   "status": "proved",
   "theorems": [
    "Verif.C07_out",
    "Verif.C07_data",
    "Verif.C07_others_keep",
    "Verif.C07_lowered",
    "Verif.C07_nobody_waits",
    "Verif.C07_unyielded_counterexample"
   ],
   "note": "simulations under the conditions of Calm; a process that ends after a hold that isn't yielded leaves an event (counterexample)"
  },
  {
   "property": "C33",
   "status": "proved",
   "theorems": [
    "Verif.C33_wait",
    "Verif.C33_wait_for",
    "Verif.C33_condition_stays",
    "Verif.C33_nobody_missed",
    "Verif.C33_set",
    "Verif.C33_interrupted_counterexample"
   ],
   "note": "histories under the conditions of Calm in which wait isn't called for an interrupted component (counterexample) and the condition of wait_for depends on the given states only; string conditions are not modelled"
  },
  {
   "property": "C34",
   "status": "proved",
   "theorems": [
    "Verif.C34_trigger_all",
    "Verif.C34_trigger_max",
    "Verif.C34_first_n",
    "Verif.C34_at_most",
    "Verif.C34_value_after_counterexample",
    "Verif.C34_max_zero_counterexample"
   ],
   "note": "n at least 1 (with max=0 all continue: counterexample); with a value_after other than the value before, the waiters whose condition holds for that value continue as well (counterexample to at most n); conditions as for C33"
  },
  {
   "property": "C35",
   "status": "proved",
   "theorems": [
    "Verif.C35_turnover",
    "Verif.C35_story",
    "Verif.C35_conservation",
    "Verif.C35_capacity",
    "Verif.C35_rescan_counterexample"
   ],
   "note": "conservation for histories (under the conditions of Calm, with filters that may change in between) without rescan; rescan loses an item if a requester accepts two items (counterexample); capacity for histories with rescan as well, in which set_capacity doesn't set it below the number of items"
  },
  {
   "property": "C36",
   "status": "proved",
   "theorems": [
    "Verif.C36_from_store",
    "Verif.C36_from_store_key",
    "Verif.C36_from_store_keys",
    "Verif.C36_enter",
    "Verif.C36_leave",
    "Verif.C36_to_store",
    "Verif.C36_enter_returns",
    "Verif.C36_to_store_returns",
    "Verif.C36_from_store_returns",
    "Verif.C36_key_counterexample",
    "Verif.C36_recursion",
    "Verif.C36_recursion_counterexample"
   ],
   "note": "for calls that return. With a key and several stores the call raises unless the item is in the last store (counterexample); if a wanted item is waiting for room, making room never returns (counterexample); to_store by the current component"
  },
  {
   "property": "C42",
   "status": "proved",
   "theorems": [
    "Verif.Generator.C42_iat",
    "Verif.Generator.C42_iat_ends",
    "Verif.Generator.C42_iat_order",
    "Verif.Generator.C42_equidistant",
    "Verif.Generator.C42_disturbance",
    "Verif.Generator.C42_moments",
    "Verif.Generator.C42_spread",
    "Verif.Generator.C42_nothing",
    "Verif.Generator.C42_iat_starts",
    "Verif.Generator.C42_equidistant_starts",
    "Verif.Generator.C42_moments_starts",
    "Verif.Generator.C42_spread_starts",
    "Verif.Generator.C42_equidistant_disturbance_counterexample",
    "Verif.Generator.C42_disturbance_counterexample",
    "Verif.Generator.C42_force_at_counterexample",
    "Verif.Generator.C42_spread_duration_counterexample",
    "Verif.Generator.C42_reset_counterexample"
   ],
   "note": "the processes of a generator that is not scheduled by others, on a clock that was not reset (counterexample; given moments: any offset). at_end is not called for a generator with disturbance that reaches its number (counterexample) nor with number=0; a spread needs till, with duration all are at the start (counterexample); force_at needs samples that are not all the same and a number that is not a distribution giving 1 (counterexample); equidistant with disturbance is one interval late (counterexample)"
  },
  {
   "property": "C29",
   "status": "partial",
   "theorems": [
    "Verif.C29_served_partial",
    "Verif.C29_after_partial",
    "Verif.C29_first_in_line",
    "Verif.C29_short",
    "Verif.C29_first_counterexample",
    "Verif.C29_highest_counterexample",
    "Verif.C29_interrupted_counterexample",
    "Verif.C29_resumed_counterexample",
    "Verif.C29_preemptive_counterexample"
   ],
   "note": "every reachable state, for components that are not interrupted while they wait and request nothing while interrupted, and resources without honor_only_first, honor_only_highest_priority and preemption. With these rules only the first in line is shown to be served. The unrestricted statement is false in the code, see the counterexamples"
  },
  {
   "property": "C32",
   "status": "partial",
   "theorems": [
    "Verif.C32_bumped_partial",
    "Verif.C32_only_lower_partial",
    "Verif.C32_fits",
    "Verif.C32_lowest",
    "Verif.C32_more_counterexample",
    "Verif.C32_in_vain_counterexample",
    "Verif.C32_self_counterexample"
   ],
   "note": "exactly who loses a claim: the claimers of strictly lower priority, and nobody if the request fits. 'Only as many as needed' and 'nobody if it cannot be honoured' are false in the code, see the counterexamples"
  },
  {
   "property": "C55",
   "status": "proved",
   "theorems": [
    "Verif.C55_higher",
    "Verif.C55_lower",
    "Verif.C55_fraction_counterexample"
   ],
   "note": "the call is shown to return. A capacity that is not a whole number may raise (counterexample)"
  },
  {
   "property": "C56",
   "status": "proved",
   "theorems": [
    "Verif.Mon.C56_statistics",
    "Verif.Mon.C56_stored",
    "Verif.Mon.C56_counts",
    "Verif.Mon.C56_percentile"
   ],
   "note": "numbers are exact rationals; infinite values, weights that are not positive and changing stats_only at a reset are not covered (for the last two see C20)"
  },
  {
   "property": "C57",
   "status": "proved",
   "theorems": [
    "Verif.Distr.C57_uniform",
    "Verif.Distr.C57_int_uniform",
    "Verif.Distr.C57_cdf",
    "Verif.Distr.C57_pdf",
    "Verif.Distr.C57_cum_pdf",
    "Verif.Distr.C57_arithmetic"
   ],
   "note": "expectation as limit of averages over evenly spread random numbers (a Riemann integral over the rationals, shown to be unique). Distributions sampled by the Python library (Exponential, Normal, ...) and values that are distributions themselves are not covered; for these and for Constant see the counterexamples of C38 and C41"
  },
  {
   "property": "C58",
   "status": "proved",
   "theorems": [
    "Verif.C58_gives_up",
    "Verif.C58_kept"
   ],
   "note": "all histories of calls that return and respect the conditions of Calm (see DESIGN.md); the calls request, wait, from_store and to_store for a component that waits for something else are not included"
  },
  {
   "property": "C59",
   "status": "proved",
   "theorems": [
    "Verif.C59_until_event",
    "Verif.C59_passivate",
    "Verif.C59_frozen",
    "Verif.C59_set",
    "Verif.C59_hold_interrupted",
    "Verif.C59_passive_again_counterexample",
    "Verif.C59_interrupted_counterexample"
   ],
   "note": "passivating a component that is passive or interrupted already doesn't preserve the remaining duration (counterexamples)"
  },
  {
   "property": "C60",
   "status": "proved",
   "theorems": [
    "Verif.Mon.C60_weighted",
    "Verif.Mon.C60_plain",
    "Verif.Mon.C60_exact_counterexample",
    "Verif.Mon.C60_zero_weight_counterexample"
   ],
   "note": "The statement describes the code; the counterexample theorems show where that differs from the documentation (position exactly at a value) and that positive weights are needed."
  },
  {
   "property": "C61",
   "status": "proved",
   "theorems": [
    "Verif.Traj.C61_polygon",
    "Verif.Traj.C61_circle",
    "Verif.Traj.C61_standstill",
    "Verif.Traj.C61_in_trajectory",
    "Verif.Traj.C61_in_polygon"
   ],
   "note": "over the exact reals; circles with positive length and radius and a movement with valid speeds"
  },
  {
   "property": "C62",
   "status": "proved",
   "theorems": [
    "Verif.C62_leave",
    "Verif.C62_enter",
    "Verif.C62_from_store",
    "Verif.C62_to_store"
   ],
   "note": "for calls that return; from_store and to_store by the current component"
  },
  {
   "property": "C63",
   "status": "proved",
   "theorems": [
    "Verif.C63_hold",
    "Verif.C63_passivate",
    "Verif.C63_activate",
    "Verif.C63_create",
    "Verif.C63_interrupt",
    "Verif.C63_resume",
    "Verif.C63_standby",
    "Verif.C63_remaining",
    "Verif.C63_run",
    "Verif.C63_step",
    "Verif.C63_state",
    "Verif.C63_wait",
    "Verif.C63_waitFor",
    "Verif.C63_fromStore_wait",
    "Verif.C63_fromStore_take",
    "Verif.C63_toStore",
    "Verif.C63_end"
   ],
   "note": "Reachable by calls that return (Calm). The first nine are equivalences; for creation the number must be unused (in the model components are numbered), for run there is no condition on the state. Calls that grant requests (request, release, set_capacity, cancel of a claimer): see C66."
  },
  {
   "property": "C64",
   "status": "proved",
   "theorems": [
    "Verif.Chain.C64_slice",
    "Verif.Chain.C64_delete_slice",
    "Verif.Chain.C64_delete",
    "Verif.Chain.C64_pop",
    "Verif.Chain.C64_pop_counterexample"
   ],
   "note": "ordinary queues in every reachable state; against the definition of slices in the Python language reference"
  },
  {
   "property": "C65",
   "status": "proved",
   "theorems": [
    "Verif.C65_request",
    "Verif.C65_from_store",
    "Verif.C65_to_store",
    "Verif.C65_wait",
    "Verif.C65_wait_for",
    "Verif.C65_claim"
   ],
   "note": "for calls by the current component; a request of a preemptive resource is excluded, as others may be bumped by it"
  },
  {
   "property": "C66",
   "status": "proved",
   "theorems": [
    "Verif.C66_unmixed",
    "Verif.C66_set_capacity",
    "Verif.C66_release_anonymous",
    "Verif.C66_release_resource",
    "Verif.C66_release",
    "Verif.C66_release_all",
    "Verif.C66_cancel",
    "Verif.C66_end",
    "Verif.C66_request",
    "Verif.C66_release_counterexample"
   ],
   "note": "The model counts the depth of recursion (fuel); shown is that some depth suffices and that the result is the same for all larger ones. The recursion limit of Python itself is not modelled."
  },
  {
   "property": "C67",
   "status": "proved",
   "theorems": [
    "Verif.C67_release",
    "Verif.C67_several",
    "Verif.C67_all",
    "Verif.C67_anonymous",
    "Verif.C67_set_capacity",
    "Verif.C67_resource",
    "Verif.C67_resource_nobody_waits",
    "Verif.C67_resource_counterexample"
   ],
   "note": "claims, requests, lines and claimed quantities after release, Resource.release and set_capacity, for all reachable states; the counterexample shows that Resource.release may take what it has just granted"
  },
  {
   "property": "C68",
   "status": "proved",
   "theorems": [
    "Verif.C68_pending",
    "Verif.C68_priority_none",
    "Verif.C68_inf",
    "Verif.C68_none",
    "Verif.C68_becomes",
    "Verif.C68_interrupted_counterexample",
    "Verif.C68_standby_counterexample"
   ],
   "note": "the counterexamples show that scheduled_time() is not inf, as documented, for interrupted components and components in standby"
  },
  {
   "property": "C69",
   "status": "proved",
   "theorems": [
    "Verif.C69_next",
    "Verif.C69_inf",
    "Verif.C69_first",
    "Verif.C69_skip_counterexample",
    "Verif.C69_reset_counterexample"
   ],
   "note": "the counterexamples show that peek() is wrong with skip_standby and after reset_now"
  },
  {
   "property": "C70",
   "status": "proved",
   "theorems": [
    "Verif.C70_now",
    "Verif.C70_occupancy",
    "Verif.C70_history",
    "Verif.C70_occupancy_counterexample"
   ],
   "note": "monitors that are switched on all the time; the counterexample shows that occupancy starts at 0 for an anonymous resource with initial_claimed_quantity"
  },
  {
   "property": "C71",
   "status": "proved",
   "theorems": [
    "Verif.C71_asked",
    "Verif.C71_failed",
    "Verif.C71_others",
    "Verif.C71_bumped"
   ],
   "note": "for requests: not empty and not of a preemptive resource that the component itself claims"
  },
  {
   "property": "C72",
   "status": "proved",
   "theorems": [
    "Verif.C72_interrupted"
   ],
   "note": "stores are excluded: Verif.C09_kept_request_counterexample shows that an interrupted component in line for a store is woken"
  },
  {
   "property": "C73",
   "status": "proved",
   "theorems": [
    "Verif.C73_origin",
    "Verif.C73_enter",
    "Verif.C73_to_store",
    "Verif.C73_leave",
    "Verif.C73_from_store"
   ],
   "note": "for items that are put into the store because the capacity is raised only the priority is shown (C73_origin; the store stays sorted: C11), not the place among equal priorities"
  },
  {
   "property": "C74",
   "status": "proved",
   "theorems": [
    "Verif.C74_nothing_left",
    "Verif.C74_served"
   ],
   "note": "an item may be lost if one component accepts two of them: Verif.C35_rescan_counterexample"
  },
  {
   "property": "C75",
   "status": "proved",
   "theorems": [
    "Verif.Distr.C75_exponential",
    "Verif.Distr.C75_normal",
    "Verif.Distr.C75_uniform",
    "Verif.Distr.C75_triangular",
    "Verif.Distr.C75_weibull_beta",
    "Verif.Distr.C75_gamma",
    "Verif.Distr.C75_erlang",
    "Verif.Distr.C75_pdf",
    "Verif.Distr.C75_cum_pdf",
    "Verif.Distr.C75_no_mean"
   ],
   "note": "the generators of the module random are parameters of the model; Pdf and CumPdf of distributions (instead of values) are not covered; Bounded: C39_crossed, Cdf: C37_accepts"
  },
  {
   "property": "C76",
   "status": "proved",
   "theorems": [
    "Verif.Mon.C76_level",
    "Verif.Mon.C76_plain"
   ],
   "note": "level monitors and non level monitors after any history; the scale of print_histogram when ex0 is given is chosen without ex0 in the code, which is not part of this claim"
  },
  {
   "property": "C77",
   "status": "proved",
   "theorems": [
    "Verif.Mon.C77_level",
    "Verif.Mon.C77_plain",
    "Verif.Mon.C77_add_now_counterexample"
   ],
   "note": ""
  },
  {
   "property": "C78",
   "status": "proved",
   "theorems": [
    "Verif.Mon.C78_values",
    "Verif.Mon.C78_force_counterexample"
   ],
   "note": "values that are lists or tuples are not modelled"
  },
  {
   "property": "C79",
   "status": "proved",
   "theorems": [
    "Verif.Distr.C79_meaning",
    "Verif.Distr.C79_set",
    "Verif.Distr.C79_reset_now",
    "Verif.Distr.C79_text"
   ],
   "note": "datetimes as exact numbers of seconds, without the rounding to microseconds; infinite times and text formats are not modelled"
  },
  {
   "property": "C80",
   "status": "proved",
   "theorems": [
    "Verif.C80_single_server",
    "Verif.C80_waiting",
    "Verif.C80_one_at_a_time"
   ],
   "note": "the process is a list of calls per turn; arrival times in order of creation; a clerk without honor_only_first, honor_only_highest_priority or preemption"
  },
  {
   "property": "C81",
   "status": "proved",
   "theorems": [
    "Verif.C81_servers",
    "Verif.C81_counter",
    "Verif.C81_one"
   ],
   "note": "the process is a list of calls per turn; arrival times in order of creation; a resource without honor_only_first, honor_only_highest_priority or preemption, of which everyone requests 1"
  },
  {
   "property": "C82",
   "status": "proved",
   "theorems": [
    "Verif.Chain.C82_arrival_rate",
    "Verif.Chain.C82_departure_rate",
    "Verif.Chain.C82_apart"
   ],
   "note": ""
  },
  {
   "property": "C83",
   "status": "proved",
   "theorems": [
    "Verif.Chain.C83_compare",
    "Verif.Chain.C83_component_with_name"
   ],
   "note": "the set of the components of a queue is modelled as a finite set"
  },
  {
   "property": "C84",
   "status": "proved",
   "theorems": [
    "Verif.C84_buffer",
    "Verif.C84_flow",
    "Verif.C84_room",
    "Verif.C84_order"
   ],
   "note": "the process is a list of calls per turn; all priorities 0, no filter or key; the items are components without a process"
  },
  {
   "property": "C85",
   "status": "proved",
   "theorems": [
    "Verif.C85_clerk",
    "Verif.C85_same"
   ],
   "note": "a process is a tree of calls and looks at the state per turn, with a memory between turns; pop is the leave of the first member; the generator ends after n customers"
  },
  {
   "property": "C86",
   "status": "proved",
   "theorems": [
    "Verif.C86_now",
    "Verif.C86_history",
    "Verif.C86_only",
    "Verif.C86_set",
    "Verif.C86_trigger"
   ],
   "note": "a reset is a set to False (0); the monitor of the state is not switched off (monitor(False)); values are numbers"
  },
  {
   "property": "C87",
   "status": "proved",
   "theorems": [
    "Verif.C87_clerks",
    "Verif.C87_same"
   ],
   "note": "a process is a tree of calls and looks at the state per turn, with a memory between turns; pop is the leave of the first member; the generator ends after n customers"
  },
  {
   "property": "C88",
   "status": "proved",
   "theorems": [
    "Verif.C88_once",
    "Verif.C88_taken"
   ],
   "note": "the process of an Event is: get control, the calls of the action, the end of the process; action_taken() is the phase done"
  },
  {
   "property": "C89",
   "status": "proved",
   "theorems": [
    "Verif.C89_claims",
    "Verif.C89_requests",
    "Verif.C89_idle",
    "Verif.C89_zero_counterexample"
   ],
   "note": "the queues a component is in are those with it as a member (C15)"
  },
  {
   "property": "C90",
   "status": "proved",
   "theorems": [
    "Verif.C90_in_rank",
    "Verif.C90_never_passes"
   ],
   "note": "C90_in_rank is about all resources; C90_never_passes looks at claims, which anonymous resources do not have"
  },
  {
   "property": "C91",
   "status": "proved",
   "theorems": [
    "Verif.C91_unit",
    "Verif.C91_statistics",
    "Verif.C91_from_the_start",
    "Verif.C91_models"
   ],
   "note": "exact times: rounding of floats is not modelled"
  },
  {
   "property": "C92",
   "status": "proved",
   "theorems": [
    "Verif.Poisson.C92_make",
    "Verif.Poisson.C92_sample",
    "Verif.Poisson.C92_law",
    "Verif.Poisson.C92_fallback",
    "Verif.Poisson.C92_fallback_counterexample"
   ],
   "note": "exact real numbers, without numpy"
  },
  {
   "property": "C93",
   "status": "proved",
   "theorems": [
    "Verif.DistSpec.C93_names",
    "Verif.DistSpec.C93_plain",
    "Verif.DistSpec.C93_other",
    "Verif.DistSpec.C93_unit",
    "Verif.DistSpec.C93_counterexample"
   ],
   "note": "the text that is evaluated; evaluation by Python is not modelled. ASCII texts."
  },
  {
   "property": "C94",
   "status": "proved",
   "theorems": [
    "Verif.Spline.C94_bezier",
    "Verif.Spline.C94_bezier_shape",
    "Verif.Spline.C94_catmull_rom",
    "Verif.Spline.C94_unique",
    "Verif.Spline.C94_apply",
    "Verif.Spline.C94_polygon",
    "Verif.Spline.C94_straight",
    "Verif.Spline.C94_counterexample"
   ],
   "note": "exact reals; numpy is assumed to be there. For Catmull-Rom only y is a spline, x is interpolated linearly: points on a sloping line do not give a straight line unless they are equidistant (counterexample)"
  },
  {
   "property": "C95",
   "status": "proved",
   "theorems": [
    "Verif.RegPolygon.C95_corners",
    "Verif.RegPolygon.C95_regular",
    "Verif.RegPolygon.C95_counterexample"
   ],
   "note": "exact reals. The documentation says that the first corner is at the initial angle, in the code it is the last one (counterexample)"
  },
  {
   "property": "C96",
   "status": "proved",
   "theorems": [
    "Verif.Distr.C96_law",
    "Verif.Distr.C96_samples"
   ],
   "note": "the independence of the samples is a hypothesis, shown for distributions that use one random number per sample; numbers are rational, as floats are, so the laws are discrete; the time unit of the bounds is that of the samples (factor 1)"
  },
  {
   "property": "C97",
   "status": "proved",
   "theorems": [
    "Verif.C97_roles",
    "Verif.C97_from_the_start",
    "Verif.C97_models"
   ],
   "note": "for all calls of the model; conditions of wait look at states, not at components; names of components are not modelled"
  },
  {
   "property": "C98",
   "status": "proved",
   "theorems": [
    "Verif.Mon.C98_values",
    "Verif.Mon.C98_refused",
    "Verif.Mon.C98_types_counterexample",
    "Verif.Mon.C98_offset_counterexample"
   ],
   "note": "without datetimes and numpy; positive delta_t; for monitors with different values for off, and for the t column after reset_now, it is false: counterexamples"
  },
  {
   "property": "C99",
   "status": "proved",
   "theorems": [
    "Verif.Reg.C99_register",
    "Verif.Reg.C99_history",
    "Verif.Reg.C99_queues_counterexample",
    "Verif.Reg.C99_monitors_counterexample"
   ],
   "note": "exact condition for queues and monitors; where it is not met the claim is false: counterexamples"
  },
  {
   "property": "C100",
   "status": "proved",
   "theorems": [
    "Verif.Reg.C100_queue",
    "Verif.Reg.C100_all",
    "Verif.Reg.C100_exclude_counterexample"
   ],
   "note": "which monitors, not the histograms themselves"
  },
  {
   "property": "C101",
   "status": "proved",
   "theorems": [
    "Verif.Color.C101_roundtrip",
    "Verif.Color.C101_hash",
    "Verif.Color.C101_name",
    "Verif.Color.C101_fg_bg_pair",
    "Verif.Color.C101_tuple",
    "Verif.Color.C101_refused",
    "Verif.Color.C101_blanks",
    "Verif.Color.C101_interpolate_same",
    "Verif.Color.C101_dark",
    "Verif.Color.C101_interpolate",
    "Verif.Color.C101_interpolate_order",
    "Verif.Color.C101_contrast",
    "Verif.Color.C101_endless_counterexample",
    "Verif.Color.C101_sign_counterexample"
   ],
   "note": "whole components, ASCII strings; the table of names is a parameter; interpolation and writing for components of 0 to 255"
  },
  {
   "property": "C102",
   "status": "proved",
   "theorems": [
    "Verif.C102_order",
    "Verif.C102_from_the_start",
    "Verif.C102_models",
    "Verif.C102_shift_counterexample"
   ],
   "note": "calls of the kernel model and processes over it; finite priorities are replaced, inf stays inf"
  },
  {
   "property": "C103",
   "status": "proved",
   "theorems": [
    "Verif.ItemValue.C103_float",
    "Verif.ItemValue.C103_int",
    "Verif.ItemValue.C103_bool",
    "Verif.ItemValue.C103_special",
    "Verif.ItemValue.C103_underscore",
    "Verif.ItemValue.C103_underscore_refused",
    "Verif.ItemValue.C103_agree",
    "Verif.ItemValue.C103_each",
    "Verif.ItemValue.C103_file",
    "Verif.ItemValue.C103_comma_counterexample",
    "Verif.ItemValue.C103_tiny_counterexample"
   ],
   "note": "Python int and float as in the language reference, in ASCII; values of floats are exact, but for those that are rounded to 0"
  },
  {
   "property": "C104",
   "status": "proved",
   "theorems": [
    "Verif.View.C104_roundtrip",
    "Verif.View.C104_corners",
    "Verif.View.C104_anchors",
    "Verif.View.C104_anchors_fixed",
    "Verif.View.C104_wheel",
    "Verif.View.C104_zoomed",
    "Verif.View.C104_pan",
    "Verif.View.C104_unzoom",
    "Verif.View.C104_wheel_counterexample",
    "Verif.View.C104_back_counterexample",
    "Verif.View.C104_pan_counterexample"
   ],
   "note": "exact numbers; mouse events between two ticks; without over3d and retina_scale"
  },
  {
   "property": "C105",
   "status": "proved",
   "theorems": [
    "Verif.AnimClock.C105_shown",
    "Verif.AnimClock.C105_forward",
    "Verif.AnimClock.C105_rate",
    "Verif.AnimClock.C105_buttons",
    "Verif.AnimClock.C105_unsynced",
    "Verif.AnimClock.C105_step",
    "Verif.AnimClock.C105_single",
    "Verif.AnimClock.C105_kernel",
    "Verif.AnimClock.C105_button_counterexample"
   ],
   "note": "exact numbers; without videos, audio and reset_now, until the end of the run; calls and clicks are between the rounds of the loop; the simulation as seen by now(), peek() and step(), C105_kernel shows that the kernel model is as needed"
  },
  {
   "property": "C106",
   "status": "proved",
   "theorems": [
    "Verif.Tween.C106_smooth",
    "Verif.Tween.C106_no_jump",
    "Verif.Tween.C106_line",
    "Verif.Tween.C106_arrives",
    "Verif.Tween.C106_rest",
    "Verif.Tween.C106_past",
    "Verif.Tween.C106_never",
    "Verif.Tween.C106_create",
    "Verif.Tween.C106_given",
    "Verif.Tween.C106_now_counterexample"
   ],
   "note": "exact numbers; attributes that use interpolate, without colours (C101) and the width and height of images"
  },
  {
   "property": "C107",
   "status": "proved",
   "theorems": [
    "Verif.QueueAnim.C107_shown",
    "Verif.QueueAnim.C107_place",
    "Verif.QueueAnim.C107_apart",
    "Verif.QueueAnim.C107_objects",
    "Verif.QueueAnim.C107_count",
    "Verif.QueueAnim.C107_kept",
    "Verif.QueueAnim.C107_remove",
    "Verif.QueueAnim.C107_show_counterexample"
   ],
   "note": "without the title; along a trajectory the place is the travelled length (the trajectory itself: C48)"
  },
  {
   "property": "C108",
   "status": "proved",
   "theorems": [
    "Verif.Movie.C108_frame",
    "Verif.Movie.C108_nothing",
    "Verif.Movie.C108_single",
    "Verif.Movie.C108_repeat",
    "Verif.Movie.C108_mirror",
    "Verif.Movie.C108_refused",
    "Verif.Movie.C108_screen",
    "Verif.Movie.C108_end_counterexample",
    "Verif.Movie.C108_stays_counterexample"
   ],
   "note": "exact numbers; the time is that since animation_start times animation_speed; the other attributes of the image do not change"
  },
  {
   "property": "C109",
   "status": "proved",
   "theorems": [
    "Verif.Video.C109_shown",
    "Verif.Video.C109_files",
    "Verif.Video.C109_times",
    "Verif.Video.C109_forward",
    "Verif.Video.C109_spacing",
    "Verif.Video.C109_gif",
    "Verif.Video.C109_pingpong",
    "Verif.Video.C109_params_counterexample"
   ],
   "note": "exact numbers; calls and clicks come between two rounds of the loop; no audio, step buttons, end of the run or blind animation"
  },
  {
   "property": "C110",
   "status": "proved",
   "theorems": [
    "Verif.Pad.C110_inside",
    "Verif.Pad.C110_middle",
    "Verif.Pad.C110_scale",
    "Verif.Pad.C110_fills",
    "Verif.Pad.C110_refused",
    "Verif.Pad.C110_thin_counterexample"
   ],
   "note": "exact numbers; sizes and place only, the pixels are those of Pillow, which does not make empty images"
  },
  {
   "property": "C111",
   "status": "proved",
   "theorems": [
    "Verif.Snapshots.C111_accepted",
    "Verif.Snapshots.C111_distinct",
    "Verif.Snapshots.C111_number",
    "Verif.Snapshots.C111_removed",
    "Verif.Snapshots.C111_fresh",
    "Verif.Snapshots.C111_removed_counterexample"
   ],
   "note": "names without braces and brackets, with the star not in the extension; upper and lower case are different; files in the folder of the video"
  }
 ]
}