{
 "claims": [
  {
   "property": "C01",
   "status": "partial",
   "theorems": [
    "Verif.C01_state_is_history",
    "Verif.C01_edges_partial",
    "Verif.C01_out_of_finalized",
    "Verif.C01_finalized_is_not_terminal",
    "Verif.C01_active_is_earned",
    "Verif.C01_io_error_leaves_active",
    "Verif.C01_system_state_is_history"
   ],
   "note": "State = history, legality and ACTIVE-is-earned proved in full; the 'only documented edges' part is false of the code for FINALIZED (error() leaves it), shown by C01_finalized_is_not_terminal."
  },
  {
   "property": "C02",
   "status": "proved",
   "theorems": [
    "Verif.C02_callbacks_only_in_permitted_states",
    "Verif.C02_sensor_never_written",
    "Verif.C02_system_callbacks_permitted"
   ],
   "note": ""
  },
  {
   "property": "C03",
   "status": "partial",
   "theorems": [
    "Verif.C03_ok_means_target",
    "Verif.C03_others_untouched",
    "Verif.C03_rejected_unchanged",
    "Verif.C03_result_iff_partial",
    "Verif.C03_error_but_in_target",
    "Verif.C03_cooperative_succeeds"
   ],
   "note": "OK implies target reached, other components untouched, rejection changes nothing: full. The 'exactly when' direction is false of the code (C03_error_but_in_target: ERROR although the component ends in the target); C03_result_iff_partial is the strongest iff that holds."
  },
  {
   "property": "C04",
   "status": "partial",
   "theorems": [
    "Verif.C04_configured_available",
    "Verif.C04_available_iff_configured_partial",
    "Verif.C04_stale_activate",
    "Verif.C04_stale_deactivate",
    "Verif.C04_stale_cleanup",
    "Verif.C04_stale_shutdown",
    "Verif.C04_single_owner"
   ],
   "note": "configured => available proved in full; available => configured is false of the code when a transition callback ends in on_error (C04_stale_*); proved for histories without such failures."
  },
  {
   "property": "C05",
   "status": "proved",
   "theorems": [
    "Verif.C05_claim_iff",
    "Verif.C05_exclusive_until_release",
    "Verif.C05_release",
    "Verif.C05_component_claims"
   ],
   "note": ""
  },
  {
   "property": "C06",
   "status": "partial",
   "theorems": [
    "Verif.C06_inactive_holds_nothing",
    "Verif.C06_hardware_single_holder",
    "Verif.C06_single_holder_partial",
    "Verif.C06_exception_only_on_cleanup",
    "Verif.C06_reference_two_holders"
   ],
   "note": "Complete for hardware command interfaces. False of the code for reference interfaces erased while claimed (C06_reference_two_holders); proved for all others."
  },
  {
   "property": "C07",
   "status": "proved",
   "theorems": [
    "Verif.C07_names_unique",
    "Verif.C07_second_load_fails",
    "Verif.C07_load_result"
   ],
   "note": ""
  },
  {
   "property": "C08",
   "status": "proved",
   "theorems": [
    "Verif.C08_unload_ok_iff",
    "Verif.C08_unload_ok",
    "Verif.C08_unload_error"
   ],
   "note": ""
  },
  {
   "property": "C09",
   "status": "proved",
   "theorems": [
    "Verif.C09_configure_rejected",
    "Verif.C09_others_untouched",
    "Verif.C09_configure_ok"
   ],
   "note": ""
  },
  {
   "property": "C10",
   "status": "proved",
   "theorems": [
    "Verif.C10_reorder_is_permutation"
   ],
   "note": ""
  },
  {
   "property": "C11",
   "status": "partial",
   "theorems": [
    "Verif.C11_data_flow_order_partial",
    "Verif.C11_stack_order_partial",
    "Verif.C11_detours_partial",
    "Verif.CM.ForestChains.detours",
    "Verif.C11_two_layers",
    "Verif.C11_transitive",
    "Verif.C11_shortcut_misordered",
    "Verif.C11_layers_misordered"
   ],
   "note": "Proved whenever every detour is a chain: forests (in particular when no controller feeds two, or is fed by two), two layers with any links, transitively closed topologies, diamonds. False of the code for acyclic topologies with shortcuts (C11_shortcut_misordered) and for three layers with links between neighbouring layers only (C11_layers_misordered)."
  },
  {
   "property": "C12",
   "status": "proved",
   "theorems": [
    "Verif.C12_symmetric",
    "Verif.C12_topology_exact",
    "Verif.C12_unload"
   ],
   "note": ""
  },
  {
   "property": "C13",
   "status": "proved",
   "theorems": [
    "Verif.C13_group_is_component"
   ],
   "note": ""
  },
  {
   "property": "C14",
   "status": "proved",
   "theorems": [
    "Verif.C14_unfit_rejected",
    "Verif.C14_rejected_unchanged",
    "Verif.C14_rejected_leaves_traces"
   ],
   "note": "Unfit lists the reasons; every unfit STRICT request is rejected, a rejected request changes no lifecycle state, claim or chained mode. C14_rejected_leaves_traces documents what the code does leave behind (availability of exported interfaces, skip flag of asynchronous controllers)."
  },
  {
   "property": "C15",
   "status": "proved",
   "theorems": [
    "Verif.C15_ok_means_switched",
    "Verif.C15_ok_means_switched_strict",
    "Verif.C15_ok_at_once_is_empty",
    "Verif.C15_restart_ok_without_restart",
    "Verif.C15_strictness_matters_if_rejected",
    "Verif.C15_timeout"
   ],
   "note": ""
  },
  {
   "property": "C16",
   "status": "partial",
   "theorems": [
    "Verif.C16_interfaces_available",
    "Verif.C16_no_double_claim",
    "Verif.C16_holder_is_stopped_partial",
    "Verif.C16_restart_steals"
   ],
   "note": "Availability and double claims proved for every strictness. The running-holder part is false of the code for controllers that are restarted (C16_restart_steals); proved up to that and for individual interfaces."
  },
  {
   "property": "C17",
   "status": "partial",
   "theorems": [
    "Verif.C17_chain_below_is_started_partial",
    "Verif.C17_best_effort_violates"
   ],
   "note": "Proved for STRICT at any depth; false of the code for BEST_EFFORT (C17_best_effort_violates)."
  },
  {
   "property": "C18",
   "status": "partial",
   "theorems": [
    "Verif.C18_users_are_stopped_partial",
    "Verif.C18_regex_user_keeps_running"
   ],
   "note": "Proved for individually named interfaces over whole histories without half-failed configurations; false of the code for regular expressions (C18_regex_user_keeps_running)."
  },
  {
   "property": "C19",
   "status": "partial",
   "theorems": [
    "Verif.C19_asked_only_while_not_active",
    "Verif.C19_constant_while_active",
    "Verif.C19_stopped_leaves_chained_mode_partial",
    "Verif.C19_shutdown_keeps_chained_mode",
    "Verif.C19_failed_restart_keeps_chained_mode"
   ],
   "note": "Asked only while not active and constant while active: proved for all histories. That a stopped controller is out of chained mode holds with the listed exceptions only (shutdown, failed restart: witnesses)."
  },
  {
   "property": "C20",
   "status": "partial",
   "theorems": [
    "Verif.C20_left_when_feeder_stops_partial",
    "Verif.C20_best_effort_leaves_chained_mode_on",
    "Verif.C20_restart_of_feeder_unchains"
   ],
   "note": "Proved for STRICT requests under the stated assumptions on the following controller; false for BEST_EFFORT (witness)."
  },
  {
   "property": "C21",
   "status": "partial",
   "theorems": [
    "Verif.C21_chain_is_stopped",
    "Verif.C21_others_untouched",
    "Verif.C21_fallbacks_together",
    "Verif.C21_failed_controller_stops_partial",
    "Verif.C21_failed_controller_keeps_running"
   ],
   "note": "Proved: the whole chain group of the failing controller and whoever is in the way of its fallbacks stop, nobody else is touched, the fallbacks take over together or not at all. The failing controller itself stops if no configure_controller returned ERROR and left its controller configured; otherwise false (witness)."
  },
  {
   "property": "C22",
   "status": "partial",
   "theorems": [
    "Verif.C22_every_cycle",
    "Verif.C22_first_cycle",
    "Verif.C22_closest_cycle",
    "Verif.C22_spacing",
    "Verif.C22_regular_manager",
    "Verif.C22_every_mth_cycle",
    "Verif.C22_periods_sum_partial",
    "Verif.C22_missed_trigger_loses_time",
    "Verif.C22_configured_in_range",
    "Verif.C22_first_configuration",
    "Verif.C22_rate_cannot_be_raised",
    "Verif.C22_granted_at_most_previous",
    "Verif.C22_not_the_closest_rate",
    "Verif.C22_hardware_rate",
    "Verif.C22_hardware_cycle",
    "Verif.C22_hardware_never_early",
    "Verif.C22_hardware_never_late",
    "Verif.C22_hardware_periods_partial",
    "Verif.C22_hardware_loses_time"
   ],
   "note": "Exact rational time (no floating-point rounding). Proved for synchronous controllers; false for asynchronous ones that miss a trigger (witness), and a controller's rate can never be raised by a later configuration (witness)."
  },
  {
   "property": "C23",
   "status": "partial",
   "theorems": [
    "Verif.C23_no_race_partial",
    "Verif.C23_published_means_used_partial",
    "Verif.C23_waits_at_most_one_cycle_partial",
    "Verif.C23_first_cycle_race"
   ],
   "note": "Proved for every interleaving once the control loop has taken its first list; the very first cycle can race with a second list change (witness C23_first_cycle_race). Sequentially consistent memory."
  },
  {
   "property": "C24",
   "status": "partial",
   "theorems": [
    "Verif.C24_at_most_once_partial",
    "Verif.C24_no_timeout_partial",
    "Verif.C24_executed_before_validation",
    "Verif.C24_executed_twice",
    "Verif.C24_timeout_races_with_reader"
   ],
   "note": "Proved for every interleaving in which no control cycle is holding a stale look at the request when the service times out; without that, witnesses show a half-filled request executed and one request executed twice."
  },
  {
   "property": "C25",
   "status": "proved",
   "theorems": [
    "Verif.C25_prepare_true",
    "Verif.C25_only_configured_asked",
    "Verif.C25_prepare_complete"
   ],
   "note": ""
  },
  {
   "property": "C26",
   "status": "partial",
   "theorems": [
    "Verif.C26_read_failure",
    "Verif.C26_group_fails_together_partial",
    "Verif.C26_read_others_unaffected",
    "Verif.C26_write_failure_partial",
    "Verif.C26_write_error_masked",
    "Verif.C26_exception_skips_group",
    "Verif.C26_deactivate_configures_group_member",
    "Verif.C26_stale_group_state"
   ],
   "note": "Read cycle: failure handling, group propagation and isolation proved. False of the code: an exception bypasses the group, a later DEACTIVATE masks an earlier write ERROR in the result, group state is stale (witness theorems)."
  },
  {
   "property": "C27",
   "status": "partial",
   "theorems": [
    "Verif.C27_users_recorded",
    "Verif.C27_read_stops_users_partial",
    "Verif.C27_read_failure_stops_users_partial",
    "Verif.C27_write_stops_users_partial",
    "Verif.C27_write_failure_stops_users_partial",
    "Verif.C27_fallback_not_stopped",
    "Verif.C27_second_component_forgotten",
    "Verif.C27_masked_error_not_stopped"
   ],
   "note": "Proved for every controller that was never named as a fallback and every interface name owned by one component only. Witnesses: a controller started as a fallback is not known as a user of its hardware; a name shared by two components is recorded for the first only; DEACTIVATE of one component masks the ERROR of another for controllers without command interfaces."
  },
  {
   "property": "C28",
   "status": "partial",
   "theorems": [
    "Verif.limiter_absent_untouched",
    "Verif.limiter_presence",
    "Verif.limiter_flag_iff_changed",
    "Verif.limiter_throws_iff",
    "Verif.limiter_throw_changes_nothing",
    "Verif.limiter_position_within_partial",
    "Verif.limiter_velocity_within_partial",
    "Verif.limiter_effort_within",
    "Verif.limiter_effort_pushes_back",
    "Verif.limiter_acceleration_within",
    "Verif.limiter_jerk_within",
    "Verif.limiter_position_unchanged",
    "Verif.limiter_velocity_unchanged",
    "Verif.limiter_effort_unchanged",
    "Verif.soft_position_within",
    "Verif.soft_position_within_hard",
    "Verif.soft_position_defined",
    "Verif.soft_velocity_within_partial",
    "Verif.soft_effort_within_partial",
    "Verif.soft_velocity_brakes_partial",
    "Verif.soft_velocity_stays_partial",
    "Verif.soft_position_brakes",
    "Verif.soft_position_hard",
    "Verif.nan_position_unlimited",
    "Verif.nan_position_velocity_unlimited",
    "Verif.slightly_outside_too_fast",
    "Verif.past_the_limit",
    "Verif.soft_clamp_undefined",
    "Verif.soft_nan_velocity_unlimited",
    "Verif.soft_nan_velocity_effort",
    "Verif.soft_no_gain_effort_unlimited"
   ],
   "note": "Effort, acceleration, jerk, flag, absent commands: proved for all inputs (NaN and infinities included, exact arithmetic). Position and velocity: false in general (witnesses: NaN reading, slightly outside, first cycle); proved under the stated hypotheses over whole runs."
  },
  {
   "property": "C29",
   "status": "partial",
   "theorems": [
    "Verif.limiter_position_rate_partial",
    "Verif.limiter_velocity_rate_partial",
    "Verif.limiter_velocity_step",
    "Verif.first_velocity_too_fast",
    "Verif.braking_too_hard"
   ],
   "note": "False in general (witnesses: near a position limit braking wins over the acceleration limit; first command). Proved over whole runs away from the position limits."
  },
  {
   "property": "C30",
   "status": "proved",
   "theorems": [
    "Verif.C30_simple_make",
    "Verif.C30_two_make",
    "Verif.C30_load_nonzero",
    "Verif.C30_simple_load_nonzero",
    "Verif.C30_simple_joint_round_trip",
    "Verif.C30_simple_actuator_round_trip",
    "Verif.C30_simple_frame",
    "Verif.C30_simple_power",
    "Verif.C30_simple_position_velocity",
    "Verif.C30_simple_absolute_position",
    "Verif.C30_differential_joint_round_trip",
    "Verif.C30_differential_actuator_round_trip",
    "Verif.C30_differential_power",
    "Verif.C30_differential_position_velocity",
    "Verif.C30_absolute_position",
    "Verif.C30_two_frame",
    "Verif.C30_fourbar_joint_round_trip",
    "Verif.C30_fourbar_actuator_round_trip",
    "Verif.C30_fourbar_power",
    "Verif.C30_fourbar_position_velocity"
   ],
   "note": "Over an arbitrary field of characteristic 0 (exact arithmetic), on the memory cells behind the handles, for all kinds of interfaces at once, when no two handles share a cell."
  },
  {
   "property": "C31",
   "status": "proved",
   "theorems": [
    "Verif.Text.C31_strip",
    "Verif.Text.C31_parse_bool",
    "Verif.Text.C31_parse_array",
    "Verif.Text.C31_parse_bool_array"
   ],
   "note": "C locale; regular expressions with their language semantics (the library's recursion depth is not modelled)."
  },
  {
   "property": "C32",
   "status": "partial",
   "theorems": [
    "Verif.Stat.C32_exact",
    "Verif.Stat.C32_report",
    "Verif.Stat.C32_count",
    "Verif.Stat.C32_current",
    "Verif.Stat.C32_never_reset",
    "Verif.Stat.C32_empty_not_nan"
   ],
   "note": "Exact rational arithmetic, variance instead of its square root. Proved for every history with a reset and a sample since then; witnesses: without a reset all statistics stay NaN, and after a reset without samples 0 and the extreme numbers are reported instead of NaN."
  },
  {
   "property": "C33",
   "status": "partial",
   "theorems": [
    "Verif.C33_fallbacks_checked_partial",
    "Verif.C33_unconfigured_following",
    "Verif.C33_not_exported",
    "Verif.C33_other_strictness",
    "Verif.C33_full_false"
   ],
   "note": "For every reachable state and accepted STRICT/BEST_EFFORT request: fallbacks loaded, inactive/active, interfaces available or exported by an inactive controller of the list, or named after a loaded controller that is not inactive. False for the last kind and for other strictness values (witnesses)."
  },
  {
   "property": "C34",
   "status": "partial",
   "theorems": [
    "Verif.load_all_or_nothing",
    "Verif.bringUp_unconfigured",
    "Verif.bringUp_inactive",
    "Verif.bringUp_others",
    "Verif.bringUp_groups_partial",
    "Verif.bringUp_exact",
    "Verif.bringUp_reachable",
    "Verif.group_half_active_after_rollback",
    "Verif.group_half_active_by_list",
    "Verif.group_half_active_after_abort"
   ],
   "note": "For every robot description, plugin behaviour, parameter lists and order of the hash maps. All-or-nothing for groups is false in three cases (witnesses): a member refuses the rollback, a member is listed as inactive, the bring-up is aborted by an exception."
  },
  {
   "property": "C35",
   "status": "partial",
   "theorems": [
    "Verif.C35_exports_available_partial",
    "Verif.C35_rejected",
    "Verif.C35_not_claimed",
    "Verif.C35_timeout",
    "Verif.C35_shutdown",
    "Verif.C35_full_false"
   ],
   "note": "In every history exported interfaces are available only while the controller is active or being activated, unless an earlier attempt to start it (or shutdown) ended without it; four witnesses show that such an attempt can leave them available."
  },
  {
   "property": "C36",
   "status": "proved",
   "theorems": [
    "Verif.update_selects_input",
    "Verif.mode_change"
   ],
   "note": "For every history of mode changes and updates of a chainable controller and every answer of the plugin."
  },
  {
   "property": "C37",
   "status": "proved",
   "theorems": [
    "Verif.export_states_iff",
    "Verif.export_refs_iff",
    "Verif.export_all_or_nothing",
    "Verif.default_is_empty_override",
    "Verif.default_export_is_empty",
    "Verif.foreign_prefix_accepted"
   ],
   "note": "The prefix test of the code is a starts-with test: `arm` may export `arm_left/position` (witness). The default export methods never export anything (witness)."
  },
  {
   "property": "C38",
   "status": "partial",
   "theorems": [
    "Verif.handles_are_registers_partial",
    "Verif.handles_defined_partial",
    "Verif.written_value_is_read_partial",
    "Verif.wrapped_variable_partial",
    "Verif.failed_write_changes_nothing",
    "Verif.missed_iff_no_lock",
    "Verif.initial_value_is_read",
    "Verif.default_values",
    "Verif.boolean_reads_as_number",
    "Verif.type_of_name",
    "Verif.signed_initial_value",
    "Verif.unsigned_initial_value_partial",
    "Verif.loaned_set_result",
    "Verif.loaned_get_result",
    "Verif.loaned_set_zero_tries",
    "Verif.moved_handle_dangles",
    "Verif.swapped_handles_cross",
    "Verif.self_move_broken",
    "Verif.castable_but_throws"
   ],
   "note": "Handles refine registers for all programs of constructions, copies, reads, writes and ends of lifetime, and moves of handles without a double of their own. False for moved handles that own a double (witness). Lock outcomes are arbitrary inputs; accesses are atomic."
  },
  {
   "property": "C39",
   "status": "partial",
   "theorems": [
    "Verif.C39_listed_after_switch",
    "Verif.C39_listed_are_held_partial",
    "Verif.C39_hardware_listed_once",
    "Verif.C39_refused_lists_lost",
    "Verif.C39_all_lists_foreign",
    "Verif.C39_stale_between_switches"
   ],
   "note": "After every completed switch the listed claimed interfaces of a controller that names its interfaces individually and did not refuse its last deactivation are exactly its loans. False otherwise: three witnesses (refused deactivation, regex/all configurations, between switches)."
  },
  {
   "property": "C40",
   "status": "partial",
   "theorems": [
    "Verif.limits_touch_nothing_else",
    "Verif.limits_cover_all_joints",
    "Verif.cycles_are_limiter_runs",
    "Verif.set_value_throw_changes_nothing",
    "Verif.cycle_effort_within",
    "Verif.cycle_soft_position_within",
    "Verif.set_value_limited_partial",
    "Verif.set_value_unlimited",
    "Verif.no_lock_no_limits",
    "Verif.exception_skips_the_rest",
    "Verif.retries_exceed_rate",
    "Verif.two_sets_double_the_rate"
   ],
   "note": "With the lock taken and no limiter throwing, every joint with a limiter is limited exactly once and nothing else changes. False otherwise (witnesses: lock not obtained, an exception, several set_value in one cycle)."
  },
  {
   "property": "C41",
   "status": "proved",
   "theorems": [
    "Verif.C41_callbacks_only_in_permitted_states"
   ],
   "note": ""
  },
  {
   "property": "C42",
   "status": "proved",
   "theorems": [
    "Verif.C42_internal_check_never_throws"
   ],
   "note": ""
  },
  {
   "property": "C43",
   "status": "partial",
   "theorems": [
    "Verif.C43_started_feeder_chains_partial",
    "Verif.C43_false_after_restart",
    "Verif.C43_observer_swap_unchains",
    "Verif.C43_stopping_an_observer_unchains"
   ],
   "note": "False of the code: three witnesses (a restart of the driving controller; an observer stopped in the same request; an observer stopped alone). Proved: an accepted STRICT request that starts a controller naming a command interface of another one, and stops no other user of it, leaves the driven controller stopped or in chained mode."
  },
  {
   "property": "C44",
   "status": "partial",
   "theorems": [
    "Verif.C44_simple_one_joint",
    "Verif.C44_differential_maps_something",
    "Verif.C44_differential_order_partial",
    "Verif.C44_reductions_swapped",
    "Verif.C44_fourbar_maps_nothing",
    "Verif.C44_simple_maps_nothing",
    "Verif.C44_same_joint_twice"
   ],
   "note": "Proved: a configured differential transmission maps something, and reductions belong to the joints in alphabetical order. False in the code (witnesses): simple and four-bar accept handles of which nothing is mapped; reductions are swapped if the description is not in alphabetical order; two handles of one joint are accepted."
  },
  {
   "property": "C45",
   "status": "proved",
   "theorems": [
    "Verif.C45_strict_all_or_nothing"
   ],
   "note": "For execution in a cycle without failing updates or by the service thread."
  },
  {
   "property": "C46",
   "status": "proved",
   "theorems": [
    "Verif.C46_nobody_starts_uninvited"
   ],
   "note": ""
  },
  {
   "property": "C47",
   "status": "partial",
   "theorems": [
    "Verif.Text.C47_signed",
    "Verif.Text.C47_unsigned_partial",
    "Verif.Text.C47_negative_accepted"
   ],
   "note": "Signed: proved. Unsigned: proved for all texts but numbers below -(2^64-max), which wrap around and are accepted (witness)."
  },
  {
   "property": "C48",
   "status": "partial",
   "theorems": [
    "Verif.Text.C48_numbers_accepted",
    "Verif.Text.C48_only_numbers_partial",
    "Verif.Text.C48_value_unique",
    "Verif.Text.C48_plus_minus"
   ],
   "note": "C++20 branch (std::from_chars), exact value handed to an arbitrary rounding function. False only for texts beginning with +- (witness)."
  },
  {
   "property": "C49",
   "status": "partial",
   "theorems": [
    "Verif.Text.C49_reals",
    "Verif.Text.C49_integers_partial",
    "Verif.Text.C49_integers_iff",
    "Verif.Text.C49_integers_not_checked"
   ],
   "note": "Proved for real numbers. For integer types elements are truncated, and undefined behaviour if out of range (witness); exact if all elements are integers in range."
  },
  {
   "property": "C50",
   "status": "partial",
   "theorems": [
    "Verif.Sat.C50_unusable",
    "Verif.Sat.C50_shape",
    "Verif.Sat.C50_acceleration",
    "Verif.Sat.C50_deceleration",
    "Verif.Sat.C50_velocity_partial",
    "Verif.Sat.C50_stops_in_time",
    "Verif.Sat.C50_position_partial",
    "Verif.Sat.C50_false_unchanged_partial",
    "Verif.Sat.C50_position_overshoots",
    "Verif.Sat.C50_velocity_exceeds",
    "Verif.Sat.C50_within_limits_false",
    "Verif.Sat.C50_false_but_changed",
    "Verif.Sat.C50_false_unchanged_false",
    "Verif.Sat.C50_stop_command_moves",
    "Verif.Sat.C50_asymmetric"
   ],
   "note": "Exact arithmetic. Accelerations: all inputs. Velocities: without commanded accelerations, from a state inside the limits. Positions: position commands without acceleration limits. Witnesses: overshoot of the position limit, velocity limit exceeded when accelerations are commanded, a zero velocity command makes the joint move, `false` although the point was changed, not mirror symmetric."
  },
  {
   "property": "C51",
   "status": "partial",
   "theorems": [
    "Verif.LimParam.C51_one_by_one_partial",
    "Verif.LimParam.C51_subsequence",
    "Verif.LimParam.C51_batch_ignored",
    "Verif.LimParam.C51_cannot_disable",
    "Verif.LimParam.C51_update_lost",
    "Verif.LimParam.C51_number_forgotten",
    "Verif.LimParam.C51_range_inverted",
    "Verif.LimParam.C51_follow_false"
   ],
   "note": "One parameter at a time, each followed by enforce: exact effect for all histories (except switching position limits off). All histories: the limits are the result of a subsequence of the settings. Witnesses: updates ignored or lost in four ways, inverted range."
  },
  {
   "property": "C52",
   "status": "partial",
   "theorems": [
    "Verif.Mock.C52_mirrored",
    "Verif.Mock.C52_unchanged",
    "Verif.Mock.C52_disabled",
    "Verif.Mock.C52_position",
    "Verif.Mock.C52_history",
    "Verif.Mock.C52_mimic_partial",
    "Verif.Mock.C52_error",
    "Verif.Mock.C52_infinite",
    "Verif.Mock.C52_mocked",
    "Verif.Mock.C52_digital",
    "Verif.Mock.C52_velocity_mode",
    "Verif.Mock.C52_acceleration_mode",
    "Verif.Mock.C52_position_mode",
    "Verif.Mock.C52_constant_velocity",
    "Verif.Mock.C52_switch_partial",
    "Verif.Mock.C52_no_throw",
    "Verif.Mock.C52_ok",
    "Verif.Mock.C52_switch_rejected",
    "Verif.Mock.C52_switch_ignored",
    "Verif.Mock.C52_switch_full_false",
    "Verif.Mock.C52_mimic_lags",
    "Verif.Mock.C52_mimic_full_false",
    "Verif.Mock.C52_reconfigure_drifts",
    "Verif.Mock.C52_configure",
    "Verif.Mock.C52_error_leaves_mimic"
   ],
   "note": "All configurations, states, command histories (exact arithmetic). Mode switches: proved if no joint name occurs in an interface name of another joint, false otherwise (joint1/joint10). Mimic joints: proved unless they mimic a mimic joint, false otherwise. Reconfiguring drifts by the offset."
  },
  {
   "property": "C53",
   "status": "partial",
   "theorems": [
    "Verif.Async.async_write_only_after_ok_read",
    "Verif.Async.async_callbacks_exclude_io",
    "Verif.Async.async_reported_error_is_real_partial",
    "Verif.Async.async_reports_last_answer",
    "Verif.Async.async_read_answer_reported_partial",
    "Verif.Async.async_error_calls_on_error",
    "Verif.Async.async_pause_completes",
    "Verif.Async.async_lifecycle_as_sync",
    "Verif.Async.stale_error_after_configure",
    "Verif.Async.read_error_lost",
    "Verif.Async.write_error_lost",
    "Verif.Async.error_triggers_another_cycle"
   ],
   "note": "All schedules and plugin answers. Reported errors are real since the last activation; after a mere configure a stale ERROR is reported (witness). Every read answer is reported if no cycle is in progress when read is called; otherwise an ERROR can be lost (witness), and an ERROR of write is lost whenever the worker is faster than the controllers (witness). The thread pool class (realtime_tools) is outside the repository: assumptions stated in Hw/Async.lean."
  },
  {
   "property": "C54",
   "status": "proved",
   "theorems": [
    "Verif.Exp.C54_listed_states",
    "Verif.Exp.C54_listed_commands",
    "Verif.Exp.C54_one_value",
    "Verif.Exp.C54_all_declared",
    "Verif.Exp.C54_passes_check",
    "Verif.Exp.C54_two_tags_one_interface",
    "Verif.Exp.C54_repeated_command_hides_all",
    "Verif.Exp.C54_acceptance_depends_on_hash_order",
    "Verif.Exp.C54_second_writer_unseen"
   ],
   "note": "Witnesses of what happens without different names: a repeated command interface name hides all command interfaces of the component, acceptance of the description depends on hash order, the second writer of a state name is not seen, two different tags can have the same full name. Joint limiters bound to command handles not included."
  },
  {
   "property": "C55",
   "status": "partial",
   "theorems": [
    "Verif.Desc.C55_position_limits",
    "Verif.Desc.C55_velocity_limit",
    "Verif.Desc.C55_effort_limit",
    "Verif.Desc.C55_acceleration_limits",
    "Verif.Desc.C55_jerk_limit",
    "Verif.Desc.C55_no_acceleration_no_limit",
    "Verif.Desc.C55_disabled_interface",
    "Verif.Desc.C55_disabled_joint",
    "Verif.Desc.C55_disabled_values",
    "Verif.Desc.C55_accepted_iff",
    "Verif.Desc.C55_mimic_joints",
    "Verif.Desc.C55_limiters",
    "Verif.Desc.C55_all_limiters",
    "Verif.Desc.C55_soft_inside",
    "Verif.Desc.C55_positions_respect_description_partial",
    "Verif.Desc.C55_soft_positions_respect_description",
    "Verif.Desc.C55_efforts_respect_description",
    "Verif.Desc.C55_second_interface_forgets_urdf",
    "Verif.Desc.C55_bad_number_drops_both",
    "Verif.Desc.C55_deceleration_only",
    "Verif.Desc.C55_negative_velocity_runs_away",
    "Verif.Desc.C55_incompatible_ranges_stop_the_joint",
    "Verif.Desc.C55_mimics_itself"
   ],
   "note": "The limits are characterised exactly; commands respecting them is proved over histories without NaN readings and for consistent bounds. False otherwise, with witnesses: a negative max is taken as a negative maximal velocity and makes the joint run away, ranges that do not overlap are accepted and every position command then throws, a text that is not a number also drops the other bound, a disabled interface hides the URDF from a later one of the same name. The XML parser and urdfdom are not modelled."
  },
  {
   "property": "C56",
   "status": "partial",
   "theorems": [
    "Verif.Loop.C56_period_is_elapsed_time",
    "Verif.Loop.C56_periods_add_up",
    "Verif.Loop.C56_on_the_grid",
    "Verif.Loop.C56_never_early",
    "Verif.Loop.C56_no_drift",
    "Verif.Loop.C56_rate",
    "Verif.Loop.C56_overrun_recovers",
    "Verif.Loop.C56_no_burst",
    "Verif.Loop.C56_overrun_recovers_any_rate_partial",
    "Verif.Loop.C56_goes_on",
    "Verif.Loop.C56_sim_spacing",
    "Verif.Loop.C56_sim_drifts",
    "Verif.Loop.C56_blocking_spacing",
    "Verif.Loop.C56_burst_without_management",
    "Verif.Loop.C56_deadline_in_the_past",
    "Verif.Loop.C56_rate_zero",
    "Verif.Loop.C56_count_overflows"
   ],
   "note": "All parts proved for rates that divide 10^9; for other rates a deadline after an overrun may be past by up to a nanosecond per missed cycle (witness). The rounding of double is any function with the relative error of double. Outcomes of the clocks are inputs."
  },
  {
   "property": "C57",
   "status": "proved",
   "theorems": [
    "Verif.Sem.C57_ordered",
    "Verif.Sem.C57_ordered_throws",
    "Verif.Sem.C57_sensor",
    "Verif.Sem.C57_force_torque",
    "Verif.Sem.C57_imu",
    "Verif.Sem.C57_magnetic_field",
    "Verif.Sem.C57_pose",
    "Verif.Sem.C57_force_torque_axes",
    "Verif.Sem.C57_get_values",
    "Verif.Sem.C57_default_names",
    "Verif.Sem.C57_gps",
    "Verif.Sem.C57_gps_covariance",
    "Verif.Sem.C57_gps_truncates",
    "Verif.Sem.C57_gps_released",
    "Verif.Sem.C57_set_values",
    "Verif.Sem.C57_led",
    "Verif.Sem.C57_ordered_repeated",
    "Verif.Sem.C57_ordered_not_released",
    "Verif.Sem.C57_pose_initially_turned",
    "Verif.Sem.C57_not_assigned",
    "Verif.Sem.C57_get_values_hazards",
    "Verif.Sem.C57_gps_status_nan",
    "Verif.Sem.C57_led_nan",
    "Verif.Sem.C57_led_partly"
   ],
   "note": "All sessions and histories of answers. Witnesses of what happens otherwise: interfaces repeated or not released make get_ordered_interfaces return true with one missing; use before assignment or after the controller's vector was cleared is undefined behaviour; get_values throws if a handle is busy and appends to a used vector; casting a NaN status is undefined behaviour; an LED takes NaN and is written partly; a pose sensor starts half a turn about x. The range sensor's rounding to float and message headers are not modelled."
  },
  {
   "property": "C58",
   "status": "proved",
   "theorems": [
    "Verif.Xml.C58_reads",
    "Verif.Xml.C58_accepts",
    "Verif.Xml.C58_undefined",
    "Verif.Xml.C58_robot_defined",
    "Verif.Xml.C58_interfaces",
    "Verif.Xml.C58_listed",
    "Verif.Xml.C58_limits",
    "Verif.Xml.C58_mimic",
    "Verif.Xml.C58_no_urdf",
    "Verif.Xml.C58_rate",
    "Verif.Xml.C58_kind",
    "Verif.Xml.C58_demo",
    "Verif.Xml.C58_undefined_witness",
    "Verif.Xml.C58_lenient_witness",
    "Verif.Xml.C58_empty_witness",
    "Verif.Xml.C58_kind_witness",
    "Verif.Xml.C58_two_hardware_witness",
    "Verif.Xml.C58_actuator_witness",
    "Verif.Xml.C58_rejected_demo",
    "Verif.Xml.C58_full_demo"
   ],
   "note": "The XML tree is input (tinyxml2 is not in the repository). Witnesses: null dereferences, lenient numbers, empty names, misspelled type silently not loaded."
  },
  {
   "property": "C59",
   "status": "proved",
   "theorems": [
    "Verif.Spawn.C59_spawned",
    "Verif.Spawn.C59_group",
    "Verif.Spawn.C59_refusal_ends",
    "Verif.Spawn.C59_exit_code",
    "Verif.Spawn.C59_gave_up",
    "Verif.Spawn.C59_requests",
    "Verif.Spawn.C59_still_loaded",
    "Verif.Spawn.C59_three_attempts",
    "Verif.Spawn.C59_unload_on_kill",
    "Verif.Spawn.C59_unspawned",
    "Verif.Spawn.C59_unspawn_requests",
    "Verif.Spawn.C59_hw",
    "Verif.Spawn.C59_group_demo",
    "Verif.Spawn.C59_kill_demo",
    "Verif.Spawn.C59_unspawn_demo",
    "Verif.Spawn.C59_failures_demo",
    "Verif.Spawn.C59_lost_answer_witness",
    "Verif.Spawn.C59_respawn_witness",
    "Verif.Spawn.C59_midway_witness",
    "Verif.Spawn.C59_kept_witness",
    "Verif.Spawn.C59_interrupt_witness",
    "Verif.Spawn.C59_lock_interrupt_witness",
    "Verif.Spawn.C59_hw_witness"
   ],
   "note": "Clients as programs over lossy services of the verified controller manager. Witnesses: a late answer makes the spawner fail although everything was done; re-spawning fails; interrupts with exit code 0; --unload-on-kill that keeps controllers; hardware_spawner always exits with 0."
  },
  {
   "property": "C60",
   "status": "partial",
   "theorems": [
    "Verif.C60_one_entry_per_controller",
    "Verif.C60_required_interfaces",
    "Verif.C60_connections",
    "Verif.C60_connection_interfaces_partial",
    "Verif.C60_list_throws_iff",
    "Verif.C60_list_answers_partial",
    "Verif.C60_exported_interfaces",
    "Verif.C60_hardware_answers",
    "Verif.C60_hardware_components",
    "Verif.C60_interfaces",
    "Verif.C60_connection_lists_foreign",
    "Verif.C60_joint_shown_as_connection",
    "Verif.C60_list_throws",
    "Verif.C60_held_shown_unclaimed"
   ],
   "note": "False of the code in four cases, each with a witness: a connection lists the interfaces of all connected controllers; a controller named like a joint is shown as a connection; list_controllers throws after an on_cleanup of a chainable controller answered FAILURE; an interface of an unconfigured component is shown as unclaimed while a controller holds it. Everything else is proved for all histories."
  },
  {
   "property": "C61",
   "status": "proved",
   "theorems": [
    "Verif.C61_ok_means_empty",
    "Verif.C61_refused",
    "Verif.C61_answer_final",
    "Verif.C61_finalized_never_unloaded",
    "Verif.C61_finalized_blocks",
    "Verif.C61_quiet_reload_succeeds",
    "Verif.C61_failure_not_undone"
   ],
   "note": "All interleavings with the real-time loop. Witness: a failed reload is not undone (controllers stopped, some unloaded)."
  },
  {
   "property": "C62",
   "status": "partial",
   "theorems": [
    "Verif.ACtl.C62_thread_callbacks",
    "Verif.ACtl.C62_one_update_per_trigger",
    "Verif.ACtl.C62_trigger_answer",
    "Verif.ACtl.C62_throws_only_stopped",
    "Verif.ACtl.C62_callbacks_serial",
    "Verif.ACtl.C62_announced_quiet",
    "Verif.ACtl.C62_orderly_partial",
    "Verif.ACtl.C62_orderly_loaned",
    "Verif.ACtl.C62_stop_returns",
    "Verif.ACtl.C62_prepare_returns",
    "Verif.ACtl.C62_claim_fails_deactivation",
    "Verif.ACtl.C62_claim_fails_error",
    "Verif.ACtl.C62_claim_fails_raced",
    "Verif.ACtl.C62_update_while_inactive",
    "Verif.ACtl.C62_throws_after_failed_cleanup"
   ],
   "note": "All interleavings of the real-time thread, the service thread, transitions and the worker. The full claim (update never overlaps a lifecycle callback or the release of the interfaces) is false: witnesses C62_claim_fails_*. C62_orderly_partial proves it under the proviso that each on_deactivate found no cycle in progress, which C62_announced_quiet shows for announced deactivations that do not race a trigger; unconditional for the callbacks that stop the thread."
  },
  {
   "property": "C63",
   "status": "partial",
   "theorems": [
    "Verif.C63_undisturbed",
    "Verif.C63_controllers_told",
    "Verif.C63_interfaces_released",
    "Verif.C63_controllers",
    "Verif.C63_no_update_after",
    "Verif.C63_component_told",
    "Verif.C63_hook_partial",
    "Verif.C63_claim_fails_grouped",
    "Verif.C63_component_refuses",
    "Verif.C63_controller_refuses"
   ],
   "note": "All schedules of the real-time loop between the visits. The claim that a reported success means FINALIZED is proved for all controllers and for components without group (for all components if no cycle runs between their visits); it is false of the code for components in a group (C63_claim_fails_grouped: a group error calls on_error of a finalized component and revives it)."
  },
  {
   "property": "C64",
   "status": "proved",
   "theorems": [
    "Verif.Diag.controllers_level",
    "Verif.Diag.controllers_message",
    "Verif.Diag.controllers_values",
    "Verif.Diag.hardware_level",
    "Verif.Diag.hardware_message",
    "Verif.Diag.hardware_values",
    "Verif.Diag.manager_level",
    "Verif.Diag.unsampled_silent"
   ],
   "note": "All statistics (NaN and infinities included), thresholds, rates and lists; exact characterisations of levels, blamed names and values. Texts are lists of parts; mergeSummary of the external diagnostic_updater is taken from its documentation."
  },
  {
   "property": "C65",
   "status": "partial",
   "theorems": [
    "Verif.Boot.C65_waiting",
    "Verif.Boot.C65_accepted",
    "Verif.Boot.C65_limits",
    "Verif.Boot.C65_dead",
    "Verif.Boot.C65_ignored",
    "Verif.Boot.C65_accepted_iff",
    "Verif.Boot.C65_reasons",
    "Verif.Boot.C65_no_throw",
    "Verif.Boot.C65_settings_partial",
    "Verif.Boot.C65_settings_lost",
    "Verif.Boot.C65_no_dangling_partial",
    "Verif.Boot.C65_text_partial",
    "Verif.Boot.C65_dangling",
    "Verif.Boot.C65_text_diverges",
    "Verif.Boot.C65_limits_of_rejected",
    "Verif.Boot.C65_half_loaded",
    "Verif.Boot.C65_constructor"
   ],
   "note": "All histories with handle_exceptions on. Three parts are false of the code and kept with witnesses: after a rejected description the parameters are lost (C65_settings_lost, a theorem about every such history), the real-time thread may use the destroyed resource manager (C65_dangling), an ignored description replaces the text given to controllers (C65_text_diverges). Also: limits of a description rejected in the constructor stay (C65_limits_of_rejected); with handle_exceptions off a rejected description is in use half loaded (C65_half_loaded)."
  },
  {
   "property": "C66",
   "status": "partial",
   "theorems": [
    "Verif.RtList.C66_no_conflict",
    "Verif.RtList.C66_snapshot",
    "Verif.RtList.C66_official",
    "Verif.RtList.C66_takes_official",
    "Verif.RtList.C66_rt_wait_free_partial",
    "Verif.RtList.C66_service_proceeds",
    "Verif.RtList.C66_deadlock_permanent",
    "Verif.RtList.C66_deadlock",
    "Verif.RtList.C66_deadlock_write",
    "Verif.RtList.C66_switch_blocks",
    "Verif.RtList.C66_first_cycle_race"
   ],
   "note": "All schedules of any number of service threads and the real-time thread (sequentially consistent memory). Safety is proved for schedules whose first update_and_get_used_by_rt_list is not interrupted and refuted without that (C66_first_cycle_race). Never waiting for ever is false of the code: an update with a failing controller, or a write with DEACTIVATE, wants the lock a list switch holds while it waits for the loop (C66_deadlock, permanent by C66_deadlock_permanent); a waiting switch_controller blocks the loop until its timeout."
  },
  {
   "property": "C67",
   "status": "partial",
   "theorems": [
    "Verif.CM.activity_reports",
    "Verif.CM.activity_kept",
    "Verif.CM.activity_current_partial",
    "Verif.CM.activity_write",
    "Verif.CM.activity_update",
    "Verif.CM.activity_stale_cleanup",
    "Verif.CM.activity_stale_read",
    "Verif.CM.activity_stale_write",
    "Verif.CM.activity_stale_configure",
    "Verif.CM.activity_stale_shutdown",
    "Verif.CM.activity_stale_timeout",
    "Verif.CM.activity_current_false"
   ],
   "note": "All histories: announced operations leave the present states on the latched topic, and every operation outside an exact list (Hides) keeps a correct topic correct. The full claim is false of the code (activity_current_false): cleanup_controller, failed configure and unload, read and write errors, shutdown and a switch that timed out change states without a message or after the last one."
  },
  {
   "property": "C68",
   "status": "partial",
   "theorems": [
    "Verif.Cli.C68_unload",
    "Verif.Cli.C68_cleanup",
    "Verif.Cli.C68_set_hw",
    "Verif.Cli.C68_switch_strict",
    "Verif.Cli.C68_switch_partial",
    "Verif.Cli.C68_set_state_partial",
    "Verif.Cli.C68_load_partial",
    "Verif.Cli.C68_one_request",
    "Verif.Cli.C68_set_state_requests",
    "Verif.Cli.C68_load_requests",
    "Verif.Cli.C68_refused",
    "Verif.Cli.C68_interrupted",
    "Verif.Cli.C68_activate_witness",
    "Verif.Cli.C68_deactivate_witness",
    "Verif.Cli.C68_not_inactive_witness",
    "Verif.Cli.C68_best_effort_witness",
    "Verif.Cli.C68_load_again_witness",
    "Verif.Cli.C68_set_state_no_transition_witness"
   ],
   "note": "the full claim (exit code 0 of set_controller_state / load_controller --set-state active means that the state was reached) is false: the verbs pass True (BEST_EFFORT) as strictness; proved up to requests STRICT would have rejected"
  },
  {
   "property": "C69",
   "status": "partial",
   "theorems": [
    "Verif.C69_absent_untouched",
    "Verif.C69_flag_iff_changed",
    "Verif.C69_throws_iff",
    "Verif.C69_position_within_partial",
    "Verif.C69_position_rate_partial",
    "Verif.C69_step_error",
    "Verif.C69_velocity_within_partial",
    "Verif.C69_effort_within",
    "Verif.C69_acceleration_jerk_within",
    "Verif.C69_soft_position_within",
    "Verif.C69_soft_velocity_within_partial",
    "Verif.C69_soft_effort_within_partial",
    "Verif.C69_step_too_large",
    "Verif.C69_velocity_overruns",
    "Verif.C69_overflow_unlimited",
    "Verif.Lim.enforceR_exact",
    "Verif.Rounding.binary64_err"
   ],
   "note": "with IEEE 754 rounding, for every rounding that is monotone, odd, idempotent and never NaN (binary64 is proved to be one). The bounds on positions, velocities, efforts, accelerations and jerks hold exactly under the hypotheses of C28; the step bound of C29 holds up to the proved rounding error and fails literally (witness). Missing: the hypotheses of C28 (no NaN readings etc.), the sign of zero"
  },
  {
   "property": "C70",
   "status": "partial",
   "theorems": [
    "Verif.Params.C70_files_partial",
    "Verif.Params.C70_bare",
    "Verif.Params.C70_first_file",
    "Verif.Params.C70_value_partial",
    "Verif.Params.C70_value_none",
    "Verif.Params.C70_node_args_partial",
    "Verif.Params.C70_spawned_partial",
    "Verif.Params.C70_stale",
    "Verif.Params.C70_last",
    "Verif.Params.C70_collect",
    "Verif.Params.C70_given",
    "Verif.Params.C70_overrides_false",
    "Verif.Params.C70_forwards_false",
    "Verif.Params.C70_wildcard_wins",
    "Verif.Params.C70_own_files_false",
    "Verif.Params.C70_refused",
    "Verif.Params.C70_custom_closed",
    "Verif.Params.C70_type_partial",
    "Verif.Params.C70_fallbacks_partial",
    "Verif.Params.C70_empty_value",
    "Verif.Params.C70_untouched",
    "Verif.Params.C70_missing"
   ],
   "note": "All documents, file lists, namespaces, histories of spawners. The full statement is false of the code in four ways, each kept as a definition (Forwards, Overrides, OwnFiles, Arrives) and refuted: a bare name in a namespace hides the whole file, the type comes from the first file although later files override, the files of an earlier spawner stay, a refused params_file is not noticed. YAML parsing and ros2param's conversion are not modelled."
  },
  {
   "property": "C71",
   "status": "partial",
   "theorems": [
    "Verif.Stat.C71_sensible_partial",
    "Verif.Stat.C71_report_partial",
    "Verif.Stat.C71_variance",
    "Verif.Stat.C71_deviation",
    "Verif.Stat.C71_published_deviation",
    "Verif.Stat.C71_overflow",
    "Verif.Stat.runR_exact"
   ],
   "note": "IEEE 754 binary64, samples up to half of the largest double in size (for larger ones the claim is false: C71_overflow, average infinite and then NaN), fewer than 2^64 samples. The variance (argument of the square root) is within 2 n K of the exact one, K about 40 * 2^-53 * M^2, for samples of at most M <= 2^480 in size and at most 2^53 of them (C71_variance); std::sqrt may answer anything within half a unit in the last place (C71_published_deviation)."
  },
  {
   "property": "C72",
   "status": "proved",
   "theorems": [
    "Verif.C72_simple_accuracy",
    "Verif.C72_simple_accuracy_actuator",
    "Verif.C72_simple_actuator_round_trip",
    "Verif.C72_simple_joint_round_trip",
    "Verif.C72_differential_accuracy",
    "Verif.C72_differential_accuracy_actuator",
    "Verif.C72_differential_actuator_round_trip",
    "Verif.C72_differential_joint_round_trip",
    "Verif.C72_fourbar_accuracy",
    "Verif.C72_fourbar_accuracy_actuator",
    "Verif.C72_fourbar_actuator_round_trip",
    "Verif.C72_fourbar_joint_round_trip",
    "Verif.C72_simple_monotone",
    "Verif.C72_simple_zero",
    "Verif.C72_two_zero",
    "Verif.C72_simple_nan",
    "Verif.C72_isolated",
    "Verif.C72_extreme"
   ],
   "note": "Explicit error bounds; no contraction to fused multiply-add. Outside of the stated range the claim is false (C72_extreme: a NaN reduction is accepted by the constructor, a tiny one gives infinite joint positions)."
  },
  {
   "property": "C73",
   "status": "partial",
   "theorems": [
    "Verif.Argv.C73_per_controller",
    "Verif.Argv.C73_all_alike_partial",
    "Verif.Argv.C73_names",
    "Verif.Argv.C73_own_options",
    "Verif.Argv.C73_refused",
    "Verif.Argv.C73_joined_value",
    "Verif.Argv.C73_joined_flags",
    "Verif.Argv.C73_flag_value_refused",
    "Verif.Argv.C73_ambiguous",
    "Verif.Argv.C73_separator",
    "Verif.Argv.C73_negative",
    "Verif.Argv.C73_together",
    "Verif.Argv.C73_launch_types",
    "Verif.Argv.C73_launch_table_partial",
    "Verif.Argv.C73_launch_names_partial",
    "Verif.Argv.C73_launch_dict",
    "Verif.Argv.C73_false_typo",
    "Verif.Argv.C73_false_before",
    "Verif.Argv.C73_false_name",
    "Verif.Argv.C73_false_equals",
    "Verif.Argv.C73_false_short",
    "Verif.Argv.C73_false_documented",
    "Verif.Argv.C73_false_table",
    "Verif.Argv.C73_false_twice"
   ],
   "note": "Proved: every line written with the options of the help text in any order, number and spelling, in both modes, gives every controller exactly its options; on every accepted line the controllers are the words after --controller and depend only on their own words; typing errors are refused without --controller; launch tables with texts the shell leaves alone (or quoted) mean what they say. False, with witnesses: with --controller typing errors, names and options before the first --controller are dropped silently, --controller=b becomes a ROS argument, documented unquoted ROS arguments are refused, ROS arguments of a launch table are taken apart by the shell, the list helper changes the list of its caller."
  },
  {
   "property": "C74",
   "status": "partial",
   "theorems": [
    "Verif.Flow.C74_readings",
    "Verif.Flow.C74_last_reading",
    "Verif.Flow.C74_readings_of_read",
    "Verif.Flow.C74_order",
    "Verif.Flow.C74_chain",
    "Verif.Flow.C74_exported",
    "Verif.Flow.C74_command",
    "Verif.Flow.C74_limited_partial",
    "Verif.Flow.C74_delivered_partial",
    "Verif.Flow.C74_bystander_partial",
    "Verif.Flow.C74_false_switch",
    "Verif.Flow.C74_false_limited",
    "Verif.Flow.C74_false_failed"
   ],
   "note": "Proved for all cycles: one set of readings, the last of the read part; chained references and exported states of the same cycle; a command interface has what its holder left. Proved for cycles without an executed switch: the driver finds what the limiters left; and in every cycle for all interfaces the switch or failure has nothing to do with. The full claim is false: the limiters run before manage_switch (C74_false_switch), and the command of a failed update is sent (C74_false_failed)."
  },
  {
   "property": "C75",
   "status": "partial",
   "theorems": [
    "Verif.LimParam.C75_names",
    "Verif.LimParam.C75_read",
    "Verif.LimParam.C75_throws",
    "Verif.LimParam.C75_complete_partial",
    "Verif.LimParam.C75_flag_alone",
    "Verif.LimParam.C75_number_alone",
    "Verif.LimParam.C75_wrap_alone",
    "Verif.LimParam.C75_documented_false",
    "Verif.LimParam.C75_integer_throws",
    "Verif.LimParam.C75_other_joint",
    "Verif.LimParam.C75_soft",
    "Verif.LimParam.C75_soft_example",
    "Verif.LimParam.C75_soft_values",
    "Verif.LimParam.C75_soft_one_partial",
    "Verif.LimParam.C75_soft_batch_ignored",
    "Verif.LimParam.C75_init",
    "Verif.LimParam.C75_started",
    "Verif.LimParam.C75_init_nan",
    "Verif.LimParam.C75_init_integer"
   ],
   "note": "Exact effect of reading for all tables (and when a wrong type throws); documented effect if each limit is given completely or not at all; init and soft limits exactly; names of parameters are unambiguous. Documented effect is false for limits given in part (flag alone switches an existing limit off, number alone and angle_wraparound alone are ignored); at init a flag alone makes a limit that is NaN and never limits; the documented example of soft limits is not taken; changes of several soft numbers may go unreported."
  },
  {
   "property": "C76",
   "status": "partial",
   "theorems": [
    "Verif.View.C76_no_diagram_iff",
    "Verif.View.C76_arrows_sound",
    "Verif.View.C76_arrows_partial",
    "Verif.View.C76_interface_arrows",
    "Verif.View.C76_wrong_arrow",
    "Verif.View.C76_crash",
    "Verif.View.C76_joint_name",
    "Verif.View.C76_fields_iff",
    "Verif.View.C76_fields_short",
    "Verif.View.C76_boxes",
    "Verif.View.C76_merged_fields",
    "Verif.View.C76_status",
    "Verif.View.C76_status_all",
    "Verif.View.C76_status_not_found",
    "Verif.View.C76_status_silent"
   ],
   "note": "Proved: every arrow belongs to a real request; the arrows are exactly the requests if no two controllers export an interface of the same name (C76_arrows_partial) and all asked-for interfaces are still exported; exactly when no diagram is drawn; exactly when the fields are separate; what the status view prints for all sequences. False otherwise: C76_wrong_arrow, C76_crash, C76_joint_name, C76_merged_fields, C76_status_not_found, C76_status_silent."
  },
  {
   "property": "C77",
   "status": "partial",
   "theorems": [
    "Verif.Gui.C77_managers_partial",
    "Verif.Gui.C77_managers_wrong",
    "Verif.Gui.C77_target",
    "Verif.Gui.C77_table",
    "Verif.Gui.C77_rows_partial",
    "Verif.Gui.C77_click_partial",
    "Verif.Gui.C77_wrong_manager",
    "Verif.Gui.C77_vanished",
    "Verif.Gui.C77_rows_false",
    "Verif.Gui.C77_entry_partial",
    "Verif.Gui.C77_asks",
    "Verif.Gui.C77_failed_first",
    "Verif.Gui.C77_done",
    "Verif.Gui.C77_menu",
    "Verif.Gui.C77_hw_entry",
    "Verif.Gui.C77_hw_rows_partial",
    "Verif.Gui.C77_hw_click_partial",
    "Verif.Gui.C77_hw_menu",
    "Verif.Gui.C77_finalized"
   ],
   "note": "Proved for all sessions: what a click sends goes to the manager shown as chosen (C77_target), it is an entry of the menu for the row clicked, and the row is of this manager's last answer unless asking it raised an exception (C77_click_partial); the meaning of OK answers for all interleavings. False: other services ending in list_controllers are offered as managers; after an exception the table of the manager chosen before stays and clicks act on the new one; when the manager is gone the tables stay and requests go nowhere; finalized controllers are offered Load, which is always refused."
  },
  {
   "property": "C78",
   "status": "partial",
   "theorems": [
    "Verif.Lists.C78_controllers",
    "Verif.Lists.C78_columns",
    "Verif.Lists.C78_none",
    "Verif.Lists.C78_types",
    "Verif.Lists.C78_interfaces",
    "Verif.Lists.C78_answer",
    "Verif.Lists.C78_components",
    "Verif.Lists.C78_complete",
    "Verif.Lists.C78_states_available_false"
   ],
   "note": "All clauses about reading back the output are proved for all answers, options and colours. Partial because the help of list_hardware_interfaces promises available interfaces, but state interfaces of unconfigured components are printed without any mark (C78_states_available_false refutes the full statement AvailableStatement). Names must be non-empty without blanks or escape characters."
  },
  {
   "property": "C79",
   "status": "partial",
   "theorems": [
    "Verif.Names.C79_prefix",
    "Verif.Names.C79_empty",
    "Verif.Names.C79_defined",
    "Verif.Names.C79_undefined",
    "Verif.Names.C79_relative_partial",
    "Verif.Names.C79_relative_false",
    "Verif.Names.C79_again",
    "Verif.Names.C79_nodes_partial",
    "Verif.Names.C79_nodes_false",
    "Verif.Names.C79_node_chars",
    "Verif.Names.C79_topic"
   ],
   "note": "Parts, definedness and idempotence are proved for all texts. False in general: the result begins with a slash in the root namespace with ~/ (C79_relative_false), and names that differ in case or slashes only share a node name and topic (C79_nodes_false); proved under the conditions stated."
  },
  {
   "property": "C80",
   "status": "partial",
   "theorems": [
    "Verif.HwStatus.C80_history",
    "Verif.HwStatus.C80_messages",
    "Verif.HwStatus.C80_no_memory",
    "Verif.HwStatus.C80_when",
    "Verif.HwStatus.C80_rate",
    "Verif.HwStatus.C80_every_tick",
    "Verif.HwStatus.C80_refused",
    "Verif.HwStatus.C80_destroyed",
    "Verif.HwStatus.C80_goes_on",
    "Verif.HwStatus.C80_before_on_init",
    "Verif.HwStatus.C80_after_failed_init",
    "Verif.HwStatus.C80_initialised_partial"
   ],
   "note": "Contents, times and conditions of messages are proved for all plugins and schedules. The last sentence is false: the timer can ask the plugin before on_init and after on_init failed (C80_before_on_init, C80_after_failed_init); C80_initialised_partial proves it for schedules in which the timer does not fire until initialisation is over and it succeeded."
  },
  {
   "property": "C81",
   "status": "partial",
   "theorems": [
    "Verif.Argv.C81_hw",
    "Verif.Argv.C81_un",
    "Verif.Argv.C81_hw_any",
    "Verif.Argv.C81_un_any",
    "Verif.Argv.C81_hw_requests",
    "Verif.Argv.C81_un_requests",
    "Verif.Argv.C81_manager_partial",
    "Verif.Argv.C81_hw_times",
    "Verif.Argv.C81_un_times"
   ],
   "note": "Everything but the last sentence is proved for all lines. The last one is false without -c in a namespace: the default of the unspawner is absolute, the one of the hardware spawner relative (C81_manager_partial: the same one if and only if there is no namespace or -c is given). argparse is modelled as in C73."
  },
  {
   "property": "C82",
   "status": "partial",
   "theorems": [
    "Verif.Pub.C82_registered",
    "Verif.Pub.C82_exact_partial",
    "Verif.Pub.C82_dangling",
    "Verif.Pub.C82_unload",
    "Verif.Pub.C82_false"
   ],
   "note": "False as stated: a load that fails after the plugin was created (name taken, on_init fails or throws, own fallback controller, parameter of a wrong type) leaves twelve registered pointers to destroyed statistics (C82_dangling: always, until a controller of that name is unloaded). Proved for all histories without such a load (C82_exact_partial); that nothing is missing and no two controllers share statistics is proved for all histories. pal_statistics is not in the repository: the theorems but C82_unload hold whether it unregisters all variables of a name or only the oldest. Statistics of hardware components are not modelled here."
  },
  {
   "property": "C83",
   "status": "partial",
   "theorems": [
    "Verif.Pub.C83_registered",
    "Verif.Pub.C83_exact_partial",
    "Verif.Pub.C83_removed",
    "Verif.Pub.C83_roundtrip",
    "Verif.Pub.C83_dangling",
    "Verif.Pub.C83_false"
   ],
   "note": "False as stated: a description that cannot be loaded leaves every registration made so far, and by its components, pointing to destroyed interfaces (C83_dangling). Proved for all histories without such a failure (C83_exact_partial); that no stored interface is missing from the registry is proved for all histories. Assumed: no interface name ends in .is_limited. pal_statistics is not in the repository: the theorems hold whether it unregisters all variables of a name or only the oldest."
  },
  {
   "property": "C84",
   "status": "partial",
   "theorems": [
    "Verif.Lc.C84_rest_partial",
    "Verif.Lc.C84_answers_partial",
    "Verif.Lc.C84_sequential",
    "Verif.Lc.C84_get",
    "Verif.Lc.C84_next_transition",
    "Verif.Lc.C84_stuck",
    "Verif.Lc.C84_false"
   ],
   "note": "False as stated: a reader interrupted between its read of the node's state and its store writes back a state that is gone, and every answer is wrong until the next transition (C84_false, C84_stuck). Proved for all histories in which no transition is taken up between a reader's read and its store (which includes all histories without concurrent reads), and that an undisturbed transition repairs the copy. The state machine of the lifecycle node (rcl_lifecycle) is modelled from its documentation, not from /repo."
  },
  {
   "property": "C85",
   "status": "proved",
   "theorems": [
    "Verif.Argv.C85_line",
    "Verif.Argv.C85_request",
    "Verif.Argv.C85_any"
   ],
   "note": "argparse is modelled as in C73, the options of ros2cli itself from its documentation; lines with --ros-args are not modelled. That of two lists of controllers only the last is asked for is part of the statement; a user may expect otherwise."
  },
  {
   "property": "C86",
   "status": "partial",
   "theorems": [
    "Verif.Check.C86_node",
    "Verif.Check.C86_running",
    "Verif.Check.C86_together_partial",
    "Verif.Check.C86_together_false",
    "Verif.Check.C86_namespace",
    "Verif.Check.C86_root",
    "Verif.Check.C86_joints"
   ],
   "note": "When the helpers pass is characterised exactly, for all sequences of answers. Two parts are false of the code: the controllers need not have been in the state at the same time (C86_together_false; they were if none leaves it while the check runs, C86_together_partial), and with the namespace / the check fails whatever runs (C86_root). Joint names given twice are compared as sets only (the last clause needs distinct names)."
  },
  {
   "property": "C87",
   "status": "proved",
   "theorems": [
    "Verif.Util.C87_has",
    "Verif.Util.C87_remove",
    "Verif.Util.C87_add",
    "Verif.Util.C87_add_nodup",
    "Verif.Util.C87_unique",
    "Verif.Util.C87_strip",
    "Verif.Util.C87_strip_same"
   ],
   "note": "is_unique for every sort that yields a permutation in an antisymmetric order. On maps the functions look at the keys (the statements are about vectors)."
  },
  {
   "property": "C88",
   "status": "proved",
   "theorems": [
    "Verif.Pub.C88_hardware",
    "Verif.Pub.C88_names"
   ],
   "note": "For handle_exceptions = true (the default) and a controller manager started without a description, or with one that is accepted (C65_constructor). The values the registered pointers lead to are C71."
  }
 ]
}