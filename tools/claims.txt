c("C01", "partial", [V+"C01_state_is_history", V+"C01_edges_partial", V+"C01_out_of_finalized", V+"C01_finalized_is_not_terminal", V+"C01_active_is_earned", V+"C01_io_error_leaves_active", V+"C01_system_state_is_history"],
  "State = history, legality and ACTIVE-is-earned proved in full; the 'only documented edges' part is false of the code for FINALIZED (error() leaves it), shown by C01_finalized_is_not_terminal.")
c("C02", "proved", [V+"C02_callbacks_only_in_permitted_states", V+"C02_sensor_never_written", V+"C02_system_callbacks_permitted"])

c("C03", "partial", [V+"C03_ok_means_target", V+"C03_others_untouched", V+"C03_rejected_unchanged", V+"C03_result_iff_partial", V+"C03_error_but_in_target", V+"C03_cooperative_succeeds"],
  "OK implies target reached, other components untouched, rejection changes nothing: full. The 'exactly when' direction is false of the code (C03_error_but_in_target: ERROR although the component ends in the target); C03_result_iff_partial is the strongest iff that holds.")
c("C04", "partial", [V+"C04_configured_available", V+"C04_available_iff_configured_partial", V+"C04_stale_activate", V+"C04_stale_deactivate", V+"C04_stale_cleanup", V+"C04_stale_shutdown", V+"C04_single_owner"],
  "configured => available proved in full; available => configured is false of the code when a transition callback ends in on_error (C04_stale_*); proved for histories without such failures.")
c("C05", "proved", [V+"C05_claim_iff", V+"C05_exclusive_until_release", V+"C05_release", V+"C05_component_claims"])
c("C06", "partial", [V+"C06_inactive_holds_nothing", V+"C06_hardware_single_holder", V+"C06_single_holder_partial", V+"C06_exception_only_on_cleanup", V+"C06_reference_two_holders"],
  "Complete for hardware command interfaces. False of the code for reference interfaces erased while claimed (C06_reference_two_holders); proved for all others.")
c("C07", "proved", [V+"C07_names_unique", V+"C07_second_load_fails", V+"C07_load_result"])
c("C08", "proved", [V+"C08_unload_ok_iff", V+"C08_unload_ok", V+"C08_unload_error"])
c("C09", "proved", [V+"C09_configure_rejected", V+"C09_others_untouched", V+"C09_configure_ok"])
c("C10", "proved", [V+"C10_reorder_is_permutation"])
c("C11", "partial", [V+"C11_data_flow_order_partial", V+"C11_stack_order_partial", V+"C11_detours_partial", V+"CM.ForestChains.detours", V+"C11_two_layers", V+"C11_transitive", V+"C11_shortcut_misordered", V+"C11_layers_misordered"],
  "Proved whenever every detour is a chain: forests (in particular when no controller feeds two, or is fed by two), two layers with any links, transitively closed topologies, diamonds. False of the code for acyclic topologies with shortcuts (C11_shortcut_misordered) and for three layers with links between neighbouring layers only (C11_layers_misordered).")
c("C12", "proved", [V+"C12_symmetric", V+"C12_topology_exact", V+"C12_unload"])
c("C13", "proved", [V+"C13_group_is_component"])
c("C14", "proved", [V+"C14_unfit_rejected", V+"C14_rejected_unchanged", V+"C14_rejected_leaves_traces"],
  "Unfit lists the reasons; every unfit STRICT request is rejected, a rejected request changes no lifecycle state, claim or chained mode. C14_rejected_leaves_traces documents what the code does leave behind (availability of exported interfaces, skip flag of asynchronous controllers).")
c("C15", "proved", [V+"C15_ok_means_switched", V+"C15_ok_means_switched_strict", V+"C15_ok_at_once_is_empty", V+"C15_restart_ok_without_restart", V+"C15_strictness_matters_if_rejected", V+"C15_timeout"])
c("C16", "partial", [V+"C16_interfaces_available", V+"C16_no_double_claim", V+"C16_holder_is_stopped_partial", V+"C16_restart_steals"],
  "Availability and double claims proved for every strictness. The running-holder part is false of the code for controllers that are restarted (C16_restart_steals); proved up to that and for individual interfaces.")
c("C17", "partial", [V+"C17_chain_below_is_started_partial", V+"C17_best_effort_violates"],
  "Proved for STRICT at any depth; false of the code for BEST_EFFORT (C17_best_effort_violates).")
c("C18", "partial", [V+"C18_users_are_stopped_partial", V+"C18_regex_user_keeps_running"],
  "Proved for individually named interfaces over whole histories without half-failed configurations; false of the code for regular expressions (C18_regex_user_keeps_running).")
c("C19", "partial", [V+"C19_asked_only_while_not_active", V+"C19_constant_while_active", V+"C19_stopped_leaves_chained_mode_partial", V+"C19_shutdown_keeps_chained_mode", V+"C19_failed_restart_keeps_chained_mode"],
  "Asked only while not active and constant while active: proved for all histories. That a stopped controller is out of chained mode holds with the listed exceptions only (shutdown, failed restart: witnesses).")
c("C20", "partial", [V+"C20_left_when_feeder_stops_partial", V+"C20_best_effort_leaves_chained_mode_on", V+"C20_restart_of_feeder_unchains"],
  "Proved for STRICT requests under the stated assumptions on the following controller; false for BEST_EFFORT (witness).")
c("C25", "proved", [V+"C25_prepare_true", V+"C25_only_configured_asked", V+"C25_prepare_complete"])
c("C26", "partial", [V+"C26_read_failure", V+"C26_group_fails_together_partial", V+"C26_read_others_unaffected", V+"C26_write_failure_partial", V+"C26_write_error_masked", V+"C26_exception_skips_group", V+"C26_deactivate_configures_group_member", V+"C26_stale_group_state"],
  "Read cycle: failure handling, group propagation and isolation proved. False of the code: an exception bypasses the group, a later DEACTIVATE masks an earlier write ERROR in the result, group state is stale (witness theorems).")
c("C41", "proved", [V+"C41_callbacks_only_in_permitted_states"])
c("C42", "proved", [V+"C42_internal_check_never_throws"])
c("C43", "partial", [V+"C43_started_feeder_chains_partial", V+"C43_false_after_restart", V+"C43_observer_swap_unchains", V+"C43_stopping_an_observer_unchains"],
  "False of the code: three witnesses (a restart of the driving controller; an observer stopped in the same request; an observer stopped alone). Proved: an accepted STRICT request that starts a controller naming a command interface of another one, and stops no other user of it, leaves the driven controller stopped or in chained mode.")
c("C23", "partial", [V+"C23_no_race_partial", V+"C23_published_means_used_partial", V+"C23_waits_at_most_one_cycle_partial", V+"C23_first_cycle_race"],
  "Proved for every interleaving once the control loop has taken its first list; the very first cycle can race with a second list change (witness C23_first_cycle_race). Sequentially consistent memory.")
c("C24", "partial", [V+"C24_at_most_once_partial", V+"C24_no_timeout_partial", V+"C24_executed_before_validation", V+"C24_executed_twice", V+"C24_timeout_races_with_reader"],
  "Proved for every interleaving in which no control cycle is holding a stale look at the request when the service times out; without that, witnesses show a half-filled request executed and one request executed twice.")
c("C22", "partial", [V+"C22_every_cycle", V+"C22_first_cycle", V+"C22_closest_cycle", V+"C22_spacing", V+"C22_regular_manager", V+"C22_every_mth_cycle", V+"C22_periods_sum_partial", V+"C22_missed_trigger_loses_time", V+"C22_configured_in_range", V+"C22_first_configuration", V+"C22_rate_cannot_be_raised", V+"C22_granted_at_most_previous", V+"C22_not_the_closest_rate", V+"C22_hardware_rate", V+"C22_hardware_cycle", V+"C22_hardware_never_early", V+"C22_hardware_never_late", V+"C22_hardware_periods_partial", V+"C22_hardware_loses_time"],
  "Exact rational time (no floating-point rounding). Proved for synchronous controllers; false for asynchronous ones that miss a trigger (witness), and a controller's rate can never be raised by a later configuration (witness).")
c("C27", "partial", [V+"C27_users_recorded", V+"C27_read_stops_users_partial", V+"C27_read_failure_stops_users_partial", V+"C27_write_stops_users_partial", V+"C27_write_failure_stops_users_partial", V+"C27_fallback_not_stopped", V+"C27_second_component_forgotten", V+"C27_masked_error_not_stopped"],
  "Proved for every controller that was never named as a fallback and every interface name owned by one component only. Witnesses: a controller started as a fallback is not known as a user of its hardware; a name shared by two components is recorded for the first only; DEACTIVATE of one component masks the ERROR of another for controllers without command interfaces.")
c("C30", "proved", [V+"C30_simple_make", V+"C30_two_make", V+"C30_load_nonzero", V+"C30_simple_load_nonzero", V+"C30_simple_joint_round_trip", V+"C30_simple_actuator_round_trip", V+"C30_simple_frame", V+"C30_simple_power", V+"C30_simple_position_velocity", V+"C30_simple_absolute_position", V+"C30_differential_joint_round_trip", V+"C30_differential_actuator_round_trip", V+"C30_differential_power", V+"C30_differential_position_velocity", V+"C30_absolute_position", V+"C30_two_frame", V+"C30_fourbar_joint_round_trip", V+"C30_fourbar_actuator_round_trip", V+"C30_fourbar_power", V+"C30_fourbar_position_velocity"],
  "Over an arbitrary field of characteristic 0 (exact arithmetic), on the memory cells behind the handles, for all kinds of interfaces at once, when no two handles share a cell.")
c("C44", "partial", [V+"C44_simple_one_joint", V+"C44_differential_maps_something", V+"C44_differential_order_partial", V+"C44_reductions_swapped", V+"C44_fourbar_maps_nothing", V+"C44_simple_maps_nothing", V+"C44_same_joint_twice"],
  "Proved: a configured differential transmission maps something, and reductions belong to the joints in alphabetical order. False in the code (witnesses): simple and four-bar accept handles of which nothing is mapped; reductions are swapped if the description is not in alphabetical order; two handles of one joint are accepted.")
c("C32", "partial", [V+"Stat.C32_exact", V+"Stat.C32_report", V+"Stat.C32_count", V+"Stat.C32_current", V+"Stat.C32_never_reset", V+"Stat.C32_empty_not_nan"],
  "Exact rational arithmetic, variance instead of its square root. Proved for every history with a reset and a sample since then; witnesses: without a reset all statistics stay NaN, and after a reset without samples 0 and the extreme numbers are reported instead of NaN.")
c("C21", "partial", [V+"C21_chain_is_stopped", V+"C21_others_untouched", V+"C21_fallbacks_together", V+"C21_failed_controller_stops_partial", V+"C21_failed_controller_keeps_running"],
  "Proved: the whole chain group of the failing controller and whoever is in the way of its fallbacks stop, nobody else is touched, the fallbacks take over together or not at all. The failing controller itself stops if no configure_controller returned ERROR and left its controller configured; otherwise false (witness).")
c("C45", "proved", [V+"C45_strict_all_or_nothing"], "For execution in a cycle without failing updates or by the service thread.")
c("C46", "proved", [V+"C46_nobody_starts_uninvited"], "")
c("C31", "proved", [V+"Text.C31_strip", V+"Text.C31_parse_bool", V+"Text.C31_parse_array", V+"Text.C31_parse_bool_array"],
  "C locale; regular expressions with their language semantics (the library's recursion depth is not modelled).")
c("C47", "partial", [V+"Text.C47_signed", V+"Text.C47_unsigned_partial", V+"Text.C47_negative_accepted"],
  "Signed: proved. Unsigned: proved for all texts but numbers below -(2^64-max), which wrap around and are accepted (witness).")
c("C48", "partial", [V+"Text.C48_numbers_accepted", V+"Text.C48_only_numbers_partial", V+"Text.C48_value_unique", V+"Text.C48_plus_minus"],
  "C++20 branch (std::from_chars), exact value handed to an arbitrary rounding function. False only for texts beginning with +- (witness).")
c("C49", "partial", [V+"Text.C49_reals", V+"Text.C49_integers_partial", V+"Text.C49_integers_iff", V+"Text.C49_integers_not_checked"],
  "Proved for real numbers. For integer types elements are truncated, and undefined behaviour if out of range (witness); exact if all elements are integers in range.")
c("C28", "partial", [V+x for x in "limiter_absent_untouched limiter_presence limiter_flag_iff_changed limiter_throws_iff limiter_throw_changes_nothing limiter_position_within_partial limiter_velocity_within_partial limiter_effort_within limiter_effort_pushes_back limiter_acceleration_within limiter_jerk_within limiter_position_unchanged limiter_velocity_unchanged limiter_effort_unchanged soft_position_within soft_position_within_hard soft_position_defined soft_velocity_within_partial soft_effort_within_partial soft_velocity_brakes_partial soft_velocity_stays_partial soft_position_brakes soft_position_hard nan_position_unlimited nan_position_velocity_unlimited slightly_outside_too_fast past_the_limit soft_clamp_undefined soft_nan_velocity_unlimited soft_nan_velocity_effort soft_no_gain_effort_unlimited".split()],
  "Effort, acceleration, jerk, flag, absent commands: proved for all inputs (NaN and infinities included, exact arithmetic). Position and velocity: false in general (witnesses: NaN reading, slightly outside, first cycle); proved under the stated hypotheses over whole runs.")
c("C29", "partial", [V+x for x in "limiter_position_rate_partial limiter_velocity_rate_partial limiter_velocity_step first_velocity_too_fast braking_too_hard".split()],
  "False in general (witnesses: near a position limit braking wins over the acceleration limit; first command). Proved over whole runs away from the position limits.")
c("C40", "partial", [V+x for x in "limits_touch_nothing_else limits_cover_all_joints cycles_are_limiter_runs set_value_throw_changes_nothing cycle_effort_within cycle_soft_position_within set_value_limited_partial set_value_unlimited no_lock_no_limits exception_skips_the_rest retries_exceed_rate two_sets_double_the_rate".split()],
  "With the lock taken and no limiter throwing, every joint with a limiter is limited exactly once and nothing else changes. False otherwise (witnesses: lock not obtained, an exception, several set_value in one cycle).")
c("C38", "partial", [V+x for x in "handles_are_registers_partial handles_defined_partial written_value_is_read_partial wrapped_variable_partial failed_write_changes_nothing missed_iff_no_lock initial_value_is_read default_values boolean_reads_as_number type_of_name signed_initial_value unsigned_initial_value_partial loaned_set_result loaned_get_result loaned_set_zero_tries moved_handle_dangles swapped_handles_cross self_move_broken castable_but_throws".split()],
  "Handles refine registers for all programs of constructions, copies, reads, writes and ends of lifetime, and moves of handles without a double of their own. False for moved handles that own a double (witness). Lock outcomes are arbitrary inputs; accesses are atomic.")
c("C36", "proved", [V+"update_selects_input", V+"mode_change"],
  "For every history of mode changes and updates of a chainable controller and every answer of the plugin.")
c("C37", "proved", [V+x for x in "export_states_iff export_refs_iff export_all_or_nothing default_is_empty_override default_export_is_empty foreign_prefix_accepted".split()],
  "The prefix test of the code is a starts-with test: `arm` may export `arm_left/position` (witness). The default export methods never export anything (witness).")
c("C34", "partial", [V+x for x in "load_all_or_nothing bringUp_unconfigured bringUp_inactive bringUp_others bringUp_groups_partial bringUp_exact bringUp_reachable group_half_active_after_rollback group_half_active_by_list group_half_active_after_abort".split()],
  "For every robot description, plugin behaviour, parameter lists and order of the hash maps. All-or-nothing for groups is false in three cases (witnesses): a member refuses the rollback, a member is listed as inactive, the bring-up is aborted by an exception.")
c("C39","partial",[V+x for x in "C39_listed_after_switch C39_listed_are_held_partial C39_hardware_listed_once C39_refused_lists_lost C39_all_lists_foreign C39_stale_between_switches".split()],"After every completed switch the listed claimed interfaces of a controller that names its interfaces individually and did not refuse its last deactivation are exactly its loans. False otherwise: three witnesses (refused deactivation, regex/all configurations, between switches).")
c("C35","partial",[V+x for x in "C35_exports_available_partial C35_rejected C35_not_claimed C35_timeout C35_shutdown C35_full_false".split()],"In every history exported interfaces are available only while the controller is active or being activated, unless an earlier attempt to start it (or shutdown) ended without it; four witnesses show that such an attempt can leave them available.")
c("C33","partial",[V+x for x in "C33_fallbacks_checked_partial C33_unconfigured_following C33_not_exported C33_other_strictness C33_full_false".split()],"For every reachable state and accepted STRICT/BEST_EFFORT request: fallbacks loaded, inactive/active, interfaces available or exported by an inactive controller of the list, or named after a loaded controller that is not inactive. False for the last kind and for other strictness values (witnesses).")
c("C50","partial",[V+"Sat."+x for x in "C50_unusable C50_shape C50_acceleration C50_deceleration C50_velocity_partial C50_stops_in_time C50_position_partial C50_false_unchanged_partial C50_position_overshoots C50_velocity_exceeds C50_within_limits_false C50_false_but_changed C50_false_unchanged_false C50_stop_command_moves C50_asymmetric".split()],"Exact arithmetic. Accelerations: all inputs. Velocities: without commanded accelerations, from a state inside the limits. Positions: position commands without acceleration limits. Witnesses: overshoot of the position limit, velocity limit exceeded when accelerations are commanded, a zero velocity command makes the joint move, `false` although the point was changed, not mirror symmetric.")
c("C51","partial",[V+"LimParam."+x for x in "C51_one_by_one_partial C51_subsequence C51_batch_ignored C51_cannot_disable C51_update_lost C51_number_forgotten C51_range_inverted C51_follow_false".split()],"One parameter at a time, each followed by enforce: exact effect for all histories (except switching position limits off). All histories: the limits are the result of a subsequence of the settings. Witnesses: updates ignored or lost in four ways, inverted range.")
c("C52","partial",[V+"Mock."+x for x in "C52_mirrored C52_unchanged C52_disabled C52_position C52_history C52_mimic_partial C52_error C52_infinite C52_mocked C52_digital C52_velocity_mode C52_acceleration_mode C52_position_mode C52_constant_velocity C52_switch_partial C52_no_throw C52_ok C52_switch_rejected C52_switch_ignored C52_switch_full_false C52_mimic_lags C52_mimic_full_false C52_reconfigure_drifts C52_configure C52_error_leaves_mimic".split()],"All configurations, states, command histories (exact arithmetic). Mode switches: proved if no joint name occurs in an interface name of another joint, false otherwise (joint1/joint10). Mimic joints: proved unless they mimic a mimic joint, false otherwise. Reconfiguring drifts by the offset.")
c("C53","partial",[V+"Async."+x for x in "async_write_only_after_ok_read async_callbacks_exclude_io async_reported_error_is_real_partial async_reports_last_answer async_read_answer_reported_partial async_error_calls_on_error async_pause_completes async_lifecycle_as_sync stale_error_after_configure read_error_lost write_error_lost error_triggers_another_cycle".split()],"All schedules and plugin answers. Reported errors are real since the last activation; after a mere configure a stale ERROR is reported (witness). Every read answer is reported if no cycle is in progress when read is called; otherwise an ERROR can be lost (witness), and an ERROR of write is lost whenever the worker is faster than the controllers (witness). The thread pool class (realtime_tools) is outside the repository: assumptions stated in Hw/Async.lean.")
c("C54","proved",[V+"Exp."+x for x in "C54_listed_states C54_listed_commands C54_one_value C54_all_declared C54_passes_check C54_two_tags_one_interface C54_repeated_command_hides_all C54_acceptance_depends_on_hash_order C54_second_writer_unseen".split()],"Witnesses of what happens without different names: a repeated command interface name hides all command interfaces of the component, acceptance of the description depends on hash order, the second writer of a state name is not seen, two different tags can have the same full name. Joint limiters bound to command handles not included.")
c("C55","partial",[V+"Desc."+x for x in "C55_position_limits C55_velocity_limit C55_effort_limit C55_acceleration_limits C55_jerk_limit C55_no_acceleration_no_limit C55_disabled_interface C55_disabled_joint C55_disabled_values C55_accepted_iff C55_mimic_joints C55_limiters C55_all_limiters C55_soft_inside C55_positions_respect_description_partial C55_soft_positions_respect_description C55_efforts_respect_description C55_second_interface_forgets_urdf C55_bad_number_drops_both C55_deceleration_only C55_negative_velocity_runs_away C55_incompatible_ranges_stop_the_joint C55_mimics_itself".split()],"The limits are characterised exactly; commands respecting them is proved over histories without NaN readings and for consistent bounds. False otherwise, with witnesses: a negative max is taken as a negative maximal velocity and makes the joint run away, ranges that do not overlap are accepted and every position command then throws, a text that is not a number also drops the other bound, a disabled interface hides the URDF from a later one of the same name. The XML parser and urdfdom are not modelled.")
c("C56","partial",[V+"Loop."+x for x in "C56_period_is_elapsed_time C56_periods_add_up C56_on_the_grid C56_never_early C56_no_drift C56_rate C56_overrun_recovers C56_no_burst C56_overrun_recovers_any_rate_partial C56_goes_on C56_sim_spacing C56_sim_drifts C56_blocking_spacing C56_burst_without_management C56_deadline_in_the_past C56_rate_zero C56_count_overflows".split()],"All parts proved for rates that divide 10^9; for other rates a deadline after an overrun may be past by up to a nanosecond per missed cycle (witness). The rounding of double is any function with the relative error of double. Outcomes of the clocks are inputs.")
c("C57","proved",[V+"Sem."+x for x in "C57_ordered C57_ordered_throws C57_sensor C57_force_torque C57_imu C57_magnetic_field C57_pose C57_force_torque_axes C57_get_values C57_default_names C57_gps C57_gps_covariance C57_gps_truncates C57_gps_released C57_set_values C57_led C57_ordered_repeated C57_ordered_not_released C57_pose_initially_turned C57_not_assigned C57_get_values_hazards C57_gps_status_nan C57_led_nan C57_led_partly".split()],"All sessions and histories of answers. Witnesses of what happens otherwise: interfaces repeated or not released make get_ordered_interfaces return true with one missing; use before assignment or after the controller's vector was cleared is undefined behaviour; get_values throws if a handle is busy and appends to a used vector; casting a NaN status is undefined behaviour; an LED takes NaN and is written partly; a pose sensor starts half a turn about x. The range sensor's rounding to float and message headers are not modelled.")
c("C58","proved",[V+"Xml."+x for x in "C58_reads C58_accepts C58_undefined C58_robot_defined C58_interfaces C58_listed C58_limits C58_mimic C58_no_urdf C58_rate C58_kind C58_demo C58_undefined_witness C58_lenient_witness C58_empty_witness C58_kind_witness C58_two_hardware_witness C58_actuator_witness C58_rejected_demo C58_full_demo".split()],"The XML tree is input (tinyxml2 is not in the repository). Witnesses: null dereferences, lenient numbers, empty names, misspelled type silently not loaded.")
c("C59","proved",[V+"Spawn."+x for x in "C59_spawned C59_group C59_refusal_ends C59_exit_code C59_gave_up C59_requests C59_still_loaded C59_three_attempts C59_unload_on_kill C59_unspawned C59_unspawn_requests C59_hw C59_group_demo C59_kill_demo C59_unspawn_demo C59_failures_demo C59_lost_answer_witness C59_respawn_witness C59_midway_witness C59_kept_witness C59_interrupt_witness C59_lock_interrupt_witness C59_hw_witness".split()],"Clients as programs over lossy services of the verified controller manager. Witnesses: a late answer makes the spawner fail although everything was done; re-spawning fails; interrupts with exit code 0; --unload-on-kill that keeps controllers; hardware_spawner always exits with 0.")
c("C60","partial",[V+x for x in "C60_one_entry_per_controller C60_required_interfaces C60_connections C60_connection_interfaces_partial C60_list_throws_iff C60_list_answers_partial C60_exported_interfaces C60_hardware_answers C60_hardware_components C60_interfaces C60_connection_lists_foreign C60_joint_shown_as_connection C60_list_throws C60_held_shown_unclaimed".split()],"False of the code in four cases, each with a witness: a connection lists the interfaces of all connected controllers; a controller named like a joint is shown as a connection; list_controllers throws after an on_cleanup of a chainable controller answered FAILURE; an interface of an unconfigured component is shown as unclaimed while a controller holds it. Everything else is proved for all histories.")
c("C61","proved",[V+x for x in "C61_ok_means_empty C61_refused C61_answer_final C61_finalized_never_unloaded C61_finalized_blocks C61_quiet_reload_succeeds C61_failure_not_undone".split()],"All interleavings with the real-time loop. Witness: a failed reload is not undone (controllers stopped, some unloaded).")
c("C62","partial",[V+"ACtl."+x for x in "C62_thread_callbacks C62_one_update_per_trigger C62_trigger_answer C62_throws_only_stopped C62_callbacks_serial C62_announced_quiet C62_orderly_partial C62_orderly_loaned C62_stop_returns C62_prepare_returns C62_claim_fails_deactivation C62_claim_fails_error C62_claim_fails_raced C62_update_while_inactive C62_throws_after_failed_cleanup".split()],"All interleavings of the real-time thread, the service thread, transitions and the worker. The full claim (update never overlaps a lifecycle callback or the release of the interfaces) is false: witnesses C62_claim_fails_*. C62_orderly_partial proves it under the proviso that each on_deactivate found no cycle in progress, which C62_announced_quiet shows for announced deactivations that do not race a trigger; unconditional for the callbacks that stop the thread.")
c("C63","partial",[V+x for x in "C63_undisturbed C63_controllers_told C63_interfaces_released C63_controllers C63_no_update_after C63_component_told C63_hook_partial C63_claim_fails_grouped C63_component_refuses C63_controller_refuses".split()],"All schedules of the real-time loop between the visits. The claim that a reported success means FINALIZED is proved for all controllers and for components without group (for all components if no cycle runs between their visits); it is false of the code for components in a group (C63_claim_fails_grouped: a group error calls on_error of a finalized component and revives it).")
c("C65","partial",[V+"Boot."+x for x in "C65_waiting C65_accepted C65_limits C65_dead C65_ignored C65_accepted_iff C65_reasons C65_no_throw C65_settings_partial C65_settings_lost C65_no_dangling_partial C65_text_partial C65_dangling C65_text_diverges C65_limits_of_rejected C65_half_loaded C65_constructor".split()],"All histories with handle_exceptions on. Three parts are false of the code and kept with witnesses: after a rejected description the parameters are lost (C65_settings_lost, a theorem about every such history), the real-time thread may use the destroyed resource manager (C65_dangling), an ignored description replaces the text given to controllers (C65_text_diverges). Also: limits of a description rejected in the constructor stay (C65_limits_of_rejected); with handle_exceptions off a rejected description is in use half loaded (C65_half_loaded).")
c("C64","proved",[V+"Diag."+x for x in "controllers_level controllers_message controllers_values hardware_level hardware_message hardware_values manager_level unsampled_silent".split()],"All statistics (NaN and infinities included), thresholds, rates and lists; exact characterisations of levels, blamed names and values. Texts are lists of parts; mergeSummary of the external diagnostic_updater is taken from its documentation.")
c("C66","partial",[V+"RtList."+x for x in "C66_no_conflict C66_snapshot C66_official C66_takes_official C66_rt_wait_free_partial C66_service_proceeds C66_deadlock_permanent C66_deadlock C66_deadlock_write C66_switch_blocks C66_first_cycle_race".split()],"All schedules of any number of service threads and the real-time thread (sequentially consistent memory). Safety is proved for schedules whose first update_and_get_used_by_rt_list is not interrupted and refuted without that (C66_first_cycle_race). Never waiting for ever is false of the code: an update with a failing controller, or a write with DEACTIVATE, wants the lock a list switch holds while it waits for the loop (C66_deadlock, permanent by C66_deadlock_permanent); a waiting switch_controller blocks the loop until its timeout.")
c("C67","partial",[V+"CM."+x for x in "activity_reports activity_kept activity_current_partial activity_write activity_update activity_stale_cleanup activity_stale_read activity_stale_write activity_stale_configure activity_stale_shutdown activity_stale_timeout activity_current_false".split()],"All histories: announced operations leave the present states on the latched topic, and every operation outside an exact list (Hides) keeps a correct topic correct. The full claim is false of the code (activity_current_false): cleanup_controller, failed configure and unload, read and write errors, shutdown and a switch that timed out change states without a message or after the last one.")
c("C68","partial",[V+"Cli."+x for x in "C68_unload C68_cleanup C68_set_hw C68_switch_strict C68_switch_partial C68_set_state_partial C68_load_partial C68_one_request C68_set_state_requests C68_load_requests C68_refused C68_interrupted C68_activate_witness C68_deactivate_witness C68_not_inactive_witness C68_best_effort_witness C68_load_again_witness C68_set_state_no_transition_witness".split()],"the full claim (exit code 0 of set_controller_state / load_controller --set-state active means that the state was reached) is false: the verbs pass True (BEST_EFFORT) as strictness; proved up to requests STRICT would have rejected")
c("C69","partial",[V+x for x in "C69_absent_untouched C69_flag_iff_changed C69_throws_iff C69_position_within_partial C69_position_rate_partial C69_step_error C69_velocity_within_partial C69_effort_within C69_acceleration_jerk_within C69_soft_position_within C69_soft_velocity_within_partial C69_soft_effort_within_partial C69_step_too_large C69_velocity_overruns C69_overflow_unlimited Lim.enforceR_exact Rounding.binary64_err".split()],"with IEEE 754 rounding, for every rounding that is monotone, odd, idempotent and never NaN (binary64 is proved to be one). The bounds on positions, velocities, efforts, accelerations and jerks hold exactly under the hypotheses of C28; the step bound of C29 holds up to the proved rounding error and fails literally (witness). Missing: the hypotheses of C28 (no NaN readings etc.), the sign of zero")
c("C70","partial",[V+"Params."+x for x in "C70_files_partial C70_bare C70_first_file C70_value_partial C70_value_none C70_node_args_partial C70_spawned_partial C70_stale C70_last C70_collect C70_given C70_overrides_false C70_forwards_false C70_wildcard_wins C70_own_files_false C70_refused C70_custom_closed C70_type_partial C70_fallbacks_partial C70_empty_value C70_untouched C70_missing".split()],"All documents, file lists, namespaces, histories of spawners. The full statement is false of the code in four ways, each kept as a definition (Forwards, Overrides, OwnFiles, Arrives) and refuted: a bare name in a namespace hides the whole file, the type comes from the first file although later files override, the files of an earlier spawner stay, a refused params_file is not noticed. YAML parsing and ros2param's conversion are not modelled.")
c("C71","partial",[V+"Stat."+x for x in "C71_sensible_partial C71_report_partial C71_variance C71_deviation C71_published_deviation C71_overflow runR_exact".split()],"IEEE 754 binary64, samples up to half of the largest double in size (for larger ones the claim is false: C71_overflow, average infinite and then NaN), fewer than 2^64 samples. The variance (argument of the square root) is within 2 n K of the exact one, K about 40 * 2^-53 * M^2, for samples of at most M <= 2^480 in size and at most 2^53 of them (C71_variance); std::sqrt may answer anything within half a unit in the last place (C71_published_deviation).")
c("C72","proved",[V+x for x in "C72_simple_accuracy C72_simple_accuracy_actuator C72_simple_actuator_round_trip C72_simple_joint_round_trip C72_differential_accuracy C72_differential_accuracy_actuator C72_differential_actuator_round_trip C72_differential_joint_round_trip C72_fourbar_accuracy C72_fourbar_accuracy_actuator C72_fourbar_actuator_round_trip C72_fourbar_joint_round_trip C72_simple_monotone C72_simple_zero C72_two_zero C72_simple_nan C72_isolated C72_extreme".split()],"Explicit error bounds; no contraction to fused multiply-add. Outside of the stated range the claim is false (C72_extreme: a NaN reduction is accepted by the constructor, a tiny one gives infinite joint positions).")
c("C73","partial",[V+"Argv."+x for x in "C73_per_controller C73_all_alike_partial C73_names C73_own_options C73_refused C73_joined_value C73_joined_flags C73_flag_value_refused C73_ambiguous C73_separator C73_negative C73_together C73_launch_types C73_launch_table_partial C73_launch_names_partial C73_launch_dict C73_false_typo C73_false_before C73_false_name C73_false_equals C73_false_short C73_false_documented C73_false_table C73_false_twice".split()],"Proved: every line written with the options of the help text in any order, number and spelling, in both modes, gives every controller exactly its options; on every accepted line the controllers are the words after --controller and depend only on their own words; typing errors are refused without --controller; launch tables with texts the shell leaves alone (or quoted) mean what they say. False, with witnesses: with --controller typing errors, names and options before the first --controller are dropped silently, --controller=b becomes a ROS argument, documented unquoted ROS arguments are refused, ROS arguments of a launch table are taken apart by the shell, the list helper changes the list of its caller.")
c("C74","partial",[V+"Flow."+x for x in "C74_readings C74_last_reading C74_readings_of_read C74_order C74_chain C74_exported C74_command C74_limited_partial C74_delivered_partial C74_bystander_partial C74_false_switch C74_false_limited C74_false_failed".split()],"Proved for all cycles: one set of readings, the last of the read part; chained references and exported states of the same cycle; a command interface has what its holder left. Proved for cycles without an executed switch: the driver finds what the limiters left; and in every cycle for all interfaces the switch or failure has nothing to do with. The full claim is false: the limiters run before manage_switch (C74_false_switch), and the command of a failed update is sent (C74_false_failed).")
c("C75","partial",[V+"LimParam."+x for x in "C75_names C75_read C75_throws C75_complete_partial C75_flag_alone C75_number_alone C75_wrap_alone C75_documented_false C75_integer_throws C75_other_joint C75_soft C75_soft_example C75_soft_values C75_soft_one_partial C75_soft_batch_ignored C75_init C75_started C75_init_nan C75_init_integer".split()],"Exact effect of reading for all tables (and when a wrong type throws); documented effect if each limit is given completely or not at all; init and soft limits exactly; names of parameters are unambiguous. Documented effect is false for limits given in part (flag alone switches an existing limit off, number alone and angle_wraparound alone are ignored); at init a flag alone makes a limit that is NaN and never limits; the documented example of soft limits is not taken; changes of several soft numbers may go unreported.")
c("C76","partial",[V+"View."+x for x in "C76_no_diagram_iff C76_arrows_sound C76_arrows_partial C76_interface_arrows C76_wrong_arrow C76_crash C76_joint_name C76_fields_iff C76_fields_short C76_boxes C76_merged_fields C76_status C76_status_all C76_status_not_found C76_status_silent".split()],"Proved: every arrow belongs to a real request; the arrows are exactly the requests if no two controllers export an interface of the same name (C76_arrows_partial) and all asked-for interfaces are still exported; exactly when no diagram is drawn; exactly when the fields are separate; what the status view prints for all sequences. False otherwise: C76_wrong_arrow, C76_crash, C76_joint_name, C76_merged_fields, C76_status_not_found, C76_status_silent.")
c("C77","partial",[V+"Gui."+x for x in "C77_managers_partial C77_managers_wrong C77_target C77_table C77_rows_partial C77_click_partial C77_wrong_manager C77_vanished C77_rows_false C77_entry_partial C77_asks C77_failed_first C77_done C77_menu C77_hw_entry C77_hw_rows_partial C77_hw_click_partial C77_hw_menu C77_finalized".split()],"Proved for all sessions: what a click sends goes to the manager shown as chosen (C77_target), it is an entry of the menu for the row clicked, and the row is of this manager's last answer unless asking it raised an exception (C77_click_partial); the meaning of OK answers for all interleavings. False: other services ending in list_controllers are offered as managers; after an exception the table of the manager chosen before stays and clicks act on the new one; when the manager is gone the tables stay and requests go nowhere; finalized controllers are offered Load, which is always refused.")
c("C78","partial",[V+"Lists."+x for x in "C78_controllers C78_columns C78_none C78_types C78_interfaces C78_answer C78_components C78_complete C78_states_available_false".split()],"All clauses about reading back the output are proved for all answers, options and colours. Partial because the help of list_hardware_interfaces promises available interfaces, but state interfaces of unconfigured components are printed without any mark (C78_states_available_false refutes the full statement AvailableStatement). Names must be non-empty without blanks or escape characters.")
c("C79","partial",[V+"Names."+x for x in "C79_prefix C79_empty C79_defined C79_undefined C79_relative_partial C79_relative_false C79_again C79_nodes_partial C79_nodes_false C79_node_chars C79_topic".split()],"Parts, definedness and idempotence are proved for all texts. False in general: the result begins with a slash in the root namespace with ~/ (C79_relative_false), and names that differ in case or slashes only share a node name and topic (C79_nodes_false); proved under the conditions stated.")
c("C80","partial",[V+"HwStatus."+x for x in "C80_history C80_messages C80_no_memory C80_when C80_rate C80_every_tick C80_refused C80_destroyed C80_goes_on C80_before_on_init C80_after_failed_init C80_initialised_partial".split()],"Contents, times and conditions of messages are proved for all plugins and schedules. The last sentence is false: the timer can ask the plugin before on_init and after on_init failed (C80_before_on_init, C80_after_failed_init); C80_initialised_partial proves it for schedules in which the timer does not fire until initialisation is over and it succeeded.")
c("C81","partial",[V+"Argv."+x for x in "C81_hw C81_un C81_hw_any C81_un_any C81_hw_requests C81_un_requests C81_manager_partial C81_hw_times C81_un_times".split()],"Everything but the last sentence is proved for all lines. The last one is false without -c in a namespace: the default of the unspawner is absolute, the one of the hardware spawner relative (C81_manager_partial: the same one if and only if there is no namespace or -c is given). argparse is modelled as in C73.")
c("C82","partial",[V+"Pub."+x for x in "C82_registered C82_exact_partial C82_dangling C82_unload C82_false".split()],"False as stated: a load that fails after the plugin was created (name taken, on_init fails or throws, own fallback controller, parameter of a wrong type) leaves twelve registered pointers to destroyed statistics (C82_dangling: always, until a controller of that name is unloaded). Proved for all histories without such a load (C82_exact_partial); that nothing is missing and no two controllers share statistics is proved for all histories. pal_statistics is not in the repository: the theorems but C82_unload hold whether it unregisters all variables of a name or only the oldest. Statistics of hardware components are not modelled here.")
c("C83","partial",[V+"Pub."+x for x in "C83_registered C83_exact_partial C83_removed C83_roundtrip C83_dangling C83_false".split()],"False as stated: a description that cannot be loaded leaves every registration made so far, and by its components, pointing to destroyed interfaces (C83_dangling). Proved for all histories without such a failure (C83_exact_partial); that no stored interface is missing from the registry is proved for all histories. Assumed: no interface name ends in .is_limited. pal_statistics is not in the repository: the theorems hold whether it unregisters all variables of a name or only the oldest.")
c("C84","partial",[V+"Lc."+x for x in "C84_rest_partial C84_answers_partial C84_sequential C84_get C84_next_transition C84_stuck C84_false".split()],"False as stated: a reader interrupted between its read of the node's state and its store writes back a state that is gone, and every answer is wrong until the next transition (C84_false, C84_stuck). Proved for all histories in which no transition is taken up between a reader's read and its store (which includes all histories without concurrent reads), and that an undisturbed transition repairs the copy. The state machine of the lifecycle node (rcl_lifecycle) is modelled from its documentation, not from /repo.")
c("C85","proved",[V+"Argv."+x for x in "C85_line C85_request C85_any".split()],"argparse is modelled as in C73, the options of ros2cli itself from its documentation; lines with --ros-args are not modelled. That of two lists of controllers only the last is asked for is part of the statement; a user may expect otherwise.")
c("C86","partial",[V+"Check."+x for x in "C86_node C86_running C86_together_partial C86_together_false C86_namespace C86_root C86_joints".split()],"When the helpers pass is characterised exactly, for all sequences of answers. Two parts are false of the code: the controllers need not have been in the state at the same time (C86_together_false; they were if none leaves it while the check runs, C86_together_partial), and with the namespace / the check fails whatever runs (C86_root). Joint names given twice are compared as sets only (the last clause needs distinct names).")
c("C87","proved",[V+"Util."+x for x in "C87_has C87_remove C87_add C87_add_nodup C87_unique C87_strip C87_strip_same".split()],"is_unique for every sort that yields a permutation in an antisymmetric order. On maps the functions look at the keys (the statements are about vectors).")
c("C88","proved",[V+"Pub."+x for x in "C88_hardware C88_names".split()],"For handle_exceptions = true (the default) and a controller manager started without a description, or with one that is accepted (C65_constructor). The values the registered pointers lead to are C71.")
