
## 6 Where the code violates a natural property
Every item is a theorem (a concrete history or input evaluated in the kernel) unless marked (observed).
* C01: `error()` leaves FINALIZED. C03: ERROR reported although the component ends in the requested state. C04/C26: interfaces
  stay available after a transition that ended in `on_error`; an exception in `read`/`write` bypasses the group; a later DEACTIVATE
  masks an earlier ERROR of the same `write`; group state goes stale; DEACTIVATE configures an unconfigured group member.
* C06: an exported reference erased while claimed ends up with two holders. C11: shortcut chains are misordered, and so are some topologies of three layers in which every link goes from one layer to the next.
* C14/C35: a rejected, skipped or timed-out request, and shutdown, leave exported interfaces available; a rejected request leaves
  the skip flag of asynchronous controllers set. C16: a restarted controller takes interfaces from their holder.
* C17/C20: BEST_EFFORT starts a controller whose follower does not start, or stops a follower under a running one.
  `propagate_deactivation` stops at the first controller (`break`). C18: users through regular expressions or ALL are not recorded.
* C19: failed restart and shutdown leave chained mode on. C21: after a half-failed configuration the chain group is empty and nothing stops.
* C22: a rate can never be raised again; the "closest" rate is not the closest; an asynchronous controller that misses a trigger
  loses time. C23: the first real-time cycle can race with a second list change. C24: stale look at `do_switch`.
* C27: fallback controllers are not recorded as users of their hardware; a name owned by two components is recorded for one.
* C28/C29/C40: see the heads of the files (NaN readings, first cycle, `std::clamp` with lo > hi, braking against acceleration).
* C32: statistics stay NaN until the first reset. C33: validation holes of fallback lists. C34: groups are not all-or-nothing.
* C37: prefix test is starts-with; default exports are empty. C38: moved handles dangle. C39: stale claimed lists.
* C43: a chain member can be swapped out under an observer; stopping a controller that only reads a state interface of a driven controller takes the latter out of chained mode while its driver keeps running. C44: nothing mapped / reductions swapped.
* C47–C49: unsigned wrap-around, `+-1`, truncation of integer arrays.
* C50: a zero velocity command without positions moves the joint; the second braking check is asymmetric; the velocity limit is
  exceeded with commanded accelerations; positions overshoot; `false` although the point was changed.
* C51: of several numbers set at once only the last decides whether anything changed; position limits cannot be switched off; of two
  settings between two `enforce` the first is lost; a number without its flag is forgotten; a range can be inverted.
* C52: with joints `joint1` and `joint10` command mode switches of the mock hardware go to the wrong joint (substring test); mimic joints of
  mimic joints lag by a period; the offset is added again by every configuration and not at all in velocity and acceleration mode; an infinite
  command leaves mimic joints behind.
* C53: an ERROR of an asynchronous plugin's read is lost if its cycle ends between load and trigger; an ERROR of its write is lost
  whenever the next cycle is over before write() is called; a component that is configured again after an ERROR reports that old
  ERROR at its first read; the read call that reports ERROR has already triggered another read/write of the plugin.
* C54: a command interface name exported twice (two components, or a joint and a gpio of one component) throws out of the import: no command interface of the component is listed, also unique ones, although `validate_storage` passes; with two components, whether it passes depends on the iteration order of an `unordered_map`. A state name exported twice: the second component writes to a handle nobody reads.
* C55: a negative `max` of a velocity interface is stored as a negative `max_velocity` (only `min` is made positive); with it the position limiter pushes a joint told to stay further in every cycle. A `min` above the URDF's upper limit is accepted silently; afterwards every position command of the joint throws. An unreadable `max` also drops the `min`. A joint mimicking itself is accepted.
* C56: `update_rate: 4294967296` passes the check and divides by zero; for rates that do not divide 10^9 the loop may start a cycle
  right after an overrun instead of waiting; an overrun of more than 2^31 cycles is undefined behaviour.
* C57: before its first reading a pose sensor reports half a turn about x (`data_` starts with `x = 1, w = 0`); an LED accepts NaN and is written partly
  if one handle is busy; `get_ordered_interfaces` returns true with an interface missing if another one is there twice or was not
  released; `get_values` throws if a handle is busy; the GPS status is cast from NaN before the hardware wrote it.
* C58: a comment-only XML document and an sdf without model are dereferenced through null; `rw_rate="100abc"` is 100; an unreadable mechanical
  reduction silently becomes 1; a `size` beyond int throws `out_of_range` and a bad `mimic` `invalid_argument` instead of the documented
  `runtime_error`; blank names are accepted; `type="System"` is accepted but nothing is loaded; a second `hardware` tag replaces the plugin
  but keeps group and parameters; in actuators `actuator1` is added to the actuators written.
* C59: a late answer to `load_controller` makes the spawner repeat the request, which is refused, so that it exits with 1 although the controller is loaded;
  spawning an active controller exits with 1; an interrupted spawner exits with 0 whatever it did; interrupted midway with `--unload-on-kill`, it leaves its controllers active
  (the STRICT deactivation names a controller that is not loaded); `inactive` and `load-only` controllers are not unloaded; an interrupt while waiting
  for the lock raises an exception; `hardware_spawner` exits with 0 even if the component does not exist or its transition failed.
* C60: a chain connection of `list_controllers` lists the interfaces of all connected controllers; a controller named like a joint is shown as a
  connection; after a chainable controller's `on_cleanup` answered FAILURE the next `list_controllers` throws `std::out_of_range`; an interface
  that a controller holds is shown as unclaimed after its component was unconfigured.
* C61: a FINALIZED controller can never be unloaded and blocks `reload_controller_libraries` for ever; a reload that fails midway is not undone.
* C62: deactivations by the real-time thread (hardware ERROR, fallbacks, ERROR of the controller itself) run `on_deactivate` and take the interfaces
  back while the worker is in `update`; the trigger that reports an ERROR starts the next `update`; the announcement of `switch_controller` can
  fall between the test of the flag and the trigger; a trigger accepted before the deactivation is served after it; a controller whose clean-up
  failed is INACTIVE without a thread, and once activated every trigger throws.
* C63: while the manager shuts down, a fault of one member of a hardware group calls `on_error` of members that are already FINALIZED and brings them back to
  UNCONFIGURED; the shutdown reports success. A component that refuses `on_deactivate` stays ACTIVE, never gets `on_shutdown` and is still written to; a
  controller that refuses stays ACTIVE without interfaces and its `update` is called; a component that ends FINALIZED through `on_error` is reported as a failure.
* C65: after a rejected description the resource manager is replaced by one with default settings: `allow_controller_activation_with_inactive_hardware` and
  `deactivate_controllers_on_hardware_self_deactivate` are ignored from then on. The replacement happens while the real-time thread may be inside the old
  one (use after free). A description that is ignored still replaces the text handed to controllers loaded later. The joint limits of a description
  rejected in the constructor stay in force. With `handle_exceptions: false` a description with a missing plugin is reported as rejected but the manager
  goes on with the part that was loaded (the flag is set before the loop).
* C64: a statistic without a sample (or NaN) raises no alarm, so an active controller that is never updated is silent; while no component is active the
  hardware diagnostic lists no states at all; the diagnostic of the manager itself never refreshes its thresholds (it uses what the other two fetched).
* C66: `publish_activity` in `update` (a controller failed) and `get_loaded_controllers` in `write` (DEACTIVATE) lock the mutex a service holds while it waits
  in `switch_updated_list` for the real-time loop to come round: both wait for ever. If the service is `switch_controller` waiting for the loop, the loop
  stands still until the timeout (1 s by default). Until the used index was stored once (-1) services do not wait, so the first cycle can iterate over a
  list that is being edited if it is interrupted inside `update_and_get_used_by_rt_list`. The indices are plain `int`s.
* C67: `cleanup_controller`, failed `configure_controller`/`unload_controller`, errors in `read`/`write`, `shutdown_controllers` and a timed-out switch change states without telling `~/activity` (`activity_stale_*`); a component stopped by `write` is announced before its controllers are deactivated, so they stay ACTIVE on the topic.
* C68: `set_controller_state` and `load_controller --set-state active` pass `True` as the strictness of the switch request; that is 1, BEST_EFFORT. A request that cannot be carried out is then answered with OK and the verb prints success with exit code 0: `C68_activate_witness` (a controller whose following controller is not running is not activated), `C68_deactivate_witness` (a controller that is used by another one goes on driving the robot). Observed: `--switch-timeout` of these verbs has no `type=float`, so a value given on the command line reaches `switch_controllers` as text.
* C69: in `double`, consecutive limited positions can differ by more than `max_velocity * dt` (by a rounding error, bounded in `C69_step_error`), and a limited velocity can carry the joint beyond its position limit by a rounding error. All position, velocity, effort, acceleration and jerk bounds themselves hold exactly in `double`.
* C70: (a) in a namespace, a file with a section under the controller's bare name is ignored as a whole, even if it has a section under the full name (`C70_forwards_false`), with a message in the log and exit code as if nothing happened; (b) `type` and `fallback_controllers` come from the first file that has them, while the help text says later files override (`C70_overrides_false`); (c) a value under `/**` beats the controller's own section under its absolute name, but not the one under its bare name (`C70_wildcard_wins`); (d) `params_file`, `node_options_args`, `fallback_controllers` stay on the controller manager after the controller is unloaded: spawning again without files uses the old ones (`C70_stale`, `C70_own_files_false`); (e) the answer to setting `params_file` is not looked at (`C70_refused`); (f) a controller with custom node options ending in `--` never gets its files (`C70_custom_closed`); an empty YAML file raises `TypeError` and ends the spawner.
* C71: two samples of opposite sign near the largest double make the average infinite, and the next one makes it NaN (`C71_overflow`); up to half of the largest double the average stays between the samples.
* C72: the transmissions' constructors refuse only a zero reduction: a NaN reduction is accepted and makes every mapped value NaN, a subnormal one gives infinite joint positions (`C72_extreme`).
* C73: on a line with `--controller` the spawner drops silently what it does not understand: `--controller a --in-active` activates `a` (`C73_false_typo`); options and names before the first `--controller` are dropped (`C73_false_before`, `C73_false_name`); `--controller a --controller=b` makes `b` a ROS argument of `a` (`C73_false_equals`); the ROS arguments of doc/migration.rst:114-124 end with exit code 2 (`C73_false_documented`), and so do quoted ones that begin with `-p`, `-c`, `-u` or `-h` (`C73_false_short`); `ros_args` of a launch table with a blank end with exit code 2 because of `shell=True` (`C73_false_table`); `generate_controllers_spawner_launch_description` appends to the caller's list of names (`C73_false_twice`).
* C74: `enforce_command_limits` runs before `manage_switch` (controller_manager.cpp:3582 and 3584-3595): what a controller commands from `on_activate` reaches the driver in the same cycle without having passed the limiters of the cycle, which alone see the joint as a whole (`C74_false_switch`); a limiter bound to the handle still applies (C40). A command written by an `update` that then reports an error is limited and sent (`C74_false_failed`).
* C75: `get_joint_limits` (joint_limits_rosparam.hpp:231-379) does not do what its documentation says when a limit is given in part: `has_velocity_limits: true` without the number switches an existing limit (e.g. of the URDF) off, a number without the flag is ignored, `angle_wraparound` without `has_position_limits` is ignored. At `init` all parameters are declared first, so that a flag without its number gives a limit that is on and NaN, which never limits anything. The documented YAML example of soft limits (lines 650-659, no `has_soft_limits`) is not taken. The soft `check_for_limits_update` reports a change only if the last number of the batch is one. An integer (`max_velocity: 2`) makes `init` fail and `get_joint_limits` throw.
* C76: `view_controller_chains` keys its port map by the interface name without the controller (view_controller_chains.py:57, 146): if two controllers export interfaces of the same name, arrows may go to the wrong controller, depending on the order of a Python set; after the cleanup of a controller others ask for it ends with a `KeyError`; a controller named like a joint is taken for a predecessor. The separator between fields is left out where `ind == len(name) - 1` (length of the name, lines 45, 53, 63, 71): a controller reading effort, position and velocity of joint1 to joint6 gets a field with two ports. `view_hardware_status` says "not found" (and exits with 0) of a component that happens not to be among the first ten messages, and prints nothing, without a word, if the device belongs to another component than the one asked for.
* C77: `rstrip("list_controllers")` strips characters, not a suffix: a service "/ui/my_list_controllers" makes the window offer a manager "/ui/my" (`C77_managers_wrong`).
* C77: `_list_controllers` catches only `RuntimeError`, but a missing service raises `ServiceNotFoundError`, a plain `Exception`: after choosing another manager the table of the old one
  stays, and clicks act on controllers of the same name of the new one (`C77_wrong_manager`); if the chosen manager disappears the tables stay and clicks call services of "" for ever (`C77_vanished`).
* C77: finalized controllers are offered "Load (unconfigured)", always refused (`C77_finalized`). (observed) the type shown for controllers not loaded is read from parameter `name` instead of `name.type`.
* C78: `list_hardware_interfaces` ("the list of available command and state interfaces") prints state interfaces that are not available like all others, without a mark (`C78_states_available_false`). (observed) the completers ask for a state "configured", which no controller ever has, and never offer finalized controllers, which could be unloaded.
* C79: `resolve_tf_prefix("~/arm", "/")` is "/arm/", with the leading slash it promises to remove (a node in the root namespace), and so is ("/~/arm", "/ns"): only one slash is removed (`C79_relative_false`). Components "Arm" and "arm", or "left/arm" and "left_arm", get nodes of the same name and publish on the same status topic (`C79_nodes_false`).
* C80: `update_hardware_status_message` can be called before `on_init` (the timer is made before it) and after an `on_init` that failed, until the component is destroyed (`C80_before_on_init`, `C80_after_failed_init`); `init_hardware_status_message` is always called before `on_init`; what the plugin writes into the message is lost after each tick because the timer works on a copy (`C80_no_memory`).
* C81: without `-c` the unspawner talks to `/controller_manager` while spawner and hardware spawner started in the same namespace talk to the controller manager of the namespace (`C81_manager_partial`); a component or controller named like an option can only be given after `--`.
* C82: `load_controller` registers pointers into the statistics of the new controller before the checks that can still fail, and does not unregister them then: every late failure (duplicate name, `on_init` failing, own fallback, wrong parameter type) leaves twelve dangling pointers that each publication reads (`C82_dangling`, `C82_false`).
* C83: a robot description that cannot be loaded (`ResourceStorage::clear`, resource_manager.cpp:1331-1345, 1616) destroys the interfaces of its components without unregistering them: every publication of `introspection_data` reads them through dangling pointers, and after the retry each value is registered twice (`C83_dangling`, `C83_false`). Removing the interfaces a controller exported before such a failure dereferences a null pointer (last example of `Props/C83_Introspection`).
* C22: an asynchronous component at the manager's rate that misses a read or write is given only the manager's last period on the next one (`C22_hardware_loses_time`); one with a lower rate gets the true time (`C22_hardware_periods_partial`).
* C84: `get_lifecycle_id` stores what it read of the node without checking that the copy is still the one it loaded (a plain store instead of a compare-exchange): interrupted in between by a transition of another thread, it writes back a state that is gone. An inactive controller is then taken for active (updated, its chained mode fixed) until its next transition (`C84_false`).
* C85 (by design of argparse, observed): `ros2 control switch_controllers --activate a --activate b` asks for b only, without a word about a.
* C86: `check_controllers_running` ticks each controller off when it is first seen in the state: it passes although the controllers never were in it together (`C86_together_false`); with namespace `/` it looks for nodes in the empty namespace and always fails (`C86_root`).
* (observed) `check_following` has no cycle guard; duplicate imported reference throws;
  `checkFallback` uses `.at` on a possibly missing key.

## 7 How the theorems are tested
`tools/mut.py` applies one realistic bug at a time to a scratch copy of the model, rebuilds, and records in `seeded/LOG.jsonl` the edited
definition, the edit, the claim it breaks, the theorems that stopped compiling and those that were tightened because they
survived. Edits that only reach proofs are not counted: a mutation is chosen so that an English claim becomes false.
