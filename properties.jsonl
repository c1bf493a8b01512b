{"id": "C01", "title": "Hardware lifecycle follows the documented state machine", "statement": "Whatever sequence of initialize/configure/activate/deactivate/cleanup/shutdown/error/read/write calls is made on a hardware component and whatever its plugin callbacks return, the reported lifecycle state only ever changes along the documented edges of the managed lifecycle, and it is never ACTIVE unless on_activate was the last transition callback that succeeded.", "quantifier": "all call sequences of any length, all plugin return values (SUCCESS/FAILURE/ERROR at every call)", "why_tests_cant": "The number of call/return-value histories is infinite; tests pick a few scripted plugins.", "anchors": ["hardware_interface/src/hardware_component.cpp: HardwareComponent::initialize/configure/cleanup/shutdown/activate/deactivate/error/read/write"]}
{"id": "C02", "title": "Driver read/write are only invoked in permitted states", "statement": "A hardware plugin's read is only ever invoked while the component is INACTIVE or ACTIVE, and its write only while it is ACTIVE (never for sensors), for every history of calls and plugin results.", "quantifier": "all call histories and plugin behaviours", "why_tests_cant": "Needs every history, including failures in the middle of a transition.", "anchors": ["hardware_interface/src/hardware_component.cpp: HardwareComponent::read, HardwareComponent::write", "hardware_interface/include/hardware_interface/types/lifecycle_state_names.hpp"]}
{"id": "C03", "title": "set_component_state result tells the truth", "statement": "set_component_state(name, target) returns OK exactly when the named component exists, the target is a primary state reachable by the documented transitions, and the component is in the target state afterwards; otherwise it returns ERROR; other components' lifecycle states are never changed.", "quantifier": "all component sets, current states, targets and plugin results", "why_tests_cant": "4x4 state table times all plugin outcomes times unknown names/ids.", "anchors": ["hardware_interface/src/resource_manager.cpp: ResourceManager::set_component_state, ResourceStorage::set_component_state"]}
{"id": "C04", "title": "Interfaces are available exactly while their hardware is configured", "statement": "After any history of component state changes and read/write cycles, a hardware component's command and state interfaces are reported available iff the component is configured (INACTIVE or ACTIVE); unconfigured or finalized hardware never exposes available interfaces.", "quantifier": "all histories of component transitions, read/write cycles and failures", "why_tests_cant": "Histories are unbounded, and failure can occur at each callback.", "anchors": ["hardware_interface/src/resource_manager.cpp: configure_hardware, cleanup_hardware, shutdown_hardware, remove_all_hardware_interfaces_from_available_list, read, write"]}
{"id": "C05", "title": "A command interface is loaned to at most one holder", "statement": "claim_command_interface succeeds only if the interface is available and not claimed; while a loan is alive every other claim of that interface throws; releasing the loan makes exactly that interface claimable again.", "quantifier": "all interleaved histories of claims and releases over any set of interfaces", "why_tests_cant": "Exclusivity is a statement about every history.", "anchors": ["hardware_interface/src/resource_manager.cpp: claim_command_interface, release_command_interface, command_interface_is_claimed", "hardware_interface/include/hardware_interface/loaned_command_interface.hpp"]}
{"id": "C06", "title": "Only active controllers hold command interfaces and each interface has one holder (whole system)", "statement": "In every state reachable by load/configure/cleanup/unload/switch/update/read/write/hardware-state operations, each claimed command interface is held by exactly one controller, each held interface is marked claimed, and a controller that is not active holds none.", "quantifier": "all reachable states of the controller manager, all plugin behaviours, any number of controllers", "why_tests_cant": "Invariant over unbounded operation histories.", "anchors": ["controller_manager/src/controller_manager.cpp: activate_controllers, deactivate_controllers, update, manage_switch", "hardware_interface/src/resource_manager.cpp: claim_command_interface"]}
{"id": "C07", "title": "Controller names are unique and commands address at most one controller", "statement": "No history of load, unload, configure and switch operations produces two loaded controllers with the same name; a second load of the name fails and leaves the list unchanged.", "quantifier": "all operation histories", "why_tests_cant": "Unbounded histories.", "anchors": ["controller_manager/src/controller_manager.cpp: add_controller_impl, load_controller, unload_controller"]}
{"id": "C08", "title": "Unload only removes inactive controllers and nothing else", "statement": "unload_controller returns OK iff the controller exists, is not active and not finalized and its cleanup succeeds; on OK precisely that controller disappears, all others keep state and order; on ERROR no controller disappears.", "quantifier": "all states, names, cleanup results", "why_tests_cant": "All list shapes and plugin outcomes.", "anchors": ["controller_manager/src/controller_manager.cpp: unload_controller, cleanup_controller, shutdown_controller"]}
{"id": "C09", "title": "Configure never disturbs other controllers", "statement": "configure_controller of an active, finalized or unknown controller is rejected without change; otherwise it returns OK only if that controller ends INACTIVE; in every outcome the set of loaded controllers and the lifecycle state of every other controller are unchanged (reordering only).", "quantifier": "all states, controllers, plugin results", "why_tests_cant": "The reordering goes through arbitrary chain graphs.", "anchors": ["controller_manager/src/controller_manager.cpp: configure_controller"]}
{"id": "C10", "title": "Reordering never loses or duplicates a controller", "statement": "After configure_controller the execution list is a permutation of the previously loaded controllers.", "quantifier": "all chain topologies, including cyclic and diamond ones", "why_tests_cant": "Graph shapes are unbounded.", "anchors": ["controller_manager/src/controller_manager.cpp: update_list_with_controller_chain, configure_controller"]}
{"id": "C11", "title": "Chained controllers run in data-flow order", "statement": "In the execution list computed at configuration, a controller that writes reference interfaces of another chainable controller is placed before it (so that commands propagate in one cycle).", "quantifier": "all acyclic chain topologies and configure orders", "why_tests_cant": "Unbounded DAGs and insertion orders.", "anchors": ["controller_manager/src/controller_manager.cpp: update_list_with_controller_chain, build_controllers_topology_info"]}
{"id": "C12", "title": "Chain topology is symmetric and reflects exactly the chained interfaces", "statement": "B is listed as following A iff A is listed as preceding B, and this is iff A claims a reference interface exported by B or B reads a state interface exported by A.", "quantifier": "all sets of configured controllers and interface configurations", "why_tests_cant": "Unbounded topologies.", "anchors": ["controller_manager/src/controller_manager.cpp: build_controllers_topology_info, controller_chain_spec_cleanup"]}
{"id": "C13", "title": "Chain groups are exactly the connected chains and their computation terminates", "statement": "The group used for error propagation contains exactly the controllers connected through chain links, for cyclic topologies too.", "quantifier": "all topologies", "why_tests_cant": "Unbounded, cyclic graphs.", "anchors": ["controller_manager/src/controller_manager.cpp: get_full_chain_spec, build_controller_full_chain_map_cache"]}
{"id": "C14", "title": "A strict switch request that fails validation changes nothing", "statement": "With STRICT strictness, if any named controller is not loaded, unconfigured, already in the requested state, conflicting, or its chain/interfaces preconditions fail, switch_controller returns ERROR and no controller or hardware lifecycle state, claim or chained mode is changed.", "quantifier": "all states and requests", "why_tests_cant": "Every combination of request lists and states.", "anchors": ["controller_manager/src/controller_manager.cpp: switch_controller_cb, clear_requests"]}
{"id": "C15", "title": "OK from switch_controller means the switch happened", "statement": "If switch_controller returns OK after performing a switch, every controller in the effective activate list is active and every controller only in the effective deactivate list is not active.", "quantifier": "all states, requests, plugin outcomes and RT cycles in between", "why_tests_cant": "Failure can occur in each callback and each schedule.", "anchors": ["controller_manager/src/controller_manager.cpp: evaluate_switch_result, switch_controller_cb"]}
{"id": "C16", "title": "Interface conflicts are rejected before any controller is touched", "statement": "A switch that would activate two controllers claiming the same command interface, or claim an interface held by a running controller that is not being stopped, or use unavailable interfaces, returns ERROR with all controllers untouched.", "quantifier": "all requests and states", "why_tests_cant": "All overlaps between arbitrary interface sets.", "anchors": ["controller_manager/src/controller_manager.cpp: check_for_interfaces_availability_to_activate"]}
{"id": "C17", "title": "A controller is activated only if the controllers it feeds are active", "statement": "An accepted switch never activates a controller whose following (chained) controller is neither active nor activated by the same switch, at any depth of the chain.", "quantifier": "all chain depths and requests", "why_tests_cant": "Chains have unbounded depth and branching.", "anchors": ["controller_manager/src/controller_manager.cpp: check_following_controllers_for_activate"]}
{"id": "C18", "title": "A following controller cannot be stopped under an active preceding one", "statement": "An accepted strict switch never deactivates a chainable controller while a controller that uses its interfaces stays active.", "quantifier": "all topologies and requests", "why_tests_cant": "Unbounded topologies.", "anchors": ["controller_manager/src/controller_manager.cpp: check_preceding_controllers_for_deactivate"]}
{"id": "C19", "title": "Chained mode is only switched while a controller is not active", "statement": "A chainable controller's chained mode never changes while it is active, and it is out of chained mode whenever it was deactivated.", "quantifier": "all histories", "why_tests_cant": "Unbounded histories.", "anchors": ["controller_manager/src/controller_manager.cpp: switch_chained_mode, deactivate_controllers", "controller_interface/src/chainable_controller_interface.cpp: set_chained_mode"]}
{"id": "C20", "title": "Chained mode is left when nothing feeds the controller any more", "statement": "After an accepted switch, a following controller whose preceding controllers were all stopped is not left in chained mode.", "quantifier": "all topologies and requests", "why_tests_cant": "Unbounded topologies and mixed request lists.", "anchors": ["controller_manager/src/controller_manager.cpp: propagate_deactivation_of_chained_mode"]}
{"id": "C21", "title": "A failing controller stops its whole chain and only that chain; fallbacks take over", "statement": "When a controller's update returns ERROR (or throws), in that same cycle all controllers in its chain group and those occupying its fallback's command interfaces are deactivated, its fallback controllers are activated, all other controllers stay as they are.", "quantifier": "all controller sets, chains, error patterns", "why_tests_cant": "Every subset of failing controllers.", "anchors": ["controller_manager/src/controller_manager.cpp: update"]}
{"id": "C22", "title": "Every active controller is updated at its configured rate", "statement": "A controller with rate equal to or above the manager's rate (or 0) is updated on each cycle; a slower one is updated on the cycle closest to its due time; on the first cycle after activation it is updated; consecutive periods handed to it sum to the elapsed time.", "quantifier": "all schedules of cycle times", "why_tests_cant": "Timing sequences are unbounded.", "anchors": ["controller_manager/src/controller_manager.cpp: update", "controller_interface/src/controller_interface_base.cpp: configure, trigger_update"]}
{"id": "C23", "title": "The RT loop never iterates a controller list being modified", "statement": "For every interleaving of the RT thread and service threads, the controller list the RT thread iterates is not the one being modified, and a list is only destroyed after the RT thread stopped using it.", "quantifier": "all interleavings, any number of updates", "why_tests_cant": "Races: schedules are infinite.", "anchors": ["controller_manager/src/controller_manager.cpp: RTControllerListWrapper"]}
{"id": "C24", "title": "A switch request is executed at most once and the caller learns the outcome", "statement": "For every interleaving of the RT loop and the service thread, each accepted request is executed exactly once before the call returns a non-timeout result, and no stale request runs after the call returned.", "quantifier": "all interleavings incl. timeouts", "why_tests_cant": "Timing dependent.", "anchors": ["controller_manager/src/controller_manager.cpp: switch_controller_cb, manage_switch, update"]}
{"id": "C25", "title": "Hardware mode switch is validated before it is performed", "statement": "prepare_command_mode_switch returns true only if every start/stop interface exists and is available and every affected actuator/system accepted; a component in a state other than INACTIVE/ACTIVE is never asked; sensors are never asked.", "quantifier": "all interface sets, component states, answers", "why_tests_cant": "All overlaps and states.", "anchors": ["hardware_interface/src/resource_manager.cpp: prepare_command_mode_switch, perform_command_mode_switch"]}
{"id": "C26", "title": "Hardware read/write failure handling", "statement": "If a component's read or write reports ERROR, the cycle's result is ERROR, the component (and each component of its group reached afterwards in the cycle) leaves ACTIVE through error handling, its interfaces become unavailable and its name is reported; components outside the group are unaffected.", "quantifier": "all component sets, groups, return patterns", "why_tests_cant": "All subsets of failing components and group partitions.", "anchors": ["hardware_interface/src/resource_manager.cpp: read, write, update_hardware_component_group_state"]}
{"id": "C27", "title": "Controllers on failed hardware are stopped in the same cycle", "statement": "When read (or write) fails for a hardware component, every active controller that uses any of its interfaces is deactivated before read (write) returns.", "quantifier": "all systems and failures", "why_tests_cant": "All controller/hardware bindings and histories.", "anchors": ["controller_manager/src/controller_manager.cpp: read, write", "hardware_interface/src/resource_manager.cpp: cache_controller_to_hardware, get_cached_controllers_to_hardware"]}
{"id": "C28", "title": "Command limits: limited commands lie within the limits", "statement": "For any limits, state and desired command, the limiter's output lies in the computed bounds, which lie within the configured hard limits; commands already inside are unchanged; absent/NaN commands are not touched; the returned flag is true iff some command was changed.", "quantifier": "all real inputs including NaN/infinite", "why_tests_cant": "Continuous input space.", "anchors": ["joint_limits/src/joint_range_limiter.cpp", "joint_limits/src/joint_limits_helpers.cpp", "joint_limits/src/joint_soft_limiter.cpp"]}
{"id": "C29", "title": "Velocity limiting respects acceleration limits across cycles", "statement": "Consecutive limited velocity commands differ by at most max_acceleration*dt and consecutive limited position commands by at most max_velocity*dt, over whole runs.", "quantifier": "all command sequences", "why_tests_cant": "Needs induction over the run.", "anchors": ["joint_limits/src/joint_range_limiter.cpp", "joint_limits/src/joint_limits_helpers.cpp"]}
{"id": "C30", "title": "Transmissions invert each other", "statement": "For every valid (nonzero) reduction and offset, mapping joint values to actuators and back is the identity for position, velocity and effort, and mechanical power is preserved; zero reductions are rejected by the constructor.", "quantifier": "all real values and parameters", "why_tests_cant": "Continuous parameter space.", "anchors": ["transmission_interface/include/transmission_interface/simple_transmission.hpp", "transmission_interface/include/transmission_interface/differential_transmission.hpp", "transmission_interface/include/transmission_interface/four_bar_linkage_transmission.hpp"]}
{"id": "C31", "title": "Boolean / text parsing is total and exact", "statement": "parse_bool accepts exactly the case-insensitive spellings of true and false and rejects every other string; parse_array accepts exactly well-formed bracketed lists; strip removes exactly leading and trailing blanks.", "quantifier": "all strings", "why_tests_cant": "Infinite input set.", "anchors": ["hardware_interface/src/lexical_casts.cpp", "hardware_interface/include/hardware_interface/helpers.hpp"]}
{"id": "C32", "title": "Statistics reported are the true statistics of the samples", "statement": "The online mean/variance/min/max/average reported for execution time and periodicity equals the exact statistics of all samples since the last reset.", "quantifier": "all sample sequences", "why_tests_cant": "Unbounded sequences.", "anchors": ["hardware_interface/include/hardware_interface/types/statistics_types.hpp"]}
{"id": "C33", "title": "Fallback controllers are validated before the main controller is activated", "statement": "A controller with fallback controllers is only activated if each fallback is loaded, inactive (or suitably placed), not chained illegally, and all its interfaces are available or owned by the main controller.", "quantifier": "all fallback lists and states", "why_tests_cant": "All combinations.", "anchors": ["controller_manager/src/controller_manager.cpp: check_fallback_controllers_state_pre_activation"]}
{"id": "C34", "title": "Initial hardware state bring-up", "statement": "At start-up, components listed as unconfigured stay unconfigured, listed as inactive end at most inactive, and all others are activated; grouped components activate all-or-nothing.", "quantifier": "all component lists, groups, plugin outcomes", "why_tests_cant": "All list overlaps and failures.", "anchors": ["controller_manager/src/controller_manager.cpp: set_initial_hardware_components_state"]}
{"id": "C35", "title": "Exported interfaces of an inactive chainable controller are unavailable", "statement": "A chainable controller's reference and state interfaces are available to others only while it is active (or being activated by the running switch).", "quantifier": "all histories", "why_tests_cant": "Unbounded histories.", "anchors": ["controller_manager/src/controller_manager.cpp: configure_controller, deactivate_controllers, activate_controllers", "hardware_interface/src/resource_manager.cpp: make_controller_reference_interfaces_available"]}
{"id": "C36", "title": "Chainable controller input selection", "statement": "A chainable controller's references are taken from its subscribers only while not in chained mode and from the preceding controller otherwise; a failing subscriber update prevents writing commands.", "quantifier": "all modes, plugin results", "why_tests_cant": "All histories of mode changes.", "anchors": ["controller_interface/src/chainable_controller_interface.cpp: update"]}
{"id": "C37", "title": "Chainable export validation", "statement": "Exported reference/state interfaces are only accepted if each is prefixed by the controller's name and names are unique and sizes match; otherwise the export throws and nothing is registered.", "quantifier": "all lists of exported descriptions", "why_tests_cant": "All lists.", "anchors": ["controller_interface/src/chainable_controller_interface.cpp: export_state_interfaces, export_reference_interfaces"]}
{"id": "C38", "title": "Handles: last written value is read back", "statement": "A get on an interface handle after a sequence of sets returns the last value set, whatever handles (loaned or not) share the interface; a set with an incompatible data type throws and changes nothing.", "quantifier": "all op sequences", "why_tests_cant": "Unbounded sequences.", "anchors": ["hardware_interface/include/hardware_interface/handle.hpp", "hardware_interface/include/hardware_interface/loaned_command_interface.hpp", "hardware_interface/include/hardware_interface/loaned_state_interface.hpp"]}
{"id": "C39", "title": "Reported claimed interfaces match reality", "statement": "After each switch the claimed interfaces listed for a controller equal its command interfaces when active and are empty when not.", "quantifier": "all histories", "why_tests_cant": "Unbounded histories.", "anchors": ["controller_manager/src/controller_manager.cpp: evaluate_switch_result, list_controllers_srv_cb"]}
{"id": "C40", "title": "Limits cannot be bypassed: enforce_command_limits covers all commanded joints", "statement": "Each cycle, for every joint with a configured limiter, the command interfaces' values written are the limiter's output for current command/state, other interfaces remain untouched.", "quantifier": "all joints, commands", "why_tests_cant": "Continuous inputs, any number of joints.", "anchors": ["hardware_interface/src/resource_manager.cpp: enforce_command_limits"]}
{"id": "C41", "title": "Controller callbacks are only invoked in permitted lifecycle states", "statement": "Whatever services are called and whatever controllers and hardware answer, update of a controller is only called while it is active, on_configure only while unconfigured, on_activate/on_cleanup only while inactive, on_deactivate only while active, on_shutdown never when finalized, and on_error only directly after a callback that failed.", "quantifier": "all histories of service calls and real-time cycles, all controller and hardware answers", "why_tests_cant": "Unbounded histories.", "anchors": ["controller_manager/src/controller_manager.cpp: configure_controller, activate_controllers, deactivate_controllers, update, unload_controller, shutdown_controllers"]}
{"id": "C42", "title": "switch_controller never throws its internal-consistency exception", "statement": "The checks at the beginning of switch_controller that throw 'CM's internal state is not correct' are never hit, after any history of accepted, rejected and timed-out switches and failures.", "quantifier": "all histories", "why_tests_cant": "Every exit path of every earlier call must have cleaned up.", "anchors": ["controller_manager/src/controller_manager.cpp: switch_controller_cb, clear_requests"]}
{"id": "C43", "title": "A controller driven by a running controller is in chained mode", "statement": "Whenever a running controller holds a reference interface of another running controller, the latter is in chained mode (otherwise its own subscribers overwrite the references).", "quantifier": "all histories", "why_tests_cant": "Unbounded histories of switches.", "anchors": ["controller_manager/src/controller_manager.cpp: check_following_controllers_for_activate, propagate_deactivation_of_chained_mode, switch_chained_mode"]}
{"id": "C44", "title": "A configured transmission maps what it was given", "statement": "If configure of a transmission succeeds, at least one kind of interface is mapped between joints and actuators, and the i-th reduction and offset of the description are applied to the i-th joint or actuator of the description.", "quantifier": "all handle lists and parameters", "why_tests_cant": "All combinations of handles.", "anchors": ["transmission_interface/include/transmission_interface/accessor.hpp: get_names, get_ordered_handles", "transmission_interface/include/transmission_interface/differential_transmission.hpp: configure", "transmission_interface/include/transmission_interface/four_bar_linkage_transmission.hpp: configure", "transmission_interface/include/transmission_interface/simple_transmission.hpp: configure", "transmission_interface/src/differential_transmission_loader.cpp: load"]}
{"id": "C45", "title": "A STRICT switch is all or nothing when it is executed", "statement": "Whatever happens between the acceptance of a STRICT switch request and its execution, and whatever controllers and hardware answer during it: either the hardware refused the mode change and no controller changed state, or every controller requested to be activated is active, or none of them is (except one whose on_deactivate refused the rollback).", "quantifier": "all histories before, between and all answers during the execution", "why_tests_cant": "Unbounded histories and all combinations of failing callbacks.", "anchors": ["controller_manager/src/controller_manager.cpp: switch_controller_cb, manage_switch, activate_controllers"]}
{"id": "C46", "title": "No controller starts uninvited", "statement": "In every history an active controller was named in the activation list of some switch request or as a fallback of some loaded controller; failures, timeouts, rollbacks and restarts never start a controller nobody asked for.", "quantifier": "all histories", "why_tests_cant": "Unbounded histories.", "anchors": ["controller_manager/src/controller_manager.cpp: switch_controller_cb, update, manage_switch"]}
{"id": "C47", "title": "Integer texts are converted exactly or rejected", "statement": "stoi8/16/32 and stoui8/16/32 return v exactly for the texts [blanks][sign]digits of an integer v in the range of the type, throw out_of_range for integers out of range, and throw for every other text.", "quantifier": "all strings, all integer types", "why_tests_cant": "Infinite input set.", "anchors": ["hardware_interface/include/hardware_interface/lexical_casts.hpp: stoi_generic, stoui_generic"]}
{"id": "C48", "title": "Real-number texts are converted exactly or rejected", "statement": "stod accepts exactly the decimal numbers ([sign] digits [. digits] [exponent]) in the range of the type and returns their value; no blanks, trailing characters, infinities or NaN are accepted.", "quantifier": "all strings", "why_tests_cant": "Infinite input set.", "anchors": ["hardware_interface/src/lexical_casts.cpp: stod, parse_floating_point_with_from_chars"]}
{"id": "C49", "title": "Lists of numbers are returned exactly or rejected", "statement": "parse_array of a numeric type returns exactly the numbers written in a well-formed bracketed list, in order, and rejects lists with elements that are not numbers of the type.", "quantifier": "all strings, all numeric types", "why_tests_cant": "Infinite input set.", "anchors": ["hardware_interface/include/hardware_interface/lexical_casts.hpp: parse_array"]}
{"id": "C50", "title": "The trajectory-point limiter keeps trajectory points within the limits", "statement": "JointSaturationLimiter::enforce on a trajectory point: without usable input nothing changes and false is returned; otherwise accelerations, velocities and positions of the result lie within the limits of the joints; if one joint can no longer stop before its position limit, all joints brake; false is returned only if the point is unchanged.", "quantifier": "all numbers of joints, limits, readings, commands and time steps", "why_tests_cant": "Real-valued inputs for any number of joints; boundary cases between the stages.", "anchors": ["joint_limits/src/joint_saturation_limiter.cpp: on_enforce", "joint_limits/include/joint_limits/joint_saturation_limiter.hpp"]}
{"id": "C51", "title": "Joint limits follow the parameters of the node", "statement": "When limit parameters of a joint limiter are changed at run time, singly or together, the next enforce uses exactly the limits the parameters describe; a limit without its numbers is not switched on.", "quantifier": "all histories of parameter settings and calls of enforce, all joints, all values", "why_tests_cant": "Unbounded histories; the effect depends on the order and grouping of settings and on the interleaving with enforce.", "anchors": ["joint_limits/include/joint_limits/joint_limits_rosparam.hpp: check_for_limits_update, get_joint_limits", "joint_limits/include/joint_limits/joint_limiter_interface.hpp: init, enforce"]}
{"id": "C52", "title": "Mock hardware does what it is told", "statement": "mock_components/GenericSystem: after read, mirrored interfaces have the last finite command, positions the command plus the configured offset, mimic joints follow the mimicked joint, simulated joints obey the kinematics of their mode, other states are untouched; accepted command mode switches take effect; read returns OK unless a command is infinite.", "quantifier": "all robot descriptions, interface orders, states, command histories and periods", "why_tests_cant": "Unbounded histories, arbitrary descriptions and hash orders, real-valued commands.", "anchors": ["hardware_interface/src/mock_components/generic_system.cpp: read, on_configure, prepare_command_mode_switch, perform_command_mode_switch", "hardware_interface/src/hardware_component_interface.cpp: has_state, has_command"]}
{"id": "C53", "title": "Asynchronous hardware components", "statement": "For a hardware component whose read/write run in a worker thread: write of the plugin is called only right after a successful read and while ACTIVE; lifecycle callbacks never overlap read/write; every reported ERROR is a real and current one; every ERROR of the plugin is reported by the next cycle; a reported ERROR leads to on_error; lifecycle calls never wait forever.", "quantifier": "all interleavings of the real-time thread, lifecycle calls and the worker thread, all answers of the plugin", "why_tests_cant": "Thread schedules; lost updates need particular interleavings of loads, triggers and stores.", "anchors": ["hardware_interface/src/hardware_component_interface.cpp: init, trigger_read, trigger_write, pause_async_operations, prepare_for_activation", "hardware_interface/src/hardware_component.cpp: configure, activate, deactivate, error, read, write", "hardware_interface/src/resource_manager.cpp: read, write"]}
{"id": "C54", "title": "A hardware component and the controllers see the same interfaces", "statement": "A hardware component that leaves exporting to the framework has one interface per tag of its description (of the kinds its type has). For every interface listed for it, the component and the controllers always read the same value: the last one written to that interface by the component or, for commands, through a loan, and the initial value of the description before that; no access to any other interface changes it. If all full interface names of the robot differ, every declared interface is listed and the description passes the check after loading, whatever the iteration order of the hash maps.", "quantifier": "all robot descriptions, numbers of components, hash-map iteration orders and sequences of accesses", "why_tests_cant": "Arbitrary descriptions, hash orders and aliasing between unboundedly many handles.", "anchors": ["hardware_interface/src/hardware_component_interface.cpp: on_init, on_export_state_interfaces, on_export_command_interfaces, get_state_interface_handle, get_command_interface_handle", "hardware_interface/src/component_parser.cpp: parse_state_interface_descriptions, parse_command_interface_descriptions", "hardware_interface/src/hardware_component.cpp: export_state_interfaces, export_command_interfaces", "hardware_interface/src/resource_manager.cpp: import_state_interfaces, import_command_interfaces, add_state_interfaces, add_command_interfaces, validate_storage"]}
{"id": "C55", "title": "The limits of a joint are the tightest ones its description gives", "statement": "A description is accepted exactly if all its joints are acceptable (in the URDF, not fixed, mimicking only as the URDF says, without commands and inside the same tag). The lower (upper) position limit used for a joint is the greatest (least) of all those given by the URDF and by the position command interfaces; the maximal velocity and effort are the least of all bounds given; accelerations, decelerations and jerks are those of their command interface; disabling an interface or a joint removes exactly its limits. A limiter is made for exactly the joints whose limits are not disabled, with these limits and with soft limits cut to lie inside. Hence with consistent bounds every position and effort command that leaves the limiter respects every bound written anywhere in the description.", "quantifier": "all URDFs, ros2_control tags, texts of limits, orders and repetitions of interfaces, and all histories of limiter calls", "why_tests_cant": "Unbounded descriptions and combinations of tags, and histories of commands.", "anchors": ["hardware_interface/src/component_parser.cpp: retrieve_min_max_interface_values, set_custom_interface_values, update_interface_limits, parse_control_resources_from_urdf", "joint_limits/include/joint_limits/joint_limits_urdf.hpp: getJointLimits, getSoftJointLimits", "joint_limits/include/joint_limits/joint_limits.hpp", "hardware_interface/src/resource_manager.cpp: import_joint_limiters"]}
{"id": "C56", "title": "The control loop keeps its rate, accounts for all time and does not burst after overruns", "statement": "ros2_control_node: the periods handed to read, update and write are the times between the beginnings of consecutive cycles and add up to the elapsed time. With fixed deadlines no cycle begins early, deadlines lie on the grid of the period and do not drift; with overruns managed the loop resumes at a time of the grid that is not past and at most one period away, hence no bursts of cycles; without, no cycle is dropped. With simulated time, cycles begin at least a period apart; with blocking hardware, at least the minimal cycle time.", "quantifier": "all update rates, all readings of the clocks, durations of cycles and wake-up delays, any number of cycles", "why_tests_cant": "Unbounded runs and arbitrary timing; overruns and clock readings cannot be enumerated.", "anchors": ["controller_manager/src/ros2_control_node.cpp: main", "controller_manager/src/sleeping_policies.cpp: sleep_for_sim_time, sleep_for_blocking_read_write, sleep_for_periodic_cycle", "controller_manager/include/controller_manager/sleeping_policies.hpp"]}
{"id": "C57", "title": "Semantic components report and command the right interfaces", "statement": "get_ordered_interfaces on different interfaces returns true exactly if every name asked for is there, and then the result is the interfaces asked for in that order. A force-torque sensor (also with some axes only), IMU, magnetic field and pose sensor that is given its interfaces in every session reports, for every field of its message, the last value the interface named after that field answered with, through any number of sessions; a GPS sensor reports what its interfaces answer now. Command components write every value to the interface it is meant for, and an LED with a colour part outside 0 to 1 writes nothing.", "quantifier": "all names, orders of interfaces, numbers of sessions, histories of answers of the handles and values", "why_tests_cant": "Unbounded sessions and histories of busy handles; orders of interfaces cannot be enumerated.", "anchors": ["controller_interface/include/controller_interface/helpers.hpp: get_ordered_interfaces", "controller_interface/include/semantic_components/semantic_component_interface.hpp", "controller_interface/include/semantic_components/force_torque_sensor.hpp", "controller_interface/include/semantic_components/imu_sensor.hpp", "controller_interface/include/semantic_components/pose_sensor.hpp", "controller_interface/include/semantic_components/magnetic_field_sensor.hpp", "controller_interface/include/semantic_components/gps_sensor.hpp", "controller_interface/include/semantic_components/semantic_component_command_interface.hpp", "controller_interface/include/semantic_components/led_rgb_device.hpp"]}
{"id": "C58", "title": "The robot description is read as it is written", "statement": "If a description is accepted, there is one hardware component for each ros2_control tag, in that order, and its name, type, rate, plugin, group, parameters, thread settings, joints, sensors, gpios, their interfaces with limits, sizes, types and initial values, and its transmissions with the interfaces of their joints are exactly what the tag says; blanks around texts do not matter and the last of several parameters of a name counts. A description is accepted exactly if every tag says something sensible. It never runs into undefined behaviour except for documents without root, sdf files without model and core numbers beyond int. Consequently the interfaces a component has are exactly those written in its tags, the limits used are never wider than the numbers written, and a component runs at the rate written.", "quantifier": "all XML trees: any tags, attributes, texts, nesting, order and repetition", "why_tests_cant": "The descriptions are unbounded trees of arbitrary texts; every combination of missing, repeated and malformed tags counts.", "anchors": ["hardware_interface/src/component_parser.cpp: parse_control_resources_from_urdf, parse_resource_from_xml, parse_component_from_xml, parse_complex_component_from_xml, parse_interfaces_from_xml, parse_parameters_from_xml, parse_transmission_from_xml, auto_fill_transmission_interfaces, get_attribute_value, get_text_for_element, parse_size_attribute, parse_rw_rate_attribute, parse_is_async_attribute, parse_thread_priority_attribute", "hardware_interface/include/hardware_interface/hardware_info.hpp", "hardware_interface/src/resource_manager.cpp: load_and_initialize_components"]}
{"id": "C59", "title": "The command line clients tell the truth about what they did", "statement": "spawner: unless interrupted, exit code 0 (or waiting with --unload-on-kill) means that every controller of the command line was loaded, configured unless load-only, and active unless load-only or inactive, at some moment while it worked, with --activate-as-group all together; those nobody else unloads are loaded when it ends. A refusal ends it at once with exit code 1; exit code 1 means a refusal, an absent service or no lock; an exception means three requests without an answer. It only asks for what its command line and the answers so far allow, in the order load, configure, activate. An interrupted spawner asks for nothing but, with --unload-on-kill, the deactivation and, once confirmed, the unloading of its controllers not marked inactive; exit code 0 then means each of them was unloaded after the interrupt. unspawner: exit code 0 means each controller was not loaded at some moment. hardware_spawner: it only asks for the requested state of listed components.", "quantifier": "all command lines, states of the controller manager, losses, delays and duplicates of messages, moments of interrupts, and interleavings with the real-time loop and other clients", "why_tests_cant": "Lost and late answers, interrupts and other clients at any point of an unbounded schedule cannot be enumerated by tests.", "anchors": ["controller_manager/controller_manager/spawner.py: main, combine_name_and_namespace", "controller_manager/controller_manager/unspawner.py: main", "controller_manager/controller_manager/hardware_spawner.py: main", "controller_manager/controller_manager/controller_manager_services.py: service_caller, set_controller_parameters_from_param_files", "controller_manager/src/controller_manager.cpp: load_controller_service_cb, configure_controller_service_cb, switch_controller_service_cb, unload_controller_service_cb"]}
{"id": "C60", "title": "The listing services tell the truth", "statement": "list_controllers answers with exactly one entry per loaded controller, in update order, showing its current state, chained mode and flags; the required interfaces of inactive and active controllers are the ones they ask for; a chain connection to m is shown exactly if an inactive or active controller asks for a command interface of the loaded controller m, with the interfaces it uses of m; the reference interfaces shown are the ones the controller exports. list_hardware_components and list_hardware_interfaces always answer, show every component once with its state, and show a command interface as claimed exactly if it is available and exactly one active controller has it on loan.", "quantifier": "all robots, controllers, plugin answers and histories of operations", "why_tests_cant": "The listing depends on the whole history of loads, configurations, failed clean-ups and hardware faults.", "anchors": ["controller_manager/src/controller_manager.cpp: list_controllers_srv_cb, list_hardware_components_srv_cb, list_hardware_interfaces_srv_cb, split_command_interface", "hardware_interface/src/resource_manager.cpp: get_controller_reference_interface_names, get_controller_exported_state_interface_names, command_interface_is_claimed, get_command_interface_data_type, get_components_status"]}
{"id": "C61", "title": "Reloading the controller libraries happens only without controllers", "statement": "reload_controller_libraries answers ok only if no controller is loaded and no hardware command interface is claimed any more; without force_kill it changes nothing while a controller is active; if no controller is active or finalized and no clean-up fails it answers ok; a finalized controller is never unloaded and blocks every later reload.", "quantifier": "all states, interleavings of the call with the real-time loop, plugin answers, timeouts, later histories", "why_tests_cant": "The call waits for the real-time loop and unloads one controller after the other while cycles run in between; the set of interleavings is unbounded.", "anchors": ["controller_manager/src/controller_manager.cpp: reload_controller_libraries_service_cb, unload_controller, switch_controller"]}
{"id": "C62", "title": "The update of an asynchronous controller does not overlap its lifecycle callbacks", "statement": "The update of an is_async controller, which runs in its own thread, never overlaps on_configure, on_cleanup, on_shutdown or on_error, and is never called in an unconfigured or finalized controller; calls of update are serial and each serves one accepted trigger; a trigger is accepted exactly if no cycle is in progress and answers what the last update since the activation answered; an announced deactivation (switch_controller) that does not race a trigger leaves the controller quiet until its next activation; update does not overlap on_activate or on_deactivate, is called only while the controller is active and has its interfaces, and the interfaces are not taken back during it, provided no deactivation begins during a cycle; transitions and announcements wait only for the worker.", "quantifier": "all interleavings of the real-time thread, the service thread, lifecycle transitions and the worker thread; all answers of the controller", "why_tests_cant": "Data races show up only in particular interleavings of four agents over unbounded histories.", "anchors": ["controller_interface/src/controller_interface_base.cpp: init, configure, trigger_update, prepare_for_deactivation, wait_for_trigger_update_to_finish, stop_async_handler_thread, release_interfaces", "controller_manager/src/controller_manager.cpp: switch_controller, update, read, deactivate_controllers, activate_controllers"]}
{"id": "C63", "title": "Shutting the controller manager down finalizes everything it reports as finalized", "statement": "The shutdown of the controller manager asks every controller and then every hardware component to go to FINALIZED: an active controller gets on_deactivate and, unless that was refused, on_shutdown; an inactive or unconfigured one on_shutdown; a finalized one nothing; the same for components. All command interfaces are released. If it reports success, every controller and every component is FINALIZED; one that is not has failed or refused a callback. A controller that has been shut down is not updated or activated any more, whatever the real-time loop does.", "quantifier": "all robots, reachable states, callback answers, orders of components and interleavings of the shutdown with the real-time loop", "why_tests_cant": "The real-time loop keeps running between the visits; failures of plugins and faults of hardware can occur at any of these points.", "anchors": ["controller_manager/src/controller_manager.cpp: init_controller_manager (pre-shutdown callback), shutdown_controllers, shutdown_controller", "hardware_interface/src/resource_manager.cpp: shutdown_components, set_component_state"]}
{"id": "C65", "title": "The controller manager takes the first robot description that loads, completely, and only then offers its services", "statement": "A controller manager started without a description offers no service and has no hardware, controllers, interfaces or joint limits until a description is accepted; a description is accepted exactly if it can be parsed and all its components load, and a rejected one leaves nothing behind. The accepted one is in use completely: its components, in order, its declared interfaces, its joint limits, with the parameters of the controller manager in force; later descriptions change nothing. The start ends the process only with shutdown_on_initial_state_failure. The real-time thread never uses a destroyed resource manager, and controllers get the description that is in use.", "quantifier": "all parameters, descriptions, plugin answers, numbers of rejected descriptions and interleavings with service calls and the real-time loop", "why_tests_cant": "Any number of wrong descriptions can precede the right one, at any point of the run of the real-time loop.", "anchors": ["controller_manager/src/controller_manager.cpp: ControllerManager, robot_description_callback, init_resource_manager, set_initial_hardware_components_state", "hardware_interface/src/resource_manager.cpp: ResourceManager, load_and_initialize_components, import_joint_limiters, load_hardware", "controller_manager/src/ros2_control_node.cpp: main"]}
{"id": "C64", "title": "The diagnostics are an error exactly when something is wrong, and blame exactly the culprits", "statement": "The controllers diagnostic is ERROR iff no hardware component is active or an active controller is beyond an error threshold of execution time or (if it is asynchronous or has its own rate) of periodicity; it is OK iff some hardware is active, a controller is loaded and no active controller is beyond any threshold; otherwise WARN. Its message names exactly the controllers beyond a threshold, in order; its values show every controller's true lifecycle state. The hardware diagnostic does the same for read and write cycles of the components (ERROR if no description or no component is loaded, WARN if none is active), the controller manager's for its own loop. Statistics that never got a sample raise no alarm.", "quantifier": "all lists of controllers and components in any state, all statistics values including NaN and infinities, all rates and thresholds (also warn above error)", "why_tests_cant": "Tests check a status with one controller and default thresholds; the interplay of several offenders, NaN statistics, inactive components and misordered thresholds is unbounded.", "anchors": ["controller_manager/src/controller_manager.cpp:controller_activity_diagnostic_callback", "controller_manager/src/controller_manager.cpp:hardware_components_diagnostic_callback", "controller_manager/src/controller_manager.cpp:controller_manager_diagnostic_callback", "controller_manager/src/controller_manager_parameters.yaml:diagnostics.threshold"]}
{"id": "C66", "title": "The real-time loop always works on a complete, unchanging list of controllers, and neither side waits for ever", "statement": "While services load, configure, switch and unload controllers, the list the real-time loop iterates over is never written; its content does not change until the loop takes a list again; the list it takes is the one the last completed service installed. The real-time loop is not blocked by services, and a service that installs a list goes on once the loop has come round.", "quantifier": "all interleavings of any number of service threads (loading, configuring, switching, unloading, listing, diagnostics) with the real-time thread, including interruptions inside the index update, failing controllers and components that ask for deactivation", "why_tests_cant": "A test exercises a handful of schedules; the harmful ones need a thread switch between two instructions or a fault at the moment a service waits.", "anchors": ["controller_manager/include/controller_manager/controller_manager.hpp:RTControllerListWrapper", "controller_manager/src/controller_manager.cpp:update_and_get_used_by_rt_list", "controller_manager/src/controller_manager.cpp:get_unused_list", "controller_manager/src/controller_manager.cpp:switch_updated_list", "controller_manager/src/controller_manager.cpp:wait_until_rt_not_using", "controller_manager/src/controller_manager.cpp:publish_activity"]}
{"id": "C67", "title": "The activity topic shows the present states", "statement": "A subscriber of ~/activity reads the present lifecycle state of every loaded controller and every hardware component, each listed once: every successful load, configure and unload, every switch that ends, every change of a component by service and every cycle with a failing controller is announced, and no message shows a state that was never there.", "quantifier": "all histories of service calls, switches, real-time cycles and failures of controllers and components, all robot descriptions", "why_tests_cant": "A test subscribes after one operation; whether the latched message is still right depends on every operation since it was published.", "anchors": ["controller_manager/src/controller_manager.cpp:publish_activity", "controller_manager/src/controller_manager.cpp:switch_updated_list", "controller_manager/src/controller_manager.cpp:update", "hardware_interface/src/resource_manager.cpp:set_component_state"]}
{"id": "C68", "title": "ros2 control verbs report what happened", "statement": "A verb of `ros2 control` that changes something ends with exit code 0 only if, after it had asked, the controller manager reached the state that was asked for (controller unloaded, cleaned up, configured, activated, deactivated, loaded; hardware component in the state); it asks for nothing but the transition it is named after, in the order load, configure, activate and only after the previous step was confirmed; a refused request or an interrupt never gives exit code 0.", "quantifier": "all controller manager histories, all arguments, all interleavings of the verb with its messages (lost, delayed, repeated), the real-time loop, other clients and interrupts", "why_tests_cant": "A test runs one verb against one controller manager that answers at once; lost answers, other clients and requests that are accepted but not carried out need other schedules.", "anchors": ["ros2controlcli/ros2controlcli/verb/set_controller_state.py", "ros2controlcli/ros2controlcli/verb/load_controller.py", "ros2controlcli/ros2controlcli/verb/switch_controllers.py", "ros2controlcli/ros2controlcli/verb/unload_controller.py", "ros2controlcli/ros2controlcli/verb/cleanup_controller.py", "ros2controlcli/ros2controlcli/verb/set_hardware_component_state.py", "controller_manager/controller_manager/controller_manager_services.py:switch_controllers"]}
{"id": "C69", "title": "Limits hold in floating point", "statement": "The guarantees of the joint limiters (C28, C29) hold for the double arithmetic the code really does, with rounding, overflow and subnormal numbers: every limited position, velocity, effort, acceleration and jerk command is inside its limit exactly, not just up to rounding; absent and NaN commands are untouched; the returned flag says exactly whether something changed; consecutive position commands are no further apart than max_velocity * dt up to a stated rounding error.", "quantifier": "all limits, readings, commands, periods and histories of calls; all roundings with the properties of IEEE 754, in particular binary64", "why_tests_cant": "Rounding errors depend on the exact operands; tests compare with tolerances and sample a handful of numbers.", "anchors": ["joint_limits/src/joint_limits_helpers.cpp:compute_position_limits", "joint_limits/src/joint_limits_helpers.cpp:compute_velocity_limits", "joint_limits/src/joint_range_limiter.cpp:on_enforce", "joint_limits/src/joint_soft_limiter.cpp:on_enforce"]}
{"id": "C70", "title": "A spawned controller gets the parameter files meant for it", "statement": "Of the parameter files on the spawner's command line (-p, and --params-file of the spawner's own node) the controller's node gets exactly those with a section for the controller, each once and in the order given, before use_sim_time and the extra ROS arguments; the controller's type and fallback controllers are what these files say, a later file overriding an earlier one; what earlier spawners set does not matter; a file that cannot be used stops the spawner.", "quantifier": "all YAML documents, file lists, controller names and namespaces, all histories of spawners for the same controller, all custom node options", "why_tests_cant": "The forms of sections, their combinations over several files and what earlier spawners left on the controller manager multiply; tests use one or two files and a fresh controller manager.", "anchors": ["controller_manager/controller_manager/controller_manager_services.py:get_params_files_with_controller_parameters", "controller_manager/controller_manager/controller_manager_services.py:get_parameter_from_param_files", "controller_manager/controller_manager/controller_manager_services.py:set_controller_parameters_from_param_files", "controller_manager/controller_manager/spawner.py:main", "controller_manager/src/controller_manager.cpp:load_controller", "controller_manager/src/controller_manager.cpp:determine_controller_node_options"]}
{"id": "C71", "title": "Reported statistics are sound in floating point", "statement": "The statistics of cycle times and periods (C32) are sound for the double arithmetic the code really does: after a reset and any number of finite samples the count, minimum and maximum are exactly those of the samples, the average is never outside of minimum and maximum and differs from the true mean by no more than a stated rounding error, the standard deviation is never NaN (its argument is never negative), is 0 when all samples are equal, and its square differs from the true variance by no more than a stated rounding error.", "quantifier": "all histories of samples, resets and publications, all double samples; IEEE 754 binary64 arithmetic", "why_tests_cant": "Rounding errors accumulate over the millions of samples of a running loop; tests take a few samples and compare with tolerances.", "anchors": ["hardware_interface/include/hardware_interface/types/statistics_types.hpp:add_measurement", "hardware_interface/include/hardware_interface/types/statistics_types.hpp:update_statistics"]}
{"id": "C72", "title": "Transmissions are accurate in floating point", "statement": "In the double arithmetic of the code, with reductions between 2^-50 and 2^50 in magnitude and values and offsets below 2^399, every value mapped by a simple, differential or four-bar linkage transmission is finite and equals the exact one (C30) up to 2^-47 of the magnitude of the terms it is made of, and so does every value mapped forth and back. For all numbers whatever: with a positive reduction the simple transmission never reverses an order of values, zero velocities and efforts are exactly zero on the other side, a NaN is not hidden, and a value of one kind of interface depends on values of that kind only.", "quantifier": "all parameters, values, kinds of interfaces and wirings without shared cells; IEEE 754 binary64, the last part for every monotone rounding and all doubles", "why_tests_cant": "Rounding errors depend on the operands and are amplified by cancellation; tests compare a few numbers with a tolerance.", "anchors": ["transmission_interface/include/transmission_interface/simple_transmission.hpp:actuator_to_joint", "transmission_interface/include/transmission_interface/differential_transmission.hpp:actuator_to_joint", "transmission_interface/include/transmission_interface/four_bar_linkage_transmission.hpp:actuator_to_joint"]}
{"id": "C73", "title": "A spawner command line means what it says", "statement": "Every controller named on the command line of the spawner gets exactly the parameter files (in order), flags and ROS arguments given for it; options about all controllers hold wherever they are written, of several values the last one; what the spawner does not understand is refused; and a launch description made with the helpers of launch_utils spawns exactly the controllers of its table with the options of the table.", "quantifier": "all command lines (any number of controllers, options, files and any texts as values, every spelling of an option), all tables and lists given to the launch helpers, all values of their launch arguments", "why_tests_cant": "the lines and tables are unboundedly many, and abbreviations, attached values, splitting at --controller and the shell in between interact; tests try a few fixed lines", "anchors": ["controller_manager/controller_manager/spawner.py: parse_args_advanced, parse_native_args, main", "controller_manager/controller_manager/launch_utils.py: generate_spawner_launch_description, generate_controllers_spawner_launch_description"]}
{"id": "C74", "title": "What a controller commands is what the driver gets, limited, in the same cycle", "statement": "In every cycle of the real-time loop all controllers see the same set of hardware readings, the one of this cycle's read; a controller in a chain sees the reference its predecessor has just computed, and whoever reads an exported state after its owner was updated sees this cycle's value; a hardware command interface has after the updates exactly what the one controller holding it left there, or its old value; and what the driver is given to write is that value passed through the joint limiters once, after all updates.", "quantifier": "all reachable states of the controller manager, all user code of controllers and drivers (any function of the history and of the interface values), all limiters, all types of values, all answers of the callbacks", "why_tests_cant": "the value that arrives depends on the order of the controllers, on who holds what, on failures and on switches executed in the middle of the cycle; tests run one chain with one schedule and look at final values", "anchors": ["controller_manager/src/controller_manager.cpp: read, update, write, manage_switch", "hardware_interface/src/resource_manager.cpp: read, write, enforce_command_limits", "controller_interface/src/controller_interface_base.cpp: assign_interfaces"]}
{"id": "C75", "title": "Limits given as parameters are taken as given", "statement": "get_joint_limits returns true exactly if some parameter of the joint exists; limits specified in the parameters overwrite existing values, and those not specified remain unchanged; parameters of one joint do not matter for another, whatever the joints are called. Soft limits are taken exactly if given completely. init of a limiter succeeds exactly if all parameters have their types, changes no declared parameter and gives every joint the limits its parameters (declared, override or default) describe. Changed soft-limit parameters are taken over and reported.", "quantifier": "all tables of parameters and overrides, of right and wrong types, all names and numbers of joints, all existing limits, all batches of changes", "why_tests_cant": "2^14 combinations of given and missing parameters per joint times types and existing limits; names of joints are arbitrary texts", "anchors": ["joint_limits/include/joint_limits/joint_limits_rosparam.hpp: declare_parameters, get_joint_limits, check_for_limits_update", "joint_limits/include/joint_limits/joint_limiter_interface.hpp: init", "joint_limits/include/joint_limits/joint_limits.hpp"]}
{"id": "C76", "title": "The views of ros2 control show what is there", "statement": "The diagram of view_controller_chains has an arrow between two controllers exactly for each reference interface of the second that the first asks for, an arrow to or from the hardware exactly for each hardware interface a controller asks for, and every interface has a field of its own in its box, whatever order the controllers come in; a diagram is always drawn. view_hardware_status prints every message that passes the filters, in order and with the devices asked for, and says 'not found' only of ids that are not published.", "quantifier": "all reachable states of the controller manager and all orders of its answer, all names and numbers of interfaces, all sequences of status messages and filters", "why_tests_cant": "the order of Python sets changes from run to run, and the fault in the labels depends on the length of a name at one index; tests draw one diagram", "anchors": ["ros2controlcli/ros2controlcli/verb/view_controller_chains.py: make_controller_node, make_command_node, make_state_node, show_graph, parse_response", "ros2controlcli/ros2controlcli/verb/view_hardware_status.py: _on_message, main", "controller_manager/src/controller_manager.cpp: list_controllers_srv_cb"]}
{"id": "C77", "title": "The buttons of the rqt controller manager do what they say, to whom they say", "statement": "The window offers exactly the controller managers that are running; its tables show what the chosen manager answered last; whatever happened before, a click sends to the manager shown as chosen the requests of the entry clicked, about the controller or component of the clicked row, and nothing else; an entry is offered only for the state shown; if the last request of an entry is answered with OK, the controller or component was in the state the entry names at some time after the request was sent; if the first step of a two-step entry failed, the second one changes nothing.", "quantifier": "all sequences of timers, managers appearing and disappearing, answers, silence and errors of services, selections and clicks (with timers running while a menu is open), all reachable states of the controller manager, all interleavings with other clients and cycles", "why_tests_cant": "what a click does depends on the order of timers, selections and failures of services, and on what other clients do meanwhile; there are no tests of the plugin", "anchors": ["rqt_controller_manager/rqt_controller_manager/controller_manager.py: ControllerManager", "controller_manager/controller_manager/controller_manager_services.py: service_caller", "controller_manager/src/controller_manager.cpp: switch_controller, unload_controller, configure_controller, set_hardware_component_state_srv_cb"]}
{"id": "C78", "title": "What the listing verbs print can be read back, and leaves nothing out", "statement": "For every answer of the controller manager, with or without colours and for all options: the output of `ros2 control list_controllers` read as an indented text gives back every controller in order with its name, type and state and exactly the parts asked for with exactly its interfaces; columns line up; `list_controller_types` has one line per type with its base class; `list_hardware_components` gives back each component, numbered, with its state and interfaces and their marks; `list_hardware_interfaces` prints each interface once, sorted by name, with marks that are true, and only available ones as its help says; completion offers exactly the names with a type parameter, or the loaded controllers in the states asked for.", "quantifier": "all answers (any number of controllers, components, interfaces, any names without blanks), all options, colours on and off, all reachable states of the controller manager", "why_tests_cant": "scripts read this output; whether names, marks and indentation stay unambiguous depends on every length of names and combination of options; there are no tests of what the verbs print", "anchors": ["ros2controlcli/ros2controlcli/verb/list_controllers.py: print_controller_state, ListControllersVerb", "ros2controlcli/ros2controlcli/verb/list_hardware_components.py: ListHardwareComponentsVerb", "ros2controlcli/ros2controlcli/verb/list_hardware_interfaces.py: ListHardwareInterfacesVerb", "ros2controlcli/ros2controlcli/verb/list_controller_types.py: ListControllerTypesVerb", "ros2controlcli/ros2controlcli/api/__init__.py: ControllerNameCompleter, LoadedControllerNameCompleter"]}
{"id": "C79", "title": "Prefixes of frames and names of nodes are what the configuration says, normalized and distinct", "statement": "For every prefix and namespace, resolve_tf_prefix is defined and returns the parts of the prefix, with the namespace for its first '~', none lost, split or merged, so that prefix and frame name never run together; the result does not begin with a slash and resolving it again changes nothing. Two hardware components of different names get nodes of different names, hence different status topics; node names have no capital letters and no slashes.", "quantifier": "all prefixes and namespaces, all pairs of component names", "why_tests_cant": "strings of any length with slashes and '~' anywhere; the tests check nine literals", "anchors": ["controller_interface/include/controller_interface/tf_prefix.hpp: resolve_tf_prefix", "hardware_interface/src/hardware_component_interface.cpp: HardwareComponentInterface::init"]}
{"id": "C80", "title": "Status messages of a hardware component: one per tick, from the template, on an initialised component", "statement": "A component whose hardware tag sets status_publish_rate to a positive number, that makes a template naming a device and that has a node publishes with every tick of its timer what update_hardware_status_message makes of the template, stamped with the time of the tick, and nothing if it refuses; otherwise it publishes nothing and, unless making the template or the publisher failed, is initialised as usual. Nothing written into a message is carried over to the next. The plugin is asked for messages only once on_init has succeeded.", "quantifier": "all plugins (any variables, any answers), all texts of the rate, all interleavings of the initialising thread with ticks of the timer, other methods and destruction, of any length", "why_tests_cant": "the timer runs in another thread than the initialisation: which of its ticks fall between two lines of init is decided by the scheduler; tests start the timer after initialisation", "anchors": ["hardware_interface/src/hardware_component_interface.cpp: HardwareComponentInterface::init", "hardware_interface/include/hardware_interface/hardware_component_interface.hpp: init_hardware_status_message, update_hardware_status_message"]}
{"id": "C81", "title": "Command lines of the hardware spawner and the unspawner mean what they say", "statement": "On a line of options, names and options the hardware spawner does with the named components, in their order, what exactly one of --activate and --configure says, and refuses the line with none or both; the last controller manager and time count. Whatever the line is, a request to change the state of a component, to deactivate or to unload a controller is for one named by a word of the line, and the state requested is the one of a flag on the line. Both programs address the same controller manager.", "quantifier": "all command lines (any list of texts), all lines made of the documented options in any of their spellings, all answers, interrupts and schedules of the controller manager, all namespaces", "why_tests_cant": "tests run a handful of literal lines; abbreviations, attached values, separators and repeated options combine without bound", "anchors": ["controller_manager/controller_manager/hardware_spawner.py: main", "controller_manager/controller_manager/unspawner.py: main"]}
{"id": "C82", "title": "Published statistics are those of the loaded controllers", "statement": "At every moment the variables published on ~/statistics for controllers are exactly the twelve of each loaded controller, each once, and each is read from the statistics of the controller in its name, which exist. Nothing that is read was destroyed.", "quantifier": "all histories of loading, configuring, switching, cleaning up, unloading, hardware state changes and control cycles, all failures, all robots", "why_tests_cant": "tests load controllers that load; a dangling registration is only read later, by the publisher, and does not crash reliably", "anchors": ["controller_manager/src/controller_manager.cpp: load_controller, unload_controller, add_controller_impl, register_controller_manager_statistics", "hardware_interface/include/hardware_interface/introspection.hpp: customRegister"]}
{"id": "C83", "title": "Published values are those of the existing interfaces", "statement": "Each function registered for the topic introspection_data reads a stored interface of that name; each stored interface with a numeric value is registered exactly once, a command interface also with its flag is_limited; removing the interfaces a controller exported never meets a missing one.", "quantifier": "all histories of the resource manager: descriptions loaded with success or failure, with any components and any (also repeated) interface names, controllers importing and removing exported states and references; either removal rule of the statistics library", "why_tests_cant": "the registry holds raw pointers; whether one dangles depends on the whole history of loads, failures and removals, and reading a destroyed interface often goes unnoticed", "anchors": ["hardware_interface/src/resource_manager.cpp: add_state_interface, insert_command_interface, remove_state_interfaces, remove_command_interfaces, clear, load_and_initialize_components", "hardware_interface/include/hardware_interface/handle.hpp: registerIntrospection, unregisterIntrospection"]}
{"id": "C84", "title": "The controller manager sees the state a controller is in", "statement": "What get_lifecycle_id answers, and so what is_controller_active, is_controller_inactive, is_controller_unconfigured and the check of set_chained_mode decide by, is the state of the controller's lifecycle node: with no transition in progress exactly that state, and during one never the state of an earlier one.", "quantifier": "all histories of transitions with all outcomes of their callbacks, any number of reading threads, all interleavings of their steps", "why_tests_cant": "a wrong answer needs a reader interrupted between two instructions while another thread runs a transition; no unit test schedules that", "anchors": ["controller_interface/src/controller_interface_base.cpp: get_lifecycle_id, init, configure", "controller_manager/src/controller_manager.cpp: is_controller_active, is_controller_inactive, is_controller_unconfigured", "controller_interface/src/chainable_controller_interface.cpp: set_chained_mode"]}
{"id": "C85", "title": "ros2 control switch_controllers asks for what its command line says", "statement": "On a line made of the documented options the verb asks to deactivate and to activate exactly the controllers named after the two options, in their order, with the strictness of the line or the controller manager's default, and refuses a line that asks for both strictnesses; of an option given several times the last counts. Whatever the line is, a controller it asks for is named on the line, and a line with a word that belongs to no option is refused.", "quantifier": "all command lines (any list of texts), all lines made of the documented options in any of their spellings, numbers and orders, any number of names", "why_tests_cant": "names, options and spellings combine without bound", "anchors": ["ros2controlcli/ros2controlcli/verb/switch_controllers.py: add_arguments, main", "ros2controlcli/ros2controlcli/api/__init__.py: add_controller_mgr_parsers"]}
{"id": "C86", "title": "The helpers for tests of running systems pass only on what they name", "statement": "check_controllers_running passes exactly if each named controller has a node in the namespace and the controller manager lists it in the state, and then there is a moment at which all of them are in it; a namespace means the same with and without slashes at its ends. check_node_running passes exactly if a node of the name is seen, check_if_js_published exactly if the message has the named joints, in any order.", "quantifier": "all lists of names, all namespaces, all sequences of answers of the node and the controller manager during the time of the check, all messages", "why_tests_cant": "these helpers are what other tests rely on; what they accept depends on how the system changes while they poll", "anchors": ["controller_manager/controller_manager/test_utils.py: check_node_running, check_controllers_running, check_if_js_published"]}
{"id": "C87", "title": "The helper functions for containers and texts do what they say", "statement": "has_item, has_any_item and has_all_items are membership; add_item and add_items keep what is there in its place and append what was not, in order and once each; remove_item removes the first occurrence, nothing else, and tells whether there was one; is_unique holds exactly if no element occurs twice; strip removes the blanks at both ends and nothing else.", "quantifier": "all vectors over any type with equality, all items, all texts, every sort", "why_tests_cant": "repetitions, positions and lengths are unbounded", "anchors": ["hardware_interface/include/hardware_interface/helpers.hpp: has_item, add_item, add_items, remove_item, has_any_item, has_all_items, is_unique, strip"]}
{"id": "C88", "title": "Published statistics of the hardware are those of its components", "statement": "Before the services are offered nothing is published about hardware. From then on the variables published on ~/statistics for hardware are exactly the twelve of the reads of each component with a name, and the twelve of its writes unless it is a sensor, each once, and each reads from the component of the resource manager in use. No two variables of components or controllers have the same name.", "quantifier": "all histories of robot descriptions (accepted, rejected, ignored), service calls, cycles and failures; all names", "why_tests_cant": "the registry holds raw pointers into objects of a resource manager that can be replaced; tests use one description that loads", "anchors": ["controller_manager/src/controller_manager.cpp: set_initial_hardware_components_state, robot_description_callback", "hardware_interface/src/resource_manager.cpp: load_hardware"]}
