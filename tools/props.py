#!/usr/bin/env python3
"""Source of properties.jsonl (run: python3 tools/props.py > properties.jsonl)."""
import json
P=[]
def p(id,title,statement,quantifier,why,anchors):
    P.append(dict(id=id,title=title,statement=statement,quantifier=quantifier,why_tests_cant=why,anchors=anchors))
CM="controller_manager/src/controller_manager.cpp"; RM="hardware_interface/src/resource_manager.cpp"; HC="hardware_interface/src/hardware_component.cpp"
p("C01","Hardware lifecycle follows the documented state machine",
 "Whatever sequence of initialize/configure/activate/deactivate/cleanup/shutdown/error/read/write calls is made on a hardware component and whatever its plugin callbacks return, the reported lifecycle state only ever changes along the documented edges of the managed lifecycle, and it is never ACTIVE unless on_activate was the last transition callback that succeeded.",
 "all call sequences of any length, all plugin return values (SUCCESS/FAILURE/ERROR at every call)",
 "The number of call/return-value histories is infinite; tests pick a few scripted plugins.",
 [HC+": HardwareComponent::initialize/configure/cleanup/shutdown/activate/deactivate/error/read/write"])
p("C02","Driver read/write are only invoked in permitted states",
 "A hardware plugin's read is only ever invoked while the component is INACTIVE or ACTIVE, and its write only while it is ACTIVE (never for sensors), for every history of calls and plugin results.",
 "all call histories and plugin behaviours","Needs every history, including failures in the middle of a transition.",
 [HC+": HardwareComponent::read, HardwareComponent::write","hardware_interface/include/hardware_interface/types/lifecycle_state_names.hpp"])
p("C03","set_component_state result tells the truth",
 "set_component_state(name, target) returns OK exactly when the named component exists, the target is a primary state reachable by the documented transitions, and the component is in the target state afterwards; otherwise it returns ERROR; other components' lifecycle states are never changed.",
 "all component sets, current states, targets and plugin results",
 "4x4 state table times all plugin outcomes times unknown names/ids.",
 [RM+": ResourceManager::set_component_state, ResourceStorage::set_component_state"])
p("C04","Interfaces are available exactly while their hardware is configured",
 "After any history of component state changes and read/write cycles, a hardware component's command and state interfaces are reported available iff the component is configured (INACTIVE or ACTIVE); unconfigured or finalized hardware never exposes available interfaces.",
 "all histories of component transitions, read/write cycles and failures",
 "Histories are unbounded, and failure can occur at each callback.",
 [RM+": configure_hardware, cleanup_hardware, shutdown_hardware, remove_all_hardware_interfaces_from_available_list, read, write"])
p("C05","A command interface is loaned to at most one holder",
 "claim_command_interface succeeds only if the interface is available and not claimed; while a loan is alive every other claim of that interface throws; releasing the loan makes exactly that interface claimable again.",
 "all interleaved histories of claims and releases over any set of interfaces",
 "Exclusivity is a statement about every history.",
 [RM+": claim_command_interface, release_command_interface, command_interface_is_claimed","hardware_interface/include/hardware_interface/loaned_command_interface.hpp"])
p("C06","Only active controllers hold command interfaces and each interface has one holder (whole system)",
 "In every state reachable by load/configure/cleanup/unload/switch/update/read/write/hardware-state operations, each claimed command interface is held by exactly one controller, each held interface is marked claimed, and a controller that is not active holds none.",
 "all reachable states of the controller manager, all plugin behaviours, any number of controllers",
 "Invariant over unbounded operation histories.",
 [CM+": activate_controllers, deactivate_controllers, update, manage_switch",RM+": claim_command_interface"])
p("C07","Controller names are unique and commands address at most one controller",
 "No history of load, unload, configure and switch operations produces two loaded controllers with the same name; a second load of the name fails and leaves the list unchanged.",
 "all operation histories","Unbounded histories.",
 [CM+": add_controller_impl, load_controller, unload_controller"])
p("C08","Unload only removes inactive controllers and nothing else",
 "unload_controller returns OK iff the controller exists, is not active and not finalized and its cleanup succeeds; on OK precisely that controller disappears, all others keep state and order; on ERROR no controller disappears.",
 "all states, names, cleanup results","All list shapes and plugin outcomes.",
 [CM+": unload_controller, cleanup_controller, shutdown_controller"])
p("C09","Configure never disturbs other controllers",
 "configure_controller of an active, finalized or unknown controller is rejected without change; otherwise it returns OK only if that controller ends INACTIVE; in every outcome the set of loaded controllers and the lifecycle state of every other controller are unchanged (reordering only).",
 "all states, controllers, plugin results","The reordering goes through arbitrary chain graphs.",
 [CM+": configure_controller"])
p("C10","Reordering never loses or duplicates a controller",
 "After configure_controller the execution list is a permutation of the previously loaded controllers.",
 "all chain topologies, including cyclic and diamond ones","Graph shapes are unbounded.",
 [CM+": update_list_with_controller_chain, configure_controller"])
p("C11","Chained controllers run in data-flow order",
 "In the execution list computed at configuration, a controller that writes reference interfaces of another chainable controller is placed before it (so that commands propagate in one cycle).",
 "all acyclic chain topologies and configure orders","Unbounded DAGs and insertion orders.",
 [CM+": update_list_with_controller_chain, build_controllers_topology_info"])
p("C12","Chain topology is symmetric and reflects exactly the chained interfaces",
 "B is listed as following A iff A is listed as preceding B, and this is iff A claims a reference interface exported by B or B reads a state interface exported by A.",
 "all sets of configured controllers and interface configurations","Unbounded topologies.",
 [CM+": build_controllers_topology_info, controller_chain_spec_cleanup"])
p("C13","Chain groups are exactly the connected chains and their computation terminates",
 "The group used for error propagation contains exactly the controllers connected through chain links, for cyclic topologies too.",
 "all topologies","Unbounded, cyclic graphs.",
 [CM+": get_full_chain_spec, build_controller_full_chain_map_cache"])
p("C14","A strict switch request that fails validation changes nothing",
 "With STRICT strictness, if any named controller is not loaded, unconfigured, already in the requested state, conflicting, or its chain/interfaces preconditions fail, switch_controller returns ERROR and no controller or hardware lifecycle state, claim or chained mode is changed.",
 "all states and requests","Every combination of request lists and states.",
 [CM+": switch_controller_cb, clear_requests"])
p("C15","OK from switch_controller means the switch happened",
 "If switch_controller returns OK after performing a switch, every controller in the effective activate list is active and every controller only in the effective deactivate list is not active.",
 "all states, requests, plugin outcomes and RT cycles in between","Failure can occur in each callback and each schedule.",
 [CM+": evaluate_switch_result, switch_controller_cb"])
p("C16","Interface conflicts are rejected before any controller is touched",
 "A switch that would activate two controllers claiming the same command interface, or claim an interface held by a running controller that is not being stopped, or use unavailable interfaces, returns ERROR with all controllers untouched.",
 "all requests and states","All overlaps between arbitrary interface sets.",
 [CM+": check_for_interfaces_availability_to_activate"])
p("C17","A controller is activated only if the controllers it feeds are active",
 "An accepted switch never activates a controller whose following (chained) controller is neither active nor activated by the same switch, at any depth of the chain.",
 "all chain depths and requests","Chains have unbounded depth and branching.",
 [CM+": check_following_controllers_for_activate"])
p("C18","A following controller cannot be stopped under an active preceding one",
 "An accepted strict switch never deactivates a chainable controller while a controller that uses its interfaces stays active.",
 "all topologies and requests","Unbounded topologies.",
 [CM+": check_preceding_controllers_for_deactivate"])
p("C19","Chained mode is only switched while a controller is not active",
 "A chainable controller's chained mode never changes while it is active, and it is out of chained mode whenever it was deactivated.",
 "all histories","Unbounded histories.",
 [CM+": switch_chained_mode, deactivate_controllers","controller_interface/src/chainable_controller_interface.cpp: set_chained_mode"])
p("C20","Chained mode is left when nothing feeds the controller any more",
 "After an accepted switch, a following controller whose preceding controllers were all stopped is not left in chained mode.",
 "all topologies and requests","Unbounded topologies and mixed request lists.",
 [CM+": propagate_deactivation_of_chained_mode"])
p("C21","A failing controller stops its whole chain and only that chain; fallbacks take over",
 "When a controller's update returns ERROR (or throws), in that same cycle all controllers in its chain group and those occupying its fallback's command interfaces are deactivated, its fallback controllers are activated, all other controllers stay as they are.",
 "all controller sets, chains, error patterns","Every subset of failing controllers.",
 [CM+": update"])
p("C22","Every active controller is updated at its configured rate",
 "A controller with rate equal to or above the manager's rate (or 0) is updated on each cycle; a slower one is updated on the cycle closest to its due time; on the first cycle after activation it is updated; consecutive periods handed to it sum to the elapsed time.",
 "all schedules of cycle times","Timing sequences are unbounded.",
 [CM+": update","controller_interface/src/controller_interface_base.cpp: configure, trigger_update"])
p("C23","The RT loop never iterates a controller list being modified",
 "For every interleaving of the RT thread and service threads, the controller list the RT thread iterates is not the one being modified, and a list is only destroyed after the RT thread stopped using it.",
 "all interleavings, any number of updates","Races: schedules are infinite.",
 [CM+": RTControllerListWrapper"])
p("C24","A switch request is executed at most once and the caller learns the outcome",
 "For every interleaving of the RT loop and the service thread, each accepted request is executed exactly once before the call returns a non-timeout result, and no stale request runs after the call returned.",
 "all interleavings incl. timeouts","Timing dependent.",
 [CM+": switch_controller_cb, manage_switch, update"])
p("C25","Hardware mode switch is validated before it is performed",
 "prepare_command_mode_switch returns true only if every start/stop interface exists and is available and every affected actuator/system accepted; a component in a state other than INACTIVE/ACTIVE is never asked; sensors are never asked.",
 "all interface sets, component states, answers","All overlaps and states.",
 [RM+": prepare_command_mode_switch, perform_command_mode_switch"])
p("C26","Hardware read/write failure handling",
 "If a component's read or write reports ERROR, the cycle's result is ERROR, the component (and each component of its group reached afterwards in the cycle) leaves ACTIVE through error handling, its interfaces become unavailable and its name is reported; components outside the group are unaffected.",
 "all component sets, groups, return patterns","All subsets of failing components and group partitions.",
 [RM+": read, write, update_hardware_component_group_state"])
p("C27","Controllers on failed hardware are stopped in the same cycle",
 "When read (or write) fails for a hardware component, every active controller that uses any of its interfaces is deactivated before read (write) returns.",
 "all systems and failures","All controller/hardware bindings and histories.",
 [CM+": read, write",RM+": cache_controller_to_hardware, get_cached_controllers_to_hardware"])
p("C28","Command limits: limited commands lie within the limits",
 "For any limits, state and desired command, the limiter's output lies in the computed bounds, which lie within the configured hard limits; commands already inside are unchanged; absent/NaN commands are not touched; the returned flag is true iff some command was changed.",
 "all real inputs including NaN/infinite","Continuous input space.",
 ["joint_limits/src/joint_range_limiter.cpp","joint_limits/src/joint_limits_helpers.cpp","joint_limits/src/joint_soft_limiter.cpp"])
p("C29","Velocity limiting respects acceleration limits across cycles",
 "Consecutive limited velocity commands differ by at most max_acceleration*dt and consecutive limited position commands by at most max_velocity*dt, over whole runs.",
 "all command sequences","Needs induction over the run.",
 ["joint_limits/src/joint_range_limiter.cpp","joint_limits/src/joint_limits_helpers.cpp"])
p("C30","Transmissions invert each other",
 "For every valid (nonzero) reduction and offset, mapping joint values to actuators and back is the identity for position, velocity and effort, and mechanical power is preserved; zero reductions are rejected by the constructor.",
 "all real values and parameters","Continuous parameter space.",
 ["transmission_interface/include/transmission_interface/simple_transmission.hpp","transmission_interface/include/transmission_interface/differential_transmission.hpp","transmission_interface/include/transmission_interface/four_bar_linkage_transmission.hpp"])
p("C31","Boolean / text parsing is total and exact",
 "parse_bool accepts exactly the case-insensitive spellings of true and false and rejects every other string; parse_array accepts exactly well-formed bracketed lists; strip removes exactly leading and trailing blanks.",
 "all strings","Infinite input set.",
 ["hardware_interface/src/lexical_casts.cpp","hardware_interface/include/hardware_interface/helpers.hpp"])
p("C32","Statistics reported are the true statistics of the samples",
 "The online mean/variance/min/max/average reported for execution time and periodicity equals the exact statistics of all samples since the last reset.",
 "all sample sequences","Unbounded sequences.",
 ["hardware_interface/include/hardware_interface/types/statistics_types.hpp"])
p("C33","Fallback controllers are validated before the main controller is activated",
 "A controller with fallback controllers is only activated if each fallback is loaded, inactive (or suitably placed), not chained illegally, and all its interfaces are available or owned by the main controller.",
 "all fallback lists and states","All combinations.",
 [CM+": check_fallback_controllers_state_pre_activation"])
p("C34","Initial hardware state bring-up",
 "At start-up, components listed as unconfigured stay unconfigured, listed as inactive end at most inactive, and all others are activated; grouped components activate all-or-nothing.",
 "all component lists, groups, plugin outcomes","All list overlaps and failures.",
 [CM+": set_initial_hardware_components_state"])
p("C35","Exported interfaces of an inactive chainable controller are unavailable",
 "A chainable controller's reference and state interfaces are available to others only while it is active (or being activated by the running switch).",
 "all histories","Unbounded histories.",
 [CM+": configure_controller, deactivate_controllers, activate_controllers",RM+": make_controller_reference_interfaces_available"])
p("C36","Chainable controller input selection",
 "A chainable controller's references are taken from its subscribers only while not in chained mode and from the preceding controller otherwise; a failing subscriber update prevents writing commands.",
 "all modes, plugin results","All histories of mode changes.",
 ["controller_interface/src/chainable_controller_interface.cpp: update"])
p("C37","Chainable export validation",
 "Exported reference/state interfaces are only accepted if each is prefixed by the controller's name and names are unique and sizes match; otherwise the export throws and nothing is registered.",
 "all lists of exported descriptions","All lists.",
 ["controller_interface/src/chainable_controller_interface.cpp: export_state_interfaces, export_reference_interfaces"])
p("C38","Handles: last written value is read back",
 "A get on an interface handle after a sequence of sets returns the last value set, whatever handles (loaned or not) share the interface; a set with an incompatible data type throws and changes nothing.",
 "all op sequences","Unbounded sequences.",
 ["hardware_interface/include/hardware_interface/handle.hpp","hardware_interface/include/hardware_interface/loaned_command_interface.hpp","hardware_interface/include/hardware_interface/loaned_state_interface.hpp"])
p("C39","Reported claimed interfaces match reality",
 "After each switch the claimed interfaces listed for a controller equal its command interfaces when active and are empty when not.",
 "all histories","Unbounded histories.",
 [CM+": evaluate_switch_result, list_controllers_srv_cb"])
p("C40","Limits cannot be bypassed: enforce_command_limits covers all commanded joints",
 "Each cycle, for every joint with a configured limiter, the command interfaces' values written are the limiter's output for current command/state, other interfaces remain untouched.",
 "all joints, commands","Continuous inputs, any number of joints.",
 [RM+": enforce_command_limits"])
p("C41","Controller callbacks are only invoked in permitted lifecycle states",
 "Whatever services are called and whatever controllers and hardware answer, update of a controller is only called while it is active, on_configure only while unconfigured, on_activate/on_cleanup only while inactive, on_deactivate only while active, on_shutdown never when finalized, and on_error only directly after a callback that failed.",
 "all histories of service calls and real-time cycles, all controller and hardware answers","Unbounded histories.",
 [CM+": configure_controller, activate_controllers, deactivate_controllers, update, unload_controller, shutdown_controllers"])
p("C42","switch_controller never throws its internal-consistency exception",
 "The checks at the beginning of switch_controller that throw 'CM's internal state is not correct' are never hit, after any history of accepted, rejected and timed-out switches and failures.",
 "all histories","Every exit path of every earlier call must have cleaned up.",
 [CM+": switch_controller_cb, clear_requests"])
p("C43","A controller driven by a running controller is in chained mode",
 "Whenever a running controller holds a reference interface of another running controller, the latter is in chained mode (otherwise its own subscribers overwrite the references).",
 "all histories","Unbounded histories of switches.",
 [CM+": check_following_controllers_for_activate, propagate_deactivation_of_chained_mode, switch_chained_mode"])
p("C44","A configured transmission maps what it was given",
 "If configure of a transmission succeeds, at least one kind of interface is mapped between joints and actuators, and the i-th reduction and offset of the description are applied to the i-th joint or actuator of the description.",
 "all handle lists and parameters","All combinations of handles.",
 ["transmission_interface/include/transmission_interface/accessor.hpp: get_names, get_ordered_handles","transmission_interface/include/transmission_interface/differential_transmission.hpp: configure","transmission_interface/include/transmission_interface/four_bar_linkage_transmission.hpp: configure","transmission_interface/include/transmission_interface/simple_transmission.hpp: configure","transmission_interface/src/differential_transmission_loader.cpp: load"])
p("C45","A STRICT switch is all or nothing when it is executed",
 "Whatever happens between the acceptance of a STRICT switch request and its execution, and whatever controllers and hardware answer during it: either the hardware refused the mode change and no controller changed state, or every controller requested to be activated is active, or none of them is (except one whose on_deactivate refused the rollback).",
 "all histories before, between and all answers during the execution","Unbounded histories and all combinations of failing callbacks.",
 [CM+": switch_controller_cb, manage_switch, activate_controllers"])
p("C46","No controller starts uninvited",
 "In every history an active controller was named in the activation list of some switch request or as a fallback of some loaded controller; failures, timeouts, rollbacks and restarts never start a controller nobody asked for.",
 "all histories","Unbounded histories.",
 [CM+": switch_controller_cb, update, manage_switch"])
p("C47","Integer texts are converted exactly or rejected",
 "stoi8/16/32 and stoui8/16/32 return v exactly for the texts [blanks][sign]digits of an integer v in the range of the type, throw out_of_range for integers out of range, and throw for every other text.",
 "all strings, all integer types","Infinite input set.",
 ["hardware_interface/include/hardware_interface/lexical_casts.hpp: stoi_generic, stoui_generic"])
p("C48","Real-number texts are converted exactly or rejected",
 "stod accepts exactly the decimal numbers ([sign] digits [. digits] [exponent]) in the range of the type and returns their value; no blanks, trailing characters, infinities or NaN are accepted.",
 "all strings","Infinite input set.",
 ["hardware_interface/src/lexical_casts.cpp: stod, parse_floating_point_with_from_chars"])
p("C49","Lists of numbers are returned exactly or rejected",
 "parse_array of a numeric type returns exactly the numbers written in a well-formed bracketed list, in order, and rejects lists with elements that are not numbers of the type.",
 "all strings, all numeric types","Infinite input set.",
 ["hardware_interface/include/hardware_interface/lexical_casts.hpp: parse_array"])
p("C50","The trajectory-point limiter keeps trajectory points within the limits",
 "JointSaturationLimiter::enforce on a trajectory point: without usable input nothing changes and false is returned; otherwise accelerations, velocities and positions of the result lie within the limits of the joints; if one joint can no longer stop before its position limit, all joints brake; false is returned only if the point is unchanged.",
 "all numbers of joints, limits, readings, commands and time steps","Real-valued inputs for any number of joints; boundary cases between the stages.",
 ["joint_limits/src/joint_saturation_limiter.cpp: on_enforce","joint_limits/include/joint_limits/joint_saturation_limiter.hpp"])
p("C51","Joint limits follow the parameters of the node",
 "When limit parameters of a joint limiter are changed at run time, singly or together, the next enforce uses exactly the limits the parameters describe; a limit without its numbers is not switched on.",
 "all histories of parameter settings and calls of enforce, all joints, all values","Unbounded histories; the effect depends on the order and grouping of settings and on the interleaving with enforce.",
 ["joint_limits/include/joint_limits/joint_limits_rosparam.hpp: check_for_limits_update, get_joint_limits","joint_limits/include/joint_limits/joint_limiter_interface.hpp: init, enforce"])
p("C52","Mock hardware does what it is told",
 "mock_components/GenericSystem: after read, mirrored interfaces have the last finite command, positions the command plus the configured offset, mimic joints follow the mimicked joint, simulated joints obey the kinematics of their mode, other states are untouched; accepted command mode switches take effect; read returns OK unless a command is infinite.",
 "all robot descriptions, interface orders, states, command histories and periods","Unbounded histories, arbitrary descriptions and hash orders, real-valued commands.",
 ["hardware_interface/src/mock_components/generic_system.cpp: read, on_configure, prepare_command_mode_switch, perform_command_mode_switch","hardware_interface/src/hardware_component_interface.cpp: has_state, has_command"])
p("C53","Asynchronous hardware components",
 "For a hardware component whose read/write run in a worker thread: write of the plugin is called only right after a successful read and while ACTIVE; lifecycle callbacks never overlap read/write; every reported ERROR is a real and current one; every ERROR of the plugin is reported by the next cycle; a reported ERROR leads to on_error; lifecycle calls never wait forever.",
 "all interleavings of the real-time thread, lifecycle calls and the worker thread, all answers of the plugin","Thread schedules; lost updates need particular interleavings of loads, triggers and stores.",
 ["hardware_interface/src/hardware_component_interface.cpp: init, trigger_read, trigger_write, pause_async_operations, prepare_for_activation","hardware_interface/src/hardware_component.cpp: configure, activate, deactivate, error, read, write","hardware_interface/src/resource_manager.cpp: read, write"])
p("C54","A hardware component and the controllers see the same interfaces",
 "A hardware component that leaves exporting to the framework has one interface per tag of its description (of the kinds its type has). For every interface listed for it, the component and the controllers always read the same value: the last one written to that interface by the component or, for commands, through a loan, and the initial value of the description before that; no access to any other interface changes it. If all full interface names of the robot differ, every declared interface is listed and the description passes the check after loading, whatever the iteration order of the hash maps.",
 "all robot descriptions, numbers of components, hash-map iteration orders and sequences of accesses","Arbitrary descriptions, hash orders and aliasing between unboundedly many handles.",
 ["hardware_interface/src/hardware_component_interface.cpp: on_init, on_export_state_interfaces, on_export_command_interfaces, get_state_interface_handle, get_command_interface_handle","hardware_interface/src/component_parser.cpp: parse_state_interface_descriptions, parse_command_interface_descriptions","hardware_interface/src/hardware_component.cpp: export_state_interfaces, export_command_interfaces","hardware_interface/src/resource_manager.cpp: import_state_interfaces, import_command_interfaces, add_state_interfaces, add_command_interfaces, validate_storage"])
p("C55","The limits of a joint are the tightest ones its description gives",
 "A description is accepted exactly if all its joints are acceptable (in the URDF, not fixed, mimicking only as the URDF says, without commands and inside the same tag). The lower (upper) position limit used for a joint is the greatest (least) of all those given by the URDF and by the position command interfaces; the maximal velocity and effort are the least of all bounds given; accelerations, decelerations and jerks are those of their command interface; disabling an interface or a joint removes exactly its limits. A limiter is made for exactly the joints whose limits are not disabled, with these limits and with soft limits cut to lie inside. Hence with consistent bounds every position and effort command that leaves the limiter respects every bound written anywhere in the description.",
 "all URDFs, ros2_control tags, texts of limits, orders and repetitions of interfaces, and all histories of limiter calls","Unbounded descriptions and combinations of tags, and histories of commands.",
 ["hardware_interface/src/component_parser.cpp: retrieve_min_max_interface_values, set_custom_interface_values, update_interface_limits, parse_control_resources_from_urdf","joint_limits/include/joint_limits/joint_limits_urdf.hpp: getJointLimits, getSoftJointLimits","joint_limits/include/joint_limits/joint_limits.hpp","hardware_interface/src/resource_manager.cpp: import_joint_limiters"])
p("C56","The control loop keeps its rate, accounts for all time and does not burst after overruns",
 "ros2_control_node: the periods handed to read, update and write are the times between the beginnings of consecutive cycles and add up to the elapsed time. With fixed deadlines no cycle begins early, deadlines lie on the grid of the period and do not drift; with overruns managed the loop resumes at a time of the grid that is not past and at most one period away, hence no bursts of cycles; without, no cycle is dropped. With simulated time, cycles begin at least a period apart; with blocking hardware, at least the minimal cycle time.",
 "all update rates, all readings of the clocks, durations of cycles and wake-up delays, any number of cycles","Unbounded runs and arbitrary timing; overruns and clock readings cannot be enumerated.",
 ["controller_manager/src/ros2_control_node.cpp: main","controller_manager/src/sleeping_policies.cpp: sleep_for_sim_time, sleep_for_blocking_read_write, sleep_for_periodic_cycle","controller_manager/include/controller_manager/sleeping_policies.hpp"])
p("C57","Semantic components report and command the right interfaces",
 "get_ordered_interfaces on different interfaces returns true exactly if every name asked for is there, and then the result is the interfaces asked for in that order. A force-torque sensor (also with some axes only), IMU, magnetic field and pose sensor that is given its interfaces in every session reports, for every field of its message, the last value the interface named after that field answered with, through any number of sessions; a GPS sensor reports what its interfaces answer now. Command components write every value to the interface it is meant for, and an LED with a colour part outside 0 to 1 writes nothing.",
 "all names, orders of interfaces, numbers of sessions, histories of answers of the handles and values","Unbounded sessions and histories of busy handles; orders of interfaces cannot be enumerated.",
 ["controller_interface/include/controller_interface/helpers.hpp: get_ordered_interfaces","controller_interface/include/semantic_components/semantic_component_interface.hpp","controller_interface/include/semantic_components/force_torque_sensor.hpp","controller_interface/include/semantic_components/imu_sensor.hpp","controller_interface/include/semantic_components/pose_sensor.hpp","controller_interface/include/semantic_components/magnetic_field_sensor.hpp","controller_interface/include/semantic_components/gps_sensor.hpp","controller_interface/include/semantic_components/semantic_component_command_interface.hpp","controller_interface/include/semantic_components/led_rgb_device.hpp"])
p("C58","The robot description is read as it is written",
 "If a description is accepted, there is one hardware component for each ros2_control tag, in that order, and its name, type, rate, plugin, group, parameters, thread settings, joints, sensors, gpios, their interfaces with limits, sizes, types and initial values, and its transmissions with the interfaces of their joints are exactly what the tag says; blanks around texts do not matter and the last of several parameters of a name counts. A description is accepted exactly if every tag says something sensible. It never runs into undefined behaviour except for documents without root, sdf files without model and core numbers beyond int. Consequently the interfaces a component has are exactly those written in its tags, the limits used are never wider than the numbers written, and a component runs at the rate written.",
 "all XML trees: any tags, attributes, texts, nesting, order and repetition","The descriptions are unbounded trees of arbitrary texts; every combination of missing, repeated and malformed tags counts.",
 ["hardware_interface/src/component_parser.cpp: parse_control_resources_from_urdf, parse_resource_from_xml, parse_component_from_xml, parse_complex_component_from_xml, parse_interfaces_from_xml, parse_parameters_from_xml, parse_transmission_from_xml, auto_fill_transmission_interfaces, get_attribute_value, get_text_for_element, parse_size_attribute, parse_rw_rate_attribute, parse_is_async_attribute, parse_thread_priority_attribute","hardware_interface/include/hardware_interface/hardware_info.hpp","hardware_interface/src/resource_manager.cpp: load_and_initialize_components"])
p("C59","The command line clients tell the truth about what they did",
 "spawner: unless interrupted, exit code 0 (or waiting with --unload-on-kill) means that every controller of the command line was loaded, configured unless load-only, and active unless load-only or inactive, at some moment while it worked, with --activate-as-group all together; those nobody else unloads are loaded when it ends. A refusal ends it at once with exit code 1; exit code 1 means a refusal, an absent service or no lock; an exception means three requests without an answer. It only asks for what its command line and the answers so far allow, in the order load, configure, activate. An interrupted spawner asks for nothing but, with --unload-on-kill, the deactivation and, once confirmed, the unloading of its controllers not marked inactive; exit code 0 then means each of them was unloaded after the interrupt. unspawner: exit code 0 means each controller was not loaded at some moment. hardware_spawner: it only asks for the requested state of listed components.",
 "all command lines, states of the controller manager, losses, delays and duplicates of messages, moments of interrupts, and interleavings with the real-time loop and other clients","Lost and late answers, interrupts and other clients at any point of an unbounded schedule cannot be enumerated by tests.",
 ["controller_manager/controller_manager/spawner.py: main, combine_name_and_namespace","controller_manager/controller_manager/unspawner.py: main","controller_manager/controller_manager/hardware_spawner.py: main","controller_manager/controller_manager/controller_manager_services.py: service_caller, set_controller_parameters_from_param_files","controller_manager/src/controller_manager.cpp: load_controller_service_cb, configure_controller_service_cb, switch_controller_service_cb, unload_controller_service_cb"])
p("C60","The listing services tell the truth",
 "list_controllers answers with exactly one entry per loaded controller, in update order, showing its current state, chained mode and flags; the required interfaces of inactive and active controllers are the ones they ask for; a chain connection to m is shown exactly if an inactive or active controller asks for a command interface of the loaded controller m, with the interfaces it uses of m; the reference interfaces shown are the ones the controller exports. list_hardware_components and list_hardware_interfaces always answer, show every component once with its state, and show a command interface as claimed exactly if it is available and exactly one active controller has it on loan.",
 "all robots, controllers, plugin answers and histories of operations","The listing depends on the whole history of loads, configurations, failed clean-ups and hardware faults.",
 ["controller_manager/src/controller_manager.cpp: list_controllers_srv_cb, list_hardware_components_srv_cb, list_hardware_interfaces_srv_cb, split_command_interface","hardware_interface/src/resource_manager.cpp: get_controller_reference_interface_names, get_controller_exported_state_interface_names, command_interface_is_claimed, get_command_interface_data_type, get_components_status"])
p("C61","Reloading the controller libraries happens only without controllers",
 "reload_controller_libraries answers ok only if no controller is loaded and no hardware command interface is claimed any more; without force_kill it changes nothing while a controller is active; if no controller is active or finalized and no clean-up fails it answers ok; a finalized controller is never unloaded and blocks every later reload.",
 "all states, interleavings of the call with the real-time loop, plugin answers, timeouts, later histories","The call waits for the real-time loop and unloads one controller after the other while cycles run in between; the set of interleavings is unbounded.",
 ["controller_manager/src/controller_manager.cpp: reload_controller_libraries_service_cb, unload_controller, switch_controller"])
p("C62","The update of an asynchronous controller does not overlap its lifecycle callbacks",
 "The update of an is_async controller, which runs in its own thread, never overlaps on_configure, on_cleanup, on_shutdown or on_error, and is never called in an unconfigured or finalized controller; calls of update are serial and each serves one accepted trigger; a trigger is accepted exactly if no cycle is in progress and answers what the last update since the activation answered; an announced deactivation (switch_controller) that does not race a trigger leaves the controller quiet until its next activation; update does not overlap on_activate or on_deactivate, is called only while the controller is active and has its interfaces, and the interfaces are not taken back during it, provided no deactivation begins during a cycle; transitions and announcements wait only for the worker.",
 "all interleavings of the real-time thread, the service thread, lifecycle transitions and the worker thread; all answers of the controller","Data races show up only in particular interleavings of four agents over unbounded histories.",
 ["controller_interface/src/controller_interface_base.cpp: init, configure, trigger_update, prepare_for_deactivation, wait_for_trigger_update_to_finish, stop_async_handler_thread, release_interfaces","controller_manager/src/controller_manager.cpp: switch_controller, update, read, deactivate_controllers, activate_controllers"])
p("C63","Shutting the controller manager down finalizes everything it reports as finalized",
 "The shutdown of the controller manager asks every controller and then every hardware component to go to FINALIZED: an active controller gets on_deactivate and, unless that was refused, on_shutdown; an inactive or unconfigured one on_shutdown; a finalized one nothing; the same for components. All command interfaces are released. If it reports success, every controller and every component is FINALIZED; one that is not has failed or refused a callback. A controller that has been shut down is not updated or activated any more, whatever the real-time loop does.",
 "all robots, reachable states, callback answers, orders of components and interleavings of the shutdown with the real-time loop","The real-time loop keeps running between the visits; failures of plugins and faults of hardware can occur at any of these points.",
 ["controller_manager/src/controller_manager.cpp: init_controller_manager (pre-shutdown callback), shutdown_controllers, shutdown_controller","hardware_interface/src/resource_manager.cpp: shutdown_components, set_component_state"])
p("C65","The controller manager takes the first robot description that loads, completely, and only then offers its services",
 "A controller manager started without a description offers no service and has no hardware, controllers, interfaces or joint limits until a description is accepted; a description is accepted exactly if it can be parsed and all its components load, and a rejected one leaves nothing behind. The accepted one is in use completely: its components, in order, its declared interfaces, its joint limits, with the parameters of the controller manager in force; later descriptions change nothing. The start ends the process only with shutdown_on_initial_state_failure. The real-time thread never uses a destroyed resource manager, and controllers get the description that is in use.",
 "all parameters, descriptions, plugin answers, numbers of rejected descriptions and interleavings with service calls and the real-time loop","Any number of wrong descriptions can precede the right one, at any point of the run of the real-time loop.",
 ["controller_manager/src/controller_manager.cpp: ControllerManager, robot_description_callback, init_resource_manager, set_initial_hardware_components_state","hardware_interface/src/resource_manager.cpp: ResourceManager, load_and_initialize_components, import_joint_limiters, load_hardware","controller_manager/src/ros2_control_node.cpp: main"])
p("C64","The diagnostics are an error exactly when something is wrong, and blame exactly the culprits",
  "The controllers diagnostic is ERROR iff no hardware component is active or an active controller is beyond an error threshold of execution time or (if it is asynchronous or has its own rate) of periodicity; it is OK iff some hardware is active, a controller is loaded and no active controller is beyond any threshold; otherwise WARN. Its message names exactly the controllers beyond a threshold, in order; its values show every controller's true lifecycle state. The hardware diagnostic does the same for read and write cycles of the components (ERROR if no description or no component is loaded, WARN if none is active), the controller manager's for its own loop. Statistics that never got a sample raise no alarm.",
  "all lists of controllers and components in any state, all statistics values including NaN and infinities, all rates and thresholds (also warn above error)",
  "Tests check a status with one controller and default thresholds; the interplay of several offenders, NaN statistics, inactive components and misordered thresholds is unbounded.",
  ["controller_manager/src/controller_manager.cpp:controller_activity_diagnostic_callback","controller_manager/src/controller_manager.cpp:hardware_components_diagnostic_callback","controller_manager/src/controller_manager.cpp:controller_manager_diagnostic_callback","controller_manager/src/controller_manager_parameters.yaml:diagnostics.threshold"])
p("C66","The real-time loop always works on a complete, unchanging list of controllers, and neither side waits for ever",
  "While services load, configure, switch and unload controllers, the list the real-time loop iterates over is never written; its content does not change until the loop takes a list again; the list it takes is the one the last completed service installed. The real-time loop is not blocked by services, and a service that installs a list goes on once the loop has come round.",
  "all interleavings of any number of service threads (loading, configuring, switching, unloading, listing, diagnostics) with the real-time thread, including interruptions inside the index update, failing controllers and components that ask for deactivation",
  "A test exercises a handful of schedules; the harmful ones need a thread switch between two instructions or a fault at the moment a service waits.",
  ["controller_manager/include/controller_manager/controller_manager.hpp:RTControllerListWrapper","controller_manager/src/controller_manager.cpp:update_and_get_used_by_rt_list","controller_manager/src/controller_manager.cpp:get_unused_list","controller_manager/src/controller_manager.cpp:switch_updated_list","controller_manager/src/controller_manager.cpp:wait_until_rt_not_using","controller_manager/src/controller_manager.cpp:publish_activity"])
p("C67","The activity topic shows the present states",
  "A subscriber of ~/activity reads the present lifecycle state of every loaded controller and every hardware component, each listed once: every successful load, configure and unload, every switch that ends, every change of a component by service and every cycle with a failing controller is announced, and no message shows a state that was never there.",
  "all histories of service calls, switches, real-time cycles and failures of controllers and components, all robot descriptions",
  "A test subscribes after one operation; whether the latched message is still right depends on every operation since it was published.",
  ["controller_manager/src/controller_manager.cpp:publish_activity","controller_manager/src/controller_manager.cpp:switch_updated_list","controller_manager/src/controller_manager.cpp:update","hardware_interface/src/resource_manager.cpp:set_component_state"])
p("C68","ros2 control verbs report what happened",
  "A verb of `ros2 control` that changes something ends with exit code 0 only if, after it had asked, the controller manager reached the state that was asked for (controller unloaded, cleaned up, configured, activated, deactivated, loaded; hardware component in the state); it asks for nothing but the transition it is named after, in the order load, configure, activate and only after the previous step was confirmed; a refused request or an interrupt never gives exit code 0.",
  "all controller manager histories, all arguments, all interleavings of the verb with its messages (lost, delayed, repeated), the real-time loop, other clients and interrupts",
  "A test runs one verb against one controller manager that answers at once; lost answers, other clients and requests that are accepted but not carried out need other schedules.",
  ["ros2controlcli/ros2controlcli/verb/set_controller_state.py","ros2controlcli/ros2controlcli/verb/load_controller.py","ros2controlcli/ros2controlcli/verb/switch_controllers.py","ros2controlcli/ros2controlcli/verb/unload_controller.py","ros2controlcli/ros2controlcli/verb/cleanup_controller.py","ros2controlcli/ros2controlcli/verb/set_hardware_component_state.py","controller_manager/controller_manager/controller_manager_services.py:switch_controllers"])
p("C69","Limits hold in floating point",
 "The guarantees of the joint limiters (C28, C29) hold for the double arithmetic the code really does, with rounding, overflow and subnormal numbers: every limited position, velocity, effort, acceleration and jerk command is inside its limit exactly, not just up to rounding; absent and NaN commands are untouched; the returned flag says exactly whether something changed; consecutive position commands are no further apart than max_velocity * dt up to a stated rounding error.",
 "all limits, readings, commands, periods and histories of calls; all roundings with the properties of IEEE 754, in particular binary64",
 "Rounding errors depend on the exact operands; tests compare with tolerances and sample a handful of numbers.",
 ["joint_limits/src/joint_limits_helpers.cpp:compute_position_limits","joint_limits/src/joint_limits_helpers.cpp:compute_velocity_limits","joint_limits/src/joint_range_limiter.cpp:on_enforce","joint_limits/src/joint_soft_limiter.cpp:on_enforce"])
p("C70","A spawned controller gets the parameter files meant for it",
 "Of the parameter files on the spawner's command line (-p, and --params-file of the spawner's own node) the controller's node gets exactly those with a section for the controller, each once and in the order given, before use_sim_time and the extra ROS arguments; the controller's type and fallback controllers are what these files say, a later file overriding an earlier one; what earlier spawners set does not matter; a file that cannot be used stops the spawner.",
 "all YAML documents, file lists, controller names and namespaces, all histories of spawners for the same controller, all custom node options",
 "The forms of sections, their combinations over several files and what earlier spawners left on the controller manager multiply; tests use one or two files and a fresh controller manager.",
 ["controller_manager/controller_manager/controller_manager_services.py:get_params_files_with_controller_parameters","controller_manager/controller_manager/controller_manager_services.py:get_parameter_from_param_files","controller_manager/controller_manager/controller_manager_services.py:set_controller_parameters_from_param_files","controller_manager/controller_manager/spawner.py:main","controller_manager/src/controller_manager.cpp:load_controller","controller_manager/src/controller_manager.cpp:determine_controller_node_options"])
p("C71","Reported statistics are sound in floating point",
 "The statistics of cycle times and periods (C32) are sound for the double arithmetic the code really does: after a reset and any number of finite samples the count, minimum and maximum are exactly those of the samples, the average is never outside of minimum and maximum and differs from the true mean by no more than a stated rounding error, the standard deviation is never NaN (its argument is never negative), is 0 when all samples are equal, and its square differs from the true variance by no more than a stated rounding error.",
 "all histories of samples, resets and publications, all double samples; IEEE 754 binary64 arithmetic",
 "Rounding errors accumulate over the millions of samples of a running loop; tests take a few samples and compare with tolerances.",
 ["hardware_interface/include/hardware_interface/types/statistics_types.hpp:add_measurement","hardware_interface/include/hardware_interface/types/statistics_types.hpp:update_statistics"])
p("C72","Transmissions are accurate in floating point",
 "In the double arithmetic of the code, with reductions between 2^-50 and 2^50 in magnitude and values and offsets below 2^399, every value mapped by a simple, differential or four-bar linkage transmission is finite and equals the exact one (C30) up to 2^-47 of the magnitude of the terms it is made of, and so does every value mapped forth and back. For all numbers whatever: with a positive reduction the simple transmission never reverses an order of values, zero velocities and efforts are exactly zero on the other side, a NaN is not hidden, and a value of one kind of interface depends on values of that kind only.",
 "all parameters, values, kinds of interfaces and wirings without shared cells; IEEE 754 binary64, the last part for every monotone rounding and all doubles",
 "Rounding errors depend on the operands and are amplified by cancellation; tests compare a few numbers with a tolerance.",
 ["transmission_interface/include/transmission_interface/simple_transmission.hpp:actuator_to_joint","transmission_interface/include/transmission_interface/differential_transmission.hpp:actuator_to_joint","transmission_interface/include/transmission_interface/four_bar_linkage_transmission.hpp:actuator_to_joint"])
p("C73","A spawner command line means what it says",
"Every controller named on the command line of the spawner gets exactly the parameter files (in order), flags and ROS arguments given for it; options about all controllers hold wherever they are written, of several values the last one; what the spawner does not understand is refused; and a launch description made with the helpers of launch_utils spawns exactly the controllers of its table with the options of the table.",
"all command lines (any number of controllers, options, files and any texts as values, every spelling of an option), all tables and lists given to the launch helpers, all values of their launch arguments",
"the lines and tables are unboundedly many, and abbreviations, attached values, splitting at --controller and the shell in between interact; tests try a few fixed lines",
["controller_manager/controller_manager/spawner.py: parse_args_advanced, parse_native_args, main","controller_manager/controller_manager/launch_utils.py: generate_spawner_launch_description, generate_controllers_spawner_launch_description"])
p("C74","What a controller commands is what the driver gets, limited, in the same cycle",
"In every cycle of the real-time loop all controllers see the same set of hardware readings, the one of this cycle's read; a controller in a chain sees the reference its predecessor has just computed, and whoever reads an exported state after its owner was updated sees this cycle's value; a hardware command interface has after the updates exactly what the one controller holding it left there, or its old value; and what the driver is given to write is that value passed through the joint limiters once, after all updates.",
"all reachable states of the controller manager, all user code of controllers and drivers (any function of the history and of the interface values), all limiters, all types of values, all answers of the callbacks",
"the value that arrives depends on the order of the controllers, on who holds what, on failures and on switches executed in the middle of the cycle; tests run one chain with one schedule and look at final values",
["controller_manager/src/controller_manager.cpp: read, update, write, manage_switch","hardware_interface/src/resource_manager.cpp: read, write, enforce_command_limits","controller_interface/src/controller_interface_base.cpp: assign_interfaces"])
p("C75","Limits given as parameters are taken as given",
"get_joint_limits returns true exactly if some parameter of the joint exists; limits specified in the parameters overwrite existing values, and those not specified remain unchanged; parameters of one joint do not matter for another, whatever the joints are called. Soft limits are taken exactly if given completely. init of a limiter succeeds exactly if all parameters have their types, changes no declared parameter and gives every joint the limits its parameters (declared, override or default) describe. Changed soft-limit parameters are taken over and reported.",
"all tables of parameters and overrides, of right and wrong types, all names and numbers of joints, all existing limits, all batches of changes",
"2^14 combinations of given and missing parameters per joint times types and existing limits; names of joints are arbitrary texts",
["joint_limits/include/joint_limits/joint_limits_rosparam.hpp: declare_parameters, get_joint_limits, check_for_limits_update","joint_limits/include/joint_limits/joint_limiter_interface.hpp: init","joint_limits/include/joint_limits/joint_limits.hpp"])
p("C76","The views of ros2 control show what is there",
"The diagram of view_controller_chains has an arrow between two controllers exactly for each reference interface of the second that the first asks for, an arrow to or from the hardware exactly for each hardware interface a controller asks for, and every interface has a field of its own in its box, whatever order the controllers come in; a diagram is always drawn. view_hardware_status prints every message that passes the filters, in order and with the devices asked for, and says 'not found' only of ids that are not published.",
"all reachable states of the controller manager and all orders of its answer, all names and numbers of interfaces, all sequences of status messages and filters",
"the order of Python sets changes from run to run, and the fault in the labels depends on the length of a name at one index; tests draw one diagram",
["ros2controlcli/ros2controlcli/verb/view_controller_chains.py: make_controller_node, make_command_node, make_state_node, show_graph, parse_response","ros2controlcli/ros2controlcli/verb/view_hardware_status.py: _on_message, main","controller_manager/src/controller_manager.cpp: list_controllers_srv_cb"])
p("C77","The buttons of the rqt controller manager do what they say, to whom they say",
"The window offers exactly the controller managers that are running; its tables show what the chosen manager answered last; whatever happened before, a click sends to the manager shown as chosen the requests of the entry clicked, about the controller or component of the clicked row, and nothing else; an entry is offered only for the state shown; if the last request of an entry is answered with OK, the controller or component was in the state the entry names at some time after the request was sent; if the first step of a two-step entry failed, the second one changes nothing.",
"all sequences of timers, managers appearing and disappearing, answers, silence and errors of services, selections and clicks (with timers running while a menu is open), all reachable states of the controller manager, all interleavings with other clients and cycles",
"what a click does depends on the order of timers, selections and failures of services, and on what other clients do meanwhile; there are no tests of the plugin",
["rqt_controller_manager/rqt_controller_manager/controller_manager.py: ControllerManager","controller_manager/controller_manager/controller_manager_services.py: service_caller","controller_manager/src/controller_manager.cpp: switch_controller, unload_controller, configure_controller, set_hardware_component_state_srv_cb"])
p("C78","What the listing verbs print can be read back, and leaves nothing out",
"For every answer of the controller manager, with or without colours and for all options: the output of `ros2 control list_controllers` read as an indented text gives back every controller in order with its name, type and state and exactly the parts asked for with exactly its interfaces; columns line up; `list_controller_types` has one line per type with its base class; `list_hardware_components` gives back each component, numbered, with its state and interfaces and their marks; `list_hardware_interfaces` prints each interface once, sorted by name, with marks that are true, and only available ones as its help says; completion offers exactly the names with a type parameter, or the loaded controllers in the states asked for.",
"all answers (any number of controllers, components, interfaces, any names without blanks), all options, colours on and off, all reachable states of the controller manager",
"scripts read this output; whether names, marks and indentation stay unambiguous depends on every length of names and combination of options; there are no tests of what the verbs print",
["ros2controlcli/ros2controlcli/verb/list_controllers.py: print_controller_state, ListControllersVerb","ros2controlcli/ros2controlcli/verb/list_hardware_components.py: ListHardwareComponentsVerb","ros2controlcli/ros2controlcli/verb/list_hardware_interfaces.py: ListHardwareInterfacesVerb","ros2controlcli/ros2controlcli/verb/list_controller_types.py: ListControllerTypesVerb","ros2controlcli/ros2controlcli/api/__init__.py: ControllerNameCompleter, LoadedControllerNameCompleter"])
p("C79","Prefixes of frames and names of nodes are what the configuration says, normalized and distinct",
"For every prefix and namespace, resolve_tf_prefix is defined and returns the parts of the prefix, with the namespace for its first '~', none lost, split or merged, so that prefix and frame name never run together; the result does not begin with a slash and resolving it again changes nothing. Two hardware components of different names get nodes of different names, hence different status topics; node names have no capital letters and no slashes.",
"all prefixes and namespaces, all pairs of component names",
"strings of any length with slashes and '~' anywhere; the tests check nine literals",
["controller_interface/include/controller_interface/tf_prefix.hpp: resolve_tf_prefix","hardware_interface/src/hardware_component_interface.cpp: HardwareComponentInterface::init"])
p("C80","Status messages of a hardware component: one per tick, from the template, on an initialised component",
"A component whose hardware tag sets status_publish_rate to a positive number, that makes a template naming a device and that has a node publishes with every tick of its timer what update_hardware_status_message makes of the template, stamped with the time of the tick, and nothing if it refuses; otherwise it publishes nothing and, unless making the template or the publisher failed, is initialised as usual. Nothing written into a message is carried over to the next. The plugin is asked for messages only once on_init has succeeded.",
"all plugins (any variables, any answers), all texts of the rate, all interleavings of the initialising thread with ticks of the timer, other methods and destruction, of any length",
"the timer runs in another thread than the initialisation: which of its ticks fall between two lines of init is decided by the scheduler; tests start the timer after initialisation",
["hardware_interface/src/hardware_component_interface.cpp: HardwareComponentInterface::init","hardware_interface/include/hardware_interface/hardware_component_interface.hpp: init_hardware_status_message, update_hardware_status_message"])
p("C81","Command lines of the hardware spawner and the unspawner mean what they say",
"On a line of options, names and options the hardware spawner does with the named components, in their order, what exactly one of --activate and --configure says, and refuses the line with none or both; the last controller manager and time count. Whatever the line is, a request to change the state of a component, to deactivate or to unload a controller is for one named by a word of the line, and the state requested is the one of a flag on the line. Both programs address the same controller manager.",
"all command lines (any list of texts), all lines made of the documented options in any of their spellings, all answers, interrupts and schedules of the controller manager, all namespaces",
"tests run a handful of literal lines; abbreviations, attached values, separators and repeated options combine without bound",
["controller_manager/controller_manager/hardware_spawner.py: main","controller_manager/controller_manager/unspawner.py: main"])
p("C82","Published statistics are those of the loaded controllers",
"At every moment the variables published on ~/statistics for controllers are exactly the twelve of each loaded controller, each once, and each is read from the statistics of the controller in its name, which exist. Nothing that is read was destroyed.",
"all histories of loading, configuring, switching, cleaning up, unloading, hardware state changes and control cycles, all failures, all robots",
"tests load controllers that load; a dangling registration is only read later, by the publisher, and does not crash reliably",
["controller_manager/src/controller_manager.cpp: load_controller, unload_controller, add_controller_impl, register_controller_manager_statistics","hardware_interface/include/hardware_interface/introspection.hpp: customRegister"])
p("C83","Published values are those of the existing interfaces",
"Each function registered for the topic introspection_data reads a stored interface of that name; each stored interface with a numeric value is registered exactly once, a command interface also with its flag is_limited; removing the interfaces a controller exported never meets a missing one.",
"all histories of the resource manager: descriptions loaded with success or failure, with any components and any (also repeated) interface names, controllers importing and removing exported states and references; either removal rule of the statistics library",
"the registry holds raw pointers; whether one dangles depends on the whole history of loads, failures and removals, and reading a destroyed interface often goes unnoticed",
["hardware_interface/src/resource_manager.cpp: add_state_interface, insert_command_interface, remove_state_interfaces, remove_command_interfaces, clear, load_and_initialize_components","hardware_interface/include/hardware_interface/handle.hpp: registerIntrospection, unregisterIntrospection"])
p("C84","The controller manager sees the state a controller is in",
"What get_lifecycle_id answers, and so what is_controller_active, is_controller_inactive, is_controller_unconfigured and the check of set_chained_mode decide by, is the state of the controller's lifecycle node: with no transition in progress exactly that state, and during one never the state of an earlier one.",
"all histories of transitions with all outcomes of their callbacks, any number of reading threads, all interleavings of their steps",
"a wrong answer needs a reader interrupted between two instructions while another thread runs a transition; no unit test schedules that",
["controller_interface/src/controller_interface_base.cpp: get_lifecycle_id, init, configure","controller_manager/src/controller_manager.cpp: is_controller_active, is_controller_inactive, is_controller_unconfigured","controller_interface/src/chainable_controller_interface.cpp: set_chained_mode"])
p("C85","ros2 control switch_controllers asks for what its command line says",
"On a line made of the documented options the verb asks to deactivate and to activate exactly the controllers named after the two options, in their order, with the strictness of the line or the controller manager's default, and refuses a line that asks for both strictnesses; of an option given several times the last counts. Whatever the line is, a controller it asks for is named on the line, and a line with a word that belongs to no option is refused.",
"all command lines (any list of texts), all lines made of the documented options in any of their spellings, numbers and orders, any number of names",
"names, options and spellings combine without bound",
["ros2controlcli/ros2controlcli/verb/switch_controllers.py: add_arguments, main","ros2controlcli/ros2controlcli/api/__init__.py: add_controller_mgr_parsers"])
p("C86","The helpers for tests of running systems pass only on what they name",
"check_controllers_running passes exactly if each named controller has a node in the namespace and the controller manager lists it in the state, and then there is a moment at which all of them are in it; a namespace means the same with and without slashes at its ends. check_node_running passes exactly if a node of the name is seen, check_if_js_published exactly if the message has the named joints, in any order.",
"all lists of names, all namespaces, all sequences of answers of the node and the controller manager during the time of the check, all messages",
"these helpers are what other tests rely on; what they accept depends on how the system changes while they poll",
["controller_manager/controller_manager/test_utils.py: check_node_running, check_controllers_running, check_if_js_published"])
p("C87","The helper functions for containers and texts do what they say",
"has_item, has_any_item and has_all_items are membership; add_item and add_items keep what is there in its place and append what was not, in order and once each; remove_item removes the first occurrence, nothing else, and tells whether there was one; is_unique holds exactly if no element occurs twice; strip removes the blanks at both ends and nothing else.",
"all vectors over any type with equality, all items, all texts, every sort",
"repetitions, positions and lengths are unbounded",
["hardware_interface/include/hardware_interface/helpers.hpp: has_item, add_item, add_items, remove_item, has_any_item, has_all_items, is_unique, strip"])
p("C88","Published statistics of the hardware are those of its components",
"Before the services are offered nothing is published about hardware. From then on the variables published on ~/statistics for hardware are exactly the twelve of the reads of each component with a name, and the twelve of its writes unless it is a sensor, each once, and each reads from the component of the resource manager in use. No two variables of components or controllers have the same name.",
"all histories of robot descriptions (accepted, rejected, ignored), service calls, cycles and failures; all names",
"the registry holds raw pointers into objects of a resource manager that can be replaced; tests use one description that loads",
["controller_manager/src/controller_manager.cpp: set_initial_hardware_components_state, robot_description_callback","hardware_interface/src/resource_manager.cpp: load_hardware"])
for x in P: print(json.dumps(x,ensure_ascii=False))
