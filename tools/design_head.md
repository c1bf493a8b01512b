# Formal model of ros2_control — design

Contents: 1 trusted base; 2 modelling decisions; 3 what is modelled, module by module; 4 what is not modelled;
5 plan and status per property; 6 where the code violates a natural property; 7 how the theorems are tested.

## 1 Trusted base
* The Lean 4.33.0 kernel. Mathlib modules are imported one at a time; their proofs are checked by the same kernel.
* Axioms: every theorem named in MANIFEST.json depends on at most `propext`, `Classical.choice` and `Quot.sound`.
  No axiom of our own, no compiled evaluation; `decide`/`rfl` are kernel computations and are used for concrete
  witnesses and non-vacuity examples only (and for finite case splits inside proofs).
* The model is a hand translation of `/repo`: that it says what the C++ does rests on reading. Every definition cites
  file and lines and says where it simplifies. `cm.cpp` is controller_manager/src/controller_manager.cpp.
* The specifications a reader has to agree with: `Hw/Spec`, `CM/Spec`, `Handle/Spec`, `Text/Spec`, the definitions at the
  head of each file in `Props/`.

## 2 Modelling decisions
* **Plugins** (hardware drivers, controllers) are an arbitrary *oracle*: every answer is an arbitrary function of the complete
  history of callbacks so far. A theorem quantifying over the oracle holds for every plugin behaviour, including
  adversarial and irreproducible ones. A plugin may also throw.
* **Exceptions and undefined behaviour** are outcomes (`Except`, `fault` flags, dedicated constructors), not assumed away.
* **Numbers.** Limiters and statistics: exact rationals with NaN and the two infinities; no rounding (except C69, C71 and C72, where every operation of the limiters, the statistics and the transmissions is rounded to IEEE 754 binary64), no sign of zero
  (`copysign`'s sign is an input). Transmissions: an arbitrary field of characteristic 0. Time: exact rationals. `sqrt` is
  not modelled. `long` has 64 bits.
* **Names** are natural numbers (only compared for equality) except in `Text`, `Chain` where their spelling matters; an interface name
  is the pair (text before the first `/`, rest).
* **Iteration order of hash maps** is an input wherever the code's result could depend on it.
* **Threads.** In the sequential model (`RM`, `CM`) every API call is atomic except `switch_controller`, which is split where it
  waits for the real-time loop; while it waits, other services answer ERROR in the model (in the code they block on
  `services_lock_`). The two hand-shakes that make this legitimate (double-buffered controller list, switch flag) have
  their own interleaving models `RT/RTList` and `RT/Handshake`, with sequentially consistent memory. Handle accesses
  are atomic under their lock; whether a lock is obtained is an input.
* **Assumptions about user code.** A1: a driver's `on_error` does not throw. A2: a controller's
  `command_interface_configuration` changes only when it is (re)configured. A3: transitions follow rclcpp_lifecycle's table.
  `StatisticData` starts as NaN / count 0 (libstatistics_collector). Text conversions: C locale, C++20 `from_chars` branch.
* A property that is **false of the code** keeps its full statement in view (as a `Prop` definition or in the header of the
  file), has a theorem exhibiting a concrete counterexample history, and the strongest true part proved under the name
  `…_partial`.

## 3 What is modelled
| Lean modules | code |
|---|---|
| `Hw/Component`, `Hw/Spec`, `Hw/Lemmas` | hardware_interface/src/hardware_component.cpp: initialize, configure, cleanup, shutdown, activate, deactivate, error, read, write, prepare/perform_command_mode_switch (synchronous components) |
| `RM/Model`, `RM/Inv`, `RM/Ops`, `RM/Cycle`, `RM/Itf`, `RM/Run`, `RM/Fail`, `RM/FailMore`, `CM/RmStep` | hardware_interface/src/resource_manager.cpp: ResourceStorage lifecycle functions, import/remove of interfaces, availability lists, claims, controller interface import/availability, cache_controller_to_hardware, prepare/perform_command_mode_switch, set_component_state, read, write with groups |
| `RM/Initial`, `RM/InitialLemmas` | cm.cpp:808-1150 init_resource_manager, set_initial_hardware_components_state |
| `CM/Model` (all functions), `CM/Order` | cm.cpp: load 1243-1380, unload, cleanup 1428-1573, configure 1596-1835, switch_controller_cb 1861-2443, add_controller_impl, deactivate/activate_controllers 2527-2836, switch_chained_mode, list_controllers' claimed interfaces, read/manage_switch/update/write 3283-3673, perform_hardware_command_mode_change, propagate_deactivation, check_following/preceding/fallback, availability checks 4308-4420, list ordering and topology 4817-4965, shutdown_controllers; helpers 108-497 |
| `CM/Sys`, `CM/Spec`, `CM/SysInv`, `CM/SysSteps`, `CM/Decomp`, `CM/Ops`, `CM/Run` | abstract transition system refined by the above; histories `CM.Reach` |
| `CM/Local`, `CM/Topo*`, `CM/OrderForest`, `CM/OrderDetour`, `CM/Accept`, `CM/SwFrame`, `CM/Avail`, `CM/Wired`, `CM/Chained`, `CM/Idle`, `CM/ChainReq`, `CM/ChainEnter`, `CM/Hist`, `CM/Stop`, `CM/HwUse`, `CM/Recover`, `CM/Asked`, `CM/Exposed` | proofs |
| `RT/RTList` | controller_manager.hpp:590-665, cm.cpp:3712-3795 |
| `RT/Handshake` | SwitchParams, manage_switch, the waiting part of switch_controller_cb |
| `Num/UpdateRate` | due rules of cm.cpp update and resource_manager.cpp read/write, rate selection in configure |
| `Num/Dbl`, `Num/DblLemmas` | arithmetic of `double` used below |
| `Num/Limits`, `Num/LimitsLemmas` | joint_limits/src/joint_limits_helpers.cpp, joint_range_limiter.cpp, joint_soft_limiter.cpp |
| `Num/LimitsSys` | resource_manager.cpp: import of limiters, enforce_command_limits |
| `Num/Saturation` | joint_limits/src/joint_saturation_limiter.cpp |
| `Num/LimitParams` | joint_limits_rosparam.hpp (check_for_limits_update, get_joint_limits), joint_limiter_interface.hpp (callback, enforce) |
| `Num/Transmission`, `Num/TransmissionLemmas` | transmission_interface: simple, differential, four-bar linkage, accessor.hpp, loaders' joint order |
| `Num/Statistics` | hardware_interface/types/statistics_types.hpp |
| `Hw/Async`, `Hw/AsyncSpec`, `Hw/AsyncLemmas` | asynchronous hardware components: worker of hardware_component_interface.cpp, pauses in hardware_component.cpp |
| `Hw/Export`, `Hw/ExportSpec`, `Hw/ExportLemmas` | handles exported by hardware components and imported by the resource manager: hardware_component_interface.cpp:248-393, component_parser.cpp:1111-1177, resource_manager.cpp:685-781, 948-1065, 2673-2735 |
| `Loop/Model`, `Loop/Spec`, `Loop/Lemmas` | timing of the control loop: ros2_control_node.cpp:95-155, sleeping_policies.cpp |
| `Sem/Model`, `Sem/Spec`, `Sem/Lemmas` | helpers.hpp:50-90 and semantic_components/*.hpp |
| `Xml/Model`, `Xml/Spec`, `Xml/Lemmas`, `Xml/Sound`, `Xml/Whole`, `Xml/Doc`, `Xml/Use` | component_parser.cpp:88-801, 975-1109; resource_manager.cpp:1541-1604 |
| `Spawn/Model`, `Spawn/Spec`, `Spawn/Lemmas`, `Spawn/Effects`, `Spawn/Trees`, `Spawn/Outcome`, `Spawn/Still` | spawner.py:306-660; unspawner.py:29-85; hardware_spawner.py:101-186; controller_manager_services.py:60-145, 430-519; controller_manager.cpp:2840-3262 |
| `ACtl/Model`, `ACtl/Spec`, `ACtl/Lemmas` | asynchronous controllers: controller_interface_base.cpp:60-168, 188-289, 332-378, 418-438; cm.cpp:2347-2358, 2549, 2750-2786, 3418-3441 |
| `CM/HwFrame`, `CM/Shutdown`, `CM/ShutdownHw` | the pre-shutdown hook interleaved with the real-time loop: cm.cpp:622-652, 692-715; resource_manager.cpp:1512-1526 |
| `Diag/Model`, `Diag/Spec`, `Diag/Lemmas` | diagnostics: cm.cpp:4426-4816; hardware_interface/helpers.hpp:79-86 |
| `RtList/Model`, `RtList/Lemmas` | double-buffered controller list: cm.hpp:566-660; cm.cpp:3720-3795 and its users |
| `CM/Activity`, `CM/ActivityLemmas` | the activity topic: cm.cpp:4288-4319 `publish_activity` and the places that call it (1473, 1830, 2438, 2525, 3580; resource_manager.cpp:676) |
| `Cli/Model`, `CM/Lenient` | ros2controlcli/verb/set_controller_state.py:43-105, load_controller.py:54-115, switch_controllers.py:64-86, unload_controller.py:33-45, cleanup_controller.py:33-45, set_hardware_component_state.py:41-80 |
| `Num/Round`, `Num/LimitsR`, `Num/LimitsRLemmas` | IEEE 754 binary64 rounding; joint_limits_helpers.cpp, joint_range_limiter.cpp, joint_soft_limiter.cpp once more, with rounded arithmetic (equal to `Num/Limits` without rounding) |
| `Params/Model`, `Params/Spec`, `Params/Lemmas` | parameter files: controller_manager_services.py:342-520, spawner.py:318-375, 452-487; cm.cpp:1322-1411, 4966-5015 (the specification has its own reader for documents and for ROS arguments) |
| `Num/Round64`, `Num/StatisticsR` | size and error of binary64 results; statistics_types.hpp:148-258 once more, with rounded arithmetic |
| `Num/Near`, `Num/TransmissionR` | rounding errors of chains of operations; simple_transmission.hpp, differential_transmission.hpp, four_bar_linkage_transmission.hpp in `double` |
| `Argv/Model`, `Argv/Launch`, `Argv/Spec`, `Argv/Lemmas`, `Argv/Lines` | command line of the spawner and launch helpers: spawner.py:74-359, launch_utils.py:23-238; the part of Python's argparse they use; splitting of words by the shell (blanks and quotes only) |
| `Flow/Model` | values in the interfaces during one cycle: callbacks with their handles, `enforce_command_limits`, read - update - write of `ros2_control_node.cpp` and `controller_manager.cpp` |
| `Num/LimitGet` | limits from parameters: joint_limits_rosparam.hpp:39-51, 88-133, 231-379, 671-724, 784-849; joint_limiter_interface.hpp:73-93; joint_limits.hpp:37-54 |
| `Views/Model` | view_controller_chains.py, view_hardware_status.py (ros2controlcli) up to what is handed to graphviz and printed |
| `Gui/Model` | rqt_controller_manager: controller_manager.py (managers, tables, timers, menus, requests) without drawing |
| `Views/Lists` | what the listing verbs of `ros2 control` print, line by line, with colours and padding, and the completers of names (ros2controlcli/verb/list_*.py, api/__init__.py) |
| `Names/Model` | resolve_tf_prefix and the names of the nodes of hardware components (tf_prefix.hpp, hardware_component_interface.cpp:123-133) |
| `Status/Model` | status messages of hardware components: hardware_component_interface.cpp:121-231 (template, timer, on_init) as two interleaved threads |
| `Argv/Tools` | command lines of hardware_spawner.py:101-154 and unspawner.py:29-54, mutually exclusive flags, name of the controller manager |
| `Pub/Model`, `Pub/Lemmas` | registry of published statistics: cm.cpp:498-513, 1303-1320, 1466-1467, introspection.hpp:28-43; on top of `CM.step` |
| `Pub/Store` | registry of published interface values: handle.hpp:651-683, 739-775, resource_manager.cpp:685-800, 951-1062, 1177-1185, 1331-1345, 1529-1622, 1691-1820 |
| `Lc/Model` | the cached lifecycle state, controller_interface_base.cpp:34, 80, 110-171, 189, 283, 310-325, its readers (controller_manager.cpp:65-95, chainable_controller_interface.cpp:297-321); rcl_lifecycle's state machine |
| `Argv/Verbs` | command line of verb/switch_controllers.py:26-86, api/__init__.py:109-123 |
| `Check/Model` | helpers for tests, test_utils.py:38-141 |
| `Util/Model` | helpers.hpp:37-207 of hardware_interface |
| `Pub/Hardware` | registry of published statistics, hardware: cm.cpp:1106-1157, resource_manager.cpp:198-214; on top of `Boot.step` |
| `Boot/Model`, `Boot/Lemmas` | start and robot description: cm.cpp:528-562, 774-880; resource_manager.cpp:179-247, 783-854, 1451-1454, 1529-1621 |
| `CM/Listing`, `CM/Reload`, `CM/Calm`, `CM/Told` | cm.cpp: list_controllers/list_hardware_components/list_hardware_interfaces callbacks 2840-2944, 3138-3240; reload_controller_libraries 3004-3085; resource_manager.cpp 1650-1704, 1767-1771, 1870-1879, 1912-2000 |
| `Desc/Limits`, `Desc/LimitsSpec`, `Desc/LimitsLemmas`, `Desc/AcceptLemmas` | limits and mimic joints of a description: component_parser.cpp:806-1101, joint_limits_urdf.hpp, resource_manager.cpp:783-854 |
| `Mock/GenericSystem`, `Mock/Lemmas` | mock_components/generic_system.cpp, state/command access of hardware_component_interface |
| `Text/*`, `Core/Unique` | hardware_interface lexical_casts.hpp/.cpp, helpers.hpp, parse helpers of component_parser |
| `Handle/*` | handle.hpp, loaned_command_interface.hpp, loaned_state_interface.hpp |
| `Chain/Chainable` | controller_interface: chainable_controller_interface.cpp, controller_interface_base.cpp (mode, update, exports) |

