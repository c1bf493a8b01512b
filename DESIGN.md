# Formal model of ros2_control — design

Contents: 1 trusted base; 2 modelling decisions; 3 what is modelled, module by module; 4 what is not modelled;
5 plan and status per property; 6 where the code violates a natural property; 7 how the theorems are tested.

## 1 Trusted base
* The Lean 4.33.0 kernel. Mathlib modules are imported one at a time; their proofs are checked by the same kernel.
* Axioms: every theorem named in MANIFEST.json depends on at most `propext`, `Classical.choice` and `Quot.sound`.
  No axiom of our own, no compiled evaluation; `decide`/`rfl` are kernel computations and are used for concrete
  witnesses and non-vacuity examples only (and for finite case splits inside proofs).
* The model is a hand translation of `/repo`: that it says what the C++ does rests on reading. Every definition cites
  file and lines and says where it simplifies. `cm.cpp` is controller_manager/src/controller_manager.cpp.
* The specifications a reader has to agree with: `Hw/Spec`, `CM/Spec`, `Handle/Spec`, `Text/Spec`, the definitions at the
  head of each file in `Props/`.

## 2 Modelling decisions
* **Plugins** (hardware drivers, controllers) are an arbitrary *oracle*: every answer is an arbitrary function of the complete
  history of callbacks so far. A theorem quantifying over the oracle holds for every plugin behaviour, including
  adversarial and irreproducible ones. A plugin may also throw.
* **Exceptions and undefined behaviour** are outcomes (`Except`, `fault` flags, dedicated constructors), not assumed away.
* **Numbers.** Limiters and statistics: exact rationals with NaN and the two infinities; no rounding (except C69, C71 and C72, where every operation of the limiters, the statistics and the transmissions is rounded to IEEE 754 binary64), no sign of zero
  (`copysign`'s sign is an input). Transmissions: an arbitrary field of characteristic 0. Time: exact rationals. `sqrt` is
  not modelled. `long` has 64 bits.
* **Names** are natural numbers (only compared for equality) except in `Text`, `Chain` where their spelling matters; an interface name
  is the pair (text before the first `/`, rest).
* **Iteration order of hash maps** is an input wherever the code's result could depend on it.
* **Threads.** In the sequential model (`RM`, `CM`) every API call is atomic except `switch_controller`, which is split where it
  waits for the real-time loop; while it waits, other services answer ERROR in the model (in the code they block on
  `services_lock_`). The two hand-shakes that make this legitimate (double-buffered controller list, switch flag) have
  their own interleaving models `RT/RTList` and `RT/Handshake`, with sequentially consistent memory. Handle accesses
  are atomic under their lock; whether a lock is obtained is an input.
* **Assumptions about user code.** A1: a driver's `on_error` does not throw. A2: a controller's
  `command_interface_configuration` changes only when it is (re)configured. A3: transitions follow rclcpp_lifecycle's table.
  `StatisticData` starts as NaN / count 0 (libstatistics_collector). Text conversions: C locale, C++20 `from_chars` branch.
* A property that is **false of the code** keeps its full statement in view (as a `Prop` definition or in the header of the
  file), has a theorem exhibiting a concrete counterexample history, and the strongest true part proved under the name
  `…_partial`.

## 3 What is modelled
| Lean modules | code |
|---|---|
| `Hw/Component`, `Hw/Spec`, `Hw/Lemmas` | hardware_interface/src/hardware_component.cpp: initialize, configure, cleanup, shutdown, activate, deactivate, error, read, write, prepare/perform_command_mode_switch (synchronous components) |
| `RM/Model`, `RM/Inv`, `RM/Ops`, `RM/Cycle`, `RM/Itf`, `RM/Run`, `RM/Fail`, `RM/FailMore`, `CM/RmStep` | hardware_interface/src/resource_manager.cpp: ResourceStorage lifecycle functions, import/remove of interfaces, availability lists, claims, controller interface import/availability, cache_controller_to_hardware, prepare/perform_command_mode_switch, set_component_state, read, write with groups |
| `RM/Initial`, `RM/InitialLemmas` | cm.cpp:808-1150 init_resource_manager, set_initial_hardware_components_state |
| `CM/Model` (all functions), `CM/Order` | cm.cpp: load 1243-1380, unload, cleanup 1428-1573, configure 1596-1835, switch_controller_cb 1861-2443, add_controller_impl, deactivate/activate_controllers 2527-2836, switch_chained_mode, list_controllers' claimed interfaces, read/manage_switch/update/write 3283-3673, perform_hardware_command_mode_change, propagate_deactivation, check_following/preceding/fallback, availability checks 4308-4420, list ordering and topology 4817-4965, shutdown_controllers; helpers 108-497 |
| `CM/Sys`, `CM/Spec`, `CM/SysInv`, `CM/SysSteps`, `CM/Decomp`, `CM/Ops`, `CM/Run` | abstract transition system refined by the above; histories `CM.Reach` |
| `CM/Local`, `CM/Topo*`, `CM/OrderForest`, `CM/OrderDetour`, `CM/Accept`, `CM/SwFrame`, `CM/Avail`, `CM/Wired`, `CM/Chained`, `CM/Idle`, `CM/ChainReq`, `CM/ChainEnter`, `CM/Hist`, `CM/Stop`, `CM/HwUse`, `CM/Recover`, `CM/Asked`, `CM/Exposed` | proofs |
| `RT/RTList` | controller_manager.hpp:590-665, cm.cpp:3712-3795 |
| `RT/Handshake` | SwitchParams, manage_switch, the waiting part of switch_controller_cb |
| `Num/UpdateRate` | due rules of cm.cpp update and resource_manager.cpp read/write, rate selection in configure |
| `Num/Dbl`, `Num/DblLemmas` | arithmetic of `double` used below |
| `Num/Limits`, `Num/LimitsLemmas` | joint_limits/src/joint_limits_helpers.cpp, joint_range_limiter.cpp, joint_soft_limiter.cpp |
| `Num/LimitsSys` | resource_manager.cpp: import of limiters, enforce_command_limits |
| `Num/Saturation` | joint_limits/src/joint_saturation_limiter.cpp |
| `Num/LimitParams` | joint_limits_rosparam.hpp (check_for_limits_update, get_joint_limits), joint_limiter_interface.hpp (callback, enforce) |
| `Num/Transmission`, `Num/TransmissionLemmas` | transmission_interface: simple, differential, four-bar linkage, accessor.hpp, loaders' joint order |
| `Num/Statistics` | hardware_interface/types/statistics_types.hpp |
| `Hw/Async`, `Hw/AsyncSpec`, `Hw/AsyncLemmas` | asynchronous hardware components: worker of hardware_component_interface.cpp, pauses in hardware_component.cpp |
| `Hw/Export`, `Hw/ExportSpec`, `Hw/ExportLemmas` | handles exported by hardware components and imported by the resource manager: hardware_component_interface.cpp:248-393, component_parser.cpp:1111-1177, resource_manager.cpp:685-781, 948-1065, 2673-2735 |
| `Loop/Model`, `Loop/Spec`, `Loop/Lemmas` | timing of the control loop: ros2_control_node.cpp:95-155, sleeping_policies.cpp |
| `Sem/Model`, `Sem/Spec`, `Sem/Lemmas` | helpers.hpp:50-90 and semantic_components/*.hpp |
| `Xml/Model`, `Xml/Spec`, `Xml/Lemmas`, `Xml/Sound`, `Xml/Whole`, `Xml/Doc`, `Xml/Use` | component_parser.cpp:88-801, 975-1109; resource_manager.cpp:1541-1604 |
| `Spawn/Model`, `Spawn/Spec`, `Spawn/Lemmas`, `Spawn/Effects`, `Spawn/Trees`, `Spawn/Outcome`, `Spawn/Still` | spawner.py:306-660; unspawner.py:29-85; hardware_spawner.py:101-186; controller_manager_services.py:60-145, 430-519; controller_manager.cpp:2840-3262 |
| `ACtl/Model`, `ACtl/Spec`, `ACtl/Lemmas` | asynchronous controllers: controller_interface_base.cpp:60-168, 188-289, 332-378, 418-438; cm.cpp:2347-2358, 2549, 2750-2786, 3418-3441 |
| `CM/HwFrame`, `CM/Shutdown`, `CM/ShutdownHw` | the pre-shutdown hook interleaved with the real-time loop: cm.cpp:622-652, 692-715; resource_manager.cpp:1512-1526 |
| `Diag/Model`, `Diag/Spec`, `Diag/Lemmas` | diagnostics: cm.cpp:4426-4816; hardware_interface/helpers.hpp:79-86 |
| `RtList/Model`, `RtList/Lemmas` | double-buffered controller list: cm.hpp:566-660; cm.cpp:3720-3795 and its users |
| `CM/Activity`, `CM/ActivityLemmas` | the activity topic: cm.cpp:4288-4319 `publish_activity` and the places that call it (1473, 1830, 2438, 2525, 3580; resource_manager.cpp:676) |
| `Cli/Model`, `CM/Lenient` | ros2controlcli/verb/set_controller_state.py:43-105, load_controller.py:54-115, switch_controllers.py:64-86, unload_controller.py:33-45, cleanup_controller.py:33-45, set_hardware_component_state.py:41-80 |
| `Num/Round`, `Num/LimitsR`, `Num/LimitsRLemmas` | IEEE 754 binary64 rounding; joint_limits_helpers.cpp, joint_range_limiter.cpp, joint_soft_limiter.cpp once more, with rounded arithmetic (equal to `Num/Limits` without rounding) |
| `Params/Model`, `Params/Spec`, `Params/Lemmas` | parameter files: controller_manager_services.py:342-520, spawner.py:318-375, 452-487; cm.cpp:1322-1411, 4966-5015 (the specification has its own reader for documents and for ROS arguments) |
| `Num/Round64`, `Num/StatisticsR` | size and error of binary64 results; statistics_types.hpp:148-258 once more, with rounded arithmetic |
| `Num/Near`, `Num/TransmissionR` | rounding errors of chains of operations; simple_transmission.hpp, differential_transmission.hpp, four_bar_linkage_transmission.hpp in `double` |
| `Argv/Model`, `Argv/Launch`, `Argv/Spec`, `Argv/Lemmas`, `Argv/Lines` | command line of the spawner and launch helpers: spawner.py:74-359, launch_utils.py:23-238; the part of Python's argparse they use; splitting of words by the shell (blanks and quotes only) |
| `Flow/Model` | values in the interfaces during one cycle: callbacks with their handles, `enforce_command_limits`, read - update - write of `ros2_control_node.cpp` and `controller_manager.cpp` |
| `Num/LimitGet` | limits from parameters: joint_limits_rosparam.hpp:39-51, 88-133, 231-379, 671-724, 784-849; joint_limiter_interface.hpp:73-93; joint_limits.hpp:37-54 |
| `Views/Model` | view_controller_chains.py, view_hardware_status.py (ros2controlcli) up to what is handed to graphviz and printed |
| `Gui/Model` | rqt_controller_manager: controller_manager.py (managers, tables, timers, menus, requests) without drawing |
| `Views/Lists` | what the listing verbs of `ros2 control` print, line by line, with colours and padding, and the completers of names (ros2controlcli/verb/list_*.py, api/__init__.py) |
| `Names/Model` | resolve_tf_prefix and the names of the nodes of hardware components (tf_prefix.hpp, hardware_component_interface.cpp:123-133) |
| `Status/Model` | status messages of hardware components: hardware_component_interface.cpp:121-231 (template, timer, on_init) as two interleaved threads |
| `Argv/Tools` | command lines of hardware_spawner.py:101-154 and unspawner.py:29-54, mutually exclusive flags, name of the controller manager |
| `Pub/Model`, `Pub/Lemmas` | registry of published statistics: cm.cpp:498-513, 1303-1320, 1466-1467, introspection.hpp:28-43; on top of `CM.step` |
| `Pub/Store` | registry of published interface values: handle.hpp:651-683, 739-775, resource_manager.cpp:685-800, 951-1062, 1177-1185, 1331-1345, 1529-1622, 1691-1820 |
| `Lc/Model` | the cached lifecycle state, controller_interface_base.cpp:34, 80, 110-171, 189, 283, 310-325, its readers (controller_manager.cpp:65-95, chainable_controller_interface.cpp:297-321); rcl_lifecycle's state machine |
| `Argv/Verbs` | command line of verb/switch_controllers.py:26-86, api/__init__.py:109-123 |
| `Check/Model` | helpers for tests, test_utils.py:38-141 |
| `Util/Model` | helpers.hpp:37-207 of hardware_interface |
| `Pub/Hardware` | registry of published statistics, hardware: cm.cpp:1106-1157, resource_manager.cpp:198-214; on top of `Boot.step` |
| `Boot/Model`, `Boot/Lemmas` | start and robot description: cm.cpp:528-562, 774-880; resource_manager.cpp:179-247, 783-854, 1451-1454, 1529-1621 |
| `CM/Listing`, `CM/Reload`, `CM/Calm`, `CM/Told` | cm.cpp: list_controllers/list_hardware_components/list_hardware_interfaces callbacks 2840-2944, 3138-3240; reload_controller_libraries 3004-3085; resource_manager.cpp 1650-1704, 1767-1771, 1870-1879, 1912-2000 |
| `Desc/Limits`, `Desc/LimitsSpec`, `Desc/LimitsLemmas`, `Desc/AcceptLemmas` | limits and mimic joints of a description: component_parser.cpp:806-1101, joint_limits_urdf.hpp, resource_manager.cpp:783-854 |
| `Mock/GenericSystem`, `Mock/Lemmas` | mock_components/generic_system.cpp, state/command access of hardware_component_interface |
| `Text/*`, `Core/Unique` | hardware_interface lexical_casts.hpp/.cpp, helpers.hpp, parse helpers of component_parser |
| `Handle/*` | handle.hpp, loaned_command_interface.hpp, loaned_state_interface.hpp |
| `Chain/Chainable` | controller_interface: chainable_controller_interface.cpp, controller_interface_base.cpp (mode, update, exports) |

## 4 What is not modelled
* tinyxml2 (from text to XML tree) and urdfdom (their results are inputs of C55 and C58), plugin loading and class lookup (assumed to succeed in
  `load`), ROS parameters, node options, remappings, services' message conversion, texts and number formatting of the diagnostics, publishers, introspection beyond its registrations (C82, C83), logging.
* Asynchronous controllers and hardware components are modelled on their own (C62, C53) under stated assumptions about
  `realtime_tools::AsyncFunctionHandler`; the models of the two managers use synchronous ones (C22: when they are triggered).
* Range sensor's float rounding and message headers of semantic components, thread priorities, affinity and memory locking of `ros2_control_node`, drawing, pop-ups and settings of rqt_controller_manager (the rest is C77), the connection handling of ros2controlcli (its verbs are C68; the two views C76; the lists C78), command line parsing (argparse) of ros2controlcli except `switch_controllers` (C85) (spawner C73, unspawner and hardware_spawner C81), YAML parsing of the Python tools (the rest of spawner, unspawner and hardware_spawner is C59).
* Memory model weaker than sequential consistency, real-time deadlines, lock contention (outcomes of try-locks are inputs).
* Floating-point rounding outside of the joint limiters (C69), the statistics (C71) and the transmissions (C72): interpolation of the mock. The sign of zero.
* Values in the interfaces (C74): asynchronous controllers and components writing from their own threads, service calls whose
  callbacks run in the middle of a cycle, two handles sharing one `double *`.

## 5 Plan and status per property

| id | property | model and method | status | theorems in |
|---|---|---|---|---|
| C01 | Hardware lifecycle follows the documented state machine | lifecycle machine `Hw`; state = function of the callback history, invariant by induction over all call lists | partial | `Props/C01_C02_Lifecycle`, `Props/C03_C05_Resource` |
| C02 | Driver read/write are only invoked in permitted states | same model; callbacks legal in the state they are made, by induction over histories | proved | `Props/C01_C02_Lifecycle`, `Props/C03_C05_Resource` |
| C03 | set_component_state result tells the truth | `RM.setState`; case analysis over all plugin answers and failures | partial | `Props/C03_C05_Resource` |
| C04 | Interfaces are available exactly while their hardware is configured | `RM` availability lists; invariant over all histories, with failure-free side condition | partial | `Props/C03_C05_Resource` |
| C05 | A command interface is loaned to at most one holder | `RM` claims; invariant over all histories | proved | `Props/C03_C05_Resource`, `Props/C34_Loading` |
| C06 | Only active controllers hold command interfaces and each interface has one holder (whole system) | `CM`+`RM`; every operation decomposed into elementary steps of `Sys`, invariant on the steps | partial | `Props/C06_C10_Controllers` |
| C07 | Controller names are unique and commands address at most one controller | `CM` list; invariant over all histories | proved | `Props/C06_C10_Controllers` |
| C08 | Unload only removes inactive controllers and nothing else | `CM.unload`; decision logic and frame | proved | `Props/C06_C10_Controllers` |
| C09 | Configure never disturbs other controllers | `CM.configure`; decision logic and frame | proved | `Props/C06_C10_Controllers` |
| C10 | Reordering never loses or duplicates a controller | `CM` list reordering is a permutation; frame theorem | proved | `Props/C06_C10_Controllers` |
| C11 | Chained controllers run in data-flow order | `CM/Order`; graph argument: whatever is in the list is connected within the list, so a controller is inserted between those that feed it and those it feeds, provided every detour around it is a chain (`CM/OrderDetour`; forests, two layers, transitive topologies, diamonds) | partial | `Props/C11_C13_Chains`, `Props/C11_Detours` |
| C12 | Chain topology is symmetric and reflects exactly the chained interfaces | `CM` topology tables = the definition from the configurations | proved | `Props/C11_C13_Chains` |
| C13 | Chain groups are exactly the connected chains and their computation terminates | `CM/Order`; groups = connected components, closure argument | proved | `Props/C11_C13_Chains` |
| C14 | A strict switch request that fails validation changes nothing | `CM.switchBegin`; every unfit STRICT request is rejected, rejected requests change nothing; decision logic + frame | proved | `Props/C14_C18_Switch` |
| C15 | OK from switch_controller means the switch happened | `CM` switch; the outcome reported agrees with the final states | proved | `Props/C14_C18_Switch`, `Props/C15_Strictness`, `Props/C15_Timeout` |
| C16 | Interface conflicts are rejected before any controller is touched | availability and conflicts of an accepted request | partial | `Props/C14_C18_Switch` |
| C17 | A controller is activated only if the controllers it feeds are active | accepted STRICT request closes chains downwards at any depth; induction along the chain | partial | `Props/C14_C18_Switch` |
| C18 | A following controller cannot be stopped under an active preceding one | users' record invariant (`CM/Wired`) + deactivation check | partial | `Props/C14_C18_Switch` |
| C19 | Chained mode is only switched while a controller is not active | chained mode asked only while not active; invariant over histories | partial | `Props/C19_C20_ChainedMode` |
| C20 | Chained mode is left when nothing feeds the controller any more | accepted request determines chained mode; decomposition of the switch | partial | `Props/C19_C20_ChainedMode` |
| C21 | A failing controller stops its whole chain and only that chain; fallbacks take over | `CM.update` failure reaction; fold invariants | partial | `Props/C21_C45_C46_Recovery` |
| C22 | Every active controller is updated at its configured rate | `Num/UpdateRate`; exact rational arithmetic, induction over cycles | partial | `Props/C22_HardwareRate`, `Props/C22_UpdateRate` |
| C23 | The RT loop never iterates a controller list being modified | `RT/RTList`; small-step interleavings, inductive invariant | partial | `Props/C23_RTList` |
| C24 | A switch request is executed at most once and the caller learns the outcome | `RT/Handshake`; small-step interleavings, inductive invariant | partial | `Props/C24_Handshake` |
| C25 | Hardware mode switch is validated before it is performed | `RM` mode switch; decision logic over the callback trace | proved | `Props/C25_C26_Hardware` |
| C26 | Hardware read/write failure handling | `RM.read/write`; fold invariants over the components | partial | `Props/C25_C26_Hardware` |
| C27 | Controllers on failed hardware are stopped in the same cycle | hardware users' record invariant + failure reaction | partial | `Props/C27_HardwareUsers` |
| C28 | Command limits: limited commands lie within the limits | `Num/Limits`; order arithmetic on extended rationals, induction over runs | partial | `Props/C28_Limits`, `Props/C28_SoftBraking`, `Props/C28_SoftLimits`, `Props/C29_LimitRuns` |
| C29 | Velocity limiting respects acceleration limits across cycles | `Num/Limits`; induction over runs | partial | `Props/C29_LimitRuns` |
| C30 | Transmissions invert each other | `Num/Transmission`; field algebra on memory cells | proved | `Props/C30_Transmission` |
| C31 | Boolean / text parsing is total and exact | `Text`; exact characterisation by derivatives and parsers | proved | `Props/C31_C47_C49_Text` |
| C32 | Statistics reported are the true statistics of the samples | `Num/Statistics`; refinement to batch definitions | partial | `Props/C32_Statistics` |
| C33 | Fallback controllers are validated before the main controller is activated | `CM.checkFallback`; what an accepted request has checked | partial | `Props/C33_Fallbacks` |
| C34 | Initial hardware state bring-up | `RM/Initial`; fold invariants | partial | `Props/C34_BringUp`, `Props/C34_Loading` |
| C35 | Exported interfaces of an inactive chainable controller are unavailable | `CM/Exposed`; invariant over all histories | partial | `Props/C35_Exports` |
| C36 | Chainable controller input selection | `Chain/Chainable`; induction over histories | proved | `Props/C36_C37_Chainable` |
| C37 | Chainable export validation | `Chain/Chainable`; decision logic | proved | `Props/C36_C37_Chainable` |
| C38 | Handles: last written value is read back | `Handle`; refinement to registers | partial | `Props/C38_Handles` |
| C39 | Reported claimed interfaces match reality | `CM` + invariant over histories between switches | partial | `Props/C39_Claimed` |
| C40 | Limits cannot be bypassed: enforce_command_limits covers all commanded joints | `Num/LimitsSys`; fold over joints | partial | `Props/C40_LimitsEnforced` |
| C41 | Controller callbacks are only invoked in permitted lifecycle states | callback legality of controllers; invariant | proved | `Props/C41_C43_Callbacks` |
| C42 | switch_controller never throws its internal-consistency exception | the consistency check at the head of `switch_controller` never fires; invariant | proved | `Props/C41_C43_Callbacks` |
| C43 | A controller driven by a running controller is in chained mode | running chains; false in general (three witnesses); positive: what the activation check puts into the requests (`switchBegin_enter`) and what the switch does with them (`manageSwitch_enter`) | partial | `Props/C41_C43_Callbacks`, `Props/C43_ChainEntry` |
| C44 | A configured transmission maps what it was given | `Num/Transmission` configure; decision logic | partial | `Props/C44_TransmissionSetup` |
| C45 | A STRICT switch is all or nothing when it is executed | strict activation; fold over the activation list | proved | `Props/C21_C45_C46_Recovery` |
| C46 | No controller starts uninvited | nobody starts uninvited; decomposition of the switch | proved | `Props/C21_C45_C46_Recovery` |
| C47 | Integer texts are converted exactly or rejected | `Text`; exact characterisation | partial | `Props/C31_C47_C49_Text` |
| C48 | Real-number texts are converted exactly or rejected | `Text`; exact characterisation | partial | `Props/C31_C47_C49_Text` |
| C49 | Lists of numbers are returned exactly or rejected | `Text`; exact characterisation | partial | `Props/C31_C47_C49_Text` |
| C50 | The trajectory-point limiter keeps trajectory points within the limits | `Num/Saturation`; per-joint case analysis, all joints | partial | `Props/C50_Saturation` |
| C51 | Joint limits follow the parameters of the node | `Num/LimitParams`; induction over histories | partial | `Props/C51_LimitParams` |
| C52 | Mock hardware does what it is told | `Mock/*`; frame lemmas per phase of `read`, loop invariants, induction over histories | partial | `Props/C52_MockConfigure`, `Props/C52_MockDemo`, `Props/C52_MockDynamics`, `Props/C52_MockHardware`, `Props/C52_MockModes` |
| C53 | Asynchronous hardware components | `Hw/Async*`: two agents, any schedule; invariant over all steps, properties of every event of the history | partial | `Props/C53_AsyncHardware` |
| C54 | A hardware component and the controllers see the same interfaces | `Hw/Export*`: handles as cells of a store; every cell tagged with kind, component and name; lookups algebra for first-wins maps and permutations; induction over components and accesses | proved | `Props/C54_ExportedInterfaces` |
| C55 | The limits of a joint are the tightest ones its description gives | `Desc/*`: the second pass of the description parser over the joints and the import of the limiters; limits characterised as greatest/least of the sets of bounds by induction over the interface tags; composed with the limiter theorems of C28 | partial | `Props/C55_DescribedLimits` |
| C56 | The control loop keeps its rate, accounts for all time and does not burst after overruns | `Loop/*`: the loop as a function of the readings of its clocks; deadlines by induction over the cycles; the rounding of `double` is any function with relative error 2^-53 | partial | `Props/C56_LoopTiming` |
| C57 | Semantic components report and command the right interfaces | `Sem/*`: a component with its references and the generation of the controller's vector as a state machine; histories of sessions by induction; each kind of sensor an instance | proved | `Props/C57_SemanticComponents` |
| C58 | The robot description is read as it is written | `Xml/*`: the parser from the XML tree to `HardwareInfo`, tag by tag; a specification of what a document describes in terms of the tree alone; soundness by an invariant over the tags read so far (the last value wins), completeness by the same conditions; composed with C54 and C55 | proved | `Props/C58_Description` |
| C59 | The command line clients tell the truth about what they did | `Spawn/*`: the clients as trees of service calls, run against the controller manager of `CM` over channels that lose and delay requests and answers; an invariant ties what was seen of the client to a path in its tree and every accepted answer to a moment at which the controller manager had just executed the request (ids of requests make late answers harmless); properties of the trees by structural induction. | proved | `Props/C59_Spawner` |
| C60 | The listing services tell the truth | `CM/Listing`: the three services as functions of the manager's state; `CM/Calm`, `CM/Told`: an invariant over all histories says that the lists of exported interfaces on record are the ones of the configured chainable controllers, up to failed clean-ups; C06 gives the claims | partial | `Props/C60_Listings` |
| C61 | Reloading the controller libraries happens only without controllers | `CM/Reload`: the call as a state machine interleaved with real-time cycles; every event is a history of the manager, the loaded names only shrink along the to-do list; FINALIZED is stable under every operation (`finalized_step`) | proved | `Props/C61_Reload` |
| C62 | The update of an asynchronous controller does not overlap its lifecycle callbacks | `ACtl/*`: four concurrent agents (real-time trigger, service thread, transitions, worker) as a step function over any schedule; an invariant ties each part of the state to the history of observable events; false claim refuted by schedules, proved under `Orderly` | partial | `Props/C62_AsyncControllers` |
| C63 | Shutting the controller manager down finalizes everything it reports as finalized | `CM/Shutdown`, `CM/ShutdownHw`: the hook as a fold of visits with arbitrary real-time operations between them; per-controller and per-component outcome of a visit (`Shut`, `RM.set_final`), FINALIZED is stable under `late` operations except for grouped components; refuted for groups by a run | partial | `Props/C63_Shutdown` |
| C65 | The controller manager takes the first robot description that loads, completely, and only then offers its services | `Boot/*`: constructor, subscription callback, services and real-time cycles as a step function; invariant: waiting with an empty manager, or using one received description with the manager in a state of `CM.Reach`; per-component reasons of a rejected load | partial | `Props/C65_Constructor`, `Props/C65_Start` |
| C64 | The diagnostics are an error exactly when something is wrong, and blame exactly the culprits | `Diag/*`: the three diagnostic callbacks over lists of controllers/components with statistics in `Dbl`; every step of the loops `Adds` entries, names and a severity, composed by induction over the list; exact level, names and values | proved | `Props/C64_Diagnostics` |
| C66 | The real-time loop always works on a complete, unchanging list of controllers, and neither side waits for ever | `RtList/*`: two lists, two indices, a lock, arbitrary service threads and the real-time thread as a step function; inductive invariant (calm, just switched, loop come round); frame and snapshot theorems; deadlock as a permanent state reached by a schedule | partial | `Props/C66_RtList` |
| C67 | The activity topic shows the present states | `CM/Activity`: the messages of every operation of `CM.step`; truth of a message is a relation between message and state; proved per operation by frame lemmas (which operations change states) and over histories by induction; witnesses for the operations that hide changes. | partial | `Props/C67_Activity` |
| C68 | ros2 control verbs report what happened | `Cli/Model`: the verbs as clients of `Spawn/Model` (same network, same controller manager); proved with the invariants of C59 (every accepted answer had its effect after it was asked for), for switches with any strictness by `CM/Lenient` (a request STRICT does not reject is treated alike whatever the strictness); the false part has witnesses. | partial | `Props/C68_Cli` |
| C69 | Limits hold in floating point | `Num/Round`: roundings axiomatised by a structure (monotone, odd, idempotent, no NaN) with IEEE binary64 as an instance (53 digits, ties to even, subnormals, overflow); `Num/LimitsR`: the limiters with rounded arithmetic; the theorems of C28/C29 again for every rounding; error bound for binary64; witnesses for what rounding breaks | partial | `Props/C69_Rounding` |
| C70 | A spawned controller gets the parameter files meant for it | `Params/Model`: YAML values with Python's `in`, `[]` and truth values and their exceptions; the two lookups as in the Python code, the parameters stored on the controller manager, the node arguments. Specification: paths into documents (`Addresses`, `Says`) and a state machine reading ROS arguments. Induction over files, keys, arguments and histories of spawners; the false parts refuted by concrete files. | partial | `Props/C70_Params` |
| C71 | Reported statistics are sound in floating point | `Num/Round64`: error and monotonicity of binary64; `Num/StatisticsR`: the collector with every operation rounded (equal to `Num/Statistics` without rounding). Invariant over the history: average between the samples (the step towards a sample never passes it), error bound growing by one step's rounding, sign of the two differences equal; overflow witness. `C71_Variance`: error of the sum of squares (quadratic in the number of samples, by induction) and of the variance. | partial | `Props/C71_StatisticsFloat`, `Props/C71_Variance` |
| C72 | Transmissions are accurate in floating point | `Num/Transmission` is generic in the numbers; `Num/TransmissionR` instantiates it with rounded doubles. `Num/Near`: a calculus of rounding errors (`Near x r S k n`: k roundings, error 3k 2^-53 S, sizes within 2^-n..2^n) with one rule per operation; each formula is derived with it and composed for the round trips; order, zero and NaN facts by cases for every rounding. | proved | `Props/C72_TransmissionFloat` |
| C73 | A spawner command line means what it says | `Argv/Model` models the part of argparse the spawner uses (classification of words, attached and joined values, abbreviations, the positional) and the two parsers of the spawner; checked against argparse 3.11.10 on about 3000 random lines (a test of the model, no proof). `Argv/Launch` models the launch helpers and the word splitting of the shell. Specification: settings (key, spelling, value) and what a list of settings says (`Argv/Spec`). Proof by induction over the settings with one lemma per spelling (`Argv/Lemmas`, `Argv/Lines`). | partial | `Props/C73_CommandLine`, `Props/C73_Launch`, `Props/C73_Spellings` |
| C74 | What a controller commands is what the driver gets, limited, in the same cycle | `Flow/Model` puts values on top of `CM/Model`: the trace of a cycle is replayed, each callback is an arbitrary function of the values it finds, and can change only the interfaces it has handles of. Frame lemmas over the replay (`Flow/Lemmas`), who is called when from the trace of `updateLoop`, `read` and `write` (`Flow/HwLemmas`), who holds what from C06; order of a chain from C12. | partial | `Props/C74_Flow` |
| C75 | Limits given as parameters are taken as given | `Num/LimitGet` models the table of parameters by full names, reading block by block (also throwing), soft limits, declaring with overrides and defaults, and the loop of `init`. The effect is specified per limit (`Took`, `TookWrap`, `Started`, `Documented`), independent of the order of the blocks; names are unambiguous because keys have no dot. Induction over blocks, keys and joints. | partial | `Props/C75_LimitsRead` |
| C76 | The views of ros2 control show what is there | `Views/Model` models the answer's way to edges and labels (the port map keyed by interface name, the order of sets as an arbitrary permutation, the separators) and the status verb's bookkeeping. What a controller asks for and exports is stated on the controller manager (C60). Separate fields are specified by counting ports between separators, proved by a scan. The status verb: invariant over the messages. | partial | `Props/C76_Views` |
| C77 | The buttons of the rqt controller manager do what they say, to whom they say | `Gui/Model` models the window of rqt_controller_manager as a state machine (combo box, current manager, tables) over timers, selections and clicks whose menus block while timers run; answers of services (rows, RuntimeError, other exceptions) are inputs. The requests of an entry are a client program run against the controller manager with the machinery of C59/C68. Specification: the choice (`choice`) and the log of answers (`asked`) as folds independent of the window; invariants over sessions. | partial | `Props/C77_Gui`, `Props/C77_GuiHw` |
| C78 | What the listing verbs print can be read back, and leaves nothing out | `Views/Lists` models the printed lines as lists of characters; the specification has a reader of indented texts (outline) and words without colours, independent of the printing; proved by induction over lines that reading gives back the answer; marks tied to the answers of the controller manager (`CM.listItfSrv`); the promise "available interfaces" refuted for state interfaces. | partial | `Props/C78_Lists` |
| C79 | Prefixes of frames and names of nodes are what the configuration says, normalized and distinct | `Names/Model` models the string operations on lists of characters; the specification reads names as parts between slashes; induction over texts; two full statements refuted by witnesses and proved under conditions. | partial | `Props/C79_Names` |
| C80 | Status messages of a hardware component: one per tick, from the template, on an initialised component | `Status/Model` models init and the timer as interleaved steps over any plugin; the specification is an inductive set of allowed histories; invariant over all schedules; the last sentence is refuted by two schedules and proved under a condition. | partial | `Props/C80_HwStatus` |
| C81 | Command lines of the hardware spawner and the unspawner mean what they say | `Argv/Tools` adds the parsers of the two programs to the model of argparse; documented lines by induction over their settings; all lines by invariants of the event loop (free words are a sublist of the line, a flag that takes effect is named by a word); composed with the requests of C59. | partial | `Props/C81_Times`, `Props/C81_Tools` |
| C82 | Published statistics are those of the loaded controllers | `Pub/Model` adds to the controller manager the registry of published variables and the numbers of the statistics objects; invariant over all histories (owners, freshness, registrations), exactness by induction over histories without late failures, refuted in general with a witness; persistence of dangling registrations by induction. | partial | `Props/C82_Statistics` |
| C83 | Published values are those of the existing interfaces | `Pub/Store` models the maps of handles and the registry; invariants over all histories (owners, freshness, what is registered under each name, exported names are stored and disjoint); refuted in general with a witness; persistence of dangling registrations by induction. | partial | `Props/C83_Introspection` |
| C84 | The controller manager sees the state a controller is in | `Lc/Model`: the node, the copy and any number of readers as an interleaving of atomic steps; invariant over all calm histories by induction; refuted in general with a witness from which all further reads are wrong. | partial | `Props/C84_LifecycleId` |
| C85 | ros2 control switch_controllers asks for what its command line says | `Argv/Verbs` adds the parser of the verb to the model of argparse; documented lines by induction over their settings (options with any number of names), all lines by an invariant of the event loop (what an option takes is the end of a word of the line). | proved | `Props/C85_SwitchLine` |
| C86 | The helpers for tests of running systems pass only on what they name | `Check/Model` models the polling loops over arbitrary sequences of answers; exact conditions by induction over the answers; the claim about a common moment refuted with a witness and proved for controllers that stay in the state. | partial | `Props/C86_TestUtils` |
| C87 | The helper functions for containers and texts do what they say | `Util/Model` models the helper functions with positions (find, erase, adjacent_find, find_first_not_of, substr); membership, order and repetitions by induction; strip agrees with the one the models of the parsers use. | proved | `Props/C87_Helpers` |
| C88 | Published statistics of the hardware are those of its components | `Pub/Hardware` adds the registry to the start-up model of C65; induction on the history with the invariant that the registrations are those of the components in use; names by comparing suffixes. | proved | `Props/C88_HwStats` |

What exactly is missing from each partial claim is in the `note` of MANIFEST.json and in the head of the file.

## 6 Where the code violates a natural property
Every item is a theorem (a concrete history or input evaluated in the kernel) unless marked (observed).
* C01: `error()` leaves FINALIZED. C03: ERROR reported although the component ends in the requested state. C04/C26: interfaces
  stay available after a transition that ended in `on_error`; an exception in `read`/`write` bypasses the group; a later DEACTIVATE
  masks an earlier ERROR of the same `write`; group state goes stale; DEACTIVATE configures an unconfigured group member.
* C06: an exported reference erased while claimed ends up with two holders. C11: shortcut chains are misordered, and so are some topologies of three layers in which every link goes from one layer to the next.
* C14/C35: a rejected, skipped or timed-out request, and shutdown, leave exported interfaces available; a rejected request leaves
  the skip flag of asynchronous controllers set. C16: a restarted controller takes interfaces from their holder.
* C17/C20: BEST_EFFORT starts a controller whose follower does not start, or stops a follower under a running one.
  `propagate_deactivation` stops at the first controller (`break`). C18: users through regular expressions or ALL are not recorded.
* C19: failed restart and shutdown leave chained mode on. C21: after a half-failed configuration the chain group is empty and nothing stops.
* C22: a rate can never be raised again; the "closest" rate is not the closest; an asynchronous controller that misses a trigger
  loses time. C23: the first real-time cycle can race with a second list change. C24: stale look at `do_switch`.
* C27: fallback controllers are not recorded as users of their hardware; a name owned by two components is recorded for one.
* C28/C29/C40: see the heads of the files (NaN readings, first cycle, `std::clamp` with lo > hi, braking against acceleration).
* C32: statistics stay NaN until the first reset. C33: validation holes of fallback lists. C34: groups are not all-or-nothing.
* C37: prefix test is starts-with; default exports are empty. C38: moved handles dangle. C39: stale claimed lists.
* C43: a chain member can be swapped out under an observer; stopping a controller that only reads a state interface of a driven controller takes the latter out of chained mode while its driver keeps running. C44: nothing mapped / reductions swapped.
* C47–C49: unsigned wrap-around, `+-1`, truncation of integer arrays.
* C50: a zero velocity command without positions moves the joint; the second braking check is asymmetric; the velocity limit is
  exceeded with commanded accelerations; positions overshoot; `false` although the point was changed.
* C51: of several numbers set at once only the last decides whether anything changed; position limits cannot be switched off; of two
  settings between two `enforce` the first is lost; a number without its flag is forgotten; a range can be inverted.
* C52: with joints `joint1` and `joint10` command mode switches of the mock hardware go to the wrong joint (substring test); mimic joints of
  mimic joints lag by a period; the offset is added again by every configuration and not at all in velocity and acceleration mode; an infinite
  command leaves mimic joints behind.
* C53: an ERROR of an asynchronous plugin's read is lost if its cycle ends between load and trigger; an ERROR of its write is lost
  whenever the next cycle is over before write() is called; a component that is configured again after an ERROR reports that old
  ERROR at its first read; the read call that reports ERROR has already triggered another read/write of the plugin.
* C54: a command interface name exported twice (two components, or a joint and a gpio of one component) throws out of the import: no command interface of the component is listed, also unique ones, although `validate_storage` passes; with two components, whether it passes depends on the iteration order of an `unordered_map`. A state name exported twice: the second component writes to a handle nobody reads.
* C55: a negative `max` of a velocity interface is stored as a negative `max_velocity` (only `min` is made positive); with it the position limiter pushes a joint told to stay further in every cycle. A `min` above the URDF's upper limit is accepted silently; afterwards every position command of the joint throws. An unreadable `max` also drops the `min`. A joint mimicking itself is accepted.
* C56: `update_rate: 4294967296` passes the check and divides by zero; for rates that do not divide 10^9 the loop may start a cycle
  right after an overrun instead of waiting; an overrun of more than 2^31 cycles is undefined behaviour.
* C57: before its first reading a pose sensor reports half a turn about x (`data_` starts with `x = 1, w = 0`); an LED accepts NaN and is written partly
  if one handle is busy; `get_ordered_interfaces` returns true with an interface missing if another one is there twice or was not
  released; `get_values` throws if a handle is busy; the GPS status is cast from NaN before the hardware wrote it.
* C58: a comment-only XML document and an sdf without model are dereferenced through null; `rw_rate="100abc"` is 100; an unreadable mechanical
  reduction silently becomes 1; a `size` beyond int throws `out_of_range` and a bad `mimic` `invalid_argument` instead of the documented
  `runtime_error`; blank names are accepted; `type="System"` is accepted but nothing is loaded; a second `hardware` tag replaces the plugin
  but keeps group and parameters; in actuators `actuator1` is added to the actuators written.
* C59: a late answer to `load_controller` makes the spawner repeat the request, which is refused, so that it exits with 1 although the controller is loaded;
  spawning an active controller exits with 1; an interrupted spawner exits with 0 whatever it did; interrupted midway with `--unload-on-kill`, it leaves its controllers active
  (the STRICT deactivation names a controller that is not loaded); `inactive` and `load-only` controllers are not unloaded; an interrupt while waiting
  for the lock raises an exception; `hardware_spawner` exits with 0 even if the component does not exist or its transition failed.
* C60: a chain connection of `list_controllers` lists the interfaces of all connected controllers; a controller named like a joint is shown as a
  connection; after a chainable controller's `on_cleanup` answered FAILURE the next `list_controllers` throws `std::out_of_range`; an interface
  that a controller holds is shown as unclaimed after its component was unconfigured.
* C61: a FINALIZED controller can never be unloaded and blocks `reload_controller_libraries` for ever; a reload that fails midway is not undone.
* C62: deactivations by the real-time thread (hardware ERROR, fallbacks, ERROR of the controller itself) run `on_deactivate` and take the interfaces
  back while the worker is in `update`; the trigger that reports an ERROR starts the next `update`; the announcement of `switch_controller` can
  fall between the test of the flag and the trigger; a trigger accepted before the deactivation is served after it; a controller whose clean-up
  failed is INACTIVE without a thread, and once activated every trigger throws.
* C63: while the manager shuts down, a fault of one member of a hardware group calls `on_error` of members that are already FINALIZED and brings them back to
  UNCONFIGURED; the shutdown reports success. A component that refuses `on_deactivate` stays ACTIVE, never gets `on_shutdown` and is still written to; a
  controller that refuses stays ACTIVE without interfaces and its `update` is called; a component that ends FINALIZED through `on_error` is reported as a failure.
* C65: after a rejected description the resource manager is replaced by one with default settings: `allow_controller_activation_with_inactive_hardware` and
  `deactivate_controllers_on_hardware_self_deactivate` are ignored from then on. The replacement happens while the real-time thread may be inside the old
  one (use after free). A description that is ignored still replaces the text handed to controllers loaded later. The joint limits of a description
  rejected in the constructor stay in force. With `handle_exceptions: false` a description with a missing plugin is reported as rejected but the manager
  goes on with the part that was loaded (the flag is set before the loop).
* C64: a statistic without a sample (or NaN) raises no alarm, so an active controller that is never updated is silent; while no component is active the
  hardware diagnostic lists no states at all; the diagnostic of the manager itself never refreshes its thresholds (it uses what the other two fetched).
* C66: `publish_activity` in `update` (a controller failed) and `get_loaded_controllers` in `write` (DEACTIVATE) lock the mutex a service holds while it waits
  in `switch_updated_list` for the real-time loop to come round: both wait for ever. If the service is `switch_controller` waiting for the loop, the loop
  stands still until the timeout (1 s by default). Until the used index was stored once (-1) services do not wait, so the first cycle can iterate over a
  list that is being edited if it is interrupted inside `update_and_get_used_by_rt_list`. The indices are plain `int`s.
* C67: `cleanup_controller`, failed `configure_controller`/`unload_controller`, errors in `read`/`write`, `shutdown_controllers` and a timed-out switch change states without telling `~/activity` (`activity_stale_*`); a component stopped by `write` is announced before its controllers are deactivated, so they stay ACTIVE on the topic.
* C68: `set_controller_state` and `load_controller --set-state active` pass `True` as the strictness of the switch request; that is 1, BEST_EFFORT. A request that cannot be carried out is then answered with OK and the verb prints success with exit code 0: `C68_activate_witness` (a controller whose following controller is not running is not activated), `C68_deactivate_witness` (a controller that is used by another one goes on driving the robot). Observed: `--switch-timeout` of these verbs has no `type=float`, so a value given on the command line reaches `switch_controllers` as text.
* C69: in `double`, consecutive limited positions can differ by more than `max_velocity * dt` (by a rounding error, bounded in `C69_step_error`), and a limited velocity can carry the joint beyond its position limit by a rounding error. All position, velocity, effort, acceleration and jerk bounds themselves hold exactly in `double`.
* C70: (a) in a namespace, a file with a section under the controller's bare name is ignored as a whole, even if it has a section under the full name (`C70_forwards_false`), with a message in the log and exit code as if nothing happened; (b) `type` and `fallback_controllers` come from the first file that has them, while the help text says later files override (`C70_overrides_false`); (c) a value under `/**` beats the controller's own section under its absolute name, but not the one under its bare name (`C70_wildcard_wins`); (d) `params_file`, `node_options_args`, `fallback_controllers` stay on the controller manager after the controller is unloaded: spawning again without files uses the old ones (`C70_stale`, `C70_own_files_false`); (e) the answer to setting `params_file` is not looked at (`C70_refused`); (f) a controller with custom node options ending in `--` never gets its files (`C70_custom_closed`); an empty YAML file raises `TypeError` and ends the spawner.
* C71: two samples of opposite sign near the largest double make the average infinite, and the next one makes it NaN (`C71_overflow`); up to half of the largest double the average stays between the samples.
* C72: the transmissions' constructors refuse only a zero reduction: a NaN reduction is accepted and makes every mapped value NaN, a subnormal one gives infinite joint positions (`C72_extreme`).
* C73: on a line with `--controller` the spawner drops silently what it does not understand: `--controller a --in-active` activates `a` (`C73_false_typo`); options and names before the first `--controller` are dropped (`C73_false_before`, `C73_false_name`); `--controller a --controller=b` makes `b` a ROS argument of `a` (`C73_false_equals`); the ROS arguments of doc/migration.rst:114-124 end with exit code 2 (`C73_false_documented`), and so do quoted ones that begin with `-p`, `-c`, `-u` or `-h` (`C73_false_short`); `ros_args` of a launch table with a blank end with exit code 2 because of `shell=True` (`C73_false_table`); `generate_controllers_spawner_launch_description` appends to the caller's list of names (`C73_false_twice`).
* C74: `enforce_command_limits` runs before `manage_switch` (controller_manager.cpp:3582 and 3584-3595): what a controller commands from `on_activate` reaches the driver in the same cycle without having passed the limiters of the cycle, which alone see the joint as a whole (`C74_false_switch`); a limiter bound to the handle still applies (C40). A command written by an `update` that then reports an error is limited and sent (`C74_false_failed`).
* C75: `get_joint_limits` (joint_limits_rosparam.hpp:231-379) does not do what its documentation says when a limit is given in part: `has_velocity_limits: true` without the number switches an existing limit (e.g. of the URDF) off, a number without the flag is ignored, `angle_wraparound` without `has_position_limits` is ignored. At `init` all parameters are declared first, so that a flag without its number gives a limit that is on and NaN, which never limits anything. The documented YAML example of soft limits (lines 650-659, no `has_soft_limits`) is not taken. The soft `check_for_limits_update` reports a change only if the last number of the batch is one. An integer (`max_velocity: 2`) makes `init` fail and `get_joint_limits` throw.
* C76: `view_controller_chains` keys its port map by the interface name without the controller (view_controller_chains.py:57, 146): if two controllers export interfaces of the same name, arrows may go to the wrong controller, depending on the order of a Python set; after the cleanup of a controller others ask for it ends with a `KeyError`; a controller named like a joint is taken for a predecessor. The separator between fields is left out where `ind == len(name) - 1` (length of the name, lines 45, 53, 63, 71): a controller reading effort, position and velocity of joint1 to joint6 gets a field with two ports. `view_hardware_status` says "not found" (and exits with 0) of a component that happens not to be among the first ten messages, and prints nothing, without a word, if the device belongs to another component than the one asked for.
* C77: `rstrip("list_controllers")` strips characters, not a suffix: a service "/ui/my_list_controllers" makes the window offer a manager "/ui/my" (`C77_managers_wrong`).
* C77: `_list_controllers` catches only `RuntimeError`, but a missing service raises `ServiceNotFoundError`, a plain `Exception`: after choosing another manager the table of the old one
  stays, and clicks act on controllers of the same name of the new one (`C77_wrong_manager`); if the chosen manager disappears the tables stay and clicks call services of "" for ever (`C77_vanished`).
* C77: finalized controllers are offered "Load (unconfigured)", always refused (`C77_finalized`). (observed) the type shown for controllers not loaded is read from parameter `name` instead of `name.type`.
* C78: `list_hardware_interfaces` ("the list of available command and state interfaces") prints state interfaces that are not available like all others, without a mark (`C78_states_available_false`). (observed) the completers ask for a state "configured", which no controller ever has, and never offer finalized controllers, which could be unloaded.
* C79: `resolve_tf_prefix("~/arm", "/")` is "/arm/", with the leading slash it promises to remove (a node in the root namespace), and so is ("/~/arm", "/ns"): only one slash is removed (`C79_relative_false`). Components "Arm" and "arm", or "left/arm" and "left_arm", get nodes of the same name and publish on the same status topic (`C79_nodes_false`).
* C80: `update_hardware_status_message` can be called before `on_init` (the timer is made before it) and after an `on_init` that failed, until the component is destroyed (`C80_before_on_init`, `C80_after_failed_init`); `init_hardware_status_message` is always called before `on_init`; what the plugin writes into the message is lost after each tick because the timer works on a copy (`C80_no_memory`).
* C81: without `-c` the unspawner talks to `/controller_manager` while spawner and hardware spawner started in the same namespace talk to the controller manager of the namespace (`C81_manager_partial`); a component or controller named like an option can only be given after `--`.
* C82: `load_controller` registers pointers into the statistics of the new controller before the checks that can still fail, and does not unregister them then: every late failure (duplicate name, `on_init` failing, own fallback, wrong parameter type) leaves twelve dangling pointers that each publication reads (`C82_dangling`, `C82_false`).
* C83: a robot description that cannot be loaded (`ResourceStorage::clear`, resource_manager.cpp:1331-1345, 1616) destroys the interfaces of its components without unregistering them: every publication of `introspection_data` reads them through dangling pointers, and after the retry each value is registered twice (`C83_dangling`, `C83_false`). Removing the interfaces a controller exported before such a failure dereferences a null pointer (last example of `Props/C83_Introspection`).
* C22: an asynchronous component at the manager's rate that misses a read or write is given only the manager's last period on the next one (`C22_hardware_loses_time`); one with a lower rate gets the true time (`C22_hardware_periods_partial`).
* C84: `get_lifecycle_id` stores what it read of the node without checking that the copy is still the one it loaded (a plain store instead of a compare-exchange): interrupted in between by a transition of another thread, it writes back a state that is gone. An inactive controller is then taken for active (updated, its chained mode fixed) until its next transition (`C84_false`).
* C85 (by design of argparse, observed): `ros2 control switch_controllers --activate a --activate b` asks for b only, without a word about a.
* C86: `check_controllers_running` ticks each controller off when it is first seen in the state: it passes although the controllers never were in it together (`C86_together_false`); with namespace `/` it looks for nodes in the empty namespace and always fails (`C86_root`).
* (observed) `check_following` has no cycle guard; duplicate imported reference throws;
  `checkFallback` uses `.at` on a possibly missing key.

## 7 How the theorems are tested
`tools/mut.py` applies one realistic bug at a time to a scratch copy of the model, rebuilds, and records in `seeded/LOG.jsonl` the edited
definition, the edit, the claim it breaks, the theorems that stopped compiling and those that were tightened because they
survived. Edits that only reach proofs are not counted: a mutation is chosen so that an English claim becomes false.
