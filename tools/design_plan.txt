C01 lifecycle machine `Hw`; state = function of the callback history, invariant by induction over all call lists
C02 same model; callbacks legal in the state they are made, by induction over histories
C03 `RM.setState`; case analysis over all plugin answers and failures
C04 `RM` availability lists; invariant over all histories, with failure-free side condition
C05 `RM` claims; invariant over all histories
C06 `CM`+`RM`; every operation decomposed into elementary steps of `Sys`, invariant on the steps
C07 `CM` list; invariant over all histories
C08 `CM.unload`; decision logic and frame
C09 `CM.configure`; decision logic and frame
C10 `CM` list reordering is a permutation; frame theorem
C11 `CM/Order`; graph argument: whatever is in the list is connected within the list, so a controller is inserted between those that feed it and those it feeds, provided every detour around it is a chain (`CM/OrderDetour`; forests, two layers, transitive topologies, diamonds)
C12 `CM` topology tables = the definition from the configurations
C13 `CM/Order`; groups = connected components, closure argument
C14 `CM.switchBegin`; every unfit STRICT request is rejected, rejected requests change nothing; decision logic + frame
C15 `CM` switch; the outcome reported agrees with the final states
C16 availability and conflicts of an accepted request
C17 accepted STRICT request closes chains downwards at any depth; induction along the chain
C18 users' record invariant (`CM/Wired`) + deactivation check
C19 chained mode asked only while not active; invariant over histories
C20 accepted request determines chained mode; decomposition of the switch
C21 `CM.update` failure reaction; fold invariants
C22 `Num/UpdateRate`; exact rational arithmetic, induction over cycles
C23 `RT/RTList`; small-step interleavings, inductive invariant
C24 `RT/Handshake`; small-step interleavings, inductive invariant
C25 `RM` mode switch; decision logic over the callback trace
C26 `RM.read/write`; fold invariants over the components
C27 hardware users' record invariant + failure reaction
C28 `Num/Limits`; order arithmetic on extended rationals, induction over runs
C29 `Num/Limits`; induction over runs
C30 `Num/Transmission`; field algebra on memory cells
C31 `Text`; exact characterisation by derivatives and parsers
C32 `Num/Statistics`; refinement to batch definitions
C33 `CM.checkFallback`; what an accepted request has checked
C34 `RM/Initial`; fold invariants
C35 `CM/Exposed`; invariant over all histories
C36 `Chain/Chainable`; induction over histories
C37 `Chain/Chainable`; decision logic
C38 `Handle`; refinement to registers
C39 `CM` + invariant over histories between switches
C40 `Num/LimitsSys`; fold over joints
C41 callback legality of controllers; invariant
C42 the consistency check at the head of `switch_controller` never fires; invariant
C43 running chains; false in general (three witnesses); positive: what the activation check puts into the requests (`switchBegin_enter`) and what the switch does with them (`manageSwitch_enter`)
C44 `Num/Transmission` configure; decision logic
C45 strict activation; fold over the activation list
C46 nobody starts uninvited; decomposition of the switch
C47 `Text`; exact characterisation
C48 `Text`; exact characterisation
C49 `Text`; exact characterisation
C50 `Num/Saturation`; per-joint case analysis, all joints
C51 `Num/LimitParams`; induction over histories
C52 `Mock/*`; frame lemmas per phase of `read`, loop invariants, induction over histories
C53 `Hw/Async*`: two agents, any schedule; invariant over all steps, properties of every event of the history
C54 `Hw/Export*`: handles as cells of a store; every cell tagged with kind, component and name; lookups algebra for first-wins maps and permutations; induction over components and accesses
C55 `Desc/*`: the second pass of the description parser over the joints and the import of the limiters; limits characterised as greatest/least of the sets of bounds by induction over the interface tags; composed with the limiter theorems of C28
C56 `Loop/*`: the loop as a function of the readings of its clocks; deadlines by induction over the cycles; the rounding of `double` is any function with relative error 2^-53
C57 `Sem/*`: a component with its references and the generation of the controller's vector as a state machine; histories of sessions by induction; each kind of sensor an instance
C58 `Xml/*`: the parser from the XML tree to `HardwareInfo`, tag by tag; a specification of what a document describes in terms of the tree alone; soundness by an invariant over the tags read so far (the last value wins), completeness by the same conditions; composed with C54 and C55
C59 `Spawn/*`: the clients as trees of service calls, run against the controller manager of `CM` over channels that lose and delay requests and answers; an invariant ties what was seen of the client to a path in its tree and every accepted answer to a moment at which the controller manager had just executed the request (ids of requests make late answers harmless); properties of the trees by structural induction.
C60 `CM/Listing`: the three services as functions of the manager's state; `CM/Calm`, `CM/Told`: an invariant over all histories says that the lists of exported interfaces on record are the ones of the configured chainable controllers, up to failed clean-ups; C06 gives the claims
C61 `CM/Reload`: the call as a state machine interleaved with real-time cycles; every event is a history of the manager, the loaded names only shrink along the to-do list; FINALIZED is stable under every operation (`finalized_step`)
C62 `ACtl/*`: four concurrent agents (real-time trigger, service thread, transitions, worker) as a step function over any schedule; an invariant ties each part of the state to the history of observable events; false claim refuted by schedules, proved under `Orderly`
C63 `CM/Shutdown`, `CM/ShutdownHw`: the hook as a fold of visits with arbitrary real-time operations between them; per-controller and per-component outcome of a visit (`Shut`, `RM.set_final`), FINALIZED is stable under `late` operations except for grouped components; refuted for groups by a run
C64 `Diag/*`: the three diagnostic callbacks over lists of controllers/components with statistics in `Dbl`; every step of the loops `Adds` entries, names and a severity, composed by induction over the list; exact level, names and values
C65 `Boot/*`: constructor, subscription callback, services and real-time cycles as a step function; invariant: waiting with an empty manager, or using one received description with the manager in a state of `CM.Reach`; per-component reasons of a rejected load
C66 `RtList/*`: two lists, two indices, a lock, arbitrary service threads and the real-time thread as a step function; inductive invariant (calm, just switched, loop come round); frame and snapshot theorems; deadlock as a permanent state reached by a schedule
C67 `CM/Activity`: the messages of every operation of `CM.step`; truth of a message is a relation between message and state; proved per operation by frame lemmas (which operations change states) and over histories by induction; witnesses for the operations that hide changes.
C68 `Cli/Model`: the verbs as clients of `Spawn/Model` (same network, same controller manager); proved with the invariants of C59 (every accepted answer had its effect after it was asked for), for switches with any strictness by `CM/Lenient` (a request STRICT does not reject is treated alike whatever the strictness); the false part has witnesses.
C69 `Num/Round`: roundings axiomatised by a structure (monotone, odd, idempotent, no NaN) with IEEE binary64 as an instance (53 digits, ties to even, subnormals, overflow); `Num/LimitsR`: the limiters with rounded arithmetic; the theorems of C28/C29 again for every rounding; error bound for binary64; witnesses for what rounding breaks
C70 `Params/Model`: YAML values with Python's `in`, `[]` and truth values and their exceptions; the two lookups as in the Python code, the parameters stored on the controller manager, the node arguments. Specification: paths into documents (`Addresses`, `Says`) and a state machine reading ROS arguments. Induction over files, keys, arguments and histories of spawners; the false parts refuted by concrete files.
C71 `Num/Round64`: error and monotonicity of binary64; `Num/StatisticsR`: the collector with every operation rounded (equal to `Num/Statistics` without rounding). Invariant over the history: average between the samples (the step towards a sample never passes it), error bound growing by one step's rounding, sign of the two differences equal; overflow witness. `C71_Variance`: error of the sum of squares (quadratic in the number of samples, by induction) and of the variance.
C72 `Num/Transmission` is generic in the numbers; `Num/TransmissionR` instantiates it with rounded doubles. `Num/Near`: a calculus of rounding errors (`Near x r S k n`: k roundings, error 3k 2^-53 S, sizes within 2^-n..2^n) with one rule per operation; each formula is derived with it and composed for the round trips; order, zero and NaN facts by cases for every rounding.
C73 `Argv/Model` models the part of argparse the spawner uses (classification of words, attached and joined values, abbreviations, the positional) and the two parsers of the spawner; checked against argparse 3.11.10 on about 3000 random lines (a test of the model, no proof). `Argv/Launch` models the launch helpers and the word splitting of the shell. Specification: settings (key, spelling, value) and what a list of settings says (`Argv/Spec`). Proof by induction over the settings with one lemma per spelling (`Argv/Lemmas`, `Argv/Lines`).
C74 `Flow/Model` puts values on top of `CM/Model`: the trace of a cycle is replayed, each callback is an arbitrary function of the values it finds, and can change only the interfaces it has handles of. Frame lemmas over the replay (`Flow/Lemmas`), who is called when from the trace of `updateLoop`, `read` and `write` (`Flow/HwLemmas`), who holds what from C06; order of a chain from C12.
C75 `Num/LimitGet` models the table of parameters by full names, reading block by block (also throwing), soft limits, declaring with overrides and defaults, and the loop of `init`. The effect is specified per limit (`Took`, `TookWrap`, `Started`, `Documented`), independent of the order of the blocks; names are unambiguous because keys have no dot. Induction over blocks, keys and joints.
C76 `Views/Model` models the answer's way to edges and labels (the port map keyed by interface name, the order of sets as an arbitrary permutation, the separators) and the status verb's bookkeeping. What a controller asks for and exports is stated on the controller manager (C60). Separate fields are specified by counting ports between separators, proved by a scan. The status verb: invariant over the messages.
C77 `Gui/Model` models the window of rqt_controller_manager as a state machine (combo box, current manager, tables) over timers, selections and clicks whose menus block while timers run; answers of services (rows, RuntimeError, other exceptions) are inputs. The requests of an entry are a client program run against the controller manager with the machinery of C59/C68. Specification: the choice (`choice`) and the log of answers (`asked`) as folds independent of the window; invariants over sessions.
C78 `Views/Lists` models the printed lines as lists of characters; the specification has a reader of indented texts (outline) and words without colours, independent of the printing; proved by induction over lines that reading gives back the answer; marks tied to the answers of the controller manager (`CM.listItfSrv`); the promise "available interfaces" refuted for state interfaces.
C79 `Names/Model` models the string operations on lists of characters; the specification reads names as parts between slashes; induction over texts; two full statements refuted by witnesses and proved under conditions.
C80 `Status/Model` models init and the timer as interleaved steps over any plugin; the specification is an inductive set of allowed histories; invariant over all schedules; the last sentence is refuted by two schedules and proved under a condition.
C81 `Argv/Tools` adds the parsers of the two programs to the model of argparse; documented lines by induction over their settings; all lines by invariants of the event loop (free words are a sublist of the line, a flag that takes effect is named by a word); composed with the requests of C59.
C82 `Pub/Model` adds to the controller manager the registry of published variables and the numbers of the statistics objects; invariant over all histories (owners, freshness, registrations), exactness by induction over histories without late failures, refuted in general with a witness; persistence of dangling registrations by induction.
C83 `Pub/Store` models the maps of handles and the registry; invariants over all histories (owners, freshness, what is registered under each name, exported names are stored and disjoint); refuted in general with a witness; persistence of dangling registrations by induction.
C84 `Lc/Model`: the node, the copy and any number of readers as an interleaving of atomic steps; invariant over all calm histories by induction; refuted in general with a witness from which all further reads are wrong.
C85 `Argv/Verbs` adds the parser of the verb to the model of argparse; documented lines by induction over their settings (options with any number of names), all lines by an invariant of the event loop (what an option takes is the end of a word of the line).
C86 `Check/Model` models the polling loops over arbitrary sequences of answers; exact conditions by induction over the answers; the claim about a common moment refuted with a witness and proved for controllers that stay in the state.
C87 `Util/Model` models the helper functions with positions (find, erase, adjacent_find, find_first_not_of, substr); membership, order and repetitions by induction; strip agrees with the one the models of the parsers use.
C88 `Pub/Hardware` adds the registry to the start-up model of C65; induction on the history with the invariant that the registrations are those of the components in use; names by comparing suffixes.
