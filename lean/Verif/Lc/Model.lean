/-!
# The cached lifecycle state of a controller

`ControllerInterfaceBase` keeps, beside the state of its lifecycle node, an atomic copy `lifecycle_id_` of the id of that state, for
the readers of the real-time loop. Here: the node's state machine, the stores of the transitions, and the readers, of which there is
any number, each step of each of them atomic and interleaved in any order.
-/
namespace Verif
namespace Lc

/-- `lifecycle_msgs/State`: the primary and the transitional states of a managed node (without `ON_*`, which do not exist). -/
inductive Id
  | unknown | unconfigured | inactive | active | finalized
  | configuring | cleaningUp | shuttingDown | activating | deactivating | errorProcessing
  deriving DecidableEq, Repr

/-- controller_interface_base.cpp:313-319: the states for which the copy is not trusted. -/
def Id.transitional : Id → Bool
  | .configuring | .cleaningUp | .shuttingDown | .activating | .deactivating | .errorProcessing => true
  | _ => false

/-- The transitions of a managed node that the code requests; `error` is the one the node takes by itself. -/
inductive Tr
  | configure | cleanup | activate | deactivate | shutdown | error
  deriving DecidableEq, Repr

/-- The answers of a callback. -/
inductive Ret
  | success | failure | error
  deriving DecidableEq, Repr

/-- The state in which the callback of a transition runs (rcl_lifecycle's default state machine; not in /repo). -/
def Tr.during : Tr → Id
  | .configure => .configuring | .cleanup => .cleaningUp | .activate => .activating
  | .deactivate => .deactivating | .shutdown => .shuttingDown | .error => .errorProcessing

/-- The states from which a transition can be requested (rcl_lifecycle's default state machine). -/
def Tr.from? : Tr → Id → Bool
  | .configure, .unconfigured | .cleanup, .inactive | .activate, .inactive | .deactivate, .active
  | .shutdown, .unconfigured | .shutdown, .inactive | .shutdown, .active => true
  | _, _ => false

/-- Where a callback's answer takes the node; `none`: to the callback of the transition `error` (rcl_lifecycle's default state
machine). -/
def Tr.goal : Tr → Ret → Option Id
  | .error, .success => some .unconfigured
  | .error, _ => some .finalized
  | .configure, .success => some .inactive
  | .configure, .failure => some .unconfigured
  | .cleanup, .success => some .unconfigured
  | .cleanup, .failure => some .inactive
  | .activate, .success => some .active
  | .activate, .failure => some .inactive
  | .deactivate, .success => some .inactive
  | .deactivate, .failure => some .active
  | .shutdown, .success => some .finalized
  | .shutdown, .failure => some .finalized
  | _, .error => none

/-- What the node is doing: nothing; a transition whose callback has not yet stored the id (`prev`: the state it left); a transition
whose callback has. -/
inductive Phase
  | idle
  | entered (t : Tr) (prev : Id)
  | running (t : Tr)
  deriving DecidableEq, Repr

/-- A reader, controller_interface_base.cpp:310-325: outside of the function; past the load (312), which gave a transitional id; past
the read of the node's state (320), which gave `id`. -/
inductive Rd
  | out
  | loaded
  | got (id : Id)
  deriving DecidableEq, Repr

/-- The node, the copy and the readers. -/
structure St where
  real : Id
  cache : Id
  phase : Phase
  rd : Nat → Rd

/-- The steps. -/
inductive Ev
  /-- the node takes up a requested transition -/
  | enter (t : Tr)
  /-- the callback, registered at controller_interface_base.cpp:110-171, stores the id of the state of the node -/
  | store
  /-- the callback answers -/
  | answer (r : Ret)
  /-- `configure()` stores the id of the state of the node, first thing and last thing (189, 283) -/
  | refresh
  /-- a reader loads the copy (312) -/
  | load (r : Nat)
  /-- a reader reads the state of the node (320) -/
  | read (r : Nat)
  /-- a reader stores what it read, and returns it (321-322) -/
  | put (r : Nat)
  deriving DecidableEq, Repr

/-- Is it a step of a reader? -/
def Ev.ofReader : Ev → Bool
  | .load _ | .read _ | .put _ => true
  | _ => false

/-- The reader number `r` comes to `p`. -/
def St.setRd (s : St) (r : Nat) (p : Rd) : St :=
  { s with rd := fun i => if i = r then p else s.rd i }

/-- One step and what it returns to the caller of `get_lifecycle_id`, if anything; `none`: not possible now. Requests of transitions
and `configure()` come one at a time (the mutex of the node's state machine; the services' lock of the controller manager).
controller_interface_base.cpp:110-171 (stores before the user's callback), 189, 283, 310-325. -/
def step (s : St) : Ev → Option (St × Option Id)
  | .enter t =>
    if s.phase = .idle ∧ t.from? s.real = true then
      some ({ s with real := t.during, phase := .entered t s.real }, none)
    else none
  | .store =>
    match s.phase with
    | .entered t _ => some ({ s with cache := s.real, phase := .running t }, none)
    | _ => none
  | .answer r =>
    match s.phase with
    | .running t =>
      match t.goal r with
      | some g => some ({ s with real := g, phase := .idle }, none)
      | none => some ({ s with real := Tr.error.during, phase := .entered .error s.real }, none)
    | _ => none
  | .refresh => if s.phase = .idle then some ({ s with cache := s.real }, none) else none
  | .load r =>
    match s.rd r with
    | .out => if s.cache.transitional then some (s.setRd r .loaded, none) else some (s, some s.cache)
    | _ => none
  | .read r =>
    match s.rd r with
    | .loaded => some (s.setRd r (.got s.real), none)
    | _ => none
  | .put r =>
    match s.rd r with
    | .got id => some ({ s with cache := id }.setRd r .out, some id)
    | _ => none

/-- A history, and the answers `get_lifecycle_id` gave in it. -/
def run (s : St) : List Ev → Option (St × List Id)
  | [] => some (s, [])
  | e :: es =>
    match step s e with
    | none => none
    | some (s', o) =>
      match run s' es with
      | none => none
      | some (s'', os) => some (s'', o.toList ++ os)

/-- After `init` (controller_interface_base.cpp:80): the node unconfigured, the copy the same. -/
def init : St := ⟨.unconfigured, .unconfigured, .idle, fun _ => .out⟩

/-- A whole `get_lifecycle_id` (controller_interface_base.cpp:310-325) with nothing in between: what it returns. -/
def get (s : St) : Id := if s.cache.transitional then s.real else s.cache

/-- controller_manager.cpp:82-85. -/
def isActive (s : St) : Bool := get s = .active

/-- controller_manager.cpp:71-74. -/
def isInactive (s : St) : Bool := get s = .inactive

/-- controller_manager.cpp:65-69. -/
def isUnconfigured (s : St) : Bool := get s = .unconfigured

/-- chainable_controller_interface.cpp:297-321: the answer, where the controller's own `on_set_chained_mode` answers `own`. -/
def setChained (s : St) (own : Bool) : Bool :=
  if get s ≠ .active then own else false

end Lc
end Verif
