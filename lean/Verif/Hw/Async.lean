import Verif.Core.Types
/-!
# Asynchronous hardware components

`is_async` components run their plugin's `read`/`write` in a worker thread
(hardware_interface/src/hardware_component_interface.cpp:78-120); the real-time thread only
triggers the worker and reads the results it left behind (413-475).

Two agents run concurrently, one step at a time, in any order:

* the **foreground**: whoever holds the component mutex. Every lifecycle method of
  `HardwareComponent` locks it for its whole body (hardware_component.cpp:60, 84, 111, 135, 160, 195,
  222) and `ResourceManager::read`/`write` skip a component whose mutex they cannot take
  (resource_manager.cpp:2415-2423, 2516-2524), so there is one foreground agent at a time;
* the **worker** thread of `realtime_tools::AsyncFunctionHandler`.

`AsyncFunctionHandler` is not part of the repository. Assumed of it (synchronized policy, the
default): a trigger is accepted exactly when no cycle is in progress, one accepted trigger runs the
callback once, and `pause_execution` returns only when no cycle is in progress. Not modelled: the
`detached` policy, exceptions thrown by the plugin inside the worker, execution times, and
`prepare/perform_command_mode_switch`, which the code calls without pausing the worker.
-/
namespace Verif.Async

/-- The lifecycle callbacks of the plugin. -/
inductive Cb | configure | cleanup | shutdown | activate | deactivate | onError
deriving DecidableEq, Repr

/-- What can be observed of one component. -/
inductive Ev
  | rdCall | rdRet (r : Ret)        -- the plugin's `read`, in the worker
  | wrCall | wrRet (r : Ret)        -- the plugin's `write`, in the worker
  | cycEnd                          -- the worker finished a cycle
  | cbCall (c : Cb) | cbRet (c : Cb) (a : CbAns)   -- a lifecycle callback of the plugin
  | lcSet (l : LState)              -- the component's state was set
  | apiRead                         -- `HardwareComponent::read` started looking at the last result
  | gotRead (r : Ret) (accepted : Bool)  -- ... and decided on its answer `r`
  | gotWrite (r : Ret)              -- `HardwareComponent::write` decided on its answer
deriving DecidableEq, Repr

/-- Where the worker is. Every position but `idle` is a cycle in progress. -/
inductive W
  | idle
  | triggered                -- woken up, `read` not yet called
  | reading                  -- inside the plugin's `read`
  | haveRead (r : Ret)       -- `read` returned, the result is not stored yet
  | storedRead (r : Ret)     -- `read_return_info_` stored
  | writing                  -- inside the plugin's `write`
  | haveWritten (r : Ret)    -- `write` returned, the result is not stored yet
  | done                     -- the callback returned
deriving DecidableEq, Repr

/-- Where the foreground is. -/
inductive F
  | free                     -- nobody holds the component mutex
  | loaded (r : Ret)         -- `trigger_read` has loaded the last read result
  | pausing (c : Cb)         -- in `pause_async_operations`, before the callback `c`
  | paused (c : Cb)          -- worker paused, callback not called yet
  | inCb (c : Cb)            -- the callback runs
deriving DecidableEq, Repr

/-- State of one asynchronous component: lifecycle state, the two agents, `read_return_info_` and
`write_return_info_` (hardware_component_interface.cpp `HardwareComponentInterfaceImpl`), and the
history, newest event first. -/
structure St where
  lc : LState
  f : F
  w : W
  rdRes : Ret
  wrRes : Ret
  log : List Ev
deriving DecidableEq, Repr

/-- After `initialize` succeeded (hardware_component.cpp:57-80): UNCONFIGURED, both results OK. -/
def start : St := ⟨.unconfigured, .free, .idle, .ok, .ok, []⟩

/-- The component is in a state in which the lifecycle method calls the callback:
hardware_component.cpp:85 (configure), 113 (cleanup), 137-139 (shutdown), 168 (activate),
197 (deactivate), 224-226 (error). -/
def allowed (l : LState) : Cb → Bool
  | .configure => l == .unconfigured
  | .cleanup => l == .inactive
  | .shutdown => l != .unknown && l != .finalized
  | .activate => l == .inactive
  | .deactivate => l == .active
  | .onError => l != .unknown && l != .unconfigured

/-- State set after a callback returned, `none` = `error()` is called first:
hardware_component.cpp:88-105, 116-128, 142-153, 172-189, 200-217, 229-246. -/
def after : Cb → CbAns → Option LState
  | .configure, .success => some .inactive
  | .configure, .failure => some .unconfigured
  | .cleanup, .success => some .unconfigured
  | .shutdown, .success => some .finalized
  | .activate, .success => some .active
  | .activate, .failure => some .inactive
  | .deactivate, .success => some .inactive
  | .deactivate, .failure => some .active
  | .onError, .success => some .unconfigured
  | .onError, _ => some .finalized
  | _, _ => none

/-- One step of the schedule. The plugin's answers are part of the schedule. -/
inductive Act
  | fRead | fTrigger | fWrite | fCall (c : Cb) | fPaused | fEnter | fRet (a : CbAns)
  | wStart | wRead (r : Ret) | wStoreRead | wDecide | wWrite (r : Ret) | wStoreWrite | wEnd
deriving DecidableEq, Repr

/-- `error()` as entered from `read`/`write`/another transition: hardware_component.cpp:220-228. -/
def enterError (s : St) : St :=
  if allowed s.lc .onError then { s with f := .pausing .onError } else { s with f := .free }

/-- hardware_component.cpp:351-362 `read` up to the load in `trigger_read`
(hardware_component_interface.cpp:418-420). In the other states nothing happens. -/
def fRead (s : St) : St :=
  if s.f = .free ∧ (s.lc = .inactive ∨ s.lc = .active) then
    { s with f := .loaded s.rdRes, log := .apiRead :: s.log }
  else s

/-- hardware_component_interface.cpp:426-438 (trigger, answer OK if refused) and
hardware_component.cpp:363-366 (`error()` on ERROR). -/
def fTrigger (s : St) : St :=
  match s.f with
  | .loaded r =>
    if s.w = .idle then
      let s' := { s with w := .triggered, f := .free, log := .gotRead r true :: s.log }
      if r = .error then enterError s' else s'
    else { s with f := .free, log := .gotRead .ok false :: s.log }
  | _ => s

/-- hardware_component.cpp:386-405 `write`, hardware_component_interface.cpp:451-466
`trigger_write`: only reads the last result. -/
def fWrite (sensor : Bool) (s : St) : St :=
  if s.f = .free ∧ sensor = false ∧ s.lc = .active then
    let s' := { s with log := .gotWrite s.wrRes :: s.log }
    if s.wrRes = .error then enterError s' else s'
  else s

/-- A lifecycle method is called: hardware_component.cpp:85-87 and alike; `error()` is also called
from outside, resource_manager.cpp:2484, 2583. -/
def fCall (c : Cb) (s : St) : St :=
  if s.f = .free ∧ allowed s.lc c then { s with f := .pausing c } else s

/-- `pause_async_operations` returns (hardware_component_interface.cpp:540-546). -/
def fPaused (s : St) : St :=
  match s.f with
  | .pausing c => if s.w = .idle then { s with f := .paused c } else s
  | _ => s

/-- The callback is called; before `on_activate`, `prepare_for_activation` resets both results
(hardware_component.cpp:170-172, hardware_component_interface.cpp:562-568). -/
def fEnter (s : St) : St :=
  match s.f with
  | .paused .activate =>
    { s with f := .inCb .activate, rdRes := .ok, wrRes := .ok, log := .cbCall .activate :: s.log }
  | .paused c => { s with f := .inCb c, log := .cbCall c :: s.log }
  | _ => s

/-- The callback returns; an exception leaves the state as it was and releases the mutex. -/
def fRet (a : CbAns) (s : St) : St :=
  match s.f with
  | .inCb c =>
    let s' := { s with log := .cbRet c a :: s.log }
    match a with
    | .throws => { s' with f := .free }
    | _ =>
      match after c a with
      | some l => { s' with f := .free, lc := l, log := .lcSet l :: s'.log }
      | none => enterError s'
  | _ => s

/-- hardware_component_interface.cpp:83-84: the worker calls `read`. -/
def wStart (s : St) : St :=
  if s.w = .triggered then { s with w := .reading, log := .rdCall :: s.log } else s

/-- The plugin's `read` returns `r`. -/
def wRead (r : Ret) (s : St) : St :=
  if s.w = .reading then { s with w := .haveRead r, log := .rdRet r :: s.log } else s

/-- hardware_component_interface.cpp:86 `read_return_info_.store`. -/
def wStoreRead (s : St) : St :=
  match s.w with
  | .haveRead r => { s with w := .storedRead r, rdRes := r }
  | _ => s

/-- hardware_component_interface.cpp:90-98: stop unless `read` said OK; call `write` unless the
component is a sensor or not ACTIVE. -/
def wDecide (sensor : Bool) (s : St) : St :=
  match s.w with
  | .storedRead r =>
    if r ≠ .ok then { s with w := .done }
    else if sensor = false ∧ s.lc = .active then { s with w := .writing, log := .wrCall :: s.log }
    else { s with w := .done }
  | _ => s

/-- The plugin's `write` returns `r`. -/
def wWrite (r : Ret) (s : St) : St :=
  if s.w = .writing then { s with w := .haveWritten r, log := .wrRet r :: s.log } else s

/-- hardware_component_interface.cpp:101 `write_return_info_.store`. -/
def wStoreWrite (s : St) : St :=
  match s.w with
  | .haveWritten r => { s with w := .done, wrRes := r }
  | _ => s

/-- The handler notes the end of the cycle (realtime_tools). -/
def wEnd (s : St) : St :=
  if s.w = .done then { s with w := .idle, log := .cycEnd :: s.log } else s

/-- One step; a step that is not enabled does nothing. -/
def step (sensor : Bool) (s : St) : Act → St
  | .fRead => fRead s
  | .fTrigger => fTrigger s
  | .fWrite => fWrite sensor s
  | .fCall c => fCall c s
  | .fPaused => fPaused s
  | .fEnter => fEnter s
  | .fRet a => fRet a s
  | .wStart => wStart s
  | .wRead r => wRead r s
  | .wStoreRead => wStoreRead s
  | .wDecide => wDecide sensor s
  | .wWrite r => wWrite r s
  | .wStoreWrite => wStoreWrite s
  | .wEnd => wEnd s

/-- Any schedule. -/
def run (sensor : Bool) (acts : List Act) : St := acts.foldl (step sensor) start

end Verif.Async
