import Verif.CM.Model
/-!
# Asynchronous controllers

`is_async` controllers run `update` in a worker thread (controller_interface_base.cpp:241-276); the real-time loop only
triggers the worker and takes the result of an earlier update (332-378).

Three agents run concurrently, one step at a time, in any order:

* the **real-time thread** in `trigger_update`;
* the **service thread** in `prepare_for_deactivation` (426-430, called by `switch_controller`, cm.cpp:2347-2358);
* whoever performs a **lifecycle transition**: one at a time, and not while the real-time thread is inside
  `trigger_update` of this controller (the transitions of an active controller are performed by the real-time thread
  itself or, without `activate_asap`, while it skips the controller, cm.cpp:3418-3441). The pre-shutdown hook, which
  breaks this rule, is not modelled;
* the **worker** of `realtime_tools::AsyncFunctionHandler`.

`AsyncFunctionHandler` is not part of the repository. Assumed of it (synchronized policy; controllers refuse the
detached one, 258-264): a trigger is accepted exactly if no cycle is in progress, and answers the last stored result;
an accepted trigger runs the function once, unless the thread is stopped before; `wait_for_trigger_cycle_to_finish`
returns only when no cycle is in progress; `stop_thread` and the destructor return when the thread has ended;
`reset_variables` resets the stored result, and may drop a trigger that was not yet served (nothing is assumed about an
`update` in progress). Not modelled: exceptions
thrown by `update` in the worker, execution times.
-/
namespace Verif.ACtl

/-- The lifecycle callbacks of the controller. -/
inductive Cb | cb (c : CtlCb) | onError
deriving DecidableEq, Repr

/-- What can be observed of one asynchronous controller. -/
inductive Ev
  | updCall | updRet (r : Ret)      -- `update` of the controller, in the worker
  | cycEnd                          -- the worker finished (or dropped) the triggered cycle
  | cbCall (c : Cb) | cbRet (c : Cb) (a : CbAns)
  | lcSet (l : LState)              -- the lifecycle state was set
  | assigned | released             -- the loaned interfaces were handed over, taken back
  | check                           -- `trigger_update` found that triggers are not to be skipped
  | skipped                         -- `trigger_update` answered without a trigger
  | got (r : Ret) (accepted : Bool) -- `trigger_update` triggered and answered
  | threw                           -- `trigger_update` threw because there is no thread
  | prepBegin                       -- `prepare_for_deactivation` set its flag
  | prepared                        -- `prepare_for_deactivation` returned
deriving DecidableEq, Repr

/-- Where the worker is; every position but `idle` is a cycle in progress. -/
inductive W | idle | triggered | updating | returned
deriving DecidableEq, Repr

/-- Where the transition is: none, waiting for the end of the thread, in the callback. -/
inductive F | free | stopping (c : Cb) | inCb (c : Cb)
deriving DecidableEq, Repr

/-- One asynchronous controller: lifecycle state, `skip_async_triggers_`, is the thread running, is the real-time thread
between the test of the flag and the trigger, is the service thread waiting in `prepare_for_deactivation`, the
transition, the worker, the last stored result, and the history, newest event first. -/
structure St where
  lc : LState
  skip : Bool
  run : Bool
  checked : Bool
  waiting : Bool
  f : F
  w : W
  res : Ret
  log : List Ev
deriving DecidableEq, Repr

/-- After `init` (controller_interface_base.cpp:60-190). -/
def start : St := ⟨.unconfigured, false, false, false, false, .free, .idle, .ok, []⟩

/-- One step of the schedule. The controller's answers are part of the schedule. -/
inductive Act
  | rtCheck | rtTrigger | svPrepare | svPrepared
  | fCall (c : CtlCb) | fStopped | fRet (a : CbAns)
  | wStart | wRet (r : Ret) | wEnd | wDrop
deriving DecidableEq, Repr

/-- cm.cpp:3427 (`is_controller_active`: not while a transition is under way) and
controller_interface_base.cpp:335-343: the test of the flag. -/
def rtCheck (s : St) : St :=
  if s.checked = false ∧ s.f = .free ∧ s.lc = .active then
    if s.skip then { s with log := .skipped :: s.log }
    else { s with checked := true, log := .check :: s.log }
  else s

/-- controller_interface_base.cpp:344-365: the trigger and the answer. -/
def rtTrigger (s : St) : St :=
  if s.checked then
    if s.run = false then { s with checked := false, log := .threw :: s.log }
    else if s.w = .idle then
      { s with checked := false, w := .triggered, log := .got s.res true :: s.log }
    else { s with checked := false, log := .got s.res false :: s.log }
  else s

/-- controller_interface_base.cpp:428: the flag. -/
def svPrepare (s : St) : St :=
  if s.waiting then s else { s with skip := true, waiting := true, log := .prepBegin :: s.log }

/-- controller_interface_base.cpp:429 and 418-424: the wait is over. -/
def svPrepared (s : St) : St :=
  if s.waiting = true ∧ (s.w = .idle ∨ s.run = false) then
    { s with waiting := false, log := .prepared :: s.log }
  else s

/-- A transition begins (controller_interface_base.cpp:108-168 and 195-289). Configuring replaces the handler (its
destructor ends the thread), cleaning up and shutting down stop the thread first; activation resets the flag and the
stored result, with the interfaces already assigned (cm.cpp:2750-2757). -/
def fCall (c : CtlCb) (s : St) : St :=
  if s.f = .free ∧ s.checked = false ∧ c.legal s.lc = true then
    match c with
    | .activate =>
      { s with skip := false, res := if s.run then .ok else s.res, f := .inCb (.cb .activate),
               log := .cbCall (.cb .activate) :: .assigned :: s.log }
    | .deactivate => { s with f := .inCb (.cb .deactivate), log := .cbCall (.cb .deactivate) :: s.log }
    | c => { s with f := .stopping (.cb c) }
  else s

/-- The old thread has ended (controller_interface_base.cpp:432-438; 269-276 starts a new one) and the callback is
called. -/
def fStopped (s : St) : St :=
  match s.f with
  | .stopping c =>
    if s.w = .idle then
      { s with run := decide (c = .cb .configure), res := if c = .cb .configure then .ok else s.res,
               f := .inCb c, log := .cbCall c :: s.log }
    else s
  | _ => s

/-- The events that follow the answer of a callback: the interfaces are released after every deactivation (cm.cpp:2549),
after an activation that did not end ACTIVE (cm.cpp:2786) and after `on_shutdown`. -/
def doneEvs (c : CtlCb) (l : LState) : List Ev :=
  match c with
  | .deactivate => [.released, .lcSet l]
  | .activate => if l = .active then [.lcSet l] else [.released, .lcSet l]
  | .shutdown => [.lcSet l, .released]
  | _ => [.lcSet l]

/-- The callback answers (`rclcpp_lifecycle`: SUCCESS, FAILURE, or error processing; controller_interface_base.cpp:160-168
for `on_error`). -/
def fRet (a : CbAns) (s : St) : St :=
  match s.f with
  | .inCb (.cb c) =>
    match a with
    | .success =>
      { s with lc := c.onSuccess, f := .free, log := doneEvs c c.onSuccess ++ .cbRet (.cb c) a :: s.log }
    | .failure =>
      { s with lc := c.onFailure, f := .free, log := doneEvs c c.onFailure ++ .cbRet (.cb c) a :: s.log }
    | _ => { s with f := .stopping .onError, log := .cbRet (.cb c) a :: s.log }
  | .inCb .onError =>
    let l : LState := if a = .success then .unconfigured else .finalized
    { s with lc := l, f := .free, log := .lcSet l :: .released :: .cbRet .onError a :: s.log }
  | _ => s

/-- The worker calls `update`. -/
def wStart (s : St) : St :=
  if s.w = .triggered then { s with w := .updating, log := .updCall :: s.log } else s

/-- `update` returns and its result is stored. -/
def wRet (r : Ret) (s : St) : St :=
  if s.w = .updating then { s with w := .returned, res := r, log := .updRet r :: s.log } else s

/-- The cycle ends. -/
def wEnd (s : St) : St :=
  if s.w = .returned then { s with w := .idle, log := .cycEnd :: s.log } else s

/-- A thread that is being stopped may drop a trigger it has not yet served, and so may `reset_variables`
(controller_interface_base.cpp:136-140). -/
def wDrop (s : St) : St :=
  match s.f with
  | .free | .inCb (.cb .deactivate) => s
  | _ => if s.w = .triggered then { s with w := .idle, log := .cycEnd :: s.log } else s

/-- One step. -/
def step (s : St) : Act → St
  | .rtCheck => rtCheck s
  | .rtTrigger => rtTrigger s
  | .svPrepare => svPrepare s
  | .svPrepared => svPrepared s
  | .fCall c => fCall c s
  | .fStopped => fStopped s
  | .fRet a => fRet a s
  | .wStart => wStart s
  | .wRet r => wRet r s
  | .wEnd => wEnd s
  | .wDrop => wDrop s

/-- A history. -/
def run (acts : List Act) : St := acts.foldl step start

end Verif.ACtl
