import Verif.RM.Model
import Verif.CM.Order
/-!
# `ControllerManager` (controller_manager/src/controller_manager.cpp, cited below as `cm.cpp`)

One controller list: the service thread and the real-time thread see the same list here (the double
buffer of `RTControllerListWrapper` is the subject of `Verif/RT/RTList`). Every operation is
atomic; service calls are serialised by `services_lock_` and do nothing while a switch is waiting
for the real-time loop.

`rm.fault` records an exception that escapes the controller manager (`map.at` on a missing key,
duplicate import) or an unbounded recursion: the process is then dead and what follows is moot.

Not modelled: node options, parameters, diagnostics, statistics, publishers, timing
(`Verif/Num/UpdateRate` models the timing of updates; here *which* controllers are due in a cycle is
an arbitrary input).
-/
namespace Verif

/-- `controller_interface::InterfaceConfiguration`
(controller_interface/include/controller_interface/controller_interface_base.hpp,
`interface_configuration_type`). A regular expression is the predicate it matches. -/
inductive ItfCfg
  | all
  | individual (l : List Itf)
  | bestEffort (l : List Itf)
  | regex (pats : List (Itf → Bool))
  | none

/-- cm.cpp:181-229 `get_command_interfaces_names` and 235-282 `get_state_interfaces_names`. -/
def ItfCfg.resolve : ItfCfg → List Itf → List Itf
  | .all, avail => avail
  | .individual l, _ => l
  | .bestEffort l, avail => l.filter (fun i => decide (i ∈ avail))
  | .regex pats, avail => pats.flatMap (fun p => avail.filter p)
  | .none, _ => []

/-- `type == ALL` -/
def ItfCfg.isAll : ItfCfg → Bool
  | .all => true
  | _ => false

/-- What a controller answers when asked for its interfaces. Assumption A2 (DESIGN.md): it only
changes when the controller is (re)configured. -/
structure CtlCfg where
  cmd : ItfCfg
  state : ItfCfg
  /-- answer of `export_state_interfaces` / `export_reference_interfaces` of a chainable controller;
  `none` when the export throws -/
  exports : Option (List Itf × List Itf)

/-- `ControllerSpec` plus the controller object it points to. -/
structure Ctl where
  name : Name
  chainable : Bool
  async : Bool
  cfg : CtlCfg
  /-- `info.fallback_controllers_names` -/
  fallbacks : List Name
  lc : LState
  /-- names of the `LoanedCommandInterface`s in `command_interfaces_` -/
  held : List Itf
  /-- `in_chained_mode_` -/
  chained : Bool
  /-- `info.claimed_interfaces` -/
  claimedInfo : List Itf
  /-- `controllers_chain_group` -/
  group : List Name
  /-- `skip_async_triggers_` -/
  skipAsync : Bool

/-- Strictness after the normalisation of cm.cpp:1906-1939 (0 is replaced by the default, AUTO and
FORCE_AUTO by BEST_EFFORT); `other` is any other integer. -/
inductive Strictness | strict | bestEffort | other
deriving DecidableEq, Repr

/-- `SwitchParams` (controller_manager.hpp:726-775). -/
structure Sw where
  doSwitch : Bool
  asap : Bool
  ready : Bool
  strict : Strictness
  deact : List Name
  act : List Name
  toCh : List Name
  fromCh : List Name
  actItf : List Itf
  deactItf : List Itf

/-- cm.cpp:1837-1848 `clear_requests` -/
def Sw.cleared (s : Sw) : Sw :=
  { s with doSwitch := false, ready := false, asap := false, deact := [], act := [],
           toCh := [], fromCh := [], actItf := [], deactItf := [] }

/-- Empty switch parameters. -/
def Sw.empty : Sw :=
  { doSwitch := false, asap := false, ready := false, strict := .other, deact := [], act := [],
    toCh := [], fromCh := [], actItf := [], deactItf := [] }

/-- State of the controller manager. -/
structure CM where
  rm : RM
  /-- the controller list (used by the real-time thread and updated list) -/
  ctls : List Ctl
  /-- keys of `controller_chain_spec_` -/
  chainKeys : List Name
  foll : Name → List Name
  prec : Name → List Name
  /-- `controller_chained_reference_interfaces_cache_`, `controller_chained_state_interfaces_cache_` -/
  refCache : Name → List Name
  stateCache : Name → List Name
  sw : Sw
  /-- a `switch_controller` call is waiting for the real-time loop -/
  pending : Bool
  /-- history variable (not in the code, read by nothing): reference interfaces erased from the
  resource manager while they were claimed, i.e. while some controller still held a loan -/
  dropped : List Itf

namespace CM

/-- A controller manager without controllers on top of a resource manager. -/
def init (rm : RM) : CM where
  rm := rm
  ctls := []
  chainKeys := []
  foll := fun _ => []
  prec := fun _ => []
  refCache := fun _ => []
  stateCache := fun _ => []
  sw := Sw.empty
  pending := false
  dropped := []

/-- `std::find_if` by name (`controller_name_compare`). -/
def find (cm : CM) (n : Name) : Option Ctl := cm.ctls.find? (fun c => c.name = n)

/-- Update the controller object called `n` in place (controllers are shared pointers). -/
def modify (cm : CM) (n : Name) (f : Ctl → Ctl) : CM :=
  { cm with ctls := cm.ctls.map (fun c => if c.name = n then f c else c) }

/-- Lifecycle state of the controller `n`, if loaded. -/
def lcOf (cm : CM) (n : Name) : Option LState := (cm.find n).map (·.lc)

/-- `is_controller_active` / `is_controller_inactive` / `is_controller_unconfigured`
(controller_manager/include/controller_manager/controller_spec.hpp and cm.cpp:65-91) by name. -/
def isActive (cm : CM) (n : Name) : Bool := decide (cm.lcOf n = some .active)

/-- Append an event to the history. -/
def push (cm : CM) (e : Ev) : CM := { cm with rm := { cm.rm with tr := e :: cm.rm.tr } }

/-- Record an exception escaping the controller manager. -/
def faulted (cm : CM) : CM := { cm with rm := { cm.rm with fault := true } }

/-- Command interfaces a controller asks for (cm.cpp:181-229). -/
def cmdItfs (cm : CM) (c : Ctl) : List Itf := c.cfg.cmd.resolve cm.rm.availC

/-- State interfaces a controller asks for (cm.cpp:235-282). -/
def stateItfs (cm : CM) (c : Ctl) : List Itf := c.cfg.state.resolve cm.rm.availS

/-- cm.cpp:110-146 `is_interface_a_chained_interface`: the controller named by the prefix, if loaded. -/
def chainedTo (cm : CM) (i : Itf) : Option Ctl := cm.find i.pre

/-- cm.cpp:319-332 `extract_command_interfaces_for_controller`. -/
def extract (cm : CM) (c : Ctl) : List Itf :=
  if c.lc = .active ∨ c.lc = .inactive then cm.cmdItfs c else []

/-- cm.cpp:433-450 `get_controller_list_command_interfaces`. -/
def listCmdItfs (cm : CM) (l : List Name) : List Itf :=
  l.flatMap (fun n => match cm.find n with | some c => cm.extract c | none => [])

/-! ## Controller lifecycle

`rclcpp_lifecycle` is a dependency that is not in the repository; assumption A3 (DESIGN.md) is this
table, the documented managed-node state machine. -/

/-- States from which a transition may be triggered. -/
def _root_.Verif.CtlCb.legal : CtlCb → LState → Bool
  | .configure, .unconfigured => true
  | .activate, .inactive => true
  | .deactivate, .active => true
  | .cleanup, .inactive => true
  | .shutdown, .unconfigured => true
  | .shutdown, .inactive => true
  | .shutdown, .active => true
  | _, _ => false

/-- State after the callback returned SUCCESS. -/
def _root_.Verif.CtlCb.onSuccess : CtlCb → LState
  | .init => .unconfigured
  | .configure => .inactive
  | .activate => .active
  | .deactivate => .inactive
  | .cleanup => .unconfigured
  | .shutdown => .finalized

/-- State after the callback returned FAILURE. -/
def _root_.Verif.CtlCb.onFailure : CtlCb → LState
  | .init => .finalized
  | .configure => .unconfigured
  | .activate => .inactive
  | .deactivate => .active
  | .cleanup => .inactive
  | .shutdown => .finalized

/-- `ControllerInterfaceBase::release_interfaces` (controller_interface_base.cpp:295-299): destroying
a `LoanedCommandInterface` releases it in the resource manager. -/
def releaseItfs (cm : CM) (n : Name) : CM :=
  match cm.find n with
  | none => cm
  | some c =>
    ({ cm with rm := c.held.foldl RM.release cm.rm }).modify n (fun c => { c with held := [] })

/-- A transition of the lifecycle node of controller `n`, with the wrappers registered in
controller_interface_base.cpp:110-168 (activation clears `skip_async_triggers_`; shutdown and error
processing release the interfaces). A transition that is not legal in the current state does
nothing. -/
def trigger (o : Oracle) (cm : CM) (n : Name) (cb : CtlCb) : CM :=
  match cm.find n with
  | none => cm
  | some c =>
    if cb.legal c.lc then
      let a := o.ctlCb cm.rm.tr n cb
      let cm1 := cm.push (.ctlCb n cb a)
      let cm2 := if cb = .activate then cm1.modify n (fun c => { c with skipAsync := false }) else cm1
      let cm3 := if cb = .shutdown then cm2.releaseItfs n else cm2
      match a with
      | .success => cm3.modify n (fun c => { c with lc := cb.onSuccess })
      | .failure => cm3.modify n (fun c => { c with lc := cb.onFailure })
      | _ =>
        let e := o.ctlErr cm3.rm.tr n
        ((cm3.push (.ctlErr n e)).releaseItfs n).modify n
          (fun c => { c with lc := if e = .success then .unconfigured else .finalized })
    else cm

/-- `ChainableControllerInterface::set_chained_mode`
(controller_interface/src/chainable_controller_interface.cpp:297-323); a plain `ControllerInterface`
always refuses (controller_interface/src/controller_interface.cpp:38-41). -/
def setChained (o : Oracle) (cm : CM) (n : Name) (v : Bool) : CM :=
  match cm.find n with
  | none => cm
  | some c =>
    if c.chainable = true ∧ c.lc ≠ .active then
      let a := o.ctlChained cm.rm.tr n v
      let cm1 := cm.push (.ctlChained n v a)
      if a then cm1.modify n (fun c => { c with chained := v }) else cm1
    else cm

/-! ## Deactivation, chained mode, activation -/

/-- cm.cpp:2555-2574: inside a `try`, so a missing map entry only skips the rest. -/
def exportsUnavailableTry (cm : CM) (n : Name) : CM :=
  match cm.rm.expS n with
  | none => cm
  | some _ =>
    let rm1 := cm.rm.exportedStateUnavailable n
    match rm1.expR n with
    | none => { cm with rm := rm1 }
    | some _ => { cm with rm := rm1.referenceUnavailable n }

/-- cm.cpp:2539-2591: one name of `deactivate_controllers`. -/
def deactivateOne (o : Oracle) (cm : CM) (n : Name) : CM :=
  match cm.find n with
  | none => cm
  | some c =>
    if c.lc = .active then
      let cm1 := (cm.trigger o n .deactivate).releaseItfs n
      if c.chainable then (cm1.setChained o n false).exportsUnavailableTry n else cm1
    else cm

/-- cm.cpp:2534-2593 `deactivate_controllers`. -/
def deactivateAll (o : Oracle) (cm : CM) (l : List Name) : CM := l.foldl (deactivateOne o) cm

/-- cm.cpp:2595-2639 `switch_chained_mode`. -/
def switchChained (o : Oracle) (cm : CM) (l : List Name) (v : Bool) : CM :=
  l.foldl (fun cm n =>
    match cm.find n with
    | none => cm
    | some c => if c.lc ≠ .active then cm.setChained o n v else cm) cm

/-- Make the exported interfaces of `n` available; a missing entry escapes as an exception. -/
def exportsAvailable (cm : CM) (n : Name) : CM :=
  { cm with rm := (cm.rm.exportedStateAvailable n).referenceAvailable n }

/-- Make the exported interfaces of `n` unavailable; a missing entry escapes as an exception. -/
def exportsUnavailable (cm : CM) (n : Name) : CM :=
  { cm with rm := (cm.rm.exportedStateUnavailable n).referenceUnavailable n }

/-- cm.cpp:2647-2665: before anything is activated the exported interfaces of all chainable
controllers of the list are made available. -/
def preAvailable (cm : CM) (l : List Name) : CM :=
  l.foldl (fun cm n =>
    match cm.find n with
    | none => cm
    | some c => if c.chainable then cm.exportsAvailable n else cm) cm

/-- cm.cpp:2687-2724: claim the command interfaces one by one. On a conflict or an exception the
loans taken so far are destroyed again (`none`). A missing claim entry makes
`command_interface_is_claimed` throw outside the `try`. -/
def claimAll (rm : RM) (acc : List Itf) : List Itf → RM × Option (List Itf)
  | [] => (rm, some acc)
  | i :: t =>
    match rm.isClaimed i with
    | none => ({ acc.foldl RM.release rm with fault := true }, none)
    | some true => (acc.foldl RM.release rm, none)
    | some false =>
      match rm.claim i with
      | (rm1, true) => claimAll rm1 (acc ++ [i]) t
      | (rm1, false) => (acc.foldl RM.release rm1, none)

/-- cm.cpp:2666-2804: activate one controller of the list. The accumulator carries `is_successful` and
`failed_controllers_command_interfaces`. Assigning new loans destroys the loans held before. -/
def activateOne (o : Oracle) (s : CM × Bool × List Itf) (n : Name) : CM × Bool × List Itf :=
  match s.1.find n with
  | none => s
  | some c =>
    let names := s.1.cmdItfs c
    match claimAll s.1.rm [] names with
    | (rm1, none) => ({ s.1 with rm := rm1 }, false, s.2.2)
    | (rm1, some loans) =>
      let cm1 : CM := { s.1 with rm := rm1 }
      if ∀ i ∈ cm1.stateItfs c, rm1.claimState i = true then
        let cm2 := (cm1.releaseItfs n).modify n (fun c => { c with held := loans })
        let cm3 := cm2.trigger o n .activate
        if cm3.isActive n then
          (if c.chainable then cm3.exportsAvailable n else cm3, s.2.1, s.2.2)
        else
          let cm4 := cm3.releaseItfs n
          (if c.chainable then cm4.exportsUnavailable n else cm4, false, addItems s.2.2 names)
      else ({ cm1 with rm := loans.foldl RM.release rm1 }, false, s.2.2)

/-- `prepare && perform` with short-circuit, as in cm.cpp:2814-2836 and 3824-3827. -/
def prepareAndPerform (o : Oracle) (cm : CM) (start stop : List Itf) : CM :=
  match cm.rm.prepareSwitch o start stop with
  | (rm1, true) => { cm with rm := (rm1.performSwitch o start stop).1 }
  | (rm1, false) => { cm with rm := rm1 }

/-- cm.cpp:2641-2838 `activate_controllers`. -/
def activateAll (o : Oracle) (cm : CM) (l : List Name) (s : Strictness) : CM :=
  let r := l.foldl (activateOne o) (cm.preAvailable l, true, [])
  if r.2.1 = false ∧ s = .strict then
    (r.1.deactivateAll o l).prepareAndPerform o [] r.1.sw.actItf
  else if r.2.2 ≠ [] then r.1.prepareAndPerform o [] r.2.2
  else r.1

/-- cm.cpp:3809-3835 `perform_hardware_command_mode_change`. -/
def modeChange (o : Oracle) (cm : CM) (act deact : List Name) : CM :=
  let stop := cm.listCmdItfs deact
  let start := cm.listCmdItfs act
  if stop = [] ∧ start = [] then cm else cm.prepareAndPerform o start stop

/-- cm.cpp:3320-3378 `manage_switch` (with the mutex acquired). -/
def manageSwitch (o : Oracle) (cm : CM) : CM :=
  match cm.rm.performSwitch o cm.sw.actItf cm.sw.deactItf with
  | (rm1, false) => { cm with rm := rm1, sw := { cm.sw with doSwitch := false } }
  | (rm1, true) =>
    let cm1 : CM := { cm with rm := rm1 }
    let cm2 := cm1.deactivateAll o cm.sw.deact
    let cm3 := cm2.switchChained o cm.sw.toCh true
    let cm4 := cm3.switchChained o cm.sw.fromCh false
    let cm5 := cm4.activateAll o cm.sw.act cm.sw.strict
    { cm5 with sw := { cm5.sw with doSwitch := false } }

/-! ## Validation of a switch request -/

/-- cm.cpp:1960-2008 `list_controllers`: one name. The accumulator is (aborted, result is OK, request list). -/
def listStep (cm : CM) (s : Strictness) (acc : Bool × Bool × List Name) (n : Name) : Bool × Bool × List Name :=
  if acc.1 then acc
  else match cm.find n with
    | none => if s = .strict then (true, false, acc.2.2) else (false, decide (acc.2.2 ≠ []), acc.2.2)
    | some _ => (false, true, acc.2.2 ++ [n])

/-- cm.cpp:1960-2008 `list_controllers`; `none` is a non-OK result. -/
def listControllers (cm : CM) (s : Strictness) (l : List Name) : Option (List Name) :=
  let r := l.foldl (cm.listStep s) (false, true, [])
  if r.2.1 then some r.2.2 else none

/-- cm.cpp:3862-3887: the following controllers of one deactivated controller go to the `from` list. -/
def addFromChained (cm : CM) (c : Ctl) : CM :=
  let l := (cm.cmdItfs c ++ cm.stateItfs c).foldl (fun l i =>
    match cm.chainedTo i with
    | some f => addItem l f.name
    | none => l) cm.sw.fromCh
  { cm with sw := { cm.sw with fromCh := l } }

/-- cm.cpp:3837-3890 `propagate_deactivation_of_chained_mode`; note the `break` at the first requested
controller that is not active. -/
def propagate (cm : CM) : List Ctl → CM
  | [] => cm
  | c :: t =>
    if c.name ∈ cm.sw.deact then
      if c.lc ≠ .active then cm
      else (cm.addFromChained c).propagate t
    else cm.propagate t

/-- cm.cpp:3892-4050 `check_following_controllers_for_activate`. `fuel` bounds the recursion depth; when
it runs out the recursion is deeper than the number of loaded controllers, i.e. it goes round a
cycle of chained interfaces. -/
def checkFollowing (cm : CM) : Nat → Ctl → CM × Bool
  | 0, _ => (cm.faulted, false)
  | fuel + 1, c =>
    let cmd := cm.cmdItfs c
    let st := cm.stateItfs c
    (cmd ++ st).foldl (fun (acc : CM × Bool) i =>
      if acc.2 = false then acc
      else
        let cm := acc.1
        match cm.chainedTo i with
        | none => acc
        | some f =>
          if f.chainable = false then (cm, false)
          else if f.lc = .active ∧ f.name ∈ cm.sw.deact then
            if (i ∈ st ∧ c.cfg.state.isAll = true) ∨ (i ∈ cmd ∧ c.cfg.cmd.isAll = true) then acc
            else (cm, false)
          else if f.lc ≠ .active ∧ f.name ∉ cm.sw.act then (cm, false)
          else
            let r := cm.checkFollowing fuel f
            if r.2 = false then r
            else
              let cm := r.1
              if f.chained = false then
                if f.name ∈ cm.sw.toCh then (cm, true)
                else
                  let rm1 := cm.rm.exportedStateAvailable f.name
                  if i ∈ cmd then
                    ({ cm with rm := rm1.referenceAvailable f.name
                               sw := { cm.sw with toCh := cm.sw.toCh ++ [f.name] } }, true)
                  else ({ cm with rm := rm1 }, true)
              else ({ cm with sw := { cm.sw with fromCh := removeItem cm.sw.fromCh f.name } }, true))
      (cm, true)

/-- cm.cpp:4052-4125 `check_preceding_controllers_for_deactivate`. -/
def checkPreceding (cm : CM) (c : Ctl) : Bool :=
  if c.chainable = false then true
  else (cm.stateCache c.name ++ cm.refCache c.name).all (fun p =>
    match cm.find p with
    | none => true
    | some pc =>
      !(decide (pc.lc = .inactive ∧ p ∈ cm.sw.act)) &&
      !(decide (pc.lc = .active ∧ p ∉ cm.sw.deact)))

/-- Result of a check that may also throw an exception that escapes the controller manager. -/
inductive Chk | ok | fail | throws
deriving DecidableEq, Repr

/-- First result that is not `ok`. -/
def Chk.all (f : α → Chk) : List α → Chk
  | [] => .ok
  | a :: t => match f a with | .ok => Chk.all f t | r => r

/-- cm.cpp:4159-4220 / 4221-4282: one interface a fallback controller needs. `exp` is the list exported
by a controller of the given name (`map.at`: a missing entry throws). -/
def fallbackItf (cm : CM) (c : Ctl) (avail : List Itf) (exp : Name → Option (List Itf)) (i : Itf) : Chk :=
  if i ∈ avail then .ok
  else match cm.chainedTo i with
    | none => .fail
    | some f =>
      if f.lc = .inactive then
        if f.name ∈ c.fallbacks then
          match exp f.name with
          | some l => if i ∈ l then .ok else .fail
          | none => .throws
        else .fail
      else .ok

/-- cm.cpp:4132-4284: one fallback controller. -/
def fallbackOne (cm : CM) (c : Ctl) (n : Name) : Chk :=
  match cm.find n with
  | none => .fail
  | some fb =>
    if fb.lc = .inactive ∨ fb.lc = .active then
      match Chk.all (cm.fallbackItf c cm.rm.availC cm.rm.expR) (cm.cmdItfs fb) with
      | .ok => Chk.all (cm.fallbackItf c cm.rm.availS cm.rm.expS) (cm.stateItfs fb)
      | r => r
    else .fail

/-- cm.cpp:4127-4286 `check_fallback_controllers_state_pre_activation`. -/
def checkFallback (cm : CM) (c : Ctl) : CM × Bool :=
  match Chk.all (cm.fallbackOne c) c.fallbacks with
  | .ok => (cm, true)
  | .fail => (cm, false)
  | .throws => (cm.faulted, false)

/-- cm.cpp:2049-2099: the checks for one controller of the activate request. -/
def checkActivate (cm : CM) (n : Name) : CM × Bool :=
  match cm.find n with
  | none => (cm, false)
  | some c =>
    let r : CM × Bool :=
      match c.lc with
      | .unconfigured => (cm, false)
      | .active => (cm, decide (n ∈ cm.sw.deact))
      | .inactive => cm.checkFollowing (cm.ctls.length + 1) c
      | _ => (cm, false)
    if r.2 then r.1.checkFallback c else r

/-- cm.cpp:2045-2127: the loop over the activate request. BEST_EFFORT erases a failing entry, STRICT
aborts, any other value does neither. The request list is `kept ++ todo` at every iteration. -/
def actLoop (s : Strictness) : List Name → List Name → CM → CM × Bool
  | [], _, cm => (cm, true)
  | n :: t, kept, cm =>
    let r := cm.checkActivate n
    if r.2 then actLoop s t (kept ++ [n]) r.1
    else match s with
      | .strict => (r.1, false)
      | .bestEffort => actLoop s t kept { r.1 with sw := { r.1.sw with act := kept ++ t } }
      | .other => actLoop s t (kept ++ [n]) r.1

/-- cm.cpp:2129-2177: the loop over the deactivate request. -/
def deactLoop (s : Strictness) : List Name → List Name → CM → CM × Bool
  | [], _, cm => (cm, true)
  | n :: t, kept, cm =>
    let ok : Bool := match cm.find n with
      | none => false
      | some c => decide (c.lc = .active) && cm.checkPreceding c
    if ok then deactLoop s t (kept ++ [n]) cm
    else match s with
      | .strict => (cm, false)
      | .bestEffort => deactLoop s t kept { cm with sw := { cm.sw with deact := kept ++ t } }
      | .other => deactLoop s t (kept ++ [n]) cm

/-- cm.cpp:2189-2319: one controller of the loop that restarts controllers whose chained mode changes,
resolves conflicts, and collects the command interfaces. `none`: STRICT conflict. -/
def conflictOne (s : Strictness) (cm : CM) (c : Ctl) : Option CM :=
  let n := c.name
  -- restart controllers that need to switch their chained mode
  let restart := decide (n ∈ cm.sw.toCh ∨ n ∈ cm.sw.fromCh) && decide (c.lc = .active) && !decide (n ∈ cm.sw.deact)
  let deact1 := if restart then cm.sw.deact ++ [n] else cm.sw.deact
  let act1 := if restart then cm.sw.act ++ [n] else cm.sw.act
  let inDeact := decide (n ∈ deact1)
  let inAct := decide (n ∈ act1)
  let doubleStop := decide (c.lc ≠ .active) && inDeact
  if doubleStop = true ∧ s = .strict then none
  else
    let deact2 := if doubleStop then removeItem deact1 n else deact1
    let inDeact2 := inDeact && !doubleStop
    let dblAct := decide (c.lc = .active) && !inDeact2 && inAct
    if dblAct = true ∧ s = .strict then none
    else
      let act2 := if dblAct then removeItem act1 n else act1
      let inAct2 := inAct && !dblAct
      let illegal := decide (c.lc ≠ .inactive) && !inDeact2 && inAct2
      if illegal = true ∧ s = .strict then none
      else
        let act3 := if illegal then removeItem act2 n else act2
        let inAct3 := inAct2 && !illegal
        some { cm with
          sw := { cm.sw with
            deact := deact2, act := act3
            actItf := if inAct3 then cm.sw.actItf ++ cm.extract c else cm.sw.actItf
            deactItf := if inDeact2 then cm.sw.deactItf ++ cm.extract c else cm.sw.deactItf }
          rm := if inAct3 then cm.rm.cacheController n (cm.cmdItfs c ++ cm.stateItfs c) else cm.rm }

/-- cm.cpp:2189-2319: the whole loop, over the controller list. The `Bool` is false on a STRICT
conflict, in which case the request lists are cleared (2232-2249). -/
def conflictLoop (s : Strictness) : List Ctl → CM → CM × Bool
  | [], cm => (cm, true)
  | c :: t, cm =>
    match cm.conflictOne s c with
    | none => ({ cm with sw := cm.sw.cleared }, false)
    | some cm' => conflictLoop s t cm'

/-- cm.cpp:4326-4349: command interfaces that will be free once `deact` are stopped; `none` when a
controller is unknown. -/
def futureAvailable (cm : CM) : List Name → Option (List Itf)
  | [] => some []
  | n :: t =>
    match cm.find n with
    | none => none
    | some c =>
      let l := match c.cfg.cmd with
        | .individual l => l
        | _ => c.claimedInfo
      (cm.futureAvailable t).map (l ++ ·)

/-- cm.cpp:4374-4409: the command interfaces of one controller to activate; accumulates
`future_unavailable_cmd_interfaces`. Result: `none` means an error. The second component reports an
escaping exception of `command_interface_is_claimed`. -/
def availCmd (rm : RM) (future : List Itf) : List Itf → List Itf → Option (List Itf) × Bool
  | used, [] => (some used, false)
  | used, i :: t =>
    if i ∉ rm.availC then (none, false)
    else match rm.isClaimed i with
      | none => (none, true)
      | some cl =>
        if cl = true ∧ i ∉ future then (none, false)
        else if i ∈ used then (none, false)
        else availCmd rm future (used ++ [i]) t

/-- cm.cpp:4350-4422: the controllers to activate. -/
def availLoop (cm : CM) (future : List Itf) (deact : List Name) : List Itf → List Name → Bool × Bool
  | _, [] => (true, false)
  | used, n :: t =>
    if n ∈ deact then cm.availLoop future deact used t
    else match cm.find n with
      | none => (false, false)
      | some c =>
        match availCmd cm.rm future used (cm.cmdItfs c) with
        | (none, f) => (false, f)
        | (some used', _) =>
          if ∀ i ∈ cm.stateItfs c, i ∈ cm.rm.availS then cm.availLoop future deact used' t
          else (false, false)

/-- cm.cpp:4321-4424 `check_for_interfaces_availability_to_activate`: (OK, exception escaped). -/
def checkAvailability (cm : CM) : Bool × Bool :=
  match cm.futureAvailable cm.sw.deact with
  | none => (false, false)
  | some future => cm.availLoop future cm.sw.deact [] cm.sw.act

/-- cm.cpp:2348-2358: `prepare_for_deactivation` of every controller to deactivate
(controller_interface_base.cpp:426-430). -/
def prepareDeact (cm : CM) (l : List Name) : CM :=
  l.foldl (fun cm n => cm.modify n (fun c => { c with skipAsync := true })) cm

/-- Outcome of the synchronous part of `switch_controller`: finished, or waiting for the RT loop. -/
inductive SwOut | done (r : Ret) | wait
deriving DecidableEq, Repr

/-- `clear_requests` (cm.cpp:1837-1848) -/
def clear (cm : CM) : CM := { cm with sw := cm.sw.cleared }

/-- cm.cpp:2034-2386: everything after the two request lists have been set up. -/
def validate (o : Oracle) (cm : CM) (s : Strictness) (asap : Bool) : CM × SwOut :=
  let cm1 := cm.propagate cm.ctls
  let r1 := actLoop s cm1.sw.act [] cm1
  if r1.2 = false then (r1.1.clear, .done .error)
  else
    let r2 := deactLoop s r1.1.sw.deact [] r1.1
    if r2.2 = false then (r2.1.clear, .done .error)
    else if r2.1.sw.act = [] ∧ r2.1.sw.deact = [] then (r2.1.clear, .done .ok)
    else
      let r3 := conflictLoop s r2.1.ctls r2.1
      if r3.2 = false then (r3.1, .done .error)
      else if r3.1.sw.act = [] ∧ r3.1.sw.deact = [] then (r3.1.clear, .done .ok)
      else
        match r3.1.checkAvailability with
        | (false, false) => (r3.1.clear, .done .error)
        | (false, true) => (r3.1.clear.faulted, .done .error)
        | (true, _) =>
          let cm4 := r3.1.prepareDeact r3.1.sw.deact
          let p : RM × Bool :=
            if cm4.sw.actItf = [] ∧ cm4.sw.deactItf = [] then (cm4.rm, true)
            else cm4.rm.prepareSwitch o cm4.sw.actItf cm4.sw.deactItf
          let cm5 : CM := { cm4 with rm := p.1 }
          if p.2 = false then (cm5.clear, .done .error)
          else
            ({ cm5 with sw := { cm5.sw with strict := s, asap := asap, ready := false, doSwitch := true },
                        pending := true }, .wait)

/-- cm.cpp:1860-2386: `switch_controller` up to the point where it waits for the real-time loop. -/
def switchBegin (o : Oracle) (cm : CM) (act deact : List Name) (s : Strictness) (asap : Bool) :
    CM × SwOut :=
  let sw0 := { cm.sw with doSwitch := false, asap := false, ready := false, strict := .other }
  match cm.listControllers s deact with
  | none => ({ cm with sw := { sw0 with deact := [] } }, .done .error)
  | some d =>
    match cm.listControllers s act with
    | none => ({ cm with sw := { sw0 with deact := [], act := [] } }, .done .error)
    | some a => ({ cm with sw := { sw0 with deact := d, act := a } } : CM).validate o s asap

/-- cm.cpp:334-431 `evaluate_switch_result`: one controller. -/
def evalOne (cm : CM) (c : Ctl) : Ctl :=
  { c with claimedInfo := if c.lc = .active then cm.cmdItfs c else [] }

/-- cm.cpp:334-431: the result. -/
def evalResult (cm : CM) : Ret :=
  if cm.ctls.all (fun c =>
      !(decide (c.name ∈ cm.sw.act ∧ c.lc ≠ .active)) &&
      !(decide (c.name ∈ cm.sw.deact ∧ c.name ∉ cm.sw.act ∧ c.lc = .active))) then .ok
  else .error

/-- cm.cpp:2428-2444: evaluation and clean-up at the end of `switch_controller`. -/
def switchFinish (cm : CM) : CM × Ret :=
  (({ cm with ctls := cm.ctls.map cm.evalOne, pending := false } : CM).clear, cm.evalResult)

/-- cm.cpp:2388-2426: the waiting call makes progress: asap: the RT loop has finished; otherwise the RT
loop is ready and the service thread performs the switch itself. `none`: still waiting. -/
def switchWake (o : Oracle) (cm : CM) : CM × Option Ret :=
  if cm.pending = false then (cm, none)
  else if cm.sw.asap then
    if cm.sw.doSwitch then (cm, none)
    else let r := cm.switchFinish; (r.1, some r.2)
  else if cm.sw.ready then
    let r := (cm.manageSwitch o).switchFinish
    (r.1, some r.2)
  else (cm, none)

/-- cm.cpp:2392-2402 / 2409-2418: the waiting call times out. -/
def switchTimeout (cm : CM) : CM × Option Ret :=
  if cm.pending then (({ cm with pending := false } : CM).clear, some .error) else (cm, none)

/-! ## Loading, configuring, unloading -/

/-- cm.cpp:1243-1385 `load_controller` and 2447-2532 `add_controller_impl`. The plugin lookup is
assumed to succeed. -/
def load (o : Oracle) (cm : CM) (n : Name) (chainable async : Bool) (cfg : CtlCfg)
    (fallbacks : List Name) : CM × Ret :=
  if cm.pending then (cm, .error)
  else if n ∈ fallbacks then (cm, .error)
  else match cm.find n with
    | some _ => (cm, .error)
    | none =>
      let a := o.ctlCb cm.rm.tr n .init
      let cm1 := cm.push (.ctlCb n .init a)
      if a = .success then
        ({ cm1 with
            ctls := cm1.ctls ++ [{ name := n, chainable, async, cfg, fallbacks, lc := .unconfigured,
                                   held := [], chained := false, claimedInfo := [], group := [],
                                   skipAsync := false }]
            chainKeys := addItem cm1.chainKeys n
            foll := upd cm1.foll n []
            prec := upd cm1.prec n []
            refCache := upd cm1.refCache n []
            stateCache := upd cm1.stateCache n [] }, .ok)
      else (cm1, .error)

/-- cm.cpp:5018-5028 `cleanup_controller_exported_interfaces`. -/
def cleanupExports (cm : CM) (n : Name) : CM :=
  match cm.find n with
  | none => cm
  | some c =>
    if c.lc ≠ .active ∧ c.chainable = true then
      let gone := ((cm.rm.expR n).getD []).filter (fun i => decide (cm.rm.claimed i = some true))
      { cm with rm := (cm.rm.removeExportedState n).removeReference n, dropped := cm.dropped ++ gone }
    else cm

/-- cm.cpp:1484-1508 `cleanup_controller(spec)`. -/
def cleanupSpec (o : Oracle) (cm : CM) (n : Name) : CM × Bool :=
  let cm1 := (cm.cleanupExports n).trigger o n .cleanup
  (cm1, decide (cm1.lcOf n = some .unconfigured))

/-- cm.cpp:1510-1557 `cleanup_controller(name)`. -/
def cleanup (o : Oracle) (cm : CM) (n : Name) : CM × Ret :=
  if cm.pending then (cm, .error)
  else match cm.find n with
  | none => (cm, .error)
  | some c =>
    match c.lc with
    | .unconfigured => (cm, .ok)
    | .active => (cm, .error)
    | .finalized => (cm, .error)
    | _ => let r := cm.cleanupSpec o n; (r.1, if r.2 then .ok else .error)

/-- cm.cpp:148-175 `controller_chain_spec_cleanup`. -/
def chainCleanup (cm : CM) (n : Name) : CM :=
  let fs := cm.foll n
  let ps := cm.prec n
  let prec1 := fs.foldl (fun (p : Name → List Name) f => upd p f (removeItem (p f) n)) cm.prec
  let foll1 := ps.foldl (fun (p : Name → List Name) f => upd p f (removeItem (p f) n)) cm.foll
  { cm with chainKeys := (addItems (addItem cm.chainKeys n) (fs ++ ps)).filter (· ≠ n)
            foll := upd foll1 n []
            prec := upd prec1 n [] }

/-- cm.cpp:1415-1482 `unload_controller`. -/
def unload (o : Oracle) (cm : CM) (n : Name) : CM × Ret :=
  if cm.pending then (cm, .error)
  else match cm.find n with
  | none => (cm, .error)
  | some c =>
    if c.lc = .active then (cm, .error)
    else
      let r := cm.cleanup o n
      if r.2 ≠ .ok then (r.1, .error)
      else
        let cm1 := (r.1.chainCleanup n).trigger o n .shutdown
        -- destroying the controller object destroys its loans
        let cm2 := cm1.releaseItfs n
        ({ cm2 with ctls := cm2.ctls.filter (fun c => c.name ≠ n) }, .ok)

/-- cm.cpp:4891-4964 `build_controllers_topology_info`: one controller's command interface. -/
def topoCmd (c : Name) (cm : CM) (i : Itf) : CM :=
  match cm.chainedTo i with
  | none => cm
  | some f => { cm with foll := upd cm.foll c (addItem (cm.foll c) f.name)
                        prec := upd cm.prec f.name (addItem (cm.prec f.name) c)
                        refCache := upd cm.refCache f.name (addItem (cm.refCache f.name) c) }

/-- cm.cpp:4936-4948: one controller's state interface. -/
def topoState (c : Name) (cm : CM) (i : Itf) : CM :=
  match cm.chainedTo i with
  | none => cm
  | some f => { cm with prec := upd cm.prec c (addItem (cm.prec c) f.name)
                        foll := upd cm.foll f.name (addItem (cm.foll f.name) c)
                        stateCache := upd cm.stateCache f.name (addItem (cm.stateCache f.name) c) }

/-- cm.cpp:4891-4964: one controller. -/
def topoOne (cm : CM) (c : Ctl) : CM :=
  if c.lc = .unconfigured then cm
  else (cm.stateItfs c).foldl (topoState c.name) ((cm.cmdItfs c).foldl (topoCmd c.name) cm)

/-- cm.cpp:4891-4964 `build_controllers_topology_info`. Only loaded controllers' names occur as keys
(`chainKeys` is the list of loaded names), so clearing every entry is clearing the functions. -/
def topology (cm : CM) : CM :=
  cm.ctls.foldl topoOne
    { cm with foll := fun _ => [], prec := fun _ => [], refCache := fun _ => [], stateCache := fun _ => [] }

/-- Iteration order of the unordered map: any enumeration `ord` of the keys, completed if necessary. -/
def keyOrder (cm : CM) (ord : List Name) : List Name :=
  addItems [] (ord.filter (fun k => decide (k ∈ cm.chainKeys)) ++ cm.chainKeys)

/-- cm.cpp:1766-1832: reorder the controllers and store the chain groups. -/
def reorder (cm : CM) (ord : List Name) : CM :=
  let keys := cm.keyOrder ord
  let names := Chain.orderAll cm.foll cm.prec (keys.length + 1) keys
  let sorted := names.filterMap cm.find
  { cm with ctls := sorted.map (fun c =>
      if c.name ∈ keys then { c with group := Chain.group cm.foll cm.prec keys c.name } else c) }

/-- cm.cpp:1596-1835 `configure_controller`. `cfg` is what the controller answers from now on; `ord` the
iteration order of `controller_chain_spec_`; `rateOk = false` models the early returns of
`ControllerInterfaceBase::configure` (controller_interface_base.cpp:202-206, 261-267). -/
def configure (o : Oracle) (cm : CM) (n : Name) (cfg : CtlCfg) (ord : List Name) (rateOk : Bool) :
    CM × Ret :=
  if cm.pending then (cm, .error)
  else match cm.find n with
  | none => (cm, .error)
  | some c =>
    if c.lc = .active ∨ c.lc = .finalized then (cm, .error)
    else
      let r0 : CM × Bool := if c.lc = .inactive then cm.cleanupSpec o n else (cm, true)
      if r0.2 = false then (r0.1, .error)
      else
        let cm1 := (r0.1.cleanupExports n).modify n (fun c => { c with cfg := cfg })
        let cm2 := if rateOk then cm1.trigger o n .configure else cm1
        if cm2.lcOf n ≠ some .inactive then (cm2, .error)
        else
          let ex : CM × Bool :=
            if c.chainable then
              match cfg.exports with
              | none => ((cm2.cleanupSpec o n).1, false)
              | some (ss, rs) =>
                if ss = [] ∧ rs = [] then ((cm2.cleanupSpec o n).1, false)
                else match cm2.rm.importReference n rs with
                  | (rm1, false) => (({ cm2 with rm := rm1 } : CM).faulted, false)
                  | (rm1, true) =>
                    let cm3 : CM := { cm2 with rm := rm1.importExportedState n ss }
                    ((cm3.setChained o n false).exportsUnavailable n, true)
            else (cm2, true)
          if ex.2 = false then (ex.1, .error)
          else
            match ex.1.find n with
            | none => (ex.1, .error)
            | some c1 =>
              if ¬ (ex.1.cmdItfs c1).Nodup ∨ ¬ (ex.1.stateItfs c1).Nodup then
                ((ex.1.cleanupSpec o n).1, .error)
              else ((ex.1.topology).reorder ord, .ok)

/-! ## The real-time loop -/

/-- Controllers recorded for the failed hardware components (cm.cpp:3293-3298, 3615-3620). -/
def cachedControllers (cm : CM) (failed : List Name) : List Name := failed.flatMap cm.rm.usedBy

/-- cm.cpp:3283-3318 `read`. -/
def rtRead (o : Oracle) (sched : Name → RM.Sched) (cm : CM) : CM :=
  let r := cm.rm.read o sched
  let cm1 : CM := { cm with rm := r.1 }
  if r.2.result ≠ .ok then
    let l := cm1.cachedControllers r.2.failed
    (cm1.modeChange o [] l).deactivateAll o l
  else cm1

/-- cm.cpp:3606-3683 `write`. -/
def rtWrite (o : Oracle) (sched : Name → RM.Sched) (cm : CM) : CM :=
  let r := cm.rm.write o sched
  let cm1 : CM := { cm with rm := r.1 }
  match r.2.result with
  | .ok => cm1
  | .error =>
    let l := cm1.cachedControllers r.2.failed
    (cm1.modeChange o [] l).deactivateAll o l
  | .deactivate =>
    let l := (cm1.cachedControllers r.2.failed).filter (fun n =>
      match cm1.find n with
      | none => false
      | some c => decide (cm1.extract c ≠ []))
    (cm1.modeChange o [] l).deactivateAll o l

/-- `SwitchParams::skip_cycle` (controller_manager.hpp:749-756). -/
def skipCycle (cm : CM) (n : Name) : Bool :=
  decide (n ∈ cm.sw.act) || decide (n ∈ cm.sw.deact) || decide (n ∈ cm.sw.toCh) ||
  decide (n ∈ cm.sw.fromCh)

/-- Is `update` of this controller called in this cycle? cm.cpp:3418-3470 and the early return of
`trigger_update` (controller_interface_base.cpp:335-341). -/
def runs (cm : CM) (due : Name → Bool) (c : Ctl) : Bool :=
  !(cm.sw.doSwitch && !cm.sw.asap && cm.skipCycle c.name) &&
  decide (c.lc = .active) &&
  !(cm.sw.doSwitch && c.async && decide (c.name ∈ cm.sw.deact)) &&
  due c.name && !(c.async && c.skipAsync)

/-- cm.cpp:3415-3527: the update loop. Returns the deactivation list and the result of `update`. -/
def updateLoop (o : Oracle) (due : Name → Bool) : List Ctl → CM → List Name → Ret → CM × List Name × Ret
  | [], cm, l, r => (cm, l, r)
  | c :: t, cm, l, r =>
    if cm.runs due c then
      let a := o.ctlUpdate cm.rm.tr c.name
      let cm1 := cm.push (.ctlUpdate c.name a)
      match a with
      | .ret .ok => updateLoop o due t cm1 l r
      | .ret e => updateLoop o due t cm1 (addItems l c.group) e
      | .throws => updateLoop o due t cm1 (addItems l c.group) .error
    else updateLoop o due t cm l r

/-- cm.cpp:285-317 `get_active_controllers_using_command_interfaces_of_controller`. -/
def usersOf (cm : CM) (fb : Name) (acc : List Name) : List Name :=
  match cm.find fb with
  | none => acc
  | some c =>
    (cm.cmdItfs c).foldl (fun acc i =>
      cm.ctls.foldl (fun acc d =>
        if d.lc = .active ∧ i ∈ cm.cmdItfs d then addItem acc d.name else acc) acc) acc

/-- cm.cpp:3530-3548: fallback controllers of the failed controllers and the controllers in their way. -/
def fallbackPlan (cm : CM) (failed : List Name) : List Name × List Name :=
  failed.foldl (fun (acc : List Name × List Name) n =>
    match cm.find n with
    | none => acc
    | some c =>
      c.fallbacks.foldl (fun (acc : List Name × List Name) fb =>
        (addItem acc.1 fb, cm.usersOf fb acc.2)) acc) ([], [])

/-- cm.cpp:3528-3581: react to failed updates. -/
def handleFailed (o : Oracle) (cm : CM) (failed : List Name) : CM :=
  if failed = [] then cm
  else
    let plan := cm.fallbackPlan failed
    let l := addItems failed plan.2
    let cm1 := (cm.modeChange o plan.1 l).deactivateAll o l
    if plan.1 = [] then cm1 else cm1.activateAll o plan.1 .strict

/-- cm.cpp:3380-3604 `update`. `due` says which controllers are due in this cycle, `lock` whether
`manage_switch` gets the switch mutex. -/
def rtUpdate (o : Oracle) (due : Name → Bool) (lock : Bool) (cm : CM) : CM × Ret :=
  let r := updateLoop o due cm.ctls cm [] .ok
  let cm1 := r.1.handleFailed o r.2.1
  let cm2 :=
    if cm1.sw.doSwitch then
      if cm1.sw.asap then (if lock then cm1.manageSwitch o else cm1)
      else { cm1 with sw := { cm1.sw with ready := true } }
    else cm1
  (cm2, r.2.2)

/-! ## Other services -/

/-- `set_hardware_component_state` service (cm.cpp:3235-3267): forwards to the resource manager. -/
def setHw (o : Oracle) (cm : CM) (h : Name) (target : LState) : CM × Ret :=
  if cm.pending then (cm, .error)
  else let r := cm.rm.setComponentState o h target; ({ cm with rm := r.1 }, r.2)

/-- cm.cpp:622-652 `shutdown_controllers`: one controller. -/
def shutdownOne (o : Oracle) (cm : CM) (n : Name) : CM :=
  let cm1 := if cm.isActive n then (cm.trigger o n .deactivate).releaseItfs n else cm
  if cm1.lcOf n = some .inactive ∨ cm1.lcOf n = some .unconfigured then cm1.trigger o n .shutdown else cm1

/-- cm.cpp:622-652 `shutdown_controllers`. -/
def shutdownAll (o : Oracle) (cm : CM) : CM × Bool :=
  let cm1 := (cm.ctls.map (·.name)).foldl (shutdownOne o) cm
  (cm1, cm1.ctls.all (fun c => decide (c.lc = .finalized)))

end CM
end Verif
