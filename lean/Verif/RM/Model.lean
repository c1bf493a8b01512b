import Verif.Hw.Component
/-!
# `ResourceManager` / `ResourceStorage` (hardware_interface/src/resource_manager.cpp)

`comps` holds `actuators_`, `sensors_` and `systems_` in loading order (the `kind` field tells the
container), together with each component's entry of `hardware_info_map_`. Exceptions thrown by plugins are answers of the oracle
(`handle_exceptions = true`, the default: they are logged and swallowed). Exceptions thrown by the
resource manager itself outside any `try` and null dereferences are recorded in `fault`.

Not modelled: locks (operations are atomic), values of interfaces, joint limiters
(see `Verif/Num/…`), URDF parsing, `on_component_state_switch_callback_`.
-/
namespace Verif

/-- State of the resource manager. -/
structure RM where
  /-- history of all plugin callbacks, newest first -/
  tr : List Ev
  comps : List Hw
  /-- `available_state_interfaces_`, `available_command_interfaces_` -/
  availS : List Itf
  availC : List Itf
  /-- keys of `state_interface_map_`, `command_interface_map_` -/
  stateKeys : List Itf
  cmdKeys : List Itf
  /-- `claimed_command_interface_map_` -/
  claimed : Itf → Option Bool
  /-- `hw_group_state_` -/
  groupSt : Name → Ret
  /-- `controllers_exported_state_interfaces_map_`, `controllers_reference_interfaces_map_` -/
  expS : Name → Option (List Itf)
  expR : Name → Option (List Itf)
  /-- `hardware_used_by_controllers_` -/
  usedBy : Name → List Name
  /-- `allow_controller_activation_with_inactive_hardware_` -/
  allowInactive : Bool
  /-- `return_failed_hardware_names_on_return_deactivate_write_cycle_` -/
  reportDeactivated : Bool
  /-- an uncaught exception (`map.at`) or a null dereference happened inside the resource manager -/
  fault : Bool

namespace RM

/-- Freshly constructed resource manager (resource_manager.cpp:1476-1510, nothing loaded). -/
def empty (allowInactive reportDeactivated : Bool) : RM where
  tr := []
  comps := []
  availS := []
  availC := []
  stateKeys := []
  cmdKeys := []
  claimed := fun _ => none
  groupSt := fun _ => .ok
  expS := fun _ => none
  expR := fun _ => none
  usedBy := fun _ => []
  allowInactive := allowInactive
  reportDeactivated := reportDeactivated
  fault := false

/-- `std::find_if` by name over the component containers (resource_manager.cpp:2336-2340). -/
def findHw (rm : RM) (n : Name) : Option Hw := rm.comps.find? (fun h => h.name = n)

/-- In-place update of a component (components are references in the code). -/
def setHw (rm : RM) (h : Hw) : RM :=
  { rm with comps := rm.comps.map (fun c => if c.name = h.name then h else c) }

/-! ## Interface storage -/

/-- resource_manager.cpp:951-1002 `add_state_interfaces`: an interface whose key exists is skipped. -/
def addStateItfs (rm : RM) : List Itf → RM × List Itf
  | [] => (rm, [])
  | i :: t =>
    if i ∈ rm.stateKeys then rm.addStateItfs t
    else
      let r := ({ rm with stateKeys := rm.stateKeys ++ [i] }).addStateItfs t
      (r.1, i :: r.2)

/-- resource_manager.cpp:1045-1063 with 717-731 `add_command_interfaces`: a duplicate key throws
(`none`), leaving the interfaces inserted so far in the maps. -/
def addCmdItfs (rm : RM) : List Itf → RM × Option (List Itf)
  | [] => (rm, some [])
  | i :: t =>
    if i ∈ rm.cmdKeys then (rm, none)
    else
      let r := ({ rm with
          cmdKeys := rm.cmdKeys ++ [i]
          -- `emplace` does not overwrite an existing entry
          claimed := if rm.claimed i = none then upd rm.claimed i (some false) else rm.claimed
        }).addCmdItfs t
      (r.1, r.2.map (i :: ·))

/-- resource_manager.cpp:1008-1015 `remove_state_interfaces`; dereferencing a missing key is UB. -/
def removeStateItfs (rm : RM) : List Itf → RM
  | [] => rm
  | i :: t =>
    ({ rm with
        fault := rm.fault || !(hasItem rm.stateKeys i)
        stateKeys := rm.stateKeys.filter (· ≠ i) }).removeStateItfs t

/-- resource_manager.cpp:1177-1185 `remove_command_interfaces`. -/
def removeCmdItfs (rm : RM) : List Itf → RM
  | [] => rm
  | i :: t =>
    ({ rm with
        fault := rm.fault || !(hasItem rm.cmdKeys i)
        cmdKeys := rm.cmdKeys.filter (· ≠ i)
        claimed := upd rm.claimed i none }).removeCmdItfs t

/-! ## Interfaces exported by chainable controllers -/

/-- resource_manager.cpp:1691-1697. -/
def importExportedState (rm : RM) (c : Name) (is : List Itf) : RM :=
  let r := rm.addStateItfs is
  { r.1 with expS := upd r.1.expS c (some r.2) }

/-- resource_manager.cpp:1757-1764; `false` is the exception of `add_command_interfaces`
(the reference map keeps its previous content). -/
def importReference (rm : RM) (c : Name) (is : List Itf) : RM × Bool :=
  match rm.addCmdItfs is with
  | (rm', some names) => ({ rm' with expR := upd rm'.expR c (some names) }, true)
  | (rm', none) => (rm', false)

/-- resource_manager.cpp:1707-1714; a missing controller entry makes `.at` throw. -/
def exportedStateAvailable (rm : RM) (c : Name) : RM :=
  match rm.expS c with
  | some l => { rm with availS := addItems rm.availS l }
  | none => { rm with fault := true }

/-- resource_manager.cpp:1717-1736. -/
def exportedStateUnavailable (rm : RM) (c : Name) : RM :=
  match rm.expS c with
  | some l => { rm with availS := removeItems rm.availS l }
  | none => { rm with fault := true }

/-- resource_manager.cpp:1774-1781. -/
def referenceAvailable (rm : RM) (c : Name) : RM :=
  match rm.expR c with
  | some l => { rm with availC := addItems rm.availC l }
  | none => { rm with fault := true }

/-- resource_manager.cpp:1784-1803. -/
def referenceUnavailable (rm : RM) (c : Name) : RM :=
  match rm.expR c with
  | some l => { rm with availC := removeItems rm.availC l }
  | none => { rm with fault := true }

/-- resource_manager.cpp:1739-1754. The available list is *not* purged. -/
def removeExportedState (rm : RM) (c : Name) : RM :=
  match rm.expS c with
  | none => rm
  | some l => ({ rm with expS := upd rm.expS c none }).removeStateItfs l

/-- resource_manager.cpp:1806-1820. The available list is *not* purged. -/
def removeReference (rm : RM) (c : Name) : RM :=
  match rm.expR c with
  | none => rm
  | some l => ({ rm with expR := upd rm.expR c none }).removeCmdItfs l

/-! ## Claims -/

/-- resource_manager.cpp:1870-1879 `command_interface_is_claimed`; `none` models the exception of
`claimed_command_interface_map_.at(key)`. -/
def isClaimed (rm : RM) (k : Itf) : Option Bool :=
  if k ∈ rm.availC then rm.claimed k else some false

/-- resource_manager.cpp:1882-1902 `claim_command_interface`; `false` models any exception. -/
def claim (rm : RM) (k : Itf) : RM × Bool :=
  if k ∈ rm.availC then
    match rm.claimed k with
    | none => (rm, false)
    | some true => (rm, false)
    | some false => ({ rm with claimed := upd rm.claimed k (some true) }, decide (k ∈ rm.cmdKeys))
  else (rm, false)

/-- resource_manager.cpp:1905-1909 `release_command_interface`. -/
def release (rm : RM) (k : Itf) : RM := { rm with claimed := upd rm.claimed k (some false) }

/-- resource_manager.cpp:1637-1647 `claim_state_interface`: succeeds iff available and present. -/
def claimState (rm : RM) (k : Itf) : Bool := decide (k ∈ rm.availS) && decide (k ∈ rm.stateKeys)

/-! ## Lifecycle of components -/

/-- `hw_group_state_[group] = OK` unless the group is empty. -/
def resetGroup (rm : RM) (g : Option Name) : RM :=
  match g with
  | none => rm
  | some g => { rm with groupSt := upd rm.groupSt g .ok }

/-- resource_manager.cpp:393-442 `remove_all_hardware_interfaces_from_available_list`. -/
def removeAvail (rm : RM) (h : Hw) : RM :=
  { rm with availC := removeItems rm.availC h.cmdItfs, availS := removeItems rm.availS h.stateItfs }

/-- resource_manager.cpp:304-391 `configure_hardware`. -/
def configureHw (o : Oracle) (rm : RM) (h : Hw) : RM × Hw × Bool :=
  let r := h.configure o rm.tr
  let rm1 := { rm.setHw r.1 with tr := r.2 }
  let ok := decide (r.1.lc = .inactive)
  let rm2 := if ok then
      { rm1 with availS := addItems rm1.availS h.stateItfs, availC := addItems rm1.availC h.cmdItfs }
    else rm1
  (rm2.resetGroup h.group, r.1, ok)

/-- resource_manager.cpp:446-480 `cleanup_hardware`. -/
def cleanupHw (o : Oracle) (rm : RM) (h : Hw) : RM × Hw × Bool :=
  let r := h.cleanup o rm.tr
  let rm1 := { rm.setHw r.1 with tr := r.2 }
  let ok := decide (r.1.lc = .unconfigured)
  let rm2 := if ok then rm1.removeAvail h else rm1
  (rm2.resetGroup h.group, r.1, ok)

/-- resource_manager.cpp:482-520 `shutdown_hardware` (group reset only on success). -/
def shutdownHw (o : Oracle) (rm : RM) (h : Hw) : RM × Hw × Bool :=
  let r := h.shutdown o rm.tr
  let rm1 := { rm.setHw r.1 with tr := r.2 }
  let ok := decide (r.1.lc = .finalized)
  let rm2 := if ok then (rm1.removeAvail h).resetGroup h.group else rm1
  (rm2, r.1, ok)

/-- resource_manager.cpp:522-547 `activate_hardware`. -/
def activateHw (o : Oracle) (rm : RM) (h : Hw) : RM × Hw × Bool :=
  let r := h.activate o rm.tr
  ({ rm.setHw r.1 with tr := r.2 }, r.1, decide (r.1.lc = .active))

/-- resource_manager.cpp:549-581 `deactivate_hardware`. -/
def deactivateHw (o : Oracle) (rm : RM) (h : Hw) : RM × Hw × Bool :=
  let r := h.deactivate o rm.tr
  ({ rm.setHw r.1 with tr := r.2 }, r.1, decide (r.1.lc = .inactive))

/-- `a && b` / `if (result) result = b()` sequencing of two component operations. -/
def andThen (r : RM × Hw × Bool) (f : RM → Hw → RM × Hw × Bool) : RM × Hw × Bool :=
  if r.2.2 then f r.1 r.2.1 else r

/-- resource_manager.cpp:584-682 `ResourceStorage::set_component_state` (the 4x4 table). A target or
current state outside the table leaves `result = false`. -/
def setHwState (o : Oracle) (rm : RM) (h : Hw) (target : LState) : RM × Hw × Bool :=
  match target, h.lc with
  | .unconfigured, .unconfigured => (rm, h, true)
  | .unconfigured, .inactive => rm.cleanupHw o h
  | .unconfigured, .active => andThen (rm.deactivateHw o h) (cleanupHw o)
  | .inactive, .unconfigured => rm.configureHw o h
  | .inactive, .inactive => (rm, h, true)
  | .inactive, .active => rm.deactivateHw o h
  | .active, .unconfigured => andThen (rm.configureHw o h) (activateHw o)
  | .active, .inactive => rm.activateHw o h
  | .active, .active => (rm, h, true)
  | .finalized, .unconfigured => rm.shutdownHw o h
  | .finalized, .inactive => rm.shutdownHw o h
  | .finalized, .active => andThen (rm.deactivateHw o h) (shutdownHw o)
  | .finalized, .finalized => (rm, h, true)
  | _, _ => (rm, h, false)

/-- resource_manager.cpp:2293-2375 `ResourceManager::set_component_state`. `target` is the state after
the label/id resolution of lines 2310-2332 (an unresolved target is `.unknown`). -/
def setComponentState (o : Oracle) (rm : RM) (n : Name) (target : LState) : RM × Ret :=
  match rm.findHw n with
  | none => (rm, .error)
  | some h =>
    let r := rm.setHwState o h target
    (r.1, if r.2.2 then .ok else .error)

/-! ## Read / write cycles -/

/-- What the scheduler does with a component in a cycle: its mutex is taken (`locked`), it is not due
according to its read/write rate (`notDue`), or it runs (resource_manager.cpp:2416-2450). -/
inductive Sched | locked | notDue | run
deriving DecidableEq, Repr

/-- `HardwareReadWriteStatus`. -/
structure Status where
  result : Ret
  failed : List Name
deriving DecidableEq, Repr

/-- resource_manager.cpp:1351-1367 `update_hardware_component_group_state`. -/
def groupUpdate (rm : RM) (g : Option Name) (v : Ret) : RM × Ret :=
  match g with
  | none => (rm, v)
  | some g =>
    let rm' := if v ≠ .ok then { rm with groupSt := upd rm.groupSt g v } else rm
    (rm', rm'.groupSt g)

/-- resource_manager.cpp:2411-2487: one component of the read loop. -/
def readOne (o : Oracle) (sched : Name → Sched) (s : RM × Status) (n : Name) : RM × Status :=
  match s.1.findHw n with
  | none => s
  | some h =>
    if sched n = .locked then s
    else
      let io : Hw × List Ev × IoAns := if sched n = .run then h.read o s.1.tr else (h, s.1.tr, .ret .ok)
      let rm1 := { s.1.setHw io.1 with tr := io.2.1 }
      let g : RM × Ret := match io.2.2 with
        | .throws => (rm1, Ret.error)
        | .ret r => rm1.groupUpdate h.group r
      if g.2 ≠ .ok then
        let e := io.1.error o g.1.tr
        (({ g.1.setHw e.1 with tr := e.2 }).removeAvail h,
         { result := .error, failed := s.2.failed ++ [n] })
      else (g.1, s.2)

/-- Names of the components of one container, in loading order. -/
def ofKind (rm : RM) (k : HwKind) : List Name := (rm.comps.filter (fun h => h.kind = k)).map (·.name)

/-- Order in which `read` visits the components (resource_manager.cpp:2490-2492). -/
def readOrder (rm : RM) : List Name := rm.ofKind .actuator ++ rm.ofKind .sensor ++ rm.ofKind .system

/-- Order in which `write` visits the components (resource_manager.cpp:2600-2601). -/
def writeOrder (rm : RM) : List Name := rm.ofKind .actuator ++ rm.ofKind .system

/-- resource_manager.cpp:2399-2497 `read`: actuators, then sensors, then systems. The early return when
`resources_lock_` is taken (2405-2409) is the schedule in which everything is `locked`. -/
def read (o : Oracle) (sched : Name → Sched) (rm : RM) : RM × Status :=
  rm.readOrder.foldl (readOne o sched) (rm, { result := .ok, failed := [] })

/-- resource_manager.cpp:2511-2598: one component of the write loop. -/
def writeOne (o : Oracle) (sched : Name → Sched) (s : RM × Status) (n : Name) : RM × Status :=
  match s.1.findHw n with
  | none => s
  | some h =>
    if sched n = .locked then s
    else
      let io : Hw × List Ev × IoAns := if sched n = .run then h.write o s.1.tr else (h, s.1.tr, .ret .ok)
      let rm1 := { s.1.setHw io.1 with tr := io.2.1 }
      let g : RM × Ret := match io.2.2 with
        | .throws => (rm1, Ret.error)
        | .ret r => rm1.groupUpdate h.group r
      match g.2 with
      | .error =>
        let e := io.1.error o g.1.tr
        (({ g.1.setHw e.1 with tr := e.2 }).removeAvail h,
         { result := .error, failed := s.2.failed ++ [n] })
      | .deactivate =>
        let r := g.1.setComponentState o n .inactive
        (r.1, { result := .deactivate,
                failed := if s.1.reportDeactivated then s.2.failed ++ [n] else s.2.failed })
      | .ok => (g.1, s.2)

/-- resource_manager.cpp:2500-2604 `write`: actuators, then systems. -/
def write (o : Oracle) (sched : Name → Sched) (rm : RM) : RM × Status :=
  rm.writeOrder.foldl (writeOne o sched)
    (rm, { result := .ok, failed := [] })

/-! ## Command mode switch -/

/-- resource_manager.cpp:95-123 `find_common_hardware_interfaces`: filters the *longer* list. -/
def common (hwItfs list : List Itf) : List Itf :=
  if hwItfs.length < list.length then list.filter (fun i => decide (i ∈ hwItfs))
  else hwItfs.filter (fun i => decide (i ∈ list))

/-- resource_manager.cpp:2073-2150 / 2186-2264: the loop over one container. -/
def modeLoop (o : Oracle) (prep : Bool) (start stop : List Itf) (allow : Bool) :
    List Hw → List Ev → Bool → Bool × List Ev
  | [], tr, ret => (ret, tr)
  | h :: t, tr, ret =>
    let s := common h.cmdItfs start
    let p := common h.cmdItfs stop
    if s = [] ∧ p = [] then modeLoop o prep start stop allow t tr ret
    else if s ≠ [] ∧ h.lc = .inactive ∧ allow = false then (false, tr)
    else if h.lc = .inactive ∨ h.lc = .active then
      let a := o.hwMode tr h.name prep s p
      modeLoop o prep start stop allow t (.hwMode h.name prep s p a :: tr)
        (ret && decide (a = .ret .ok))
    else modeLoop o prep start stop allow t tr false

/-- Both containers (actuators, then systems); resource_manager.cpp:2152-2160 / 2266-2272. -/
def modeSwitch (o : Oracle) (prep : Bool) (rm : RM) (start stop : List Itf) : RM × Bool :=
  let a := modeLoop o prep start stop rm.allowInactive
    (rm.comps.filter (fun h => h.kind = .actuator)) rm.tr true
  let s := modeLoop o prep start stop rm.allowInactive
    (rm.comps.filter (fun h => h.kind = .system)) a.2 true
  ({ rm with tr := s.2 }, a.1 && s.1)

/-- resource_manager.cpp:2015-2160 `prepare_command_mode_switch`. -/
def prepareSwitch (o : Oracle) (rm : RM) (start stop : List Itf) : RM × Bool :=
  if start = [] ∧ stop = [] then (rm, true)
  else if ¬ (∀ i ∈ start ++ stop, i ∈ rm.cmdKeys) then (rm, false)
  else if ¬ (∀ i ∈ start ++ stop, i ∈ rm.availC) then (rm, false)
  else rm.modeSwitch o true start stop

/-- resource_manager.cpp:2172-2290 `perform_command_mode_switch`. -/
def performSwitch (o : Oracle) (rm : RM) (start stop : List Itf) : RM × Bool :=
  if start = [] ∧ stop = [] then (rm, true)
  else rm.modeSwitch o false start stop

/-! ## Which controllers use which hardware -/

/-- resource_manager.cpp:1823-1860 `cache_controller_to_hardware`, one interface: the first component
(in map order, here list order) that has it as command or state interface records the controller. -/
def cacheOne (c : Name) (rm : RM) (i : Itf) : RM :=
  match rm.comps.find? (fun h => decide (i ∈ h.cmdItfs) || decide (i ∈ h.stateItfs)) with
  | none => rm
  | some h => { rm with usedBy := upd rm.usedBy h.name (addItem (rm.usedBy h.name) c) }

def cacheController (rm : RM) (c : Name) (is : List Itf) : RM := is.foldl (cacheOne c) rm

/-! ## Loading -/

/-- What the URDF says about a component and what its plugin exports. -/
structure HwSpec where
  name : Name
  kind : HwKind
  group : Option Name
  /-- the plugin could be loaded by pluginlib (resource_manager.cpp:179-248) -/
  loads : Bool
  exportS : List Itf
  exportC : List Itf
  /-- interfaces declared in the URDF, checked by `validate_storage` -/
  declS : List Itf
  declC : List Itf

/-- resource_manager.cpp:1187-1261 `load_and_initialize_*`; `false` aborts the loading. A duplicate
exported command interface aborts only that component's command import (753-781). -/
def loadOne (o : Oracle) (rm : RM) (s : HwSpec) : RM × Bool :=
  if rm.comps.any (fun h => h.name = s.name) then (rm, false)
  else if s.loads = false then (rm, false)
  else
    let h : Hw := { name := s.name, kind := s.kind, group := s.group,
                    stateItfs := [], cmdItfs := [], lc := .unknown }
    let r := h.init o rm.tr
    let rm1 := { rm with tr := r.2 }
    if r.1.lc = .unconfigured then
      let a := rm1.addStateItfs s.exportS
      let h1 := { r.1 with stateItfs := a.2 }
      if s.kind = .sensor then ({ a.1 with comps := a.1.comps ++ [h1] }, true)
      else
        match a.1.addCmdItfs s.exportC with
        | (rm2, some names) => ({ rm2 with comps := rm2.comps ++ [{ h1 with cmdItfs := names }] }, true)
        | (rm2, none) => ({ rm2 with comps := rm2.comps ++ [h1] }, true)
    else (rm1, false)

/-- resource_manager.cpp:1529-1621 `load_and_initialize_components`; on any failure the storage is
cleared (1331-1345) and the resource manager stays uninitialised. -/
def loadAll (o : Oracle) (rm : RM) (specs : List HwSpec) : RM × Bool :=
  let r := specs.foldl (fun (acc : RM × Bool) s => if acc.2 then acc.1.loadOne o s else acc) (rm, true)
  if r.2 ∧ (∀ s ∈ specs, (∀ i ∈ s.declS, i ∈ r.1.stateKeys) ∧ (∀ i ∈ s.declC, i ∈ r.1.cmdKeys)) then r
  else
    ({ r.1 with comps := [], stateKeys := [], cmdKeys := [], availS := [], availC := [],
                claimed := fun _ => none }, false)

end RM
end Verif
