import Verif.RM.Run
/-!
# Bring-up of the hardware components at start

`ControllerManager::set_initial_hardware_components_state` (controller_manager.cpp:882-1150). Not modelled: the registration of
statistics at its end and the logging.

The components and the groups are kept in hash maps: in which order they are visited is an input (`ord`, `gord`).
-/
namespace Verif
namespace RM

/-- The parameters `hardware_components_initial_state.*` (controller_manager_parameters.yaml:45-50). Names are never empty in the model (the code skips empty ones). -/
structure InitCfg where
  unconfigured : List Name := []
  inactive : List Name := []
  shutdownOnFailure : Bool := false
  deriving DecidableEq, Repr

/-- `set_components_to_state` (controller_manager.cpp:889-927): the resource manager, the components left to activate, and whether
the function was left by an exception. -/
def initListed (o : Oracle) (strict : Bool) (t : LState) : List Name → RM → List Name → RM × List Name × Bool
  | [], rm, rest => (rm, rest, false)
  | n :: ns, rm, rest =>
    if n ∈ rest then
      let r := rm.setComponentState o n t
      if r.2 = .error ∧ strict = true then (r.1, rest, true)
      else initListed o strict t ns r.1 (rest.filter (· ≠ n))
    else initListed o strict t ns rm rest

/-- The loops that bring the components of a group to a state and stop at the first failure (controller_manager.cpp:996-1014,
1029-1049): those that succeeded, in order, and whether all did. -/
def initAll (o : Oracle) (t : LState) : List Name → RM → RM × List Name × Bool
  | [], rm => (rm, [], true)
  | n :: ns, rm =>
    let r := rm.setComponentState o n t
    if r.2 = .error then (r.1, [], false)
    else
      let q := initAll o t ns r.1
      (q.1, n :: q.2.1, q.2.2)

/-- The rollback of a group (controller_manager.cpp:1051-1070). -/
def initRollback (o : Oracle) (ns : List Name) (rm : RM) : RM :=
  ns.foldl (fun rm n => (rm.setComponentState o n .inactive).1) rm

/-- One group (controller_manager.cpp:985-1071). -/
def initGroup (o : Oracle) (strict : Bool) (ns : List Name) (rm : RM) : RM × Bool :=
  let c := initAll o .inactive ns rm
  if c.2.2 = false then (c.1, strict)
  else
    let a := initAll o .active c.2.1 c.1
    if a.2.2 = false then (if strict then (a.1, true) else (initRollback o a.2.1 a.1, false))
    else (a.1, false)

/-- The components that belong to no group (controller_manager.cpp:1072-1080). -/
def initSingles (o : Oracle) (strict : Bool) : List Name → RM → RM × Bool
  | [], rm => (rm, false)
  | n :: ns, rm =>
    let r := rm.setComponentState o n .active
    if r.2 = .error ∧ strict = true then (r.1, true) else initSingles o strict ns r.1

/-- The loop over the groups (controller_manager.cpp:983-1071). -/
def initGroups (o : Oracle) (strict : Bool) (members : Name → List Name) : List Name → RM → RM × Bool
  | [], rm => (rm, false)
  | g :: gs, rm =>
    let r := initGroup o strict (members g) rm
    if r.2 then r else initGroups o strict members gs r.1

/-- The group of a component (`get_components_status()[name].group`). -/
def groupOf (rm : RM) (n : Name) : Option Name := (rm.findHw n).bind (·.group)

/-- `set_initial_hardware_components_state` (controller_manager.cpp:882-1080): the resource manager afterwards, and whether the
function threw. -/
def bringUp (o : Oracle) (cfg : InitCfg) (ord gord : List Name) (rm : RM) : RM × Bool :=
  let u := initListed o cfg.shutdownOnFailure .unconfigured cfg.unconfigured rm ord
  if u.2.2 then (u.1, true)
  else
    let i := initListed o cfg.shutdownOnFailure .inactive cfg.inactive u.1 u.2.1
    if i.2.2 then (i.1, true)
    else
      let g := initGroups o cfg.shutdownOnFailure (fun g => i.2.1.filter (fun n => rm.groupOf n = some g)) gord i.1
      if g.2 then g
      else initSingles o cfg.shutdownOnFailure (i.2.1.filter (fun n => rm.groupOf n = none)) g.1

end RM
end Verif
