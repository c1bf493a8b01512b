import Verif.Spawn.Model
/-!
# The verbs of `ros2 control`

The verbs of `ros2controlcli/ros2controlcli/verb/` that change something, as clients (`Verif.Spawn.Client`) of the controller manager.

Abbreviations: scs = verb/set_controller_state.py, lc = verb/load_controller.py, sw = verb/switch_controllers.py,
ul = verb/unload_controller.py, cl = verb/cleanup_controller.py, shs = verb/set_hardware_component_state.py,
cms = controller_manager/controller_manager/controller_manager_services.py.

Not modelled: argument parsing and completion, output, the verbs that only list, `--switch-timeout` (whose value is passed on as text
when it is given).

A verb that returns a text ends the process with exit code 1 (`sys.exit` of a text), one that returns nothing with 0; an interrupt ends it
with the code 2, and an exception with a code that is not 0 (`ros2cli`, which is not part of the code base). A verb takes no lock.
-/
namespace Verif
namespace Cli
open Spawn

/-- A verb as a client. -/
def verb (p : Prog) : Client := { lock := false, main := p, onInt := .exit 2, early := some 2 }

/-- Call a service and go on when it says OK (scs 59-60, 71-73, 80-81, 101-102; lc 81-86, 96-101, 106-111; ul 36-41; cl 36-41). -/
def must (r : Req) (k : Prog) : Prog := .call r (fun a => if a.ok then k else .exit 1)

/-- The states that can be asked for (scs 36-38; shs 37-39). -/
inductive Goal | unconfigured | inactive | active
deriving DecidableEq, Repr

/-- The lifecycle state of the goal. -/
def Goal.state : Goal → LState
  | .unconfigured => .unconfigured
  | .inactive => .inactive
  | .active => .active

/-- The strictness `True` that scs 78, 99 and lc 104 pass to `switch_controllers` (cms 287-309): it is 1, which is
BEST_EFFORT (SwitchController.srv). -/
def pythonTrue : Strictness := .bestEffort

/-- scs 43-105 `ros2 control set_controller_state n goal` -/
def setState (n : Name) (goal : Goal) : Prog :=
  .call (.lookup n) (fun a =>
    match a.state with
    | none => .exit 1
    | some st =>
      match goal with
      | .unconfigured => if st ≠ .inactive then .exit 1 else must (.cleanup n) (.exit 0)
      | .inactive =>
        if st = .unconfigured then must (.configure n) (.exit 0)
        else if st = .active then must (.switch [n] [] true pythonTrue) (.exit 0)
        else .exit 1
      | .active => if st ≠ .inactive then .exit 1 else must (.switch [] [n] true pythonTrue) (.exit 0))

/-- lc 90-115: what is done after loading; without `--set-state` the verb returns nothing; `--set-state` allows `inactive` and `active`
only (lc 46-51). -/
def afterLoad (n : Name) : Option Goal → Prog
  | none => .exit 0
  | some .active => must (.configure n) (must (.switch [] [n] true pythonTrue) (.exit 0))
  | some _ => must (.configure n) (.exit 0)

/-- lc 54-115 `ros2 control load_controller`; `missing`: a parameter file is given and does not exist (lc 63-67). The parameter file is
treated as by the spawner (cms 478-519). -/
def loadCtl (c : Ctrl) (missing : Bool) (goal : Option Goal) : Prog :=
  .call .list (fun a =>
    if c.name ∈ a.names then afterLoad c.name goal
    else if missing then .exit 1
    else setFiles c (must (.load c.name) (afterLoad c.name goal)))

/-- sw 66-71 and cm.cpp:1907-1925: the strictness of the request, where `strictDefault` is the parameter
`defaults.switch_controller.strictness`. The two options exclude each other. -/
def modeOf (strict bestEffort strictDefault : Bool) : Strictness :=
  if strict then .strict else if bestEffort then .bestEffort else if strictDefault then .strict else .bestEffort

/-- sw 64-86 `ros2 control switch_controllers` -/
def switchCtls (deact act : List Name) (asap : Bool) (mode : Strictness) : Prog :=
  must (.switch deact act asap mode) (.exit 0)

/-- ul 33-45 `ros2 control unload_controller` -/
def unloadCtl (n : Name) : Prog := must (.unload n) (.exit 0)

/-- cl 33-45 `ros2 control cleanup_controller` -/
def cleanupCtl (n : Name) : Prog := must (.cleanup n) (.exit 0)

/-- shs 41-80 `ros2 control set_hardware_component_state` -/
def setHwState (h : Name) (goal : Goal) : Prog := must (.setHw h goal.state) (.exit 0)

end Cli
end Verif
