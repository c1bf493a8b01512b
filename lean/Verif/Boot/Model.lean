import Verif.RM.Initial
import Verif.CM.Run
/-!
# Start of the controller manager: waiting for a robot description

The constructor that gets a description (controller_manager.cpp:536-562, the constructor without one passes the empty text), the subscription callback
(774-808), `init_resource_manager` (810-880) and `load_and_initialize_components` with unhandled exceptions (resource_manager.cpp:1529-1621).

Not modelled: the constructor that gets a resource manager; the contents of a description beyond what loading depends on (see C58, C55); the notification
timer; logging; failures while a limiter is initialised.

Each resource manager object has its own plugin instances: `os g` are the answers of the plugins of object number `g`.
-/
namespace Verif.Boot
open Verif (Name RM CM Oracle)

/-- A robot description. -/
structure Desc where
  /-- the text -/
  id : Nat
  /-- the text is empty -/
  empty : Bool := false
  /-- the components; `none`: `parse_control_resources_from_urdf` throws -/
  parsed : Option (List RM.HwSpec)
  /-- the joint limits that are enabled: hardware, joint, limits (resource_manager.cpp:799-810) -/
  limits : List (Name × Name × Nat) := []

/-- Parameters of the controller manager (controller_manager_parameters.yaml). -/
structure Cfg where
  /-- `enforce_command_limits` -/
  enforce : Bool
  /-- `handle_exceptions` -/
  handle : Bool
  /-- `defaults.allow_controller_activation_with_inactive_hardware` -/
  allowInactive : Bool
  /-- `defaults.deactivate_controllers_on_hardware_self_deactivate` -/
  reportDeactivated : Bool
  /-- `hardware_components_initial_state.*` -/
  initial : RM.InitCfg

/-- The state. -/
structure St where
  cm : CM
  /-- `components_are_loaded_and_initialized_` -/
  inited : Bool
  /-- `joint_limiters_interface_`: hardware, joint, limits -/
  lim : List (Name × Name × Nat)
  /-- `robot_description_` of the controller manager: handed to the controllers that are loaded (cm.cpp:2479) -/
  desc : Nat
  /-- `robot_description_` of the resource manager -/
  rmDesc : Nat
  /-- the services are offered -/
  services : Bool
  /-- an exception left the callback or the constructor -/
  dead : Bool
  /-- number of the resource manager object behind `resource_manager_` -/
  gen : Nat
  /-- the real-time thread is inside a function of resource manager object `g` -/
  rt : Option Nat
  /-- the real-time thread used an object after its destruction -/
  uaf : Bool

/-- `std::map::insert` of limiters: the first entry for a joint of a component stays (resource_manager.cpp:799-853). -/
def addLimits (lim : List (Name × Name × Nat)) (new : List (Name × Name × Nat)) : List (Name × Name × Nat) :=
  new.foldl (fun l x => if l.any (fun y => decide (y.1 = x.1 ∧ y.2.1 = x.2.1)) then l else l ++ [x]) lim

/-- `load_and_initialize_components` on the components of a parsed description (resource_manager.cpp:1552-1621): the resource manager and
`components_are_loaded_and_initialized_`. Without `handle_exceptions` a plugin that cannot be created makes `load_hardware` throw
(resource_manager.cpp:227-247): the loop is left with the flag set (1552) and the storage as it is. Simplified: of the exceptions only this one. -/
def loadDesc (handle : Bool) (o : Oracle) (rm : RM) (specs : List RM.HwSpec) : RM × Bool :=
  let pre := specs.takeWhile (·.loads)
  let r := pre.foldl (fun (acc : RM × Bool) s => if acc.2 then acc.1.loadOne o s else acc) (rm, true)
  match specs.drop pre.length with
  | [] => rm.loadAll o specs
  | s :: _ => if handle = false ∧ r.2 = true ∧ ¬ (r.1.comps.any (fun h => h.name = s.name)) then (r.1, true) else rm.loadAll o specs

/-- `init_resource_manager` on an existing resource manager (controller_manager.cpp:827-880). -/
def initRm (os : Nat → Oracle) (cfg : Cfg) (s : St) (d : Desc) : St :=
  if d.empty then s
  else match d.parsed with
    | none =>
      -- with limits the parser throws in `import_joint_limiters` (838-846), else in `load_and_initialize_components`, after the text is stored (1532)
      if cfg.enforce then s else { s with rmDesc := d.id }
    | some specs =>
      let s1 := if cfg.enforce then { s with lim := addLimits s.lim d.limits } else s
      let r := loadDesc cfg.handle (os s.gen) s.cm.rm specs
      { s1 with cm := { s.cm with rm := r.1 }, inited := r.2, rmDesc := d.id }

/-- `set_initial_hardware_components_state` and `init_services` (controller_manager.cpp:799-807, 557-561). -/
def finish (os : Nat → Oracle) (cfg : Cfg) (s : St) (ord gord : List Name) : St :=
  let b := s.cm.rm.bringUp (os s.gen) cfg.initial ord gord
  { s with cm := { s.cm with rm := b.1 }, services := !b.2, dead := b.2 }

/-- The constructor (controller_manager.cpp:536-562), with the resource manager it makes (824-827). -/
def start (os : Nat → Oracle) (cfg : Cfg) (d : Desc) (ord gord : List Name) : St :=
  let s : St := { cm := CM.init (RM.empty cfg.allowInactive cfg.reportDeactivated), inited := false, lim := [], desc := d.id, rmDesc := d.id,
                  services := false, dead := false, gen := 0, rt := none, uaf := false }
  let s1 := initRm os cfg s d
  if s1.inited then finish os cfg s1 ord gord else s1

/-- `robot_description_callback` (controller_manager.cpp:774-808). `ord`, `gord`: the orders of the hash maps, as in `RM.bringUp`. Simplified: no cycle of
the real-time loop runs during the callback (`load_and_initialize_components` holds `resources_lock_`, which `read` and `write` try to take). The fallback resource
manager (795-796) is made without the parameters (resource_manager.cpp:1451-1454; resource_manager_params.hpp). -/
def callback (os : Nat → Oracle) (cfg : Cfg) (s : St) (d : Desc) (ord gord : List Name) : St :=
  let s0 := { s with desc := d.id }
  if s.inited then s0
  else
    let s1 := initRm os cfg s0 d
    if s1.inited = false then
      { s1 with cm := { s1.cm with rm := RM.empty false true }, lim := [], rmDesc := 0, gen := s1.gen + 1 }
    else finish os cfg s1 ord gord

/-- What happens. -/
inductive In
  /-- a message on the topic `robot_description` -/
  | desc (d : Desc) (ord gord : List Name)
  /-- a service call, a phase of the real-time loop, or the shutdown -/
  | op (x : CM.Op)
  /-- the real-time thread enters a function of the resource manager -/
  | rtEnter
  /-- and leaves it -/
  | rtLeave

/-- Does not need a service: the real-time loop runs from the start (ros2_control_node.cpp:129-180), and the shutdown hook. -/
def free : CM.Op → Bool
  | .read _ | .update _ _ | .write _ | .shutdown => true
  | _ => false

/-- One step. -/
def step (os : Nat → Oracle) (cfg : Cfg) (s : St) (i : In) : St :=
  if s.dead then s
  else match i with
    | .desc d ord gord => callback os cfg s d ord gord
    | .op x => if s.services ∨ free x = true then { s with cm := s.cm.step (os s.gen) x } else s
    | .rtEnter => if s.rt = none then { s with rt := some s.gen } else s
    | .rtLeave => { s with rt := none, uaf := s.uaf || decide (s.rt ≠ none ∧ s.rt ≠ some s.gen) }

/-- A history. -/
def run (os : Nat → Oracle) (cfg : Cfg) (s : St) (is : List In) : St := is.foldl (step os cfg) s

/-- The empty text, which the constructor without description passes on (controller_manager.cpp:528-534). -/
def noDesc : Desc := { id := 0, empty := true, parsed := none }

end Verif.Boot
