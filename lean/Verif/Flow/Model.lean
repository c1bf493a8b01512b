import Verif.CM.Run
/-!
# The values in the interfaces during one cycle of the real-time loop

`CM.Model` says which callbacks of controllers and hardware components run, in which order; here the callbacks also read
and write the values of the state and command interfaces. What a callback computes is an arbitrary function of the history
and of the values it finds; what it *can* change is fixed by the handles it has:

* a hardware component has the handles it exported, its command and state interfaces (system_interface.hpp:
  `on_export_state_interfaces`/`on_export_command_interfaces`; resource_manager.cpp:684-780 keep the same shared handles);
* a controller has its loaned command interfaces (`command_interfaces_`, controller_interface_base.cpp:287-293), and, if it
  is chainable, the reference and state interfaces it exported (chainable_controller_interface.cpp:50-295). Its state
  interfaces are read-only (`LoanedStateInterface` has no setter, loaned_state_interface.hpp).

Simplifications. A value is one of an arbitrary type `D`; interfaces of different names do not share memory (two old-style
handles could be given the same `double *`). No service call runs callbacks in the middle of the cycle. `LoanedCommandInterface::set_value` gives up when another thread
holds the handle (loaned_command_interface.hpp:100-117; property C38 is about that) and passes the value through the limiter
bound to the handle (handle.hpp:712-733): both are part of "what the callback leaves in the interface". Asynchronous
controllers and components, which write from their own threads, are not covered (C53 and C62 are about them): a callback is
an event of the real-time thread. While controllers are being activated or deactivated, what they hold changes between the
callbacks; there the model lets the callback of a controller write everything it held before and everything it asks for in
its interface configuration (what it is given when it is activated is taken from there, cm.cpp:181-229, 2682-2724).
-/
namespace Verif.Flow
open Verif

/-- The current values of all command and state interfaces (`value_` and `value_ptr_` of `Handle`, handle.hpp:620-633). -/
structure Vals (D : Type) where
  cmd : Itf → D
  st : Itf → D

/-- The user code: what the callback of event `e`, after the history `tr` (newest event first), makes of the values. -/
abbrev Body (D : Type) := List Ev → Ev → Vals D → Vals D

/-- The limiters: what `enforce_command_limits` after the history `tr` makes of the values. -/
abbrev Limiter (D : Type) := List Ev → Vals D → Vals D

/-- The controller a callback belongs to. -/
def ctlName : Ev → Option Name
  | .ctlCb c _ _ => some c
  | .ctlErr c _ => some c
  | .ctlUpdate c _ => some c
  | .ctlChained c _ _ => some c
  | _ => none

/-- Interfaces an interface configuration can ask for, whatever is available (cm.cpp:181-229 `get_command_interfaces_names`). -/
def asks : ItfCfg → Itf → Bool
  | .all, _ => true
  | .individual l, i => decide (i ∈ l)
  | .bestEffort l, i => decide (i ∈ l)
  | .regex pats, i => pats.any (fun p => p i)
  | .none, _ => false

/-- Command interfaces the callback of an event has writable handles of. `switching`: the controllers are being activated or
deactivated (see the simplification above). -/
def mayC (switching : Bool) (cm : CM) (e : Ev) (i : Itf) : Bool :=
  (match e.hwName with
   | some h => cm.rm.comps.any (fun x => decide (x.name = h) && decide (i ∈ x.cmdItfs))
   | none => false) ||
  (match ctlName e with
   | some c => cm.ctls.any (fun x => decide (x.name = c) && (decide (i ∈ x.held) || (switching && asks x.cfg.cmd i))) ||
               decide (i ∈ (cm.rm.expR c).getD [])
   | none => false)

/-- State interfaces the callback of an event has writable handles of. -/
def maySt (cm : CM) (e : Ev) (i : Itf) : Bool :=
  (match e.hwName with
   | some h => cm.rm.comps.any (fun x => decide (x.name = h) && decide (i ∈ x.stateItfs))
   | none => false) ||
  (match ctlName e with
   | some c => decide (i ∈ (cm.rm.expS c).getD [])
   | none => false)

/-- One callback: it sees all values and leaves new ones in the interfaces it has handles of. -/
def one {D} (body : Body D) (switching : Bool) (cm : CM) (tr : List Ev) (e : Ev) (v : Vals D) : Vals D where
  cmd i := if mayC switching cm e i then (body tr e v).cmd i else v.cmd i
  st i := if maySt cm e i then (body tr e v).st i else v.st i

/-- A callback that ran, with the values it found and the values it left. -/
structure Entry (D : Type) where
  ev : Ev
  pre : Vals D
  post : Vals D

/-- The callbacks `es` (oldest first) one after the other. -/
def replay {D} (body : Body D) (switching : Bool) (cm : CM) : List Ev → List Ev → Vals D → Vals D × List (Entry D)
  | _, [], v => (v, [])
  | tr, e :: t, v =>
    let w := one body switching cm tr e v
    let r := replay body switching cm (e :: tr) t w
    (r.1, ⟨e, v, w⟩ :: r.2)

/-- The callbacks that ran between two states of the same history, oldest first. -/
def newEvents (cm cm' : CM) : List Ev := (cm'.rm.tr.take (cm'.rm.tr.length - cm.rm.tr.length)).reverse

/-- The values across one phase of the real-time loop. -/
def phase {D} (body : Body D) (switching : Bool) (cm cm' : CM) (v : Vals D) : Vals D × List (Entry D) :=
  replay body switching cm cm.rm.tr (newEvents cm cm') v

/-- `ResourceManager::enforce_command_limits` (resource_manager.cpp:2378-2397 and 857-949): reads states and commands, writes
commands. -/
def limited {D} (lim : Limiter D) (tr : List Ev) (v : Vals D) : Vals D := { v with cmd := (lim tr v).cmd }

/-- What one cycle of the real-time loop did: the callbacks of each part with the values they saw, and the values between the
parts. -/
structure Cycle (D : Type) where
  /-- `ResourceManager::read` -/
  readLog : List (Entry D)
  /-- the reaction to components that failed in `read` -/
  reactLog : List (Entry D)
  /-- the values at the end of `ControllerManager::read` -/
  afterRead : Vals D
  /-- the loop over the controllers in `ControllerManager::update` -/
  updateLog : List (Entry D)
  afterUpdate : Vals D
  /-- the reaction to failed updates -/
  failedLog : List (Entry D)
  /-- the values left by `enforce_command_limits` -/
  afterLimits : Vals D
  /-- `manage_switch` -/
  switchLog : List (Entry D)
  /-- `ResourceManager::write` -/
  writeLog : List (Entry D)
  /-- the values at the end of the cycle -/
  final : Vals D
  cm : CM

/-- The controller manager after the loop over the controllers, and the controllers to deactivate (cm.cpp:3415-3527). -/
def loopDone (o : Oracle) (due : Name → Bool) (cm : CM) : CM × List Name × Ret := CM.updateLoop o due cm.ctls cm [] .ok

/-- One cycle `read` - `update` - `write` (controller_manager/src/ros2_control_node.cpp:119-131), with values:
`ControllerManager::read` is `ResourceManager::read` and the reaction to failed components (cm.cpp:3283-3318); `update` is the
loop over the controllers, the reaction to failed updates, `enforce_command_limits` and then `manage_switch`
(cm.cpp:3380-3604, in this order: 3415-3527, 3528-3581, 3582, 3584-3595); `write` is `ResourceManager::write` and the reaction
to failed components (cm.cpp:3606-3683). -/
def cycle {D} (o : Oracle) (body : Body D) (lim : Limiter D) (rd wr : Name → RM.Sched) (due : Name → Bool) (lock : Bool)
    (cm : CM) (v : Vals D) : Cycle D :=
  let a0 : CM := { cm with rm := (cm.rm.read o rd).1 }
  let a := cm.rtRead o rd
  let b0 := (loopDone o due a).1
  let b1 := b0.handleFailed o (loopDone o due a).2.1
  let b := (a.rtUpdate o due lock).1
  let c0 : CM := { b with rm := (b.rm.write o wr).1 }
  let c := b.rtWrite o wr
  let p1 := phase body true cm a0 v
  let p2 := phase body true a0 a p1.1
  let p3 := phase body false a b0 p2.1
  let p4 := phase body true b0 b1 p3.1
  let l := limited lim b1.rm.tr p4.1
  let p5 := phase body true b1 b l
  let p6 := phase body true b c0 p5.1
  let p7 := phase body true c0 c p6.1
  { readLog := p1.2, reactLog := p2.2, afterRead := p2.1, updateLog := p3.2, afterUpdate := p3.1, failedLog := p4.2, afterLimits := l,
    switchLog := p5.2, writeLog := p6.2, final := p7.1, cm := c }

end Verif.Flow
