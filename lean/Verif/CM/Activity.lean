import Verif.CM.HwFrame
import Verif.RM.Fail
/-!
# The activity topic of the controller manager

`~/activity` is a latched topic (`QoS(1).reliable().transient_local()`, cm.cpp:656-658): a subscriber sees the last message.
`CM.published` gives the messages one operation publishes, in their order.

Simplification: the time stamp and the labels of the states are left out (a label is a function of the state); the components
are listed in loading order (in the code, in the order of an unordered map).
-/
namespace Verif

/-- `controller_manager_msgs::msg::ControllerManagerActivity` without the time stamp. -/
structure ActivityMsg where
  controllers : List (Name × LState)
  hardware : List (Name × LState)
deriving DecidableEq, Repr

namespace RM

/-- resource_manager.cpp:2511-2598: does the write loop call `set_component_state` for this component (line 2592)? -/
def writeStops (o : Oracle) (sched : Name → Sched) (s : RM × Status) (n : Name) : Bool :=
  match s.1.findHw n with
  | none => false
  | some h =>
    if sched n = .locked then false
    else
      let io : Hw × List Ev × IoAns := if sched n = .run then h.write o s.1.tr else (h, s.1.tr, .ret .ok)
      let rm1 := { s.1.setHw io.1 with tr := io.2.1 }
      let g : RM × Ret := match io.2.2 with
        | .throws => (rm1, Ret.error)
        | .ret r => rm1.groupUpdate h.group r
      decide (g.2 = .deactivate)

end RM

namespace CM

/-- cm.cpp:4288-4319 `publish_activity`: the message it publishes. -/
def activityMsg (cm : CM) : ActivityMsg :=
  { controllers := cm.ctls.map (fun c => (c.name, c.lc)), hardware := cm.rm.comps.map (fun h => (h.name, h.lc)) }

/-- resource_manager.cpp:2500-2604 and 676-679: the messages of the write loop. The controllers are dealt with after the loop
(cm.cpp:3606-3683), so every message shows them as they were. -/
def writeMsgs (o : Oracle) (sched : Name → RM.Sched) (cm : CM) : List Name → RM × RM.Status → List ActivityMsg
  | [], _ => []
  | n :: t, s =>
    let s1 := RM.writeOne o sched s n
    let rest := cm.writeMsgs o sched t s1
    if RM.writeStops o sched s n then ({ cm with rm := s1.1 } : CM).activityMsg :: rest else rest

/-- The messages published by one operation: `switch_updated_list` (cm.cpp:3754-3769) at the end of a successful
`load_controller` (2525), `configure_controller` (1830), `unload_controller` (1473) and at the end of a `switch_controller`
that did not time out (2438); `set_component_state` of a component that exists (resource_manager.cpp:676-679); an `update` in
which a controller failed (cm.cpp:3579-3580). -/
def published (o : Oracle) (cm : CM) : Op → List ActivityMsg
  | .load n ch as cfg fb => let r := cm.load o n ch as cfg fb; if r.2 = .ok then [r.1.activityMsg] else []
  | .configure n cfg ord rt => let r := cm.configure o n cfg ord rt; if r.2 = .ok then [r.1.activityMsg] else []
  | .cleanup _ => []
  | .unload n => let r := cm.unload o n; if r.2 = .ok then [r.1.activityMsg] else []
  | .switchBegin .. => []
  | .switchWake => let r := cm.switchWake o; if r.2.isSome then [r.1.activityMsg] else []
  | .switchTimeout => []
  | .read _ => []
  | .update due _ =>
    let r := updateLoop o due cm.ctls cm [] .ok
    if r.2.1 = [] then [] else [(r.1.handleFailed o r.2.1).activityMsg]
  | .write sched => cm.writeMsgs o sched cm.rm.writeOrder (cm.rm, { result := .ok, failed := [] })
  | .setHw h t => if cm.pending = false ∧ (cm.rm.findHw h).isSome then [(cm.setHw o h t).1.activityMsg] else []
  | .shutdown => []

/-- The messages of a history, in their order. -/
def topic (o : Oracle) : CM → List Op → List ActivityMsg
  | _, [] => []
  | cm, op :: t => cm.published o op ++ topic o (cm.step o op) t

/-- The state of a hardware component. -/
def hwOf (cm : CM) (n : Name) : Option LState := (cm.rm.findHw n).map (·.lc)

/-! ## Specification -/

/-- The message says, for exactly the loaded controllers and the hardware components, each once, the state they have in `cm`. -/
structure Tells (m : ActivityMsg) (cm : CM) : Prop where
  controllers : ∀ n s, (n, s) ∈ m.controllers ↔ cm.lcOf n = some s
  hardware : ∀ n s, (n, s) ∈ m.hardware ↔ cm.hwOf n = some s
  once : (m.controllers.map (·.1)).Nodup
  onceHw : (m.hardware.map (·.1)).Nodup

/-- Nothing a message shows has changed. -/
def SameStates (a b : CM) : Prop := (∀ n, b.lcOf n = a.lcOf n) ∧ ∀ n, b.hwOf n = a.hwOf n

/-- The operation makes a message that is meant to show its result. -/
def Reports (o : Oracle) (cm : CM) : Op → Prop
  | .load n ch as cfg fb => (cm.load o n ch as cfg fb).2 = .ok
  | .configure n cfg ord rt => (cm.configure o n cfg ord rt).2 = .ok
  | .unload n => (cm.unload o n).2 = .ok
  | .switchWake => (cm.switchWake o).2 ≠ none
  | .setHw h _ => cm.pending = false ∧ cm.hwOf h ≠ none
  | .update due lock => (updateLoop o due cm.ctls cm [] .ok).2.1 ≠ [] ∧ ¬ (cm.sw.doSwitch = true ∧ cm.sw.asap = true ∧ lock = true)
  | _ => False

/-- The operations that can change a state after the last message they make (or without any). -/
def Hides (o : Oracle) (cm : CM) : Op → Prop
  | .cleanup n => cm.pending = false ∧ cm.lcOf n = some .inactive
  | .configure n cfg ord rt => cm.pending = false ∧ (cm.lcOf n = some .unconfigured ∨ cm.lcOf n = some .inactive) ∧
      (cm.configure o n cfg ord rt).2 ≠ .ok
  | .unload n => cm.pending = false ∧ cm.lcOf n = some .inactive ∧ (cm.unload o n).2 ≠ .ok
  | .read sched => (cm.rm.read o sched).2.result ≠ .ok
  | .write sched => (cm.rm.write o sched).2.result ≠ .ok
  | .update _ lock => cm.sw.doSwitch = true ∧ cm.sw.asap = true ∧ lock = true
  | .shutdown => cm.ctls ≠ []
  | _ => False

/-- No operation of the history is one of those. -/
def NoneHidden (o : Oracle) : CM → List Op → Prop
  | _, [] => True
  | cm, op :: t => ¬ Hides o cm op ∧ NoneHidden o (cm.step o op) t

end CM
end Verif
