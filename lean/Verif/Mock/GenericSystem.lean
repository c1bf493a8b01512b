import Verif.Num.Dbl
import Mathlib.Data.List.Infix
/-!
# The mock hardware `mock_components/GenericSystem`

hardware_interface/src/mock_components/generic_system.cpp with the state and command access of
hardware_interface/src/hardware_component_interface.cpp:484-538 and hardware_component_interface.hpp:330-520.

Simplified: an interface is named by the pair of its prefix and interface name instead of `prefix/interface` (the same for interface names
without `/`); arithmetic is exact (`Num/Dbl`); a `get_command`/`get_state`/`set_state` of an interface that does not exist, or has the wrong type,
throws, which ends the call with `thrown`; the order of the vectors of handles (that of hash maps) is part of the configuration and arbitrary.
The command mode switch works on full names.
-/
namespace Verif.Mock
open Verif (Dbl)

/-- `std::string`. -/
abbrev Str := List Char

/-- `HW_IF_POSITION`, `HW_IF_VELOCITY`, `HW_IF_ACCELERATION` (hardware_interface_type_values.hpp:22-26). -/
def position : Str := "position".toList
def velocity : Str := "velocity".toList
def acceleration : Str := "acceleration".toList

/-- The data type of an interface; `other` are the types the mock hardware does not handle. -/
inductive Ty | dbl | bool | other
  deriving DecidableEq, Repr

/-- The name of an interface: prefix and interface name. -/
abbrev Key := Str × Str

/-- A state or command interface. -/
structure Itf where
  key : Key
  ty : Ty
  deriving DecidableEq, Repr

/-- `MimicJoint` (hardware_info.hpp:67-73) with the joint names instead of indices. -/
structure Mimic where
  joint : Str
  mimicked : Str
  multiplier : Dbl
  offset : Dbl
  deriving DecidableEq, Repr

/-- What is fixed by the robot description: the members set in `on_init` (generic_system.cpp:34-151) and the vectors of handles made by
`on_export_*_interfaces` (hardware_component_interface.cpp:274-393). -/
structure Cfg where
  joints : List Str
  jointStates : List Itf
  jointCommands : List Itf
  sensorStates : List Itf
  gpioStates : List Itf
  gpioCommands : List Itf
  unlistedCommands : List Itf
  mimics : List Mimic
  mockSensor : Bool
  mockGpio : Bool
  disabled : Bool
  dynamics : Bool
  offset : Dbl
  custom : Str
  deriving DecidableEq, Repr

/-- The control mode of a joint (generic_system.hpp:34-36). -/
inductive Mode | pos | vel | acc
  deriving DecidableEq, Repr

/-- Values of the handles and the control modes. -/
structure St where
  st : Key → Dbl
  cm : Key → Dbl
  stb : Key → Bool
  cmb : Key → Bool
  modes : List Mode

/-- `return_type`, or an exception. -/
inductive Res | ok | error | thrown
  deriving DecidableEq, Repr

/-- The type of the state interface registered under a name (`insert` keeps the first, hardware_component_interface.cpp:284-316). -/
def Cfg.stTy (c : Cfg) (k : Key) : Option Ty :=
  ((c.jointStates ++ c.sensorStates ++ c.gpioStates).find? (fun i => i.key == k)).map (·.ty)

/-- The type of the command interface registered under a name (hardware_component_interface.cpp:355-391). -/
def Cfg.cmTy (c : Cfg) (k : Key) : Option Ty :=
  ((c.unlistedCommands ++ c.jointCommands ++ c.gpioCommands).find? (fun i => i.key == k)).map (·.ty)

/-- `has_state` (hardware_component_interface.cpp:500-503). -/
def Cfg.hasState (c : Cfg) (k : Key) : Bool := (c.stTy k).isSome

/-- `has_command` (hardware_component_interface.cpp:519-522). -/
def Cfg.hasCommand (c : Cfg) (k : Key) : Bool := (c.cmTy k).isSome

/-- `get_state(name)`: a `bool` is cast, other types throw (hardware_component_interface.hpp:395-401, handle.hpp:527-575). -/
def getSt (c : Cfg) (s : St) (k : Key) : Option Dbl :=
  match c.stTy k with
  | some .dbl => some (s.st k)
  | some .bool => some (if s.stb k then 1 else 0)
  | _ => none

/-- `get_command(name)` (hardware_component_interface.hpp:471-477). -/
def getCm (c : Cfg) (s : St) (k : Key) : Option Dbl :=
  match c.cmTy k with
  | some .dbl => some (s.cm k)
  | some .bool => some (if s.cmb k then 1 else 0)
  | _ => none

/-- Assignment to a state of type `double`. -/
def St.put (s : St) (k : Key) (d : Dbl) : St := { s with st := fun x => if x = k then d else s.st x }

/-- Assignment to a state of type `bool`. -/
def St.putB (s : St) (k : Key) (b : Bool) : St := { s with stb := fun x => if x = k then b else s.stb x }

/-- `set_state(name, double)`: throws for a missing state and for one that is no `double` (handle.hpp:483-488). -/
def setSt (c : Cfg) (k : Key) (d : Dbl) (s : St) : St × Res :=
  match c.stTy k with
  | some .dbl => (s.put k d, .ok)
  | _ => (s, .thrown)

/-- A `for` loop that ends early with an error or an exception. -/
def loop {α : Type} (f : α → St → St × Res) : List α → St → St × Res
  | [], s => (s, .ok)
  | a :: t, s => match (f a s).2 with
    | .ok => loop f t (f a s).1
    | r => ((f a s).1, r)

/-- One statement after another. -/
def andThen (x : St × Res) (f : St → St × Res) : St × Res :=
  match x.2 with
  | .ok => f x.1
  | r => (x.1, r)

/-- `mirror_command_to_state` (generic_system.cpp:339-369). -/
def mirror (c : Cfg) (k : Key) (ty : Ty) (s : St) : St × Res :=
  match ty with
  | .dbl =>
    match getCm c s k with
    | none => (s, .thrown)
    | some v => if v.isInf then (s, .error) else if v.isFinite then setSt c k v s else (s, .ok)
  | .bool =>
    if c.cmTy k = some .bool ∧ c.stTy k = some .bool then (s.putB k (s.cmb k), .ok) else (s, .thrown)
  | .other => (s, .ok)

/-- Position, velocity and acceleration. -/
structure Pva where
  p : Dbl
  v : Dbl
  a : Dbl
  deriving DecidableEq, Repr

/-- The offset added to positions: none if a custom interface carries it (generic_system.cpp:421-423 and others). -/
def Cfg.off (c : Cfg) : Dbl := if c.custom = [] then c.offset else 0

/-- `velocity * period`, or the offset if there is no velocity; `?:` binds weaker than `+` (generic_system.cpp:419-424, 440-445). -/
def moved (off dt v : Dbl) : Dbl := if v.isFinite then v.mul dt else (0 : Dbl).add off

/-- The state of a joint after one period (generic_system.cpp:400-470). -/
def dyn (m : Mode) (off dt : Dbl) (x u : Pva) : Pva :=
  match m with
  | .acc =>
    let v0 := if x.v.isNan then 0 else x.v
    let a := if u.a.isFinite then u.a else x.a
    let v := v0.add (if a.isNan then 0 else a.mul dt)
    { p := x.p.add (moved off dt v), v := v, a := a }
  | .vel =>
    let old := if x.v.isFinite then x.v else 0
    let v := if u.v.isFinite then u.v else x.v
    let a := if u.v.isFinite then (v.sub old).div dt else x.a
    { p := x.p.add (moved off dt v), v := v, a := a }
  | .pos =>
    if u.p.isFinite then
      let old := if x.v.isFinite then x.v else 0
      let p := u.p.add off
      let v := (p.sub x.p).div dt
      { p := p, v := v, a := (v.sub old).div dt }
    else x

/-- The value of one of the three interfaces: NaN if it does not exist, `none` if reading it throws (generic_system.cpp:383-398). -/
def orNan (has : Bool) (x : Option Dbl) : Option Dbl := if has then x else some .nan

/-- "mirror them back": one of the three values (generic_system.cpp:471-480). -/
def back (c : Cfg) (k : Key) (d : Dbl) (s : St) : St × Res :=
  if d.isFinite ∧ c.hasState k = true then setSt c k d s else (s, .ok)

/-- Reading the three values of a joint. -/
def three (j : Str) (get : Key → Option Dbl) (has : Key → Bool) : Option Pva := do
  let p ← orNan (has (j, position)) (get (j, position))
  let v ← orNan (has (j, velocity)) (get (j, velocity))
  let a ← orNan (has (j, acceleration)) (get (j, acceleration))
  pure { p := p, v := v, a := a }

/-- The part of `read` for one joint with dynamics (generic_system.cpp:375-481). -/
def dynJoint (c : Cfg) (dt : Dbl) (jm : Str × Mode) (s : St) : St × Res :=
  match three jm.1 (getSt c s) c.hasState, three jm.1 (getCm c s) c.hasCommand with
  | some x, some u =>
    let y := dyn jm.2 c.off dt x u
    andThen (andThen (back c (jm.1, position) y.p s) (back c (jm.1, velocity) y.v)) (back c (jm.1, acceleration) y.a)
  | _, _ => (s, .thrown)

/-- The mirroring of one position command without dynamics (generic_system.cpp:484-497). -/
def posMirror (c : Cfg) (i : Itf) (s : St) : St × Res :=
  if i.key.2 = position ∧ c.hasState i.key = true then
    match getCm c s i.key with
    | none => (s, .thrown)
    | some v => if v.isFinite then setSt c i.key (v.add c.off) s else (s, .ok)
  else (s, .ok)

/-- The loop over the joints (generic_system.cpp:371-499). `joint_control_mode_[j]` for a joint beyond the end of that vector is undefined
behaviour, here `thrown`; `on_configure` makes the vector as long as the list of joints. -/
def joints (c : Cfg) (dt : Dbl) (s : St) : St × Res :=
  if c.dynamics then
    andThen (loop (dynJoint c dt) (c.joints.zip s.modes) s)
      (fun s' => if s.modes.length < c.joints.length then (s', .thrown) else (s', .ok))
  else loop (fun _ => loop (posMirror c) c.jointCommands) c.joints s

/-- `skip_interfaces_` (generic_system.cpp:86-92). -/
def Cfg.skip (c : Cfg) : List Str := if c.dynamics then [position, velocity, acceleration] else [position]

/-- The custom interface that follows the position command (generic_system.cpp:519-530). -/
def follow (c : Cfg) (i : Itf) (s : St) : St × Res :=
  if c.custom = i.key.2 then
    match getCm c s (i.key.1, position) with
    | none => (s, .thrown)
    | some v => if (v.add c.offset).isFinite then setSt c i.key (v.add c.offset) s else (s, .ok)
  else (s, .ok)

/-- The loopback of one joint interface (generic_system.cpp:502-531). -/
def loopback (c : Cfg) (i : Itf) (s : St) : St × Res :=
  if i.key.2 ∈ c.skip then (s, .ok)
  else andThen (if c.hasCommand i.key then mirror c i.key i.ty s else (s, .ok)) (follow c i)

/-- One of the three values of a mimic joint (generic_system.cpp:539-560). -/
def mimic1 (c : Cfg) (m : Mimic) (itf : Str) (off : Dbl) (s : St) : St × Res :=
  if c.hasState (m.joint, itf) then
    match getSt c s (m.mimicked, itf) with
    | none => (s, .thrown)
    | some v => setSt c (m.joint, itf) (off.add (m.multiplier.mul v)) s
  else (s, .ok)

/-- One mimic joint (generic_system.cpp:535-561). Velocity and acceleration have no offset: adding `0` changes nothing. -/
def mimic (c : Cfg) (m : Mimic) (s : St) : St × Res :=
  andThen (andThen (mimic1 c m position m.offset s) (mimic1 c m velocity 0)) (mimic1 c m acceleration 0)

/-- The mirrors of sensors (generic_system.cpp:563-574). -/
def sensors (c : Cfg) (s : St) : St × Res :=
  if c.mockSensor then loop (fun i => mirror c i.key i.ty) c.sensorStates s else (s, .ok)

/-- The mirrors of gpios (generic_system.cpp:576-602). -/
def gpios (c : Cfg) (s : St) : St × Res :=
  if c.mockGpio then loop (fun i => mirror c i.key i.ty) c.gpioStates s
  else loop (fun i s => if c.hasState i.key then mirror c i.key i.ty s else (s, .ok)) c.gpioCommands s

/-- `read` (generic_system.cpp:331-605). -/
def read (c : Cfg) (dt : Dbl) (s : St) : St × Res :=
  if c.disabled then (s, .ok)
  else
    andThen (andThen (andThen (andThen (joints c dt s) (loop (loopback c) c.jointStates)) (loop (mimic c) c.mimics)) (sensors c)) (gpios c)

/-- The states of one joint state interface when configured (generic_system.cpp:306-324). -/
def configure1 (c : Cfg) (i : Itf) (s : St) : St × Res :=
  if i.ty = .dbl then
    andThen
      (match getSt c s i.key with
        | none => (s, .thrown)
        | some v => if v.isNan then setSt c i.key 0 s else (s, .ok))
      (fun s =>
        if i.key.2 = position ∧ c.custom = [] then
          match getSt c s i.key with
          | none => (s, .thrown)
          | some v => setSt c i.key (v.add c.offset) s
        else (s, .ok))
  else (s, .ok)

/-- `on_configure` (generic_system.cpp:303-329). -/
def configure (c : Cfg) (s : St) : St × Res :=
  andThen (loop (configure1 c) c.jointStates s)
    (fun s => ({ s with modes := s.modes.take c.joints.length ++ List.replicate (c.joints.length - s.modes.length) .pos }, .ok))

/-! ### Command mode switch -/

/-- `prefix/interface`. -/
def full (j itf : Str) : Str := j ++ '/' :: itf

/-- The first joint whose name occurs anywhere in the key (generic_system.cpp:197-200, 275-278). -/
def jointOf (joints : List Str) (key : Str) : Option Nat := joints.findIdx? (fun j => decide (j <:+: key))

/-- The mode a key asks for, if it is a standard interface of the joint (generic_system.cpp:211-222, 284-295). -/
def modeOf (j key : Str) : Option Mode :=
  if key = full j position then some .pos
  else if key = full j velocity then some .vel
  else if key = full j acceleration then some .acc
  else none

/-- Has the joint been named in the request, and how many of the three interfaces of it were (generic_system.cpp:186-231; the flag 1000000 is
the first component). -/
def requests (joints : List Str) (start : List Str) (i : Nat) : Bool × Nat :=
  (start.any (fun key => jointOf joints key == some i),
   start.countP (fun key => jointOf joints key == some i && (joints[i]?.bind (modeOf · key)).isSome))

/-- `prepare_command_mode_switch` (generic_system.cpp:173-258): accepted? -/
def prepare (c : Cfg) (start : List Str) : Bool :=
  !c.dynamics ||
    (List.range c.joints.length).all (fun i =>
      let r := requests c.joints start i
      !(r.1 && r.2 == 0) && !(decide (r.2 > 1)))

/-- One key of `perform_command_mode_switch` (generic_system.cpp:264-300). -/
def perform1 (js : List Str) (modes : List Mode) (key : Str) : List Mode :=
  match jointOf js key with
  | none => modes
  | some i =>
    match js[i]?.bind (modeOf · key) with
    | some m => modes.set i m
    | none => modes

/-- `perform_command_mode_switch` (generic_system.cpp:260-301). -/
def perform (c : Cfg) (start : List Str) (s : St) : St :=
  if c.dynamics then { s with modes := start.foldl (perform1 c.joints) s.modes } else s

/-! ### Histories -/

/-- What happens to the mock hardware between `configure` and the end. -/
inductive Op
  | command (k : Key) (v : Dbl)
  | commandB (k : Key) (b : Bool)
  | read (dt : Dbl)
  | switch (start : List Str)
  deriving DecidableEq, Repr

/-- One step; a rejected mode switch is not performed. The result of `read` is the second component. -/
def step (c : Cfg) (s : St) : Op → St × Res
  | .command k v => ({ s with cm := fun x => if x = k then v else s.cm x }, .ok)
  | .commandB k b => ({ s with cmb := fun x => if x = k then b else s.cmb x }, .ok)
  | .read dt => read c dt s
  | .switch start => if prepare c start then (perform c start s, .ok) else (s, .ok)

/-- A history, as long as every step succeeds. -/
def run (c : Cfg) : List Op → St → St × Res := loop (fun op s => step c s op)

end Verif.Mock
