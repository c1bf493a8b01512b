import Verif.Num.Limits
/-!
# The resource manager's use of the joint limiters

`ResourceManager::enforce_command_limits` (once per cycle, from `ControllerManager::update`) and the limiter bound to each
command interface (`CommandInterface::set_limited_value`, called by `LoanedCommandInterface::set_value`).

Simplified: interfaces are those of kind position, velocity, effort and acceleration (`supported_interfaces`,
resource_manager.cpp:1088-1090) and hold doubles; a joint is a number; the blocking locks of single interfaces are not
modelled (the non-blocking one of `set_value` is); the signs of zeros read by `std::copysign` are given per joint.
-/
namespace Verif.Lim
open Verif (Dbl)

/-- The four kinds of interfaces that are limited. -/
inductive Kind
  | pos
  | vel
  | eff
  | acc
  deriving DecidableEq, Repr

/-- The command of one kind. -/
def Data.get (d : Data) : Kind → Option Dbl
  | .pos => d.pos
  | .vel => d.vel
  | .eff => d.eff
  | .acc => d.acc

/-- Data with one command only (resource_manager.cpp:1109-1124). -/
def Data.single (k : Kind) (v : Dbl) : Data :=
  match k with
  | .pos => { pos := some v }
  | .vel => { vel := some v }
  | .eff => { eff := some v }
  | .acc => { acc := some v }

/-- The part of `ResourceStorage` the limiters use. -/
structure Joints where
  /-- `state_interface_map_`: the value of a state interface, if there is one -/
  state : Nat → Kind → Option Dbl
  /-- `command_interface_map_` -/
  cmd : Nat → Kind → Option Dbl
  /-- `claimed_command_interface_map_` -/
  claimed : Nat → Kind → Bool
  /-- `limiters_data_[joint].actual` -/
  actual : Nat → Data
  /-- `limiters_data_[joint].command` -/
  command : Nat → Data
  /-- `joint_limiters_interface_`: the limiters of each hardware component -/
  hws : List (List (Nat × Limiter))
  /-- `prev_command_` of the limiter of a joint in the n-th hardware component -/
  prev : Nat → Nat → Data

/-- `fill_interface_data` (resource_manager.cpp:864-887): an absent interface leaves the value as it was. -/
def fillOne (itf : Option Dbl) (use : Bool) (old : Option Dbl) : Option Dbl :=
  match itf with
  | none => old
  | some v => if use then some v else none

/-- `update_joint_limiters_data` for one joint (resource_manager.cpp:857-893). -/
def fill (itf : Kind → Option Dbl) (use : Kind → Bool) (old : Data) : Data :=
  { pos := fillOne (itf .pos) (use .pos) old.pos
    vel := fillOne (itf .vel) (use .vel) old.vel
    eff := fillOne (itf .eff) (use .eff) old.eff
    acc := fillOne (itf .acc) (use .acc) old.acc
    jerk := old.jerk }

/-- `set_interface_command` (resource_manager.cpp:900-911). -/
def writeOne (old new : Option Dbl) : Option Dbl :=
  match old, new with
  | some _, some w => some w
  | c, _ => c

/-- `update_joint_limiters_commands` (resource_manager.cpp:895-917). -/
def writeBack (cmd : Nat → Kind → Option Dbl) (j : Nat) (d : Data) : Nat → Kind → Option Dbl :=
  fun j' k => if j' = j then writeOne (cmd j' k) (d.get k) else cmd j' k

/-- Replace the entry of `j`. -/
def put {α : Type} (f : Nat → α) (j : Nat) (a : α) : Nat → α := fun j' => if j' = j then a else f j'

/-- What the limiter of joint `j` is given as actual values. -/
def Joints.reading (s : Joints) (j : Nat) : Data := fill (s.state j) (fun _ => true) (s.actual j)

/-- What the limiter of joint `j` is given as commands. -/
def Joints.asked (s : Joints) (j : Nat) : Data := fill (s.cmd j) (s.claimed j) (s.command j)

/-- A step over the joints: the new state, whether limits were enforced and whether it threw. -/
structure Res where
  s : Joints
  limited : Bool := false
  thrown : Bool := false

/-- The body of `ResourceStorage::enforce_command_limits` for one limiter (resource_manager.cpp:943-950). -/
def enforceOne (i j : Nat) (lim : Limiter) (dt : Rat) (z : Nat → Bool × Bool) (s : Joints) : Res :=
  let o := enforce lim (s.reading j) (s.asked j) (s.prev i j) dt (z j)
  let s1 := { s with
    actual := put s.actual j (s.reading j)
    command := put s.command j (s.asked j)
    prev := put s.prev i (put (s.prev i) j o.prev) }
  if o.thrown then { s := s1, thrown := true }
  else { s := if o.limited then { s1 with cmd := writeBack s1.cmd j o.cmd } else s1, limited := o.limited }

/-- `ResourceStorage::enforce_command_limits` (resource_manager.cpp:932-949): all components that have a limiter for the
joint; the result is the one of the last of them. -/
def jointLoop (j : Nat) (dt : Rat) (z : Nat → Bool × Bool) :
    Nat → List (List (Nat × Limiter)) → Bool → Joints → Res
  | _, [], r, s => { s := s, limited := r }
  | i, ls :: rest, r, s =>
    match ls.lookup j with
    | none => jointLoop j dt z (i + 1) rest r s
    | some lim =>
      let res := enforceOne i j lim dt z s
      if res.thrown then res else jointLoop j dt z (i + 1) rest res.limited res.s

/-- The joints in the order in which the outer loops of `ResourceManager::enforce_command_limits` visit them. -/
def Joints.visits (s : Joints) : List Nat := s.hws.flatten.map (·.1)

/-- The loops of `ResourceManager::enforce_command_limits` (resource_manager.cpp:2386-2395). -/
def allLoop (dt : Rat) (z : Nat → Bool × Bool) : List Nat → Bool → Joints → Res
  | [], r, s => { s := s, limited := r }
  | j :: js, r, s =>
    let res := jointLoop j dt z 0 s.hws false s
    if res.thrown then res else allLoop dt z js (r || res.limited) res.s

/-- `ResourceManager::enforce_command_limits` (resource_manager.cpp:2378-2396); `locked`: `try_to_lock` succeeded. -/
def enforceAll (locked : Bool) (dt : Rat) (z : Nat → Bool × Bool) (s : Joints) : Res :=
  if locked then allLoop dt z s.visits false s else { s := s }

/-! ## Setting one command interface -/

/-- The limiter bound to the interfaces of joint `j`: each component with a limiter for it overwrites the binding
(resource_manager.cpp:1072-1165), with its index. -/
def bound (j : Nat) : Nat → List (List (Nat × Limiter)) → Option (Nat × Limiter)
  | _, [] => none
  | i, ls :: rest =>
    match bound j (i + 1) rest with
    | some b => some b
    | none => (ls.lookup j).map (fun l => (i, l))

/-- The result of asking the bound limiter. -/
structure Asked where
  s : Joints
  val : Dbl
  thrown : Bool := false

/-- `limiter_fn` (resource_manager.cpp:1102-1163), the identity if nothing is bound (handle.hpp:783-788); `dt` is
`1 / update_rate`. -/
def limiterFn (j : Nat) (k : Kind) (dt : Rat) (z : Nat → Bool × Bool) (v : Dbl) (s : Joints) : Asked :=
  match bound j 0 s.hws with
  | none => { s := s, val := v }
  | some (i, lim) =>
    let o := enforce lim (fill (s.state j) (fun _ => true) {}) (Data.single k v) (s.prev i j) dt (z j)
    { s := { s with prev := put s.prev i (put (s.prev i) j o.prev) }
      val := (o.cmd.get k).getD v, thrown := o.thrown }

/-- `LoanedCommandInterface::set_value` (loaned_command_interface.hpp:100-116) over `CommandInterface::set_limited_value`
(handle.hpp:722-733): `tries` tells for each attempt made whether the interface could be locked; the limiter is asked anew in
every attempt. -/
def setValue (j : Nat) (k : Kind) (dt : Rat) (z : Nat → Bool × Bool) (v : Dbl) : List Bool → Joints → Res
  | [], s => { s := s }
  | got :: rest, s =>
    let a := limiterFn j k dt z v s
    if a.thrown then { s := a.s, thrown := true }
    else if got then
      { s := { a.s with cmd := fun j' k' => if j' = j ∧ k' = k then writeOne (a.s.cmd j' k') (some a.val) else a.s.cmd j' k' }
        limited := false }
    else setValue j k dt z v rest a.s

end Verif.Lim
