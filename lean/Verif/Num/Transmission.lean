import Mathlib.Algebra.Group.Defs
import Verif.Core.Types
/-!
# transmission_interface: simple, differential and four-bar linkage transmissions

Numbers are elements of any type with the four operations, 0 and 2: an arbitrary field (exact arithmetic, C30) or `double` with IEEE 754 rounding
(C72). Handles are pointers into a memory
`Addr → K`, so that handles may share a cell, as in the code. Interface names are an enumeration of the six names the
library knows plus `other`.
-/
namespace Verif
namespace Transm

/-- The interface names used by the transmissions: HW_IF_POSITION ... HW_IF_FORCE
(hardware_interface/types/hardware_interface_type_values.hpp) and HW_IF_ABSOLUTE_POSITION
(transmission_interface/include/transmission_interface/simple_transmission.hpp:84). -/
inductive Kind
  | position | velocity | effort | torque | force | absPosition
  | other (k : Nat)
  deriving DecidableEq, Repr

/-- `transmission_interface::Handle` (handle.hpp:23-68): prefix name, interface name, value pointer (`none` = nullptr). -/
structure Handle where
  /-- prefix (joint or actuator) name -/
  pre : Name
  /-- interface name -/
  itf : Kind
  /-- `value_ptr_` -/
  ptr : Option Nat
  deriving DecidableEq, Repr

/-- The memory the handles point into. -/
abbrev Mem (K : Type) := Nat → K

/-- `*value_ptr_ = value` (handle.hpp:58-62). -/
def Mem.set {K : Type} (m : Mem K) (x : Nat) (v : K) : Mem K := fun y => if y = x then v else m y

/-! ## accessor.hpp -/

/-- Insertion into the `std::set` of accessor.hpp:47 (ordered, no duplicates). -/
def insName (x : Name) : List Name → List Name
  | [] => [x]
  | y :: t => if x < y then x :: y :: t else if x = y then y :: t else y :: insName x t

/-- `get_names` (accessor.hpp:44-52): the distinct prefix names, sorted. -/
def getNames (l : List Handle) : List Name := l.foldl (fun acc h => insName h.pre acc) []

/-- `get_ordered_handles` (accessor.hpp:54-71), keeping only the pointers (all that is used afterwards). -/
def ordered (l : List Handle) (names : List Name) (k : Kind) : List Nat :=
  names.flatMap fun n => l.filterMap fun h => if h.pre = n ∧ h.itf = k then h.ptr else none

/-! ## SimpleTransmission -/

/-- `SimpleTransmission` (simple_transmission.hpp:86-161): reduction, offset and the value pointers of its handles. -/
structure Simple (K : Type) where
  /-- `reduction_` -/
  red : K
  /-- `jnt_offset_` -/
  off : K
  /-- `joint_position_` ... `joint_absolute_position_` -/
  joint : Kind → Option Nat
  /-- `actuator_position_` ... `actuator_absolute_position_` -/
  act : Kind → Option Nat

section
variable {K : Type}

/-- `get_by_interface` (simple_transmission.hpp:173-185). -/
def byInterface (l : List Handle) (k : Kind) : Option Nat :=
  match l.find? (fun h => h.itf = k) with
  | none => none
  | some h => h.ptr

/-- `are_names_identical` (simple_transmission.hpp:187-195): `std::equal` of the tail with the list. -/
def namesIdentical (l : List Handle) : Bool :=
  (l.map (·.pre)).tail.zip (l.map (·.pre)) |>.all fun p => p.1 = p.2

/-- The six interface names of the simple and the differential transmission. -/
def kinds : List Kind := [.position, .velocity, .effort, .torque, .force, .absPosition]

/-- `SimpleTransmission::configure` (simple_transmission.hpp:197-249); `none` = it throws. -/
def Simple.configure (t : Simple K) (jh ah : List Handle) : Option (Simple K) :=
  if jh = [] then none
  else if ah = [] then none
  else if namesIdentical jh = false then none
  else if namesIdentical ah = false then none
  else if kinds.all (fun k => (byInterface jh k).isNone) then none
  else if kinds.all (fun k => (byInterface ah k).isNone) then none
  else some { t with joint := byInterface jh, act := byInterface ah }

/-- One `if (joint_x_ && actuator_x_) dst.set_value(f(src.get_value()));` block. -/
def one (src dst : Option Nat) (f : K → K) (m : Mem K) : Mem K :=
  match src, dst with
  | some s, some d => m.set d (f (m s))
  | _, _ => m

/-! ## Transmissions with two joints and two actuators -/

/-- The members shared by `DifferentialTransmission` (differential_transmission.hpp:176-193) and
`FourBarLinkageTransmission` (four_bar_linkage_transmission.hpp:171-182). -/
structure Two (K : Type) where
  /-- `actuator_reduction_` -/
  ar0 : K
  ar1 : K
  /-- `joint_reduction_` -/
  jr0 : K
  jr1 : K
  /-- `joint_offset_` -/
  off0 : K
  off1 : K
  /-- `joint_position_` ... -/
  joint : Kind → List Nat
  /-- `actuator_position_` ... -/
  act : Kind → List Nat

/-- Two blocks of lines: both results are computed from the current values of the two sources, the second one after the
first one was stored. -/
def two (src dst : List Nat) (f0 f1 : K → K → K) (m : Mem K) : Mem K :=
  match src, dst with
  | [s0, s1], [d0, d1] =>
    let m1 := m.set d0 (f0 (m s0) (m s1))
    m1.set d1 (f1 (m1 s0) (m1 s1))
  | _, _ => m

/-- The same, the sources being read once at the beginning (`joints_offset_applied`). -/
def twoPre (src dst : List Nat) (f0 f1 : K → K → K) (m : Mem K) : Mem K :=
  match src, dst with
  | [s0, s1], [d0, d1] => (m.set d0 (f0 (m s0) (m s1))).set d1 (f1 (m s0) (m s1))
  | _, _ => m

/-- `DifferentialTransmission::configure` (differential_transmission.hpp:218-429); `none` = it throws. Each kind must have
no handle or exactly two on either side, and one kind must have two on both. -/
def Two.configureDiff (t : Two K) (jh ah : List Handle) : Option (Two K) :=
  if jh = [] then none
  else if ah = [] then none
  else if (getNames jh).length ≠ 2 then none
  else if (getNames ah).length ≠ 2 then none
  else
    let j := ordered jh (getNames jh)
    let a := ordered ah (getNames ah)
    if kinds.any (fun k => j k ≠ [] && (j k).length ≠ 2) then none
    else if kinds.any (fun k => a k ≠ [] && (a k).length ≠ 2) then none
    else if kinds.any (fun k => j k ≠ [] && a k ≠ [] && (j k).length ≠ (a k).length) then none
    else if kinds.any (fun k => j k ≠ [] && a k ≠ [] && (j k).length = (a k).length) = false then none
    else some { t with joint := j, act := a }

/-- `FourBarLinkageTransmission::configure` (four_bar_linkage_transmission.hpp:206-273); `none` = it throws. -/
def Two.configureFour (t : Two K) (jh ah : List Handle) : Option (Two K) :=
  if jh = [] then none
  else if ah = [] then none
  else if (getNames jh).length ≠ 2 then none
  else if (getNames ah).length ≠ 2 then none
  else
    let j := ordered jh (getNames jh)
    let a := ordered ah (getNames ah)
    if (j .position).length ≠ 2 ∧ (j .velocity).length ≠ 2 ∧ (j .effort).length ≠ 2 then none
    else if (a .position).length ≠ 2 ∧ (a .velocity).length ≠ 2 ∧ (a .effort).length ≠ 2 then none
    else if (j .position).length ≠ (a .position).length ∧ (j .velocity).length ≠ (a .velocity).length ∧
        (j .effort).length ≠ (a .effort).length then none
    else some { t with joint := j, act := a }

end

section
variable {K : Type} [Add K] [Sub K] [Mul K] [Div K] [Zero K] [OfNat K 2] [DecidableEq K]

/-- The constructor (simple_transmission.hpp:163-171); `none` = it throws. -/
def Simple.make (red off : K) : Option (Simple K) :=
  if red = 0 then none else some { red := red, off := off, joint := fun _ => none, act := fun _ => none }

/-- `SimpleTransmission::actuator_to_joint` (simple_transmission.hpp:251-283). -/
def Simple.actToJoint (t : Simple K) (m : Mem K) : Mem K :=
  let m := one (t.act .effort) (t.joint .effort) (fun v => v * t.red) m
  let m := one (t.act .velocity) (t.joint .velocity) (fun v => v / t.red) m
  let m := one (t.act .position) (t.joint .position) (fun v => v / t.red + t.off) m
  let m := one (t.act .torque) (t.joint .torque) (fun v => v * t.red) m
  let m := one (t.act .force) (t.joint .force) (fun v => v * t.red) m
  one (t.act .absPosition) (t.joint .absPosition) (fun v => v / t.red + t.off) m

/-- `SimpleTransmission::joint_to_actuator` (simple_transmission.hpp:285-311). -/
def Simple.jointToAct (t : Simple K) (m : Mem K) : Mem K :=
  let m := one (t.joint .effort) (t.act .effort) (fun v => v / t.red) m
  let m := one (t.joint .velocity) (t.act .velocity) (fun v => v * t.red) m
  let m := one (t.joint .position) (t.act .position) (fun v => (v - t.off) * t.red) m
  let m := one (t.joint .torque) (t.act .torque) (fun v => v / t.red) m
  one (t.joint .force) (t.act .force) (fun v => v / t.red) m

/-- Both constructors (differential_transmission.hpp:196-216, four_bar_linkage_transmission.hpp:185-204): the three
vectors must have size 2 and no reduction may be zero. -/
def Two.make (ar jr off : List K) : Option (Two K) :=
  match ar, jr, off with
  | [a0, a1], [j0, j1], [o0, o1] =>
    if a0 = 0 ∨ a1 = 0 ∨ j0 = 0 ∨ j1 = 0 then none
    else some { ar0 := a0, ar1 := a1, jr0 := j0, jr1 := j1, off0 := o0, off1 := o1, joint := fun _ => [], act := fun _ => [] }
  | _, _, _ => none

/-- `DifferentialTransmissionLoader::load` and `FourBarLinkageTransmissionLoader::load`
(differential_transmission_loader.cpp:26-52, four_bar_linkage_transmission_loader.cpp:26-52): the first two actuators' and
joints' `mechanical_reduction` and `offset`, in the order of the description; `at` throws if there are fewer than two and
`load` then returns a null pointer, as it does when the constructor throws. -/
def Two.load (actuators joints : List (K × K)) : Option (Two K) :=
  match actuators, joints with
  | a0 :: a1 :: _, j0 :: j1 :: _ => Two.make [a0.1, a1.1] [j0.1, j1.1] [j0.2, j1.2]
  | _, _ => none

/-- `SimpleTransmissionLoader::load` (simple_transmission_loader.cpp:26-45). -/
def Simple.load (joints : List (K × K)) : Option (Simple K) :=
  match joints with
  | j :: _ => Simple.make j.1 j.2
  | [] => none

/-- `DifferentialTransmission::actuator_to_joint` (differential_transmission.hpp:431-511). -/
def Two.diffActToJoint (t : Two K) (m : Mem K) : Mem K :=
  let m := two (t.act .position) (t.joint .position)
    (fun a0 a1 => (a0 / t.ar0 + a1 / t.ar1) / (2 * t.jr0) + t.off0)
    (fun a0 a1 => (a0 / t.ar0 - a1 / t.ar1) / (2 * t.jr1) + t.off1) m
  let m := two (t.act .velocity) (t.joint .velocity)
    (fun a0 a1 => (a0 / t.ar0 + a1 / t.ar1) / (2 * t.jr0))
    (fun a0 a1 => (a0 / t.ar0 - a1 / t.ar1) / (2 * t.jr1)) m
  let m := two (t.act .effort) (t.joint .effort)
    (fun a0 a1 => t.jr0 * (a0 * t.ar0 + a1 * t.ar1)) (fun a0 a1 => t.jr1 * (a0 * t.ar0 - a1 * t.ar1)) m
  let m := two (t.act .torque) (t.joint .torque)
    (fun a0 a1 => t.jr0 * (a0 * t.ar0 + a1 * t.ar1)) (fun a0 a1 => t.jr1 * (a0 * t.ar0 - a1 * t.ar1)) m
  let m := two (t.act .force) (t.joint .force)
    (fun a0 a1 => t.jr0 * (a0 * t.ar0 + a1 * t.ar1)) (fun a0 a1 => t.jr1 * (a0 * t.ar0 - a1 * t.ar1)) m
  two (t.act .absPosition) (t.joint .absPosition)
    (fun a0 a1 => (a0 / t.ar0 + a1 / t.ar1) / (2 * t.jr0) + t.off0)
    (fun a0 a1 => (a0 / t.ar0 - a1 / t.ar1) / (2 * t.jr1) + t.off1) m

/-- `DifferentialTransmission::joint_to_actuator` (differential_transmission.hpp:513-579). -/
def Two.diffJointToAct (t : Two K) (m : Mem K) : Mem K :=
  let m := twoPre (t.joint .position) (t.act .position)
    (fun j0 j1 => ((j0 - t.off0) * t.jr0 + (j1 - t.off1) * t.jr1) * t.ar0)
    (fun j0 j1 => ((j0 - t.off0) * t.jr0 - (j1 - t.off1) * t.jr1) * t.ar1) m
  let m := two (t.joint .velocity) (t.act .velocity)
    (fun j0 j1 => (j0 * t.jr0 + j1 * t.jr1) * t.ar0) (fun j0 j1 => (j0 * t.jr0 - j1 * t.jr1) * t.ar1) m
  let m := two (t.joint .effort) (t.act .effort)
    (fun j0 j1 => (j0 / t.jr0 + j1 / t.jr1) / (2 * t.ar0)) (fun j0 j1 => (j0 / t.jr0 - j1 / t.jr1) / (2 * t.ar1)) m
  let m := two (t.joint .torque) (t.act .torque)
    (fun j0 j1 => (j0 / t.jr0 + j1 / t.jr1) / (2 * t.ar0)) (fun j0 j1 => (j0 / t.jr0 - j1 / t.jr1) / (2 * t.ar1)) m
  two (t.joint .force) (t.act .force)
    (fun j0 j1 => (j0 / t.jr0 + j1 / t.jr1) / (2 * t.ar0)) (fun j0 j1 => (j0 / t.jr0 - j1 / t.jr1) / (2 * t.ar1)) m

/-- `FourBarLinkageTransmission::actuator_to_joint` (four_bar_linkage_transmission.hpp:275-315). -/
def Two.fourActToJoint (t : Two K) (m : Mem K) : Mem K :=
  let m := two (t.act .position) (t.joint .position)
    (fun a0 _ => a0 / (t.jr0 * t.ar0) + t.off0)
    (fun a0 a1 => (a1 / t.ar1 - a0 / (t.jr0 * t.ar0)) / t.jr1 + t.off1) m
  let m := two (t.act .velocity) (t.joint .velocity)
    (fun a0 _ => a0 / (t.jr0 * t.ar0)) (fun a0 a1 => (a1 / t.ar1 - a0 / (t.jr0 * t.ar0)) / t.jr1) m
  two (t.act .effort) (t.joint .effort)
    (fun a0 a1 => t.jr0 * a0 * t.ar0 + a1 * t.ar1) (fun _ a1 => t.jr1 * a1 * t.ar1) m

/-- `FourBarLinkageTransmission::joint_to_actuator` (four_bar_linkage_transmission.hpp:317-357). -/
def Two.fourJointToAct (t : Two K) (m : Mem K) : Mem K :=
  let m := twoPre (t.joint .position) (t.act .position)
    (fun j0 _ => (j0 - t.off0) * t.jr0 * t.ar0)
    (fun j0 j1 => ((j0 - t.off0) + (j1 - t.off1) * t.jr1) * t.ar1) m
  let m := two (t.joint .velocity) (t.act .velocity)
    (fun j0 _ => j0 * t.jr0 * t.ar0) (fun j0 j1 => (j0 + j1 * t.jr1) * t.ar1) m
  two (t.joint .effort) (t.act .effort)
    (fun j0 j1 => (j0 - j1 / t.jr1) / (t.jr0 * t.ar0)) (fun _ j1 => j1 / (t.ar1 * t.jr1)) m

end
end Transm
end Verif
