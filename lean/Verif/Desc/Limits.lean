import Verif.Num.Limits
import Verif.Text.Parse
/-!
# The joint limits a robot description gives

`hardware_interface/src/component_parser.cpp`: the checks of mimic joints and the computation of the limits of every joint
from the `<limit>` and `<safety_controller>` tags of the URDF and the `min` and `max` of its command interfaces, and
`ResourceStorage::import_joint_limiters`, which makes the limiters from these.

Simplified: names are numbers, except the five names of interfaces the code compares with; the URDF model (`urdf::Model`,
not part of the repository) is a function from joint names to joints whose numbers are finite (urdfdom rejects others);
`angle_wraparound` is left out (nothing reads it); logging and messages are left out.
-/
namespace Verif.Desc
open Verif (Dbl)
open Verif.Lim (Limits Soft Limiter)

/-! ## The URDF -/

/-- The types of joints the code distinguishes (`urdf::Joint::type`; joint_limits_urdf.hpp:42-43, component_parser.cpp:1075). -/
inductive JType
  | revolute
  | prismatic
  | continuous
  | fixed
  | other
  deriving DecidableEq, Repr

/-- `urdf::JointLimits` (read in joint_limits_urdf.hpp:46-60). -/
structure ULimit where
  lower : Rat
  upper : Rat
  velocity : Rat
  effort : Rat
  deriving DecidableEq, Repr

/-- `urdf::JointSafety` (read in joint_limits_urdf.hpp:78-81). -/
structure USafety where
  lower : Rat
  upper : Rat
  kPos : Rat
  kVel : Rat
  deriving DecidableEq, Repr

/-- `urdf::JointMimic` (read in component_parser.cpp:1068-1070). -/
structure UMimic where
  joint : Nat
  multiplier : Rat
  offset : Rat
  deriving DecidableEq, Repr

/-- `urdf::Joint`, as far as it is used. -/
structure UJoint where
  type : JType
  limit : Option ULimit := none
  safety : Option USafety := none
  mimic : Option UMimic := none
  deriving DecidableEq, Repr

/-! ## The `<ros2_control>` tags after parsing the XML -/

/-- The names of command interfaces the limits depend on (component_parser.cpp:848, 872, 921, 938, 952). -/
inductive IName
  | position
  | velocity
  | effort
  | acceleration
  | jerk
  | other (n : Nat)
  deriving DecidableEq, Repr

/-- `InterfaceInfo` (hardware_info.hpp:34-68), as far as it is used: `min` and `max` are the texts of the parameters, empty if
absent. -/
structure Itf where
  name : IName
  min : List Char := []
  max : List Char := []
  enable : Bool := true
  deriving DecidableEq, Repr

/-- `MimicAttribute` (hardware_info.hpp:71-76). -/
inductive MimicAttr
  | notSet
  | true
  | false
  deriving DecidableEq, Repr

/-- `ComponentInfo` of a joint (hardware_info.hpp:78-112), as far as it is used. -/
structure Joint where
  name : Nat
  cmds : List Itf := []
  mimic : MimicAttr := .notSet
  enable : Bool := Bool.true
  deriving DecidableEq, Repr

/-- `MimicJoint` (hardware_info.hpp). -/
structure MimicJoint where
  index : Nat
  mimicked : Nat
  multiplier : Rat
  offset : Rat
  deriving DecidableEq, Repr

/-- `HardwareInfo`: the joints of a `<ros2_control>` tag. -/
structure Hw where
  name : Nat
  joints : List Joint
  deriving DecidableEq, Repr

/-- The parts of `HardwareInfo` filled in by the second pass: `mimic_joints`, `limits` and `soft_limits`. -/
structure Filled where
  mimics : List MimicJoint := []
  limits : List (Nat × Limits) := []
  soft : List (Nat × Soft) := []
  deriving DecidableEq, Repr

/-! ## Limits -/

/-- The largest finite `double`, `std::numeric_limits<double>::max()`. -/
def dblMax : Rat := (2 - 1 / 2 ^ 52) * 2 ^ 1023

/-- A default-constructed `JointLimits` (joint_limits.hpp:37-53). -/
def none' : Limits :=
  { minPos := .nan, maxPos := .nan, maxVel := .nan, maxAcc := .nan, maxDec := .nan, maxJerk := .nan, maxEff := .nan
    hasPos := false, hasVel := false, hasAcc := false, hasDec := false, hasJerk := false, hasEff := false }

/-- `disable_all_limits` (joint_limits.hpp:72-87). -/
def disabled : Limits :=
  { minPos := .fin (-dblMax), maxPos := .fin dblMax, maxVel := .fin dblMax, maxAcc := .fin dblMax, maxDec := .fin dblMax
    maxJerk := .fin dblMax, maxEff := .fin dblMax
    hasPos := false, hasVel := false, hasAcc := false, hasDec := false, hasJerk := false, hasEff := false }

/-- Does the type of joint have position limits (joint_limits_urdf.hpp:41-42)? -/
def JType.bounded : JType → Bool
  | .revolute => true
  | .prismatic => true
  | _ => false

/-- `getJointLimits` on a default-constructed `JointLimits` (joint_limits_urdf.hpp:34-63). -/
def urdfLimits (u : UJoint) : Limits :=
  match u.limit with
  | none => none'
  | some l =>
    { none' with
      hasPos := u.type.bounded
      minPos := if u.type.bounded then .fin l.lower else .nan
      maxPos := if u.type.bounded then .fin l.upper else .nan
      hasVel := true, maxVel := .fin |l.velocity|
      hasAcc := false
      hasEff := true, maxEff := .fin |l.effort| }

/-- `stod` of one of the texts (component_parser.cpp:823, 827); `round` rounds to the nearest double, `none` if out of range. -/
def num (round : Rat → Option Rat) (s : List Char) : Option Rat :=
  match Text.stod round s with
  | .ok q => some q
  | _ => none

/-- One of the two values after the function: replaced if the text is not empty (component_parser.cpp:821-828). -/
def overwrite (round : Rat → Option Rat) (s : List Char) (old : Dbl) : Option Dbl :=
  if s = [] then some old else (num round s).map .fin

/-- `retrieve_min_max_interface_values` (component_parser.cpp:810-839): the values of `min` and `max` if it returns true. (If
it returns false the caller does not use them.) -/
def retrieve (round : Rat → Option Rat) (i : Itf) (mn mx : Dbl) : Option (Dbl × Dbl) :=
  if i.min = [] ∧ i.max = [] then none
  else match overwrite round i.min mn with
    | none => none
    | some a => match overwrite round i.max mx with
      | none => none
      | some b => some (a, b)

/-- The branch `position` of `update_interface_limits` (component_parser.cpp:921-937). -/
def onPosition (round : Rat → Option Rat) (i : Itf) (l : Limits) : Limits :=
  let l1 : Limits :=
    { l with
      minPos := if l.hasPos && i.enable then l.minPos else .fin (-dblMax)
      maxPos := if l.hasPos && i.enable then l.maxPos else .fin dblMax }
  match (if i.enable then retrieve round i l1.minPos l1.maxPos else none) with
  | some (a, b) => { l1 with minPos := Dbl.max a l1.minPos, maxPos := Dbl.min b l1.maxPos, hasPos := true && i.enable }
  | none => { l1 with hasPos := l1.hasPos && i.enable }

/-- The branch `velocity` (component_parser.cpp:938-951). -/
def onVelocity (round : Rat → Option Rat) (i : Itf) (l : Limits) : Limits :=
  let l1 : Limits := { l with maxVel := if l.hasVel then l.maxVel else .fin dblMax }
  match (if i.enable then retrieve round i (-l1.maxVel) l1.maxVel else none) with
  | some (a, b) => { l1 with maxVel := Dbl.min (Dbl.min a.abs b) l1.maxVel, hasVel := true && i.enable }
  | none => { l1 with hasVel := l1.hasVel && i.enable }

/-- The branch `effort` (component_parser.cpp:952-965). -/
def onEffort (round : Rat → Option Rat) (i : Itf) (l : Limits) : Limits :=
  let l1 : Limits := { l with maxEff := if l.hasEff then l.maxEff else .fin dblMax }
  match (if i.enable then retrieve round i (-l1.maxEff) l1.maxEff else none) with
  | some (a, b) => { l1 with maxEff := Dbl.min (Dbl.min a.abs b) l1.maxEff, hasEff := true && i.enable }
  | none => { l1 with hasEff := l1.hasEff && i.enable }

/-- `set_custom_interface_values` for `acceleration`, the first part: deceleration (component_parser.cpp:854-861). -/
def setDec (i : Itf) (dec acc : Dbl) (l : Limits) : Limits :=
  if dec.isFinite then
    { l with
      maxDec := dec.abs
      maxAcc := if acc.isFinite then l.maxAcc else dec.abs.abs
      hasDec := i.enable }
  else l

/-- ... the second part: acceleration (component_parser.cpp:862-871). -/
def setAcc (i : Itf) (acc : Dbl) (l : Limits) : Limits :=
  if acc.isFinite then
    { l with
      maxAcc := acc
      maxDec := if l.maxDec.isFinite then l.maxDec else acc.abs
      hasAcc := i.enable }
  else l

/-- `set_custom_interface_values` for `acceleration` (component_parser.cpp:848-871). -/
def onAcceleration (round : Rat → Option Rat) (i : Itf) (l : Limits) : Limits :=
  match retrieve round i .nan .nan with
  | some (dec, acc) => setAcc i acc (setDec i dec acc l)
  | none => l

/-- `set_custom_interface_values` for `jerk` (component_parser.cpp:872-890). -/
def onJerk (round : Rat → Option Rat) (i : Itf) (l : Limits) : Limits :=
  if i.max = [] then l
  else match retrieve round i .nan .nan with
    | some (_, mx) => if mx.isFinite then { l with maxJerk := mx.abs, hasJerk := i.enable } else l
    | none => l

/-- The body of the loop of `update_interface_limits` (component_parser.cpp:919-969). -/
def onItf (round : Rat → Option Rat) (l : Limits) (i : Itf) : Limits :=
  match i.name with
  | .position => onPosition round i l
  | .velocity => onVelocity round i l
  | .effort => onEffort round i l
  | .acceleration => onAcceleration round i l
  | .jerk => onJerk round i l
  | .other _ => l

/-- `update_interface_limits` (component_parser.cpp:911-970). -/
def update (round : Rat → Option Rat) (j : Joint) (l : Limits) : Limits :=
  if !j.enable then disabled else j.cmds.foldl (onItf round) l

/-- The limits of a joint (component_parser.cpp:1083-1086). -/
def limitsOf (round : Rat → Option Rat) (u : UJoint) (j : Joint) : Limits := update round j (urdfLimits u)

/-- The soft limits of a joint: `getSoftJointLimits` (joint_limits_urdf.hpp:71-84), cut to the position limits
(component_parser.cpp:1088-1097). -/
def softOf (u : UJoint) (l : Limits) : Option Soft :=
  match u.safety with
  | none => none
  | some s => some
    { minPos := if l.hasPos then Dbl.max (.fin s.lower) l.minPos else .fin s.lower
      maxPos := if l.hasPos then Dbl.min (.fin s.upper) l.maxPos else .fin s.upper
      kPos := .fin s.kPos, kVel := .fin s.kVel }

/-! ## The second pass over all joints -/

/-- What is thrown (component_parser.cpp:1035-1081). -/
inductive Err
  | notInUrdf (joint : Nat)
  | noMimic (joint : Nat)
  | mimicCommands (joint : Nat)
  | mimickedMissing (joint : Nat)
  | fixedJoint (joint : Nat)
  deriving DecidableEq, Repr

/-- `map[key] = value`. -/
def assign {α : Type} (m : List (Nat × α)) (k : Nat) (a : α) : List (Nat × α) :=
  match m with
  | [] => [(k, a)]
  | (k', b) :: t => if k' = k then (k, a) :: t else (k', b) :: assign t k a

/-- `find_joint` (component_parser.cpp:1053-1065). -/
def findJoint (js : List Joint) (n : Nat) : Option Nat := js.findIdx? (fun j => decide (j.name = n))

/-- The mimic joints after joint number `i` (component_parser.cpp:1042-1073). -/
def mimicStep (js : List Joint) (i : Nat) (j : Joint) (u : UJoint) (ms : List MimicJoint) : Except Err (List MimicJoint) :=
  match u.mimic with
  | none => if j.mimic = .true then .error (.noMimic j.name) else .ok ms
  | some m =>
    if j.mimic = .false then .ok ms
    else if j.cmds ≠ [] then .error (.mimicCommands j.name)
    else match findJoint js m.joint with
      | none => .error (.mimickedMissing m.joint)
      | some k => .ok (ms ++ [⟨i, k, m.multiplier, m.offset⟩])

/-- The body of the loop over the joints (component_parser.cpp:1030-1098). -/
def jointStep (round : Rat → Option Rat) (urdf : Nat → Option UJoint) (js : List Joint) (i : Nat) (j : Joint)
    (f : Filled) : Except Err Filled :=
  match urdf j.name with
  | none => .error (.notInUrdf j.name)
  | some u =>
    match mimicStep js i j u f.mimics with
    | .error e => .error e
    | .ok ms =>
      if u.type = .fixed then .error (.fixedJoint j.name)
      else
        .ok { mimics := ms
              limits := assign f.limits j.name (limitsOf round u j)
              soft := match softOf u (limitsOf round u j) with
                | some s => assign f.soft j.name s
                | none => f.soft }

/-- The loop over the joints of a tag, from joint number `i` (component_parser.cpp:1029-1099). -/
def jointLoop (round : Rat → Option Rat) (urdf : Nat → Option UJoint) (js : List Joint) :
    Nat → List Joint → Filled → Except Err Filled
  | _, [], f => .ok f
  | i, j :: t, f =>
    match jointStep round urdf js i j f with
    | .error e => .error e
    | .ok f' => jointLoop round urdf js (i + 1) t f'

/-- The loop over the `<ros2_control>` tags (component_parser.cpp:1027-1101). -/
def parse (round : Rat → Option Rat) (urdf : Nat → Option UJoint) : List Hw → Except Err (List (Hw × Filled))
  | [] => .ok []
  | h :: t =>
    match jointLoop round urdf h.joints 0 h.joints {} with
    | .error e => .error e
    | .ok f =>
      match parse round urdf t with
      | .error e => .error e
      | .ok r => .ok ((h, f) :: r)

/-! ## The limiters -/

/-- `are_joint_limits_enabled` (resource_manager.cpp:785-798). -/
def limitsEnabled (js : List Joint) (n : Nat) : Bool := js.all (fun j => !(decide (j.name = n) && !j.enable))

/-- The limiters made for one tag (resource_manager.cpp:801-852), in the order of `hw_info.limits`. -/
def limitersOf (h : Hw) (f : Filled) : List (Nat × Limiter) :=
  f.limits.filterMap (fun p => if limitsEnabled h.joints p.1 then some (p.1, ⟨p.2, f.soft.lookup p.1⟩) else none)

/-- `joint_limiters_interface_` after `import_joint_limiters` (resource_manager.cpp:783-854): the limiters of each tag.
Simplified: the tags have different names (otherwise `load_and_initialize_components`, called next, refuses the description,
resource_manager.cpp:1557-1569). -/
def limiters (fs : List (Hw × Filled)) : List (List (Nat × Limiter)) := fs.map (fun p => limitersOf p.1 p.2)

end Verif.Desc
