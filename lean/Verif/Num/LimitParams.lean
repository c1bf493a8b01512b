import Verif.Num.Saturation
import Verif.Core.Types
/-!
# Joint limits as parameters of a node

joint_limits/include/joint_limits/joint_limits_rosparam.hpp and the parameter callback and `enforce` of
joint_limits/include/joint_limits/joint_limiter_interface.hpp.

Simplified: a parameter name `joint_limits.<joint>.<key>` is the pair of the joint name and the key; the real-time buffer
`updated_limits_` hands the last value written to the reader (its try-lock, which may delay that by some cycles, is not modelled);
declared parameters always exist (`declare_parameters` succeeded, as `init` demands). Reading the
parameters at start-up and soft limits are in `Num/LimitGet`.
-/
namespace Verif.LimParam
open Verif (Dbl)

/-- The numeric parameters of a joint. -/
inductive Num | minPos | maxPos | maxVel | maxAcc | maxDec | maxJerk | maxEff
  deriving DecidableEq, Repr

/-- The boolean parameters of a joint. -/
inductive Flag | pos | vel | acc | dec | jerk | eff | wrap
  deriving DecidableEq, Repr

/-- The value of a `rclcpp::Parameter`; `other` is any type but `double` and `bool`. -/
inductive Val
  | dbl (d : Dbl)
  | bool (b : Bool)
  | other
  deriving DecidableEq, Repr

/-- The key of a parameter of a joint. -/
inductive Key
  | num (k : Num)
  | flag (f : Flag)
  deriving DecidableEq, Repr

/-- A `rclcpp::Parameter` below `joint_limits`. -/
structure Param where
  joint : Name
  key : Key
  val : Val
  deriving DecidableEq, Repr

/-- `JointLimits` (joint_limits.hpp:35-70). -/
structure L where
  num : Num → Dbl
  flag : Flag → Bool

/-- Assignment to a numeric member. -/
def L.setNum (l : L) (k : Num) (d : Dbl) : L := { l with num := fun x => if x = k then d else l.num x }

/-- Assignment to a boolean member. -/
def L.setFlag (l : L) (f : Flag) (b : Bool) : L := { l with flag := fun x => if x = f then b else l.flag x }

/-- One round of the first loop of `check_for_limits_update` (joint_limits_rosparam.hpp:448-493). The value is compared and
assigned; a value of the wrong type throws before anything is assigned and is caught. -/
def numStep (j : Name) (s : L × Bool) (p : Param) : L × Bool :=
  if p.joint = j then
    match p.key, p.val with
    | .num k, .dbl d => (s.1.setNum k d, Sat.differ (s.1.num k) d)
    | _, _ => s
  else s

/-- May the flag be set to `true` with the numbers of `l`? (joint_limits_rosparam.hpp:505-522, 532, 547, 562, 577, 592, 607) -/
def allowed (l : L) : Flag → Bool
  | .pos => !(l.num .minPos).isNan && !(l.num .maxPos).isNan && !Dbl.le (l.num .maxPos) (l.num .minPos)
  | .vel => !(l.num .maxVel).isNan
  | .acc => !(l.num .maxAcc).isNan
  | .dec => !(l.num .maxDec).isNan
  | .jerk => !(l.num .maxJerk).isNan
  | .eff => !(l.num .maxEff).isNan
  | .wrap => !l.flag .pos

/-- One round of the second loop of `check_for_limits_update` (joint_limits_rosparam.hpp:495-632). `has_position_limits` marks a
change only when it is set to `true` (lines 502-527), the other flags also when they are set to `false`. -/
def flagStep (j : Name) (s : L × Bool) (p : Param) : L × Bool :=
  if p.joint = j then
    match p.key, p.val with
    | .flag f, .bool true => if allowed s.1 f then (s.1.setFlag f true, true) else (s.1.setFlag f false, s.2)
    | .flag f, .bool false => (s.1.setFlag f false, if f = .pos then s.2 else true)
    | _, _ => s
  else s

/-- `check_for_limits_update` (joint_limits_rosparam.hpp:439-635): the limits after it and its result. -/
def check (j : Name) (ps : List Param) (l : L) : L × Bool :=
  ps.foldl (flagStep j) (ps.foldl (numStep j) (l, false))

/-- The limiter: joint names, `joint_limits_` and `updated_limits_`. -/
structure St where
  names : List Name
  cur : List L
  buf : List L

/-- The parameter callback (joint_limiter_interface.hpp:91-112). -/
def St.onSet (s : St) (ps : List Param) : St :=
  let upd := s.names.zipWith (fun j l => check j ps l) s.cur
  if upd.any (·.2) then { s with buf := upd.map (·.1) } else s

/-- The first line of `enforce` (joint_limiter_interface.hpp:207-213); the limits used by this call are `cur` afterwards. -/
def St.onEnforce (s : St) : St := { s with cur := s.buf }

/-- What can happen to a limiter. -/
inductive Op
  | set (ps : List Param)
  | enforce
  deriving DecidableEq, Repr

def St.step (s : St) : Op → St
  | .set ps => s.onSet ps
  | .enforce => s.onEnforce

def St.run (s : St) (ops : List Op) : St := ops.foldl St.step s

/-- `get_joint_limits` into default limits when all parameters are declared (joint_limits_rosparam.hpp:232-375): the flags are the
parameters, a number is taken if its flag is set, `angle_wraparound` if there are no position limits. -/
def fromParams (num : Num → Dbl) (flag : Flag → Bool) : L where
  num
    | .minPos => if flag .pos then num .minPos else .nan
    | .maxPos => if flag .pos then num .maxPos else .nan
    | .maxVel => if flag .vel then num .maxVel else .nan
    | .maxAcc => if flag .acc then num .maxAcc else .nan
    | .maxDec => if flag .dec then num .maxDec else .nan
    | .maxJerk => if flag .jerk then num .maxJerk else .nan
    | .maxEff => if flag .eff then num .maxEff else .nan
  flag
    | .wrap => !flag .pos && flag .wrap
    | f => flag f

/-- `init` from parameters (joint_limiter_interface.hpp:53-131). -/
def start (joints : List (Name × L)) : St :=
  { names := joints.map (·.1), cur := joints.map (·.2), buf := joints.map (·.2) }

end Verif.LimParam
