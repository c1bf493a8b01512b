import Verif.Num.Dbl
/-!
# Joint limiters

`joint_limits`: the computation of the bounds (`joint_limits_helpers.cpp`), the saturation limiter
(`joint_range_limiter.cpp`) and the soft limiter (`joint_soft_limiter.cpp`).

Simplified: numbers are exact (`Num/Dbl.lean`), so the tolerances are the decimal numbers written in the source; a zero has
no sign, so the sign `std::copysign` reads from a zero is an arbitrary input; names, logging and the mutex are left out.
`dt` is `rclcpp::Duration::seconds()`, always a finite number.
-/
namespace Verif.Lim
open Verif (Dbl)

/-- `JointLimits` (joint_limits/include/joint_limits/joint_limits.hpp:35-70; `angle_wraparound` is never read by the
limiters). -/
structure Limits where
  minPos : Dbl
  maxPos : Dbl
  maxVel : Dbl
  maxAcc : Dbl
  maxDec : Dbl
  maxJerk : Dbl
  maxEff : Dbl
  hasPos : Bool
  hasVel : Bool
  hasAcc : Bool
  hasDec : Bool
  hasJerk : Bool
  hasEff : Bool
  deriving DecidableEq, Repr

/-- `SoftJointLimits` (joint_limits.hpp:129-143). -/
structure Soft where
  minPos : Dbl
  maxPos : Dbl
  kPos : Dbl
  kVel : Dbl
  deriving DecidableEq, Repr

/-- A default-constructed `SoftJointLimits`: everything NaN (joint_limits.hpp:131-137). -/
def Soft.default : Soft := ⟨.nan, .nan, .nan, .nan⟩

/-- `JointControlInterfacesData` (joint_limits/include/joint_limits/data_structures.hpp:48-57). -/
structure Data where
  pos : Option Dbl := none
  vel : Option Dbl := none
  eff : Option Dbl := none
  acc : Option Dbl := none
  jerk : Option Dbl := none
  deriving DecidableEq, Repr

/-- `has_data()` (data_structures.hpp:59-62). -/
def Data.hasData (d : Data) : Bool :=
  d.pos.isSome || d.vel.isSome || d.eff.isSome || d.acc.isSome || d.jerk.isSome

/-- `PositionLimits`, `VelocityLimits`, `EffortLimits`, `AccelerationLimits` (data_structures.hpp:27-43). -/
structure Range where
  lo : Dbl
  hi : Dbl
  deriving DecidableEq, Repr

/-- No bound: `(-infinity, infinity)`. -/
def Range.all : Range := ⟨.ninf, .pinf⟩

/-- `POSITION_BOUNDS_TOLERANCE` (joint_limits_helpers.hpp:30). -/
def boundsTol : Dbl := .fin (2 / 1000)

/-- `OUT_OF_BOUNDS_EXCEPTION_TOLERANCE` (joint_limits_helpers.hpp:32). -/
def throwTol : Dbl := .fin (87 / 10000)

/-- `VALUE_CONSIDERED_ZERO` (joint_soft_limiter.hpp:25). -/
def consideredZero : Dbl := .fin (1 / 10000000000)

/-- `1.0 * (M_PI / 180.0)` (joint_soft_limiter.cpp:154), with the exact value of the double `M_PI`. -/
def reachVel : Dbl := .fin (884279719003555 / 281474976710656 / 180)

/-- `check_and_swap_limits` (joint_limits_helpers.cpp:33-39). -/
def swap (r : Range) : Range := if Dbl.lt r.hi r.lo then ⟨r.hi, r.lo⟩ else r

/-- `verify_actual_position_within_limits` (joint_limits_helpers.cpp:49-71): true if it throws. -/
def outOfBounds (l : Limits) (actPos : Option Dbl) : Bool :=
  match actPos with
  | none => false
  | some p => l.hasPos && (Dbl.lt (l.maxPos + throwTol) p || Dbl.lt p (l.minPos - throwTol))

/-- `!isnan` of the value if there is one: `desired.has_x() && !std::isnan(desired.x.value())`. -/
def numeric : Option Dbl → Bool
  | some v => !v.isNan
  | none => false

/-- One line of `update_prev_command` (joint_limits_helpers.cpp:77-80). -/
def keep (desired prev : Option Dbl) : Option Dbl := if numeric desired then desired else prev

/-- `update_prev_command` (joint_limits_helpers.cpp:74-98). -/
def updatePrev (desired prev : Data) : Data :=
  { pos := keep desired.pos prev.pos
    vel := keep desired.vel prev.vel
    eff := keep desired.eff prev.eff
    acc := keep desired.acc prev.acc
    jerk := keep desired.jerk prev.jerk }

/-- `is_limited` (joint_limits_helpers.cpp:100). -/
def isLimited (v lo hi : Dbl) : Bool := Dbl.lt v lo || Dbl.lt hi v

/-- `act_vel_abs` (joint_limits_helpers.cpp:111). -/
def absOf : Option Dbl → Dbl
  | some v => Dbl.abs v
  | none => 0

/-- How far a position may move in a cycle (joint_limits_helpers.cpp:111-116). -/
def deltaPos (l : Limits) (actVel : Option Dbl) (dt : Dbl) : Dbl :=
  let deltaVel := if l.hasAcc then absOf actVel + l.maxAcc * dt else l.maxVel
  Dbl.min l.maxVel deltaVel * dt

/-- The reference around which the position bounds are narrowed (joint_limits_helpers.cpp:122-123). -/
def posRef (prev actPos : Option Dbl) : Option Dbl := if prev.isSome then prev else actPos

/-- The narrowing around the reference (joint_limits_helpers.cpp:127-130). -/
def around (r : Range) (ref d : Dbl) : Range :=
  let lo := Dbl.max (Dbl.min (ref - d) r.hi) r.lo
  ⟨lo, Dbl.min (Dbl.max (ref + d) lo) r.hi⟩

/-- `compute_position_limits` after the verification of the actual position (joint_limits_helpers.cpp:102-135). -/
def positionLimits (l : Limits) (actVel actPos prevPos : Option Dbl) (dt : Dbl) : Range :=
  let r : Range := ⟨l.minPos, l.maxPos⟩
  let r := if l.hasVel then
      (match posRef prevPos actPos with
       | some ref => around r ref (deltaPos l actVel dt)
       | none => r)
    else r
  swap r

/-- The bounds from the distance to the position limits (joint_limits_helpers.cpp:149-188). -/
def velocityNearLimits (l : Limits) (desired p : Dbl) (dt : Dbl) (r : Range) : Range :=
  let r : Range := ⟨Dbl.max ((l.minPos - p) / dt) r.lo, Dbl.min ((l.maxPos - p) / dt) r.hi⟩
  if Dbl.lt l.maxPos p || Dbl.lt p l.minPos then
    if (Dbl.lt p (l.maxPos + boundsTol) && Dbl.lt l.minPos p && Dbl.le 0 desired) ||
       (Dbl.lt (l.minPos - boundsTol) p && Dbl.lt p l.maxPos && Dbl.le desired 0) then ⟨0, 0⟩
    else if Dbl.lt (l.maxPos + boundsTol) p || Dbl.lt p (l.minPos - boundsTol) then ⟨0, 0⟩
    else r
  else r

/-- The bounds from the acceleration (joint_limits_helpers.cpp:189-194). -/
def velocityNearPrev (l : Limits) (prev dt : Dbl) (r : Range) : Range :=
  ⟨Dbl.max (prev - l.maxAcc * dt) r.lo, Dbl.min (prev + l.maxAcc * dt) r.hi⟩

/-- The position part of the velocity bounds (joint_limits_helpers.cpp:149-188). -/
def velocityFromPos (l : Limits) (desired : Dbl) (actPos : Option Dbl) (dt : Dbl) (r : Range) : Range :=
  if l.hasPos then
    (match actPos with
     | some p => velocityNearLimits l desired p dt r
     | none => r)
  else r

/-- The acceleration part of the velocity bounds (joint_limits_helpers.cpp:189-194). -/
def velocityFromPrev (l : Limits) (prevVel : Option Dbl) (dt : Dbl) (r : Range) : Range :=
  if l.hasAcc then
    (match prevVel with
     | some v => velocityNearPrev l v dt r
     | none => r)
  else r

/-- `compute_velocity_limits` (joint_limits_helpers.cpp:137-197). -/
def velocityLimits (l : Limits) (desired : Dbl) (actPos prevVel : Option Dbl) (dt : Dbl) : Range :=
  if !l.hasVel then Range.all
  else swap (velocityFromPrev l prevVel dt (velocityFromPos l desired actPos dt ⟨-l.maxVel, l.maxVel⟩))

/-- `compute_effort_limits` (joint_limits_helpers.cpp:199-236). -/
def effortLimits (l : Limits) (actPos actVel : Option Dbl) : Range :=
  if !l.hasEff then Range.all else
  let r : Range := ⟨-l.maxEff, l.maxEff⟩
  let r := match actPos, actVel with
    | some p, some v =>
      if l.hasPos then
        if Dbl.le p l.minPos && Dbl.le v 0 then ⟨0, r.hi⟩
        else if Dbl.le l.maxPos p && Dbl.le 0 v then ⟨r.lo, 0⟩
        else r
      else r
    | _, _ => r
  let r := match actVel with
    | some v =>
      if l.hasVel then
        if Dbl.lt v (-l.maxVel) then ⟨0, r.hi⟩
        else if Dbl.lt l.maxVel v then ⟨r.lo, 0⟩
        else r
      else r
    | none => r
  swap r

/-- Whether the commanded acceleration is against the actual velocity (joint_limits_helpers.cpp:246-247). -/
def braking (desired : Dbl) (actVel : Option Dbl) : Bool :=
  match actVel with
  | some v => (Dbl.lt desired 0 && Dbl.lt 0 v) || (Dbl.lt 0 desired && Dbl.lt v 0)
  | none => false

/-- `compute_acceleration_limits` (joint_limits_helpers.cpp:238-260). -/
def accelerationLimits (l : Limits) (desired : Dbl) (actVel : Option Dbl) : Range :=
  swap (if l.hasDec && braking desired actVel then ⟨-l.maxDec, l.maxDec⟩
    else if l.hasAcc then ⟨-l.maxAcc, l.maxAcc⟩
    else Range.all)

/-- The first command of one kind (joint_range_limiter.cpp:66-76 and alike): the actual value if there is one, otherwise the
desired one unless it is NaN. -/
def firstOf (desired actual prev : Option Dbl) : Option Dbl :=
  match desired, actual with
  | some _, some a => some a
  | some d, none => if d.isNan then prev else some d
  | none, _ => prev

/-- The filling of `prev_command_` before the first command (joint_range_limiter.cpp:64-125, joint_soft_limiter.cpp:49-109). -/
def initPrev (actual desired prev : Data) : Data :=
  if prev.hasData then prev
  else
    { pos := firstOf desired.pos actual.pos prev.pos
      vel := firstOf desired.vel actual.vel prev.vel
      eff := firstOf desired.eff actual.eff prev.eff
      acc := firstOf desired.acc actual.acc prev.acc
      jerk := firstOf desired.jerk actual.jerk prev.jerk }

/-- What `std::clamp(v, lo, hi)` of a command does: the new value, whether `is_limited` and whether the call has undefined
behaviour (`hi < lo`). -/
structure Clamped where
  val : Option Dbl
  limited : Bool := false
  ub : Bool := false
  deriving DecidableEq, Repr

/-- `if (desired.has_x() && !isnan(desired.x)) { limits_enforced = is_limited(..) || ..; desired.x = std::clamp(..); }`
(joint_range_limiter.cpp:127-174), for bounds that may depend on the desired value. -/
def apply (d : Option Dbl) (bounds : Dbl → Range) : Clamped :=
  match d with
  | none => { val := none }
  | some v =>
    if v.isNan then { val := some v }
    else
      let r := bounds v
      { val := some (Dbl.clamp v r.lo r.hi), limited := isLimited v r.lo r.hi, ub := Dbl.lt r.hi r.lo }

/-- The result of `enforce`. -/
structure Out where
  /-- `std::runtime_error` was thrown -/
  thrown : Bool := false
  /-- the returned flag -/
  limited : Bool := false
  /-- the commands after the call -/
  cmd : Data
  /-- `prev_command_` after the call -/
  prev : Data
  /-- some `std::clamp` was called with `hi < lo` -/
  ub : Bool := false
  deriving DecidableEq, Repr

/-- Putting the five clamped commands together. -/
def finish (p v e a j : Clamped) (prev : Data) : Out :=
  let cmd : Data := { pos := p.val, vel := v.val, eff := e.val, acc := a.val, jerk := j.val }
  { limited := p.limited || v.limited || e.limited || a.limited || j.limited
    cmd := cmd
    prev := updatePrev cmd prev
    ub := p.ub || v.ub || e.ub || a.ub || j.ub }

/-- The bounds of a jerk command (joint_range_limiter.cpp:168-174): used whether or not the joint has jerk limits. -/
def jerkLimits (l : Limits) : Range := ⟨-l.maxJerk, l.maxJerk⟩

/-- `JointSaturationLimiter<JointControlInterfacesData>::on_enforce` (joint_range_limiter.cpp:44-180). -/
def saturate (l : Limits) (actual desired prev : Data) (dt : Rat) : Out :=
  if dt ≤ 0 then { cmd := desired, prev := prev }
  else
    let prev := initPrev actual desired prev
    if numeric desired.pos && outOfBounds l actual.pos then { thrown := true, cmd := desired, prev := prev }
    else
      finish
        (apply desired.pos fun _ => positionLimits l actual.vel actual.pos prev.pos (.fin dt))
        (apply desired.vel fun v => velocityLimits l v actual.pos prev.vel (.fin dt))
        (apply desired.eff fun _ => effortLimits l actual.pos actual.vel)
        (apply desired.acc fun a => accelerationLimits l a actual.vel)
        (apply desired.jerk fun _ => jerkLimits l)
        prev

/-! ## The soft limiter -/

/-- `has_soft_position_limits` (joint_soft_limiter.hpp:54-60). -/
def Soft.hasPos (s : Soft) : Bool :=
  s.minPos.isFinite && s.maxPos.isFinite && Dbl.lt consideredZero (s.maxPos - s.minPos)

/-- `has_soft_limits` (joint_soft_limiter.hpp:62-67). -/
def Soft.has (s : Soft) : Bool := s.hasPos && s.kPos.isFinite && Dbl.lt consideredZero (Dbl.abs s.kPos)

/-- `std::copysign(m, x)` for a positive `m`; `zeroNeg` is the sign of `x` if `x` is zero (or NaN). -/
def copysign (m x : Dbl) (zeroNeg : Bool) : Dbl :=
  if Dbl.lt x 0 then -m else if Dbl.lt 0 x then m else if zeroNeg then -m else m

/-- `act_position` (joint_soft_limiter.cpp:113-118). -/
def actPosition (actual prev : Data) : Dbl :=
  match actual.pos with
  | some p => p
  | none => match prev.pos with
    | some q => if q.isFinite then q else .pinf
    | none => .pinf

/-- `prev_command_position` (joint_soft_limiter.cpp:119-122). -/
def prevPosition (actual prev : Data) : Dbl :=
  match prev.pos with
  | some q => if q.isFinite then q else actual.pos.getD .pinf
  | none => actual.pos.getD .pinf

/-- `soft_min_vel` and `soft_max_vel` (joint_soft_limiter.cpp:111-161); `z` gives the signs of zeros. The flag tells
whether one of the two `std::clamp` was undefined. -/
def softVel (l : Limits) (s : Soft) (actual prev : Data) (z : Bool × Bool) : Range × Bool :=
  let act := actPosition actual prev
  let pp := prevPosition actual prev
  if !l.hasVel then (Range.all, false)
  else if l.hasPos && s.has && pp.isFinite then
    let lo := Dbl.clamp (-s.kPos * (pp - s.minPos)) (-l.maxVel) l.maxVel
    let hi := Dbl.clamp (-s.kPos * (pp - s.maxPos)) (-l.maxVel) l.maxVel
    let ub := Dbl.lt l.maxVel (-l.maxVel)
    if act.isFinite && (Dbl.lt act (l.minPos - boundsTol) || Dbl.lt (l.maxPos + boundsTol) act) then (⟨0, 0⟩, ub)
    else if Dbl.lt act s.minPos || Dbl.lt s.maxPos act then
      (⟨copysign reachVel lo z.1, copysign reachVel hi z.2⟩, ub)
    else (⟨lo, hi⟩, ub)
  else (⟨-l.maxVel, l.maxVel⟩, false)

/-- The position range from the soft limits (joint_soft_limiter.cpp:172-179). -/
def softPosRange (s : Soft) : Range := if s.hasPos then ⟨s.minPos, s.maxPos⟩ else Range.all

/-- The range reachable with the soft velocities, inside the soft position range (joint_soft_limiter.cpp:181-185). -/
def softReach (l : Limits) (pp : Dbl) (sv r : Range) (dt : Dbl) : Range :=
  if l.hasVel && pp.isFinite then
    let lo := Dbl.clamp (pp + sv.lo * dt) r.lo r.hi
    ⟨lo, Dbl.clamp (pp + sv.hi * dt) lo r.hi⟩
  else r

/-- The intersection with the hard position limits, with its fallback (joint_soft_limiter.cpp:190-198). -/
def softMeet (r hard : Range) : Range :=
  let lo := Dbl.max r.lo hard.lo
  let hi := Dbl.min r.hi hard.hi
  if Dbl.lt hi lo then r else ⟨lo, hi⟩

/-- The bounds of a position command (joint_soft_limiter.cpp:166-198). -/
def softPositionLimits (l : Limits) (s : Soft) (actual prev : Data) (sv : Range) (dt : Dbl) : Range :=
  softMeet (softReach l (prevPosition actual prev) sv (softPosRange s) dt)
    (positionLimits l actual.vel actual.pos prev.pos dt)

/-- Whether the second `std::clamp` of `softReach` is undefined (the first one never is, having a proper range). -/
def softReachUb (l : Limits) (pp : Dbl) (sv r : Range) (dt : Dbl) : Bool :=
  l.hasVel && pp.isFinite && Dbl.lt r.hi (Dbl.clamp (pp + sv.lo * dt) r.lo r.hi)

/-- The soft velocities within reach of the actual velocity (joint_soft_limiter.cpp:210-218). -/
def softVelNear (l : Limits) (actVel : Option Dbl) (sv : Range) (dt : Dbl) : Range :=
  match actVel with
  | some v => if l.hasVel && l.hasAcc then
      ⟨Dbl.max (v - l.maxAcc * dt) sv.lo, Dbl.min (v + l.maxAcc * dt) sv.hi⟩ else sv
  | none => sv

/-- The bounds of a velocity command (joint_soft_limiter.cpp:204-221). -/
def softVelocityLimits (l : Limits) (actual prev : Data) (sv : Range) (dt : Dbl) (desired : Dbl) : Range :=
  let hard := velocityLimits l desired actual.pos prev.vel dt
  let r := softVelNear l actual.vel sv dt
  ⟨Dbl.max r.lo hard.lo, Dbl.min r.hi hard.hi⟩

/-- `soft_min_vel` and `soft_max_vel` when the effort is handled: the velocity branch has changed them if there was a
velocity command (joint_soft_limiter.cpp:210-221). -/
def softVelAfter (l : Limits) (actual desired prev : Data) (sv : Range) (dt : Dbl) : Range :=
  match desired.vel with
  | some v => if v.isNan then sv else softVelocityLimits l actual prev sv dt v
  | none => sv

/-- The bounds of an effort command (joint_soft_limiter.cpp:230-252). -/
def softEffortLimits (l : Limits) (s : Soft) (actual : Data) (sv : Range) : Range :=
  let hard := effortLimits l actual.pos actual.vel
  match actual.vel with
  | some v => if l.hasEff && s.kVel.isFinite then
      ⟨Dbl.max (Dbl.clamp (-s.kVel * (v - sv.lo)) (-l.maxEff) l.maxEff) hard.lo,
       Dbl.min (Dbl.clamp (-s.kVel * (v - sv.hi)) (-l.maxEff) l.maxEff) hard.hi⟩ else hard
  | none => hard

/-- `JointSoftLimiter::on_enforce` (joint_soft_limiter.cpp:26-284). -/
def soften (l : Limits) (s : Soft) (actual desired prev : Data) (dt : Rat) (z : Bool × Bool) : Out :=
  if dt ≤ 0 then { cmd := desired, prev := prev }
  else
    let prev := initPrev actual desired prev
    let sv := (softVel l s actual prev z).1
    if numeric desired.pos && outOfBounds l actual.pos then
      { thrown := true, cmd := desired, prev := prev, ub := (softVel l s actual prev z).2 }
    else
      let out := finish
        (apply desired.pos fun _ => softPositionLimits l s actual prev sv (.fin dt))
        (apply desired.vel fun v => softVelocityLimits l actual prev sv (.fin dt) v)
        (apply desired.eff fun _ => softEffortLimits l s actual (softVelAfter l actual desired prev sv (.fin dt)))
        (apply desired.acc fun a => accelerationLimits l a actual.vel)
        (apply desired.jerk fun _ => jerkLimits l)
        prev
      { out with ub := out.ub || (softVel l s actual prev z).2 ||
          (numeric desired.pos && softReachUb l (prevPosition actual prev) sv (softPosRange s) (.fin dt)) ||
          (numeric desired.eff && l.hasEff && s.kVel.isFinite && actual.vel.isSome && Dbl.lt l.maxEff (-l.maxEff)) }

/-! ## A limiter over its calls -/

/-- What kind of limiter a joint has (resource_manager.cpp:836-849): soft if the joint has soft limits. -/
structure Limiter where
  hard : Limits
  soft : Option Soft
  deriving DecidableEq, Repr

/-- `JointLimiterInterface::enforce` (joint_limiter_interface.hpp:207-213). -/
def enforce (lim : Limiter) (actual desired prev : Data) (dt : Rat) (z : Bool × Bool) : Out :=
  match lim.soft with
  | none => saturate lim.hard actual desired prev dt
  | some s => soften lim.hard s actual desired prev dt z

/-- One call of a limiter. -/
structure Call where
  actual : Data
  desired : Data
  dt : Rat
  z : Bool × Bool := (false, false)
  deriving DecidableEq, Repr

/-- The calls of one limiter in order, from `prev_command_`; the result of each. -/
def runFrom (lim : Limiter) : Data → List Call → List Out
  | _, [] => []
  | prev, c :: cs =>
    let o := enforce lim c.actual c.desired prev c.dt c.z
    o :: runFrom lim o.prev cs

/-- From `on_init` (joint_range_limiter.cpp:29-42): an empty `prev_command_`. -/
def run (lim : Limiter) (cs : List Call) : List Out := runFrom lim {} cs

end Verif.Lim
