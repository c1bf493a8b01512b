import Verif.Num.Limits
/-!
# `JointSaturationLimiter<JointTrajectoryPoint>` (joint_limits/src/joint_saturation_limiter.cpp)

Simplified: numbers are exact (`Num/Dbl.lean`); a zero has no sign (`std::copysign` takes zero and NaN for positive, which only
matters for negative limits); names, logging, the mutex and the `effort` part of the message (never read) are left out. `dt` is
`rclcpp::Duration::seconds()`, a finite number.
-/
namespace Verif.Sat
open Verif (Dbl)
open Verif.Lim (Limits)

/-- The parts of `trajectory_msgs::msg::JointTrajectoryPoint` the limiter reads and writes. -/
structure Point where
  pos : List Dbl
  vel : List Dbl
  acc : List Dbl
  deriving DecidableEq, Repr

/-- `VALUE_CONSIDERED_ZERO` (joint_saturation_limiter.cpp:24). -/
def tiny : Dbl := .fin (1 / 10000000000)

/-- `std::fabs(x) <= VALUE_CONSIDERED_ZERO`. -/
def isTiny (x : Dbl) : Bool := Dbl.le (Dbl.abs x) tiny

/-- `a != b` of C++: true if either is NaN. -/
def differ (a b : Dbl) : Bool := a.isNan || b.isNan || a != b

/-- `std::copysign(m, x)`. -/
def copysign (m x : Dbl) : Dbl := if Dbl.lt x 0 then -(Dbl.abs m) else Dbl.abs m

/-- What the limiter works on for one joint: the limits, the current state, the three desired values and whether a limit was
enforced so far. `hp`, `hv` are `has_desired_position`, `has_desired_velocity`. -/
structure Joint where
  l : Limits
  cp : Dbl
  cv : Dbl
  p : Dbl
  v : Dbl
  a : Dbl
  limited : Bool := false
  deriving DecidableEq, Repr

/-- Position limits and the velocity implied by a position command (joint_saturation_limiter.cpp:90-117). -/
def posStage (hp : Bool) (dt : Dbl) (j : Joint) : Joint :=
  if hp then
    let c := Dbl.clamp j.p j.l.minPos j.l.maxPos
    let hit := j.l.hasPos && differ c j.p
    let p := if hit then c else j.p
    let d := p - j.cp
    let v := if Dbl.lt tiny (Dbl.abs d) && isTiny j.v then d / dt else j.v
    { j with p := p, v := v, limited := j.limited || hit }
  else j

/-- Velocity limits (joint_saturation_limiter.cpp:119-143). -/
def velStage (hp : Bool) (dt : Dbl) (j : Joint) : Joint :=
  if j.l.hasVel then
    let v := if isTiny j.v || j.v.isNan then (j.p - j.cp) / dt else j.v
    if Dbl.lt j.l.maxVel (Dbl.abs v) then
      let w := copysign j.l.maxVel v
      { j with p := if hp then j.cp + w * dt else j.p, v := w, a := (w - j.cv) / dt, limited := true }
    else { j with v := v }
  else j

/-- `apply_acc_or_dec_limit` (joint_saturation_limiter.cpp:153-169): is the limit exceeded? -/
def over (m a : Dbl) : Bool := Dbl.lt m (Dbl.abs a)

/-- "velocity is changing toward 0" (joint_saturation_limiter.cpp:181-183). -/
def slowing (cv a : Dbl) : Bool := (Dbl.lt a 0 && Dbl.lt 0 cv) || (Dbl.lt 0 a && Dbl.lt cv 0)

/-- The limit that applies to the desired acceleration, if any (joint_saturation_limiter.cpp:178-199). -/
def accBound (l : Limits) (cv a : Dbl) : Option Dbl :=
  if slowing cv a && l.hasDec then some l.maxDec
  else if l.hasAcc then some l.maxAcc
  else none

/-- Acceleration and deceleration limits (joint_saturation_limiter.cpp:145-215). -/
def accStage (hp : Bool) (dt : Dbl) (j : Joint) : Joint :=
  if j.l.hasAcc || j.l.hasDec then
    let a := if isTiny j.a || j.a.isNan then (j.v - j.cv) / dt else j.a
    match accBound j.l j.cv a with
    | some m =>
      if over m a then
        let b := copysign m a
        { j with
          p := if hp then j.cp + j.cv * dt + .fin (1 / 2) * b * dt * dt else j.p
          v := j.cv + b * dt
          a := b
          limited := true }
      else { j with a := a }
    | none => { j with a := a }
  else j

/-- The look one step ahead for velocity commands (joint_saturation_limiter.cpp:217-242). -/
def aheadStage (hp hv : Bool) (dt : Dbl) (j : Joint) : Joint :=
  if j.l.hasPos && (hv && !hp) then
    let e := j.cp + j.v * dt
    let c := Dbl.clamp e j.l.minPos j.l.maxPos
    if differ c e then { j with v := (c - j.cp) / dt, limited := true } else j
  else j

/-- `stopping_deccel` (joint_saturation_limiter.cpp:254-262). -/
def stopDec (l : Limits) (v dt : Dbl) : Dbl :=
  if l.hasDec then l.maxDec else if l.hasAcc then l.maxAcc else Dbl.abs (v / dt)

/-- The joint moves towards a limit it is closer to than `d` (joint_saturation_limiter.cpp:270-276 and 288-294). -/
def tooClose (l : Limits) (cp v d : Dbl) : Bool :=
  (Dbl.lt v 0 && Dbl.lt (cp - l.minPos) d) || (Dbl.lt 0 v && Dbl.lt (l.maxPos - cp) d)

/-- Must all joints brake because of this one? (joint_saturation_limiter.cpp:244-303) -/
def mustBrake (dt : Dbl) (j : Joint) : Bool :=
  j.l.hasPos &&
    (let s := stopDec j.l j.v dt
     tooClose j.l j.cp j.v (Dbl.abs ((-j.v) * j.v / (.fin 2 * s))) ||
       tooClose j.l j.cp j.v (j.v * Dbl.abs (j.v / s)))

/-- One round of the first loop (joint_saturation_limiter.cpp:77-303). -/
def perJoint (hp hv : Bool) (dt : Dbl) (j : Joint) : Joint :=
  aheadStage hp hv dt (accStage hp dt (velStage hp dt (posStage hp dt j)))

/-- The braking acceleration (joint_saturation_limiter.cpp:314-326). -/
def brakeAcc (l : Limits) (cv dt : Dbl) : Dbl :=
  let a := (-cv) / dt
  if l.hasDec then copysign (Dbl.min (Dbl.abs a) l.maxDec) a
  else if l.hasAcc then copysign (Dbl.min (Dbl.abs a) l.maxAcc) a
  else a

/-- One round of the second loop (joint_saturation_limiter.cpp:309-339). -/
def brake (hp hv : Bool) (dt : Dbl) (j : Joint) : Joint :=
  let a := brakeAcc j.l j.cv dt
  { j with
    a := a
    v := if hv then j.cv + a * dt else j.v
    p := if hp then j.cp + j.cv * dt + .fin (1 / 2) * a * dt * dt else j.p }

/-- `v[i]`; the vectors the code indexes always have one element per joint (those that do not are replaced by zeros). -/
def at0 (xs : List Dbl) (i : Nat) : Dbl := xs[i]?.getD 0

/-- The vector, or zeros if it does not have one element per joint (joint_saturation_limiter.cpp:47-89). -/
def orZeros (n : Nat) (xs : List Dbl) (i : Nat) : Dbl := if xs.length = n then at0 xs i else 0

/-- What the loop starts from for joint `i`. -/
def jointAt (lims : List Limits) (cur des : Point) (i : Nat) (l : Limits) : Joint :=
  { l := l, cp := at0 cur.pos i, cv := orZeros lims.length cur.vel i, p := orZeros lims.length des.pos i,
    v := orZeros lims.length des.vel i, a := orZeros lims.length des.acc i }

/-- All joints after the first loop. -/
def afterLoop (lims : List Limits) (cur des : Point) (dt : Dbl) : List Joint :=
  (lims.mapIdx fun i l => jointAt lims cur des i l).map
    (perJoint (des.pos.length == lims.length) (des.vel.length == lims.length) dt)

/-- The joints whose values are written back (joint_saturation_limiter.cpp:306-339). -/
def finalJoints (lims : List Limits) (cur des : Point) (dt : Dbl) : List Joint :=
  let js := afterLoop lims cur des dt
  if js.any (mustBrake dt) then
    js.map (brake (des.pos.length == lims.length) (des.vel.length == lims.length) dt)
  else js

/-- Are `dt` and the sizes of the vectors usable? (joint_saturation_limiter.cpp:36-58) -/
def usable (n : Nat) (cur des : Point) (dt : Rat) : Bool :=
  decide (0 < dt) && (cur.pos.length == n && (des.pos.length == n || des.vel.length == n))

/-- `JointSaturationLimiter<JointTrajectoryPoint>::on_enforce` (joint_saturation_limiter.cpp:29-421): the desired point after the call
and the returned value. `lims` are `joint_limits_`, one per joint. -/
def enforce (lims : List Limits) (cur des : Point) (dt : Rat) : Point × Bool :=
  if usable lims.length cur des dt then
    let js := finalJoints lims cur des (.fin dt)
    let n := lims.length
    ({ pos := if des.pos.length = n then js.map (·.p) else des.pos
       vel := if des.vel.length = n then js.map (·.v) else des.vel
       acc := if des.acc.length = n then js.map (·.a) else des.acc },
      js.any (·.limited) || (afterLoop lims cur des (.fin dt)).any (mustBrake (.fin dt)))
  else (des, false)

end Verif.Sat
