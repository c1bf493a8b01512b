import Verif.Num.Limits
import Verif.Num.Round
/-!
# The joint limiters with rounding

The functions of `Num/Limits.lean` that compute with numbers, once more, with the arithmetic of a `Rounding`: every `+`, `-`, `*` and `/` of
the source is rounded, and the constants of the source are the nearest `double`. Functions that only compare, negate, take absolute values or
select (`apply`, `initPrev`, `updatePrev`, `effortLimits`, `accelerationLimits`, ...) are those of `Num/Limits.lean`: these operations are exact.
With no rounding at all (`Rounding.exact`) this is `Num/Limits.lean` (`enforceR_exact`).
-/
namespace Verif.Lim
open Verif (Dbl Rounding)
variable (R : Rounding)

/-- `POSITION_BOUNDS_TOLERANCE` (joint_limits_helpers.hpp:30), as a `double`. -/
def boundsTolR : Dbl := R.lit (2 / 1000)

/-- `OUT_OF_BOUNDS_EXCEPTION_TOLERANCE` (joint_limits_helpers.hpp:32), as a `double`. -/
def throwTolR : Dbl := R.lit (87 / 10000)

/-- `VALUE_CONSIDERED_ZERO` (joint_soft_limiter.hpp:25), as a `double`. -/
def consideredZeroR : Dbl := R.lit (1 / 10000000000)

/-- `1.0 * (M_PI / 180.0)` (joint_soft_limiter.cpp:154); the multiplication by 1 changes nothing. -/
def reachVelR : Dbl := R.div (.fin (884279719003555 / 281474976710656)) 180

/-- `verify_actual_position_within_limits` (joint_limits_helpers.cpp:49-71): true if it throws. -/
def outOfBoundsR (l : Limits) (actPos : Option Dbl) : Bool :=
  match actPos with
  | none => false
  | some p => l.hasPos && (Dbl.lt (R.add l.maxPos (throwTolR R)) p || Dbl.lt p (R.sub l.minPos (throwTolR R)))

/-- How far a position may move in a cycle (joint_limits_helpers.cpp:111-116). -/
def deltaPosR (l : Limits) (actVel : Option Dbl) (dt : Dbl) : Dbl :=
  let deltaVel := if l.hasAcc then R.add (absOf actVel) (R.mul l.maxAcc dt) else l.maxVel
  R.mul (Dbl.min l.maxVel deltaVel) dt

/-- The narrowing around the reference (joint_limits_helpers.cpp:127-130). -/
def aroundR (r : Range) (ref d : Dbl) : Range :=
  let lo := Dbl.max (Dbl.min (R.sub ref d) r.hi) r.lo
  ⟨lo, Dbl.min (Dbl.max (R.add ref d) lo) r.hi⟩

/-- `compute_position_limits` after the verification of the actual position (joint_limits_helpers.cpp:102-135). -/
def positionLimitsR (l : Limits) (actVel actPos prevPos : Option Dbl) (dt : Dbl) : Range :=
  let r : Range := ⟨l.minPos, l.maxPos⟩
  let r := if l.hasVel then
      (match posRef prevPos actPos with
       | some ref => aroundR R r ref (deltaPosR R l actVel dt)
       | none => r)
    else r
  swap r

/-- The bounds from the distance to the position limits (joint_limits_helpers.cpp:149-188). -/
def velocityNearLimitsR (l : Limits) (desired p : Dbl) (dt : Dbl) (r : Range) : Range :=
  let r : Range := ⟨Dbl.max (R.div (R.sub l.minPos p) dt) r.lo, Dbl.min (R.div (R.sub l.maxPos p) dt) r.hi⟩
  if Dbl.lt l.maxPos p || Dbl.lt p l.minPos then
    if (Dbl.lt p (R.add l.maxPos (boundsTolR R)) && Dbl.lt l.minPos p && Dbl.le 0 desired) ||
       (Dbl.lt (R.sub l.minPos (boundsTolR R)) p && Dbl.lt p l.maxPos && Dbl.le desired 0) then ⟨0, 0⟩
    else if Dbl.lt (R.add l.maxPos (boundsTolR R)) p || Dbl.lt p (R.sub l.minPos (boundsTolR R)) then ⟨0, 0⟩
    else r
  else r

/-- The bounds from the acceleration (joint_limits_helpers.cpp:189-194). -/
def velocityNearPrevR (l : Limits) (prev dt : Dbl) (r : Range) : Range :=
  ⟨Dbl.max (R.sub prev (R.mul l.maxAcc dt)) r.lo, Dbl.min (R.add prev (R.mul l.maxAcc dt)) r.hi⟩

/-- The position part of the velocity bounds (joint_limits_helpers.cpp:149-188). -/
def velocityFromPosR (l : Limits) (desired : Dbl) (actPos : Option Dbl) (dt : Dbl) (r : Range) : Range :=
  if l.hasPos then
    (match actPos with
     | some p => velocityNearLimitsR R l desired p dt r
     | none => r)
  else r

/-- The acceleration part of the velocity bounds (joint_limits_helpers.cpp:189-194). -/
def velocityFromPrevR (l : Limits) (prevVel : Option Dbl) (dt : Dbl) (r : Range) : Range :=
  if l.hasAcc then
    (match prevVel with
     | some v => velocityNearPrevR R l v dt r
     | none => r)
  else r

/-- `compute_velocity_limits` (joint_limits_helpers.cpp:137-197). -/
def velocityLimitsR (l : Limits) (desired : Dbl) (actPos prevVel : Option Dbl) (dt : Dbl) : Range :=
  if !l.hasVel then Range.all
  else swap (velocityFromPrevR R l prevVel dt (velocityFromPosR R l desired actPos dt ⟨-l.maxVel, l.maxVel⟩))

/-- `JointSaturationLimiter<JointControlInterfacesData>::on_enforce` (joint_range_limiter.cpp:44-180). -/
def saturateR (l : Limits) (actual desired prev : Data) (dt : Rat) : Out :=
  if dt ≤ 0 then { cmd := desired, prev := prev }
  else
    let prev := initPrev actual desired prev
    if numeric desired.pos && outOfBoundsR R l actual.pos then { thrown := true, cmd := desired, prev := prev }
    else
      finish
        (apply desired.pos fun _ => positionLimitsR R l actual.vel actual.pos prev.pos (.fin dt))
        (apply desired.vel fun v => velocityLimitsR R l v actual.pos prev.vel (.fin dt))
        (apply desired.eff fun _ => effortLimits l actual.pos actual.vel)
        (apply desired.acc fun a => accelerationLimits l a actual.vel)
        (apply desired.jerk fun _ => jerkLimits l)
        prev

/-! ## The soft limiter -/

/-- `has_soft_position_limits` (joint_soft_limiter.hpp:54-60). -/
def Soft.hasPosR (s : Soft) : Bool :=
  s.minPos.isFinite && s.maxPos.isFinite && Dbl.lt (consideredZeroR R) (R.sub s.maxPos s.minPos)

/-- `has_soft_limits` (joint_soft_limiter.hpp:62-67). -/
def Soft.hasR (s : Soft) : Bool := s.hasPosR R && s.kPos.isFinite && Dbl.lt (consideredZeroR R) (Dbl.abs s.kPos)

/-- `soft_min_vel` and `soft_max_vel` (joint_soft_limiter.cpp:111-161); `z` gives the signs of zeros. The flag tells
whether one of the two `std::clamp` was undefined. -/
def softVelR (l : Limits) (s : Soft) (actual prev : Data) (z : Bool × Bool) : Range × Bool :=
  let act := actPosition actual prev
  let pp := prevPosition actual prev
  if !l.hasVel then (Range.all, false)
  else if l.hasPos && s.hasR R && pp.isFinite then
    let lo := Dbl.clamp (R.mul (-s.kPos) (R.sub pp s.minPos)) (-l.maxVel) l.maxVel
    let hi := Dbl.clamp (R.mul (-s.kPos) (R.sub pp s.maxPos)) (-l.maxVel) l.maxVel
    let ub := Dbl.lt l.maxVel (-l.maxVel)
    if act.isFinite && (Dbl.lt act (R.sub l.minPos (boundsTolR R)) || Dbl.lt (R.add l.maxPos (boundsTolR R)) act) then (⟨0, 0⟩, ub)
    else if Dbl.lt act s.minPos || Dbl.lt s.maxPos act then
      (⟨copysign (reachVelR R) lo z.1, copysign (reachVelR R) hi z.2⟩, ub)
    else (⟨lo, hi⟩, ub)
  else (⟨-l.maxVel, l.maxVel⟩, false)

/-- The position range from the soft limits (joint_soft_limiter.cpp:172-179). -/
def softPosRangeR (s : Soft) : Range := if s.hasPosR R then ⟨s.minPos, s.maxPos⟩ else Range.all

/-- The range reachable with the soft velocities, inside the soft position range (joint_soft_limiter.cpp:181-185). -/
def softReachR (l : Limits) (pp : Dbl) (sv r : Range) (dt : Dbl) : Range :=
  if l.hasVel && pp.isFinite then
    let lo := Dbl.clamp (R.add pp (R.mul sv.lo dt)) r.lo r.hi
    ⟨lo, Dbl.clamp (R.add pp (R.mul sv.hi dt)) lo r.hi⟩
  else r

/-- The bounds of a position command (joint_soft_limiter.cpp:166-198). -/
def softPositionLimitsR (l : Limits) (s : Soft) (actual prev : Data) (sv : Range) (dt : Dbl) : Range :=
  softMeet (softReachR R l (prevPosition actual prev) sv (softPosRangeR R s) dt)
    (positionLimitsR R l actual.vel actual.pos prev.pos dt)

/-- Whether the second `std::clamp` of `softReachR` is undefined (the first one never is, having a proper range). -/
def softReachUbR (l : Limits) (pp : Dbl) (sv r : Range) (dt : Dbl) : Bool :=
  l.hasVel && pp.isFinite && Dbl.lt r.hi (Dbl.clamp (R.add pp (R.mul sv.lo dt)) r.lo r.hi)

/-- The soft velocities within reach of the actual velocity (joint_soft_limiter.cpp:210-218). -/
def softVelNearR (l : Limits) (actVel : Option Dbl) (sv : Range) (dt : Dbl) : Range :=
  match actVel with
  | some v => if l.hasVel && l.hasAcc then
      ⟨Dbl.max (R.sub v (R.mul l.maxAcc dt)) sv.lo, Dbl.min (R.add v (R.mul l.maxAcc dt)) sv.hi⟩ else sv
  | none => sv

/-- The bounds of a velocity command (joint_soft_limiter.cpp:204-221). -/
def softVelocityLimitsR (l : Limits) (actual prev : Data) (sv : Range) (dt : Dbl) (desired : Dbl) : Range :=
  let hard := velocityLimitsR R l desired actual.pos prev.vel dt
  let r := softVelNearR R l actual.vel sv dt
  ⟨Dbl.max r.lo hard.lo, Dbl.min r.hi hard.hi⟩

/-- `soft_min_vel` and `soft_max_vel` when the effort is handled: the velocity branch has changed them if there was a
velocity command (joint_soft_limiter.cpp:210-221). -/
def softVelAfterR (l : Limits) (actual desired prev : Data) (sv : Range) (dt : Dbl) : Range :=
  match desired.vel with
  | some v => if v.isNan then sv else softVelocityLimitsR R l actual prev sv dt v
  | none => sv

/-- The bounds of an effort command (joint_soft_limiter.cpp:230-252). -/
def softEffortLimitsR (l : Limits) (s : Soft) (actual : Data) (sv : Range) : Range :=
  let hard := effortLimits l actual.pos actual.vel
  match actual.vel with
  | some v => if l.hasEff && s.kVel.isFinite then
      ⟨Dbl.max (Dbl.clamp (R.mul (-s.kVel) (R.sub v sv.lo)) (-l.maxEff) l.maxEff) hard.lo,
       Dbl.min (Dbl.clamp (R.mul (-s.kVel) (R.sub v sv.hi)) (-l.maxEff) l.maxEff) hard.hi⟩ else hard
  | none => hard

/-- `JointSoftLimiter::on_enforce` (joint_soft_limiter.cpp:26-284). -/
def softenR (l : Limits) (s : Soft) (actual desired prev : Data) (dt : Rat) (z : Bool × Bool) : Out :=
  if dt ≤ 0 then { cmd := desired, prev := prev }
  else
    let prev := initPrev actual desired prev
    let sv := (softVelR R l s actual prev z).1
    if numeric desired.pos && outOfBoundsR R l actual.pos then
      { thrown := true, cmd := desired, prev := prev, ub := (softVelR R l s actual prev z).2 }
    else
      let out := finish
        (apply desired.pos fun _ => softPositionLimitsR R l s actual prev sv (.fin dt))
        (apply desired.vel fun v => softVelocityLimitsR R l actual prev sv (.fin dt) v)
        (apply desired.eff fun _ => softEffortLimitsR R l s actual (softVelAfterR R l actual desired prev sv (.fin dt)))
        (apply desired.acc fun a => accelerationLimits l a actual.vel)
        (apply desired.jerk fun _ => jerkLimits l)
        prev
      { out with ub := out.ub || (softVelR R l s actual prev z).2 ||
          (numeric desired.pos && softReachUbR R l (prevPosition actual prev) sv (softPosRangeR R s) (.fin dt)) ||
          (numeric desired.eff && l.hasEff && s.kVel.isFinite && actual.vel.isSome && Dbl.lt l.maxEff (-l.maxEff)) }

/-- `JointLimiterInterface::enforce` (joint_limiter_interface.hpp:207-213). -/
def enforceR (lim : Limiter) (actual desired prev : Data) (dt : Rat) (z : Bool × Bool) : Out :=
  match lim.soft with
  | none => saturateR R lim.hard actual desired prev dt
  | some s => softenR R lim.hard s actual desired prev dt z

/-- The calls of one limiter in order, from `prev_command_`; each with its result. -/
def historyR (lim : Limiter) : Data → List Call → List (Call × Out)
  | _, [] => []
  | prev, c :: cs =>
    let o := enforceR R lim c.actual c.desired prev c.dt c.z
    (c, o) :: historyR lim o.prev cs

/-! ## Without rounding -/

open Rounding in
/-- Without rounding, these are the limiters of `Num/Limits.lean`. -/
theorem enforceR_exact : enforceR Rounding.exact = enforce := by
  have e1 : outOfBoundsR Rounding.exact = outOfBounds := by
    funext l p; unfold outOfBoundsR outOfBounds; simp only [exact_add, exact_sub]; rfl
  have e2 : positionLimitsR Rounding.exact = positionLimits := by
    funext l av ap pp dt
    simp only [positionLimitsR, positionLimits, aroundR, around, deltaPosR, deltaPos, exact_add, exact_sub, exact_mul]
    rfl
  have e3 : velocityLimitsR Rounding.exact = velocityLimits := by
    funext l d ap pv dt
    simp only [velocityLimitsR, velocityLimits, velocityFromPrevR, velocityFromPrev, velocityFromPosR, velocityFromPos, velocityNearPrevR,
      velocityNearPrev, velocityNearLimitsR, velocityNearLimits, exact_add, exact_sub, exact_mul, exact_div]
    rfl
  have e4 : Soft.hasPosR Rounding.exact = Soft.hasPos := by
    funext s; simp only [Soft.hasPosR, Soft.hasPos, exact_sub]; rfl
  have e5 : Soft.hasR Rounding.exact = Soft.has := by
    funext s; simp only [Soft.hasR, Soft.has, e4]; rfl
  have e6 : reachVelR Rounding.exact = reachVel := by
    simp only [reachVelR, exact_div]; decide +kernel
  have e7 : boundsTolR Rounding.exact = boundsTol := rfl
  have e8 : softVelR Rounding.exact = softVel := by
    funext l s a p z
    simp only [softVelR, softVel, e5, e6, e7, exact_add, exact_sub, exact_mul]
  have e9 : softPosRangeR Rounding.exact = softPosRange := by
    funext s; simp only [softPosRangeR, softPosRange, e4]
  have e10 : softReachR Rounding.exact = softReach := by
    funext l pp sv r dt; simp only [softReachR, softReach, exact_add, exact_mul]
  have e11 : softReachUbR Rounding.exact = softReachUb := by
    funext l pp sv r dt; simp only [softReachUbR, softReachUb, exact_add, exact_mul]
  have e12 : softVelocityLimitsR Rounding.exact = softVelocityLimits := by
    funext l a p sv dt d; simp only [softVelocityLimitsR, softVelocityLimits, softVelNearR, softVelNear, e3, exact_add, exact_sub, exact_mul]
    rfl
  have e13 : softEffortLimitsR Rounding.exact = softEffortLimits := by
    funext l s a sv; simp only [softEffortLimitsR, softEffortLimits, exact_sub, exact_mul]
    rfl
  have e14 : softVelAfterR Rounding.exact = softVelAfter := by
    funext l a d p sv dt; simp only [softVelAfterR, softVelAfter, e12]
    rfl
  have e15 : softPositionLimitsR Rounding.exact = softPositionLimits := by
    funext l s a p sv dt; simp only [softPositionLimitsR, softPositionLimits, e2, e9, e10]
  funext lim a d p dt z
  simp only [enforceR, enforce, saturateR, saturate, softenR, soften, e1, e2, e3, e8, e9, e11, e12, e13, e14, e15]
  rfl

end Verif.Lim
