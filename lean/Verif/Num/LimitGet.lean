import Verif.Num.LimitParams
/-!
# Reading joint limits from the parameters of a node

joint_limits/include/joint_limits/joint_limits_rosparam.hpp: `declare_parameters` and the two functions `get_joint_limits`, the soft
`check_for_limits_update`, and the part of `JointLimiterInterface::init` that uses them. Parameters are known by their full names
here, as texts.

Simplified: a function that throws gives `none`; what it had assigned before is not kept. `has_parameter`, `get_parameter` and
`declare_parameter` of `rclcpp` are those of a table from names to values; the override of a parameter (from a YAML file or the command
line) is used when it is declared, and a value of another type than the default throws.
-/
namespace Verif.LimParam
open Verif (Dbl)

/-- The table of parameters: `has_parameter`, `get_parameter`. -/
abbrev Store := String → Option Val

/-- The last part of the name of a parameter (joint_limits_rosparam.hpp:96-116). -/
def Num.text : Num → String
  | .minPos => "min_position"
  | .maxPos => "max_position"
  | .maxVel => "max_velocity"
  | .maxAcc => "max_acceleration"
  | .maxDec => "max_deceleration"
  | .maxJerk => "max_jerk"
  | .maxEff => "max_effort"

/-- The same for the boolean parameters (joint_limits_rosparam.hpp:96-116). -/
def Flag.text : Flag → String
  | .pos => "has_position_limits"
  | .vel => "has_velocity_limits"
  | .acc => "has_acceleration_limits"
  | .dec => "has_deceleration_limits"
  | .jerk => "has_jerk_limits"
  | .eff => "has_effort_limits"
  | .wrap => "angle_wraparound"

def Key.text : Key → String
  | .num k => k.text
  | .flag f => f.text

/-- The numeric parameters of soft limits. -/
inductive SNum | kPos | kVel | lower | upper
  deriving DecidableEq, Repr

/-- The parameters of soft limits. -/
inductive SKey
  | has
  | num (k : SNum)
  deriving DecidableEq, Repr

/-- The last part of the name of a parameter of soft limits (joint_limits_rosparam.hpp:117-125). -/
def SKey.text : SKey → String
  | .has => "has_soft_limits"
  | .num .kPos => "k_position"
  | .num .kVel => "k_velocity"
  | .num .lower => "soft_lower_limit"
  | .num .upper => "soft_upper_limit"

/-- All parameters of a joint. -/
inductive AKey
  | hard (k : Key)
  | soft (k : SKey)
  deriving DecidableEq, Repr

def AKey.text : AKey → String
  | .hard k => k.text
  | .soft k => k.text

/-- `param_base_name + "." + key` (joint_limits_rosparam.hpp:93, 96-125). -/
def pname (j : String) (k : AKey) : String := "joint_limits." ++ j ++ "." ++ k.text

/-- A numeric parameter of the joint. -/
def pnum (j : String) (k : Num) : String := pname j (.hard (.num k))

/-- A boolean parameter of the joint. -/
def pflag (j : String) (f : Flag) : String := pname j (.hard (.flag f))

/-- The numbers read if a flag is set. -/
def numsOf : Flag → List Num
  | .pos => [.minPos, .maxPos]
  | .vel => [.maxVel]
  | .acc => [.maxAcc]
  | .dec => [.maxDec]
  | .jerk => [.maxJerk]
  | .eff => [.maxEff]
  | .wrap => []

/-- The assignments `limits.x = get_parameter(x).as_double()` one after the other; `as_double` of another type throws. -/
def takeNums (s : Store) (j : String) : List Num → L → Option L
  | [], l => some l
  | k :: ks, l =>
    match s (pnum j k) with
    | some (.dbl d) => takeNums s j ks (l.setNum k d)
    | _ => none

/-- One of the six blocks (joint_limits_rosparam.hpp:270-285, 296-309, 311-327, 329-345, 347-360, 362-376). -/
def readGroup (s : Store) (j : String) (f : Flag) (l : L) : Option L :=
  match s (pflag j f) with
  | none => some l
  | some (.bool b) =>
    if b && (numsOf f).all (fun k => (s (pnum j k)).isSome) then takeNums s j (numsOf f) (l.setFlag f true)
    else some (l.setFlag f false)
  | some _ => none

/-- The end of the first block (joint_limits_rosparam.hpp:287-293): inside `if (has_parameter(".has_position_limits"))`. -/
def readWrap (s : Store) (j : String) (l : L) : Option L :=
  if (s (pflag j .pos)).isSome && !l.flag .pos then
    match s (pflag j .wrap) with
    | none => some l
    | some (.bool b) => some (l.setFlag .wrap b)
    | some _ => none
  else some l

/-- What a call of `get_joint_limits` does: it returns true, returns false (`limits` untouched), or throws. -/
inductive Got
  | found (l : L)
  | missing
  | throws

/-- The keys of the hard limits. -/
def hardKeys : List Key :=
  [.flag .pos, .num .minPos, .num .maxPos, .flag .vel, .num .maxVel, .flag .acc, .num .maxAcc, .flag .dec, .num .maxDec, .flag .jerk,
   .num .maxJerk, .flag .eff, .num .maxEff, .flag .wrap]

/-- Several blocks one after the other. -/
def readGroups (s : Store) (j : String) : List Flag → L → Option L
  | [], l => some l
  | f :: fs, l => (readGroup s j f l).bind (readGroups s j fs)

/-- The blocks in their order (joint_limits_rosparam.hpp:270-376). -/
def readAll (s : Store) (j : String) (l : L) : Option L :=
  (readGroup s j .pos l).bind fun l => (readWrap s j l).bind (readGroups s j [.vel, .acc, .dec, .jerk, .eff])

/-- `get_joint_limits` of hard limits (joint_limits_rosparam.hpp:231-379). -/
def getHard (s : Store) (j : String) (l : L) : Got :=
  if hardKeys.all (fun k => (s (pname j (.hard k))).isNone) then .missing
  else match readAll s j l with
    | some l => .found l
    | none => .throws

/-- `SoftJointLimits` (joint_limits.hpp:129-143) by key. -/
abbrev SL := SNum → Dbl

/-- Assignment to a member. -/
def SL.set (l : SL) (k : SNum) (d : Dbl) : SL := fun x => if x = k then d else l x

/-- The four assignments (joint_limits_rosparam.hpp:711-718). -/
def takeSoft (s : Store) (j : String) : List SNum → SL → Option SL
  | [], l => some l
  | k :: ks, l =>
    match s (pname j (.soft (.num k))) with
    | some (.dbl d) => takeSoft s j ks (l.set k d)
    | _ => none

/-- The members in the order of their assignments. -/
def softNums : List SNum := [.kPos, .kVel, .lower, .upper]

/-- `get_joint_limits` of soft limits (joint_limits_rosparam.hpp:671-724; the check whether any of the five exists, lines 678-699, does not
make a difference): the result and the soft limits, or `none` if it throws. -/
def getSoft (s : Store) (j : String) (l : SL) : Option (Bool × SL) :=
  match s (pname j (.soft .has)) with
  | none => some (false, l)
  | some (.bool b) =>
    if b && softNums.all (fun k => (s (pname j (.soft (.num k)))).isSome) then (takeSoft s j softNums l).map (true, ·)
    else some (false, l)
  | some _ => none

/-- One of the `parameters` handed to the soft `check_for_limits_update`: its full name and value. -/
structure NVal where
  name : String
  val : Val
  deriving DecidableEq, Repr

/-- One round of the second loop (joint_limits_rosparam.hpp:815-846). -/
def softStep (j : String) (st : SL × Bool) (p : NVal) : SL × Bool :=
  match softNums.find? (fun k => p.name == pname j (.soft (.num k))) with
  | none => st
  | some k =>
    match p.val with
    | .dbl d => (st.1.set k d, Sat.differ (st.1 k) d)
    | _ => st

/-- The soft `check_for_limits_update` (joint_limits_rosparam.hpp:784-849): the soft limits afterwards and its result. -/
def softCheck (j : String) (ps : List NVal) (l : SL) : SL × Bool :=
  if ps.any (fun p => p.name == pname j (.soft .has) && p.val == .bool false) then (l, false)
  else ps.foldl (softStep j) (l, false)

/-! ### Declaring and initialising -/

/-- The default of a parameter (joint_limits_rosparam.hpp:96-125). -/
def AKey.default : AKey → Val
  | .hard (.num _) => .dbl .nan
  | .hard (.flag _) => .bool false
  | .soft (.num _) => .dbl .nan
  | .soft .has => .bool false

/-- Do two values have the same type? -/
def Val.sameType : Val → Val → Bool
  | .dbl _, .dbl _ => true
  | .bool _, .bool _ => true
  | _, _ => false

/-- The table with one entry changed. -/
def Store.put (s : Store) (n : String) (v : Val) : Store := fun x => if x = n then some v else s x

/-- `auto_declare` (joint_limits_rosparam.hpp:39-51): `s` are the declared parameters, `o` the overrides; `none` if it throws. -/
def autoDeclare (o : Store) (s : Store) (n : String) (dflt : Val) : Option Store :=
  match s n with
  | some v => if v.sameType dflt then some s else none
  | none =>
    let v := (o n).getD dflt
    if v.sameType dflt then some (s.put n v) else none

/-- All parameters in the order of their declaration. -/
def allKeys : List AKey :=
  [.hard (.flag .pos), .hard (.num .minPos), .hard (.num .maxPos), .hard (.flag .vel), .hard (.num .maxVel), .hard (.flag .acc),
   .hard (.num .maxAcc), .hard (.flag .dec), .hard (.num .maxDec), .hard (.flag .jerk), .hard (.num .maxJerk), .hard (.flag .eff),
   .hard (.num .maxEff), .hard (.flag .wrap), .soft .has, .soft (.num .kPos), .soft (.num .kVel), .soft (.num .lower),
   .soft (.num .upper)]

/-- Several `auto_declare` one after the other. -/
def declareKeys (o : Store) (j : String) : List AKey → Store → Option Store
  | [], s => some s
  | k :: ks, s => (autoDeclare o s (pname j k) k.default).bind (declareKeys o j ks)

/-- `declare_parameters` (joint_limits_rosparam.hpp:88-133); `none` if it returns false. -/
def declare (o : Store) (j : String) (s : Store) : Option Store := declareKeys o j allKeys s

/-- `JointLimits()` (joint_limits.hpp:37-54). -/
def noLimits : L := { num := fun _ => .nan, flag := fun _ => false }

/-- The loop of `init` (joint_limiter_interface.hpp:73-93): the parameters and the limits of all joints afterwards; `none` if `init`
returns false or throws. The limits are those of a limiter that was not initialised before. -/
def initLimits (o : Store) : List String → Store → Option (Store × List L)
  | [], s => some (s, [])
  | j :: js, s =>
    (declare o j s).bind fun s =>
      match getHard s j noLimits with
      | .found l => (initLimits o js s).map fun r => (r.1, l :: r.2)
      | _ => none

end Verif.LimParam
