import Verif.Text.Parse
import Verif.Desc.Limits
import Verif.Hw.Export
/-!
# Parsing the `<ros2_control>` tags of a robot description

`hardware_interface/src/component_parser.cpp`: from the XML tree to `HardwareInfo`. The XML library (tinyxml2) is not part
of the repository: its result, a tree of elements, is input. Attribute values and texts are lists of characters.

Simplified: messages are left out; `original_xml` is left out; `std::unordered_map` is an association list in the order of first
insertion (nothing here depends on the order); the stack and heap are unbounded.
-/
namespace Verif.Xml
open Verif.Text (Out strip parseBool stod scanInt parseIntArray toLowerCase Re isDigit)
open Verif.Desc (MimicAttr)

abbrev Str := List Char

/-- `tinyxml2::XMLElement`: its name, its attributes, what `GetText()` answers, and the elements it contains, in order. -/
inductive Elem where
  | mk (tag : String) (attrs : List (String × Str)) (text : Option Str) (kids : List Elem)

/-- `Name()` (component_parser.cpp:451). -/
def Elem.tag : Elem → String
  | .mk t _ _ _ => t

/-- The attributes, searched by `FindAttribute` (component_parser.cpp:119). -/
def Elem.attrs : Elem → List (String × Str)
  | .mk _ a _ _ => a

/-- `GetText()` (component_parser.cpp:96). -/
def Elem.text : Elem → Option Str
  | .mk _ _ x _ => x

/-- The child elements (`FirstChildElement()` and `NextSiblingElement()`, component_parser.cpp:711, 793). -/
def Elem.kids : Elem → List Elem
  | .mk _ _ _ k => k

/-- What is thrown: `std::runtime_error`, `std::invalid_argument`, `std::out_of_range`; or undefined behaviour
(component_parser.cpp throughout). -/
inductive Exc
  | runtime
  | invalid
  | range
  | ub
  deriving DecidableEq, Repr

abbrev R := Except Exc

/-- Exceptions of the conversions (lexical_casts.hpp, used in component_parser.cpp throughout) as they are. -/
def lift {α : Type} : Out α → R α
  | .ok a => .ok a
  | .invalid => .error .invalid
  | .range => .error .range
  | .ub => .error .ub

/-- `FindAttribute(k)->Value()`, nothing if there is no such attribute (component_parser.cpp:119). -/
def Elem.find (e : Elem) (k : String) : Option Str := (e.attrs.find? (fun p => p.1 = k)).map (·.2)

/-- `FirstChildElement(t)` (component_parser.cpp:408). -/
def Elem.first (e : Elem) (t : String) : Option Elem := e.kids.find? (fun c => c.tag = t)

/-- All of `FirstChildElement(t)` and `NextSiblingElement(t)` (component_parser.cpp:479-486, 371). -/
def Elem.all (e : Elem) (t : String) : List Elem := e.kids.filter (fun c => c.tag = t)

/-- `get_text_for_element` (component_parser.cpp:93-103). -/
def textOf (e : Elem) : Str :=
  match e.text with
  | none => []
  | some t => strip t

/-- `get_attribute_value` (component_parser.cpp:115-134). -/
def attr (e : Elem) (k : String) : R Str :=
  match e.find k with
  | none => .error .runtime
  | some v => .ok (strip v)

/-- `get_parameter_value_or` (component_parser.cpp:161-188) on these elements; `round` rounds to a `double`, `none` if out of range. -/
def numberOr (round : Rat → Option Rat) (k : String) (d : Rat) : List Elem → Rat
  | [] => d
  | e :: es =>
    if e.tag = k then
      match e.text with
      | some t => match stod round (strip t) with
        | .ok x => x
        | _ => d
      | none => numberOr round k d es
    else numberOr round k d es

/-- The regular expression `[1-9][0-9]*` (component_parser.cpp:211, 327). -/
def positiveRe : Re := .seq (.cls (fun c => isDigit c && c != '0')) (.star (.cls isDigit))

/-- `std::stoi`: blanks, a sign, digits; what follows is ignored (component_parser.cpp:214, 266, 330). -/
def stdStoi (s : Str) : R Int :=
  match scanInt s with
  | none => .error .invalid
  | some (neg, a, _) =>
    let v : Int := if neg then -(a : Int) else a
    if v < -2 ^ 31 ∨ 2 ^ 31 - 1 < v then .error .range else .ok v

/-- The conversion of a positive number in `parse_size_attribute` and `parse_thread_priority_attribute` (component_parser.cpp:210-224, 326-340). -/
def positive (s : Str) : R Int := if positiveRe.accepts s then stdStoi s else .error .runtime

/-- `parse_size_attribute` (component_parser.cpp:199-227). -/
def sizeOf (e : Elem) : R Int :=
  match e.find "size" with
  | none => .ok 1
  | some v => positive (strip v)

/-- `parse_data_type_attribute` (component_parser.cpp:237-251). -/
def dataType (e : Elem) : Str :=
  match e.find "data_type" with
  | none => "double".toList
  | some v => strip v

/-- `parse_rw_rate_attribute` (component_parser.cpp:261-295). -/
def rwRate (e : Elem) : R Nat :=
  match e.find "rw_rate" with
  | none => .ok 0
  | some v => match stdStoi (strip v) with
    | .error _ => .error .runtime
    | .ok n => if n < 0 then .error .runtime else .ok n.toNat

/-- `parse_is_async_attribute` (component_parser.cpp:305-309). -/
def isAsync (e : Elem) : R Bool :=
  match e.find "is_async" with
  | none => .ok false
  | some v => lift (parseBool (strip v))

/-- `parse_thread_priority_attribute` (component_parser.cpp:319-341). -/
def threadPriority (e : Elem) : R Int :=
  match e.find "thread_priority" with
  | none => .ok 50
  | some v => positive (strip v)

/-- `map[k] = v` (component_parser.cpp:369). -/
def assign (m : List (Str × Str)) (k v : Str) : List (Str × Str) :=
  match m with
  | [] => [(k, v)]
  | p :: t => if p.1 = k then (k, v) :: t else p :: assign t k v

/-- `parse_parameters_from_xml` (component_parser.cpp:349-374) on these `param` elements. -/
def params : List Elem → List (Str × Str) → R (List (Str × Str))
  | [], m => .ok m
  | e :: es, m =>
    match e.find "name" with
    | none => .error .runtime
    | some n => params es (assign m (strip n) (strip (textOf e)))

/-- `map.find(k)` (component_parser.cpp:395). -/
def get (m : List (Str × Str)) (k : Str) : Option Str := (m.find? (fun p => p.1 = k)).map (·.2)

/-- `InterfaceInfo` (hardware_info.hpp:41-64). -/
structure Itf where
  name : Str
  min : Str
  max : Str
  initial : Str
  dataType : Str
  size : Int
  params : List (Str × Str)
  enable : Bool
  deriving DecidableEq, Repr

/-- The option to disable limits (component_parser.cpp:407-413, 470-476). -/
def enabled (e : Elem) : R Bool :=
  match e.first "limits" with
  | none => .ok true
  | some l => match attr l "enable" with
    | .error x => .error x
    | .ok v => lift (parseBool v)

/-- `parse_interfaces_from_xml` (component_parser.cpp:383-437). The second parse of the parameters gives the same result. -/
def itf (e : Elem) : R Itf := do
  let name ← attr e "name"
  let ps ← params (e.all "param") []
  let en ← enabled e
  let size ← sizeOf e
  return {
    name := name
    min := (get ps "min".toList).getD []
    max := (get ps "max".toList).getD []
    initial := (get ps "initial_value".toList).getD []
    dataType := dataType e
    size := size
    params := ps
    enable := en }

/-- Convert one after the other; the first exception decides (the loops at component_parser.cpp:480-496, 526-541, 606-619, 1021-1025). -/
def each {α β : Type} (f : α → R β) : List α → R (List β)
  | [] => .ok []
  | a :: t => do
    let b ← f a
    let bs ← each f t
    return b :: bs

/-- `ComponentInfo` (hardware_info.hpp:87-112). -/
structure Comp where
  name : Str
  type : String
  mimic : MimicAttr
  enable : Bool
  cmds : List Itf
  states : List Itf
  params : List (Str × Str)
  deriving DecidableEq, Repr

/-- The `mimic` attribute: `std::runtime_error` is caught, other exceptions are not (component_parser.cpp:454-467). -/
def mimicOf (e : Elem) : R MimicAttr :=
  match (do let v ← attr e "mimic"; lift (parseBool v) : R Bool) with
  | .ok true => .ok .true
  | .ok false => .ok .false
  | .error .runtime => .ok .notSet
  | .error x => .error x

/-- The `mimic` attribute is looked at for joints only (component_parser.cpp:454). -/
def mimicAttr (e : Elem) : R MimicAttr := if e.tag = "joint" then mimicOf e else .ok .notSet

/-- `parse_component_from_xml` (component_parser.cpp:446-506). -/
def comp (e : Elem) : R Comp := do
  let name ← attr e "name"
  let mimic ← mimicAttr e
  let en ← enabled e
  let cmds ← each itf (e.all "command_interface")
  let states ← each itf (e.all "state_interface")
  let ps ← params (e.all "param") []
  return {
    name := name, type := e.tag, mimic := mimic, enable := en
    cmds := cmds.map (fun i => { i with enable := i.enable && en })
    states := states.map (fun i => { i with enable := i.enable && en })
    params := ps }

/-- `parse_complex_component_from_xml` (component_parser.cpp:517-551). -/
def gpio (e : Elem) : R Comp := do
  let name ← attr e "name"
  let cmds ← each itf (e.all "command_interface")
  let states ← each itf (e.all "state_interface")
  let ps ← params (e.all "param") []
  return { name := name, type := e.tag, mimic := .notSet, enable := true, cmds := cmds, states := states, params := ps }

/-- `JointInfo` and `ActuatorInfo` (hardware_info.hpp:115-136). -/
structure TPart where
  name : Str
  states : List Str
  cmds : List Str
  role : Str
  reduction : Rat
  offset : Rat
  readOnly : Bool
  deriving DecidableEq, Repr

/-- `TransmissionInfo` (hardware_info.hpp:139-148). -/
structure Trans where
  name : Str
  type : Str
  joints : List TPart
  actuators : List TPart
  params : List (Str × Str)
  deriving DecidableEq, Repr

/-- The `read_only` attribute (component_parser.cpp:558-560, 573-575). -/
def readOnly (e : Elem) : R Bool :=
  match e.find "read_only" with
  | none => .ok false
  | some v => lift (parseBool (strip v))

/-- `parse_transmission_joint_from_xml` and `parse_transmission_actuator_from_xml` (component_parser.cpp:553-581). -/
def tpart (round : Rat → Option Rat) (e : Elem) : R TPart := do
  let name ← attr e "name"
  let role ← attr e "role"
  let ro ← readOnly e
  return {
    name := name, states := [], cmds := [], role := role
    reduction := numberOr round "mechanical_reduction" 1 e.kids
    offset := numberOr round "offset" 0 e.kids
    readOnly := ro }

/-- The `plugin` tag a transmission or a hardware must have (component_parser.cpp:595-603, 716-725). -/
def pluginOf (e : Elem) : R Str :=
  match e.first "plugin" with
  | none => .error .runtime
  | some p => .ok (textOf p)

/-- `parse_transmission_from_xml` (component_parser.cpp:589-629). -/
def trans (round : Rat → Option Rat) (e : Elem) : R Trans := do
  let name ← attr e "name"
  let type ← pluginOf e
  let joints ← each (tpart round) (e.all "joint")
  let actuators ← each (tpart round) (e.all "actuator")
  let ps ← params (e.all "param") []
  return { name := name, type := type, joints := joints, actuators := actuators, params := ps }

/-- `HardwareInfo` (hardware_info.hpp:372-430), as far as it is filled by the first pass. -/
structure Hw where
  name : Str
  type : Str
  rwRate : Nat
  isAsync : Bool
  priority : Int
  policy : Str := "synchronized".toList
  cores : List Int := []
  warn : Bool := true
  plugin : Str := []
  group : Str := []
  params : List (Str × Str) := []
  joints : List Comp := []
  sensors : List Comp := []
  gpios : List Comp := []
  trans : List Trans := []
  deriving DecidableEq, Repr

/-- The group of a `<hardware>` tag; without one, what was there before (component_parser.cpp:726-730). -/
def groupOf (old : Str) (e : Elem) : Str :=
  match e.first "group" with
  | some g => textOf g
  | none => old

/-- The parameters of a `<hardware>` tag; without any, what was there before (component_parser.cpp:731-735). -/
def paramsOf (old : List (Str × Str)) (e : Elem) : R (List (Str × Str)) :=
  if (e.all "param").isEmpty then .ok old else params (e.all "param") []

/-- A `<hardware>` tag (component_parser.cpp:714-736). -/
def onHardware (h : Hw) (e : Elem) : R Hw := do
  let plugin ← pluginOf e
  let ps ← paramsOf h.params e
  return { h with plugin := plugin, group := groupOf h.group e, params := ps }

/-- The attribute `affinity` of an `<async>` tag (component_parser.cpp:745-749). -/
def coresOf (round : Rat → Option Rat) (old : List Int) (e : Elem) : R (List Int) :=
  match e.find "affinity" with
  | none => .ok old
  | some v => lift (parseIntArray round id (-2 ^ 31) (2 ^ 31 - 1) (strip v))

/-- The attribute `scheduling_policy` (component_parser.cpp:750-754). -/
def policyOf (old : Str) (e : Elem) : Str :=
  match e.find "scheduling_policy" with
  | none => old
  | some v => toLowerCase (strip v)

/-- The attribute `thread_priority` of an `<async>` tag (component_parser.cpp:755-758). -/
def asyncPriority (old : Int) (e : Elem) : R Int :=
  match e.find "thread_priority" with
  | none => .ok old
  | some _ => threadPriority e

/-- The attribute `print_warnings` (component_parser.cpp:759-763). -/
def warnOf (old : Bool) (e : Elem) : R Bool :=
  match e.find "print_warnings" with
  | none => .ok old
  | some v => lift (parseBool (strip v))

/-- An `<async>` tag, inside the `try` (component_parser.cpp:743-764). -/
def onAsync (round : Rat → Option Rat) (h : Hw) (e : Elem) : R Hw := do
  let cores ← coresOf round h.cores e
  let prio ← asyncPriority h.priority e
  let warn ← warnOf h.warn e
  return { h with cores := cores, policy := policyOf h.policy e, priority := prio, warn := warn }

/-- A `<properties>` tag: all exceptions become `std::runtime_error` (component_parser.cpp:737-771). -/
def onProperties (round : Rat → Option Rat) (h : Hw) (e : Elem) : R Hw :=
  match e.first "async" with
  | none => .ok h
  | some a => match onAsync round h a with
    | .ok h' => .ok h'
    | .error .ub => .error .ub
    | .error _ => .error .runtime

/-- The body of the loop over the tags inside `<ros2_control>` (component_parser.cpp:714-792). -/
def child (round : Rat → Option Rat) (h : Hw) (e : Elem) : R Hw :=
  if e.tag = "hardware" then onHardware h e
  else if e.tag = "properties" then onProperties round h e
  else if e.tag = "joint" then (comp e).map (fun c => { h with joints := h.joints ++ [c] })
  else if e.tag = "sensor" then (comp e).map (fun c => { h with sensors := h.sensors ++ [c] })
  else if e.tag = "gpio" then (gpio e).map (fun c => { h with gpios := h.gpios ++ [c] })
  else if e.tag = "transmission" then (trans round e).map (fun t => { h with trans := h.trans ++ [t] })
  else .error .runtime

/-- The loop (component_parser.cpp:711-794). -/
def children (round : Rat → Option Rat) : List Elem → Hw → R Hw
  | [], h => .ok h
  | e :: es, h => match child round h e with
    | .error x => .error x
    | .ok h' => children round es h'

/-- The interfaces of a joint of a transmission (component_parser.cpp:640-668). -/
def fillJoint (js : List Comp) (t : TPart) : R TPart :=
  match js.find? (fun j => j.name = t.name) with
  | none => .error .runtime
  | some j => .ok { t with cmds := t.cmds ++ j.cmds.map (·.name), states := t.states ++ j.states.map (·.name) }

/-- The actuators of a transmission: those written, and for an actuator component, which may have one joint only, one more
(component_parser.cpp:670-686). -/
def fillActuators (type : Str) (joints written : List TPart) : R (List TPart) :=
  if type = "actuator".toList then
    match joints with
    | [j] => .ok (written ++ [⟨"actuator1".toList, j.states, j.cmds, "actuator1".toList, 1, 0, false⟩])
    | _ => .error .runtime
  else .ok written

/-- The body of the loop of `auto_fill_transmission_interfaces` (component_parser.cpp:638-687). -/
def fillTrans (type : Str) (js : List Comp) (t : Trans) : R Trans := do
  let joints ← each (fillJoint js) t.joints
  let actuators ← fillActuators type joints t.actuators
  return { t with joints := joints, actuators := actuators }

/-- The priority of the thread, if there is one (component_parser.cpp:705-707). -/
def priorityOf (e : Elem) (as : Bool) : R Int := if as = true then threadPriority e else .ok (2 ^ 31 - 1)

/-- The state before the tags inside `<ros2_control>` are looked at (component_parser.cpp:700-710). -/
def blank (name type : Str) (rate : Nat) (as : Bool) (prio : Int) : Hw :=
  { name := name, type := type, rwRate := rate, isAsync := as, priority := prio }

/-- `parse_resource_from_xml` (component_parser.cpp:697-801). -/
def resource (round : Rat → Option Rat) (e : Elem) : R Hw := do
  let name ← attr e "name"
  let type ← attr e "type"
  let rate ← rwRate e
  let as ← isAsync e
  let prio ← priorityOf e as
  let h ← children round e.kids (blank name type rate as prio)
  let ts ← each (fillTrans h.type h.joints) h.trans
  return { h with trans := ts }

/-- What the XML library makes of the text: an error (also for an empty text), or a document with or without a root element
(component_parser.cpp:978-994). -/
inductive Doc
  | bad
  | noRoot
  | root (e : Elem)

/-- Where the `<ros2_control>` tags are searched (component_parser.cpp:995-1012). -/
def container : Doc → R Elem
  | .bad => .error .runtime
  | .noRoot => .error .ub
  | .root e =>
    if e.tag = "robot" then .ok e
    else if e.tag = "sdf" then
      match e.first "model" with
      | none => .error .ub
      | some m => .ok m
    else .error .runtime

/-- The first pass of `parse_control_resources_from_urdf` (component_parser.cpp:975-1025). -/
def parse (round : Rat → Option Rat) (d : Doc) : R (List Hw) := do
  let c ← container d
  if (c.all "ros2_control").isEmpty then .error .runtime
  else each (resource round) (c.all "ros2_control")

/-! ## The second pass -/

/-- The names the limits depend on (component_parser.cpp:848-952); `code` numbers all names. -/
def toIName (code : Str → Nat) (n : Str) : Desc.IName :=
  if n = "position".toList then .position
  else if n = "velocity".toList then .velocity
  else if n = "effort".toList then .effort
  else if n = "acceleration".toList then .acceleration
  else if n = "jerk".toList then .jerk
  else .other (code n)

/-- A joint as the second pass sees it (component_parser.cpp:1030-1100). -/
def toJoint (code : Str → Nat) (c : Comp) : Desc.Joint :=
  { name := code c.name
    cmds := c.cmds.map (fun i => ⟨toIName code i.name, i.min, i.max, i.enable⟩)
    mimic := c.mimic
    enable := c.enable }

/-- A tag as the second pass sees it (component_parser.cpp:1027-1101). -/
def toDesc (code : Str → Nat) (h : Hw) : Desc.Hw := ⟨code h.name, h.joints.map (toJoint code)⟩

/-- `parse_control_resources_from_urdf` (component_parser.cpp:975-1109). `urdf` is the result of `urdf::Model::initString`, nothing if it
fails. -/
def parseAll (round : Rat → Option Rat) (code : Str → Nat) (urdf : Option (Nat → Option Desc.UJoint)) (d : Doc) :
    R (List (Hw × Desc.Filled)) := do
  let hs ← parse round d
  match urdf with
  | none => .error .runtime
  | some u => match Desc.parse round u (hs.map (toDesc code)) with
    | .error _ => .error .runtime
    | .ok fs => return hs.zip (fs.map (·.2))

/-! ## After parsing -/

/-- The rate of a component (resource_manager.cpp:1541-1546). -/
def effectiveRate (updateRate : Nat) (h : Hw) : Nat := if h.rwRate = 0 ∨ updateRate < h.rwRate then updateRate else h.rwRate

/-- The type of a component (resource_manager.cpp:1548-1604): nothing if it is none of the three, in which case the component is not loaded. -/
def kindOf (h : Hw) : Option Exp.Kind :=
  if h.type = "actuator".toList then some .actuator
  else if h.type = "sensor".toList then some .sensor
  else if h.type = "system".toList then some .system
  else none

/-- A component part as exporting sees it (hardware_info.hpp:322-331); `init` makes the first content of a handle. -/
def toPart {V : Type} (init : Itf → V) (c : Comp) : Exp.Part V :=
  { name := c.name
    states := c.states.map (fun i => ⟨i.name, init i⟩)
    cmds := c.cmds.map (fun i => ⟨i.name, init i⟩) }

end Verif.Xml
