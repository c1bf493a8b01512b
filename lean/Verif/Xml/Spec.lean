import Verif.Xml.Model
import Verif.Props.C31_C47_C49_Text
import Verif.Desc.LimitsSpec
/-!
# What a robot description says

The vocabulary of the theorems of C58: what is written in the tree of elements, without reference to how it is parsed.
-/
namespace Verif.Xml
open Verif.Text (Blanks Digits decimalValue Spelled trueWord falseWord ListText IntText SignText)
open Verif.Desc (MimicAttr)

/-! ## Texts -/

/-- `v` is `raw` without the blanks around it. -/
def Trimmed (raw v : Str) : Prop :=
  ∃ a b, raw = a ++ v ++ b ∧ Blanks a ∧ Blanks b ∧ (∀ c t, v = c :: t → ¬ Blanks [c]) ∧ (∀ c t, v = t ++ [c] → ¬ Blanks [c])

/-- `true` or `false`, in small or capital letters. -/
def BoolText (v : Str) (b : Bool) : Prop := Spelled v (if b then trueWord else falseWord)

/-- A positive whole number without leading zeros that fits into 31 bits. -/
def PosText (v : Str) (n : Int) : Prop :=
  (∃ c t, v = c :: t ∧ c ≠ '0') ∧ Digits v ∧ n = decimalValue v ∧ n < 2 ^ 31

/-- A whole number that fits into 31 bits, with an optional plus sign (or minus zero), followed by anything that is not a digit. -/
def RateText (v : Str) (n : Nat) : Prop :=
  ∃ w sg neg ds rest, v = w ++ sg ++ ds ++ rest ∧ Blanks w ∧ SignText sg neg ∧ Digits ds ∧ ds ≠ [] ∧
    (∀ c t, rest = c :: t → ¬ Digits [c]) ∧ n = decimalValue ds ∧ n < 2 ^ 31 ∧ (neg = true → n = 0)

/-! ## Elements -/

/-- `e` has an attribute `k`; its value, without blanks around it, is `v`. -/
def Has (e : Elem) (k : String) (v : Str) : Prop :=
  ∃ a raw b, e.attrs = a ++ (k, raw) :: b ∧ (∀ p ∈ a, p.1 ≠ k) ∧ Trimmed raw v

/-- `e` has no attribute `k`. -/
def Lacks (e : Elem) (k : String) : Prop := ∀ p ∈ e.attrs, p.1 ≠ k

/-- The text of `e`, without blanks around it, is `v`; no text counts as the empty one. -/
def TextIs (e : Elem) (v : Str) : Prop := (e.text = none ∧ v = []) ∨ ∃ raw, e.text = some raw ∧ Trimmed raw v

/-- `c` is the first element called `t` inside `e`. -/
def FirstTag (e : Elem) (t : String) (c : Elem) : Prop := ∃ a b, e.kids = a ++ c :: b ∧ c.tag = t ∧ ∀ x ∈ a, x.tag ≠ t

/-- There is no element called `t` inside `e`. -/
def NoTag (e : Elem) (t : String) : Prop := ∀ c ∈ e.kids, c.tag ≠ t

/-- All elements called `t` inside `e`, in order. -/
def tags (e : Elem) (t : String) : List Elem := e.kids.filter (fun c => c.tag = t)

/-- `x` is the last of `l` with property `P`. -/
def Last (l : List Elem) (P : Elem → Prop) (x : Elem) : Prop := ∃ a b, l = a ++ x :: b ∧ P x ∧ ∀ y ∈ b, ¬ P y

/-- `v` is the value of the last of `l` with property `P`, or `d` if there is none. -/
def LastValue {α : Type} (l : List Elem) (P : Elem → Prop) (V : Elem → α → Prop) (d v : α) : Prop :=
  (∃ x, Last l P x ∧ V x v) ∨ ((∀ x ∈ l, ¬ P x) ∧ v = d)

/-- The optional attribute `k` of `e` has the value `v` in the sense of `V`; if it is missing, `v` is `d`. -/
def OptAttr {α : Type} (e : Elem) (k : String) (V : Str → α → Prop) (d v : α) : Prop :=
  (∃ s, Has e k s ∧ V s v) ∨ (Lacks e k ∧ v = d)

/-- Every parameter has a name, and `m` holds the text of the last one of each name. -/
def ParamsAre (ps : List Elem) (m : List (Str × Str)) : Prop :=
  (∀ p ∈ ps, ∃ k, Has p "name" k) ∧ (m.map (·.1)).Nodup ∧
  ∀ k v, (k, v) ∈ m ↔ ∃ p, Last ps (fun p => Has p "name" k) p ∧ TextIs p v

/-- The limits are enabled unless a tag `limits` says otherwise. -/
def Enabled (e : Elem) (b : Bool) : Prop :=
  (NoTag e "limits" ∧ b = true) ∨ ∃ l v, FirstTag e "limits" l ∧ Has l "enable" v ∧ BoolText v b

/-- The element describes the interface `i` of something whose limits are enabled or not. -/
structure IsItf (group : Bool) (e : Elem) (i : Itf) : Prop where
  name : Has e "name" i.name
  params : ParamsAre (tags e "param") i.params
  min : LastValue (tags e "param") (fun p => Has p "name" "min".toList) TextIs [] i.min
  max : LastValue (tags e "param") (fun p => Has p "name" "max".toList) TextIs [] i.max
  initial : LastValue (tags e "param") (fun p => Has p "name" "initial_value".toList) TextIs [] i.initial
  dataType : OptAttr e "data_type" (fun s v => v = s) "double".toList i.dataType
  size : OptAttr e "size" PosText 1 i.size
  enable : ∃ b, Enabled e b ∧ i.enable = (b && group)

/-- The element describes the joint or sensor `c`. -/
structure IsComp (e : Elem) (c : Comp) : Prop where
  name : Has e "name" c.name
  type : c.type = e.tag
  mimic : if e.tag = "joint" then
      OptAttr e "mimic" (fun s m => (BoolText s true ∧ m = .true) ∨ (BoolText s false ∧ m = .false)) .notSet c.mimic
    else c.mimic = .notSet
  enable : Enabled e c.enable
  cmds : List.Forall₂ (IsItf c.enable) (tags e "command_interface") c.cmds
  states : List.Forall₂ (IsItf c.enable) (tags e "state_interface") c.states
  params : ParamsAre (tags e "param") c.params

/-- The element describes the gpio `c`. -/
structure IsGpio (e : Elem) (c : Comp) : Prop where
  name : Has e "name" c.name
  type : c.type = e.tag
  mimic : c.mimic = .notSet
  enable : c.enable = true
  cmds : List.Forall₂ (IsItf true) (tags e "command_interface") c.cmds
  states : List.Forall₂ (IsItf true) (tags e "state_interface") c.states
  params : ParamsAre (tags e "param") c.params

/-- `q` is the number in the first element called `k` that has a text; `d` if there is none or the text is not a number. -/
def NumberIs (round : Rat → Option Rat) (e : Elem) (k : String) (d q : Rat) : Prop :=
  (∃ a c b raw v, e.kids = a ++ c :: b ∧ c.tag = k ∧ c.text = some raw ∧ (∀ x ∈ a, x.tag = k → x.text = none) ∧ Trimmed raw v ∧
    (Desc.Reads round v q ∨ ((∀ x, ¬ Desc.Reads round v x) ∧ q = d))) ∨
  ((∀ c ∈ e.kids, c.tag = k → c.text = none) ∧ q = d)

/-- The element describes the joint or actuator `t` of a transmission, except for its interfaces. -/
structure IsTPart (round : Rat → Option Rat) (e : Elem) (t : TPart) : Prop where
  name : Has e "name" t.name
  role : Has e "role" t.role
  reduction : NumberIs round e "mechanical_reduction" 1 t.reduction
  offset : NumberIs round e "offset" 0 t.offset
  readOnly : OptAttr e "read_only" BoolText false t.readOnly

/-- The interfaces of `t` are those of the first of the joints `js` with its name. -/
def WithInterfaces (js : List Comp) (t : TPart) : Prop :=
  ∃ a j b, js = a ++ j :: b ∧ j.name = t.name ∧ (∀ x ∈ a, x.name ≠ t.name) ∧
    t.cmds = j.cmds.map (·.name) ∧ t.states = j.states.map (·.name)

/-- The element describes the transmission `t` of a component with these type and joints. -/
structure IsTrans (round : Rat → Option Rat) (type : Str) (js : List Comp) (e : Elem) (t : Trans) : Prop where
  name : Has e "name" t.name
  type' : ∃ p, FirstTag e "plugin" p ∧ TextIs p t.type
  joints : List.Forall₂ (fun c j => IsTPart round c j ∧ WithInterfaces js j) (tags e "joint") t.joints
  actuators : ∃ l extra, t.actuators = l ++ extra ∧
    List.Forall₂ (fun c a => IsTPart round c a ∧ a.states = [] ∧ a.cmds = []) (tags e "actuator") l ∧
    (type ≠ "actuator".toList → extra = []) ∧
    (type = "actuator".toList → ∃ j, t.joints = [j] ∧
      extra = [⟨"actuator1".toList, j.states, j.cmds, "actuator1".toList, 1, 0, false⟩])
  params : ParamsAre (tags e "param") t.params

/-! ## Hardware -/

/-- A list of numbers in brackets; each is cut to a whole number with 32 bits. -/
def CoresText (round : Rat → Option Rat) (v : Str) (l : List Int) : Prop :=
  ∃ ts, ListText v ts ∧ List.Forall₂ (fun (t : Str) (n : Int) => ∃ q : Rat, Desc.Reads round t q ∧ -2 ^ 31 ≤ n ∧ n < 2 ^ 31 ∧
    ((0 ≤ q ∧ (n : Rat) ≤ q ∧ q < n + 1) ∨ (q < 0 ∧ (n : Rat) - 1 < q ∧ q ≤ n))) ts l

/-- The first `async` tag inside `p` has the attribute `k` with a value in the sense of `V`. -/
def AsyncAttr {α : Type} (k : String) (V : Str → α → Prop) (p : Elem) (v : α) : Prop :=
  ∃ a s, FirstTag p "async" a ∧ Has a k s ∧ V s v

/-- The first `async` tag inside `p` has the attribute `k`. -/
def HasAsync (k : String) (p : Elem) : Prop := ∃ a s, FirstTag p "async" a ∧ Has a k s

/-- A `hardware` tag: it contains a plugin, and all its parameters have names. -/
def GoodHardware (e : Elem) : Prop := (∃ p, FirstTag e "plugin" p) ∧ ∀ p ∈ tags e "param", ∃ k, Has p "name" k

/-- A `properties` tag: the attributes of its first `async` tag have values of the right kind. -/
def GoodProperties (round : Rat → Option Rat) (e : Elem) : Prop :=
  (HasAsync "affinity" e → ∃ v, AsyncAttr "affinity" (CoresText round) e v) ∧
  (HasAsync "thread_priority" e → ∃ v, AsyncAttr "thread_priority" PosText e v) ∧
  (HasAsync "print_warnings" e → ∃ v, AsyncAttr "print_warnings" BoolText e v)

/-- A `ros2_control` element describes the hardware component `h`. -/
structure IsHw (round : Rat → Option Rat) (e : Elem) (h : Hw) : Prop where
  name : Has e "name" h.name
  type : Has e "type" h.type
  rwRate : OptAttr e "rw_rate" RateText 0 h.rwRate
  isAsync : OptAttr e "is_async" BoolText false h.isAsync
  known : ∀ c ∈ e.kids, c.tag ∈ ["hardware", "properties", "joint", "sensor", "gpio", "transmission"]
  hardware : ∀ c ∈ tags e "hardware", GoodHardware c
  properties : ∀ c ∈ tags e "properties", GoodProperties round c
  plugin : LastValue (tags e "hardware") (fun _ => True) (fun x v => ∃ p, FirstTag x "plugin" p ∧ TextIs p v) [] h.plugin
  group : LastValue (tags e "hardware") (fun x => ∃ g, FirstTag x "group" g) (fun x v => ∃ g, FirstTag x "group" g ∧ TextIs g v) [] h.group
  params : LastValue (tags e "hardware") (fun x => tags x "param" ≠ []) (fun x m => ParamsAre (tags x "param") m) [] h.params
  cores : LastValue (tags e "properties") (HasAsync "affinity") (AsyncAttr "affinity" (CoresText round)) [] h.cores
  policy : LastValue (tags e "properties") (HasAsync "scheduling_policy")
    (AsyncAttr "scheduling_policy" (fun s v => v = Text.toLowerCase s)) "synchronized".toList h.policy
  warn : LastValue (tags e "properties") (HasAsync "print_warnings") (AsyncAttr "print_warnings" BoolText) true h.warn
  priority : ∃ p0, (if h.isAsync = true then OptAttr e "thread_priority" PosText 50 p0 else p0 = 2 ^ 31 - 1) ∧
    LastValue (tags e "properties") (HasAsync "thread_priority") (AsyncAttr "thread_priority" PosText) p0 h.priority
  joints : List.Forall₂ IsComp (tags e "joint") h.joints
  sensors : List.Forall₂ IsComp (tags e "sensor") h.sensors
  gpios : List.Forall₂ IsGpio (tags e "gpio") h.gpios
  trans : List.Forall₂ (IsTrans round h.type h.joints) (tags e "transmission") h.trans

/-- The tags are searched in the root if it is a `robot`, in its first `model` if it is an `sdf`. -/
def Container (d : Doc) (c : Elem) : Prop :=
  ∃ e, d = .root e ∧ ((e.tag = "robot" ∧ c = e) ∨ (e.tag = "sdf" ∧ FirstTag e "model" c))

/-- The document describes these hardware components, one for each `ros2_control` element, of which there is at least one. -/
def Describes (round : Rat → Option Rat) (d : Doc) (hs : List Hw) : Prop :=
  ∃ c, Container d c ∧ tags c "ros2_control" ≠ [] ∧ List.Forall₂ (IsHw round) (tags c "ros2_control") hs

end Verif.Xml
