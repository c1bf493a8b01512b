import Verif.Pub.Model
import Verif.Boot.Model
/-!
# The published statistics of the hardware components

At the end of `set_initial_hardware_components_state` pointers into the statistics of every hardware component are registered with the registry of the
topic `~/statistics`. They stay registered.
-/
namespace Verif.Pub
open Verif Boot

/-- The two halves of the cycle. -/
inductive Dir | read | write
  deriving DecidableEq, Repr

/-- The name of a published variable, `<component>.stats/<dir>_cycle/<clock>/<field>` (cm.cpp:1124-1127, 1141-1144). -/
structure HwKey where
  comp : Name
  dir : Dir
  clock : Clock
  field : Field
  deriving DecidableEq, Repr

/-- A registration: a name and the statistics the pointer goes to. The statistics belong to the entry of `hardware_info_map_` of a component; they are
numbered by the resource manager object that holds the map. -/
structure HwEntry where
  key : HwKey
  obj : Nat
  deriving DecidableEq, Repr

/-- `read_statistics` and `write_statistics` of a `HardwareComponentInfo` (hardware_component_info.hpp:70-74). -/
structure Stats where
  read : Option Nat
  write : Option Nat

/-- resource_manager.cpp:198-214: sensors have no write statistics. -/
def statsOf (gen : Nat) (kind : HwKind) : Stats := { read := some gen, write := if kind ≠ .sensor then some gen else none }

/-- cm.cpp:1128-1133 (and 1134-1137, 1145-1150, 1151-1154): one statistic and its current value. -/
def registerHalf (n : Name) (d : Dir) (c : Clock) (obj : Nat) : List HwEntry :=
  [⟨⟨n, d, c, .max⟩, obj⟩, ⟨⟨n, d, c, .min⟩, obj⟩, ⟨⟨n, d, c, .average⟩, obj⟩, ⟨⟨n, d, c, .deviation⟩, obj⟩, ⟨⟨n, d, c, .count⟩, obj⟩,
   ⟨⟨n, d, c, .current⟩, obj⟩]

/-- cm.cpp:1108-1156, one component; `anon`: its name is empty. `none`: the read statistics are missing but used. -/
def registerComp (anon : Bool) (n : Name) (s : Stats) : Option (List HwEntry) :=
  if anon then some []
  else match s.read, s.write with
    | none, none => some []
    | none, some _ => none
    | some r, none => some (registerHalf n .read .execution r ++ registerHalf n .read .periodicity r)
    | some r, some w => some (registerHalf n .read .execution r ++ registerHalf n .read .periodicity r ++
        registerHalf n .write .execution w ++ registerHalf n .write .periodicity w)

/-- cm.cpp:1106-1157. Simplified: in the order of the components, not in that of the hash map. -/
def registerHw (anon : Name → Bool) (gen : Nat) : List (Name × HwKind) → Option (List HwEntry)
  | [] => some []
  | (n, k) :: t =>
    match registerComp (anon n) n (statsOf gen k), registerHw anon gen t with
    | some a, some b => some (a ++ b)
    | _, _ => none

/-- The controller manager with the registrations for hardware components; `null`: a missing object was used. -/
structure HwSt where
  st : St
  entries : List HwEntry
  null : Bool

/-- The components and their kinds. -/
def kinds (s : St) : List (Name × HwKind) := s.cm.rm.comps.map (fun h => (h.name, h.kind))

/-- One step. `set_initial_hardware_components_state` has run to its end if the step made the resource manager initialised and no exception left it
(cm.cpp:789-801). -/
def hwStep (anon : Name → Bool) (os : Nat → Oracle) (cfg : Cfg) (x : HwSt) (i : In) : HwSt :=
  let s := Boot.step os cfg x.st i
  if x.st.inited = false ∧ s.inited = true ∧ s.dead = false then
    match registerHw anon s.gen (kinds s) with
    | some l => { st := s, entries := x.entries ++ l, null := x.null }
    | none => { st := s, entries := x.entries, null := true }
  else { x with st := s }

/-- A history of a controller manager that is started without a description. -/
def hwRun (anon : Name → Bool) (os : Nat → Oracle) (cfg : Cfg) (is : List In) : HwSt :=
  is.foldl (hwStep anon os cfg) ⟨Boot.start os cfg noDesc [] [], [], false⟩

/-! ## The texts -/

/-- cm.cpp:1125, 1142 -/
def Dir.text : Dir → List Char
  | .read => "/read_cycle".toList
  | .write => "/write_cycle".toList

/-- cm.cpp:1125-1127, 1142-1144, 1307-1308 -/
def Clock.text : Clock → List Char
  | .execution => "/execution_time".toList
  | .periodicity => "/periodicity".toList

/-- introspection.hpp:33-41, cm.cpp:1132, 1137, 1149, 1154 -/
def Field.text : Field → List Char
  | .max => "/max".toList
  | .min => "/min".toList
  | .average => "/average".toList
  | .deviation => "/standard_deviation".toList
  | .count => "/sample_count".toList
  | .current => "/current_value".toList

/-- What is said about a component (with a direction) or a controller. -/
structure Var' where
  dir : Option Dir
  clock : Clock
  field : Field
  deriving DecidableEq, Repr

/-- The name of a variable of the component or controller `owner`. -/
def varText (owner : List Char) (v : Var') : List Char :=
  owner ++ (".stats".toList ++ ((v.dir.map Dir.text).getD [] ++ (v.clock.text ++ v.field.text)))

end Verif.Pub
