import Verif.Core.Types
/-!
# Chainable controllers: input selection and exported interfaces

`controller_interface/src/chainable_controller_interface.cpp`, and the part of `ControllerManager::configure_controller` that
exports and imports the interfaces (controller_manager.cpp:1690-1730).

Simplified: a name is a list of characters, an interface is its name (its value is in `Handle/Model.lean`); the plugin's methods
return what they like.
-/
namespace Verif.Chain

/-! ## Update -/

/-- What `update_reference_from_subscribers` and `update_and_write_commands` return (`return_type`). -/
inductive Ret
  | ok
  | error
  deriving DecidableEq, Repr

/-- A call into the plugin. -/
inductive Event
  /-- `on_set_chained_mode(m)` -/
  | onSetChained (m : Bool)
  /-- `update_reference_from_subscribers` -/
  | fromSubscribers
  /-- `update_and_write_commands` -/
  | writeCommands
  deriving DecidableEq, Repr

/-- `ChainableControllerInterface::update` (chainable_controller_interface.cpp:30-48): its result and the calls made, for the
answers the two methods would give. -/
def update (chained : Bool) (subs write : Ret) : Ret × List Event :=
  if !chained then
    if subs ≠ .ok then (subs, [.fromSubscribers])
    else (write, [.fromSubscribers, .writeCommands])
  else (write, [.writeCommands])

/-- `set_chained_mode` (chainable_controller_interface.cpp:297-323): the new mode, the result and the calls made. `agrees`: what
`on_set_chained_mode` returns. -/
def setChained (active : Bool) (agrees : Bool) (m cur : Bool) : Bool × Bool × List Event :=
  if !active then (if agrees then m else cur, agrees, [.onSetChained m])
  else (cur, false, [])

/-- What a controller manager does with a chainable controller. -/
inductive Op
  /-- `set_chained_mode(m)`, called in an active or another state -/
  | setMode (active agrees m : Bool)
  /-- `update` -/
  | update (subs write : Ret)
  deriving DecidableEq, Repr

/-- The result of an operation. -/
inductive Result
  | mode (accepted : Bool)
  | updated (r : Ret)
  deriving DecidableEq, Repr

/-- One operation: the mode afterwards, the result, the calls. -/
def step (cur : Bool) : Op → Bool × Result × List Event
  | .setMode active agrees m =>
    let q := setChained active agrees m cur
    (q.1, .mode q.2.1, q.2.2)
  | .update subs write =>
    let q := update cur subs write
    (cur, .updated q.1, q.2)

/-- A history from construction (`in_chained_mode_ = false`, chainable_controller_interface.hpp:191). -/
def run : Bool → List Op → List (Result × List Event)
  | _, [] => []
  | cur, op :: ops => (step cur op).2 :: run (step cur op).1 ops

/-! ## Exported interfaces -/

/-- Names. -/
abbrev Str := List Char

/-- An exported interface: `get_prefix_name()` and `get_interface_name()`. -/
structure Itf where
  pre : Str
  item : Str
  deriving DecidableEq, Repr

/-- `get_name()` (handle.hpp:71). -/
def Itf.name (i : Itf) : Str := i.pre ++ '/' :: i.item

/-- The members concerned with the exported interfaces of one direction (chainable_controller_interface.hpp:163-183): names, keys
of the map, and the number of stored values. -/
structure Store where
  names : List Str := []
  keys : List Str := []
  values : Nat := 0
  deriving DecidableEq, Repr

/-- How an export ends. -/
inductive Fail
  /-- some prefix does not begin with the controller's name -/
  | prefix
  /-- a name is exported twice -/
  | twice
  /-- a size is wrong -/
  | size
  deriving DecidableEq, Repr

/-- The loops over the exported interfaces (chainable_controller_interface.cpp:71-140 and 201-270; the loops over the two lists are
the same): they stop at the first bad interface. -/
def insertAll (ctl : Str) : List Itf → Store → Store × Option Fail
  | [], s => (s, none)
  | i :: is, s =>
    if !(ctl.isPrefixOf i.pre) then (s, some .prefix)
    else if s.keys.contains i.name then (s, some .twice)
    else insertAll ctl is { s with names := s.names ++ [i.name], keys := s.keys ++ [i.name] }

/-- What the deprecated method returns: the plugin's own list, with the number of values it has resized the storage to, or the
default, which makes one interface per name in `names` (chainable_controller_interface.cpp:327-338, 347-359). -/
def deprecated (ctl : Str) (s : Store) : Option (List Itf × Nat) → List Itf × Nat
  | some o => o
  | none => (s.names.map (fun n => ⟨ctl, n⟩), s.names.length)

/-- `export_state_interfaces` (chainable_controller_interface.cpp:50-152): the members afterwards, and the exported names or the
failure. -/
def exportStates (ctl : Str) (s : Store) (old : Option (List Itf × Nat)) (new : List Itf) : Store × Except Fail (List Str) :=
  let s := { s with names := [], keys := [] }
  let d := deprecated ctl s old
  let s := { s with values := d.2 }
  match insertAll ctl (d.1 ++ new) s with
  | (s', some .twice) => ({ s' with keys := [], names := [] }, .error .twice)
  | (s', some f) => (s', .error f)
  | (s', none) => if s'.keys.length ≠ d.1.length + new.length then (s', .error .size) else (s', .ok s'.names)

/-- `export_reference_interfaces` (chainable_controller_interface.cpp:154-284). -/
def exportRefs (ctl : Str) (s : Store) (old : Option (List Itf × Nat)) (new : List Itf) : Store × Except Fail (List Str) :=
  let s := { s with names := [], keys := [] }
  let d := deprecated ctl s old
  let s := { s with values := d.2 }
  if s.values ≠ d.1.length then (s, .error .size)
  else match insertAll ctl (d.1 ++ new) s with
    | (s', some .twice) => ({ s' with values := 0, names := [] }, .error .twice)
    | (s', some f) => (s', .error f)
    | (s', none) => if s'.keys.length ≠ d.1.length + new.length then (s', .error .size) else (s', .ok s'.names)

/-- What a plugin exports: the overridden deprecated methods, if any, and the lists. -/
structure Plugin where
  oldStates : Option (List Itf × Nat) := none
  newStates : List Itf := []
  oldRefs : Option (List Itf × Nat) := none
  newRefs : List Itf := []
  deriving DecidableEq, Repr

/-- The export in `configure_controller` (controller_manager.cpp:1690-1730): the reference and state interfaces imported into the
resource manager, `none` if nothing is. -/
def exported (ctl : Str) (states refs : Store) (p : Plugin) : Option (List Str × List Str) :=
  match (exportStates ctl states p.oldStates p.newStates).2 with
  | .error _ => none
  | .ok ss => match (exportRefs ctl refs p.oldRefs p.newRefs).2 with
    | .error _ => none
    | .ok rs => if rs = [] ∧ ss = [] then none else some (rs, ss)

end Verif.Chain
