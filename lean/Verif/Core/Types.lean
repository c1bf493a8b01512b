/-!
# Shared vocabulary of the model

Names (hardware components, controllers) are opaque identifiers; the code only ever compares
them for equality, so they are natural numbers here. `Verif/Text` proves the one fact about
spelling that the code relies on (an interface name splits at its first `/` into prefix and rest).
-/
namespace Verif

/-- Identifier of a hardware component or of a controller (`std::string` in the code). -/
abbrev Name := Nat

/-- Full interface name `prefix/suffix`.
Models the `prefix/interface` spelling of `Handle::get_name`
(hardware_interface/include/hardware_interface/handle.hpp, `handle_name_`) and the split at the
first `/` of controller_manager/src/controller_manager.cpp:110-146 (`is_interface_a_chained_interface`).
Simplification: the string is kept split. -/
structure Itf where
  pre : Name
  suf : Nat
deriving DecidableEq, Repr

/-- `lifecycle_msgs::msg::State` primary states (ids 0..4). -/
inductive LState
  | unknown | unconfigured | inactive | active | finalized
deriving DecidableEq, Repr

/-- `CallbackReturn` of a transition callback; `throws` is an exception escaping the plugin. -/
inductive CbAns
  | success | failure | error | throws
deriving DecidableEq, Repr

/-- `hardware_interface::return_type`
(hardware_interface/include/hardware_interface/types/hardware_interface_return_values.hpp:24-29). -/
inductive Ret
  | ok | error | deactivate
deriving DecidableEq, Repr

/-- Answer of a plugin's `read`/`write`/`update`/mode switch: a `return_type` or an exception. -/
inductive IoAns
  | ret (r : Ret) | throws
deriving DecidableEq, Repr

/-! ## `ros2_control::` list helpers
hardware_interface/include/hardware_interface/helpers.hpp:36-211 -/

/-- helpers.hpp:71-75 `has_item`. -/
def hasItem [DecidableEq α] (l : List α) (a : α) : Bool := decide (a ∈ l)

/-- helpers.hpp:82-89 `add_item`: append unless present. -/
def addItem [DecidableEq α] (l : List α) (a : α) : List α := if a ∈ l then l else l ++ [a]

/-- helpers.hpp:96-103 `add_items`. -/
def addItems [DecidableEq α] (l items : List α) : List α := items.foldl addItem l

/-- helpers.hpp:112-122 `remove_item`: erase the first occurrence (`std::find` + `erase`). -/
def removeItem [DecidableEq α] (l : List α) (a : α) : List α := l.erase a

/-- The `for (itf : names) { it = find(list, itf); if (it != end) list.erase(it); }` loop used by
resource_manager.cpp (`remove_all_hardware_interfaces_from_available_list`,
`make_controller_*_interfaces_unavailable`). -/
def removeItems [DecidableEq α] (l items : List α) : List α := items.foldl removeItem l

/-- Point update of a total map (models `map[key] = value`). -/
def upd [DecidableEq α] (f : α → β) (a : α) (b : β) : α → β := fun x => if x = a then b else f x

end Verif
