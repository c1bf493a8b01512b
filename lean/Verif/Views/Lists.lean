import Verif.CM.Listing
import Mathlib.Data.List.Sort
import Mathlib.Data.Char
/-!
# What the listing verbs of `ros2 control` print

(ros2controlcli/ros2controlcli/verb/list_controllers.py, list_hardware_components.py, list_hardware_interfaces.py, list_controller_types.py, and
the completers of ros2controlcli/ros2controlcli/api/__init__.py.)

A text is a list of characters, the output a list of lines. Numbers are handed over as the texts they are printed as. Simplified: one `print` with line
breaks in it is several lines.
-/
namespace Verif
namespace Lists

abbrev Text := List Char

/-- The escape character, "\033". -/
def esc : Char := Char.ofNat 27

/-- `bcolors` (controller_manager_services.py:45-65): an escape sequence, or nothing if the output is not coloured. -/
def code (on : Bool) (n : Text) : Text := if on then esc :: '[' :: (n ++ ['m']) else []

/-- The colours used, controller_manager_services.py:57-63. -/
def green (on : Bool) : Text := code on "92".toList
def cyan (on : Bool) : Text := code on "96".toList
def blue (on : Bool) : Text := code on "94".toList
def magenta (on : Bool) : Text := code on "95".toList
def warning (on : Bool) : Text := code on "93".toList
def fail (on : Bool) : Text := code on "91".toList
def endc (on : Bool) : Text := code on "0".toList

/-- `f"{s:<{w}}"` of Python (list_controllers.py:33): blanks up to the width, never cut. -/
def pad (w : Nat) (s : Text) : Text := s ++ List.replicate (w - s.length) ' '

/-! ## list_controllers -/

/-- `ControllerState` as a message (controller_manager_msgs/msg/ControllerState.msg) as far as it is printed. -/
structure Ctl where
  name : Text
  type : Text
  state : Text
  rate : Text
  isAsync : Text
  claimed : List Text
  reqCmd : List Text
  reqState : List Text
  conns : List (List Text)
  refs : List Text
  states : List Text
deriving DecidableEq, Repr

/-- The options of the verb (list_controllers.py:72-104). -/
structure Flags where
  claimed : Bool := false
  reqState : Bool := false
  reqCmd : Bool := false
  chained : Bool := false
  exported : Bool := false
  verbose : Bool := false
deriving DecidableEq, Repr

/-- list_controllers.py:25-31 -/
def stateColor (on : Bool) (st : Text) : Text :=
  if st = "active".toList then green on
  else if st = "inactive".toList then cyan on
  else if st = "unconfigured".toList then warning on
  else []

/-- list_controllers.py:32-34 -/
def row (on : Bool) (wn wt ws : Nat) (c : Ctl) : Text :=
  stateColor on c.state ++ pad wn c.name ++ endc on ++ ' ' :: pad wt c.type ++ ' ' :: ' ' :: stateColor on c.state ++ pad ws c.state ++ endc on

/-- A heading and its entries (list_controllers.py:38-65). -/
def block (head : String) (l : List Text) : List Text := ('\t' :: head.toList) :: l.map fun t => '\t' :: '\t' :: t

/-- `print_controller_state` (list_controllers.py:24-65). -/
def printOne (on : Bool) (f : Flags) (wn wt ws : Nat) (c : Ctl) : List Text :=
  [row on wn wt ws c] ++
  (if f.verbose then [('\t' :: "update_rate: ".toList) ++ c.rate ++ " Hz".toList, ('\t' :: "is_async: ".toList) ++ c.isAsync] else []) ++
  (if f.claimed || f.verbose then block "claimed interfaces:" c.claimed else []) ++
  (if f.reqCmd || f.verbose then block "required command interfaces:" c.reqCmd else []) ++
  (if f.reqState || f.verbose then block "required state interfaces:" c.reqState else []) ++
  (if f.chained || f.verbose then block "chained to interfaces:" (c.conns.flatten.map (pad 20)) else []) ++
  (if f.exported || f.verbose then block "exported reference interfaces:" c.refs else []) ++
  (if f.exported || f.verbose then block "exported state interfaces:" c.states else [])

/-- `max(len(...) for ...)` (list_controllers.py:114-116). -/
def width (l : List Text) : Nat := l.foldl (fun m t => max m t.length) 0

/-- `main` of the verb (list_controllers.py:106-121). -/
def listControllers (on : Bool) (f : Flags) (l : List Ctl) : List Text :=
  if l.isEmpty then ["No controllers are currently loaded!".toList]
  else l.flatMap (printOne on f (width (l.map (·.name))) (width (l.map (·.type))) (width (l.map (·.state))))

/-! ## list_controller_types -/

/-- `main` of the verb (list_controller_types.py:31-38): `zip` ends with the shorter list. -/
def listTypes (types bases : List Text) : List Text := (types.zip bases).map fun c => pad 70 c.1 ++ ' ' :: c.2

/-! ## list_hardware_interfaces and list_hardware_components -/

/-- `HardwareInterface` as a message (controller_manager_msgs/msg/HardwareInterface.msg). -/
structure Port where
  name : Text
  type : Text
  available : Bool
  claimed : Bool
deriving DecidableEq, Repr

/-- `data_type_str` (list_hardware_interfaces.py:47-50). -/
def typeStr (verbose : Bool) (p : Port) : Text := if verbose then " [".toList ++ p.type ++ [']'] else []

/-- One command interface (list_hardware_interfaces.py:48-66). -/
def cmdLine (on verbose : Bool) (p : Port) : Text :=
  if p.available then
    if p.claimed then '\t' :: blue on ++ p.name ++ typeStr verbose p ++ " [available] [claimed]".toList ++ endc on
    else '\t' :: cyan on ++ p.name ++ typeStr verbose p ++ " [available] [unclaimed]".toList ++ endc on
  else '\t' :: warning on ++ p.name ++ typeStr verbose p ++ " [unavailable] [unclaimed]".toList ++ endc on

/-- `sorted(..., key=lambda hwi: hwi.name)` (list_hardware_interfaces.py:39-44): by code points, stable. -/
def byName (l : List Port) : List Port := l.mergeSort (fun a b => decide (a.name ≤ b.name))

/-- `main` of the verb (list_hardware_interfaces.py:36-75). -/
def listInterfaces (on verbose : Bool) (cmd states : List Port) : List Text :=
  ["command interfaces".toList] ++ (byName cmd).map (cmdLine on verbose) ++
  ["state interfaces".toList] ++ (byName states).map fun p => '\t' :: p.name ++ typeStr verbose p

/-- `HardwareComponentState` as a message, as far as it is printed. -/
structure Comp where
  name : Text
  type : Text
  plugin : Text
  id : Text
  label : Text
  rate : Text
  isAsync : Text
  cmd : List Port
  states : List Port
deriving DecidableEq, Repr

/-- The colour of a component (list_hardware_components.py:43-49): by the number of the state. -/
def compColor (on : Bool) (id : Text) : Text :=
  if id = "3".toList then green on else if id = "2".toList then magenta on else if id = "1".toList then warning on else fail on

/-- list_hardware_components.py:68-72, 85-89 -/
def availStr (on : Bool) (b : Bool) : Text :=
  if b then blue on ++ "[available]".toList ++ endc on else warning on ++ "[unavailable]".toList ++ endc on

/-- list_hardware_components.py:74-77 -/
def claimStr (on : Bool) (b : Bool) : Text := if b then blue on ++ "[claimed]".toList ++ endc on else "[unclaimed]".toList

/-- One component (list_hardware_components.py:41-93). -/
def compLines (on verbose : Bool) (i : Text) (c : Comp) : List Text :=
  ["Hardware Component ".toList ++ i, '\t' :: "name: ".toList ++ compColor on c.id ++ c.name ++ endc on, '\t' :: "type: ".toList ++ c.type,
   '\t' :: "plugin name: ".toList ++ c.plugin, '\t' :: "state: id=".toList ++ c.id ++ " label=".toList ++ compColor on c.id ++ c.label ++ endc on,
   '\t' :: "read/write rate: ".toList ++ c.rate ++ " Hz".toList, '\t' :: "is_async: ".toList ++ c.isAsync] ++
  block "command interfaces" (c.cmd.map fun p => p.name ++ typeStr verbose p ++ ' ' :: availStr on p.available ++ ' ' :: claimStr on p.claimed) ++
  (if verbose then block "state interfaces" (c.states.map fun p => p.name ++ typeStr true p ++ ' ' :: availStr on p.available) else [])

/-- `main` of the verb (list_hardware_components.py:37-95). -/
def listComponents (on verbose : Bool) (num : Nat → Text) (l : List Comp) : List Text :=
  (l.zipIdx).flatMap fun p => compLines on verbose (num (p.2 + 1)) p.1

/-! ## Completers -/

/-- `ControllerNameCompleter` (api/__init__.py:31-48): the parameters that end with ".type", without it. -/
def completeNames (params : List Text) : List Text :=
  (params.filter fun n => ".type".toList.isSuffixOf n).map fun n => n.take (n.length - ".type".toList.length)

/-- `LoadedControllerNameCompleter` (api/__init__.py:51-60). -/
def completeLoaded (valid : List Text) (l : List Ctl) : List Text := (l.filter fun c => valid.contains c.state).map (·.name)

end Lists
end Verif
