import Verif.Cli.Model
/-!
# The graphical interface `rqt_controller_manager`

(rqt_controller_manager/rqt_controller_manager/controller_manager.py, cited as `gui.py`, and update_combo.py, cited as `combo.py`.)

Two layers: what the window shows and to which controller manager it talks (`Gui`), and what an entry of a menu asks the controller manager for
(`Entry.prog`, a client of `Verif.Spawn`). Not modelled: drawing, icons, fonts, the pop-up window, the pace of the timers, saved settings.
-/
namespace Verif
namespace Gui
open Spawn (Req Prog)

/-! ## The managers offered -/

/-- `str.rstrip(chars)` of Python (used in gui.py:668): all last characters that are among `chars` go. -/
def rstrip (cs : List Char) (s : List Char) : List Char := (s.reverse.dropWhile (fun c => cs.contains c)).reverse

/-- "list_controllers" (gui.py:668-670) -/
def listSrv : List Char := "list_controllers".toList

/-- `_list_controller_managers` (gui.py:657-675): from the names of all services. -/
def managersOf (services : List (List Char)) : List (List Char) :=
  (services.filter (fun n => listSrv.isSuffixOf n)).map fun n => rstrip ['/'] (rstrip listSrv n)

/-! ## The window -/

/-- The node of a controller manager. -/
abbrev Mgr := Nat

/-- A row of the table of controllers: `ControllerState` (gui.py:223, 547-550). `state`: nothing for the empty text, shown as "unloaded". -/
structure Row where
  name : Name
  state : Option LState
deriving DecidableEq, Repr

/-- A row of the table of hardware components (gui.py:599-602). -/
structure HwRow where
  name : Name
  state : LState
deriving DecidableEq, Repr

/-- What comes of asking the controller manager for a table: an answer (of the controllers also the names of controllers in its parameters), no answer
after three attempts (`RuntimeError`, controller_manager_services.py:164), or another exception, such as `ServiceNotFoundError` (lines 68, 146). -/
inductive Ans (α : Type)
  | rows (l : List α) (params : List Name)
  | silent
  | gone
deriving DecidableEq, Repr

/-- Loaded controllers first, then those found in the parameters that are not in the list so far (gui.py:213-225). -/
def table (l : List Row) (params : List Name) : List Row :=
  params.foldl (fun l n => if l.all (fun r => n != r.name) then l ++ [⟨n, none⟩] else l) l

/-- The window: the texts of the combo box and the selected one, `_cm_name`, `_controllers` and `_hw_components` (gui.py:85-89). `none` is the
empty text. -/
structure Window where
  items : List Mgr
  cur : Option Mgr
  cm : Option Mgr
  rows : List Row
  hws : List HwRow
deriving DecidableEq, Repr

/-- gui.py:85-89 -/
def Window.init : Window := { items := [], cur := none, cm := none, rows := [], hws := [] }

/-- `_update_controllers` (gui.py:184-200, 202-228); the second component: no exception. -/
def Window.updateCtl (w : Window) (a : Ans Row) : Window × Bool :=
  if w.cm = none then (w, true)
  else match a with
    | .rows l ps => ({ w with rows := table l ps }, true)
    | .silent => ({ w with rows := [] }, true)
    | .gone => (w, false)

/-- `_update_hw_components` (gui.py:333-349, 351-368). -/
def Window.updateHw (w : Window) (a : Ans HwRow) : Window :=
  if w.cm = none then w
  else match a with
    | .rows l _ => { w with hws := l }
    | .silent => { w with hws := [] }
    | .gone => w

/-- `_on_cm_change` (gui.py:177-182): an exception of the first update leaves the second out. -/
def Window.onChange (w : Window) (m : Option Mgr) (a : Ans Row) (h : Ans HwRow) : Window :=
  let w := { w with cm := m }
  if m = none then w
  else
    let r := w.updateCtl a
    if r.2 then r.1.updateHw h else r.1

/-- `setCurrentIndex` with signals: `currentTextChanged` is emitted when the text changes (gui.py:145, 164; combo.py:38). -/
def Window.setCurrent (w : Window) (m : Option Mgr) (a : Ans Row) (h : Ans HwRow) : Window :=
  if w.cur = m then w else ({ w with cur := m }).onChange m a h

/-- `_is_permutation` (combo.py:48-57): the same sets. -/
def samePermutation (a b : List Mgr) : Bool := a.all (b.contains ·) && b.all (a.contains ·)

/-- `update_combo` (combo.py:16-45) with the managers found now. -/
def Window.updateCombo (w : Window) (new : List Mgr) : Window :=
  if samePermutation w.items new then w
  else
    match w.cur with
    | some m =>
      if m ∈ new then { w with items := new }
      else { w.setCurrent none .silent .silent with items := new, cur := none }
    | none => { w.setCurrent none .silent .silent with items := new, cur := none }

/-- What the timers do (gui.py:125-141), with the answers they get. -/
inductive Tick
  | managers (l : List Mgr)
  | ctl (a : Ans Row)
  | hw (a : Ans HwRow)

/-- One timer (gui.py:125-141). -/
def Window.tick (w : Window) : Tick → Window
  | .managers l => w.updateCombo l
  | .ctl a => (w.updateCtl a).1
  | .hw a => w.updateHw a

/-! ## Menus -/

/-- The entries of the menu of a controller (gui.py:245-260). -/
inductive Entry | deactivate | kill | activate | cleanup | unload | spawn | configure | load
deriving DecidableEq, Repr

/-- The menu of a controller (gui.py:243-260). -/
def menu : Option LState → List Entry
  | some .active => [.deactivate, .kill]
  | some .inactive => [.activate, .cleanup, .unload]
  | some .unconfigured => [.spawn, .configure, .unload]
  | _ => [.load]

/-- What an entry asks for, in this order (gui.py:264-289, 462-480): no answer is looked at. -/
def Entry.reqs (n : Name) : Entry → List Req
  | .deactivate => [.switch [n] [] false]
  | .kill => [.switch [n] [] false, .unload n]
  | .activate => [.switch [] [n] false]
  | .cleanup => [.cleanup n]
  | .unload => [.unload n]
  | .spawn => [.configure n, .switch [] [n] false]
  | .configure => [.configure n]
  | .load => [.load n]

/-- The entries of the menu of a hardware component (gui.py:385-393). -/
inductive HwEntry | deactivate | cleanup | activate | configure | spawn
deriving DecidableEq, Repr

/-- The menu of a hardware component (gui.py:383-393). -/
def hwMenu : LState → List HwEntry
  | .active => [.deactivate, .cleanup]
  | .inactive => [.activate, .cleanup]
  | .unconfigured => [.configure, .spawn]
  | _ => []

/-- The state an entry asks for (gui.py:397-412, 482-509). -/
def HwEntry.target : HwEntry → LState
  | .deactivate => .inactive
  | .cleanup => .unconfigured
  | .activate => .active
  | .configure => .inactive
  | .spawn => .active

/-- Requests one after the other, as a client. (`_switch_controllers`, gui.py:468-480, catches exceptions: `kill` then goes on with the second
request, of which alone `Entry.progs` takes care.) -/
def progOf : List Req → Prog
  | [] => .exit 0
  | r :: t => .call r (fun _ => progOf t)

/-- The programs an entry may amount to: all requests; or, when the exception of an unanswered switch was swallowed, the rest. -/
def Entry.progs (n : Name) (e : Entry) : List Prog :=
  match e with
  | .kill => [progOf (e.reqs n), progOf [.unload n]]
  | _ => [progOf (e.reqs n)]

/-! ## The whole -/

/-- What happens to the window. During a click the menu is open (`menu.exec` runs an event loop, gui.py:262, 395): timers go on. -/
inductive Op
  | tick (t : Tick)
  /-- the user chooses an entry of the combo box, or the last session's manager is restored (gui.py:156-166) -/
  | select (m : Mgr) (a : Ans Row) (h : Ans HwRow)
  /-- the user opens the menu of a row and chooses an entry -/
  | click (row : Nat) (during : List Tick) (e : Entry)
  | hwClick (row : Nat) (during : List Tick) (e : HwEntry)

/-- What the window sends: to which controller manager, and what. -/
structure Sent where
  dest : Option Mgr
  req : List Req
deriving DecidableEq, Repr

/-- One thing happens; what is sent on a click (gui.py:235-289, 375-412). The row is that of the
moment the menu is opened, the manager that of the moment the entry is chosen. -/
def Window.step (w : Window) : Op → Window × List Sent
  | .tick t => (w.tick t, [])
  | .select m a h => if m ∈ w.items then (w.setCurrent (some m) a h, []) else (w, [])
  | .click i during e =>
    let w' := during.foldl Window.tick w
    match w.rows[i]? with
    | none => (w', [])
    | some c => if e ∈ menu c.state then (w', [⟨w'.cm, e.reqs c.name⟩]) else (w', [])
  | .hwClick i during e =>
    let w' := during.foldl Window.tick w
    match w.hws[i]? with
    | none => (w', [])
    | some c => if e ∈ hwMenu c.state then (w', [⟨w'.cm, [.setHw c.name e.target]⟩]) else (w', [])

/-- A session: all that happens to a window (gui.py:51-145). -/
def session (ops : List Op) : Window := ops.foldl (fun w o => (w.step o).1) Window.init

end Gui
end Verif
