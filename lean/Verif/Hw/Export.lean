import Verif.Core.Types
/-!
# Interfaces exported by hardware components, and the memory behind them

A hardware component that leaves exporting to the framework gets one handle per interface of its
`<ros2_control>` tag (hardware_component_interface.cpp:248-393). The component keeps a pointer to the handle
in its own map (`get_state(name)`, `set_state(name, v)`, ...), the resource manager keeps the same pointer in
its map, from which the loans of the controllers are made. A handle is modelled as the number of a cell of
a store; who shares a cell with whom is the subject of this file.

Simplified: a handle holds one value of an unspecified type `V` (conversion and typing of handles: `Handle/Model`);
the component's `on_init` is the default one; joint limiters bound to command handles (resource_manager.cpp:1074-1170)
are not included; `handle_exception_` is on (the default of `ResourceManagerParams`); components succeed to
load and initialise (failures: `RM/Model`).
-/
namespace Verif.Exp

/-- Strings. -/
abbrev Str := List Char

/-- The type of a component. -/
inductive Kind | actuator | sensor | system
deriving DecidableEq

/-- `InterfaceInfo` of one `<state_interface>`/`<command_interface>` tag (hardware_info.hpp): its name and what a handle
made from it contains at first. -/
structure Decl (V : Type) where
  itf : Str
  init : V

/-- `ComponentInfo` of one `<joint>`, `<sensor>` or `<gpio>` tag. -/
structure Part (V : Type) where
  name : Str
  states : List (Decl V)
  cmds : List (Decl V)

/-- `InterfaceDescription` (hardware_info.hpp:324-357). -/
structure Desc (V : Type) where
  pre : Str
  itf : Str
  init : V

/-- hardware_info.hpp:329 `interface_name`. -/
def Desc.key {V : Type} (d : Desc V) : Str := d.pre ++ '/' :: d.itf

/-- The order in which an `unordered_map` is iterated: some permutation of what was inserted. -/
structure HashOrder (V : Type) where
  it : List (Str × Desc V) → List (Str × Desc V)
  perm : ∀ l, (it l).Perm l

/-- One hardware component: `HardwareInfo`, the answers of the virtual export methods, and the iteration orders of
its five description maps. `legacyS`/`legacyC` are what the deprecated `export_state_interfaces()` /
`export_command_interfaces()` return; by default nothing. -/
structure Comp (V : Type) where
  kind : Kind
  joints : List (Part V)
  sensors : List (Part V)
  gpios : List (Part V)
  unlistedS : List (Desc V)
  unlistedC : List (Desc V)
  legacyS : List (Desc V)
  legacyC : List (Desc V)
  ordJS : HashOrder V
  ordSS : HashOrder V
  ordGS : HashOrder V
  ordJC : HashOrder V
  ordGC : HashOrder V

/-- `map.insert(make_pair(k, v))`: an existing entry stays. -/
def insertNew {α : Type} (m : List (Str × α)) (k : Str) (v : α) : List (Str × α) :=
  if k ∈ m.map (·.1) then m else m ++ [(k, v)]

/-- `map.find(k)`. -/
def lookup {α : Type} (m : List (Str × α)) (k : Str) : Option α := (m.find? (fun p => p.1 = k)).map (·.2)

/-- component_parser.cpp:1128-1143 `parse_state_interface_descriptions` into an empty map. -/
def parseS {V : Type} (ps : List (Part V)) : List (Str × Desc V) :=
  ps.foldl (fun m p => p.states.foldl (fun m d =>
    let x : Desc V := ⟨p.name, d.itf, d.init⟩
    insertNew m x.key x) m) []

/-- component_parser.cpp:1162-1177 `parse_command_interface_descriptions` into an empty map. -/
def parseC {V : Type} (ps : List (Part V)) : List (Str × Desc V) :=
  ps.foldl (fun m p => p.cmds.foldl (fun m d =>
    let x : Desc V := ⟨p.name, d.itf, d.init⟩
    insertNew m x.key x) m) []

/-- hardware_component_interface.cpp:248-271 `on_init`: the three state maps, by the type of the component. -/
def Comp.mapsS {V : Type} (c : Comp V) : List (Str × Desc V) × List (Str × Desc V) × List (Str × Desc V) :=
  match c.kind with
  | .actuator => (parseS c.joints, [], [])
  | .sensor => (parseS c.joints, parseS c.sensors, [])
  | .system => (parseS c.joints, parseS c.sensors, parseS c.gpios)

/-- hardware_component_interface.cpp:248-271 `on_init`: the two command maps. -/
def Comp.mapsC {V : Type} (c : Comp V) : List (Str × Desc V) × List (Str × Desc V) :=
  match c.kind with
  | .actuator => (parseC c.joints, [])
  | .sensor => ([], [])
  | .system => (parseC c.joints, parseC c.gpios)

/-- hardware_component_interface.cpp:300-343 `on_export_state_interfaces`: the descriptions in the order in which
handles are made. -/
def Comp.fwS {V : Type} (c : Comp V) : List (Str × Desc V) :=
  let m := c.mapsS
  c.unlistedS.map (fun d => (d.key, d)) ++ c.ordJS.it m.1 ++ c.ordSS.it m.2.1 ++ c.ordGS.it m.2.2

/-- hardware_component_interface.cpp:360-393 `on_export_command_interfaces`. -/
def Comp.fwC {V : Type} (c : Comp V) : List (Str × Desc V) :=
  let m := c.mapsC
  c.unlistedC.map (fun d => (d.key, d)) ++ c.ordJC.it m.1 ++ c.ordGC.it m.2

/-- Making handles: new cells for the descriptions, numbered from `n` on. -/
def number {V : Type} (n : Nat) : List (Str × Desc V) → List (Str × Nat)
  | [] => []
  | (k, _) :: t => (k, n) :: number (n + 1) t

/-- The component's own map `hardware_states_` / `hardware_commands_`: `insert` for every new handle. -/
def ownMap (l : List (Str × Nat)) : List (Str × Nat) := l.foldl (fun m p => insertNew m p.1 p.2) []

/-- resource_manager.cpp:948-998 `add_state_interfaces`: a name that exists already is skipped (the exception is
swallowed), the others are stored; also the list of the stored names. -/
def addStates (m : List (Str × Nat)) : List (Str × Nat) → List (Str × Nat) × List Str
  | [] => (m, [])
  | (k, c) :: t =>
    if k ∈ m.map (·.1) then addStates m t
    else
      let r := addStates (m ++ [(k, c)]) t
      (r.1, k :: r.2)

/-- resource_manager.cpp:716-732, 1047-1065 `add_command_interfaces`: a name that exists already throws out of the loop, and
the list of names is lost (`none`); what was stored before stays. -/
def addCmds (m : List (Str × Nat)) : List (Str × Nat) → List (Str × Nat) × Option (List Str)
  | [] => (m, some [])
  | (k, c) :: t =>
    if k ∈ m.map (·.1) then (m, none)
    else
      let r := addCmds (m ++ [(k, c)]) t
      (r.1, r.2.map (k :: ·))

/-- A loaded component: its own two maps, and the interface lists of `hardware_info_map_` (what
`list_hardware_components` reports and what becomes available when the component is configured). -/
structure Loaded where
  ownS : List (Str × Nat)
  ownC : List (Str × Nat)
  infoS : List Str
  infoC : List Str

/-- The store of all handles (`cells`; state and command handles), the two maps of the resource manager and the components. -/
structure Sys (V : Type) where
  cells : List V
  stMap : List (Str × Nat)
  cmMap : List (Str × Nat)
  comps : List Loaded

/-- Before loading. -/
def Sys.empty {V : Type} : Sys V := ⟨[], [], [], []⟩

/-- The state descriptions for which handles are made: hardware_component.cpp:248-277, the deprecated method first. -/
def Comp.descsS {V : Type} (c : Comp V) : List (Str × Desc V) :=
  if c.legacyS.isEmpty then c.fwS else c.legacyS.map (fun d => (d.key, d))

/-- The command descriptions: hardware_component.cpp:279-305; sensors are not asked
(resource_manager.cpp:1210-1236). -/
def Comp.descsC {V : Type} (c : Comp V) : List (Str × Desc V) :=
  if c.kind = .sensor then []
  else if c.legacyC.isEmpty then c.fwC else c.legacyC.map (fun d => (d.key, d))

/-- resource_manager.cpp:1187-1261, 685-714, 753-781: load one component and import its interfaces. -/
def Sys.load {V : Type} (s : Sys V) (c : Comp V) : Sys V :=
  let ds := c.descsS
  let hs := number s.cells.length ds
  let cells1 := s.cells ++ ds.map (·.2.init)
  let a := addStates s.stMap hs
  let dc := c.descsC
  let hc := number cells1.length dc
  let cells2 := cells1 ++ dc.map (·.2.init)
  let b := addCmds s.cmMap hc
  { cells := cells2
    stMap := a.1
    cmMap := b.1
    comps := s.comps ++ [{ ownS := if c.legacyS.isEmpty then ownMap hs else []
                           ownC := if c.legacyC.isEmpty then ownMap hc else []
                           infoS := a.2
                           infoC := b.2.getD [] }] }

/-- resource_manager.cpp:1529-1606: the components one after the other. -/
def loadAll {V : Type} (cs : List (Comp V)) : Sys V := cs.foldl Sys.load Sys.empty

/-- resource_manager.cpp:2673-2735 `validate_storage`: every interface of the description exists. -/
def validate {V : Type} (cs : List (Comp V)) (s : Sys V) : Bool :=
  let st (p : Part V) := p.states.all (fun d => decide ((p.name ++ '/' :: d.itf) ∈ s.stMap.map (·.1)))
  let cm (p : Part V) := p.cmds.all (fun d => decide ((p.name ++ '/' :: d.itf) ∈ s.cmMap.map (·.1)))
  cs.all (fun c => c.joints.all (fun p => st p && cm p) && c.sensors.all st && c.gpios.all (fun p => st p && cm p))

/-! ## Access -/

/-- The component's own handle (hardware_component_interface.cpp:501-537); `none` = throws. -/
def Sys.own {V : Type} (s : Sys V) (cmd : Bool) (k : Nat) (n : Str) : Option Nat :=
  (s.comps[k]?).bind (fun x => lookup (if cmd then x.ownC else x.ownS) n)

/-- The handle a loan of the resource manager refers to (resource_manager.cpp:1629-1650, 1871-1905). -/
def Sys.shared {V : Type} (s : Sys V) (cmd : Bool) (n : Str) : Option Nat :=
  lookup (if cmd then s.cmMap else s.stMap) n

/-- The interfaces listed for component number `k` (`list_hardware_components`; the ones that become available when it is
configured). -/
def Sys.listed {V : Type} (s : Sys V) (cmd : Bool) (k : Nat) : List Str :=
  match s.comps[k]? with
  | some x => if cmd then x.infoC else x.infoS
  | none => []

/-- Accesses: `set_state`/`set_command` of component number `k`; `set_value` through a command loan. Only the
former can change a state handle (loaned state interfaces are read-only). -/
inductive Op (V : Type)
  | setState (k : Nat) (n : Str) (v : V)
  | setCommand (k : Nat) (n : Str) (v : V)
  | loanSet (n : Str) (v : V)

/-- One access; it throws and changes nothing if there is no such interface. -/
def Sys.step {V : Type} (s : Sys V) : Op V → Sys V
  | .setState k n v => match s.own false k n with
    | some c => { s with cells := s.cells.set c v }
    | none => s
  | .setCommand k n v => match s.own true k n with
    | some c => { s with cells := s.cells.set c v }
    | none => s
  | .loanSet n v => match s.shared true n with
    | some c => { s with cells := s.cells.set c v }
    | none => s

/-- Any sequence of accesses. -/
def Sys.run {V : Type} (s : Sys V) (ops : List (Op V)) : Sys V := ops.foldl Sys.step s

/-- `get_state(n)` (`cmd = false`) or `get_command(n)` (`cmd = true`) of component number `k`; `none` = throws. -/
def Sys.compGet {V : Type} (s : Sys V) (cmd : Bool) (k : Nat) (n : Str) : Option V :=
  (s.own cmd k n).bind (fun c => s.cells[c]?)

/-- The value read through a state loan (`cmd = false`) or a command loan (`cmd = true`) of name `n`. -/
def Sys.loanGet {V : Type} (s : Sys V) (cmd : Bool) (n : Str) : Option V :=
  (s.shared cmd n).bind (fun c => s.cells[c]?)

end Verif.Exp
