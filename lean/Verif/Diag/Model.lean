import Verif.Num.DblLemmas
import Verif.Core.Types
/-!
# The diagnostics of the controller manager (cm.cpp:4426-4816)

Not modelled: the text of the messages (a message is the list of its parts, a part with the names it shows), the formatting
of numbers, the parameter listener (the thresholds are an argument; cm.cpp:4450-4453 and 4624-4627 refresh them, the third
callback uses what the other two fetched), min and max of the statistics.
`diagnostic_updater` is an external package; what `summary` and `mergeSummary` do is taken from its documentation.
-/
namespace Verif
namespace Diag

/-- `diagnostic_msgs::msg::DiagnosticStatus` levels, in their order. -/
inductive Level
  | ok | warn | error
deriving DecidableEq, Repr

/-- The numeric value of a level. -/
def Level.num : Level → Nat
  | .ok => 0
  | .warn => 1
  | .error => 2

/-- What one statistics object tells: `average` and `standard_deviation` (statistics_types.hpp:216-294). -/
structure Data where
  avg : Dbl
  sd : Dbl
deriving DecidableEq, Repr

/-- A group of four thresholds: `mean_error.warn`, `mean_error.error`, `standard_deviation.warn`,
`standard_deviation.error` (controller_manager_parameters.yaml:86-263). -/
structure Thr where
  meanWarn : Dbl
  meanErr : Dbl
  sdWarn : Dbl
  sdErr : Dbl
deriving DecidableEq, Repr

/-- The thresholds of one kind of thing: `periodicity` and `execution_time`. -/
structure Thrs where
  per : Thr
  exec : Thr
deriving DecidableEq, Repr

/-- A part of the summary message. -/
inductive Note
  | allActive
  | notAllActive
  | highExec (names : List Name)
  | badPeriodicity (names : List Name)
  | noHardwareActive
  | noControllers
  | notInitialized
  | noHardware
  | running
  | waiting
  | initFailed
  | badLoop
deriving DecidableEq, Repr

/-- Which read/write cycle, or the `update` of a controller, a value is about. -/
inductive Cycle
  | update | read | write
deriving DecidableEq, Repr

/-- A key/value pair of the status. -/
inductive Entry
  /-- `<name>.state` -/
  | state (n : Name) (s : LState)
  /-- `<name>[.read_cycle|.write_cycle].execution_time` -/
  | exec (n : Name) (c : Cycle) (d : Data)
  /-- `<name>[.read_cycle|.write_cycle].periodicity`, with the desired rate -/
  | per (n : Name) (c : Cycle) (d : Data) (rate : Nat)
deriving DecidableEq, Repr

/-- `diagnostic_updater::DiagnosticStatusWrapper`: level, message, values. -/
structure Status where
  level : Level
  msg : List Note
  values : List Entry
deriving DecidableEq, Repr

/-- A status as the updater hands it to a callback. -/
def Status.new : Status := { level := .ok, msg := [], values := [] }

/-- `summary` (external): sets level and message. -/
def Status.summary (s : Status) (l : Level) (n : Note) : Status := { s with level := l, msg := [n] }

/-- `mergeSummary` (external): two complaints are joined, a complaint replaces an OK message, an OK changes nothing; the
level is the worse one. -/
def Status.merge (s : Status) (l : Level) (n : Note) : Status :=
  let msg := if l.num > 0 && s.level.num > 0 then s.msg ++ [n] else if l.num > s.level.num then [n] else s.msg
  { s with level := if l.num > s.level.num then l else s.level, msg := msg }

/-- `ros2_control::add_item` (hardware_interface/helpers.hpp:79-86): append unless present. -/
def addItem (l : List Name) (n : Name) : List Name := if n ∈ l then l else l ++ [n]

/-- The accumulators of the loops (cm.cpp:4468-4471 and 4641-4645). -/
structure Acc where
  values : List Entry
  level : Level
  high : List Name
  bad : List Name
deriving DecidableEq, Repr

/-- The periodicity tests (cm.cpp:4492-4519; the same text for hardware: 4677-4703). -/
def Acc.periodicity (a : Acc) (t : Thr) (n : Name) (c : Cycle) (d : Data) (rate : Nat) : Acc :=
  let a := { a with values := a.values ++ [.per n c d rate] }
  let err := Dbl.abs (d.avg - .fin (rate : Rat))
  if Dbl.lt t.meanErr err || Dbl.lt t.sdErr d.sd then { a with level := .error, bad := addItem a.bad n }
  else if Dbl.lt t.meanWarn err || Dbl.lt t.sdWarn d.sd then
    { a with level := if a.level = .error then a.level else .warn, bad := addItem a.bad n }
  else a

/-- The execution-time tests (cm.cpp:4521-4545; the same text for hardware: 4705-4727). `budget` is what an asynchronous
update may take: `1e6 / rate` microseconds, 0 for a synchronous one. -/
def Acc.execTime (a : Acc) (t : Thr) (n : Name) (d : Data) (async : Bool) (rate : Nat) : Acc :=
  let budget : Dbl := if async then .fin 1000000 / .fin (rate : Rat) else 0
  if Dbl.lt t.meanErr (d.avg - budget) || Dbl.lt t.sdErr d.sd then { a with level := .error, high := a.high ++ [n] }
  else if Dbl.lt t.meanWarn (d.avg - budget) || Dbl.lt t.sdWarn d.sd then
    { a with level := if a.level = .error then a.level else .warn, high := a.high ++ [n] }
  else a

/-- A loaded controller as the diagnostics see it: lifecycle state, `is_async`, `get_update_rate` and its two
statistics objects. -/
structure Ctl where
  name : Name
  state : LState
  async : Bool
  rate : Nat
  per : Data
  exec : Data
deriving DecidableEq, Repr

/-- One round of the loop over the controllers (cm.cpp:4472-4547). -/
def Acc.ctl (cmRate : Nat) (t : Thrs) (a : Acc) (c : Ctl) : Acc :=
  let a := { a with values := a.values ++ [.state c.name c.state] }
  if c.state = .active then
    let a := { a with values := a.values ++ [Entry.exec c.name .update c.exec] }
    let a := if c.async || c.rate != cmRate then a.periodicity t.per c.name .update c.per c.rate else a
    a.execTime t.exec c.name c.exec c.async c.rate
  else a

/-- Both summary additions (cm.cpp:4553-4577 and 4743-4765). -/
def Acc.report (a : Acc) (s : Status) : Status :=
  let s := if a.high ≠ [] then s.merge a.level (.highExec a.high) else s
  if a.bad ≠ [] then s.merge a.level (.badPeriodicity a.bad) else s

/-- `controller_activity_diagnostic_callback` (cm.cpp:4426-4591) for the hardware states `hw` and the controllers `cs`. -/
def controllers (cmRate : Nat) (t : Thrs) (hw : List LState) (cs : List Ctl) : Status :=
  let oneActive := hw.any (· = .active)
  let allActive := cs.all (·.state = .active)
  let a := cs.foldl (Acc.ctl cmRate t) { values := [], level := .ok, high := [], bad := [] }
  let s := { Status.new with values := a.values }
  let s := s.summary .ok (if allActive then .allActive else .notAllActive)
  let s := a.report s
  if !oneActive then s.merge .error .noHardwareActive
  else if cs.isEmpty then s.merge .warn .noControllers else s

/-- A statistics pair of a hardware component (`HardwareComponentStatisticsData`). -/
structure HwStats where
  per : Data
  exec : Data
deriving DecidableEq, Repr

/-- A hardware component as `get_components_status` returns it (hardware_component_info.hpp:40-75). A sensor has no write
statistics (rm.cpp:206-212). -/
structure Comp where
  name : Name
  state : LState
  async : Bool
  rate : Nat
  read : Option HwStats
  write : Option HwStats
deriving DecidableEq, Repr

/-- The lambda `update_stats` (cm.cpp:4652-4729). -/
def Acc.stats (cmRate : Nat) (t : Thrs) (a : Acc) (h : Comp) (c : Cycle) : Option HwStats → Acc
  | none => a
  | some d =>
    let a := { a with values := a.values ++ [Entry.exec h.name c d.exec] }
    let a := if h.async || h.rate != cmRate then a.periodicity t.per h.name c d.per h.rate else a
    a.execTime t.exec h.name d.exec h.async h.rate

/-- One round of the loop over the components (cm.cpp:4647-4741). -/
def Acc.comp (cmRate : Nat) (t : Thrs) (a : Acc) (h : Comp) : Acc :=
  let a := { a with values := a.values ++ [.state h.name h.state] }
  if h.state = .active then
    let a := a.stats cmRate t h .read h.read
    a.stats cmRate t h .write h.write
  else a

/-- `hardware_components_diagnostic_callback` (cm.cpp:4583-4763). -/
def hardware (cmRate : Nat) (t : Thrs) (initialized : Bool) (hs : List Comp) : Status :=
  if !initialized then Status.new.summary .error .notInitialized
  else
    let allActive := hs.all (·.state = .active)
    let oneActive := hs.any (·.state = .active)
    if hs.isEmpty then Status.new.summary .error .noHardware
    else if !oneActive then Status.new.summary .warn .noHardwareActive
    else
      let s := Status.new.summary .ok (if allActive then .allActive else .notAllActive)
      let a := hs.foldl (Acc.comp cmRate t) { values := [], level := .ok, high := [], bad := [] }
      a.report { s with values := a.values }

/-- `controller_manager_diagnostic_callback` (cm.cpp:4765-4815). Its values (update rate and the statistics) are left out. -/
def manager (rate : Nat) (t : Thr) (initialized haveDesc : Bool) (d : Data) : Status :=
  let s :=
    if initialized then Status.new.summary .ok .running
    else if !haveDesc then Status.new.summary .warn .waiting
    else Status.new.summary .error .initFailed
  let err := Dbl.abs (d.avg - .fin (rate : Rat))
  if Dbl.lt t.meanErr err || Dbl.lt t.sdErr d.sd then s.merge .error .badLoop
  else if Dbl.lt t.meanWarn err || Dbl.lt t.sdWarn d.sd then s.merge .warn .badLoop
  else s

end Diag
end Verif
