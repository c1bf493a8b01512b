import Verif.Core.Oracle
/-!
# `HardwareComponent` (hardware_interface/src/hardware_component.cpp)

Not modelled here: asynchronous components (their worker thread), introspection, statistics
(see `Verif/Num/Statistics.lean`) and the per-component mutex.
-/
namespace Verif

inductive HwKind | actuator | sensor | system
deriving DecidableEq, Repr

/-- A loaded hardware component with its entry of `hardware_info_map_`
(resource_manager.cpp:196-213). `group = none` models the empty group name. -/
structure Hw where
  name : Name
  kind : HwKind
  group : Option Name
  stateItfs : List Itf
  cmdItfs : List Itf
  lc : LState
deriving DecidableEq, Repr

namespace Hw

/-- hardware_component.cpp:222-250 `error`. -/
def error (o : Oracle) (tr : List Ev) (h : Hw) : Hw × List Ev :=
  if h.lc ≠ .unknown ∧ h.lc ≠ .unconfigured then
    match o.hwErr tr h.name with
    | .success => ({ h with lc := .unconfigured }, .hwErr h.name .success :: tr)
    | .failure => ({ h with lc := .finalized }, .hwErr h.name .failure :: tr)
    | .error   => ({ h with lc := .finalized }, .hwErr h.name .error :: tr)
  else (h, tr)

/-- hardware_component.cpp:57-80 `initialize`. -/
def init (o : Oracle) (tr : List Ev) (h : Hw) : Hw × List Ev :=
  if h.lc = .unknown then
    match o.hwCb tr h.name .init with
    | .success => ({ h with lc := .unconfigured }, .hwCb h.name .init .success :: tr)
    | .failure => ({ h with lc := .finalized }, .hwCb h.name .init .failure :: tr)
    | .error   => ({ h with lc := .finalized }, .hwCb h.name .init .error :: tr)
    | .throws  => (h, .hwCb h.name .init .throws :: tr)
  else (h, tr)

/-- hardware_component.cpp:82-108 `configure`. An exception leaves the state as it was. -/
def configure (o : Oracle) (tr : List Ev) (h : Hw) : Hw × List Ev :=
  if h.lc = .unconfigured then
    match o.hwCb tr h.name .configure with
    | .success => ({ h with lc := .inactive }, .hwCb h.name .configure .success :: tr)
    | .failure => ({ h with lc := .unconfigured }, .hwCb h.name .configure .failure :: tr)
    | .error   => h.error o (.hwCb h.name .configure .error :: tr)
    | .throws  => (h, .hwCb h.name .configure .throws :: tr)
  else (h, tr)

/-- hardware_component.cpp:110-132 `cleanup`. -/
def cleanup (o : Oracle) (tr : List Ev) (h : Hw) : Hw × List Ev :=
  if h.lc = .inactive then
    match o.hwCb tr h.name .cleanup with
    | .success => ({ h with lc := .unconfigured }, .hwCb h.name .cleanup .success :: tr)
    | .failure => h.error o (.hwCb h.name .cleanup .failure :: tr)
    | .error   => h.error o (.hwCb h.name .cleanup .error :: tr)
    | .throws  => (h, .hwCb h.name .cleanup .throws :: tr)
  else (h, tr)

/-- hardware_component.cpp:134-157 `shutdown`. -/
def shutdown (o : Oracle) (tr : List Ev) (h : Hw) : Hw × List Ev :=
  if h.lc ≠ .unknown ∧ h.lc ≠ .finalized then
    match o.hwCb tr h.name .shutdown with
    | .success => ({ h with lc := .finalized }, .hwCb h.name .shutdown .success :: tr)
    | .failure => h.error o (.hwCb h.name .shutdown .failure :: tr)
    | .error   => h.error o (.hwCb h.name .shutdown .error :: tr)
    | .throws  => (h, .hwCb h.name .shutdown .throws :: tr)
  else (h, tr)

/-- hardware_component.cpp:159-192 `activate`. -/
def activate (o : Oracle) (tr : List Ev) (h : Hw) : Hw × List Ev :=
  if h.lc = .inactive then
    match o.hwCb tr h.name .activate with
    | .success => ({ h with lc := .active }, .hwCb h.name .activate .success :: tr)
    | .failure => ({ h with lc := .inactive }, .hwCb h.name .activate .failure :: tr)
    | .error   => h.error o (.hwCb h.name .activate .error :: tr)
    | .throws  => (h, .hwCb h.name .activate .throws :: tr)
  else (h, tr)

/-- hardware_component.cpp:194-220 `deactivate`. -/
def deactivate (o : Oracle) (tr : List Ev) (h : Hw) : Hw × List Ev :=
  if h.lc = .active then
    match o.hwCb tr h.name .deactivate with
    | .success => ({ h with lc := .inactive }, .hwCb h.name .deactivate .success :: tr)
    | .failure => ({ h with lc := .active }, .hwCb h.name .deactivate .failure :: tr)
    | .error   => h.error o (.hwCb h.name .deactivate .error :: tr)
    | .throws  => (h, .hwCb h.name .deactivate .throws :: tr)
  else (h, tr)

/-- hardware_component.cpp:336-370 `read` (synchronous plugin). A thrown exception is propagated. -/
def read (o : Oracle) (tr : List Ev) (h : Hw) : Hw × List Ev × IoAns :=
  if h.lc = .inactive ∨ h.lc = .active then
    match o.hwIo tr h.name .read with
    | .ret .error =>
      let r := h.error o (.hwIo h.name .read (.ret .error) :: tr)
      (r.1, r.2, .ret .error)
    | a => (h, .hwIo h.name .read a :: tr, a)
  else (h, tr, .ret .ok)

/-- hardware_component.cpp:372-413 `write` (synchronous plugin). -/
def write (o : Oracle) (tr : List Ev) (h : Hw) : Hw × List Ev × IoAns :=
  if h.kind = .sensor then (h, tr, .ret .ok)
  else if h.lc = .active then
    match o.hwIo tr h.name .write with
    | .ret .error =>
      let r := h.error o (.hwIo h.name .write (.ret .error) :: tr)
      (r.1, r.2, .ret .error)
    | a => (h, .hwIo h.name .write a :: tr, a)
  else (h, tr, .ret .ok)

end Hw

/-- The public operations of one component. -/
inductive HwOp
  | init | configure | cleanup | shutdown | activate | deactivate | error | read | write
deriving DecidableEq, Repr

/-- One API call on a component. -/
def Hw.step (o : Oracle) (s : Hw × List Ev) : HwOp → Hw × List Ev
  | .init => s.1.init o s.2
  | .configure => s.1.configure o s.2
  | .cleanup => s.1.cleanup o s.2
  | .shutdown => s.1.shutdown o s.2
  | .activate => s.1.activate o s.2
  | .deactivate => s.1.deactivate o s.2
  | .error => s.1.error o s.2
  | .read => let r := s.1.read o s.2; (r.1, r.2.1)
  | .write => let r := s.1.write o s.2; (r.1, r.2.1)

/-- Any history of API calls. -/
def Hw.run (o : Oracle) (s : Hw × List Ev) (ops : List HwOp) : Hw × List Ev :=
  ops.foldl (Hw.step o) s

end Verif
