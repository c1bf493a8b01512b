import Verif.Core.Types
/-!
# Plugins as an arbitrary environment

Hardware drivers and controllers are user code. Every callback the framework makes is recorded,
with its answer, in a trace (newest event first); the answer is produced by an `Oracle`, an
arbitrary function of the complete history. A theorem that quantifies over the oracle therefore
holds for every plugin behaviour whatsoever.
-/
namespace Verif

/-- Transition callbacks of a hardware plugin (`on_error` is separate, see `ErrAns`).
hardware_interface/src/hardware_component.cpp:58-219. -/
inductive HwCb | init | configure | cleanup | shutdown | activate | deactivate
deriving DecidableEq, Repr

/-- hardware_component.cpp:332-414 -/
inductive HwIo | read | write
deriving DecidableEq, Repr

/-- Answer of `on_error`. Assumption (DESIGN.md, A1): `on_error` does not itself throw; the code
calls it outside any `try` (resource_manager.cpp, `read`/`write`), where an exception would
terminate the process. -/
inductive ErrAns | success | failure | error
deriving DecidableEq, Repr

/-- Callbacks of a controller plugin, run by `rclcpp_lifecycle`. -/
inductive CtlCb | init | configure | activate | deactivate | cleanup | shutdown
deriving DecidableEq, Repr

/-- One observable interaction between the framework and a plugin. -/
inductive Ev
  /-- hardware transition callback -/
  | hwCb (h : Name) (cb : HwCb) (a : CbAns)
  /-- hardware `on_error` -/
  | hwErr (h : Name) (a : ErrAns)
  /-- hardware `read`/`write` -/
  | hwIo (h : Name) (io : HwIo) (a : IoAns)
  /-- hardware `prepare_command_mode_switch` (`prepare = true`) / `perform_…` (`false`) -/
  | hwMode (h : Name) (prepare : Bool) (start stop : List Itf) (a : IoAns)
  /-- controller transition callback -/
  | ctlCb (c : Name) (cb : CtlCb) (a : CbAns)
  /-- controller `on_error` -/
  | ctlErr (c : Name) (a : ErrAns)
  /-- controller `update` -/
  | ctlUpdate (c : Name) (a : IoAns)
  /-- chainable controller `on_set_chained_mode(value)` -/
  | ctlChained (c : Name) (v : Bool) (accepted : Bool)
deriving DecidableEq, Repr

/-- The environment: all plugins at once. -/
structure Oracle where
  hwCb : List Ev → Name → HwCb → CbAns
  hwErr : List Ev → Name → ErrAns
  hwIo : List Ev → Name → HwIo → IoAns
  hwMode : List Ev → Name → Bool → List Itf → List Itf → IoAns
  ctlCb : List Ev → Name → CtlCb → CbAns
  ctlErr : List Ev → Name → ErrAns
  ctlUpdate : List Ev → Name → IoAns
  ctlChained : List Ev → Name → Bool → Bool

end Verif
