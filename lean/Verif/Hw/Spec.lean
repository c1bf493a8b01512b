import Verif.Core.Oracle
/-!
# Specification of the managed lifecycle, independent of the implementation model

`lcOf n tr` is the state the component `n` must report given nothing but the callbacks that were
made on it and their answers. `TraceOk` says that every callback was made in a state in which
the lifecycle documentation allows it.
-/
namespace Verif

/-- Lifecycle state implied by the callback history (newest event first). -/
def lcOf (n : Name) : List Ev → LState
  | [] => .unknown
  | .hwCb m cb a :: t =>
    if m = n then
      match cb, a with
      | .init, .success => .unconfigured
      | .init, .failure => .finalized
      | .init, .error => .finalized
      | .configure, .success => .inactive
      | .cleanup, .success => .unconfigured
      | .shutdown, .success => .finalized
      | .activate, .success => .active
      | .deactivate, .success => .inactive
      | _, _ => lcOf n t
    else lcOf n t
  | .hwErr m a :: t =>
    if m = n then (match a with | .success => .unconfigured | _ => .finalized) else lcOf n t
  | _ :: t => lcOf n t

/-- When is it legal to invoke a hardware callback, given the history before it? -/
def HwEvOk (pre : List Ev) : Ev → Prop
  | .hwCb n .init _ => lcOf n pre = .unknown
  | .hwCb n .configure _ => lcOf n pre = .unconfigured
  | .hwCb n .cleanup _ => lcOf n pre = .inactive
  | .hwCb n .activate _ => lcOf n pre = .inactive
  | .hwCb n .deactivate _ => lcOf n pre = .active
  | .hwCb n .shutdown _ => lcOf n pre ≠ .unknown ∧ lcOf n pre ≠ .finalized
  | .hwErr n _ => lcOf n pre ≠ .unknown ∧ lcOf n pre ≠ .unconfigured
  | .hwIo n .read _ => lcOf n pre = .inactive ∨ lcOf n pre = .active
  | .hwIo n .write _ => lcOf n pre = .active
  | .hwMode n _ _ _ _ => lcOf n pre = .inactive ∨ lcOf n pre = .active
  | _ => True

/-- Every hardware callback of the trace was invoked in a legal state. -/
def HwTraceOk : List Ev → Prop
  | [] => True
  | e :: t => HwEvOk t e ∧ HwTraceOk t

/-- The documented edges of the hardware lifecycle (managed node states), FINALIZED terminal. -/
inductive LegalEdge : LState → LState → Prop
  | initOk : LegalEdge .unknown .unconfigured
  | initFail : LegalEdge .unknown .finalized
  | configure : LegalEdge .unconfigured .inactive
  | shutdownU : LegalEdge .unconfigured .finalized
  | activate : LegalEdge .inactive .active
  | cleanup : LegalEdge .inactive .unconfigured
  | shutdownI : LegalEdge .inactive .finalized
  | deactivate : LegalEdge .active .inactive
  | errorA : LegalEdge .active .unconfigured
  | shutdownA : LegalEdge .active .finalized

end Verif
