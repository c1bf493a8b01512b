import Verif.Core.Oracle
/-!
# What the callback history says about a controller

Independent of the controller manager model: everything is computed from the list of callbacks made on
the controller and their answers (newest first).
-/
namespace Verif

/-- Lifecycle state of the controller `n` implied by the callback history: the documented managed-node
state machine. A callback that answered ERROR or threw leaves the node in error processing (`unknown`)
until `on_error` answers. -/
def ctlLc (n : Name) : List Ev → LState
  | [] => .unknown
  | .ctlCb m cb a :: t =>
    if m = n then
      match cb, a with
      | .init, .success => .unconfigured
      | .configure, .success => .inactive
      | .configure, .failure => .unconfigured
      | .activate, .success => .active
      | .activate, .failure => .inactive
      | .deactivate, .success => .inactive
      | .deactivate, .failure => .active
      | .cleanup, .success => .unconfigured
      | .cleanup, .failure => .inactive
      | .shutdown, .success => .finalized
      | .shutdown, .failure => .finalized
      | _, _ => .unknown
    else ctlLc n t
  | .ctlErr m a :: t =>
    if m = n then (match a with | .success => .unconfigured | _ => .finalized) else ctlLc n t
  | _ :: t => ctlLc n t

/-- Chained mode of the controller `n` implied by the history: the last accepted request since it was
loaded. -/
def chainedOf (n : Name) : List Ev → Bool
  | [] => false
  | .ctlChained m v acc :: t => if m = n ∧ acc = true then v else chainedOf n t
  | .ctlCb m .init .success :: t => if m = n then false else chainedOf n t
  | _ :: t => chainedOf n t

/-- The last lifecycle callback of the controller `n` was an `on_deactivate` that answered FAILURE. -/
def stopRefused (n : Name) : List Ev → Bool
  | [] => false
  | .ctlCb m cb a :: t => if m = n then decide (cb = .deactivate ∧ a = .failure) else stopRefused n t
  | _ :: t => stopRefused n t

/-- When may a controller callback be invoked, given the history before it? -/
def CtlEvOk (pre : List Ev) : Ev → Prop
  | .ctlCb n .configure _ => ctlLc n pre = .unconfigured
  | .ctlCb n .activate _ => ctlLc n pre = .inactive
  | .ctlCb n .deactivate _ => ctlLc n pre = .active
  | .ctlCb n .cleanup _ => ctlLc n pre = .inactive
  | .ctlCb n .shutdown _ =>
    ctlLc n pre = .unconfigured ∨ ctlLc n pre = .inactive ∨ ctlLc n pre = .active
  | .ctlErr n _ => ∃ cb a t, pre = .ctlCb n cb a :: t ∧ (a = .error ∨ a = .throws)
  | .ctlUpdate n _ => ctlLc n pre = .active
  | .ctlChained n _ _ =>
    ctlLc n pre = .unconfigured ∨ ctlLc n pre = .inactive ∨ ctlLc n pre = .finalized
  | _ => True

/-- Every controller callback of the history was invoked in a permitted state. -/
def CtlTraceOk : List Ev → Prop
  | [] => True
  | e :: t => CtlEvOk t e ∧ CtlTraceOk t

end Verif
