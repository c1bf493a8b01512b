import Verif.ACtl.Model
/-!
# Reading a history of an asynchronous controller

Specification vocabulary: only events are mentioned, nothing of the model's state. Histories are lists, newest event
first.
-/
namespace Verif.ACtl

/-- `P e older` holds for every event `e` of the history, `older` being what happened before it. -/
def Always (P : Ev → List Ev → Prop) (log : List Ev) : Prop :=
  ∀ newer e older, log = newer ++ e :: older → P e older

/-- The value of `f` at the newest event that has one. -/
def latest {α : Type} (f : Ev → Option α) (d : α) : List Ev → α
  | [] => d
  | e :: t => match f e with
    | some a => a
    | none => latest f d t

/-- The lifecycle state. -/
def stateOf : List Ev → LState := latest (fun | .lcSet l => some l | _ => none) .unconfigured

/-- `update` runs. -/
def updating : List Ev → Bool := latest (fun | .updCall => some true | .updRet _ => some false | _ => none) false

/-- A trigger was accepted and its cycle has not ended. -/
def cycleOpen : List Ev → Bool := latest (fun | .got _ true => some true | .cycEnd => some false | _ => none) false

/-- The lifecycle callback that runs. -/
def inside : List Ev → Option Cb := latest (fun | .cbCall c => some (some c) | .cbRet _ _ => some none | _ => none) none

/-- The controller has loaned interfaces. -/
def loaned : List Ev → Bool := latest (fun | .assigned => some true | .released => some false | _ => none) false

/-- The real-time thread has tested the flag and not yet triggered. -/
def midTrigger : List Ev → Bool :=
  latest (fun | .check => some true | .got _ _ => some false | .threw => some false | _ => none) false

/-- The last answer of `update` since `on_activate` was last called, OK if there is none. -/
def lastUpdate : List Ev → Ret :=
  latest (fun | .updRet r => some r | .cbCall (.cb .activate) => some .ok | _ => none) .ok

/-- A trigger was accepted and not yet served by a call of `update` (or dropped). -/
def unserved : List Ev → Bool :=
  latest (fun | .got _ true => some true | .updCall => some false | .cycEnd => some false | _ => none) false

/-- The deactivation was announced by `prepare_for_deactivation` after the last activation. -/
def announced : List Ev → Bool :=
  latest (fun | .prepBegin => some true | .cbCall (.cb .activate) => some false | _ => none) false

/-- `on_cleanup`, `on_shutdown` or `on_error` was called after the last `on_configure`: the thread was stopped. -/
def stopped : List Ev → Bool :=
  latest (fun | .cbCall (.cb .configure) => some false | .cbCall (.cb .activate) => none
              | .cbCall (.cb .deactivate) => none | .cbCall _ => some true | _ => none) true

/-- Every call of `on_deactivate` happened while no cycle was in progress. -/
def Orderly (log : List Ev) : Prop := Always (fun e older => e = .cbCall (.cb .deactivate) → cycleOpen older = false) log

end Verif.ACtl
