import Verif.Hw.Async
/-!
# Reading a history of an asynchronous component

Specification vocabulary: only events are mentioned, nothing of the model's state. Histories are
lists, newest event first.
-/
namespace Verif.Async

/-- `P e older` holds for every event `e` of the history, `older` being what happened before it. -/
def Always (P : Ev → List Ev → Prop) (log : List Ev) : Prop :=
  ∀ newer e older, log = newer ++ e :: older → P e older

/-- Events of the plugin's `read`/`write`. -/
def Ev.isIo : Ev → Bool
  | .rdCall | .rdRet _ | .wrCall | .wrRet _ => true
  | _ => false

/-- Events of the plugin's lifecycle callbacks. -/
def Ev.isCb : Ev → Bool
  | .cbCall _ | .cbRet _ _ => true
  | _ => false

/-- Events of the worker thread. -/
def Ev.isWorker : Ev → Bool
  | .rdCall | .rdRet _ | .wrCall | .wrRet _ | .cycEnd => true
  | _ => false

/-- The component's lifecycle state. -/
def stateOf : List Ev → LState
  | [] => .unconfigured
  | .lcSet l :: _ => l
  | _ :: t => stateOf t

/-- The latest event of the plugin's `read`/`write`. -/
def lastIo : List Ev → Option Ev
  | [] => none
  | e :: t => if e.isIo then some e else lastIo t

/-- The plugin is inside `read` or `write`. -/
def ioOpen (log : List Ev) : Prop := lastIo log = some .rdCall ∨ lastIo log = some .wrCall

/-- The latest lifecycle callback event. -/
def lastCb : List Ev → Option Ev
  | [] => none
  | e :: t => if e.isCb then some e else lastCb t

/-- The plugin is inside a lifecycle callback. -/
def cbOpen (log : List Ev) : Prop := ∃ c, lastCb log = some (.cbCall c)

/-- A trigger was accepted and its cycle has not ended. -/
def cycleOpen : List Ev → Bool
  | [] => false
  | .gotRead _ true :: _ => true
  | .cycEnd :: _ => false
  | _ :: t => cycleOpen t

/-- What happened since `on_activate` was last called (everything, if it never was). -/
def since : List Ev → List Ev
  | [] => []
  | .cbCall .activate :: _ => []
  | e :: t => e :: since t

/-- The plugin's last answer to `read` since the last activation, OK if there is none. -/
def lastRead : List Ev → Ret
  | [] => .ok
  | .cbCall .activate :: _ => .ok
  | .rdRet r :: _ => r
  | _ :: t => lastRead t

/-- The plugin's last answer to `write` since the last activation, OK if there is none. -/
def lastWrite : List Ev → Ret
  | [] => .ok
  | .cbCall .activate :: _ => .ok
  | .wrRet r :: _ => r
  | _ :: t => lastWrite t

/-- The history up to the moment the last `read` call of the real-time thread began. -/
def atCall : List Ev → List Ev
  | [] => []
  | .apiRead :: t => t
  | _ :: t => atCall t

/-- Since the last lifecycle callback was called, `read` or `write` reported ERROR. -/
def errPending : List Ev → Bool
  | [] => false
  | .cbCall _ :: _ => false
  | .gotRead .error _ :: _ => true
  | .gotWrite .error :: _ => true
  | _ :: t => errPending t

end Verif.Async
