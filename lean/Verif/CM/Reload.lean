import Verif.CM.Told
/-!
# `reload_controller_libraries`
-/
namespace Verif
namespace CM

/-- Where a call of `reload_controller_libraries` is: it waits for the switch that stops the active controllers (the
names read at its beginning), it still has to unload these controllers, or it has answered. -/
inductive Rl
  | stopping (names : List Name)
  | unloading (todo : List Name)
  | done (ok : Bool)
deriving DecidableEq, Repr

/-- What happens while the call is under way: cycles of the real-time loop, progress of the call, or the timeout of its
switch. All other services wait for `services_lock_`. -/
inductive RlEv
  | read (s : Name → RM.Sched)
  | update (due : Name → Bool) (lock : Bool)
  | write (s : Name → RM.Sched)
  | go
  | timeout

/-- cm.cpp:3004-3052: the beginning, up to the point where the call waits for the real-time loop. -/
def reloadBegin (o : Oracle) (cm : CM) (force : Bool) : CM × Rl :=
  let loaded := cm.ctls.map (·.name)
  let active := (cm.ctls.filter (fun c => c.lc = .active)).map (·.name)
  if active ≠ [] ∧ force = false then (cm, .done false)
  else if loaded = [] then (cm, .done true)
  else
    let r := cm.switchBegin o [] active .bestEffort false
    match r.2 with
    | .wait => (r.1, .stopping loaded)
    | .done .ok => (r.1, .unloading loaded)
    | .done _ => (r.1, .done false)

/-- cm.cpp:3043-3085: the call goes on (the end of `switch_controller`, or one `unload_controller`, or the answer). -/
def reloadGo (o : Oracle) (cm : CM) : Rl → CM × Rl
  | .stopping names =>
    let r := cm.switchWake o
    match r.2 with
    | none => (r.1, .stopping names)
    | some .ok => (r.1, .unloading names)
    | some _ => (r.1, .done false)
  | .unloading [] => (cm, .done true)
  | .unloading (n :: t) =>
    let r := cm.unload o n
    if r.2 = .ok then (r.1, .unloading t) else (r.1, .done false)
  | .done b => (cm, .done b)

/-- One event. -/
def reloadStep (o : Oracle) (s : CM × Rl) : RlEv → CM × Rl
  | .read sc => (s.1.rtRead o sc, s.2)
  | .update due lock => ((s.1.rtUpdate o due lock).1, s.2)
  | .write sc => (s.1.rtWrite o sc, s.2)
  | .go => reloadGo o s.1 s.2
  | .timeout =>
    match s.2 with
    | .stopping names => if s.1.pending then (s.1.switchTimeout.1, .done false) else (s.1, .stopping names)
    | r => (s.1, r)

/-- The call, with everything that happens meanwhile. -/
def reload (o : Oracle) (cm : CM) (force : Bool) (evs : List RlEv) : CM × Rl :=
  evs.foldl (reloadStep o) (cm.reloadBegin o force)

end CM
end Verif
