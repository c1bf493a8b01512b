import Verif.CM.Run
/-!
# The command line clients of the controller manager

`controller_manager/controller_manager/spawner.py`, `unspawner.py`, `hardware_spawner.py` and the `service_caller` of
`controller_manager_services.py`, as clients that talk to a controller manager (`Verif.CM`) over services that may be
slow, may lose requests and may lose answers, while the real-time loop and other clients go on working.

Abbreviations: sp = controller_manager/controller_manager/spawner.py,
un = controller_manager/controller_manager/unspawner.py,
hs = controller_manager/controller_manager/hardware_spawner.py,
cms = controller_manager/controller_manager/controller_manager_services.py,
cm = controller_manager/src/controller_manager.cpp.

Not modelled: command line parsing (the result is `Args`), the contents of parameter files (only which parameters they
make the spawner set), logging, name spaces.
-/
namespace Verif
namespace Spawn

/-- The parameters the spawner sets on the controller manager (sp 455-468; cms 478-519). -/
inductive Param | nodeOptions | paramsFile | type | fallbacks
deriving DecidableEq, Repr

/-- The requests the clients send (cms 150-341; the services of cm:2871-3280). `list` and `lookup` are both
`list_controllers`: of the answer to `lookup n` the client looks at the first entry named `n` only. -/
inductive Req
  | list
  | lookup (n : Name)
  | setParam (n : Name) (p : Param)
  | load (n : Name)
  | configure (n : Name)
  | switch (deact act : List Name) (asap : Bool) (s : Strictness := .strict)
  | cleanup (n : Name)
  | unload (n : Name)
  | listHw
  | setHw (h : Name) (target : LState)
deriving DecidableEq, Repr

/-- An answer: `ok`, the names listed by `list_controllers` / `list_hardware_components`, and the state reported by
`set_hardware_component_state` or found with `lookup`. -/
structure Resp where
  ok : Bool
  names : List Name := []
  state : Option LState := none
deriving DecidableEq, Repr

/-- A client program: it has an exit code, sleeps until it is interrupted (sp 594-595), or calls a service and goes on
with the answer. -/
inductive Prog
  | exit (code : Nat)
  | sleep
  | call (r : Req) (k : Resp → Prog)

/-- One controller of the command line (sp 182-190, 292-302); `files`: some parameter file has parameters for the
controller; `hasType`, `hasFallbacks`: they include `type`, `fallback_controllers` (cms 490-518). -/
structure Ctrl where
  name : Name
  loadOnly : Bool := false
  inactive : Bool := false
  rosArgs : Bool := false
  files : Bool := false
  hasType : Bool := false
  hasFallbacks : Bool := false
deriving DecidableEq, Repr

/-- The command line (sp 352-361). -/
structure Args where
  ctrls : List Ctrl
  group : Bool := false
  asap : Bool := false
  unloadOnKill : Bool := false

/-- cms 430-475 `set_controller_parameters` for an optional parameter whose refusal ends the program (sp 455-476). -/
def setChecked (want : Bool) (n : Name) (p : Param) (k : Prog) : Prog :=
  if want then .call (.setParam n p) (fun a => if a.ok then k else .exit 1) else k

/-- cms 478-519 `set_controller_parameters_from_param_files` and sp 467-476: the answer about `params_file` is not
looked at. -/
def setFiles (c : Ctrl) (k : Prog) : Prog :=
  if c.files then
    .call (.setParam c.name .paramsFile) (fun _ =>
      setChecked c.hasType c.name .type (setChecked c.hasFallbacks c.name .fallbacks k))
  else k

/-- sp 440-499: load the controller unless it is listed as loaded. -/
def loadStep (c : Ctrl) (k : Prog) : Prog :=
  .call .list (fun a =>
    if c.name ∈ a.names then k
    else setChecked c.rosArgs c.name .nodeOptions (setFiles c
      (.call (.load c.name) (fun b => if b.ok then k else .exit 1))))

/-- sp 501-546: configure it and, unless it is to be activated with the group, activate it. `k` is given `true` when
the controller is to be activated with the group. -/
def startStep (a : Args) (c : Ctrl) (k : Bool → Prog) : Prog :=
  if c.loadOnly then k false
  else .call (.configure c.name) (fun r =>
    if r.ok then
      if c.inactive then k false
      else if a.group then k true
      else .call (.switch [] [c.name] a.asap) (fun r => if r.ok then k false else .exit 1)
    else .exit 1)

/-- sp 590-595 -/
def finish (a : Args) : Prog := if a.unloadOnKill then .sleep else .exit 0

/-- sp 566-589 -/
def groupStep (a : Args) (acts : List Name) : Prog :=
  if a.group = true ∧ acts ≠ [] then
    .call (.switch [] acts a.asap) (fun r => if r.ok then finish a else .exit 1)
  else finish a

/-- sp 437-595: the loop over the controllers; `acts` is `controllers_to_activate`. -/
def spawnLoop (a : Args) : List Ctrl → List Name → Prog
  | [], acts => groupStep a acts
  | c :: t, acts => loadStep c (startStep a c (fun g => spawnLoop a t (if g then acts ++ [c.name] else acts)))

/-- sp 630-648: unload every controller of the list, whatever the answers, and remember whether all were OK. -/
def unloadLoop : List Name → Bool → Prog
  | [], st => .exit (if st then 0 else 1)
  | n :: t, st => .call (.unload n) (fun r => unloadLoop t (st && r.ok))

/-- sp 597-658: the handler of an interrupt. -/
def onInterrupt (a : Args) : Prog :=
  let ns := (a.ctrls.filter (fun c => !c.inactive)).map (·.name)
  if a.unloadOnKill = true ∧ ns ≠ [] then
    .call (.switch ns [] a.asap) (fun r => if r.ok then unloadLoop ns true else .exit 1)
  else .exit 0

/-- A client: does it wait for the lock file first (sp 383-412), its body, its interrupt handler, and what an interrupt
does before the lock is taken: `none` for an exception (sp 620-628 calls a service with `node = None`). -/
structure Client where
  lock : Bool
  main : Prog
  onInt : Prog
  early : Option Nat

/-- sp 306-660 -/
def spawner (a : Args) : Client :=
  { lock := true, main := spawnLoop a a.ctrls [], onInt := onInterrupt a,
    early := if a.unloadOnKill = true ∧ a.ctrls.any (fun c => !c.inactive) = true then none else some 0 }

/-- un 66-74 -/
def unspawnLoop : List Name → Prog
  | [] => .exit 0
  | n :: t => .call (.unload n) (fun r => if r.ok then unspawnLoop t else .exit 1)

/-- un 29-85: the answer about the deactivation is not looked at; an interrupt ends the program with code 0. -/
def unspawner (names : List Name) : Client :=
  { lock := false, main := .call (.switch names [] true) (fun _ => unspawnLoop names), onInt := .exit 0, early := some 0 }

/-- hs 156-178: one component after another; no answer is looked at. -/
def hwLoop (target : LState) : List Name → Prog
  | [] => .exit 0
  | h :: t => .call .listHw (fun a =>
      if h ∈ a.names then .call (.setHw h target) (fun _ => hwLoop target t) else hwLoop target t)

/-- hs 101-186: `main` has no return value, which is exit code 0. -/
def hwSpawner (activate : Bool) (hs : List Name) : Client :=
  { lock := false, main := hwLoop (if activate then .active else .inactive) hs, onInt := .exit 0, early := some 0 }

/-! ## The services -/

/-- What a request finds in the controller manager besides the request itself: the controller class and its parameters,
the iteration order of a hash map, and whether a parameter can be set. -/
structure Extra where
  chainable : Bool := false
  async : Bool := false
  cfg : CtlCfg
  fallbacks : List Name := []
  ord : List Name := []
  rateOk : Bool := true
  paramOk : Bool := true

/-- `ok` of an answer (cm:2985, 3001, 3104-3108, 3125). -/
def okOf (r : Ret) : Bool := decide (r = .ok)

/-- The service callbacks of the controller manager (cm:2840-3262) for the requests of the clients. No answer: the
`switch_controller` callback waits for the real-time loop. -/
def handle (o : Oracle) (cm : CM) (x : Extra) : Req → CM × Option Resp
  | .list => (cm, some { ok := true, names := cm.ctls.map (·.name) })
  | .lookup n => (cm, some { ok := true, state := cm.lcOf n })
  | .setParam _ _ => (cm, some { ok := x.paramOk })
  | .load n => let r := cm.load o n x.chainable x.async x.cfg x.fallbacks; (r.1, some { ok := okOf r.2 })
  | .configure n => let r := cm.configure o n x.cfg x.ord x.rateOk; (r.1, some { ok := okOf r.2 })
  | .switch d a asap s =>
    match cm.switchBegin o a d s asap with
    | (cm', .done r) => (cm', some { ok := okOf r })
    | (cm', .wait) => (cm', none)
  | .cleanup n => let r := cm.cleanup o n; (r.1, some { ok := okOf r.2 })
  | .unload n => let r := cm.unload o n; (r.1, some { ok := okOf r.2 })
  | .listHw => (cm, some { ok := true, names := cm.rm.comps.map (·.name) })
  | .setHw h t =>
    match cm.rm.findHw h with
    | none => (cm, some { ok := false })
    | some _ =>
      let r := cm.setHw o h t
      (r.1, some { ok := okOf r.2, state := (r.1.rm.findHw h).map (·.lc) })

/-! ## The system: one client, its messages, the controller manager -/

/-- A request under way. -/
structure Msg where
  id : Nat
  req : Req
deriving DecidableEq, Repr

/-- What the client is doing: waiting for the lock file (number of attempts so far), running (`tries`: requests sent for
the current call; `cur`: the request whose answer it waits for; `handler`: in the interrupt handler), ended with an exit
code, or ended by an exception. -/
inductive Status
  | locking (tries : Nat)
  | running (p : Prog) (tries : Nat) (cur : Option Nat) (handler : Bool)
  | done (code : Nat)
  | raised

/-- What can be seen of the client from outside, in the order in which it happened. -/
inductive Wire
  /-- it sent a request -/
  | sent (id : Nat) (r : Req)
  /-- it accepted the answer to a request -/
  | got (r : Req) (a : Resp)
  /-- it was interrupted -/
  | interrupted
deriving DecidableEq, Repr

/-- The whole system. -/
structure World where
  cm : CM
  st : Status
  next : Nat
  inbox : List Msg
  serving : Option Msg
  outbox : List (Msg × Resp)
  wire : List Wire

/-- What can happen next. -/
inductive Ev
  /-- an operation of the real-time loop or of somebody else -/
  | env (op : CM.Op)
  /-- the client gets the lock file -/
  | locked
  /-- an attempt to get the lock file times out -/
  | lockTimeout
  /-- the client sends its request (cms 139) -/
  | send
  /-- the service is not there in time (cms 125-135) -/
  | noService
  /-- the controller manager executes a request of the client -/
  | serve (m : Msg) (x : Extra)
  /-- the waiting `switch_controller` callback of the client makes progress -/
  | wake
  /-- the waiting `switch_controller` callback of the client times out -/
  | timeout
  /-- an answer reaches the client -/
  | deliver (m : Msg) (a : Resp)
  /-- a request is lost -/
  | loseReq (m : Msg)
  /-- an answer is lost -/
  | loseResp (m : Msg) (a : Resp)
  /-- the client waited too long for an answer (cms 140-145) -/
  | giveUp
  /-- SIGINT or SIGTERM -/
  | interrupt

/-- The client goes on with a program. -/
def enter (p : Prog) (handler : Bool) : Status :=
  match p with
  | .exit c => .done c
  | _ => .running p 0 none handler

/-- A client before it has done anything. -/
def boot (c : Client) (cm : CM) : World :=
  { cm, st := if c.lock then .locking 0 else enter c.main false, next := 0, inbox := [], serving := none, outbox := [],
    wire := [] }

/-- Does the operation end a waiting `switch_controller` call? -/
def endsSwitch : CM.Op → Bool
  | .switchWake => true
  | .switchTimeout => true
  | _ => false

/-- The waiting `switch_controller` callback of the client has returned (cm:3100-3110). -/
def answered (w : World) (m : Msg) (r : CM × Option Ret) : World :=
  match r.2 with
  | none => w
  | some res => { w with cm := r.1, serving := none, outbox := w.outbox ++ [(m, { ok := okOf res })] }

/-- sp 383-412 the lock file: five attempts. -/
def lockTimeout (w : World) (tries : Nat) : World :=
  { w with st := if tries + 1 < 5 then .locking (tries + 1) else .done 1 }

/-- One event; an event that cannot happen now does nothing. -/
def step (c : Client) (o : Oracle) (w : World) : Ev → World
  | .env op => if w.serving.isSome && endsSwitch op then w else { w with cm := w.cm.step o op }
  | .locked =>
    match w.st with
    | .locking _ => { w with st := enter c.main false }
    | _ => w
  | .lockTimeout =>
    match w.st with
    | .locking n => lockTimeout w n
    | _ => w
  | .send =>
    match w.st with
    | .running (.call r k) tries none h =>
      { w with st := .running (.call r k) (tries + 1) (some w.next) h, next := w.next + 1,
               inbox := w.inbox ++ [⟨w.next, r⟩], wire := w.wire ++ [.sent w.next r] }
    | _ => w
  | .noService =>
    match w.st with
    | .running (.call _ _) 0 none false => { w with st := .done 1 }
    | .running (.call _ _) 0 none true => { w with st := .raised }
    | _ => w
  | .serve m x =>
    if m ∈ w.inbox ∧ w.cm.pending = false then
      match handle o w.cm x m.req with
      | (cm', some a) => { w with cm := cm', inbox := w.inbox.erase m, outbox := w.outbox ++ [(m, a)] }
      | (cm', none) => { w with cm := cm', inbox := w.inbox.erase m, serving := some m }
    else w
  | .wake =>
    match w.serving with
    | some m => answered w m (w.cm.switchWake o)
    | none => w
  | .timeout =>
    match w.serving with
    | some m => answered w m w.cm.switchTimeout
    | none => w
  | .deliver m a =>
    if (m, a) ∈ w.outbox then
      match w.st with
      | .running (.call r k) _ (some id) h =>
        if id = m.id then
          { w with outbox := w.outbox.erase (m, a), st := enter (k a) h, wire := w.wire ++ [.got r a] }
        else { w with outbox := w.outbox.erase (m, a) }
      | _ => { w with outbox := w.outbox.erase (m, a) }
    else w
  | .loseReq m => { w with inbox := w.inbox.erase m }
  | .loseResp m a => { w with outbox := w.outbox.erase (m, a) }
  | .giveUp =>
    match w.st with
    | .running p tries (some _) h => { w with st := if tries < 3 then .running p tries none h else .raised }
    | _ => w
  | .interrupt =>
    match w.st with
    | .locking _ =>
      { w with wire := w.wire ++ [.interrupted], st := match c.early with | none => .raised | some e => .done e }
    | .running _ _ _ false => { w with wire := w.wire ++ [.interrupted], st := enter c.onInt true }
    | _ => w

/-- A schedule. -/
def run (c : Client) (o : Oracle) (w : World) (s : List Ev) : World := s.foldl (step c o) w

end Spawn
end Verif
