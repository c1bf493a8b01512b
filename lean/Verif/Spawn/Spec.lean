import Verif.Spawn.Model
/-!
# What the users of the command line tools rely on

Everything is said about a schedule `s` of events, starting with a client `c` that has done nothing yet.
-/
namespace Verif
namespace Spawn

/-- Some time during the schedule the controller manager was in a state with the property. -/
def Sometime (c : Client) (o : Oracle) (w : World) (s : List Ev) (P : CM → Prop) : Prop :=
  ∃ s1, s1 <+: s ∧ P (run c o w s1).cm

/-- Some time after the client had sent the request `r`, the controller manager was in a state with the property. -/
def Since (c : Client) (o : Oracle) (w : World) (s : List Ev) (r : Req) (P : CM → Prop) : Prop :=
  ∃ s1, s1 <+: s ∧ (∃ id, Wire.sent id r ∈ (run c o w s1).wire) ∧ P (run c o w s1).cm

/-- The client was interrupted. -/
def World.wasInterrupted (w : World) : Prop := Wire.interrupted ∈ w.wire

/-- The client has done its work: it ended with exit code 0, or it waits to be interrupted. -/
def World.succeeded (w : World) : Prop :=
  w.st = .done 0 ∨ ∃ t cur, w.st = .running .sleep t cur false

/-- What `spawner` was asked to do about a controller: have it loaded, have it configured (INACTIVE), or have it ACTIVE. -/
def Spawned (c : Ctrl) (cm : CM) : Prop :=
  if c.loadOnly then cm.lcOf c.name ≠ none
  else if c.inactive then cm.lcOf c.name = some .inactive
  else cm.lcOf c.name = some .active

/-- Is the controller to be activated? -/
def Ctrl.wantsActive (c : Ctrl) : Bool := !c.loadOnly && !c.inactive

/-- The answer is a refusal. An answer to `list_controllers` or `list_hardware_components` is not one; neither is the
answer about the parameter `params_file`, which nobody looks at. -/
def Refusal (r : Req) (a : Resp) : Prop :=
  a.ok = false ∧ r ≠ .list ∧ r ≠ .listHw ∧ ∀ n, r ≠ .setParam n .paramsFile

/-- A request that was sent. -/
def Wire.isSent : Wire → Bool
  | .sent _ _ => true
  | _ => false

/-- The request `r` was sent when `before` was what had been seen of the client. -/
def SentAfter (w : World) (r : Req) (before : List Wire) : Prop :=
  ∃ id after, w.wire = before ++ .sent id r :: after

/-- Among what was seen, the client accepted the answer `x` to `r`. -/
def Answered (seen : List Wire) (r : Req) (x : Resp) : Prop := Wire.got r x ∈ seen

/-- Among what was seen, the controller was listed as loaded, or loaded with success. -/
def KnownLoaded (seen : List Wire) (n : Name) : Prop :=
  (∃ x, Answered seen .list x ∧ n ∈ x.names) ∨ ∃ x, Answered seen (.load n) x ∧ x.ok = true

/-- What a spawner that is not interrupted may ask for: it sets parameters of and loads controllers of the command line that were not listed as loaded; it configures
only those it knows to be loaded, unless they are `load-only`; it activates, and never deactivates, only those whose configuration was confirmed. It
does nothing else. -/
def MayAsk (a : Args) (seen : List Wire) (r : Req) : Prop :=
  match r with
  | .list => True
  | .setParam n _ | .load n => (∃ c ∈ a.ctrls, c.name = n) ∧ ∃ x, Answered seen .list x ∧ n ∉ x.names
  | .configure n => (∃ c ∈ a.ctrls, c.name = n ∧ c.loadOnly = false) ∧ KnownLoaded seen n
  | .switch d l asap => d = [] ∧ l ≠ [] ∧ asap = a.asap ∧
      ∀ n ∈ l, (∃ c ∈ a.ctrls, c.name = n ∧ c.wantsActive = true) ∧ ∃ x, Answered seen (.configure n) x ∧ x.ok = true
  | _ => False

/-- The controllers an interrupted spawner deactivates and unloads: those not marked `inactive`. -/
def Args.killed (a : Args) : List Name := (a.ctrls.filter (fun c => !c.inactive)).map (·.name)

/-- What an interrupted spawner may ask for; `seen` is what was seen since the interrupt. Only with `--unload-on-kill`: first the
deactivation; after this was confirmed, the unloading. -/
def MayAskKilled (a : Args) (seen : List Wire) (r : Req) : Prop :=
  a.unloadOnKill = true ∧
  match r with
  | .switch d l _ => d = a.killed ∧ l = [] ∧ ∀ q x, ¬ Answered seen q x
  | .unload n => n ∈ a.killed ∧ ∃ x asap, Answered seen (.switch a.killed [] asap) x ∧ x.ok = true
  | _ => False

/-- An attempt to get the lock file timed out. -/
def Ev.isLockTimeout : Ev → Bool
  | .lockTimeout => true
  | _ => false

/-- The service was not there in time. -/
def Ev.isNoService : Ev → Bool
  | .noService => true
  | _ => false

end Spawn
end Verif
