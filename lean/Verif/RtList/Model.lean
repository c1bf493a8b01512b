import Verif.Core.Types
/-!
# The double-buffered list of controllers (cm.hpp:566-660, cm.cpp:3720-3795)

Two copies of the list, a mutex for everybody but the real-time thread, two indices. Any number of service threads, the
real-time thread and all their interleavings. Memory is sequentially consistent (the indices are plain `int`s in the code, so
this is an idealisation in its favour). A list is its content; editing it is any number of writes of any content.
Not modelled: `rclcpp::ok()` (a waiting service throws when the process is shut down).
-/
namespace Verif
namespace RtList

/-- Who holds `controllers_lock_`. -/
inductive Owner
  | rt
  | svc (t : Nat)
deriving DecidableEq, Repr

/-- Where a service call is. -/
inductive SPc
  /-- not in a critical section -/
  | idle
  /-- holds the lock and may read the updated list (`get_updated_list`, cm.cpp:3742-3751) -/
  | held
  /-- `switch_controller` waits, with the lock, for the real-time loop (cm.cpp:2385-2426); the flag says whether that has answered -/
  | await (answered : Bool)
  /-- has the reference returned by `get_unused_list` -/
  | edit
  /-- inside `switch_updated_list`: the index is switched, `former` may still be in use -/
  | flipped (former : Bool)
deriving DecidableEq, Repr

/-- Where the real-time thread is. -/
inductive RPc
  /-- has no reference to a list -/
  | idle
  /-- inside `update_and_get_used_by_rt_list`: has read the updated index -/
  | loaded (i : Bool)
  /-- has a reference to list `i` -/
  | using (i : Bool)
  /-- wants the lock (`publish_activity` of `update`, cm.cpp:3580, 4294; `get_loaded_controllers` of `write`, cm.cpp:3643, 1591) -/
  | want (i : Option Bool)
  /-- has the lock -/
  | got (i : Option Bool)
deriving DecidableEq, Repr

/-- Lists, indices (`used = none` is -1), lock and program counters. -/
structure St where
  lists : Bool → List Name
  updated : Bool
  used : Option Bool
  lock : Option Owner
  svc : Nat → SPc
  rt : RPc

/-- After construction (cm.hpp:652-656). -/
def St.init : St :=
  { lists := fun _ => [], updated := false, used := none, lock := none, svc := fun _ => .idle, rt := .idle }

/-- Atomic actions. -/
inductive Act
  /-- `std::lock_guard` of a service (cm.cpp:1419, 1773, 2036, 2451 and the reading services) -/
  | lock (t : Nat)
  /-- the guard goes out of scope -/
  | unlock (t : Nat)
  /-- `switch_controller` starts to wait for the real-time loop -/
  | await (t : Nat)
  /-- that wait times out (cm.cpp:2389-2399, 2405-2416) -/
  | timeout (t : Nat)
  /-- that wait ends; if `manage`, the service thread runs `manage_switch` itself, which calls
  `update_and_get_used_by_rt_list` (cm.cpp:2424, 3345) -/
  | resume (t : Nat) (manage : Bool)
  /-- `get_unused_list` returns (cm.cpp:3727-3741) -/
  | get (t : Nat)
  /-- the unused list is written -/
  | write (t : Nat) (l : List Name)
  /-- `switch_updated_list` switches the index (cm.cpp:3762-3763) -/
  | flip (t : Nat)
  /-- `wait_until_rt_not_using` of `switch_updated_list` returns (cm.cpp:3764, 3783-3794) -/
  | pass (t : Nat)
  /-- first half of `update_and_get_used_by_rt_list` (cm.cpp:3723); older references are not used any more -/
  | rtLoad
  /-- second half (cm.cpp:3723-3724) -/
  | rtStore
  /-- the phase of the loop ends -/
  | rtDone
  /-- `update` answers a waiting `switch_controller` (cm.cpp:3585-3594, 3370-3371) -/
  | rtAnswer
  /-- the real-time thread asks for the lock -/
  | rtWant
  /-- it gets it -/
  | rtLock
  /-- it gives it back -/
  | rtUnlock
deriving DecidableEq, Repr

/-- A program counter of a service changes. -/
def St.setPc (s : St) (t : Nat) (p : SPc) : St := { s with svc := fun u => if u = t then p else s.svc u }

/-- Does the thread that holds the lock wait for an answer? -/
def St.answer (s : St) : St :=
  match s.lock with
  | some (.svc t) => if s.svc t = .await false then s.setPc t (.await true) else s
  | _ => s

/-- One action; `none` if it cannot happen in this state (a blocked thread). -/
def step (s : St) : Act → Option St
  | .lock t => if s.lock = none ∧ s.svc t = .idle then some { s.setPc t .held with lock := some (.svc t) } else none
  | .unlock t => if s.svc t = .held ∨ s.svc t = .edit then some { s.setPc t .idle with lock := none } else none
  | .await t => if s.svc t = .held then some (s.setPc t (.await false)) else none
  | .timeout t => if s.svc t = .await false ∨ s.svc t = .await true then some (s.setPc t .held) else none
  | .resume t m =>
    if s.svc t = .await true then
      some (if m then { s.setPc t .held with used := some s.updated } else s.setPc t .held)
    else none
  | .get t => if s.svc t = .held ∧ s.used ≠ some (!s.updated) then some (s.setPc t .edit) else none
  | .write t l =>
    if s.svc t = .edit then some { s with lists := fun i => if i = !s.updated then l else s.lists i } else none
  | .flip t => if s.svc t = .edit then some { s.setPc t (.flipped s.updated) with updated := !s.updated } else none
  | .pass t =>
    match s.svc t with
    | .flipped f => if s.used ≠ some f then some (s.setPc t .held) else none
    | _ => none
  | .rtLoad =>
    match s.rt with
    | .idle => some { s with rt := .loaded s.updated }
    | .using _ => some { s with rt := .loaded s.updated }
    | _ => none
  | .rtStore =>
    match s.rt with
    | .loaded i => some { s with rt := .using i, used := some i }
    | _ => none
  | .rtDone =>
    match s.rt with
    | .using _ => some { s with rt := .idle }
    | _ => none
  | .rtAnswer =>
    match s.rt with
    | .using _ => some s.answer
    | _ => none
  | .rtWant =>
    match s.rt with
    | .using i => some { s with rt := .want (some i) }
    | .idle => some { s with rt := .want none }
    | _ => none
  | .rtLock =>
    match s.rt with
    | .want i => if s.lock = none then some { s with rt := .got i, lock := some .rt } else none
    | _ => none
  | .rtUnlock =>
    match s.rt with
    | .got (some i) => some { s with rt := .using i, lock := none }
    | .got none => some { s with rt := .idle, lock := none }
    | _ => none

/-- A schedule; `none` if one of its actions cannot happen. -/
def run (s : St) : List Act → Option St
  | [] => some s
  | a :: as => (step s a).bind fun s' => run s' as

end RtList
end Verif
