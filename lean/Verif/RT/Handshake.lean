/-!
# The hand-over of a switch request to the real-time loop

`switch_controller` (cm.cpp:1860-2444), `clear_requests` (1837-1848), `manage_switch` (3320-3378) and the end of
`update` (3580-3590), `SwitchParams` (controller_manager.hpp:726-775).

Two threads: the service thread (service calls are serialised by `services_lock_`) and the real-time thread. One
action is one step of one thread between two accesses to the shared switch parameters; the schedule is an arbitrary
list of actions, an action that is not possible in a state does nothing. Request lists are abstracted to the number of
the request they belong to and whether its validation is complete.
-/
namespace Verif
namespace Handshake

/-- The two threads. -/
inductive Thr | svc | rt
deriving DecidableEq, Repr

/-- What a call of `switch_controller` answered: rejected by the validation, timed out while waiting for the real-time
loop, or evaluated after the hand-over. -/
inductive Out | rejected | timedOut | evaluated
deriving DecidableEq, Repr

/-- The service thread. -/
inductive SPc
  | idle
  /-- filling and checking the request lists (cm.cpp:1945-2374) -/
  | filling (k : Nat) (a : Bool)
  /-- `activate_asap` stored (cm.cpp:2378) -/
  | stored1 (k : Nat) (a : Bool)
  /-- `ready_to_switch = false` stored (cm.cpp:2388) -/
  | stored2 (k : Nat) (a : Bool)
  /-- `do_switch = true` stored; about to lock `switch_params_.mutex` (cm.cpp:2394) -/
  | lockWait (k : Nat)
  /-- in `cv.wait_for`, mutex held, about to test the predicate (cm.cpp:2395-2397) -/
  | holding (k : Nat)
  /-- in `cv.wait_for`, mutex released -/
  | sleeping (k : Nat)
  /-- `cv.wait_for` timed out, mutex held again, about to test the predicate for the last time -/
  | lastTest (k : Nat)
  /-- `activate_asap == false`: polling `ready_to_switch` (cm.cpp:2410-2423) -/
  | polling (k : Nat)
  /-- about to call `manage_switch` (cm.cpp:2426) -/
  | manage (k : Nat)
  /-- inside `manage_switch`, mutex held -/
  | body (k : Nat)
  /-- `switch_updated_list` (cm.cpp:2438): waits until the real-time thread has taken the new list -/
  | finish (k : Nat)
  /-- about to call `clear_requests` (cm.cpp:2442) -/
  | synced (k : Nat)
deriving DecidableEq, Repr

/-- The real-time thread, inside `update`. -/
inductive RPc
  | idle
  /-- in the controller loop: saw `do_switch`, about to read the request lists (`skip_cycle`, cm.cpp:3419-3443) -/
  | peeking
  /-- saw `do_switch` at the end of `update` (cm.cpp:3585) -/
  | sawSwitch
  /-- saw `activate_asap` (cm.cpp:3587), about to call `manage_switch` -/
  | sawAsap
  /-- saw `!activate_asap`, about to store `ready_to_switch` (cm.cpp:3593) -/
  | sawSlow
  /-- in `manage_switch`, mutex held, request lists not yet executed -/
  | body
  /-- in `manage_switch`, request lists executed, about to store `do_switch = false` and unlock -/
  | bodyEnd
deriving DecidableEq, Repr

/-- Shared switch parameters, program counters and history. -/
structure St where
  doSwitch : Bool
  asap : Bool
  ready : Bool
  mutex : Option Thr
  /-- the request lists: `none` is empty, otherwise the request and whether it has been validated completely -/
  lists : Option (Nat × Bool)
  svc : SPc
  rt : RPc
  /-- number of calls so far -/
  next : Nat
  /-- history: what was executed by `manage_switch`, newest first -/
  exec : List (Option (Nat × Bool))
  /-- history: what the calls answered -/
  ret : List (Nat × Out)
  /-- history: the service thread wrote the request lists while the real-time thread was reading them -/
  race : Bool
deriving DecidableEq, Repr

/-- Initial state. -/
def St.init : St :=
  { doSwitch := false, asap := false, ready := false, mutex := none, lists := none, svc := .idle, rt := .idle, next := 0,
    exec := [], ret := [], race := false }

/-- Is the real-time thread reading the request lists? -/
def RPc.reads : RPc → Bool
  | .peeking => true
  | .body => true
  | _ => false

/-- The service thread writes the request lists. -/
def St.write (s : St) (l : Option (Nat × Bool)) : St := { s with lists := l, race := s.race || s.rt.reads }

/-- `clear_requests` (cm.cpp:1837-1848) and return. -/
def St.clearRet (s : St) (k : Nat) (r : Out) : St :=
  { (s.write none) with doSwitch := false, ready := false, asap := false, svc := .idle, ret := (k, r) :: s.ret }

/-- Actions. -/
inductive Act
  /-- a new call begins; `a` is `activate_asap` -/
  | begin (a : Bool)
  /-- the validation rejects the request -/
  | reject
  /-- the service thread makes its next step -/
  | svc
  /-- the wait of the service thread times out -/
  | timeout
  /-- the real-time thread starts a new cycle and takes the updated controller list (cm.cpp:3390) -/
  | cycle
  /-- the controller loop looks at `do_switch` (cm.cpp:3419) -/
  | peek
  /-- the real-time thread makes its next step (at the end of `update`: looks at `do_switch`) -/
  | rt
deriving DecidableEq, Repr

/-- Next step of the service thread. -/
def stepSvc (s : St) : St :=
  match s.svc with
  | .idle => s
  | .filling k a => { (s.write (some (k, true))) with asap := a, svc := .stored1 k a }
  | .stored1 k a => { s with ready := false, svc := .stored2 k a }
  | .stored2 k a => { s with doSwitch := true, svc := if a then .lockWait k else .polling k }
  | .lockWait k => if s.mutex = none then { s with mutex := some .svc, svc := .holding k } else s
  | .holding k =>
    if s.doSwitch then { s with mutex := none, svc := .sleeping k }
    else { s with mutex := none, svc := .finish k }
  | .sleeping k => if s.mutex = none then { s with mutex := some .svc, svc := .holding k } else s
  | .lastTest k =>
    if s.doSwitch then { s.clearRet k .timedOut with mutex := none }
    else { s with mutex := none, svc := .finish k }
  | .polling k => if s.ready then { s with svc := .manage k } else s
  | .manage k =>
    if s.mutex = none then { s with mutex := some .svc, svc := .body k }
    else { s with svc := .finish k }
  | .body k => { s with exec := s.lists :: s.exec, doSwitch := false, mutex := none, svc := .finish k }
  | .finish _ => s
  | .synced k => s.clearRet k .evaluated

/-- Next step of the real-time thread. -/
def stepRt (s : St) : St :=
  match s.rt with
  | .idle => if s.doSwitch then { s with rt := .sawSwitch } else s
  | .peeking => { s with rt := .idle }
  | .sawSwitch => if s.asap then { s with rt := .sawAsap } else { s with rt := .sawSlow }
  | .sawAsap => if s.mutex = none then { s with mutex := some .rt, rt := .body } else { s with rt := .idle }
  | .sawSlow => { s with ready := true, rt := .idle }
  | .body => { s with exec := s.lists :: s.exec, rt := .bodyEnd }
  | .bodyEnd => { s with doSwitch := false, mutex := none, rt := .idle }

/-- One action. -/
def step (s : St) : Act → St
  | .begin a =>
    match s.svc with
    | .idle =>
      { (s.write (some (s.next, false))) with
        doSwitch := false, asap := false, ready := false, svc := .filling s.next a, next := s.next + 1 }
    | _ => s
  | .reject =>
    match s.svc with
    | .filling k _ => s.clearRet k .rejected
    | _ => s
  | .svc => stepSvc s
  | .timeout =>
    match s.svc with
    | .sleeping k => if s.mutex = none then { s with mutex := some .svc, svc := .lastTest k } else s
    | .polling k => if s.ready then s else s.clearRet k .timedOut
    | _ => s
  | .cycle =>
    if s.rt = .idle then
      match s.svc with
      | .finish k => { s with svc := .synced k }
      | _ => s
    else s
  | .peek => if s.rt = .idle ∧ s.doSwitch = true then { s with rt := .peeking } else s
  | .rt => stepRt s

/-- Execute a schedule. -/
def run (s : St) (as : List Act) : St := as.foldl step s

/-- No request begins while the real-time thread is still in the middle of acting on an earlier one. -/
def Calm (s : St) : List Act → Prop
  | [] => True
  | a :: t => ((∃ b, a = .begin b) → s.svc = .idle → s.rt = .idle) ∧ Calm (step s a) t

instance Act.decBegin (a : Act) : Decidable (∃ b, a = .begin b) :=
  match a with
  | .begin b => isTrue ⟨b, rfl⟩
  | .reject | .svc | .timeout | .cycle | .peek | .rt => isFalse (by rintro ⟨b, h⟩; cases h)

instance Calm.dec : (s : St) → (as : List Act) → Decidable (Calm s as)
  | _, [] => isTrue trivial
  | s, a :: t => @instDecidableAnd _ _ inferInstance (Calm.dec (step s a) t)

/-- How often was the request executed? -/
def St.times (s : St) (k : Nat) : Nat := s.exec.countP (fun e => e.map (·.1) = some k)

/-- What holds at each point of the service thread. -/
def SvcOk (s : St) : Prop :=
  match s.svc with
  | .idle => s.doSwitch = false ∧ s.asap = false ∧ s.lists = none ∧
      ((s.rt = .body ∨ s.rt = .bodyEnd) → s.mutex = some .rt) ∧ (s.rt ≠ .body → s.rt ≠ .bodyEnd → s.mutex = none)
  | .filling k _ => s.doSwitch = false ∧ s.lists = some (k, false) ∧ s.mutex = none ∧ s.rt = .idle ∧ s.times k = 0
  | .stored1 k a | .stored2 k a =>
      s.doSwitch = false ∧ s.lists = some (k, true) ∧ s.asap = a ∧ s.mutex = none ∧ s.rt = .idle ∧ s.times k = 0 ∧
      (∀ x, s.svc = .stored2 k x → s.ready = false)
  | .lockWait k | .sleeping k =>
      s.lists = some (k, true) ∧ s.asap = true ∧
      ((s.rt = .body ∨ s.rt = .bodyEnd) → s.mutex = some .rt) ∧ (s.rt ≠ .body → s.rt ≠ .bodyEnd → s.mutex = none) ∧
      s.rt ≠ .sawSlow ∧
      ((s.doSwitch = true ∧ s.rt ≠ .bodyEnd ∧ s.times k = 0) ∨ (s.doSwitch = true ∧ s.rt = .bodyEnd ∧ s.times k = 1) ∨
        (s.doSwitch = false ∧ s.rt = .idle ∧ s.times k = 1))
  | .holding k | .lastTest k =>
      s.lists = some (k, true) ∧ s.asap = true ∧ s.mutex = some .svc ∧ s.rt ≠ .body ∧ s.rt ≠ .bodyEnd ∧ s.rt ≠ .sawSlow ∧
      ((s.doSwitch = true ∧ s.times k = 0) ∨ (s.doSwitch = false ∧ s.rt = .idle ∧ s.times k = 1))
  | .polling k | .manage k =>
      s.lists = some (k, true) ∧ s.asap = false ∧ s.doSwitch = true ∧ s.mutex = none ∧ s.times k = 0 ∧
      s.rt ≠ .sawAsap ∧ s.rt ≠ .body ∧ s.rt ≠ .bodyEnd
  | .body k =>
      s.lists = some (k, true) ∧ s.asap = false ∧ s.doSwitch = true ∧ s.mutex = some .svc ∧ s.times k = 0 ∧
      s.rt ≠ .sawAsap ∧ s.rt ≠ .body ∧ s.rt ≠ .bodyEnd
  | .finish k =>
      s.lists = some (k, true) ∧ s.doSwitch = false ∧ s.mutex = none ∧ s.times k = 1 ∧
      ((s.asap = true ∧ s.rt = .idle) ∨ (s.asap = false ∧ s.rt ≠ .sawAsap ∧ s.rt ≠ .body ∧ s.rt ≠ .bodyEnd))
  | .synced k =>
      s.lists = some (k, true) ∧ s.doSwitch = false ∧ s.mutex = none ∧ s.times k = 1 ∧ s.rt = .idle

/-- The request the service thread is working on. -/
def SPc.req : SPc → Option Nat
  | .idle => none
  | .filling k _ | .stored1 k _ | .stored2 k _ | .lockWait k | .holding k | .sleeping k | .lastTest k | .polling k
  | .manage k | .body k | .finish k | .synced k => some k

/-- The invariant of calm schedules. -/
structure Inv (s : St) : Prop where
  ok : SvcOk s
  cur : ∀ k, s.svc.req = some k → k + 1 = s.next
  fresh : ∀ k, s.next ≤ k → s.times k = 0
  old : ∀ k o, (k, o) ∈ s.ret → k < s.next ∧ s.svc.req ≠ some k ∧ s.times k = if o = .evaluated then 1 else 0
  valid : ∀ k b, some (k, b) ∈ s.exec → b = true
  all : ∀ k, k < s.next → s.svc.req = some k ∨ ∃ o, (k, o) ∈ s.ret

theorem Inv.init : Inv St.init := by
  refine ⟨?_, ?_, ?_, ?_, ?_, ?_⟩ <;> simp [SvcOk, St.init, SPc.req, St.times]

/-- Steps that change neither the history nor the request being worked on. -/
theorem Inv.same {s s' : St} (I : Inv s) (h1 : s'.svc.req = s.svc.req) (h2 : s'.next = s.next) (h3 : s'.exec = s.exec)
    (h4 : s'.ret = s.ret) (ok : SvcOk s') : Inv s' := by
  obtain ⟨_, cur, fresh, old, valid, all⟩ := I
  have ht : ∀ k, s'.times k = s.times k := by intro k; simp [St.times, h3]
  refine ⟨ok, ?_, ?_, ?_, ?_, ?_⟩
  · rw [h1, h2]; exact cur
  · simp only [h2, ht]; exact fresh
  · simp only [h1, h2, h4, ht]; exact old
  · rw [h3]; exact valid
  · rw [h1, h2, h4]; exact all

/-- Steps that execute the request being worked on. -/
theorem Inv.execute {s s' : St} (I : Inv s) (k : Nat) (h : s.lists = some (k, true)) (hk : s.svc.req = some k)
    (h1 : s'.svc.req = s.svc.req) (h2 : s'.next = s.next) (h3 : s'.exec = s.lists :: s.exec)
    (h4 : s'.ret = s.ret) (ok : SvcOk s') : Inv s' := by
  obtain ⟨_, cur, fresh, old, valid, all⟩ := I
  have ht : ∀ j, j ≠ k → s'.times j = s.times j := by
    intro j hj
    simp [St.times, h3, h, Ne.symm hj]
  have hn := cur k hk
  refine ⟨ok, ?_, ?_, ?_, ?_, ?_⟩
  · rw [h1, h2]; exact cur
  · intro j hj
    rw [h2] at hj
    rw [ht j (by omega)]
    exact fresh j hj
  · intro j o hj
    rw [h4] at hj
    obtain ⟨a, b, c⟩ := old j o hj
    have : j ≠ k := by intro e; rw [e] at b; exact b hk
    rw [h1, h2, ht j this]
    exact ⟨a, b, c⟩
  · intro j b hj
    rw [h3, h] at hj
    simp only [List.mem_cons, Option.some.injEq, Prod.mk.injEq] at hj
    rcases hj with ⟨_, rfl⟩ | hj
    · rfl
    · exact valid j b hj
  · rw [h1, h2, h4]; exact all

theorem Inv.executeNone {s s' : St} (I : Inv s) (h : s.lists = none)
    (h1 : s'.svc.req = s.svc.req) (h2 : s'.next = s.next) (h3 : s'.exec = s.lists :: s.exec)
    (h4 : s'.ret = s.ret) (ok : SvcOk s') : Inv s' := by
  obtain ⟨_, cur, fresh, old, valid, all⟩ := I
  have ht : ∀ j, s'.times j = s.times j := by intro j; simp [St.times, h3, h]
  refine ⟨ok, ?_, ?_, ?_, ?_, ?_⟩
  · rw [h1, h2]; exact cur
  · simp only [h2, ht]; exact fresh
  · simp only [h1, h2, h4, ht]; exact old
  · intro j b hj
    rw [h3, h] at hj
    simp only [List.mem_cons, reduceCtorEq, false_or] at hj
    exact valid j b hj
  · rw [h1, h2, h4]; exact all

/-- Steps that end the call. -/
theorem Inv.return {s s' : St} (I : Inv s) (k : Nat) (o : Out) (hk : s.svc.req = some k)
    (h1 : s'.svc.req = none) (h2 : s'.next = s.next) (h3 : s'.exec = s.exec) (h4 : s'.ret = (k, o) :: s.ret)
    (ht' : s.times k = if o = .evaluated then 1 else 0) (ok : SvcOk s') : Inv s' := by
  obtain ⟨_, cur, fresh, old, valid, all⟩ := I
  have ht : ∀ k, s'.times k = s.times k := by intro k; simp [St.times, h3]
  have hn := cur k hk
  refine ⟨ok, by simp [h1], ?_, ?_, ?_, ?_⟩
  · simp only [h2, ht]; exact fresh
  · intro j q hj
    rw [h4] at hj
    rw [h1, h2, ht]
    simp only [List.mem_cons, Prod.mk.injEq] at hj
    rcases hj with ⟨rfl, rfl⟩ | hj
    · exact ⟨by omega, by simp, ht'⟩
    · obtain ⟨a, b, c⟩ := old j q hj
      exact ⟨a, by simp, c⟩
  · rw [h3]; exact valid
  · intro j hj
    rw [h2] at hj
    right
    rw [h4]
    rcases all j hj with h | ⟨q, h⟩
    · rw [hk, Option.some.injEq] at h
      exact ⟨o, by simp [h]⟩
    · exact ⟨q, by simp [h]⟩

theorem Inv.stepRt {s : St} (I : Inv s) : Inv (stepRt s) := by
  have ok := I.ok
  by_cases hb : s.rt = .body
  · unfold SvcOk at ok
    cases hs : s.svc <;> simp only [hs, hb] at ok
    · exact I.executeNone ok.2.2.1 (by simp [Handshake.stepRt, hb]) (by simp [Handshake.stepRt, hb])
        (by simp [Handshake.stepRt, hb]) (by simp [Handshake.stepRt, hb])
        (by simp [SvcOk, Handshake.stepRt, hb, hs, ok])
    all_goals first
      | (simp at ok; done)
      | skip
    all_goals
      refine I.execute _ ok.1 (by simp [hs, SPc.req]) (by simp [Handshake.stepRt, hb]) (by simp [Handshake.stepRt, hb])
        (by simp [Handshake.stepRt, hb]) (by simp [Handshake.stepRt, hb]) ?_
      simp [SvcOk, Handshake.stepRt, hb, hs, ok, St.times]
      simpa [St.times] using ok.2.2.2
  · refine I.same ?_ ?_ ?_ ?_ ?_ <;> unfold Handshake.stepRt
    any_goals (cases hr : s.rt <;> first | exact absurd hr hb | (simp only; done) | (simp only; split <;> rfl) | rfl)
    clear I
    cases hr : s.rt <;> simp only
    all_goals try (exact absurd hr hb)
    all_goals try split
    all_goals
      unfold SvcOk at ok ⊢
      cases hs : s.svc <;> simp only [hs, hr, St.times] at ok ⊢ <;> first | (simp at ok; done) | grind

theorem Inv.stepSvc {s : St} (I : Inv s) : Inv (stepSvc s) := by
  have ok := I.ok
  unfold SvcOk at ok
  cases hs : s.svc <;> simp only [hs] at ok
  · simpa [Handshake.stepSvc, hs] using I
  · refine I.same ?_ ?_ ?_ ?_ ?_
    all_goals simp [Handshake.stepSvc, hs, SPc.req, St.write, SvcOk, ok]
    all_goals (simp [St.times] at ok ⊢; first | exact ok.2.2.2.2 | skip)
  · refine I.same ?_ ?_ ?_ ?_ ?_
    all_goals simp [Handshake.stepSvc, hs, SPc.req, St.write, SvcOk, ok]
    all_goals (simp [St.times] at ok ⊢; first | exact ok.2.2.2.2.2 | exact ok.2.2.2.2.2.1 | skip)
  · rename_i k a
    cases a
    all_goals refine I.same ?_ ?_ ?_ ?_ ?_
    all_goals simp [Handshake.stepSvc, hs, SPc.req, St.write, SvcOk, ok]
    all_goals (simp [St.times] at ok ⊢; first | exact ok.2.2.2.2.2 | exact ok.2.2.2.2.2.1 | skip)
  · unfold Handshake.stepSvc
    simp only [hs]
    split
    · refine I.same ?_ ?_ ?_ ?_ ?_ <;> simp [SPc.req, hs, SvcOk]
      simp only [St.times] at ok ⊢
      grind
    · exact I
  · unfold Handshake.stepSvc
    simp only [hs]
    split
    all_goals
      refine I.same ?_ ?_ ?_ ?_ ?_ <;> simp [SPc.req, hs, SvcOk]
      simp only [St.times] at ok ⊢
      grind
  · unfold Handshake.stepSvc
    simp only [hs]
    split
    · refine I.same ?_ ?_ ?_ ?_ ?_ <;> simp [SPc.req, hs, SvcOk]
      simp only [St.times] at ok ⊢
      grind
    · exact I
  · rename_i k
    unfold Handshake.stepSvc
    simp only [hs]
    split
    · refine I.return k .timedOut (by simp [hs, SPc.req]) (by simp [St.clearRet, SPc.req]) rfl rfl rfl (by grind) ?_
      simp [SvcOk, St.clearRet, St.write, ok]
    · refine I.same ?_ ?_ ?_ ?_ ?_ <;> simp [SPc.req, hs, SvcOk]
      simp only [St.times] at ok ⊢
      grind
  · unfold Handshake.stepSvc
    simp only [hs]
    split
    · refine I.same ?_ ?_ ?_ ?_ ?_ <;> simp [SPc.req, hs, SvcOk]
      simp only [St.times] at ok ⊢
      grind
    · exact I
  · unfold Handshake.stepSvc
    simp only [hs]
    rw [if_pos ok.2.2.2.1]
    refine I.same ?_ ?_ ?_ ?_ ?_ <;> simp [SPc.req, hs, SvcOk]
    simp only [St.times] at ok ⊢
    grind
  · rename_i k
    unfold Handshake.stepSvc
    simp only [hs]
    refine I.execute k ok.1 (by simp [hs, SPc.req]) ?_ ?_ ?_ ?_ ?_ <;> simp [SPc.req, hs, SvcOk]
    simp only [St.times] at ok ⊢
    simp [ok]
    simpa using ok.2.2.2.2.1
  · simpa [Handshake.stepSvc, hs] using I
  · rename_i k
    unfold Handshake.stepSvc
    simp only [hs]
    refine I.return k .evaluated (by simp [hs, SPc.req]) (by simp [St.clearRet, SPc.req]) rfl rfl rfl (by simpa using ok.2.2.2.1) ?_
    simp [SvcOk, St.clearRet, St.write, ok]

theorem Inv.step {s : St} (I : Inv s) (a : Act) (h : (∃ b, a = .begin b) → s.svc = .idle → s.rt = .idle) :
    Inv (step s a) := by
  cases a with
  | begin b =>
    unfold Handshake.step
    cases hs : s.svc
    all_goals try exact I
    have hr := h ⟨b, rfl⟩ hs
    obtain ⟨ok, cur, fresh, old, valid, all⟩ := I
    simp only [SvcOk, hs, hr] at ok
    have hf := fresh s.next (Nat.le_refl _)
    refine ⟨?_, ?_, ?_, ?_, valid, ?_⟩
    · simp only [SvcOk, St.write, hr, St.times] at ok hf ⊢
      simpa [ok] using hf
    · simp [SPc.req, St.write]
    · intro k hk; exact fresh k (by simp [St.write] at hk; omega)
    · intro k o hk
      obtain ⟨h1, _, h3⟩ := old k o hk
      refine ⟨by simp [St.write]; omega, by simp [SPc.req]; omega, h3⟩
    · intro k hk
      by_cases e : k = s.next
      · left; simp [SPc.req, e]
      · right
        rcases all k (by simp [St.write] at hk; omega) with h | h
        · simp [hs, SPc.req] at h
        · exact h
  | reject =>
    unfold Handshake.step
    cases hs : s.svc
    all_goals try exact I
    rename_i k b
    have ok := I.ok
    simp only [SvcOk, hs] at ok
    refine I.return k .rejected (by simp [hs, SPc.req]) (by simp [St.clearRet, SPc.req]) rfl rfl rfl (by simpa using ok.2.2.2.2) ?_
    simp [SvcOk, St.clearRet, St.write, ok]
  | svc => exact I.stepSvc
  | timeout =>
    unfold Handshake.step
    have ok := I.ok
    cases hs : s.svc
    all_goals try exact I
    · simp only [SvcOk, hs] at ok
      simp only
      split
      · refine I.same ?_ ?_ ?_ ?_ ?_ <;> simp [SPc.req, hs, SvcOk]
        simp only [St.times] at ok ⊢
        grind
      · exact I
    · rename_i k
      simp only [SvcOk, hs] at ok
      simp only
      split
      · exact I
      · refine I.return k .timedOut (by simp [hs, SPc.req]) (by simp [St.clearRet, SPc.req]) rfl rfl rfl (by simpa using ok.2.2.2.2.1) ?_
        simp [SvcOk, St.clearRet, St.write, ok]
  | cycle =>
    unfold Handshake.step
    have ok := I.ok
    simp only
    split
    · rename_i hr
      cases hs : s.svc
      all_goals try exact I
      simp only [SvcOk, hs] at ok
      refine I.same ?_ ?_ ?_ ?_ ?_ <;> simp [SPc.req, hs, SvcOk]
      simp only [St.times] at ok ⊢
      grind
    · exact I
  | peek =>
    unfold Handshake.step
    have ok := I.ok
    simp only
    split
    · rename_i hr
      refine I.same rfl rfl rfl rfl ?_
      unfold SvcOk at ok ⊢
      cases hs : s.svc <;> simp only [hs, St.times] at ok ⊢ <;> grind
    · exact I
  | rt => exact I.stepRt

theorem Inv.run {s : St} (I : Inv s) (as : List Act) (h : Calm s as) : Inv (run s as) := by
  induction as generalizing s with
  | nil => exact I
  | cons a t ih => exact ih (I.step a h.1) h.2

/-- Additional invariant of schedules without time-outs. -/
structure Steady (s : St) : Prop where
  quiet : s.svc = .idle → s.rt = .idle
  noLast : ∀ k, s.svc ≠ .lastTest k
  noRace : s.race = false

theorem Steady.step {s : St} (I : Inv s) (h : Steady s) (a : Act) (ha : a ≠ .timeout) : Steady (step s a) := by
  obtain ⟨quiet, noLast, noRace⟩ := h
  have ok := I.ok
  cases a with
  | begin b =>
    unfold Handshake.step
    cases hs : s.svc
    all_goals try exact ⟨quiet, noLast, noRace⟩
    have hr := quiet hs
    refine ⟨by simp, by simp, ?_⟩
    simp [St.write, hr, RPc.reads, noRace]
  | reject =>
    unfold Handshake.step
    cases hs : s.svc
    all_goals try exact ⟨quiet, noLast, noRace⟩
    simp only [SvcOk, hs] at ok
    refine ⟨by simp [St.clearRet, St.write, ok], by simp [St.clearRet], ?_⟩
    simp [St.write, St.clearRet, ok, RPc.reads, noRace]
  | svc =>
    unfold Handshake.step Handshake.stepSvc
    cases hs : s.svc <;> simp only <;> simp only [SvcOk, hs] at ok
    all_goals try split
    all_goals first
      | exact ⟨quiet, noLast, noRace⟩
      | exact absurd hs (noLast _)
      | (refine ⟨?_, ?_, ?_⟩ <;> simp [St.clearRet, St.write, RPc.reads, ok, noRace]; done)
      | (refine ⟨?_, ?_, ?_⟩ <;> simp [St.clearRet, St.write, RPc.reads, ok, noRace] <;> split <;> simp)
  | timeout => exact absurd rfl ha
  | cycle =>
    unfold Handshake.step
    simp only
    split
    · cases hs : s.svc
      all_goals first
        | exact ⟨quiet, noLast, noRace⟩
        | exact ⟨by simp, by simp, noRace⟩
    · exact ⟨quiet, noLast, noRace⟩
  | peek =>
    unfold Handshake.step
    simp only
    split
    · rename_i hr
      refine ⟨?_, noLast, noRace⟩
      intro hs
      simp only at hs
      simp [SvcOk, hs, hr.2] at ok
    · exact ⟨quiet, noLast, noRace⟩
  | rt =>
    unfold Handshake.step Handshake.stepRt
    cases hr : s.rt <;> simp only
    all_goals try split
    all_goals first
      | exact ⟨quiet, noLast, noRace⟩
      | (refine ⟨?_, noLast, noRace⟩
         intro hs
         first
           | rfl
           | (have h1 := quiet hs; rw [hr] at h1; simp at h1; done)
           | (rename_i hd; simp only at hs; simp [SvcOk, hs, hd] at ok; done))

/-- Without time-outs no request begins while the real-time thread is in the middle of something. -/
theorem calm_of_no_timeout (as : List Act) (h : .timeout ∉ as) {s : St} (I : Inv s) (S : Steady s) :
    Calm s as ∧ Steady (run s as) := by
  induction as generalizing s with
  | nil => exact ⟨trivial, S⟩
  | cons a t ih =>
    have hc : (∃ b, a = .begin b) → s.svc = .idle → s.rt = .idle := fun _ hs => S.quiet hs
    obtain ⟨h1, h2⟩ := ih (fun hx => h (by simp [hx])) (I.step a hc) (S.step I a (fun e => h (by simp [e])))
    exact ⟨⟨hc, h1⟩, h2⟩

theorem Steady.init : Steady St.init := ⟨by simp [St.init], by simp [St.init], rfl⟩

end Handshake
end Verif
