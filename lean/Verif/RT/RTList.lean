/-!
# `RTControllerListWrapper` (controller_manager.hpp:590-665, controller_manager.cpp:3719-3795)

The two controller lists and the two indices that the real-time thread and the (one) thread holding
`controllers_lock_` share. One action is one access to shared memory; the schedule is an arbitrary list of
actions. Memory is sequentially consistent (the two indices are plain `int`s in the code, so a C++ compiler is
formally allowed to do more damage; that part is not modelled).

`L` is the type of list contents.
-/
namespace Verif
namespace RTList

/-- Where the thread that holds `controllers_lock_` is. Every user of the wrapper (`load_controller` cm.cpp:2451-2529,
`configure_controller` 1773-1832, `unload_controller` 1419-1476, `switch_controller` 2429-2440) has this shape: get the
unused list, write it, publish it, wait, get the then unused list, clear it. -/
inductive WPc
  | idle
  /-- `get_unused_list`: `free_controllers_list` computed, in `wait_until_rt_not_using` (cm.cpp:3736-3739) -/
  | waitFree (k : Bool)
  /-- writing the unused list -/
  | write (k : Bool)
  /-- `switch_updated_list` (cm.cpp:3762-3764): published, waiting for the real-time thread to let go of `former` -/
  | waitOld (former : Bool)
  /-- second `get_unused_list` -/
  | waitFree2 (k : Bool)
  /-- clearing the old list -/
  | clear (k : Bool)
deriving DecidableEq, Repr

/-- Shared and private state of the two threads. -/
structure St (L : Type) where
  /-- `controllers_lists_` -/
  lists : Bool → L
  /-- `updated_controllers_index_` -/
  upd : Bool
  /-- `used_by_realtime_controllers_index_`, `none` = -1 -/
  used : Option Bool
  w : WPc
  /-- real-time thread: value of `updated_controllers_index_` read but not yet stored (cm.cpp:3722) -/
  rtTmp : Option Bool
  /-- real-time thread: the list it has a reference to -/
  rtRef : Option Bool
  /-- history variable: contents of that list when the reference was taken -/
  rtSeen : Option L
  /-- history variable: the contents published so far, newest first -/
  pubs : List L

/-- Initial state (controller_manager.hpp:660-662). -/
def St.init {L : Type} (l0 l1 : L) : St L :=
  { lists := fun b => if b then l1 else l0, upd := false, used := none, w := .idle, rtTmp := none, rtRef := none,
    rtSeen := none, pubs := [l0] }

/-- One access to shared memory. -/
inductive Act (L : Type)
  /-- RT: read `updated_controllers_index_` -/
  | rtLoad
  /-- RT: store it to `used_by_realtime_controllers_index_` and take the reference -/
  | rtStore
  /-- RT: look at (an element of) the list -/
  | rtUse
  /-- writer: enter `get_unused_list` -/
  | wGet
  /-- writer: one test of the loop of `wait_until_rt_not_using` -/
  | wPoll
  /-- writer: write something to the list it got -/
  | wWrite (l : L)
  /-- writer: give up (an error return that does not publish) -/
  | wAbort
  /-- writer: `switch_updated_list` up to the wait -/
  | wPublish
  /-- `manage_switch` executed by the service thread (cm.cpp:2425, `activate_asap == false`) calls
  `update_and_get_used_by_rt_list` (cm.cpp:3345) itself, before it touches the lists -/
  | wTouch

/-- The effect of an action; an action that is not possible in the state does nothing.

`rtLoad` forgets the reference taken before. In `update` (cm.cpp:3390) and `manage_switch` (3345) the code keeps an
older reference while `manage_switch` / `switch_chained_mode` (2599) take a new one; but `manage_switch` only runs
while a call of `switch_controller` waits, and that call holds `controllers_lock_` and writes no list until the real-time
thread is done, and `update` does not look at its list after `manage_switch`. -/
def step {L : Type} (s : St L) : Act L → St L
  | .rtLoad => { s with rtTmp := some s.upd, rtRef := none, rtSeen := none }
  | .rtStore =>
    match s.rtTmp with
    | none => s
    | some k => { s with used := some k, rtTmp := none, rtRef := some k, rtSeen := some (s.lists k) }
  | .rtUse => s
  | .wGet =>
    match s.w with
    | .idle => { s with w := .waitFree (!s.upd) }
    | _ => s
  | .wTouch =>
    match s.w with
    | .idle => { s with used := some s.upd }
    | _ => s
  | .wPoll =>
    match s.w with
    | .waitFree k => if s.used = some k then s else { s with w := .write k }
    | .waitOld former => if s.used = some former then s else { s with w := .waitFree2 (!s.upd) }
    | .waitFree2 k => if s.used = some k then s else { s with w := .clear k }
    | _ => s
  | .wWrite l =>
    match s.w with
    | .write k => { s with lists := fun b => if b = k then l else s.lists b }
    | .clear k => { s with lists := fun b => if b = k then l else s.lists b }
    | _ => s
  | .wAbort =>
    match s.w with
    | .write _ => { s with w := .idle }
    | .clear _ => { s with w := .idle }
    | _ => s
  | .wPublish =>
    match s.w with
    | .write _ => { s with w := .waitOld s.upd, upd := !s.upd, pubs := s.lists (!s.upd) :: s.pubs }
    | _ => s

/-- Execute a schedule. -/
def run {L : Type} (s : St L) (as : List (Act L)) : St L := as.foldl step s

/-- A data race: the writer may write the list to which the real-time thread has a reference. -/
def Race {L : Type} (s : St L) : Prop := ∃ k, s.rtRef = some k ∧ (s.w = .write k ∨ s.w = .clear k)

/-- The real-time thread has taken its first list. -/
def Started {L : Type} (s : St L) : Prop := s.used ≠ none

/-- Invariant once the real-time thread is running. -/
structure Inv {L : Type} (s : St L) : Prop where
  ref : ∀ k, s.rtRef = some k → s.used = some k
  /-- nobody looks at a list the real-time thread holds or is about to take -/
  write : ∀ k, s.w = .write k → k = !s.upd
  clear : ∀ k, s.w = .clear k → k = !s.upd
  free : ∀ k, s.w = .waitFree k → k = !s.upd
  free2 : ∀ k, s.w = .waitFree2 k → k = !s.upd
  old : ∀ k, s.w = .waitOld k → k = !s.upd ∧ (s.used = some k ∨ s.used = some s.upd ∧ s.rtTmp ≠ some k)
  /-- while no list is being replaced, the real-time thread uses the updated list -/
  fresh : (∀ k, s.w ≠ .waitOld k) → s.used = some s.upd ∧ s.rtTmp ≠ some (!s.upd)
  seen : ∀ k, s.rtRef = some k → s.rtSeen = some (s.lists k)
  head : s.pubs.head? = some (s.lists s.upd)
  second : ∀ k, s.w = .waitOld k → s.pubs.tail.head? = some (s.lists k)

theorem Inv.step {L : Type} {s : St L} (I : Inv s) (a : Act L) : Inv (step s a) := by
  obtain ⟨ref, wr, cl, fr, fr2, old, fresh, seen, head, second⟩ := I
  cases a with
  | rtLoad =>
    refine ⟨by simp [RTList.step], wr, cl, fr, fr2, ?_, ?_, by simp [RTList.step], head, second⟩
    · intro k hk
      obtain ⟨h1, h2⟩ := old k hk
      refine ⟨h1, ?_⟩
      rcases h2 with h2 | ⟨h2, _⟩
      · exact .inl h2
      · refine .inr ⟨h2, ?_⟩
        simp only [RTList.step, Option.some.injEq, ne_eq]
        rw [h1]; cases s.upd <;> simp
    · intro h
      refine ⟨(fresh h).1, ?_⟩
      simp only [RTList.step, Option.some.injEq, ne_eq]
      cases s.upd <;> simp
  | rtStore =>
    unfold RTList.step
    cases ht : s.rtTmp with
    | none => simp only; exact ⟨ref, wr, cl, fr, fr2, old, fresh, seen, head, second⟩
    | some k =>
      simp only
      refine ⟨fun j h => h, wr, cl, fr, fr2, ?_, ?_, ?_, head, second⟩
      · intro j hj
        obtain ⟨h1, h2⟩ := old j hj
        refine ⟨h1, ?_⟩
        by_cases e : k = j
        · left; simp [e]
        · right
          refine ⟨?_, by simp⟩
          simp only [Option.some.injEq]
          rw [h1] at e
          revert e; cases k <;> cases s.upd <;> simp
      · intro h
        refine ⟨?_, by simp⟩
        have := (fresh h).2
        rw [ht] at this
        simp only [Option.some.injEq, ne_eq] at this ⊢
        revert this; cases k <;> cases s.upd <;> simp
      · intro j hj
        simp only [Option.some.injEq] at hj
        simp [hj]
  | rtUse => exact ⟨ref, wr, cl, fr, fr2, old, fresh, seen, head, second⟩
  | wGet =>
    unfold RTList.step
    cases hw : s.w <;> simp only
    all_goals first
      | exact ⟨ref, wr, cl, fr, fr2, old, fresh, seen, head, second⟩
      | skip
    refine ⟨ref, by simp, by simp, by simp [eq_comm], by simp, by simp, ?_, seen, head, by simp⟩
    intro _
    exact fresh (by simp [hw])
  | wTouch =>
    unfold RTList.step
    cases hw : s.w <;> simp only
    all_goals first
      | exact ⟨ref, wr, cl, fr, fr2, old, fresh, seen, head, second⟩
      | skip
    have hf := fresh (by simp [hw])
    refine ⟨?_, by simp, by simp, by simp, by simp, by simp, fun _ => ⟨rfl, hf.2⟩, seen, head, by simp⟩
    intro k hk
    exact hf.1.symm.trans (ref k hk)
  | wPoll =>
    unfold RTList.step
    cases hw : s.w <;> simp only
    all_goals first
      | exact ⟨ref, wr, cl, fr, fr2, old, fresh, seen, head, second⟩
      | skip
    · split
      · exact ⟨ref, wr, cl, fr, fr2, old, fresh, seen, head, second⟩
      · rename_i k _
        have := fr k hw
        refine ⟨ref, by simp [this], by simp, by simp, by simp, by simp, ?_, seen, head, by simp⟩
        intro _; exact fresh (by simp [hw])
    · split
      · exact ⟨ref, wr, cl, fr, fr2, old, fresh, seen, head, second⟩
      · rename_i k hu
        obtain ⟨h1, h2⟩ := old k hw
        have h3 : s.used = some s.upd ∧ s.rtTmp ≠ some k := by
          rcases h2 with h2 | h2
          · exact absurd h2 hu
          · exact h2
        refine ⟨ref, by simp, by simp, by simp, by simp [eq_comm], by simp, ?_, seen, head, by simp⟩
        intro _; rw [← h1]; exact h3
    · split
      · exact ⟨ref, wr, cl, fr, fr2, old, fresh, seen, head, second⟩
      · rename_i k _
        have := fr2 k hw
        refine ⟨ref, by simp, by simp [this], by simp, by simp, by simp, ?_, seen, head, by simp⟩
        intro _; exact fresh (by simp [hw])
  | wWrite l =>
    have main : ∀ k, (s.w = .write k ∨ s.w = .clear k) → Inv { s with lists := fun b => if b = k then l else s.lists b } := by
      intro k hk
      have hk' : k = !s.upd := by rcases hk with h | h; exact wr k h; exact cl k h
      have hno : ∀ j, s.w ≠ .waitOld j := by intro j; rcases hk with h | h <;> simp [h]
      have hu := (fresh hno).1
      refine ⟨ref, wr, cl, fr, fr2, old, fresh, ?_, ?_, fun j hj => absurd hj (hno j)⟩
      · intro j hj
        have h1 := ref j hj
        rw [hu] at h1
        simp only [Option.some.injEq] at h1
        subst h1
        simp only
        rw [if_neg (by rw [hk']; cases s.upd <;> simp)]
        exact seen _ hj
      · simp only
        rw [if_neg (by rw [hk']; cases s.upd <;> simp)]
        exact head
    unfold RTList.step
    cases hw : s.w <;> simp only
    all_goals first
      | exact ⟨ref, wr, cl, fr, fr2, old, fresh, seen, head, second⟩
      | skip
    · have h := main _ (.inl hw); rw [hw] at h; exact h
    · have h := main _ (.inr hw); rw [hw] at h; exact h
  | wAbort =>
    unfold RTList.step
    cases hw : s.w <;> simp only
    all_goals first
      | exact ⟨ref, wr, cl, fr, fr2, old, fresh, seen, head, second⟩
      | exact ⟨ref, by simp, by simp, by simp, by simp, by simp, fun _ => fresh (by simp [hw]), seen, head, by simp⟩
  | wPublish =>
    unfold RTList.step
    cases hw : s.w <;> simp only
    all_goals first
      | exact ⟨ref, wr, cl, fr, fr2, old, fresh, seen, head, second⟩
      | skip
    obtain ⟨hu, ht⟩ := fresh (by simp [hw])
    refine ⟨ref, by simp, by simp, by simp, by simp, ?_, ?_, seen, ?_, ?_⟩
    · intro k hk
      simp only [WPc.waitOld.injEq] at hk
      subst hk
      exact ⟨by simp, .inl hu⟩
    · intro h; exact absurd rfl (h s.upd)
    · simp
    · intro k hk
      simp only [WPc.waitOld.injEq] at hk
      subst hk
      simpa using head

/-- Before the real-time thread has taken its first list. -/
structure Pre {L : Type} (s : St L) : Prop where
  ref : s.rtRef = none
  write : ∀ k, s.w = .write k → k = !s.upd
  clear : ∀ k, s.w = .clear k → k = !s.upd
  free : ∀ k, s.w = .waitFree k → k = !s.upd
  free2 : ∀ k, s.w = .waitFree2 k → k = !s.upd
  old : ∀ k, s.w = .waitOld k → k = !s.upd
  head : s.pubs.head? = some (s.lists s.upd)
  second : ∀ k, s.w = .waitOld k → s.pubs.tail.head? = some (s.lists k)

/-- Actions of the real-time thread. -/
def Act.isRt {L : Type} : Act L → Bool
  | .rtLoad => true
  | .rtStore => true
  | .rtUse => true
  | _ => false

theorem Pre.init {L : Type} (l0 l1 : L) : Pre (St.init l0 l1) :=
  ⟨rfl, by simp [St.init], by simp [St.init], by simp [St.init], by simp [St.init], by simp [St.init], by simp [St.init],
    by simp [St.init]⟩

theorem Pre.step {L : Type} {s : St L} (I : Pre s) (a : Act L) (ha : a ≠ .rtStore) : Pre (RTList.step s a) := by
  obtain ⟨ref, wr, cl, fr, fr2, old, head, second⟩ := I
  cases a with
  | rtLoad => exact ⟨rfl, wr, cl, fr, fr2, old, head, second⟩
  | rtStore => exact absurd rfl ha
  | rtUse => exact ⟨ref, wr, cl, fr, fr2, old, head, second⟩
  | wGet =>
    unfold RTList.step
    cases hw : s.w <;> simp only
    all_goals first
      | exact ⟨ref, wr, cl, fr, fr2, old, head, second⟩
      | exact ⟨ref, by simp, by simp, by simp [eq_comm], by simp, by simp, head, by simp⟩
  | wTouch =>
    unfold RTList.step
    cases hw : s.w <;> simp only <;> first
      | exact ⟨ref, wr, cl, fr, fr2, old, head, second⟩
      | exact ⟨ref, by simp, by simp, by simp, by simp, by simp, head, by simp⟩
  | wPoll =>
    unfold RTList.step
    cases hw : s.w <;> simp only
    all_goals first
      | exact ⟨ref, wr, cl, fr, fr2, old, head, second⟩
      | skip
    · rename_i k
      split
      · exact ⟨ref, wr, cl, fr, fr2, old, head, second⟩
      · exact ⟨ref, by simp [fr k hw], by simp, by simp, by simp, by simp, head, by simp⟩
    · rename_i k
      split
      · exact ⟨ref, wr, cl, fr, fr2, old, head, second⟩
      · exact ⟨ref, by simp, by simp, by simp, by simp [eq_comm], by simp, head, by simp⟩
    · rename_i k
      split
      · exact ⟨ref, wr, cl, fr, fr2, old, head, second⟩
      · exact ⟨ref, by simp, by simp [fr2 k hw], by simp, by simp, by simp, head, by simp⟩
  | wWrite l =>
    have main : ∀ k, (s.w = .write k ∨ s.w = .clear k) → Pre { s with lists := fun b => if b = k then l else s.lists b } := by
      intro k hk
      have hk' : k = !s.upd := by rcases hk with h | h; exact wr k h; exact cl k h
      have hno : ∀ j, s.w ≠ .waitOld j := by intro j; rcases hk with h | h <;> simp [h]
      refine ⟨ref, wr, cl, fr, fr2, old, ?_, fun j hj => absurd hj (hno j)⟩
      simp only
      rw [if_neg (by rw [hk']; cases s.upd <;> simp)]
      exact head
    unfold RTList.step
    cases hw : s.w <;> simp only
    all_goals first
      | exact ⟨ref, wr, cl, fr, fr2, old, head, second⟩
      | skip
    · have h := main _ (.inl hw); rw [hw] at h; exact h
    · have h := main _ (.inr hw); rw [hw] at h; exact h
  | wAbort =>
    unfold RTList.step
    cases hw : s.w <;> simp only
    all_goals first
      | exact ⟨ref, wr, cl, fr, fr2, old, head, second⟩
      | exact ⟨ref, by simp, by simp, by simp, by simp, by simp, head, by simp⟩
  | wPublish =>
    unfold RTList.step
    cases hw : s.w <;> simp only
    all_goals first
      | exact ⟨ref, wr, cl, fr, fr2, old, head, second⟩
      | skip
    refine ⟨ref, by simp, by simp, by simp, by simp, ?_, ?_, ?_⟩
    · intro k hk
      simp only [WPc.waitOld.injEq] at hk
      subst hk; simp
    · simp
    · intro k hk
      simp only [WPc.waitOld.injEq] at hk
      subst hk
      simpa using head

theorem Pre.run {L : Type} {s : St L} (I : Pre s) (as : List (Act L)) (h : ∀ a ∈ as, a.isRt = false) :
    Pre (RTList.run s as) := by
  induction as generalizing s with
  | nil => exact I
  | cons a t ih =>
    refine ih (I.step a ?_) (fun b hb => h b (by simp [hb]))
    have := h a (by simp)
    intro e; subst e; simp [Act.isRt] at this

/-- What the other thread does does not change what the real-time thread has read; without a publication it stays the
updated list. -/
theorem tmp_run {L : Type} {s : St L} (as : List (Act L)) (h : ∀ a ∈ as, a.isRt = false) (hp : Act.wPublish ∉ as) :
    (RTList.run s as).rtTmp = s.rtTmp ∧ (RTList.run s as).upd = s.upd := by
  induction as generalizing s with
  | nil => exact ⟨rfl, rfl⟩
  | cons a t ih =>
    obtain ⟨h1, h2⟩ := ih (s := RTList.step s a) (fun b hb => h b (by simp [hb])) (fun hx => hp (by simp [hx]))
    have h3 : (RTList.step s a).rtTmp = s.rtTmp ∧ (RTList.step s a).upd = s.upd := by
      have ha := h a (by simp)
      have hb : a ≠ .wPublish := fun e => hp (by simp [e])
      cases a <;> first | (simp [Act.isRt] at ha; done) | (exact absurd rfl hb) | (unfold RTList.step; cases s.w <;> simp only <;>
        first | exact ⟨trivial, trivial⟩ | exact ⟨rfl, rfl⟩ | (split <;> exact ⟨rfl, rfl⟩))
    exact ⟨h1.trans h3.1, h2.trans h3.2⟩

/-- The real-time thread takes its first list. -/
theorem Pre.first {L : Type} {s : St L} (I : Pre s) (ht : s.rtTmp = some s.upd) : Inv (RTList.step s .rtStore) := by
  obtain ⟨ref, wr, cl, fr, fr2, old, head, second⟩ := I
  unfold RTList.step
  simp only [ht]
  refine ⟨fun k h => h, wr, cl, fr, fr2, fun k h => ⟨old k h, .inr ⟨rfl, by simp⟩⟩, by simp, ?_, head, second⟩
  intro k hk; simp only [Option.some.injEq] at hk; simp [hk]

theorem Inv.run {L : Type} {s : St L} (I : Inv s) (as : List (Act L)) : Inv (RTList.run s as) := by
  induction as generalizing s with
  | nil => exact I
  | cons a t ih => exact ih (I.step a)

theorem Inv.no_race {L : Type} {s : St L} (I : Inv s) : ¬ Race s := by
  rintro ⟨k, hk, h⟩
  have hn : ∀ j, s.w ≠ .waitOld j := by intro j; rcases h with h | h <;> simp [h]
  have h1 := (I.fresh hn).1
  have h2 := I.ref k hk
  have h3 : k = !s.upd := by rcases h with h | h; exact I.write k h; exact I.clear k h
  rw [h1, Option.some.injEq] at h2
  rw [← h2] at h3
  revert h3; cases s.upd <;> simp

end RTList
end Verif
