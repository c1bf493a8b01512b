import Verif.RT.RTList
/-!
# C23: the real-time loop never iterates a controller list that is being modified
-/
namespace Verif
open RTList

/-- C23, kept in view: in no schedule of the two threads does the service thread get to write (or destroy) the list the
real-time thread has a reference to. False of the code, see `C23_first_cycle_race`. -/
def C23_Full : Prop :=
  ∀ (L : Type) (l0 l1 : L) (as : List (Act L)), ¬ Race (RTList.run (St.init l0 l1) as)

/-- The states the theorems are about. Any number of service calls before the real-time thread starts; then the
real-time thread takes its first list, and the publication of a new list does not fall between the two memory accesses
this takes; from then on any schedule whatsoever of service calls and real-time cycles. -/
def RTList.Running {L : Type} (s : St L) : Prop :=
  ∃ (l0 l1 : L) (before during after : List (Act L)),
    (∀ a ∈ before, a.isRt = false) ∧ (∀ a ∈ during, a.isRt = false) ∧ Act.wPublish ∉ during ∧
    s = RTList.run (St.init l0 l1) (before ++ [.rtLoad] ++ during ++ [.rtStore] ++ after)

theorem RTList.Running.inv {L : Type} {s : St L} (h : Running s) : RTList.Inv s := by
  obtain ⟨l0, l1, before, during, after, hb, hd, hp, rfl⟩ := h
  have e : RTList.run (St.init l0 l1) (before ++ [.rtLoad] ++ during ++ [.rtStore] ++ after) =
      RTList.run (RTList.step (RTList.run (RTList.step (RTList.run (St.init l0 l1) before) .rtLoad) during) .rtStore)
      after := by
    simp [RTList.run]
  rw [e]
  refine Inv.run ?_ _
  have P := (((Pre.init l0 l1).run before hb).step .rtLoad (by simp))
  obtain ⟨h1, h2⟩ := tmp_run (s := RTList.step (RTList.run (St.init l0 l1) before) .rtLoad) during hd hp
  refine (P.run during hd).first ?_
  rw [h1, h2]; rfl

/-- **C23.** The service thread never writes or destroys the list the real-time thread uses; the contents of that list are
those the real-time thread found when it took the list; and they are the newest published contents, or, while the
publishing call is still waiting for the real-time thread, the contents published just before.
Partial: the start-up condition of `Running`. -/
theorem C23_no_race_partial {L : Type} (s : St L) (hs : Running s) :
    ¬ Race s ∧
    (∀ k, s.rtRef = some k → s.rtSeen = some (s.lists k)) ∧
    (∀ k, s.rtRef = some k → s.pubs.head? = some (s.lists k) ∨
      (∃ f, s.w = .waitOld f) ∧ s.pubs.tail.head? = some (s.lists k)) := by
  have I := hs.inv
  refine ⟨I.no_race, I.seen, ?_⟩
  intro k hk
  by_cases h : ∃ f, s.w = .waitOld f
  · obtain ⟨f, hf⟩ := h
    obtain ⟨h1, h2⟩ := I.old f hf
    have h3 := I.ref k hk
    rcases h2 with h2 | ⟨h2, _⟩
    · right
      rw [h2, Option.some.injEq] at h3
      subst h3
      exact ⟨⟨f, hf⟩, I.second f hf⟩
    · left
      rw [h2, Option.some.injEq] at h3
      rw [← h3]; exact I.head
  · left
    have := (I.fresh (fun j hj => h ⟨j, hj⟩)).1
    rw [I.ref k hk, Option.some.injEq] at this
    rw [this]; exact I.head

/-- A service call publishes a list and comes to its end, in the middle of real-time cycles. -/
example :
    let s := RTList.run (St.init [1] []) ([.rtLoad] ++ [] ++ [.rtStore] ++
      [.wGet, .wPoll, .wWrite [1, 2], .rtUse, .wPublish, .wPoll, .rtUse, .rtLoad, .rtStore, .wPoll, .wPoll, .wWrite []])
    s.w = .clear false ∧ s.rtRef = some true ∧ s.rtSeen = some [1, 2] ∧ s.pubs = [[1, 2], [1]] := by decide

/-- **C23 (publication is complete).** When `switch_updated_list` has returned to the service thread, the real-time
thread uses the newly published list (and, with `C23_no_race_partial`, nothing else). -/
theorem C23_published_means_used_partial {L : Type} (s : St L) (hs : Running s) (f : Bool) (hw : s.w = .waitOld f)
    (hret : (RTList.step s .wPoll).w ≠ .waitOld f) (k : Bool) (hk : (RTList.step s .wPoll).rtRef = some k) :
    s.pubs.head? = some (s.lists k) := by
  have I := hs.inv
  have J := I.step .wPoll
  have hn : ∀ j, (RTList.step s .wPoll).w ≠ .waitOld j := by
    intro j hj
    unfold RTList.step at hj hret
    simp only [hw] at hj hret
    split at hj
    · rename_i h; rw [if_pos h] at hret; rw [hw] at hret; exact hret rfl
    · simp at hj
  have h1 := (J.fresh hn).1
  rw [J.ref k hk, Option.some.injEq] at h1
  have h2 : (RTList.step s .wPoll).upd = s.upd := by unfold RTList.step; simp only [hw]; split <;> rfl
  rw [h1, h2]; exact I.head

/-- **C23 (no deadlock).** A service call that waits for the real-time thread to let go of the old list gets on after
one more real-time cycle; a call that asks for the unused list never waits. -/
theorem C23_waits_at_most_one_cycle_partial {L : Type} (s : St L) (hs : Running s) :
    (∀ f, s.w = .waitOld f → (RTList.run s [.rtLoad, .rtStore, .wPoll]).w = .waitFree2 f) ∧
    (∀ k, s.w = .waitFree k → (RTList.step s .wPoll).w = .write k) ∧
    (∀ k, s.w = .waitFree2 k → (RTList.step s .wPoll).w = .clear k) := by
  have I := hs.inv
  refine ⟨?_, ?_, ?_⟩
  · intro f hw
    have h1 := (I.old f hw).1
    simp only [RTList.run, List.foldl_cons, List.foldl_nil, RTList.step, hw]
    rw [if_neg]
    · simp [h1]
    · rw [h1]; cases s.upd <;> simp
  · intro k hw
    have h1 := (I.fresh (by simp [hw])).1
    have h2 := I.free k hw
    simp only [RTList.step, hw]
    rw [if_neg]
    rw [h1, h2]; cases s.upd <;> simp
  · intro k hw
    have h1 := (I.fresh (by simp [hw])).1
    have h2 := I.free2 k hw
    simp only [RTList.step, hw]
    rw [if_neg]
    rw [h1, h2]; cases s.upd <;> simp

/-- A running state in which a service call waits for the real-time thread. -/
example : Running (RTList.run (St.init [1] []) [.rtLoad, .rtStore, .wGet, .wPoll, .wWrite [2], .wPublish]) ∧
    (RTList.run (St.init [1] []) [.rtLoad, .rtStore, .wGet, .wPoll, .wWrite [2], .wPublish]).w = .waitOld false :=
  ⟨⟨[1], [], [], [], [.wGet, .wPoll, .wWrite [2], .wPublish], by simp, by simp, by simp, rfl⟩, by decide⟩

/-- C23 is false in the first cycle: `used_by_realtime_controllers_index_` is -1 until the real-time thread has
stored its first index, so a service call that publishes a list between the load and the store does not wait, and
destroys the list the real-time thread then iterates. -/
theorem C23_first_cycle_race : ¬ C23_Full := by
  intro h
  refine h (List Nat) [1] [] [.rtLoad, .wGet, .wPoll, .wWrite [1, 2], .wPublish, .wPoll, .wPoll, .rtStore] ⟨false, ?_, ?_⟩
  · decide
  · decide

end Verif
