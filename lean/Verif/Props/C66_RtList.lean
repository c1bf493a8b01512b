import Verif.RtList.Lemmas
/-!
# C66: the list of controllers the real-time loop uses

Services edit a copy of the list and switch. For all schedules of any number of service threads and the real-time thread:
the loop never sees a list that is being changed, it sees a list some service finished, and nobody waits for ever - the last
two with exceptions that are shown too.
-/
namespace Verif
namespace RtList

/-- The states of all schedules from construction. -/
def Reach (s : St) : Prop := ∃ as, run St.init as = some s

/-- The same for schedules in which the very first `update_and_get_used_by_rt_list` is not interrupted. -/
def Started (s : St) : Prop :=
  ∃ pre post, Act.rtLoad ∉ pre ∧ run St.init (pre ++ .rtLoad :: .rtStore :: post) = some s

/-! ## Lemmas -/

theorem run_append (s : St) (as bs : List Act) : run s (as ++ bs) = (run s as).bind fun s' => run s' bs := by
  induction as generalizing s with
  | nil => rfl
  | cons a as ih =>
    simp only [List.cons_append, run]
    cases step s a with
    | none => rfl
    | some s' => exact ih s'

theorem run_ind {P : St → Prop} {as : List Act} (hP : ∀ s s' a, a ∈ as → P s → step s a = some s' → P s') {s s' : St} (h : P s)
    (e : run s as = some s') : P s' := by
  induction as generalizing s with
  | nil => simp only [run, Option.some.injEq] at e; exact e ▸ h
  | cons a as ih =>
    simp only [run] at e
    cases hs : step s a with
    | none => rw [hs] at e; simp at e
    | some s1 =>
      rw [hs] at e
      exact ih (fun s s' b hb => hP s s' b (List.mem_cons_of_mem _ hb)) (hP s s1 a (by simp) h hs) e

/-- Before the first list is taken. -/
structure Cold (s : St) : Prop extends Locks s where
  used : s.used = none
  pc : s.rt = .idle ∨ s.rt = .want none ∨ s.rt = .got none
  quiet : ∀ t, s.svc t ≠ .await true

theorem Cold.step {s s' : St} {a : Act} (h : Cold s) (ha : a ≠ .rtLoad) (e : step s a = some s') : Cold s' := by
  have L := h.toLocks.step e
  obtain ⟨⟨h1, h2, h3⟩, h4, h5, h6⟩ := h
  refine { toLocks := L, used := ?_, pc := ?_, quiet := ?_ }
  all_goals
    cases a <;> simp only [RtList.step] at e <;> (try split at e) <;> (try split at e) <;> (try simp only [reduceCtorEq] at e) <;>
      (try simp only [Option.some.injEq] at e) <;> (try subst e) <;> grind [St.setPc, St.answer]

theorem Started.inv {s : St} (h : Started s) : Inv s := by
  obtain ⟨pre, post, hp, e⟩ := h
  rw [run_append] at e
  cases h0 : run St.init pre with
  | none => rw [h0] at e; simp at e
  | some s0 =>
    rw [h0] at e
    have C : Cold s0 := run_ind (P := Cold) (fun s s' a ha c e => c.step (fun x => hp (x ▸ ha)) e)
      { toLocks := Locks.init, used := rfl, pc := .inl rfl, quiet := by simp [St.init] } h0
    simp only [Option.bind_some, run] at e
    cases h1 : step s0 .rtLoad with
    | none => rw [h1] at e; simp at e
    | some s1 =>
      rw [h1] at e
      simp only [Option.bind_some] at e
      have r1 : s1 = { s0 with rt := .loaded s0.updated } := by
        simp only [RtList.step] at h1
        rcases C.pc with h | h | h <;> rw [h] at h1 <;> simp at h1
        exact h1.symm
      cases h2 : step s1 .rtStore with
      | none => rw [h2] at e; simp at e
      | some s2 =>
        rw [h2] at e
        simp only [Option.bind_some] at e
        have r2 : s2 = { s0 with rt := .using s0.updated, used := some s0.updated } := by
          subst r1
          simp only [RtList.step, Option.some.injEq] at h2
          exact h2.symm
        have L2 : Locks s2 := (C.toLocks.step h1).step h2
        have I2 : Inv s2 := by
          refine { toLocks := L2, started := ?_, calm := ?_, late := ?_, early := ?_ } <;> subst r2
          · simp
          · intro _; simp [RPc.ref]
          · intro t f hf _ i hi
            have := C.flip t f hf
            simp [RPc.ref] at hi
            rw [← hi, this]
          · intro t f hf hu i hi
            have := C.flip t f hf
            simp only [Option.some.injEq] at hu
            rw [this] at hu
            cases f <;> simp at hu
        exact run_ind (P := Inv) (fun s s' a _ i e => i.step e) I2 e

theorem Started.run {s s' : St} (h : Started s) {as : List Act} (e : run s as = some s') : Started s' := by
  obtain ⟨pre, post, hp, h0⟩ := h
  refine ⟨pre, post ++ as, hp, ?_⟩
  have : pre ++ Act.rtLoad :: .rtStore :: (post ++ as) = (pre ++ .rtLoad :: .rtStore :: post) ++ as := by simp
  rw [this, run_append, h0]
  exact e

/-! ## Safety -/

/-- C66: no service writes a list while the real-time thread may touch it, and the lock keeps services (and the real-time
thread when it asks for the lock) apart. -/
theorem C66_no_conflict {s : St} (h : Started s) :
    (∀ i t, s.RtUses i → ¬ s.SvcWrites t i) ∧
    (∀ t u, s.svc t ≠ .idle → s.svc u ≠ .idle → t = u) ∧
    (∀ i, s.rt = .got i → ∀ t, s.svc t = .idle) := by
  have I := h.inv
  refine ⟨?_, ?_, ?_⟩
  · rintro i t hu ⟨he, hi⟩
    rw [rtUses_iff] at hu
    have calm : ∀ u f, s.svc u ≠ .flipped f := by
      intro u f hf
      have h1 := (I.own t).1 (by rw [he]; simp)
      have h2 := (I.own u).1 (by rw [hf]; simp)
      rw [h1] at h2
      simp only [Option.some.injEq, Owner.svc.injEq] at h2
      rw [h2, hf] at he; simp at he
    have := (I.calm calm).2 i (.inr hu)
    rw [hi] at this
    cases hx : s.updated <;> rw [hx] at this <;> simp at this
  · intro t u ht hu
    have h1 := (I.own t).1 ht
    have h2 := (I.own u).1 hu
    rw [h1] at h2
    simpa using h2
  · intro i hi t
    have h1 := I.rt.1 ⟨i, hi⟩
    refine Classical.byContradiction fun ht => ?_
    have h2 := (I.own t).1 ht
    rw [h1] at h2; simp at h2

theorem lists_step {s s' : St} (I : Inv s) {a : Act} (e : step s a = some s') {i : Bool}
    (h : s.rt = .loaded i ∨ s.rt.ref = some i) : s'.lists i = s.lists i := by
  cases a with
  | write t l =>
    simp only [step] at e
    split at e
    · rename_i he
      have calm : ∀ u f, s.svc u ≠ .flipped f := by
        intro u f hf
        have h1 := (I.own t).1 (by rw [he]; simp)
        have h2 := (I.own u).1 (by rw [hf]; simp)
        rw [h1] at h2
        simp only [Option.some.injEq, Owner.svc.injEq] at h2
        rw [h2, hf] at he; simp at he
      have hi := (I.calm calm).2 i h
      simp only [Option.some.injEq] at e
      subst e
      simp only [hi]
      cases s.updated <;> simp
    · simp at e
  | _ =>
    simp only [step] at e
    (try split at e) <;> (try split at e) <;> (try simp only [reduceCtorEq] at e) <;>
      (try simp only [Option.some.injEq] at e) <;> subst e <;> grind [St.setPc, St.answer]

/-- C66: while the real-time thread keeps a list, whatever the services do, its content does not change. -/
theorem C66_snapshot {s s' : St} (h : Started s) {i : Bool} (hu : s.RtUses i) {as : List Act} (e : run s as = some s')
    (ha : ∀ a ∈ as, a ≠ .rtLoad ∧ a ≠ .rtDone) : s'.RtUses i ∧ s'.lists i = s.lists i := by
  rw [rtUses_iff] at hu
  rw [rtUses_iff]
  have key := run_ind (as := as) (s := s) (s' := s') (P := fun x => Inv x ∧ x.rt.ref = some i ∧ x.lists i = s.lists i) ?_
    ⟨h.inv, hu, rfl⟩ e
  · exact key.2
  · rintro x x' a hm ⟨I, h1, h2⟩ e
    refine ⟨I.step e, ?_, by rw [lists_step I e (.inr h1), h2]⟩
    obtain ⟨n1, n2⟩ := ha a hm
    cases a <;> simp only [step] at e <;> (try split at e) <;> (try split at e) <;> (try simp only [reduceCtorEq] at e) <;>
      (try simp only [Option.some.injEq] at e) <;> (try subst e) <;> grind [St.setPc, St.answer, RPc.ref]

/-- C66: the official list (the one `get_updated_list` returns) changes only when a service switches, and then becomes what
that service built. -/
theorem C66_official {s s' : St} {a : Act} (e : step s a = some s') :
    (∀ t, a ≠ .flip t) ∧ s'.lists s'.updated = s.lists s.updated ∨
    (∃ t, a = .flip t ∧ s.SvcWrites t (!s.updated) ∧ s'.updated = !s.updated ∧ s'.lists = s.lists) := by
  cases a <;> simp only [step] at e <;> (try split at e) <;> (try split at e) <;> (try simp only [reduceCtorEq] at e) <;>
    (try simp only [Option.some.injEq] at e) <;> subst e <;> grind [St.setPc, St.answer, St.SvcWrites]

/-- C66: the list the real-time thread takes is the official one of the moment it looked, complete, however services
interfere until it has announced what it uses. -/
theorem C66_takes_official {s s1 s2 s3 : St} (h : Started s) {as : List Act} (e1 : step s .rtLoad = some s1)
    (e2 : run s1 as = some s2) (ha : .rtStore ∉ as) (e3 : step s2 .rtStore = some s3) :
    s3.RtUses s.updated ∧ s3.lists s.updated = s.lists s.updated := by
  have l1 : s1.rt = .loaded s.updated ∧ s1.lists = s.lists := by
    simp only [step] at e1
    split at e1 <;> simp only [Option.some.injEq, reduceCtorEq] at e1 <;> subst e1 <;> simp
  have key := run_ind (as := as) (s := s1) (s' := s2)
    (P := fun x => Inv x ∧ x.rt = .loaded s.updated ∧ x.lists s.updated = s.lists s.updated) ?_
    ⟨h.inv.step e1, l1.1, by rw [l1.2]⟩ e2
  · obtain ⟨-, k1, k2⟩ := key
    simp only [step, k1, Option.some.injEq] at e3
    subst e3
    exact ⟨.inl rfl, k2⟩
  · rintro x x' a hm ⟨I, h1, h2⟩ e
    refine ⟨I.step e, ?_, by rw [lists_step I e (.inl h1), h2]⟩
    have n : a ≠ .rtStore := fun n => ha (n ▸ hm)
    cases a <;> simp only [step] at e <;> (try split at e) <;> (try split at e) <;> (try simp only [reduceCtorEq] at e) <;>
      (try simp only [Option.some.injEq] at e) <;> (try subst e) <;> grind [St.setPc, St.answer]

/-! ## Progress -/

/-- C66 (the real-time thread is never blocked by a service; what is missing: phases that ask for the lock, for which it is
false, see below): outside of those its next action is possible in every state. -/
theorem C66_rt_wait_free_partial (s : St) :
    (s.rt = .idle → (step s .rtLoad).isSome) ∧
    (∀ i, s.rt = .loaded i → (step s .rtStore).isSome) ∧
    (∀ i, s.rt = .using i → (step s .rtLoad).isSome ∧ (step s .rtDone).isSome ∧ (step s .rtAnswer).isSome) ∧
    (∀ i, s.rt = .got i → (step s .rtUnlock).isSome) := by
  refine ⟨fun h => ?_, fun i h => ?_, fun i h => ?_, fun i h => ?_⟩
  · simp [step, h]
  · simp [step, h]
  · simp [step, h]
  · cases i <;> simp [step, h]

/-- C66: a service that switched the list goes on once the real-time thread has taken a list again, and taking the unused
list never makes a service wait. -/
theorem C66_service_proceeds {s : St} (h : Started s) :
    (∀ t, s.svc t = .held → (step s (.get t)).isSome) ∧
    (∀ t f s1 s2 s3 as, s.svc t = .flipped f → step s .rtLoad = some s1 → run s1 as = some s2 → .rtStore ∉ as →
      .pass t ∉ as → step s2 .rtStore = some s3 → (step s3 (.pass t)).isSome) := by
  constructor
  · intro t ht
    have I := h.inv
    have calm : ∀ u f, s.svc u ≠ .flipped f := by
      intro u f hf
      have h1 := (I.own t).1 (by rw [ht]; simp)
      have h2 := (I.own u).1 (by rw [hf]; simp)
      rw [h1] at h2
      simp only [Option.some.injEq, Owner.svc.injEq] at h2
      rw [h2, hf] at ht; simp at ht
    have := (I.calm calm).1
    simp only [step, ht, true_and, this]
    cases s.updated <;> simp
  · intro t f s1 s2 s3 as ht e1 e2 ha hp e3
    have hup := h.inv.flip t f ht
    have l1 : s1.rt = .loaded s.updated ∧ s1.svc = s.svc := by
      simp only [step] at e1
      split at e1 <;> simp only [Option.some.injEq, reduceCtorEq] at e1 <;> subst e1 <;> simp
    have key := run_ind (as := as) (s := s1) (s' := s2)
      (P := fun x => x.rt = .loaded (!f) ∧ x.svc t = .flipped f) ?_ ⟨by rw [l1.1, hup], by rw [l1.2]; exact ht⟩ e2
    · obtain ⟨k1, k2⟩ := key
      simp only [step, k1, Option.some.injEq] at e3
      subst e3
      simp only [step, k2]
      cases f <;> simp
    · rintro x x' a hm ⟨h1, h2⟩ e
      have n : a ≠ .rtStore := fun n => ha (n ▸ hm)
      have n' : a ≠ .pass t := fun n => hp (n ▸ hm)
      cases a <;> simp only [step] at e <;> (try split at e) <;> (try split at e) <;> (try simp only [reduceCtorEq] at e) <;>
        (try simp only [Option.some.injEq] at e) <;> (try subst e) <;> grind [St.setPc, St.answer]

/-! ## What goes wrong -/

/-- The real-time thread waits for the lock, whose holder waits for the real-time thread to leave the list. -/
structure Stuck (s : St) (t : Nat) (f : Bool) (x : Option Bool) : Prop where
  rt : s.rt = .want x
  svc : s.svc t = .flipped f
  used : s.used = some f
  inv : Locks s

/-- C66: a deadlock is for ever: no schedule of all threads gets the real-time loop or the service out of it. -/
theorem C66_deadlock_permanent {s s' : St} {t : Nat} {f : Bool} {x : Option Bool} (h : Stuck s t f x) {as : List Act}
    (e : run s as = some s') : Stuck s' t f x := by
  refine run_ind (P := fun s => Stuck s t f x) ?_ h e
  rintro s s' a - ⟨h1, h2, h3, h4⟩ e
  have L := h4.step e
  have o := (h4.own t).1 (by rw [h2]; simp)
  have o' : ∀ u, s.svc u ≠ .idle → u = t := by
    intro u hu
    have := (h4.own u).1 hu
    rw [o] at this
    simpa using this.symm
  refine { rt := ?_, svc := ?_, used := ?_, inv := L }
  all_goals
    cases a <;> simp only [step] at e <;> (try split at e) <;> (try split at e) <;> (try simp only [reduceCtorEq] at e) <;>
      (try simp only [Option.some.injEq] at e) <;> (try subst e) <;> grind [St.setPc, St.answer]

/-- A controller's `update` fails while `load_controller` switches the list: the loop wants to publish the activity. -/
def deadlockRun : List Act :=
  [.rtLoad, .rtStore, .lock 1, .get 1, .write 1 [7], .flip 1, .rtWant]

/-- C66: the claim "the real-time loop never waits for ever" is false: an `update` in which a controller fails, at the moment
a service switches the list, stops the real-time loop and all services. -/
theorem C66_deadlock :
    ∃ s, Started s ∧ Stuck s 1 false (some false) ∧ ∀ as s', run s as = some s' → s'.rt = .want (some false) := by
  obtain ⟨s, hs⟩ : ∃ s, run St.init deadlockRun = some s := ⟨_, rfl⟩
  have S : Started s := ⟨[], deadlockRun.drop 2, by simp, hs⟩
  have K : Stuck s 1 false (some false) := by
    refine ⟨?_, ?_, ?_, S.inv.toLocks⟩ <;> (simp [run, deadlockRun, step, St.init, St.setPc] at hs; subst hs; simp)
  exact ⟨s, S, K, fun as s' e => (C66_deadlock_permanent K e).rt⟩

/-- The same through `write`: a component asks for deactivation, `get_loaded_controllers` wants the lock. -/
theorem C66_deadlock_write :
    ∃ s, Started s ∧ Stuck s 1 false none ∧ ∀ as s', run s as = some s' → s'.rt = .want none := by
  obtain ⟨s, hs⟩ : ∃ s, run St.init [.rtLoad, .rtStore, .rtDone, .lock 1, .get 1, .flip 1, .rtWant] = some s := ⟨_, rfl⟩
  have S : Started s := ⟨[], [.rtDone, .lock 1, .get 1, .flip 1, .rtWant], by simp, hs⟩
  have K : Stuck s 1 false none := by
    refine ⟨?_, ?_, ?_, S.inv.toLocks⟩ <;> (simp [run, step, St.init, St.setPc] at hs; subst hs; simp)
  exact ⟨s, S, K, fun as s' e => (C66_deadlock_permanent K e).rt⟩

/-- C66: while `switch_controller` waits for the loop and the loop wants the lock, neither happens until the switch times
out: whatever else is scheduled, the switch stays unanswered and the loop blocked. -/
theorem C66_switch_blocks {s s' : St} (h : Started s) {t : Nat} {x : Option Bool} (h1 : s.svc t = .await false)
    (h2 : s.rt = .want x) {as : List Act} (e : run s as = some s') (ha : .timeout t ∉ as) :
    s'.svc t = .await false ∧ s'.rt = .want x := by
  have key := run_ind (as := as) (s := s) (s' := s')
    (P := fun s => Locks s ∧ s.svc t = .await false ∧ s.rt = .want x) ?_ ⟨h.inv.toLocks, h1, h2⟩ e
  · exact key.2
  · rintro s s' a hm ⟨h4, h1, h2⟩ e
    have L := h4.step e
    have o := (h4.own t).1 (by rw [h1]; simp)
    have n : a ≠ .timeout t := fun n => ha (n ▸ hm)
    refine ⟨L, ?_, ?_⟩
    all_goals
      cases a <;> simp only [step] at e <;> (try split at e) <;> (try split at e) <;> (try simp only [reduceCtorEq] at e) <;>
        (try simp only [Option.some.injEq] at e) <;> (try subst e) <;> grind [St.setPc, St.answer]

/-- C66: the safety claim without the assumption about the very first cycle is false: until the index has been stored once
services do not wait, so a loop interrupted between reading and storing the index iterates over a list that is being edited. -/
theorem C66_first_cycle_race : ∃ s, Reach s ∧ s.RtUses false ∧ s.SvcWrites 2 false := by
  refine ⟨_, ⟨[.rtLoad, .lock 1, .get 1, .write 1 [7], .flip 1, .pass 1, .unlock 1, .lock 2, .get 2, .rtStore], rfl⟩, ?_, ?_⟩
  · left; rfl
  · exact ⟨rfl, rfl⟩

/-! ## Concrete cases -/

/-- Loading a controller while the loop runs: the loop keeps the old list until it takes the new one. -/
def loadRun : List Act :=
  [.rtLoad, .rtStore, .lock 1, .get 1, .write 1 [7], .flip 1, .rtAnswer, .rtDone, .rtLoad, .rtStore, .pass 1, .get 1,
   .write 1 [], .unlock 1]

example : ∃ s, run St.init loadRun = some s ∧ s.lists true = [7] ∧ s.rt = .using true ∧ s.lock = none ∧
    Started s := by
  refine ⟨_, rfl, rfl, rfl, rfl, [], loadRun.drop 2, by simp, rfl⟩

/-- The hypotheses of `C66_switch_blocks`. -/
example : ∃ s, Started s ∧ s.svc 1 = .await false ∧ s.rt = .want (some false) :=
  ⟨_, ⟨[], [.lock 1, .await 1, .rtWant], by simp, rfl⟩, rfl, rfl⟩

/-- The hypotheses of `C66_service_proceeds`: the loop comes round while a service waits. -/
example : ∃ s s1 s3, Started s ∧ s.svc 1 = .flipped false ∧ step s .rtLoad = some s1 ∧ step s1 .rtStore = some s3 ∧
    (step s (.pass 1)).isSome = false ∧ (step s3 (.pass 1)).isSome = true :=
  ⟨_, _, _, ⟨[], [.lock 1, .get 1, .write 1 [7], .flip 1, .rtDone], by simp, rfl⟩, rfl, rfl, rfl, rfl, rfl⟩

end RtList
end Verif
