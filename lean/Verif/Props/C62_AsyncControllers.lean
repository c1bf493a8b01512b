import Verif.ACtl.Lemmas
/-!
# C62 — asynchronous controllers

A history is any interleaving of the real-time thread, the service thread, the lifecycle transitions and the worker
(`run acts`, for every `acts`), with any answers of the controller. The vocabulary is that of `ACtl/Spec.lean`, which
mentions only observable events.

The claim a user wants is: *the `update` of an asynchronous controller never overlaps a lifecycle callback of that
controller, and never runs while its interfaces are taken away.* It is false without a proviso (`Claim`,
`C62_claim_fails_*`): nobody waits for the worker before `on_deactivate` unless `switch_controller` announced the deactivation
with `prepare_for_deactivation`, and even then a trigger can slip through. It holds whenever every `on_deactivate` was
called with no cycle in progress (`C62_orderly_partial`), which the announcement ensures unless it raced with a trigger
(`C62_announced_quiet`), and unconditionally for the callbacks other than `on_activate` and `on_deactivate`
(`C62_thread_callbacks`).
-/
namespace Verif.ACtl

/-- The full claim, for one history. -/
def Claim (log : List Ev) : Prop :=
  Always (fun e older =>
    (e = .updCall → inside older = none ∧ stateOf older = .active) ∧
    (∀ c, e = .cbCall c → updating older = false) ∧
    (e = .released → updating older = false)) log

/-- The worker is inside `update` only while a cycle is in progress. -/
theorem updating_open (acts : List Act) : updating (run acts).log = true → cycleOpen (run acts).log = true := by
  have h := run_inv acts
  rw [h.upd, h.cyc]
  simp only [decide_eq_true_eq]
  intro hw; simp [hw]

/-! ## What holds of every history -/

/-- **`on_configure`, `on_cleanup`, `on_shutdown` and `on_error` never overlap `update`**: they are called with no cycle in
progress, and `update` is not called inside them, nor in a controller that is UNCONFIGURED or FINALIZED, nor after they
stopped the thread. -/
theorem C62_thread_callbacks (acts : List Act) :
    Always (fun e older =>
      (∀ c, e = .cbCall c → c ≠ .cb .activate → c ≠ .cb .deactivate → cycleOpen older = false) ∧
      (e = .updCall → stopped older = false ∧ (stateOf older = .inactive ∨ stateOf older = .active) ∧
        ∀ c, inside older = some c → c = .cb .activate ∨ c = .cb .deactivate)) (run acts).log := by
  intro newer e older h
  have g := run_good acts newer e older h
  refine ⟨g.stopCb, fun he => ⟨g.thread he, g.updLc he, ?_⟩⟩
  intro c hc
  rcases g.updIn he with h | h | h
  · rw [h] at hc; cases hc
  · rw [h] at hc; cases hc; exact Or.inl rfl
  · rw [h] at hc; cases hc; exact Or.inr rfl

/-- **Updates are serial and each serves its own trigger**: when `update` is called no other call of it runs, and a trigger
was accepted that no earlier call has served. -/
theorem C62_one_update_per_trigger (acts : List Act) :
    Always (fun e older => e = .updCall → updating older = false ∧ unserved older = true) (run acts).log := by
  intro newer e older h
  have g := run_good acts newer e older h
  exact fun he => ⟨g.serial he, g.serve he⟩

/-- **What a trigger answers**: the answer of the last `update` since the activation (OK if there was none), and whether
it was accepted, which is exactly if no cycle is in progress. Triggers happen only while the controller is ACTIVE, its
thread runs and it is in no lifecycle callback. -/
theorem C62_trigger_answer (acts : List Act) (r : Ret) (b : Bool) :
    Always (fun e older => e = .got r b → r = lastUpdate older ∧ (b = true ↔ cycleOpen older = false) ∧
      stateOf older = .active ∧ inside older = none ∧ stopped older = false) (run acts).log := by
  intro newer e older h
  have g := run_good acts newer e older h
  intro he
  obtain ⟨h1, h2, -, h4, h5, h6⟩ := g.got r b he
  refine ⟨h1, ?_, h4, h5, h6⟩
  subst h2; simp

/-- **No trigger without a thread, except after a failed clean-up**: `trigger_update` throws only if `on_cleanup`,
`on_shutdown` or `on_error` ran after the last `on_configure`. -/
theorem C62_throws_only_stopped (acts : List Act) :
    Always (fun e older => e = .threw → stopped older = true ∧ stateOf older = .active) (run acts).log := by
  intro newer e older h
  exact (run_good acts newer e older h).threw

/-- Lifecycle callbacks are called one at a time and only from the states the lifecycle allows. -/
theorem C62_callbacks_serial (acts : List Act) :
    Always (fun e older => ∀ c, e = .cbCall c → inside older = none ∧
      ∀ k, c = .cb k → k.legal (stateOf older) = true) (run acts).log := by
  intro newer e older h
  have g := run_good acts newer e older h
  intro c he
  exact ⟨g.one c he, fun k hk => g.legal k (by rw [he, hk])⟩

/-! ## Announced deactivations -/

/-- Facts about events carry over to every shorter history. -/
theorem Always.suffix {P n l} (h : Always P (n ++ l)) : Always P l := by
  intro n' e o hh
  exact h (n ++ n') e o (by simp [hh])

/-- **After an un-raced announcement the controller is quiet**: from the return of `prepare_for_deactivation`, if no
trigger was half way through, and until the controller is activated again, no trigger is accepted, `update` is not called,
and no cycle is in progress. -/
theorem C62_announced_quiet (acts : List Act) (newer mid older : List Ev)
    (h : (run acts).log = newer ++ .prepared :: mid ++ .prepBegin :: older)
    (hq : midTrigger (mid ++ .prepBegin :: older) = false)
    (ha : .cbCall (.cb .activate) ∉ newer ++ mid) :
    (∀ r, .got r true ∉ newer) ∧ .updCall ∉ newer ∧ cycleOpen (run acts).log = false := by
  have hg := run_good acts
  rw [h] at hg ⊢
  have hann : announced (mid ++ .prepBegin :: older) = true := by
    have ha' : .cbCall (.cb .activate) ∉ mid := fun hm => ha (List.mem_append_right _ hm)
    clear hg hq h ha
    induction mid with
    | nil => rfl
    | cons e t ih =>
      have h1 := ih (fun hm => ha' (List.mem_cons_of_mem _ hm))
      unfold announced at h1 ⊢
      rw [List.cons_append, latest]
      split
      · rename_i v hv
        split at hv
        · cases hv; rfl
        · exact absurd (List.mem_cons_self) ha'
        · cases hv
      · exact h1
  have ha' : .cbCall (.cb .activate) ∉ newer := fun hm => ha (List.mem_append_left _ hm)
  have hp := hg
  rw [List.append_assoc] at hp
  replace hp : Always Good (.prepared :: (mid ++ .prepBegin :: older)) := hp.suffix
  have hc := hp.head.prep rfl
  rw [List.append_assoc, List.cons_append] at hg
  rw [List.append_assoc, List.cons_append]
  generalize hX : mid ++ .prepBegin :: older = X at hg hann hc hq
  clear hX hp h ha
  suffices H : announced (newer ++ .prepared :: X) = true ∧ midTrigger (newer ++ .prepared :: X) = false ∧
      cycleOpen (newer ++ .prepared :: X) = false ∧ (∀ r, Ev.got r true ∉ newer) ∧ Ev.updCall ∉ newer from
    ⟨H.2.2.2.1, H.2.2.2.2, H.2.2.1⟩
  induction newer with
  | nil =>
    refine ⟨?_, ?_, ?_, by simp, by simp⟩
    · simpa [announced, latest] using hann
    · simpa [midTrigger, latest] using hq
    · simpa [cycleOpen, latest] using hc
  | cons e t ih =>
    obtain ⟨i1, i2, i3, i4, i5⟩ := ih (fun hm => ha' (List.mem_cons_of_mem _ hm)) hg.tail
    have g := hg.head
    have ne1 : e ≠ .cbCall (.cb .activate) := fun h => ha' (by rw [h]; exact List.mem_cons_self)
    have ne2 : e ≠ .check := by
      intro h
      have := (g.check h).1
      simp only [List.append_eq] at this
      rw [i1] at this; cases this
    have ne3 : ∀ r b, e ≠ .got r b := by
      intro r b h
      have := (g.got r b h).2.2.1
      simp only [List.append_eq] at this
      rw [i2] at this; cases this
    have ne4 : e ≠ .updCall := by
      intro h
      have := g.updOpen h
      simp only [List.append_eq] at this
      rw [i3] at this; cases this
    refine ⟨?_, ?_, ?_, ?_, ?_⟩
    · rw [List.cons_append]
      unfold announced at i1 ⊢
      rw [latest]
      split
      · rename_i v hv
        split at hv
        · cases hv; rfl
        · exact absurd rfl ne1
        · cases hv
      · exact i1
    · rw [List.cons_append]
      unfold midTrigger at i2 ⊢
      rw [latest]
      split
      · rename_i v hv
        split at hv
        · exact absurd rfl ne2
        · exact absurd rfl (ne3 _ _)
        · cases hv; rfl
        · cases hv
      · exact i2
    · rw [List.cons_append]
      unfold cycleOpen at i3 ⊢
      rw [latest]
      split
      · rename_i v hv
        split at hv
        · exact absurd rfl (ne3 _ _)
        · cases hv; rfl
        · cases hv
      · exact i3
    · intro r hm
      rcases List.mem_cons.1 hm with h | h
      · exact ne3 _ _ h.symm
      · exact i4 r h
    · intro hm
      rcases List.mem_cons.1 hm with h | h
      · exact ne4 h.symm
      · exact i5 h

/-! ## Histories whose deactivations found no cycle in progress -/

/-- **The claim holds for orderly histories** (`_partial`: of the claim above, the proviso is missing). If every
`on_deactivate` so far was called with no cycle in progress, then `update` was only ever called while the controller was
ACTIVE and in no callback; every callback was called, and returned, with no cycle in progress; and the interfaces were
never taken back during one. -/
theorem C62_orderly_partial (acts : List Act) (ho : Orderly (run acts).log) :
    Claim (run acts).log ∧
    Always (fun e older => ((∃ c, e = .cbCall c) ∨ (∃ c a, e = .cbRet c a) ∨ e = .released) →
      cycleOpen older = false) (run acts).log := by
  have key : Always (fun e older => ((∃ c, e = .cbCall c) ∨ (∃ c a, e = .cbRet c a) ∨ e = .released) →
      cycleOpen older = false) (run acts).log := by
    intro newer e older h
    have g := run_good acts newer e older h
    have ho1 : Orderly (e :: older) := by
      rw [h] at ho; exact Always.suffix ho
    have ho2 : Orderly older := Always.tail ho1
    rintro (⟨c, he⟩ | ⟨c, a, he⟩ | he)
    · exact g.cbO c he ho1
    · exact g.retO c a he ho2
    · exact g.relO he ho2
  refine ⟨?_, key⟩
  intro newer e older h
  have g := run_good acts newer e older h
  have ho2 : Orderly older := by
    rw [h] at ho; exact Always.tail (Always.suffix ho)
  have hu : cycleOpen older = false → updating older = false := by
    intro hc
    have hgo : Always Good older := by
      have := run_good acts; rw [h] at this; exact this.suffix.tail
    exact upd_closed hgo hc
  refine ⟨fun he => (g.updO he ho2).symm, fun c he => ?_, fun he => ?_⟩
  · exact hu (key newer e older h (Or.inl ⟨c, he⟩))
  · exact hu (key newer e older h (Or.inr (Or.inr he)))

/-- **An orderly controller updates with its interfaces in hand**, unless an `on_deactivate` answered FAILURE (which
takes the interfaces away and leaves the controller ACTIVE). -/
theorem C62_orderly_loaned (acts : List Act) (ho : Orderly (run acts).log)
    (hf : .cbRet (.cb .deactivate) .failure ∉ (run acts).log) :
    Always (fun e older => e = .updCall → loaned older = true) (run acts).log := by
  intro newer e older h he
  have g := run_good acts newer e older h
  have ho2 : Orderly older := by
    rw [h] at ho; exact Always.tail (Always.suffix ho)
  exact g.updL he ho2 (fun hm => hf (by rw [h]; exact List.mem_append_right _ (List.mem_cons_of_mem _ hm)))

/-! ## Nobody waits for ever -/

/-- **A transition that stops the thread goes on to its callback** once the worker has finished its cycle, and nothing
but the worker can delay it: from any reachable situation, letting the worker finish is enough. -/
theorem C62_stop_returns (acts : List Act) (c : Cb) (r : Ret) (h : (run acts).f = .stopping c) :
    (run (acts ++ [.wStart, .wRet r, .wEnd, .fStopped])).log.head? = some (.cbCall c) := by
  unfold run at h ⊢
  rw [List.foldl_append]
  generalize acts.foldl step start = s at h
  simp only [List.foldl_cons, List.foldl_nil, step]
  cases hw : s.w <;> simp [wStart, wRet, wEnd, fStopped, hw, h]

/-- **`prepare_for_deactivation` returns** once the worker has finished its cycle: the flag is up, so a trigger that is
not already half way through cannot start another one. -/
theorem C62_prepare_returns (acts : List Act) (r : Ret) (h : (run acts).waiting = true) :
    (run (acts ++ [.wStart, .wRet r, .wEnd, .svPrepared])).log.head? = some .prepared := by
  unfold run at h ⊢
  rw [List.foldl_append]
  generalize acts.foldl step start = s at h
  simp only [List.foldl_cons, List.foldl_nil, step]
  cases hw : s.w <;> simp [wStart, wRet, wEnd, svPrepared, hw, h]

/-! ## The claim is false without the proviso -/

/-- Configured and activated. -/
def up : List Act := [.fCall .configure, .fStopped, .fRet .success, .fCall .activate, .fRet .success]

/-- One accepted trigger whose `update` was called. -/
def cycle : List Act := [.rtCheck, .rtTrigger, .wStart]

/-- Deactivated by the real-time thread. -/
def down : List Act := [.fCall .deactivate, .fRet .success]

/-- Decides the claim on a history. -/
def claimB : List Ev → Bool
  | [] => true
  | e :: t =>
    (match e with
      | .updCall => inside t == none && stateOf t == .active
      | .cbCall _ => !updating t
      | .released => !updating t
      | _ => true) && claimB t

theorem claimB_iff : ∀ l, Claim l ↔ claimB l = true
  | [] => by simp [Claim, claimB, Always.nil]
  | e :: t => by
    have ih := claimB_iff t
    unfold Claim at ih ⊢
    rw [Always.cons_iff, ih]
    cases e <;> simp [claimB]

/-- **A deactivation by the real-time thread overlaps `update`.** The worker is inside `update`; the hardware answers
`read` with ERROR and the real-time thread deactivates the controller (as it does with the controllers of a failed
hardware, of a failed chain, and of fallback lists): `on_deactivate` runs, and the interfaces are taken away, while
`update` runs. -/
theorem C62_claim_fails_deactivation : ¬ Claim (run (up ++ cycle ++ down)).log := by
  rw [claimB_iff]; decide +kernel

/-- **So does the deactivation that answers an ERROR of the controller itself**: the very trigger that reports the ERROR
of the previous `update` starts the next one. -/
theorem C62_claim_fails_error :
    ¬ Claim (run (up ++ cycle ++ [.wRet .error, .wEnd, .rtCheck, .rtTrigger, .wStart] ++ down)).log ∧
    .got .error true ∈ (run (up ++ cycle ++ [.wRet .error, .wEnd, .rtCheck, .rtTrigger, .wStart] ++ down)).log := by
  rw [claimB_iff]; decide +kernel

/-- **So does a deactivation that `switch_controller` announced**, when the announcement fell between the real-time
thread's test of the flag and its trigger: `prepare_for_deactivation` found no cycle in progress and returned. -/
theorem C62_claim_fails_raced :
    ¬ Claim (run (up ++ [.rtCheck, .svPrepare, .svPrepared, .rtTrigger, .wStart] ++ down)).log ∧
    .prepared ∈ (run (up ++ [.rtCheck, .svPrepare, .svPrepared, .rtTrigger, .wStart] ++ down)).log := by
  rw [claimB_iff]; decide +kernel

/-- **An INACTIVE controller can be updated**: the trigger was accepted before the deactivation and is served after
it, when the controller has no interfaces any more. -/
theorem C62_update_while_inactive :
    ∃ acts older, (run acts).log = .updCall :: older ∧ stateOf older = .inactive ∧ loaned older = false :=
  ⟨up ++ [.rtCheck, .rtTrigger] ++ down ++ [.wStart], (run (up ++ [.rtCheck, .rtTrigger] ++ down)).log,
    by decide +kernel⟩

/-- **A controller whose clean-up failed stays INACTIVE without a thread**, can be activated, and then throws at every
trigger. -/
theorem C62_throws_after_failed_cleanup :
    ∃ acts, .threw ∈ (run acts).log ∧ stateOf (run acts).log = .active :=
  ⟨[.fCall .configure, .fStopped, .fRet .success, .fCall .cleanup, .fStopped, .fRet .failure, .fCall .activate,
    .fRet .success, .rtCheck, .rtTrigger], by decide +kernel⟩

/-! ## The hypotheses are met -/

/-- An announced deactivation that raced with nothing, and what follows it: orderly, with two updates, a missed trigger, a
skipped one, and a second activation. -/
def calm : List Act :=
  up ++ cycle ++ [.rtCheck, .rtTrigger, .svPrepare, .rtCheck, .wRet .ok, .wEnd, .svPrepared, .rtCheck] ++ down ++
    [.fCall .activate, .fRet .success] ++ cycle ++ [.wRet .error, .wEnd]

/-- Decides orderliness. -/
def orderlyB : List Ev → Bool
  | [] => true
  | e :: t => (e != .cbCall (.cb .deactivate) || !cycleOpen t) && orderlyB t

theorem orderlyB_iff : ∀ l, Orderly l ↔ orderlyB l = true
  | [] => by simp [Orderly.nil, orderlyB]
  | e :: t => by
    rw [Orderly.cons_iff, orderlyB_iff t]
    by_cases he : e = .cbCall (.cb .deactivate) <;> simp [orderlyB, he]

example : Orderly (run calm).log := by rw [orderlyB_iff]; decide +kernel
example : .cbRet (.cb .deactivate) .failure ∉ (run calm).log ∧ .got .ok false ∈ (run calm).log ∧
    .skipped ∈ (run calm).log ∧ (run calm).log.count .updCall = 2 ∧ .updRet .error ∈ (run calm).log := by
  decide +kernel
example : Claim (run calm).log := (C62_orderly_partial calm (by rw [orderlyB_iff]; decide +kernel)).1

/-- The announcement of `calm`, up to the deactivation. -/
def calmPart : List Act :=
  up ++ cycle ++ [.rtCheck, .rtTrigger, .svPrepare, .rtCheck, .wRet .ok, .wEnd, .svPrepared, .rtCheck] ++ down

example : ∃ newer mid older, (run calmPart).log = newer ++ .prepared :: mid ++ .prepBegin :: older ∧
    midTrigger (mid ++ .prepBegin :: older) = false ∧ .cbCall (.cb .activate) ∉ newer ++ mid ∧
    .cbCall (.cb .deactivate) ∈ newer ∧ .updRet .ok ∈ mid :=
  ⟨(run calmPart).log.take 5, ((run calmPart).log.drop 6).take 3, (run calmPart).log.drop 10, by decide +kernel⟩

example : (run (up ++ cycle ++ [.fCall .shutdown])).f = .stopping (.cb .shutdown) := by decide +kernel
example : (run (up ++ cycle ++ [.svPrepare])).waiting = true := by decide +kernel
example : ∃ older, (run (up ++ cycle ++ [.wRet .error, .wEnd, .rtCheck, .rtTrigger])).log = .got .error true :: older :=
  ⟨(run (up ++ cycle ++ [.wRet .error, .wEnd, .rtCheck])).log, by decide +kernel⟩

end Verif.ACtl
