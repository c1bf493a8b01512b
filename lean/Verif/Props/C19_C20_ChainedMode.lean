import Verif.CM.ChainReq
import Verif.CM.Hist
import Verif.Props.C14_C18_Switch
/-!
# C19, C20: chained mode
-/
namespace Verif
open CM

/-! ## C19 -/

/-- **C19 (when is a controller asked to change its chained mode).** In every history, `set_chained_mode` reaches a
controller only while the controller is not active, and the chained mode the controller is in is the one it
accepted last (not chained when it has accepted none since it was loaded). -/
theorem C19_asked_only_while_not_active (o : Oracle) (cm : CM) (hr : Reach o cm) (n : Name) :
    (∀ post v acc pre, cm.rm.tr = post ++ .ctlChained n v acc :: pre → ctlLc n pre ≠ .active) ∧
    (∀ b, cm.chainedMode n = some b → b = chainedOf n cm.rm.tr) := by
  have T := hr.inv.sys.trace
  refine ⟨?_, ?_⟩
  · intro post v acc pre h
    have ok : CtlTraceOk cm.rm.tr := T.ok
    rw [h] at ok
    clear h
    induction post with
    | nil =>
      obtain ⟨h, _⟩ := ok
      simp only [CtlEvOk] at h
      rcases h with h | h | h <;> rw [h] <;> simp
    | cons e t ih => exact ih ok.2
  · intro b hb
    unfold CM.chainedMode at hb
    cases hc : cm.find n with
    | none => simp [hc] at hb
    | some c =>
      simp [hc] at hb
      rw [← hb]
      exact (T.ch n c.core (by rw [abs_k, hc]; rfl)).symm

/-- **C19 (chained mode does not change while active).** If a controller is active and an operation makes no lifecycle
transition of it, its chained mode is the same afterwards. -/
theorem C19_constant_while_active (o : Oracle) (cm : CM) (hr : Reach o cm) (op : CM.Op) (n : Name)
    (ha : cm.lcOf n = some .active) (es : List Ev) (hes : (cm.step o op).rm.tr = es ++ cm.rm.tr)
    (hno : ∀ e ∈ es, (∀ cb a, e ≠ .ctlCb n cb a) ∧ (∀ a, e ≠ .ctlErr n a)) (hl : (cm.step o op).lcOf n ≠ none) :
    (cm.step o op).chainedMode n = cm.chainedMode n := by
  have hr' := hr.step op
  obtain ⟨h1, h2⟩ := C19_asked_only_while_not_active o _ hr' n
  obtain ⟨_, k2⟩ := C19_asked_only_while_not_active o _ hr n
  have get : ∀ x : CM, x.lcOf n ≠ none → ∃ b, x.chainedMode n = some b := by
    intro x hx
    unfold CM.lcOf at hx
    unfold CM.chainedMode
    cases h : x.find n with
    | none => simp [h] at hx
    | some c => exact ⟨c.chained, rfl⟩
  obtain ⟨b', hb'⟩ := get _ hl
  obtain ⟨b, hb⟩ := get cm (by rw [ha]; simp)
  rw [hb, hb', h2 b' hb', k2 b hb]
  have hlc : ctlLc n cm.rm.tr = .active := by
    unfold CM.lcOf at ha
    cases h : cm.find n with
    | none => simp [h] at ha
    | some c =>
      simp [h] at ha
      exact (hr.inv.sys.trace.lc n c.core (by rw [abs_k, h]; rfl)).trans ha
  rw [hes] at h1 ⊢
  clear hes
  congr 1
  have key : ∀ es : List Ev, (∀ e ∈ es, (∀ cb a, e ≠ .ctlCb n cb a) ∧ (∀ a, e ≠ .ctlErr n a)) →
      (∀ post v acc pre, es ++ cm.rm.tr = post ++ .ctlChained n v acc :: pre → ctlLc n pre ≠ .active) →
      chainedOf n (es ++ cm.rm.tr) = chainedOf n cm.rm.tr ∧ ctlLc n (es ++ cm.rm.tr) = .active := by
    intro es
    induction es with
    | nil => intro _ _; exact ⟨rfl, hlc⟩
    | cons e t ih =>
      intro hno hch
      obtain ⟨i1, i2⟩ := ih (fun e he => hno e (by simp [he]))
        (fun post v acc pre h => hch (e :: post) v acc pre (by simp [h]))
      have hne : e.ctlName ≠ some n ∨ ∃ a, e = .ctlUpdate n a := by
        cases e with
        | ctlCb m cb a => left; simp only [Ev.ctlName]; intro h; simp at h; subst h; exact ((hno _ (by simp)).1 cb a rfl)
        | ctlErr m a => left; simp only [Ev.ctlName]; intro h; simp at h; subst h; exact ((hno _ (by simp)).2 a rfl)
        | ctlChained m v acc =>
          left; simp only [Ev.ctlName]; intro h; simp at h; subst h
          exact hch [] v acc (t ++ cm.rm.tr) rfl i2
        | ctlUpdate m a =>
          by_cases h : m = n
          · subst h; exact .inr ⟨a, rfl⟩
          · left; simp [Ev.ctlName, h]
        | _ => left; simp [Ev.ctlName]
      rcases hne with hne | ⟨a, rfl⟩
      · exact ⟨by rw [List.cons_append, chainedOf_cons_other hne, i1], by rw [List.cons_append, ctlLc_cons_other hne, i2]⟩
      · exact ⟨by simpa [chainedOf] using i1, by simpa [ctlLc] using i2⟩
  exact (key es hno h1).1

/-- The demo robot with the chain 200 → 100 running. -/
def chainRunning : CM := demo goodOracle (switchOps [100, 200] [] .strict)

/-- The hypotheses are met: 100 is active and in chained mode while `read` and `update` run. -/
example : chainRunning.lcOf 100 = some .active ∧ chainRunning.chainedMode 100 = some true ∧
    (chainRunning.step goodOracle (.update (fun _ => true) true)).rm.tr =
      [.ctlUpdate 100 (.ret .ok), .ctlUpdate 200 (.ret .ok)] ++ chainRunning.rm.tr := by
  refine ⟨by decide, by decide, ?_⟩
  simp only [chainRunning]; rfl

/-- **C19 (a controller that stops leaves chained mode).** Whatever operation stops an active controller (a switch, a
failed update of itself or of a controller of its chain, a hardware error) leaves it out of chained mode.
Not covered (`_partial`): a controller that refuses to leave chained mode, `shutdown_controllers`
(`C19_shutdown_keeps_chained_mode`), and a controller that the running switch restarts in order to put it *into*
chained mode (`C19_failed_restart_keeps_chained_mode`). -/
theorem C19_stopped_leaves_chained_mode_partial (o : Oracle) (cm : CM) (hr : Reach o cm) (op : CM.Op)
    (hop : op ≠ .shutdown) (n : Name) (hacc : ∀ t, o.ctlChained t n false = true) (ht : n ∉ cm.sw.toCh)
    (ha : cm.lcOf n = some .active) (hb : (cm.step o op).lcOf n ≠ some .active) :
    (cm.step o op).chainedMode n ≠ some true := by
  have I := hr.inv
  have I' : Inv (cm.step o op) := inv_step o I op
  -- a frame argument for the operations that do not touch `n`
  have frame : (cm.step o op).abs.k n = cm.abs.k n → False := by
    intro h
    apply hb
    have hlc : ∀ x : CM, x.lcOf n = (x.abs.k n).map (·.lc) := by
      intro x; unfold CM.lcOf; rw [abs_k]; cases x.find n <;> rfl
    rw [hlc, h, ← hlc]; exact ha
  have viaUnch : Unch n cm (cm.step o op) → (cm.step o op).chainedMode n ≠ some true := by
    intro h hch
    unfold CM.chainedMode at hch
    cases hf : (cm.step o op).find n with
    | none => simp [hf] at hch
    | some c =>
      simp [hf] at hch
      cases hcc : c.chainable with
      | false =>
        have := I'.sys.trace.plain n c.core (by rw [abs_k, hf]; rfl) hcc
        have e : c.core.chained = c.chained := rfl
        rw [e, hch] at this; simp at this
      | true =>
        have hst : cm.Chbl n := by
          by_contra hx
          unfold Chbl at hx
          push Not at hx
          obtain ⟨d, hd, hdc⟩ := hx
          have hdu : cm.Unchained n := by
            intro e he
            rw [hd] at he; simp at he; subst he
            exact I.sys.trace.plain n d.core (by rw [abs_k, hd]; rfl) (show d.chainable = false by simpa using hdc)
          have := h.unch hdu c hf
          rw [hch] at this; simp at this
        have hj : cm.ActOrUnch n := by
          intro d hd
          left
          unfold CM.lcOf at ha; rw [hd] at ha; simpa using ha
        rcases h.aou hst hj c hf with h | h
        · apply hb; unfold CM.lcOf; rw [hf]; simp [h]
        · rw [hch] at h; simp at h
  have actn : ∀ c, cm.find n = some c → c.lc = .active := by
    intro c hc; unfold CM.lcOf at ha; rw [hc] at ha; simpa using ha
  have fnd : ∃ c, cm.find n = some c := by
    unfold CM.lcOf at ha
    cases h : cm.find n with
    | none => simp [h] at ha
    | some c => exact ⟨c, rfl⟩
  obtain ⟨c0, hc0⟩ := fnd
  have hl0 := actn c0 hc0
  cases op with
  | load m ch as cfg fb =>
    exfalso
    by_cases e : m = n
    · subst e
      apply frame
      simp only [CM.step, CM.load, hc0]
      split
      · rfl
      · split <;> rfl
    · exact frame ((load_ok o cm m ch as cfg fb I).1.frame (fun h => e h.symm))
  | configure m cfg ord r =>
    exfalso
    by_cases e : m = n
    · subst e
      apply frame
      simp only [CM.step, CM.configure, hc0, hl0, true_or, if_true]
      split <;> rfl
    · exact frame ((configure_ok o cm m cfg ord r I).1.frame (fun h => e h.symm))
  | cleanup m =>
    exfalso
    by_cases e : m = n
    · subst e
      apply frame
      simp only [CM.step, CM.cleanup, hc0, hl0]
      split <;> rfl
    · exact frame ((Fwd.cleanup o cm m).steps.frame (fun h => e h.symm))
  | unload m =>
    exfalso
    by_cases e : m = n
    · subst e
      apply frame
      simp only [CM.step, CM.unload, hc0, hl0, if_true]
      split <;> rfl
    · exact frame ((unload_ok o cm m I).1.frame (fun h => e h.symm))
  | switchBegin a d s asap =>
    exfalso
    apply frame
    simp only [CM.step]
    split
    · rfl
    · exact (Fwd.switchBegin o cm a d s asap I.sys).steps.frame (fun h => h)
  | switchWake =>
    apply viaUnch
    simp only [CM.step]
    unfold CM.switchWake
    split
    · exact .refl _ _
    split
    · split
      · exact .refl _ _
      · exact Unch.switchFinish n cm
    · split
      · exact (Unch.manageSwitch o n hacc cm ht).trans (Unch.switchFinish n _)
      · exact .refl _ _
  | switchTimeout =>
    exfalso
    exact frame ((Fwd.switchTimeout o Nobody cm).steps.frame (fun h => h))
  | read s => exact viaUnch (Unch.rtRead o n hacc s cm)
  | update due lock => exact viaUnch (Unch.rtUpdate o n hacc due lock cm (fun _ => ht))
  | write s => exact viaUnch (Unch.rtWrite o n hacc s cm)
  | setHw h t =>
    exfalso
    exact frame ((Fwd.setHw o Nobody cm h t I.sys).steps.frame (fun h => h))
  | shutdown => exact absurd rfl hop

/-- The hypotheses are met: 100 is in chained mode and active, and the requested switch stops it. -/
example :
    let cm := CM.run goodOracle chainRunning [.switchBegin [] [100, 200] .strict true]
    (100 ∉ cm.sw.toCh) ∧ cm.lcOf 100 = some .active ∧ cm.chainedMode 100 = some true ∧
    (cm.step goodOracle (.update (fun _ => true) true)).lcOf 100 = some .inactive ∧
    (cm.step goodOracle (.update (fun _ => true) true)).chainedMode 100 = some false := by
  decide

/-- `shutdown_controllers` deactivates and shuts down without taking a controller out of chained mode. -/
theorem C19_shutdown_keeps_chained_mode :
    ∃ cm, Reach goodOracle cm ∧ cm.lcOf 100 = some .active ∧ (cm.step goodOracle .shutdown).lcOf 100 = some .finalized ∧
      (cm.step goodOracle .shutdown).chainedMode 100 = some true :=
  ⟨chainRunning, demo_reach _ _, by decide, by decide, by decide⟩

/-- 100 refuses its second activation. -/
def refuseSecond : Oracle :=
  { goodOracle with ctlCb := fun t n cb =>
      if n = 100 ∧ cb = .activate ∧ (t.any fun e => match e with | .ctlCb 100 .activate _ => true | _ => false) then .failure
      else .success }

/-- A controller restarted in order to enter chained mode whose activation fails stays INACTIVE in chained mode
(with STRICT the activated controllers are deactivated again, but 100 is not active and is passed over). -/
theorem C19_failed_restart_keeps_chained_mode :
    ∃ cm op, Reach refuseSecond cm ∧ cm.lcOf 100 = some .active ∧ cm.chainedMode 100 = some false ∧
      (∀ t, refuseSecond.ctlChained t 100 false = true) ∧
      (cm.step refuseSecond op).lcOf 100 = some .inactive ∧ (cm.step refuseSecond op).chainedMode 100 = some true :=
  ⟨demo refuseSecond (switchOps [100] [] .strict ++ [.switchBegin [200] [] .strict true]), .update (fun _ => true) true,
    demo_reach _ _, by decide, by decide, fun _ => rfl, by decide, by decide⟩

/-! ## C20 -/

theorem updateLoop_ok (o : Oracle) (due : Name → Bool) (l : List Ctl) : ∀ (cm : CM) (d : List Name) (r : Ret),
    (CM.updateLoop o due l cm d r).2.2 = .ok → (CM.updateLoop o due l cm d r).2.1 = d ∧ r = .ok := by
  induction l with
  | nil => intro cm d r h; exact ⟨rfl, h⟩
  | cons c t ih =>
    intro cm d r h
    unfold CM.updateLoop at h ⊢
    split
    · rename_i h1
      rw [if_pos h1] at h
      revert h
      extract_lets a cm1
      clear_value a cm1
      intro h
      cases a with
      | ret e =>
        cases e with
        | ok => exact ih _ _ _ h
        | error => have := (ih _ _ _ h).2; simp at this
        | deactivate => have := (ih _ _ _ h).2; simp at this
      | throws => have := (ih _ _ _ h).2; simp at this
    · rename_i h1
      rw [if_neg h1] at h
      exact ih _ _ _ h

/-- One name of a list of deactivated controllers leaves chained mode. -/
theorem CM.deactivateOne_unchained (o : Oracle) (n : Name) (hacc : ∀ t, o.ctlChained t n false = true)
    (hstop : ∀ t, o.ctlCb t n .deactivate ≠ .failure) (cm : CM) (hch : cm.Chbl n) (hj : cm.ActOrUnch n) :
    (cm.deactivateOne o n).Unchained n := by
  unfold CM.deactivateOne
  split
  · rename_i h; intro c hc; rw [h] at hc; simp at hc
  rename_i c hc
  split
  swap
  · rename_i hl
    intro d hd
    rcases hj d hd with h | h
    · rw [hc] at hd; simp at hd; subst hd; exact absurd h hl
    · exact h
  rename_i hl
  rw [if_pos (hch c hc)]
  apply (Unch.exportsTry n _ n).unch
  refine setChained_unch o _ n hacc ?_ ?_
  · intro d hd
    obtain ⟨g, hg, _, h2, _⟩ := find_trigger o cm n .deactivate
    rw [find_release, hg, hc] at hd
    simp at hd
    rw [← hd]; show (g c).chainable = true
    rw [h2]; exact hch c hc
  · have hrel : ∀ x : CM, (x.releaseItfs n).lcOf n = x.lcOf n := by
      intro x; unfold CM.lcOf; rw [find_release]; cases x.find n <;> simp
    rw [hrel, lcOf_trigger o hc .deactivate (by rw [hl]; rfl)]
    have := hstop cm.rm.tr
    cases h : o.ctlCb cm.rm.tr n .deactivate
    · simp [CtlCb.onSuccess]
    · exact absurd h this
    · simp only; split <;> simp
    · simp only; split <;> simp

theorem CM.deactivateAll_unchained (o : Oracle) (n : Name) (hacc : ∀ t, o.ctlChained t n false = true)
    (hstop : ∀ t, o.ctlCb t n .deactivate ≠ .failure) (l : List Name) : ∀ cm : CM, n ∈ l → cm.Chbl n → cm.ActOrUnch n →
    (cm.deactivateAll o l).Unchained n := by
  induction l with
  | nil => intro cm h; simp at h
  | cons m t ih =>
    intro cm hm hch hj
    unfold CM.deactivateAll
    simp only [List.foldl_cons]
    have U := Unch.deactivateOne o n hacc cm m
    by_cases e : n = m
    · subst e
      exact (Unch.deactivateAll o n hacc _ t).unch (CM.deactivateOne_unchained o n hacc hstop cm hch hj)
    · exact ih _ (by simpa [e] using hm) (U.chbl hch) (U.aou hch hj)

/-- While the accepted request waits, a controller that is not to enter chained mode is active or has left it. -/
theorem CM.WaitsThrough.unch {o : Oracle} {n : Name} (hacc : ∀ t, o.ctlChained t n false = true) :
    ∀ (ops : List CM.Op) {cm : CM}, Inv cm → cm.WaitsThrough o ops → CM.Op.shutdown ∉ ops → n ∉ cm.sw.toCh →
    Unch n cm (CM.run o cm ops) := by
  intro ops
  induction ops with
  | nil => intro cm _ _ _ _; exact .refl _ _
  | cons op t ih =>
    intro cm I h hs ht
    have h0 : cm.pending = true := h 0 (by simp)
    have h1 : (cm.step o op).pending = true := h 1 (by simp)
    obtain ⟨⟨d, r, e, _⟩, _⟩ := step_pending o I op h0 h1
    refine Unch.trans ?_ (ih (cm := cm.step o op) (inv_step o I op) (fun k hk => h (k + 1) (by simpa using hk))
      (fun hx => hs (by simp [hx])) (by rw [e]; exact ht))
    cases op with
    | load => simp only [CM.step, CM.load, h0, if_true]; exact .refl _ _
    | configure => simp only [CM.step, CM.configure, h0, if_true]; exact .refl _ _
    | cleanup => simp only [CM.step, CM.cleanup, h0, if_true]; exact .refl _ _
    | unload => simp only [CM.step, CM.unload, h0, if_true]; exact .refl _ _
    | switchBegin => simp only [CM.step, h0, if_true]; exact .refl _ _
    | switchWake =>
      simp only [CM.step]
      unfold CM.switchWake
      split
      · exact .refl _ _
      split
      · split
        · exact .refl _ _
        · exact Unch.switchFinish n cm
      · split
        · exact (Unch.manageSwitch o n hacc cm ht).trans (Unch.switchFinish n _)
        · exact .refl _ _
    | switchTimeout => simp [CM.step, CM.switchTimeout, h0, CM.clear] at h1
    | read s => exact Unch.rtRead o n hacc s cm
    | update due lock => exact Unch.rtUpdate o n hacc due lock cm (fun _ => ht)
    | write s => exact Unch.rtWrite o n hacc s cm
    | setHw => simp only [CM.step, CM.setHw, h0, if_true]; exact .refl _ _
    | shutdown => exact absurd (by simp) hs

/-- **C20.** A STRICT request was accepted that stops `p`, which uses an interface of the running controller `f`; no
controller that is not stopped uses (or could ask for) an interface of `f`. Then the operation that stops `p` (the
`update` of the real-time loop that performs the switch, or the call itself) leaves `f` out of chained mode.
Assumed of `f`: it agrees to leave chained mode and its `on_deactivate` does not answer FAILURE.
Partial: BEST_EFFORT does not guarantee this (`C20_best_effort_leaves_chained_mode_on`). -/
theorem C20_left_when_feeder_stops_partial (o : Oracle) (cm : CM) (hr : Reach o cm) (hidle : cm.pending = false)
    (act deact : List Name) (asap : Bool) (hw : (cm.switchBegin o act deact .strict asap).2 = .wait)
    (p f : Ctl) (hp : cm.find p.name = some p) (hpd : p.name ∈ deact)
    (hf : cm.find f.name = some f) (hfl : f.lc = .active) (hfc : f.chainable = true)
    (huse : ∃ i ∈ cm.cmdItfs p ++ cm.stateItfs p, i.pre = f.name)
    (hno : ∀ d ∈ cm.ctls, d.name ∉ deact → ¬ d.mayUse f.name)
    (hacc : ∀ t, o.ctlChained t f.name false = true) (hstop : ∀ t, o.ctlCb t f.name .deactivate ≠ .failure)
    (ops : List CM.Op) (hwait : (cm.switchBegin o act deact .strict asap).1.WaitsThrough o ops)
    (hsd : CM.Op.shutdown ∉ ops) (op : CM.Op)
    (hop : op = .switchWake ∨ ∃ due lock, op = .update due lock ∧
      ((CM.run o (cm.switchBegin o act deact .strict asap).1 ops).rtUpdate o due lock).2 = .ok)
    (h1 : (CM.run o (cm.switchBegin o act deact .strict asap).1 ops).lcOf p.name = some .active)
    (h2 : ((CM.run o (cm.switchBegin o act deact .strict asap).1 ops).step o op).lcOf p.name ≠ some .active) :
    ((CM.run o (cm.switchBegin o act deact .strict asap).1 ops).step o op).chainedMode f.name = some false := by
  have I := hr.inv
  have hnd := I.topo.names
  obtain ⟨_, key⟩ := switchBegin_chain hnd (hr.idle hidle).toCh hw
  obtain ⟨_, kt, kd⟩ := key p f (find_some hp).1 hpd (find_some hf).1 hfl huse hno
  have I' : Inv (cm.switchBegin o act deact .strict asap).1 := (Fwd.switchBegin o cm act deact .strict asap I.sys).cmInv I
  have fr : (cm.switchBegin o act deact .strict asap).1.abs.k f.name = cm.abs.k f.name :=
    (Fwd.switchBegin o cm act deact .strict asap I.sys).steps.frame (fun h => h)
  generalize (cm.switchBegin o act deact .strict asap).1 = r at *
  have rc : ∃ c, r.find f.name = some c ∧ c.lc = .active ∧ c.chainable = true := by
    rw [abs_k, abs_k, hf] at fr
    cases h : r.find f.name with
    | none => rw [h] at fr; simp at fr
    | some c =>
      rw [h] at fr
      simp only [Option.map_some, Option.some.injEq] at fr
      refine ⟨c, rfl, ?_, ?_⟩
      · have := congrArg Core.lc fr; exact this.trans hfl
      · have := congrArg Core.chainable fr; exact this.trans hfc
  obtain ⟨c, hc, hcl, hcc⟩ := rc
  have hch : r.Chbl f.name := by intro d hd; rw [hc] at hd; simp at hd; subst hd; exact hcc
  have hj : r.ActOrUnch f.name := by intro d hd; rw [hc] at hd; simp at hd; subst hd; exact .inl hcl
  have U := CM.WaitsThrough.unch hacc ops I' hwait hsd kt
  obtain ⟨⟨dd, rr, e⟩, nm⟩ := CM.WaitsThrough.keep ops I' hwait
  have J : Inv (CM.run o r ops) := inv_run o I' ops
  have hpend : (CM.run o r ops).pending = true := by
    have := hwait ops.length (Nat.le_refl _)
    rwa [List.take_length] at this
  have hxch := U.chbl hch
  have hxj := U.aou hch hj
  have hxload : ∃ d, (CM.run o r ops).find f.name = some d := by
    have : f.name ∈ (CM.run o r ops).ctls.map (·.name) := by
      rw [nm]; exact List.mem_map.2 ⟨c, (find_some hc).1, (find_some hc).2⟩
    obtain ⟨d, hd, hdn⟩ := List.mem_map.1 this
    exact ⟨d, (find_iff J.topo.names).2 ⟨hd, hdn⟩⟩
  generalize CM.run o r ops = x at *
  have xt : f.name ∉ x.sw.toCh := by rw [e]; exact kt
  have xd : f.name ∈ x.sw.deact := by rw [e]; exact kd
  -- the switch itself
  have manage : ∀ y : CM, y.sw = x.sw → y.Chbl f.name → y.ActOrUnch f.name →
      (y.manageSwitch o).lcOf p.name ≠ y.lcOf p.name → (y.manageSwitch o).Unchained f.name := by
    intro y hy hch hj hne
    unfold CM.manageSwitch at hne ⊢
    split
    · rename_i h; rw [h] at hne; exact absurd rfl hne
    · rename_i rm1 h
      have U0 : Unch f.name y { y with rm := rm1 } := Unch.rm _ _ _
      have u1 := CM.deactivateAll_unchained o f.name hacc hstop y.sw.deact { y with rm := rm1 } (by rw [hy]; exact xd)
        (U0.chbl hch) (U0.aou hch hj)
      have u2 := (Unch.switchChained o f.name _ y.sw.toCh true (.inr (by rw [hy]; exact xt))).unch u1
      have u3 := (Unch.switchChained o f.name _ y.sw.fromCh false (.inl rfl)).unch u2
      exact (Unch.activateAll o f.name hacc _ y.sw.act y.sw.strict).unch u3
  have goal : (x.step o op).Unchained f.name := by
    rcases hop with rfl | ⟨due, lock, rfl, hok⟩
    · simp only [CM.step] at h2 ⊢
      unfold CM.switchWake at h2 ⊢
      have lf : ∀ y : CM, y.switchFinish.1.lcOf p.name = y.lcOf p.name := by
        intro y; unfold CM.lcOf; rw [find_switchFinish]; cases y.find p.name <;> rfl
      split
      · rename_i h; rw [hpend] at h; simp at h
      rename_i g1
      rw [if_neg g1] at h2
      split
      · rename_i g2
        rw [if_pos g2] at h2
        split
        · rename_i g3; rw [if_pos g3] at h2; exact absurd h1 h2
        · rename_i g3
          rw [if_neg g3] at h2
          simp only at h2
          rw [lf] at h2; exact absurd h1 h2
      · rename_i g2
        rw [if_neg g2] at h2
        split
        · rename_i g3
          rw [if_pos g3] at h2
          simp only at h2 ⊢
          rw [lf] at h2
          exact (Unch.switchFinish f.name _).unch (manage x rfl hxch hxj (by rw [h1]; exact h2))
        · rename_i g3; rw [if_neg g3] at h2; exact absurd h1 h2
    · simp only [CM.step] at h2 ⊢
      unfold CM.rtUpdate at h2 hok ⊢
      revert h2 hok
      extract_lets q cm1 _ cm2
      intro hok h2
      have hq : q.2.1 = [] := (updateLoop_ok o due x.ctls x [] .ok hok).1
      have hpush : ∃ es, q.1 = { x with rm := { x.rm with tr := es ++ x.rm.tr } } := updateLoop_push o due x.ctls x [] .ok
      obtain ⟨es, hes⟩ := hpush
      have h1' : cm1 = { x with rm := { x.rm with tr := es ++ x.rm.tr } } := by
        simp only [cm1, CM.handleFailed, hq, if_true]; exact hes
      have hlc : cm1.lcOf p.name = x.lcOf p.name := by rw [h1']; rfl
      have hsw : cm1.sw = x.sw := by rw [h1']
      have U1 : Unch f.name x cm1 := by rw [h1']; exact Unch.rm _ _ _
      clear_value cm1
      simp only [cm2] at h2 ⊢
      split
      · rename_i g1
        rw [if_pos g1] at h2
        split
        · rename_i g2
          rw [if_pos g2] at h2
          split
          · rename_i g3
            rw [if_pos g3] at h2
            exact manage cm1 hsw (U1.chbl hxch) (U1.aou hxch hxj) (by rw [hlc, h1]; exact h2)
          · rename_i g3; rw [if_neg g3] at h2; rw [hlc] at h2; exact absurd h1 h2
        · rename_i g2
          rw [if_neg g2] at h2
          exact absurd (hlc.trans h1) h2
      · rename_i g1
        rw [if_neg g1] at h2
        rw [hlc] at h2; exact absurd h1 h2
  -- `f` is still loaded
  have names : (x.step o op).ctls.map (·.name) = x.ctls.map (·.name) := by
    rcases hop with rfl | ⟨due, lock, rfl, _⟩
    · exact names_of_stat (Fwd.switchWake o x J).stat
    · exact names_of_stat (Fwd.rtUpdate o due lock x J).stat
  obtain ⟨d, hd⟩ := hxload
  have : f.name ∈ (x.step o op).ctls.map (·.name) := by
    rw [names]; exact List.mem_map.2 ⟨d, (find_some hd).1, (find_some hd).2⟩
  obtain ⟨d', hd', hdn'⟩ := List.mem_map.1 this
  have hfin : (x.step o op).find f.name = some d' := (find_iff (inv_step o J op).topo.names).2 ⟨hd', hdn'⟩
  unfold CM.chainedMode
  rw [hfin]
  simp [goal d' hfin]

/-- The hypotheses are met: 400 drives 100, 200 is only loaded; stopping both 200's sibling and nothing else. -/
example :
    let cm := demo goodOracle (switchOps [100, 400] [] .strict ++ [.unload 200])
    let r := (cm.switchBegin goodOracle [] [400] .strict true).1
    cm.pending = false ∧ (cm.switchBegin goodOracle [] [400] .strict true).2 = .wait ∧
    cm.chainedMode 100 = some true ∧ cm.lcOf 100 = some .active ∧ r.lcOf 400 = some .active ∧
    (r.rtUpdate goodOracle (fun _ => true) true).2 = .ok ∧
    (r.step goodOracle (.update (fun _ => true) true)).lcOf 400 = some .inactive ∧
    (r.step goodOracle (.update (fun _ => true) true)).lcOf 100 = some .active ∧
    (r.step goodOracle (.update (fun _ => true) true)).chainedMode 100 = some false := by
  decide

/-- No other controller of that robot could ask for an interface of 100. -/
example : ∀ d ∈ (demo goodOracle (switchOps [100, 400] [] .strict ++ [.unload 200])).ctls, d.name ∉ [400] → ¬ d.mayUse 100 := by
  have e : (demo goodOracle (switchOps [100, 400] [] .strict ++ [.unload 200])).ctls.map (fun d => (d.name, d.cfg)) =
      [(400, plainCfg [⟨100, 0⟩] []), (100, cfg100), (300, plainCfg [⟨20, 0⟩] [⟨10, 1⟩])] := rfl
  intro d hd hn
  have : (d.name, d.cfg) ∈ [(400, plainCfg [⟨100, 0⟩] []), (100, cfg100), (300, plainCfg [⟨20, 0⟩] [⟨10, 1⟩])] := by
    rw [← e]; exact List.mem_map.2 ⟨d, hd, rfl⟩
  rintro ⟨aC, aS, i, hi, hp⟩
  simp only [List.mem_cons, Prod.mk.injEq, List.not_mem_nil, or_false] at this
  rcases this with ⟨h, _⟩ | ⟨_, h⟩ | ⟨_, h⟩
  · exact hn (by simp [h])
  · rw [h] at hi; simp [cfg100, ItfCfg.resolve] at hi; subst hi; simp at hp
  · rw [h] at hi; simp [plainCfg, ItfCfg.resolve] at hi; rcases hi with rfl | rfl <;> simp at hp

/-- With BEST_EFFORT the claim is false: a requested controller that is not active (200) ends the search for the
controllers that leave chained mode (the `break` in `propagate_deactivation_of_chained_mode`), so that 100 stays in
chained mode, running, although nobody feeds it any more. The call answers OK. -/
theorem C20_best_effort_leaves_chained_mode_on :
    ∃ cm, Reach goodOracle cm ∧ cm.lcOf 400 = some .active ∧ cm.chainedMode 100 = some true ∧
      (cm.switchBegin goodOracle [] [200, 400] .bestEffort true).2 = .wait ∧
      let r := CM.run goodOracle (cm.switchBegin goodOracle [] [200, 400] .bestEffort true).1 [.update (fun _ => true) true]
      (r.switchWake goodOracle).2 = some .ok ∧
      (r.switchWake goodOracle).1.lcOf 400 = some .inactive ∧ (r.switchWake goodOracle).1.lcOf 200 = some .inactive ∧
      (r.switchWake goodOracle).1.lcOf 100 = some .active ∧ (r.switchWake goodOracle).1.chainedMode 100 = some true :=
  ⟨demo goodOracle (switchOps [100, 400] [] .strict), demo_reach _ _, by decide⟩

/-- The converse of C20 fails even for STRICT: restarting the feeding controller (deactivate and activate it in the
same request) takes the following controller out of chained mode, and it is not put back: 200 is active again and
holds the reference interface, while 100 runs on its own references. -/
theorem C20_restart_of_feeder_unchains :
    ∃ cm, Reach goodOracle cm ∧ cm.chainedMode 100 = some true ∧ cm.heldBy 200 = some [⟨100, 0⟩] ∧
      (cm.switchBegin goodOracle [200] [200] .strict true).2 = .wait ∧
      let r := CM.run goodOracle (cm.switchBegin goodOracle [200] [200] .strict true).1 [.update (fun _ => true) true]
      (r.switchWake goodOracle).2 = some .ok ∧
      (r.switchWake goodOracle).1.lcOf 200 = some .active ∧ (r.switchWake goodOracle).1.heldBy 200 = some [⟨100, 0⟩] ∧
      (r.switchWake goodOracle).1.lcOf 100 = some .active ∧ (r.switchWake goodOracle).1.chainedMode 100 = some false :=
  ⟨chainRunning, demo_reach _ _, by decide⟩

end Verif
