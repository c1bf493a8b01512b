import Verif.CM.HwUse
import Verif.Props.CMDemo
import Verif.Props.C25_C26_Hardware
import Verif.Props.C06_C10_Controllers
/-!
# C27: controllers on failed hardware are stopped in the same cycle

Full statement: when `read` (`write`) fails for a hardware component, every active controller that uses any of its
interfaces is deactivated before `read` (`write`) of the controller manager returns.

This is false of the code in three ways, each shown below by a concrete history: a controller that was started as a
fallback is not recorded as a user of its hardware (`C27_fallback_not_stopped`); an interface name that is a command
interface of one component and a state interface of another is recorded for one of them only
(`C27_second_component_forgotten`); and a DEACTIVATE of one component hides the ERROR of another, after which
controllers without command interfaces go on (`C27_masked_error_not_stopped`). Outside these cases the property is
proved, up to the controller's own right to refuse: `on_deactivate` may answer FAILURE (`stopRefused`).
-/
namespace Verif
open CM

/-- No `load_controller` of the history names `n` as a fallback controller. -/
def NeverFallback (n : Name) (ops : List CM.Op) : Prop :=
  ∀ m ch as cfg fb, CM.Op.load m ch as cfg fb ∈ ops → n ∉ fb

/-- The interface `i` belongs to the component `h` and to no other. -/
def OnlyOf (rm : RM) (h : Name) (i : Itf) : Prop :=
  (∃ k ∈ rm.comps, k.name = h ∧ (i ∈ k.cmdItfs ∨ i ∈ k.stateItfs)) ∧
  ∀ k ∈ rm.comps, (i ∈ k.cmdItfs ∨ i ∈ k.stateItfs) → k.name = h

theorem OnlyOf.owner {rm : RM} {h : Name} {i : Itf} (u : OnlyOf rm h i) : rm.owner i = some h := by
  obtain ⟨⟨k, hk, rfl, hi⟩, u⟩ := u
  unfold RM.owner
  cases hx : rm.comps.find? (fun h => decide (i ∈ h.cmdItfs) || decide (i ∈ h.stateItfs)) with
  | none =>
    have := List.find?_eq_none.1 hx k hk
    simp at this
    rcases hi with hi | hi
    · exact absurd hi this.1
    · exact absurd hi this.2
  | some d =>
    have h1 := List.find?_some hx
    have h2 := List.mem_of_find?_eq_some hx
    simp at h1
    simp [u d h2 h1]

theorem users_known (o : Oracle) (n : Name) (ops : List CM.Op) : ∀ (cm : CM), CM.Inv cm → CM.Idle cm → UsersKnown n cm → ¬ cm.IsFallback n →
    NeverFallback n ops → UsersKnown n (CM.run o cm ops) := by
  induction ops with
  | nil => intro cm _ _ h _ _; exact h
  | cons op t ih =>
    intro cm I D h hf hn
    refine ih _ (inv_step o I op) (D.step o op) (h.step I D hf op) ?_ (fun m ch as cfg fb hm => hn m ch as cfg fb (by simp [hm]))
    rintro ⟨c, hc, hx⟩
    rcases step_fb o I op c hc with ⟨d, hd, e⟩ | ⟨m, ch, as, cfg, e⟩
    · exact hf ⟨d, hd, e ▸ hx⟩
    · exact hn m ch as cfg c.fallbacks (by simp [e]) hx

/-- **C27 (who is known).** In every history: a running controller that was never named as a fallback is known as a
user of the component of every interface it lists. -/
theorem C27_users_recorded (o : Oracle) (a b : Bool) (specs : List RM.HwSpec) (ops : List CM.Op) (n : Name) (hn : NeverFallback n ops)
    (c : Ctl) (hc : (CM.run o (CM.start o a b specs) ops).find n = some c) (hl : c.lc = .active) (i : Itf) (hi : c.lists i) (h : Name)
    (hh : OnlyOf (CM.run o (CM.start o a b specs) ops).rm h i) :
    n ∈ (CM.run o (CM.start o a b specs) ops).rm.usedBy h := by
  refine users_known o n ops (CM.start o a b specs) (inv_start o a b specs) ?_ ?_ ?_ hn c hc (.inl hl) i hi h hh.owner
  · intro _; exact ⟨rfl, rfl, rfl, rfl, rfl, rfl, rfl⟩
  · intro c hc; simp [CM.start, CM.init, CM.find] at hc
  · rintro ⟨c, hc, _⟩; simp [CM.start, CM.init] at hc

theorem CM.rtRead_stops (o : Oracle) (sched : Name → RM.Sched) (cm : CM) (I : CM.Inv cm) (n h : Name) (hu : n ∈ cm.rm.usedBy h)
    (hf : h ∈ (cm.rm.read o sched).2.failed) (hr : (cm.rm.read o sched).2.result ≠ .ok)
    (hs : (cm.rtRead o sched).lcOf n = some .active) : stopRefused n (cm.rtRead o sched).rm.tr = true := by
  unfold CM.rtRead at hs ⊢
  simp only [if_pos hr] at hs ⊢
  refine deactivateAll_stops o _ _ n ?_ hs
  unfold CM.cachedControllers
  exact List.mem_flatMap.2 ⟨h, hf, (RM.rmStep_read o sched I.sys.claims.rm).used h hu⟩

/-- **C27 (read).** In every history: `h` is one of the components reported as failed by the hardware `read` of this
cycle (it failed itself or with its group, C26), and `n` is a running controller that lists an interface of `h`. When
`ControllerManager::read` returns, `n` is not running, unless its `on_deactivate` answered FAILURE. -/
theorem C27_read_stops_users_partial (o : Oracle) (a b : Bool) (specs : List RM.HwSpec) (ops : List CM.Op) (n : Name) (hn : NeverFallback n ops)
    (cm : CM) (hcm : cm = CM.run o (CM.start o a b specs) ops) (c : Ctl) (hc : cm.find n = some c) (hl : c.lc = .active) (i : Itf) (hi : c.lists i)
    (h : Name) (hh : OnlyOf cm.rm h i) (sched : Name → RM.Sched) (hf : h ∈ (cm.rm.read o sched).2.failed)
    (hr : (cm.rm.read o sched).2.result ≠ .ok) :
    (cm.rtRead o sched).lcOf n ≠ some .active ∨ stopRefused n (cm.rtRead o sched).rm.tr = true := by
  by_cases hs : (cm.rtRead o sched).lcOf n = some .active
  swap
  · exact .inl hs
  right
  have I : CM.Inv cm := (show CM.Reach o cm from ⟨a, b, specs, ops, hcm⟩).inv
  subst hcm
  exact rtRead_stops o sched _ I n h (C27_users_recorded o a b specs ops n hn c hc hl i hi h hh) hf hr hs

/-- **C27 (read), in terms of the component's own answer.** -/
theorem C27_read_failure_stops_users_partial (o : Oracle) (a b : Bool) (specs : List RM.HwSpec) (ops : List CM.Op) (n : Name)
    (hn : NeverFallback n ops) (cm : CM) (hcm : cm = CM.run o (CM.start o a b specs) ops) (c : Ctl) (hc : cm.find n = some c)
    (hl : c.lc = .active) (i : Itf) (hi : c.lists i) (h : Hw) (hm : h ∈ cm.rm.comps) (hh : OnlyOf cm.rm h.name i) (sched : Name → RM.Sched)
    (es : List Ev) (hes : (cm.rm.read o sched).1.tr = es ++ cm.rm.tr) (ans : IoAns) (ha : Ev.hwIo h.name .read ans ∈ es) (hbad : ans ≠ .ret .ok) :
    (cm.rtRead o sched).lcOf n ≠ some .active ∨ stopRefused n (cm.rtRead o sched).rm.tr = true := by
  have I : CM.Inv cm := (show CM.Reach o cm from ⟨a, b, specs, ops, hcm⟩).inv
  obtain ⟨h1, h2, _⟩ := Verif.read_failure o sched cm.rm I.sys.claims.rm h hm es hes ans ha hbad
  exact C27_read_stops_users_partial o a b specs ops n hn cm hcm c hc hl i hi h.name hh sched h2 (by rw [h1]; decide)

/-- **C27 (write).** The same for `write`, if the result of the hardware `write` is ERROR, or the controller lists at
least one command interface (after DEACTIVATE only controllers with command interfaces are stopped, cm.cpp:3639-3683). -/
theorem C27_write_stops_users_partial (o : Oracle) (a b : Bool) (specs : List RM.HwSpec) (ops : List CM.Op) (n : Name) (hn : NeverFallback n ops)
    (cm : CM) (hcm : cm = CM.run o (CM.start o a b specs) ops) (c : Ctl) (hc : cm.find n = some c) (hl : c.lc = .active) (i : Itf) (hi : c.lists i)
    (h : Name) (hh : OnlyOf cm.rm h i) (sched : Name → RM.Sched) (hf : h ∈ (cm.rm.write o sched).2.failed)
    (hr : (cm.rm.write o sched).2.result = .error ∨
      ((cm.rm.write o sched).2.result = .deactivate ∧ ∃ l, c.cfg.cmd = .individual l ∧ l ≠ [])) :
    (cm.rtWrite o sched).lcOf n ≠ some .active ∨ stopRefused n (cm.rtWrite o sched).rm.tr = true := by
  by_cases hs : (cm.rtWrite o sched).lcOf n = some .active
  swap
  · exact .inl hs
  right
  have I : CM.Inv cm := (show CM.Reach o cm from ⟨a, b, specs, ops, hcm⟩).inv
  have hu : n ∈ cm.rm.usedBy h := by
    subst hcm; exact C27_users_recorded o a b specs ops n hn c hc hl i hi h hh
  have hmem : n ∈ ({ cm with rm := (cm.rm.write o sched).1 } : CM).cachedControllers (cm.rm.write o sched).2.failed := by
    unfold CM.cachedControllers
    exact List.mem_flatMap.2 ⟨h, hf, (RM.rmStep_write o sched I.sys.claims.rm).used h hu⟩
  unfold CM.rtWrite at hs ⊢
  simp only at hs ⊢
  rcases hr with hr | ⟨hr, l, hc2, hne⟩
  · simp only [hr] at hs ⊢
    exact deactivateAll_stops o _ _ n hmem hs
  · simp only [hr] at hs ⊢
    refine deactivateAll_stops o _ _ n (List.mem_filter.2 ⟨hmem, ?_⟩) hs
    have hx : ({ cm with rm := (cm.rm.write o sched).1 } : CM).find n = some c := hc
    rw [hx]
    simp only [CM.extract, CM.cmdItfs, hl, hc2, ItfCfg.resolve]
    simpa using hne

/-- **C27 (write), in terms of the component's own answer.** A component answers ERROR (or throws): every running
controller that lists one of its interfaces and at least one command interface is stopped before `write` returns. -/
theorem C27_write_failure_stops_users_partial (o : Oracle) (a b : Bool) (specs : List RM.HwSpec) (ops : List CM.Op) (n : Name)
    (hn : NeverFallback n ops) (cm : CM) (hcm : cm = CM.run o (CM.start o a b specs) ops) (c : Ctl) (hc : cm.find n = some c)
    (hl : c.lc = .active) (i : Itf) (hi : c.lists i) (l : List Itf) (hcmd : c.cfg.cmd = .individual l) (hne : l ≠ [])
    (h : Hw) (hm : h ∈ cm.rm.comps) (hh : OnlyOf cm.rm h.name i) (sched : Name → RM.Sched)
    (es : List Ev) (hes : (cm.rm.write o sched).1.tr = es ++ cm.rm.tr) (ans : IoAns) (ha : Ev.hwIo h.name .write ans ∈ es)
    (hbad : ans = .ret .error ∨ ans = .throws) :
    (cm.rtWrite o sched).lcOf n ≠ some .active ∨ stopRefused n (cm.rtWrite o sched).rm.tr = true := by
  have I : CM.Inv cm := (show CM.Reach o cm from ⟨a, b, specs, ops, hcm⟩).inv
  obtain ⟨h1, h2, _⟩ := Verif.write_failure o sched cm.rm I.sys.claims.rm h hm es hes ans ha hbad
  refine C27_write_stops_users_partial o a b specs ops n hn cm hcm c hc hl i hi h.name hh sched h2 ?_
  cases hr : (cm.rm.write o sched).2.result with
  | ok => exact absurd hr h1
  | error => exact .inl rfl
  | deactivate => exact .inr ⟨rfl, l, hcmd, hne⟩

/-! ### Non-vacuity and witnesses -/

/-- The hypotheses are met and the stop is real: 300 drives an interface of hardware 2 and reads 10/1 of hardware 1, whose
`read` fails. -/
example :
    let cm := demo read1Fails (switchOps [100, 200, 300] [] .strict)
    cm.lcOf 300 = some .active ∧ (cm.find 300).map (·.cfg.state.resolve []) = some [⟨10, 1⟩] ∧
    (cm.rm.read read1Fails runAll).2 = { result := .error, failed := [1] } ∧
    Ev.hwIo 1 .read (.ret .error) ∈ (cm.rm.read read1Fails runAll).1.tr ∧
    (cm.rtRead read1Fails runAll).lcOf 300 = some .inactive ∧ (cm.rtRead read1Fails runAll).lcOf 100 = some .inactive ∧
    (cm.rtRead read1Fails runAll).lcOf 200 = some .active := by decide

example : NeverFallback 300 (demoSetup ++ switchOps [100, 200, 300] [] .strict) := by
  intro m ch as cfg fb h
  simp [demoSetup, switchOps] at h
  rcases h with h | h | h | h <;> simp [h]

/-- 500 drives 10/0 and has the fallback 600, which drives 20/0. -/
def withFallback : List CM.Op :=
  [.load 600 false false (plainCfg [⟨20, 0⟩] []) [], .configure 600 (plainCfg [⟨20, 0⟩] []) [] true,
   .load 500 false false (plainCfg [⟨10, 0⟩] []) [600], .configure 500 (plainCfg [⟨10, 0⟩] []) [] true] ++
  switchOps [500] [] .strict ++ [.update (fun _ => true) true]

/-- The update of 500 fails; later the `read` of hardware 2 fails. -/
def fallbackOracle : Oracle :=
  { goodOracle with
    ctlUpdate := fun _ n => if n = 500 then .ret .error else .ret .ok
    hwIo := fun _ n io => if n = 2 ∧ io = .read then .ret .error else .ret .ok }

/-- **C27, negation (1).** 600 was started as the fallback of 500 (cm.cpp:3528-3581 does not record hardware users). The
`read` of hardware 2, the only hardware 600 drives, fails: hardware 2 goes down, 600 keeps running. -/
theorem C27_fallback_not_stopped :
    let cm := demo fallbackOracle withFallback
    cm.lcOf 600 = some .active ∧ cm.heldBy 600 = some [⟨20, 0⟩] ∧ cm.rm.fault = false ∧
    (cm.rm.read fallbackOracle runAll).2 = { result := .error, failed := [2] } ∧
    (cm.rtRead fallbackOracle runAll).lcOf 600 = some .active ∧
    (cm.rtRead fallbackOracle runAll).rm.stateOf 2 = some .unconfigured := by decide

/-- Actuator 1 has the command interface 10/0, sensor 2 measures the state interface of the same name. -/
def sharedSpecs : List RM.HwSpec :=
  [{ name := 1, kind := .actuator, group := none, loads := true, exportS := [], exportC := [⟨10, 0⟩], declS := [], declC := [] },
   { name := 2, kind := .sensor, group := none, loads := true, exportS := [⟨10, 0⟩], exportC := [], declS := [], declC := [] }]

/-- Hardware 2 fails to read. -/
def read2Fails : Oracle := ioOracle (fun n io => if n = 2 ∧ io = .read then .ret .error else .ret .ok)

/-- **C27, negation (2).** `cache_controller_to_hardware` stops at the first component that has an interface of that name
(resource_manager.cpp:1823-1860): 700 reads 10/0, measured by sensor 2, but is recorded for actuator 1 only. The
sensor fails and 700 keeps running. -/
theorem C27_second_component_forgotten :
    let o := read2Fails
    let cm := CM.run o (CM.start o false false sharedSpecs) ([.setHw 1 .active, .setHw 2 .active,
      .load 700 false false (plainCfg [] [⟨10, 0⟩]) [], .configure 700 (plainCfg [] [⟨10, 0⟩]) [] true] ++ switchOps [700] [] .strict)
    cm.lcOf 700 = some .active ∧ cm.rm.fault = false ∧ (cm.rm.read o runAll).2 = { result := .error, failed := [2] } ∧
    (cm.rtRead o runAll).lcOf 700 = some .active ∧ (cm.rtRead o runAll).rm.stateOf 2 = some .unconfigured := by decide

/-- Hardware 1 answers ERROR to `write`, hardware 2 answers DEACTIVATE. -/
def maskedOracle : Oracle :=
  ioOracle (fun n io => if io = .write then (if n = 1 then .ret .error else .ret .deactivate) else .ret .ok)

/-- **C27, negation (3).** 800 only reads 10/0 of hardware 1. Hardware 1 fails in `write`, but hardware 2 answers
DEACTIVATE in the same cycle, which overwrites the result; 800 has no command interface and is left running on
interfaces that are gone. -/
theorem C27_masked_error_not_stopped :
    let o := maskedOracle
    let cm := demo o ([.load 800 false false (plainCfg [] [⟨10, 0⟩]) [], .configure 800 (plainCfg [] [⟨10, 0⟩]) [] true] ++ switchOps [800] [] .strict)
    cm.lcOf 800 = some .active ∧ cm.rm.fault = false ∧ (cm.rm.write o runAll).2.result = .deactivate ∧ 1 ∈ (cm.rm.write o runAll).2.failed ∧
    Ev.hwIo 1 .write (.ret .error) ∈ (cm.rm.write o runAll).1.tr ∧
    (cm.rtWrite o runAll).lcOf 800 = some .active ∧ (cm.rtWrite o runAll).rm.stateOf 1 = some .unconfigured := by decide

end Verif
