import Verif.CM.Local
import Verif.Props.CMDemo
import Verif.Props.C25_C26_Hardware
/-!
# C06–C10: holders of command interfaces, names, unloading, configuring, reordering

The theorems are about every state `cm` with `CM.Reach o cm`: reachable by any history of API calls and
real-time cycles on any robot description, for any behaviour `o` of all plugins.
-/
namespace Verif
open CM

theorem mem_k {cm : CM} (I : Inv cm) {c : Ctl} (hc : c ∈ cm.ctls) : cm.abs.k c.name = some c.core := by
  rw [abs_k, (find_iff I.topo.names).2 ⟨hc, rfl⟩]; rfl

/-! ## C06 -/

/-- **C06 (a controller that is not active holds nothing).** -/
theorem C06_inactive_holds_nothing (o : Oracle) (cm : CM) (hr : Reach o cm) (c : Ctl) (hc : c ∈ cm.ctls)
    (hl : c.lc ≠ .active) : c.held = [] :=
  hr.inv.sys.claims.idle c.name c.core (mem_k hr.inv hc) (by simp [Sys.NoEx]) hl

/-- **C06 for hardware command interfaces, complete.** In every reachable state: a command interface of a
hardware component that some controller holds is marked claimed; a claimed one is held by a controller;
no two controllers hold it; and no controller holds it twice. -/
theorem C06_hardware_single_holder (o : Oracle) (cm : CM) (hr : Reach o cm) (h : Hw) (hh : h ∈ cm.rm.comps)
    (i : Itf) (hi : i ∈ h.cmdItfs) :
    (cm.rm.claimed i = some true ↔ ∃ c ∈ cm.ctls, i ∈ c.held) ∧
    (∀ c ∈ cm.ctls, ∀ d ∈ cm.ctls, i ∈ c.held → i ∈ d.held → c = d) ∧
    (∀ c ∈ cm.ctls, c.held.count i ≤ 1) := by
  have I := hr.inv
  have hd : i ∉ cm.dropped := fun hx => I.sys.claims.dhw i hx h hh hi
  refine ⟨⟨?_, ?_⟩, ?_, ?_⟩
  · intro hcl
    obtain ⟨n, k, hk, hik⟩ := I.sys.claims.held i hcl hd
    rw [abs_k] at hk
    cases hf : cm.find n with
    | none => simp [hf] at hk
    | some c =>
      simp [hf] at hk
      exact ⟨c, (find_some hf).1, by rw [← hk] at hik; exact hik⟩
  · rintro ⟨c, hc, hic⟩
    exact I.sys.claims.mark c.name c.core i (mem_k I hc) hic hd
  · intro c hc d hd' hic hid
    have := I.sys.claims.uniq c.name d.name c.core d.core i (mem_k I hc) (mem_k I hd') hic hid hd
    have h1 := (find_iff I.topo.names).2 ⟨hc, rfl⟩
    have h2 := (find_iff I.topo.names).2 ⟨hd', this.symm⟩
    rw [h1] at h2; simpa using h2
  · intro c hc
    exact List.nodup_iff_count_le_one.1 (I.sys.claims.nod c.name c.core (mem_k I hc)) i

/-- **C06 for all command interfaces, partial.** The same for every command interface, including the
reference interfaces exported by chainable controllers, except those that were erased from the resource
manager (`cleanup_controller`, `configure_controller`, `unload_controller` of the exporting controller)
while they were claimed. What is missing: `C06_reference_two_holders` shows that the exception is needed. -/
theorem C06_single_holder_partial (o : Oracle) (cm : CM) (hr : Reach o cm) (i : Itf) (hd : i ∉ cm.dropped) :
    (cm.rm.claimed i = some true ↔ ∃ c ∈ cm.ctls, i ∈ c.held) ∧
    (∀ c ∈ cm.ctls, ∀ d ∈ cm.ctls, i ∈ c.held → i ∈ d.held → c = d) := by
  have I := hr.inv
  refine ⟨⟨?_, ?_⟩, ?_⟩
  · intro hcl
    obtain ⟨n, k, hk, hik⟩ := I.sys.claims.held i hcl hd
    rw [abs_k] at hk
    cases hf : cm.find n with
    | none => simp [hf] at hk
    | some c =>
      simp [hf] at hk
      exact ⟨c, (find_some hf).1, by rw [← hk] at hik; exact hik⟩
  · rintro ⟨c, hc, hic⟩
    exact I.sys.claims.mark c.name c.core i (mem_k I hc) hic hd
  · intro c hc d hd' hic hid
    have := I.sys.claims.uniq c.name d.name c.core d.core i (mem_k I hc) (mem_k I hd') hic hid hd
    have h1 := (find_iff I.topo.names).2 ⟨hc, rfl⟩
    have h2 := (find_iff I.topo.names).2 ⟨hd', this.symm⟩
    rw [h1] at h2; simpa using h2

/-- What the exception of `C06_single_holder_partial` is: only cleaning up, reconfiguring or unloading the
exporting controller while the reference is claimed adds to it. -/
theorem C06_exception_only_on_cleanup (cm : CM) (n : Name) :
    (cm.cleanupExports n).dropped = cm.dropped ∨
    ∃ c, cm.find n = some c ∧ c.chainable = true ∧ c.lc ≠ .active ∧
      (cm.cleanupExports n).dropped = cm.dropped ++
        ((cm.rm.expR n).getD []).filter (fun i => decide (cm.rm.claimed i = some true)) := by
  unfold cleanupExports
  cases hf : cm.find n with
  | none => exact .inl rfl
  | some c =>
    simp only
    split
    · rename_i h; exact .inr ⟨c, rfl, h.2, h.1, rfl⟩
    · exact .inl rfl

/-- Oracle of the witness: the `read` of hardware 1 fails. -/
def read1Fails : Oracle := ioOracle (fun n io => if n = 1 ∧ io = .read then .ret .error else .ret .ok)

/-- Every component is due. -/
def runAll (_ : Name) : RM.Sched := .run

/-- **C06, negation for reference interfaces.** 100 (chainable) and 200 (drives 100/0) run. Hardware 1
fails: 100 is stopped, 200 is not (it uses no interface of hardware 1) and keeps its loan of 100/0. The user
brings hardware 1 back and reconfigures 100, which erases and recreates 100/0 — unclaimed. Then 400 may
claim it too: two active controllers hold the same command interface. -/
theorem C06_reference_two_holders :
    let cm := demo read1Fails (switchOps [100, 200] [] .strict ++
      [.read runAll, .setHw 1 .active, .configure 100 cfg100 [] true] ++
      switchOps [100, 400] [] .strict)
    cm.lcOf 200 = some .active ∧ cm.heldBy 200 = some [⟨100, 0⟩] ∧
    cm.lcOf 400 = some .active ∧ cm.heldBy 400 = some [⟨100, 0⟩] ∧ cm.rm.fault = false := by decide

/-- Non-vacuity: three active controllers with loans; one of them not active holds none. -/
example :
    let cm := demo goodOracle (switchOps [100, 200, 300] [] .strict)
    Reach goodOracle cm ∧ cm.heldBy 100 = some [⟨10, 0⟩] ∧ cm.heldBy 200 = some [⟨100, 0⟩] ∧
    cm.heldBy 400 = some [] ∧ cm.lcOf 400 = some .inactive ∧ cm.dropped = [] ∧
    cm.rm.claimed ⟨10, 0⟩ = some true ∧ cm.rm.claimed ⟨20, 1⟩ = some false ∧
    cm.rm.comps.map (·.cmdItfs) = [[⟨10, 0⟩], [⟨20, 0⟩, ⟨20, 1⟩]] := ⟨demo_reach _ _, by decide⟩

/-! ## C07 -/

/-- **C07.** After any history controller names are unique. -/
theorem C07_names_unique (o : Oracle) (cm : CM) (hr : Reach o cm) : (cm.ctls.map (·.name)).Nodup :=
  hr.inv.topo.names

/-- **C07 (second load).** Loading a name that is already loaded fails and changes nothing at all. -/
theorem C07_second_load_fails (o : Oracle) (cm : CM) (n : Name) (ch as : Bool) (cfg : CtlCfg) (fb : List Name)
    (hl : ∃ c ∈ cm.ctls, c.name = n) : cm.load o n ch as cfg fb = (cm, .error) := by
  unfold load
  split
  · rfl
  split
  · rfl
  · cases hf : cm.find n with
    | some c => rfl
    | none =>
      obtain ⟨c, hc, he⟩ := hl
      exact absurd (List.mem_map.2 ⟨c, hc, he⟩) (find_none.1 hf)

/-- **C07 (load).** `load_controller` either fails and leaves the list of controllers as it is, or returns OK
and appends exactly one controller: unconfigured, holding nothing, not in chained mode. -/
theorem C07_load_result (o : Oracle) (cm : CM) (n : Name) (ch as : Bool) (cfg : CtlCfg) (fb : List Name) :
    ((cm.load o n ch as cfg fb).2 = .error ∧ (cm.load o n ch as cfg fb).1.ctls = cm.ctls) ∨
    ((cm.load o n ch as cfg fb).2 = .ok ∧ (∀ c ∈ cm.ctls, c.name ≠ n) ∧ ∃ c, c.name = n ∧ c.lc = .unconfigured ∧ c.held = [] ∧
      c.chained = false ∧ (cm.load o n ch as cfg fb).1.ctls = cm.ctls ++ [c]) := by
  unfold load
  split
  · exact .inl ⟨rfl, rfl⟩
  split
  · exact .inl ⟨rfl, rfl⟩
  · cases hf : cm.find n with
    | some c => exact .inl ⟨rfl, rfl⟩
    | none =>
      simp only
      split
      · refine .inr ⟨rfl, ?_, _, rfl, rfl, rfl, rfl, rfl⟩
        intro c hc he
        exact find_none.1 hf (List.mem_map.2 ⟨c, hc, he⟩)
      · exact .inl ⟨rfl, rfl⟩

/-- Non-vacuity: loading succeeds once, the second time it fails. -/
example :
    let cm := demo goodOracle []
    (cm.load goodOracle 500 false false (plainCfg [] []) []).2 = .ok ∧
    ((cm.load goodOracle 500 false false (plainCfg [] []) []).1.load goodOracle 500 true false cfg100 []).2 = .error ∧
    cm.ctls.map (·.name) = [200, 400, 100, 300] := by decide

/-! ## C08 -/

/-- Does `on_cleanup` bring the controller `n` to UNCONFIGURED? SUCCESS, or ERROR (an exception) that
`on_error` answers with SUCCESS. -/
def cleanupSucceeds (o : Oracle) (tr : List Ev) (n : Name) : Prop :=
  o.ctlCb tr n .cleanup = .success ∨
  ((o.ctlCb tr n .cleanup = .error ∨ o.ctlCb tr n .cleanup = .throws) ∧
    o.ctlErr (.ctlCb n .cleanup (o.ctlCb tr n .cleanup) :: tr) n = .success)

theorem cleanup_result (o : Oracle) (cm : CM) (n : Name) (c : Ctl) (hc : cm.find n = some c) (hp : cm.pending = false)
    (hu : c.lc ≠ .unknown) :
    (cm.cleanup o n).2 = .ok ↔ c.lc = .unconfigured ∨ (c.lc = .inactive ∧ cleanupSucceeds o cm.rm.tr n) := by
  unfold cleanup
  simp only [hp, Bool.false_eq_true, if_false, hc]
  cases hl : c.lc with
  | unknown => exact absurd hl hu
  | unconfigured => simp
  | active => simp
  | finalized => simp
  | inactive =>
    simp only [reduceCtorEq, true_and, false_or]
    unfold cleanupSpec
    simp only
    have hf : (cm.cleanupExports n).find n = some c := by
      unfold cleanupExports; rw [hc]; simp only; split
      · exact hc
      · exact hc
    have ht : (cm.cleanupExports n).rm.tr = cm.rm.tr := by
      have hS : ∀ l (rm : RM), (rm.removeStateItfs l).tr = rm.tr := by
        intro l; induction l with
        | nil => intro rm; rfl
        | cons i t ih => intro rm; unfold RM.removeStateItfs; rw [ih]
      have hC : ∀ l (rm : RM), (rm.removeCmdItfs l).tr = rm.tr := by
        intro l; induction l with
        | nil => intro rm; rfl
        | cons i t ih => intro rm; unfold RM.removeCmdItfs; rw [ih]
      have h1 : ∀ (rm : RM), (rm.removeExportedState n).tr = rm.tr := by
        intro rm; unfold RM.removeExportedState; split
        · rfl
        · simp only [hS]
      have h2 : ∀ (rm : RM), (rm.removeReference n).tr = rm.tr := by
        intro rm; unfold RM.removeReference; split
        · rfl
        · simp only [hC]
      unfold cleanupExports; rw [hc]; simp only; split
      · simp only [h1, h2]
      · rfl
    have hlt := lcOf_trigger o hf .cleanup (by rw [hl]; rfl)
    rw [ht] at hlt
    simp only [hlt]
    unfold cleanupSucceeds
    cases ha : o.ctlCb cm.rm.tr n .cleanup <;> simp [CtlCb.onSuccess, CtlCb.onFailure]

/-- **C08 (result).** `unload_controller` returns OK exactly when the controller is loaded, is neither active
nor finalized, and — if it is inactive — its clean-up succeeds. -/
theorem C08_unload_ok_iff (o : Oracle) (cm : CM) (hr : Reach o cm) (n : Name) (hp : cm.pending = false) :
    (cm.unload o n).2 = .ok ↔ ∃ c ∈ cm.ctls, c.name = n ∧
      (c.lc = .unconfigured ∨ (c.lc = .inactive ∧ cleanupSucceeds o cm.rm.tr n)) := by
  have I := hr.inv
  unfold unload
  simp only [hp, Bool.false_eq_true, if_false]
  cases hf : cm.find n with
  | none =>
    simp only [reduceCtorEq, false_iff, not_exists, not_and]
    intro c hc he
    exact absurd (List.mem_map.2 ⟨c, hc, he⟩) (find_none.1 hf)
  | some c =>
    simp only
    have hcm := find_some hf
    have huq : ∀ d ∈ cm.ctls, d.name = n → d = c := by
      intro d hd he
      have := (find_iff I.topo.names).2 ⟨hd, he⟩
      rw [hf] at this; exact (Option.some.inj this).symm
    have hu : c.lc ≠ .unknown := I.sys.trace.known c.name c.core (mem_k I hcm.1)
    have hres := cleanup_result o cm n c hf hp hu
    constructor
    · intro h
      refine ⟨c, hcm.1, hcm.2, hres.1 ?_⟩
      split at h
      · simp at h
      · split at h
        · simp at h
        · rename_i h2; simpa using h2
    · rintro ⟨d, hd, he, hx⟩
      rw [huq d hd he] at hx
      have hok := hres.2 hx
      have hna : ¬ c.lc = .active := by rcases hx with h | h <;> simp [h]
      simp [hna, hok]

/-- **C08 (effect of OK).** On OK precisely that controller disappears; every other controller is exactly as it
was, in the same order. -/
theorem C08_unload_ok (o : Oracle) (cm : CM) (n : Name) (hok : (cm.unload o n).2 = .ok) :
    (cm.unload o n).1.ctls = cm.ctls.filter (fun c => c.name ≠ n) := by
  have h1 : (cm.unload o n).1.others n = cm.others n := others_unload o cm n
  unfold others at h1
  rw [← h1]
  have : ∀ c ∈ (cm.unload o n).1.ctls, c.name ≠ n := by
    unfold unload at hok ⊢
    split at hok
    · simp at hok
    split at hok
    · simp at hok
    split at hok
    · simp at hok
    dsimp only at hok
    split at hok
    · simp at hok
    rename_i h1 _ c h2 h3 h4
    simp only [h1, Bool.false_eq_true, if_false, h2, h3, h4]
    intro c hc
    have := (List.mem_filter.1 hc).2
    simpa using this
  exact (List.filter_eq_self.2 (fun c hc => by simpa using this c hc)).symm

/-- **C08 (effect of ERROR).** On ERROR no controller disappears and every other controller is exactly as it
was, in the same order. -/
theorem C08_unload_error (o : Oracle) (cm : CM) (n : Name) (herr : (cm.unload o n).2 ≠ .ok) :
    (cm.unload o n).1.ctls.map (·.name) = cm.ctls.map (·.name) ∧
    (cm.unload o n).1.ctls.filter (fun c => c.name ≠ n) = cm.ctls.filter (fun c => c.name ≠ n) := by
  refine ⟨?_, others_unload o cm n⟩
  have hs := (Fwd.cleanup o cm n).stat
  unfold unload at herr ⊢
  split
  · rfl
  split
  · rfl
  split
  · rfl
  rename_i h1 _ c h2 h3
  simp only [h1, Bool.false_eq_true, if_false, h2, h3] at herr
  dsimp only
  split
  · exact names_of_stat hs
  · rename_i h4; rw [if_neg h4] at herr; exact absurd rfl herr

/-- Non-vacuity: unloading an inactive controller works, an active one is refused. -/
example :
    let cm := demo goodOracle (switchOps [300] [] .strict)
    (cm.unload goodOracle 400).2 = .ok ∧ (cm.unload goodOracle 400).1.ctls.map (·.name) = [200, 100, 300] ∧
    (cm.unload goodOracle 300).2 = .error ∧ (cm.unload goodOracle 300).1.lcOf 300 = some .active := by decide

/-! ## C09, C10 -/

/-- **C09 (rejection).** Configuring a controller that is unknown, active or finalized fails and changes
nothing at all. -/
theorem C09_configure_rejected (o : Oracle) (cm : CM) (n : Name) (cfg : CtlCfg) (ord : List Name) (r : Bool)
    (h : ∀ c, cm.find n = some c → c.lc = .active ∨ c.lc = .finalized) :
    cm.configure o n cfg ord r = (cm, .error) := by
  unfold configure
  split
  · rfl
  cases hf : cm.find n with
  | none => rfl
  | some c => simp [h c hf]

/-- A controller without the chain group, the only field of other controllers that configuring recomputes. -/
def Ctl.noGroup (c : Ctl) : Ctl := { c with group := [] }

theorem configure_frame (o : Oracle) (cm : CM) (I : Inv cm) (n : Name) (cfg : CtlCfg) (ord : List Name)
    (r : Bool) (m : Name) (hm : m ≠ n) :
    ((cm.configure o n cfg ord r).1.find m).map Ctl.noGroup = (cm.find m).map Ctl.noGroup := by
  rcases configure_spec o cm n cfg ord r I with ⟨_, h⟩ | ⟨y, d, e, h, _⟩
  · rw [find_of_others h.others hm]
  · rw [e]
    simp only
    rw [reorder_find h.topo.topology]
    have : y.topology.find m = y.find m := by
      obtain ⟨a, b, c, d, e⟩ := topology_tab y
      rw [e]; rfl
    rw [this, ← find_of_others h.others hm]
    cases y.find m <;> rfl

/-- **C09 (others).** In every outcome every other controller is exactly as it was (lifecycle state, loans,
chained mode, configuration), except that its chain group is recomputed. -/
theorem C09_others_untouched (o : Oracle) (cm : CM) (hr : Reach o cm) (n : Name) (cfg : CtlCfg) (ord : List Name)
    (r : Bool) (m : Name) (hm : m ≠ n) :
    ((cm.configure o n cfg ord r).1.find m).map Ctl.noGroup = (cm.find m).map Ctl.noGroup :=
  configure_frame o cm hr.inv n cfg ord r m hm

/-- **C09 (OK).** OK means that the controller is INACTIVE afterwards and that neither its command nor its state
interface list names an interface twice. -/
theorem C09_configure_ok (o : Oracle) (cm : CM) (hr : Reach o cm) (n : Name) (cfg : CtlCfg) (ord : List Name)
    (r : Bool) (hok : (cm.configure o n cfg ord r).2 = .ok) :
    ∃ c ∈ (cm.configure o n cfg ord r).1.ctls, c.name = n ∧ c.lc = .inactive ∧
      ((cm.configure o n cfg ord r).1.cmdItfs c).Nodup ∧ ((cm.configure o n cfg ord r).1.stateItfs c).Nodup := by
  rcases configure_spec o cm n cfg ord r hr.inv with ⟨h1, _⟩ | ⟨y, d, e, h, hd, hl, hcfg, hn⟩
  · rw [h1] at hok; simp at hok
  · rw [e]
    simp only
    have ht := h.topo.topology
    have hrm : (y.topology.reorder ord).rm = y.rm := by
      obtain ⟨a, b, c, d, e⟩ := topology_tab y
      rw [e]; rfl
    have hf : y.topology.find n = some d := by
      obtain ⟨a, b, c, d', e⟩ := topology_tab y
      rw [e]; exact hd
    have := reorder_find ht ord n
    rw [hf] at this
    obtain ⟨k1, k2⟩ := find_some this
    refine ⟨_, k1, k2, hl, ?_, ?_⟩
    · unfold cmdItfs; rw [hrm]; exact hn.1
    · unfold stateItfs; rw [hrm]; exact hn.2

/-- **C10 (and the set of controllers in C09).** After `configure_controller`, whatever its outcome and whatever
the iteration order of the chain map, the execution list is a permutation of the loaded controllers: none
is lost, none appears twice. -/
theorem C10_reorder_is_permutation (o : Oracle) (cm : CM) (hr : Reach o cm) (n : Name) (cfg : CtlCfg) (ord : List Name)
    (r : Bool) :
    ((cm.configure o n cfg ord r).1.ctls.map (·.name)).Perm (cm.ctls.map (·.name)) := by
  rcases configure_spec o cm n cfg ord r hr.inv with ⟨_, h⟩ | ⟨y, d, e, h, _⟩
  · rw [h.names]
  · rw [e]
    have ht := h.topo.topology
    refine (reorder_perm ht ord).trans ?_
    have : y.topology.ctls = y.ctls := by
      obtain ⟨a, b, c, d', e⟩ := topology_tab y
      rw [e]
    rw [this, h.names]

/-- Non-vacuity: configuring really reorders (400 and 200 are put before 100, which they drive). -/
example :
    let cm := CM.run goodOracle (CM.start goodOracle false false demoSpecs) (demoSetup.take 7)
    (cm.configure goodOracle 300 (plainCfg [⟨20, 0⟩] [⟨10, 1⟩]) [] true).2 = .ok ∧
    ((demo goodOracle []).configure goodOracle 300 (plainCfg [⟨20, 0⟩] []) [300, 100] true).1.ctls.map (·.name) = [300, 200, 400, 100] ∧
    cm.ctls.map (·.name) = [200, 100, 300] ∧
    (demo goodOracle (switchOps [300] [] .strict)).configure goodOracle 300 (plainCfg [] []) [] true =
      (demo goodOracle (switchOps [300] [] .strict), .error) := by
  refine ⟨by decide, by decide, by decide, ?_⟩
  apply C09_configure_rejected
  intro c hc
  left
  have : (demo goodOracle (switchOps [300] [] .strict)).lcOf 300 = some .active := by decide
  unfold CM.lcOf at this
  rw [hc] at this
  simpa using this

end Verif
