import Verif.RM.Run
import Verif.Props.C01_C02_Lifecycle
/-!
# C01/C02 (whole resource manager), C03, C04, C05

Quantification: every oracle, every robot description (`specs`), both settings of the two resource
manager parameters, every history of API calls (`ops`) followed by the call the property is about.
-/
namespace Verif
open RM

/-- Reachable resource managers. -/
def RM.Reach (o : Oracle) (rm : RM) : Prop := ∃ a b specs ops, rm = RM.run o a b specs ops

theorem RM.Reach.inv {o : Oracle} {rm : RM} (h : rm.Reach o) : rm.Inv := by
  obtain ⟨a, b, specs, ops, rfl⟩ := h; exact inv_run o a b specs ops

/-- A two-component robot: an actuator `1` and a system `2`. -/
def demoSpecs : List HwSpec :=
  [{ name := 1, kind := .actuator, group := none, loads := true, exportS := [⟨10, 0⟩, ⟨10, 1⟩],
     exportC := [⟨10, 0⟩], declS := [⟨10, 0⟩], declC := [⟨10, 0⟩] },
   { name := 2, kind := .system, group := some 7, loads := true, exportS := [⟨20, 0⟩],
     exportC := [⟨20, 0⟩, ⟨20, 1⟩], declS := [⟨20, 0⟩], declC := [⟨20, 0⟩] }]

/-- State of a component as reported to the user. -/
def RM.stateOf (rm : RM) (n : Name) : Option LState := (rm.findHw n).map (·.lc)

/-! ## C01 / C02 for every component of every resource manager history -/

/-- **C01 at system level.** After any history, each component's reported state is the one implied by
the callbacks it received. -/
theorem C01_system_state_is_history (o : Oracle) (rm : RM) (hr : rm.Reach o) (h : Hw)
    (hh : h ∈ rm.comps) : h.lc = lcOf h.name rm.tr := hr.inv.sync h hh

/-- **C02 at system level.** In every history of the resource manager every callback of every hardware
component is invoked in a permitted state. -/
theorem C02_system_callbacks_permitted (o : Oracle) (rm : RM) (hr : rm.Reach o) (post pre : List Ev)
    (e : Ev) (h : rm.tr = post ++ e :: pre) : HwEvOk pre e := by
  have hk := hr.inv.ok
  rw [h] at hk
  clear h hr
  induction post with
  | nil => exact hk.1
  | cons x post ih => exact ih hk.2

/-! ## C03 -/

theorem setHwState_target (o : Oracle) (rm : RM) (h : Hw) (t : LState)
    (hok : (rm.setHwState o h t).2.2 = true) : (rm.setHwState o h t).2.1.lc = t ∧ t ≠ .unknown := by
  have a1 : ∀ rm h, (configureHw o rm h).2.2 = true → (configureHw o rm h).2.1.lc = .inactive := by
    intro rm h; simp [configureHw]
  have a2 : ∀ rm h, (cleanupHw o rm h).2.2 = true → (cleanupHw o rm h).2.1.lc = .unconfigured := by
    intro rm h; simp [cleanupHw]
  have a3 : ∀ rm h, (shutdownHw o rm h).2.2 = true → (shutdownHw o rm h).2.1.lc = .finalized := by
    intro rm h; simp [shutdownHw]
  have a4 : ∀ rm h, (activateHw o rm h).2.2 = true → (activateHw o rm h).2.1.lc = .active := by
    intro rm h; simp [activateHw]
  have a5 : ∀ rm h, (deactivateHw o rm h).2.2 = true → (deactivateHw o rm h).2.1.lc = .inactive := by
    intro rm h; simp [deactivateHw]
  have at' : ∀ (r : RM × Hw × Bool) (f : RM → Hw → RM × Hw × Bool) (t : LState),
      (∀ rm h, (f rm h).2.2 = true → (f rm h).2.1.lc = t) →
      (RM.andThen r f).2.2 = true → (RM.andThen r f).2.1.lc = t := by
    intro r f t hf
    unfold RM.andThen
    split
    · exact hf _ _
    · rename_i hn; intro h; exact absurd h hn
  revert hok
  unfold setHwState
  split
  · rename_i e; intro _; exact ⟨e, by simp⟩
  · intro h; exact ⟨a2 _ _ h, by simp⟩
  · intro h; exact ⟨at' _ _ _ a2 h, by simp⟩
  · intro h; exact ⟨a1 _ _ h, by simp⟩
  · rename_i e; intro _; exact ⟨e, by simp⟩
  · intro h; exact ⟨a5 _ _ h, by simp⟩
  · intro h; exact ⟨at' _ _ _ a4 h, by simp⟩
  · intro h; exact ⟨a4 _ _ h, by simp⟩
  · rename_i e; intro _; exact ⟨e, by simp⟩
  · intro h; exact ⟨a3 _ _ h, by simp⟩
  · intro h; exact ⟨a3 _ _ h, by simp⟩
  · intro h; exact ⟨at' _ _ _ a3 h, by simp⟩
  · rename_i e; intro _; exact ⟨e, by simp⟩
  · intro h; simp at h

/-- **C03 (OK is truthful).** If `set_component_state(n, t)` returns OK, then component `n` exists and is
in state `t`, a primary state. -/
theorem C03_ok_means_target (o : Oracle) (rm : RM) (hr : rm.Reach o) (n : Name) (t : LState)
    (hok : (rm.setComponentState o n t).2 = .ok) :
    (rm.stateOf n).isSome ∧ (rm.setComponentState o n t).1.stateOf n = some t ∧ t ≠ .unknown := by
  unfold setComponentState at hok ⊢
  split at hok
  · simp at hok
  · rename_i h hf
    have hb : (rm.setHwState o h t).2.2 = true := by
      by_contra hb; simp [hb] at hok
    obtain ⟨e1, e2⟩ := setHwState_target o rm h t hb
    have k := setHwState_ok o hr.inv (findHw_some hf).1 t
    have hm := k.frame.mem (findHw_some hf).1
    have hfi := findHw_of_mem k.inv.names hm
    have hnm : (rm.setHwState o h t).2.1.name = n := by rw [k.frame.good.name]; exact (findHw_some hf).2
    rw [hnm] at hfi
    refine ⟨by simp [stateOf, hf], ?_⟩
    simp only [hf]
    exact ⟨by simp only [stateOf, hfi]; simp [e1], e2⟩

/-- **C03 (frame).** Whatever happens, no other component's state changes and no component appears or
disappears. -/
theorem C03_others_untouched (o : Oracle) (rm : RM) (hr : rm.Reach o) (n m : Name) (t : LState)
    (hne : m ≠ n) :
    (rm.setComponentState o n t).1.findHw m = rm.findHw m ∧
    (rm.setComponentState o n t).1.comps.map (·.name) = rm.comps.map (·.name) := by
  unfold setComponentState
  split
  · exact ⟨rfl, rfl⟩
  · rename_i h hf
    have k := setHwState_ok o hr.inv (findHw_some hf).1 t
    have hnm : (rm.setHwState o h t).2.1.name = n := by rw [k.frame.good.name]; exact (findHw_some hf).2
    simp only
    constructor
    · cases hm : rm.findHw m with
      | some c =>
        obtain ⟨c1, c2⟩ := findHw_some hm
        have hc : c ∈ (rm.setHwState o h t).1.comps := by
          rw [k.frame.comps]; exact setHw_mem_other c1 (by rw [hnm, c2]; exact hne)
        rw [← c2]; exact findHw_of_mem k.inv.names hc
      | none =>
        cases hm' : (rm.setHwState o h t).1.findHw m with
        | none => rfl
        | some c =>
          obtain ⟨c1, c2⟩ := findHw_some hm'
          rw [k.frame.comps] at c1
          rcases mem_setHw c1 with rfl | ⟨c1, _⟩
          · exact absurd (c2.symm.trans hnm) hne
          · rw [← c2] at hm
            rw [findHw_of_mem hr.inv.names c1] at hm; cases hm
    · rw [k.frame.comps, setHw_names]

/-- **C03 (rejections).** Unknown component, unresolvable target, or any request to revive a FINALIZED
component: ERROR and nothing changes. -/
theorem C03_rejected_unchanged (o : Oracle) (rm : RM) (n : Name) (t : LState)
    (h : rm.stateOf n = none ∨ (t = .unknown) ∨ (rm.stateOf n = some .finalized ∧ t ≠ .finalized)) :
    rm.setComponentState o n t = (rm, .error) := by
  unfold setComponentState stateOf at *
  cases hf : rm.findHw n with
  | none => rfl
  | some c =>
    simp only [hf, Option.map_some, Option.some.injEq] at h ⊢
    rcases h with h | h | h
    · cases h
    · subst h; cases hl : c.lc <;> simp [setHwState]
    · cases t <;> simp_all [setHwState]

/-- **C03 (result = truth), partial.** For an existing component and a primary target, the call returns OK
iff the component is in the target state afterwards — except in one corner: leaving ACTIVE for
UNCONFIGURED or FINALIZED when `on_deactivate` answers ERROR, where the error transition may land the
component in the requested state although ERROR is returned (`C03_error_but_in_target`). -/
theorem C03_result_iff_partial (o : Oracle) (rm : RM) (hr : rm.Reach o) (n : Name) (t : LState)
    (hex : (rm.stateOf n).isSome) (ht : t ≠ .unknown)
    (hcorner : ¬ (rm.stateOf n = some .active ∧ (t = .unconfigured ∨ t = .finalized) ∧
      o.hwCb rm.tr n .deactivate = .error)) :
    (rm.setComponentState o n t).2 = .ok ↔ (rm.setComponentState o n t).1.stateOf n = some t := by
  constructor
  · intro h; exact (C03_ok_means_target o rm hr n t h).2.1
  · intro hst
    unfold setComponentState stateOf at *
    cases hf : rm.findHw n with
    | none => simp [hf] at hex
    | some h =>
      simp only [hf, Option.map_some, Option.some.injEq] at hcorner hst ⊢
      have k := setHwState_ok o hr.inv (findHw_some hf).1 t
      have hm := k.frame.mem (findHw_some hf).1
      have hfi := findHw_of_mem k.inv.names hm
      have hhn := (findHw_some hf).2
      have hnm : (rm.setHwState o h t).2.1.name = n := by rw [k.frame.good.name]; exact hhn
      rw [hnm] at hfi
      rw [hfi] at hst
      simp only [Option.map_some, Option.some.injEq] at hst
      suffices hb : (rm.setHwState o h t).2.2 = true by simp [hb]
      have hkn := hr.inv.known h (findHw_some hf).1
      have hd : h.lc = .active → o.hwCb rm.tr n .deactivate ≠ .error →
          (h.deactivate o rm.tr).1.lc = .inactive ∨ (h.deactivate o rm.tr).1.lc = .active := by
        intro hl hne
        unfold Hw.deactivate
        rw [if_pos hl, hhn]
        split <;> simp_all
      cases hl : h.lc <;> cases t <;> simp_all only [setHwState, ne_eq, not_true_eq_false]
      all_goals first
        | (simp [configureHw, cleanupHw, shutdownHw, activateHw, deactivateHw] at hst ⊢; exact hst)
        | skip
      -- the two-step transitions
      · -- unconfigured → active
        simp only [RM.andThen] at hst ⊢
        split at hst
        · rename_i hc; simp only [hc, if_true]; simp [activateHw] at hst ⊢; exact hst
        · rename_i hc; simp only [configureHw, decide_eq_true_eq] at hc hst
          have := Hw.configure_active o _ _ hst
          rw [hl] at this; simp at this
      · -- active → unconfigured
        simp only [RM.andThen] at hst ⊢
        split at hst
        · rename_i hc; simp only [hc, if_true]; simp [cleanupHw] at hst ⊢; exact hst
        · simp only [deactivateHw] at hst
          have := hd trivial (by simpa using hcorner)
          rw [hst] at this; simp at this
      · -- active → finalized
        simp only [RM.andThen] at hst ⊢
        split at hst
        · rename_i hc; simp only [hc, if_true]; simp [shutdownHw] at hst ⊢; exact hst
        · simp only [deactivateHw] at hst
          have := hd trivial (by simpa using hcorner)
          rw [hst] at this; simp at this

/-- An oracle that behaves well except for `on_deactivate`, which answers ERROR. -/
def deactivateErrorOracle : Oracle :=
  { goodOracle with hwCb := fun _ _ cb => if cb = .deactivate then .error else .success }

/-- **C03, negation of the unrestricted iff.** The component is UNCONFIGURED as requested, yet the call
returns ERROR. -/
theorem C03_error_but_in_target :
    let rm := RM.run deactivateErrorOracle false false demoSpecs [.setState 1 .active]
    (rm.setComponentState deactivateErrorOracle 1 .unconfigured).2 = .error ∧
    (rm.setComponentState deactivateErrorOracle 1 .unconfigured).1.stateOf 1 = some .unconfigured := by
  decide

/-- **C03 (every documented transition works).** If the component's callbacks succeed, any primary state
can be requested from any state except FINALIZED and the request succeeds. -/
theorem C03_cooperative_succeeds (o : Oracle) (rm : RM) (hr : rm.Reach o) (n : Name) (t : LState)
    (ho : ∀ tr cb, o.hwCb tr n cb = .success) (hex : (rm.stateOf n).isSome)
    (hf : rm.stateOf n ≠ some .finalized) (ht : t ≠ .unknown) :
    (rm.setComponentState o n t).2 = .ok := by
  unfold setComponentState stateOf at *
  cases hfi : rm.findHw n with
  | none => simp [hfi] at hex
  | some h =>
    simp only [hfi, Option.map_some, ne_eq, Option.some.injEq] at hf ⊢
    obtain ⟨hm, hn⟩ := findHw_some hfi
    have hkn := hr.inv.known h hm
    suffices hb : (rm.setHwState o h t).2.2 = true by simp [hb]
    cases hl : h.lc <;> cases t <;>
      simp_all [setHwState, RM.andThen, configureHw, cleanupHw, shutdownHw, activateHw, deactivateHw,
        Hw.configure, Hw.cleanup, Hw.shutdown, Hw.activate, Hw.deactivate]

/-- Non-vacuity for C03: a reachable manager, an OK request and an ERROR request. -/
example :
    let rm := RM.run goodOracle false false demoSpecs [.setState 2 .inactive]
    (rm.setComponentState goodOracle 2 .active).2 = .ok ∧
    (rm.setComponentState goodOracle 9 .active).2 = .error ∧ rm.stateOf 2 = some .inactive := by decide

/-! ## C04 -/

/-- **C04 (configured ⇒ available).** After any history, the command and state interfaces of every
configured (INACTIVE or ACTIVE) component are available. -/
theorem C04_configured_available (o : Oracle) (rm : RM) (hr : rm.Reach o) (h : Hw) (hh : h ∈ rm.comps)
    (hc : h.lc = .inactive ∨ h.lc = .active) :
    (∀ i ∈ h.stateItfs, i ∈ rm.availS) ∧ (∀ i ∈ h.cmdItfs, i ∈ rm.availC) := hr.inv.conf h hh hc

/-- **C04 (iff), partial.** Available ⇔ configured, for every component none of whose transition callbacks
failed in the way named by `BadEv`: ERROR from `on_activate`/`on_deactivate`, FAILURE/ERROR from
`on_cleanup`/`on_shutdown`. Read/write errors, group errors, exceptions and configure failures are all
covered. Missing for the full claim: those four cases really leave stale available interfaces, see
`C04_stale_*`. -/
theorem C04_available_iff_configured_partial (o : Oracle) (rm : RM) (hr : rm.Reach o) (h : Hw)
    (hh : h ∈ rm.comps) (hb : ∀ e ∈ rm.tr, ¬ BadEv h.name e) :
    (∀ i ∈ h.stateItfs, i ∈ rm.availS ↔ (h.lc = .inactive ∨ h.lc = .active)) ∧
    (∀ i ∈ h.cmdItfs, i ∈ rm.availC ↔ (h.lc = .inactive ∨ h.lc = .active)) := by
  have I := hr.inv
  by_cases hc : h.Conf
  · have := I.conf h hh hc
    exact ⟨fun i hi => ⟨fun _ => hc, fun _ => this.1 i hi⟩, fun i hi => ⟨fun _ => hc, fun _ => this.2 i hi⟩⟩
  · have := I.clean h hh hc hb
    exact ⟨fun i hi => ⟨fun h => absurd h (this.1 i hi), fun h => absurd h hc⟩,
           fun i hi => ⟨fun h => absurd h (this.2 i hi), fun h => absurd h hc⟩⟩

/-- An oracle in which callback `cb` answers `a` (others succeed) and `on_error` answers `e`. -/
def oneBad (cb : HwCb) (a : CbAns) (e : ErrAns) : Oracle :=
  { goodOracle with hwCb := fun _ _ c => if c = cb then a else .success, hwErr := fun _ _ => e }

/-- **C04, negation (activate).** `on_activate` answering ERROR leaves an UNCONFIGURED component whose
command interface is available. -/
theorem C04_stale_activate :
    let rm := RM.run (oneBad .activate .error .success) false false demoSpecs [.setState 1 .active]
    rm.stateOf 1 = some .unconfigured ∧ (⟨10, 0⟩ : Itf) ∈ rm.availC := by decide

/-- **C04, negation (deactivate).** -/
theorem C04_stale_deactivate :
    let rm := RM.run (oneBad .deactivate .error .failure) false false demoSpecs
      [.setState 1 .active, .setState 1 .inactive]
    rm.stateOf 1 = some .finalized ∧ (⟨10, 0⟩ : Itf) ∈ rm.availC := by decide

/-- **C04, negation (cleanup).** -/
theorem C04_stale_cleanup :
    let rm := RM.run (oneBad .cleanup .failure .failure) false false demoSpecs
      [.setState 1 .inactive, .setState 1 .unconfigured]
    rm.stateOf 1 = some .finalized ∧ (⟨10, 0⟩ : Itf) ∈ rm.availC := by decide

/-- **C04, negation (shutdown).** -/
theorem C04_stale_shutdown :
    let rm := RM.run (oneBad .shutdown .failure .success) false false demoSpecs
      [.setState 1 .inactive, .setState 1 .finalized]
    rm.stateOf 1 = some .unconfigured ∧ (⟨10, 0⟩ : Itf) ∈ rm.availC := by decide

/-- Non-vacuity of `C04_available_iff_configured_partial`: a read error makes the interfaces disappear
without any `BadEv`. -/
example :
    let o : Oracle := { goodOracle with hwIo := fun _ n _ => if n = 1 then .ret .error else .ret .ok }
    let rm := RM.run o false false demoSpecs
      [.setState 1 .active, .setState 2 .active, .read (fun _ => .run)]
    rm.stateOf 1 = some .unconfigured ∧ rm.stateOf 2 = some .active ∧ (⟨10, 0⟩ : Itf) ∉ rm.availC ∧
    (⟨20, 1⟩ : Itf) ∈ rm.availC := by decide

/-- **C04 (no sharing).** No interface is registered by two different components, so availability of an
interface is governed by a single component. -/
theorem C04_single_owner (o : Oracle) (rm : RM) (hr : rm.Reach o) (h h' : Hw) (hh : h ∈ rm.comps)
    (hh' : h' ∈ rm.comps) (i : Itf)
    (hi : (i ∈ h.cmdItfs ∧ i ∈ h'.cmdItfs) ∨ (i ∈ h.stateItfs ∧ i ∈ h'.stateItfs)) : h = h' := by
  have I := hr.inv
  rcases hi with ⟨a, b⟩ | ⟨a, b⟩
  · have := I.uniC i (.hw h.name) (.hw h'.name) ⟨h, hh, rfl, a⟩ ⟨h', hh', rfl, b⟩
    exact eq_of_name I.names hh hh' (by simpa using this)
  · have := I.uniS i (.hw h.name) (.hw h'.name) ⟨h, hh, rfl, a⟩ ⟨h', hh', rfl, b⟩
    exact eq_of_name I.names hh hh' (by simpa using this)

/-! ## C05 -/

/-- **C05 (claim).** A claim succeeds exactly if the interface is available, exists and is unclaimed; it
then marks exactly that interface; a failed claim changes nothing the user can observe about other
interfaces. -/
theorem C05_claim_iff (o : Oracle) (rm : RM) (hr : rm.Reach o) (k : Itf) :
    ((rm.claim k).2 = true ↔ k ∈ rm.availC ∧ k ∈ rm.cmdKeys ∧ rm.isClaimed k = some false) ∧
    ((rm.claim k).2 = true → (rm.claim k).1.isClaimed k = some true) ∧
    (∀ j, j ≠ k → (rm.claim k).1.isClaimed j = rm.isClaimed j) := by
  have _ := hr
  unfold claim isClaimed
  by_cases ha : k ∈ rm.availC
  · simp only [ha, if_true]
    rcases hcl : rm.claimed k with _ | _ | _ <;> simp [hcl, ha]
    intro j hj; rw [upd_ne _ _ hj]
  · simp [ha]

/-- **C05 (exclusive).** Once a hardware command interface is claimed, every further claim of it throws, for
as long as it is not released, whatever else happens (component state changes, read/write cycles and
failures, claims and releases of other interfaces, controllers exporting and un-exporting interfaces). -/
theorem C05_exclusive_until_release (o : Oracle) (rm : RM) (hr : rm.Reach o) (k : Itf) (h : Hw)
    (hh : h ∈ rm.comps) (hk : k ∈ h.cmdItfs) (hc : (rm.claim k).2 = true) (ops : List RM.Op)
    (hrel : ∀ op ∈ ops, op ≠ .release k) :
    ((ops.foldl (RM.step o) (rm.claim k).1).claim k).2 = false := by
  have key : ∀ (ops : List RM.Op) (r : RM), (∀ op ∈ ops, op ≠ .release k) → r.Inv →
      r.claimed k = some true → k ∈ r.cmdKeys → (∃ n, r.OwnC k (.hw n)) →
      (ops.foldl (RM.step o) r).claimed k = some true := by
    intro ops
    induction ops with
    | nil => intro r _ _ h _ _; exact h
    | cons op t ih =>
      intro r hrel I hcl hkey hown
      have frameS : ∀ {x : RM}, (∃ n, r.OwnC k (.hw n)) → x.comps.map (fun h => (h.name, h.cmdItfs)) =
          r.comps.map (fun h => (h.name, h.cmdItfs)) → ∃ n, x.OwnC k (.hw n) := by
        intro x ⟨n, c, hc, hcn, hck⟩ e
        have : (c.name, c.cmdItfs) ∈ x.comps.map (fun h => (h.name, h.cmdItfs)) := by
          rw [e]; exact List.mem_map.2 ⟨c, hc, rfl⟩
        obtain ⟨c', hc', e'⟩ := List.mem_map.1 this
        simp at e'
        exact ⟨n, c', hc', by rw [e'.1, hcn], by rw [e'.2]; exact hck⟩
      have fromFrame : ∀ {x : RM} {c c' : Hw}, c ∈ r.comps → Frame r c c' x →
          x.claimed k = some true ∧ k ∈ x.cmdKeys ∧ ∃ n, x.OwnC k (.hw n) := by
        intro x c c' hc f
        refine ⟨by rw [f.claimed]; exact hcl, by rw [f.cmdKeys]; exact hkey, frameS hown ?_⟩
        rw [f.comps]
        simp only [setHw, List.map_map]
        apply List.map_congr_left
        intro d hd
        simp only [Function.comp]
        split
        · rename_i e
          have : d = c := eq_of_name I.names hd hc (by rw [e, f.good.name])
          subst this
          have : c'.cmdItfs = d.cmdItfs := by rw [f.good.frame]
          simp [this, f.good.name]
        · rfl
      refine ih _ (fun op h => hrel op (by simp [h])) (inv_step o I op) ?_ ?_ ?_ <;>
      · have main : (r.step o op).claimed k = some true ∧ k ∈ (r.step o op).cmdKeys ∧
            ∃ n, (r.step o op).OwnC k (.hw n) := by
          have cyc : ∀ (f : RM × Status → Name → RM × Status) (l : List Name) (s : RM × Status),
              (∀ s n, s.1.Inv → IterOk s n (f s n)) → s.1.Inv → s.1.claimed k = some true →
              k ∈ s.1.cmdKeys → (∃ n, s.1.OwnC k (.hw n)) →
              (l.foldl f s).1.claimed k = some true ∧ k ∈ (l.foldl f s).1.cmdKeys ∧
              ∃ n, (l.foldl f s).1.OwnC k (.hw n) := by
            intro f l
            induction l with
            | nil => intro s _ _ a b c; exact ⟨a, b, c⟩
            | cons n t ihl =>
              intro s hf I' a b c
              have k1 := hf s n I'
              simp only [List.foldl_cons]
              cases hfi : s.1.findHw n with
              | none => rw [k1.skip hfi]; exact ihl s hf I' a b c
              | some h0 =>
                obtain ⟨h1, fr⟩ := k1.frame h0 hfi
                refine ihl _ hf k1.inv (by rw [fr.claimed]; exact a) (by rw [fr.cmdKeys]; exact b) ?_
                obtain ⟨m, d, hd, hdn, hdk⟩ := c
                by_cases e : d.name = h1.name
                · refine ⟨m, h1, fr.mem (findHw_some hfi).1, by rw [← e, hdn], ?_⟩
                  have : d = h0 := eq_of_name I'.names hd (findHw_some hfi).1 (by rw [e, fr.good.name])
                  subst this
                  rw [fr.good.frame]; exact hdk
                · exact ⟨m, d, by rw [fr.comps]; exact setHw_mem_other hd e, hdn, hdk⟩
          cases op with
          | setState n t =>
            simp only [RM.step, setComponentState]
            split
            · exact ⟨hcl, hkey, hown⟩
            · rename_i c hf
              exact fromFrame (findHw_some hf).1 (setHwState_ok o I (findHw_some hf).1 t).frame
          | read s => exact cyc _ _ _ (fun s' n h => readOne_ok o s s' n h) I hcl hkey hown
          | write s => exact cyc _ _ _ (fun s' n h => writeOne_ok o s s' n h) I hcl hkey hown
          | prepare a b =>
            simp only [RM.step, prepareSwitch]
            split
            · exact ⟨hcl, hkey, hown⟩
            split
            · exact ⟨hcl, hkey, hown⟩
            split
            · exact ⟨hcl, hkey, hown⟩
            · obtain ⟨es, e, _⟩ := modeSwitch_ext o true r a b
              rw [e]; exact ⟨hcl, hkey, hown⟩
          | perform a b =>
            simp only [RM.step, performSwitch]
            split
            · exact ⟨hcl, hkey, hown⟩
            · obtain ⟨es, e, _⟩ := modeSwitch_ext o false r a b
              rw [e]; exact ⟨hcl, hkey, hown⟩
          | claim j =>
            simp only [RM.step, claim]
            split
            · split
              · exact ⟨hcl, hkey, hown⟩
              · exact ⟨hcl, hkey, hown⟩
              · refine ⟨?_, hkey, hown⟩
                simp only [upd_apply]; split
                · rfl
                · exact hcl
            · exact ⟨hcl, hkey, hown⟩
          | release j =>
            have : k ≠ j := fun e => hrel (.release j) (by simp) (by rw [e])
            refine ⟨?_, hkey, hown⟩
            simp only [RM.step, release]; rw [upd_ne _ _ this]; exact hcl
          | importState c is =>
            obtain ⟨e, _⟩ := addStateItfs_spec r is
            simp only [RM.step, importExportedState]
            rw [e]; exact ⟨hcl, hkey, hown⟩
          | importRef c is =>
            obtain ⟨ks, cl, e, n, f, c1, c2, c3, rr⟩ := (addCmdItfs_spec r is).eq
            have hc1 : cl k = some true := by rw [c1 k (by rw [hcl]; simp), hcl]
            simp only [RM.step, importReference]
            generalize r.addCmdItfs is = q at *
            obtain ⟨q1, q2⟩ := q
            simp only at e; subst e
            cases q2 <;> exact ⟨hc1, by simp [hkey], hown⟩
          | stateAvailable c => simp only [RM.step, exportedStateAvailable]; split <;> exact ⟨hcl, hkey, hown⟩
          | stateUnavailable c => simp only [RM.step, exportedStateUnavailable]; split <;> exact ⟨hcl, hkey, hown⟩
          | refAvailable c => simp only [RM.step, referenceAvailable]; split <;> exact ⟨hcl, hkey, hown⟩
          | refUnavailable c => simp only [RM.step, referenceUnavailable]; split <;> exact ⟨hcl, hkey, hown⟩
          | removeState c =>
            simp only [RM.step, removeExportedState]
            split
            · exact ⟨hcl, hkey, hown⟩
            · rename_i l hl
              obtain ⟨fl, e, _⟩ := removeStateItfs_spec { r with expS := upd r.expS c none } l
              rw [e]; exact ⟨hcl, hkey, hown⟩
          | removeRef c =>
            simp only [RM.step, removeReference]
            split
            · exact ⟨hcl, hkey, hown⟩
            · rename_i l hl
              obtain ⟨fl, cl, e, _, hcl', _⟩ := removeCmdItfs_spec { r with expR := upd r.expR c none } l
              have hkl : k ∉ l := by
                intro hkl
                obtain ⟨n, hn⟩ := hown
                have := I.uniC k (.hw n) (.ctl c) hn ⟨l, hl, hkl⟩
                simp at this
              rw [e]
              refine ⟨by simp only; rw [hcl' k hkl]; exact hcl, ?_, hown⟩
              simp only [List.mem_filter, decide_eq_true_eq]; exact ⟨hkey, hkl⟩
          | cache c is =>
            obtain ⟨u, e⟩ := cacheController_eq r c is
            simp only [RM.step]; rw [e]; exact ⟨hcl, hkey, hown⟩
        first | exact main.1 | exact main.2.1 | exact main.2.2
  have I := hr.inv
  have hcl : (rm.claim k).1.claimed k = some true := by
    unfold claim at hc ⊢
    split at hc
    · rename_i ha
      simp only [ha, if_true]
      split at hc <;> simp at hc
      rename_i hcf
      simp
    · simp at hc
  have hfin := key ops (rm.claim k).1 hrel (inv_claim I k) hcl ?_ ?_
  · generalize ops.foldl (RM.step o) (rm.claim k).1 = x at hfin
    unfold claim; rw [hfin]; split <;> rfl
  · have : (rm.claim k).1.cmdKeys = rm.cmdKeys := by
      unfold claim; split
      · split <;> rfl
      · rfl
    rw [this]; exact I.keyC k (.hw h.name) ⟨h, hh, rfl, hk⟩
  · have : (rm.claim k).1.comps = rm.comps := by
      unfold claim; split
      · split <;> rfl
      · rfl
    exact ⟨h.name, h, by rw [this]; exact hh, rfl, hk⟩

/-- **C05 (release).** Releasing makes exactly that interface claimable again: it can be claimed iff it is
available and exists, and no other interface's claim is affected. -/
theorem C05_release (o : Oracle) (rm : RM) (hr : rm.Reach o) (k : Itf) :
    (((rm.release k).claim k).2 = true ↔ k ∈ rm.availC ∧ k ∈ rm.cmdKeys) ∧
    (∀ j, j ≠ k → (rm.release k).isClaimed j = rm.isClaimed j) := by
  have _ := hr
  constructor
  · unfold claim release
    by_cases ha : k ∈ rm.availC <;> simp [ha]
  · intro j hj
    simp only [isClaimed, release]; rw [upd_ne _ _ hj]; rfl

/-- Non-vacuity for C05: claim, refused second claim, release, claim again. -/
example :
    let rm := RM.run goodOracle false false demoSpecs [.setState 2 .inactive]
    let k : Itf := ⟨20, 1⟩
    (rm.claim k).2 = true ∧ ((rm.claim k).1.claim k).2 = false ∧
    ((((rm.claim k).1).release k).claim k).2 = true ∧ (rm.claim ⟨10, 0⟩).2 = false := by decide

end Verif
