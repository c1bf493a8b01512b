import Verif.CM.ShutdownHw
import Verif.Props.CMDemo
/-!
# C63: the shutdown of the controller manager

The hook (`CM.hook`) visits every controller and then every hardware component. `ctl` and `hw` are the visits together with
what the real-time loop and a waiting `switch_controller` call do after each of them (`CM.Op.late`).
Quantification: every oracle, every reachable controller manager, every schedule, every order of the components.
-/
namespace Verif
open CM

/-- The visits cover exactly the loaded controllers, in the order of the list. -/
def CM.CtlVisits (cm : CM) (segs : List (Name × List CM.Op)) : Prop :=
  segs.map (·.1) = cm.ctls.map (·.name) ∧ ∀ p ∈ segs, ∀ op ∈ p.2, op.late = true

/-- The visits cover exactly the hardware components, in some order. -/
def CM.HwVisits (cm : CM) (segs : List (Name × List CM.Op)) : Prop :=
  (segs.map (·.1)).Perm (cm.rm.comps.map (·.name)) ∧ ∀ p ∈ segs, ∀ op ∈ p.2, op.late = true

/-- Undisturbed visits. -/
def calmly (l : List Name) : List (Name × List CM.Op) := l.map (fun n => (n, []))

/-- `shutdown_controllers` without interference is the hook's first half. -/
theorem C63_undisturbed (o : Oracle) (cm : CM) (hr : Reach o cm) :
    cm.hookCtls o (calmly (cm.ctls.map (·.name))) = cm.shutdownAll o := by
  have h1 : ∀ (l : List Name) (s : CM × Bool), ((calmly l).foldl (fun (s : CM × Bool) p =>
      (((s.1.shutdownOne o p.1).run o p.2, s.2 && decide ((s.1.shutdownOne o p.1).lcOf p.1 = some .finalized)) : CM × Bool)) s).1 =
      l.foldl (shutdownOne o) s.1 := by
    intro l
    induction l with
    | nil => intro s; rfl
    | cons n t ih => intro s; simp only [calmly, List.map_cons, List.foldl_cons] at ih ⊢; rw [ih]; rfl
  have hfst : (cm.hookCtls o (calmly (cm.ctls.map (·.name)))).1 = (cm.shutdownAll o).1 := h1 _ _
  refine Prod.ext hfst ?_
  have I := hr.inv
  have nd : (cm.ctls.map (·.name)).Nodup := I.topo.names
  -- the final state of every controller is its state right after its visit
  have h2 : ∀ (l : List Name) (x : CM) (b : Bool), l.Nodup →
      ((calmly l).foldl (fun (s : CM × Bool) p =>
        (((s.1.shutdownOne o p.1).run o p.2, s.2 && decide ((s.1.shutdownOne o p.1).lcOf p.1 = some .finalized)) : CM × Bool)) (x, b)).2 =
      (b && l.all (fun n => decide ((l.foldl (shutdownOne o) x).lcOf n = some .finalized))) := by
    intro l
    induction l with
    | nil => intro x b _; simp [calmly]
    | cons n t ih =>
      intro x b hnd
      obtain ⟨hn, hnd⟩ := List.nodup_cons.1 hnd
      have keep : ∀ (l : List Name) (y : CM), n ∉ l → (l.foldl (shutdownOne o) y).lcOf n = y.lcOf n := by
        intro l
        induction l with
        | nil => intro y _; rfl
        | cons m t ih =>
          intro y hm
          simp only [List.mem_cons, not_or] at hm
          simp only [List.foldl_cons]
          rw [ih _ hm.2]
          unfold CM.lcOf
          rw [find_of_others (others_shutdownOne o y m) hm.1]
      simp only [calmly, List.map_cons, List.foldl_cons, List.all_cons] at ih ⊢
      rw [ih _ _ hnd]
      have hk := keep t (shutdownOne o x n) hn
      have hr : run o (shutdownOne o x n) [] = shutdownOne o x n := rfl
      have hd : decide ((shutdownOne o x n).lcOf n = some .finalized) =
          decide ((t.foldl (shutdownOne o) (shutdownOne o x n)).lcOf n = some .finalized) := by rw [hk]
      rw [hr, hd, Bool.and_assoc]
      rfl
  have h3 : (cm.hookCtls o (calmly (cm.ctls.map (·.name)))).2 =
      (cm.ctls.map (·.name)).all (fun n => decide ((cm.shutdownAll o).1.lcOf n = some .finalized)) := by
    have := h2 (cm.ctls.map (·.name)) cm true nd
    rw [Bool.true_and] at this
    exact this
  rw [h3]
  have hn : (cm.shutdownAll o).1.ctls.map (·.name) = cm.ctls.map (·.name) := names_of_stat (Fwd.shutdownAll o cm).stat
  have nd' : ((cm.shutdownAll o).1.ctls.map (·.name)).Nodup := by rw [hn]; exact nd
  rw [← hn]
  have h4 : (cm.shutdownAll o).2 = (cm.shutdownAll o).1.ctls.all (fun c => decide (c.lc = .finalized)) := rfl
  rw [h4]
  generalize (cm.shutdownAll o).1 = y at nd'
  rw [List.all_map, Bool.eq_iff_iff, List.all_eq_true, List.all_eq_true]
  refine forall₂_congr (fun c hc => ?_)
  have : y.lcOf c.name = some c.lc := by
    unfold CM.lcOf CM.find
    have : y.ctls.find? (fun d => decide (d.name = c.name)) = some c := by
      cases hf : y.ctls.find? (fun d => decide (d.name = c.name)) with
      | none => rw [List.find?_eq_none] at hf; exact absurd (by simp) (hf c hc)
      | some d =>
        have h1 := List.find?_some hf
        have h2 := List.mem_of_find?_eq_some hf
        simp only [decide_eq_true_eq] at h1
        rw [List.inj_on_of_nodup_map nd' h2 hc h1]
    rw [this]; rfl
  simp only [Function.comp_apply, this, Option.some.injEq]

/-- **C63 (what a controller is told).** During `shutdown_controllers` every loaded controller receives exactly the callbacks
of its shutdown — an active one `on_deactivate` and, unless that was refused or failed for good, `on_shutdown`; an inactive or
unconfigured one `on_shutdown`; a finalized one nothing — and no hardware component is touched. -/
theorem C63_controllers_told (o : Oracle) (cm : CM) (hr : Reach o cm) :
    (cm.shutdownAll o).1.rm.comps = cm.rm.comps ∧
    ∃ es, (cm.shutdownAll o).1.rm.tr = es ++ cm.rm.tr ∧ (∀ e ∈ es, e.hwName = none) ∧
      ∀ n ∈ cm.ctls.map (·.name), ∃ a b, cm.lcOf n = some a ∧ (cm.shutdownAll o).1.lcOf n = some b ∧
        Shut n a (es.filter (fun e => e.ctlName = some n)) b := by
  refine ⟨SameHw.shutdownAll o cm, ?_⟩
  obtain ⟨-, es, h1, h2, h3⟩ := shutdownList_out o (cm.ctls.map (·.name)) hr.inv hr.inv.topo.names (fun _ h => h) _ rfl
  refine ⟨es, h1, ?_, ?_⟩
  · intro e he
    obtain ⟨n, -, hn⟩ := h2 e he
    cases e <;> simp [Ev.ctlName] at hn <;> rfl
  · intro n hn
    obtain ⟨c, k1, b, k2, k3⟩ := h3 n hn
    refine ⟨c.lc, b, by rw [lcOf_abs, k1]; rfl, ?_, k2⟩
    rw [lcOf_abs]
    show (Option.map _ ((List.foldl (shutdownOne o) cm (cm.ctls.map (·.name))).abs.k n)) = _
    rw [k3]; rfl

/-- **C63 (interfaces).** After `shutdown_controllers` no controller holds a command interface and no command interface of the
hardware is claimed, whatever the controllers answered. -/
theorem C63_interfaces_released (o : Oracle) (cm : CM) (hr : Reach o cm) :
    (∀ n ∈ cm.ctls.map (·.name), (cm.shutdownAll o).1.heldBy n = some []) ∧
    ∀ h ∈ (cm.shutdownAll o).1.rm.comps, ∀ i ∈ h.cmdItfs, (cm.shutdownAll o).1.rm.claimed i ≠ some true := by
  obtain ⟨-, es, h1, h2, h3⟩ := shutdownList_out o (cm.ctls.map (·.name)) hr.inv hr.inv.topo.names (fun _ h => h) _ rfl
  have I : Inv (cm.shutdownAll o).1 := (hr.step .shutdown).inv
  have hn : (cm.shutdownAll o).1.ctls.map (·.name) = cm.ctls.map (·.name) := names_of_stat (Fwd.shutdownAll o cm).stat
  have held : ∀ n ∈ cm.ctls.map (·.name), ∃ c, (cm.shutdownAll o).1.abs.k n = some c ∧ c.held = [] := by
    intro n hn
    obtain ⟨c, k1, b, k2, k3⟩ := h3 n hn
    exact ⟨_, k3, rfl⟩
  refine ⟨?_, ?_⟩
  · intro n hm
    obtain ⟨c, hc, hh⟩ := held n hm
    rw [abs_k] at hc
    obtain ⟨d, hd, rfl⟩ := Option.map_eq_some_iff.1 hc
    unfold CM.heldBy
    rw [hd]
    exact congrArg some hh
  · intro h hh i hi hcl
    have hd : i ∉ (cm.shutdownAll o).1.abs.dropped := fun hx => I.sys.claims.dhw i hx h hh hi
    obtain ⟨n, c, hc, hci⟩ := I.sys.claims.held i hcl hd
    have hm : n ∈ cm.ctls.map (·.name) := by
      rw [← hn]
      rw [abs_k] at hc
      obtain ⟨d, hd, -⟩ := Option.map_eq_some_iff.1 hc
      unfold CM.find at hd
      have h1 := List.find?_some hd
      simp only [decide_eq_true_eq] at h1
      exact List.mem_map.2 ⟨d, List.mem_of_find?_eq_some hd, h1⟩
    obtain ⟨c', hc', hh'⟩ := held n hm
    rw [hc] at hc'
    cases hc'
    rw [hh'] at hci
    simp at hci

/-- **C63 (controllers, any schedule).** Whatever the real-time loop does meanwhile: every controller ends FINALIZED, or it
answered FAILURE to `on_deactivate`, or failed in `on_shutdown` and recovered in `on_error`; and if the status is `true` all of
them are FINALIZED. -/
theorem C63_controllers (o : Oracle) (cm : CM) (hr : Reach o cm) (segs : List (Name × List Op)) (hv : cm.CtlVisits segs) :
    ∃ es, (cm.hookCtls o segs).1.rm.tr = es ++ cm.rm.tr ∧
      (∀ n ∈ cm.ctls.map (·.name), (cm.hookCtls o segs).1.lcOf n = some .finalized ∨ CM.Excuse n es) ∧
      ((cm.hookCtls o segs).2 = true → ∀ n ∈ cm.ctls.map (·.name), (cm.hookCtls o segs).1.lcOf n = some .finalized) := by
  obtain ⟨-, -, -, h1, es, h2, h3⟩ := hookCtls_out o segs true hr.inv hv.2
    (fun p hp => by rw [← hv.1]; exact List.mem_map_of_mem hp) (cm.hookCtls o segs) rfl
  rw [hv.1] at h1 h3
  exact ⟨es, h2, h3, h1⟩

/-- A trace without a configuration of `n` does not make `n` run. -/
theorem not_ready_trace {n : Name} {es tr : List Ev} (ok : CtlTraceOk (es ++ tr)) (he : ∀ e ∈ es, e.offCfg n)
    (h : ctlLc n tr ≠ .inactive ∧ ctlLc n tr ≠ .active) :
    (ctlLc n (es ++ tr) ≠ .inactive ∧ ctlLc n (es ++ tr) ≠ .active) ∧
    ∀ e ∈ es, (∀ a, e ≠ .ctlUpdate n a) ∧ (∀ a, e ≠ .ctlCb n .activate a) := by
  induction es with
  | nil => exact ⟨h, by simp⟩
  | cons e t ih =>
    obtain ⟨h1, h2⟩ := ih ok.2 (fun x hx => he x (by simp [hx]))
    have hok : CtlEvOk (t ++ tr) e := ok.1
    have hof := he e (by simp)
    have hnew : (ctlLc n (e :: (t ++ tr)) ≠ .inactive ∧ ctlLc n (e :: (t ++ tr)) ≠ .active) ∧
        (∀ a, e ≠ .ctlUpdate n a) ∧ (∀ a, e ≠ .ctlCb n .activate a) := by
      cases e with
      | ctlCb m cb a =>
        by_cases hm : m = n
        · subst hm
          have := hof cb a rfl
          cases cb <;> simp only [CtlEvOk] at hok <;> simp_all [ctlLc]
          · cases a <;> simp
          · cases a <;> simp
        · simp [ctlLc, hm, h1]
      | ctlErr m a =>
        by_cases hm : m = n
        · subst hm; cases a <;> simp [ctlLc]
        · simp [ctlLc, hm, h1]
      | ctlUpdate m a =>
        refine ⟨by simpa [ctlLc] using h1, ?_, by simp⟩
        intro x hx
        simp only [Ev.ctlUpdate.injEq] at hx
        rw [hx.1] at hok
        exact h1.2 hok
      | _ => exact ⟨by simpa [ctlLc] using h1, by simp, by simp⟩
    refine ⟨hnew.1, ?_⟩
    intro x hx
    rcases List.mem_cons.1 hx with rfl | hx
    · exact hnew.2
    · exact h2 x hx

theorem plain_run (o : Oracle) (n : Name) (ops : List Op) : ∀ {cm : CM}, Inv cm → (∀ op ∈ ops, op.late = true) →
    Plain n cm.rm.tr (cm.run o ops).rm.tr := by
  induction ops with
  | nil => intro cm _ _; exact .refl _ _
  | cons op t ih =>
    intro cm I h
    obtain ⟨-, -, -, -, hp⟩ := (Calm.step o I op (Op.late_calm (h op (by simp)))).rm I.sys.claims.rm
    exact (hp n).trans (ih (inv_step o I op) (fun x hx => h x (by simp [hx])))

theorem plain_comps (o : Oracle) (n : Name) (segs : List (Name × List Op)) : ∀ {cm : CM} (b : Bool), Inv cm →
    (∀ p ∈ segs, ∀ op ∈ p.2, op.late = true) →
    Inv (segs.foldl (hookComp o) (cm, b)).1 ∧ Plain n cm.rm.tr (segs.foldl (hookComp o) (cm, b)).1.rm.tr := by
  induction segs with
  | nil => intro cm b I _; exact ⟨I, .refl _ _⟩
  | cons p t ih =>
    intro cm b I h
    have R : cm.rm.Inv := I.sys.claims.rm
    have st := RM.rmStep_setComponentState o R p.1 .finalized
    have F : Fwd o Anybody cm ({ cm with rm := (cm.rm.setComponentState o p.1 .finalized).1 } : CM) := Fwd.rm cm st
    have I1 := F.cmInv I
    have I2 := (run_late o p.2 I1 (h p (by simp))).1
    obtain ⟨a, b⟩ := ih (b && decide ((cm.rm.setComponentState o p.1 .finalized).2 = .ok)) I2 (fun q hq => h q (by simp [hq]))
    exact ⟨a, ((st.plain n).trans (plain_run o n p.2 I1 (h p (by simp)))).trans b⟩

/-- **C63 (silence).** Once a controller is FINALIZED or UNCONFIGURED — in particular every controller, when
`shutdown_controllers` has reported success — neither the rest of the hook nor any further real-time cycle calls its `update` or
its `on_activate`. -/
theorem C63_no_update_after (o : Oracle) (cm : CM) (hr : Reach o cm) (n : Name)
    (hn : cm.lcOf n = some .finalized ∨ cm.lcOf n = some .unconfigured) (hw : List (Name × List Op))
    (hops : ∀ p ∈ hw, ∀ op ∈ p.2, op.late = true) (more : List Op) (hmore : ∀ op ∈ more, op.late = true) :
    ∃ es, ((cm.hookComps o hw).1.run o more).rm.tr = es ++ cm.rm.tr ∧
      (∀ a, .ctlUpdate n a ∉ es) ∧ ∀ a, .ctlCb n .activate a ∉ es := by
  obtain ⟨I1, p1⟩ := plain_comps o n hw true hr.inv hops
  have p2 := plain_run o n more I1 hmore
  obtain ⟨es, e, he⟩ := p1.trans p2
  have I2 := (run_late o more I1 hmore).1
  have hlc : ctlLc n cm.rm.tr ≠ .inactive ∧ ctlLc n cm.rm.tr ≠ .active := by
    have : ∃ c, cm.abs.k n = some c ∧ (c.lc = .finalized ∨ c.lc = .unconfigured) := by
      rw [lcOf_abs] at hn
      cases hc : cm.abs.k n with
      | none => rw [hc] at hn; simp at hn
      | some c => rw [hc] at hn; exact ⟨c, rfl, by simpa using hn⟩
    obtain ⟨c, hc, hl⟩ := this
    have := hr.inv.sys.trace.lc n c hc
    have e : cm.abs.rm.tr = cm.rm.tr := rfl
    rw [e] at this
    rw [this]
    rcases hl with h | h <;> rw [h] <;> simp
  have ok := I2.sys.trace.ok
  have e' : (CM.run o (hw.foldl (hookComp o) (cm, true)).1 more).abs.rm.tr = es ++ cm.rm.tr := e
  rw [e'] at ok
  have h2 := (not_ready_trace ok he hlc).2
  exact ⟨es, e, fun a h => (h2 _ h).1 a rfl, fun a h => (h2 _ h).2 a rfl⟩

/-- **C63 (one component).** A component that is asked to go to FINALIZED: a finalized one is left alone; an active one gets
`on_deactivate`, and `on_shutdown` if and only if that succeeded; an inactive or unconfigured one gets `on_shutdown`. It ends
FINALIZED or one of these callbacks did not succeed; OK means FINALIZED. -/
theorem C63_component_told (o : Oracle) (cm : CM) (hr : Reach o cm) (n : Name) (a : LState) (hs : cm.rm.stateOf n = some a) :
    ∃ b es, (cm.rm.setComponentState o n .finalized).1.stateOf n = some b ∧
      (cm.rm.setComponentState o n .finalized).1.tr = es ++ cm.rm.tr ∧
      ((cm.rm.setComponentState o n .finalized).2 = .ok → b = .finalized) ∧
      (b = .finalized ∨ RM.Excuse n es) ∧
      (a = .finalized → es.filter (fun e => e.hwName = some n) = []) ∧
      (a = .active → ∃ post x, es.filter (fun e => e.hwName = some n) = post ++ [.hwCb n .deactivate x] ∧
        ((∃ y, .hwCb n .shutdown y ∈ post) ↔ x = .success)) ∧
      (a = .unconfigured ∨ a = .inactive → ∃ post x, es.filter (fun e => e.hwName = some n) = post ++ [.hwCb n .shutdown x]) := by
  obtain ⟨b, L, E, h1, h2, h3, h4, h5⟩ := RM.set_final o hr.inv.sys.claims.rm n hs
  obtain ⟨es, e1, e2⟩ := E.trace
  subst e2
  refine ⟨b, es, E.after, e1, h1, ?_, h3, h4, h5⟩
  rcases h2 with h | ⟨x, hx, h | h⟩
  · exact .inl h
  · exact .inr ⟨x, hx, .inl (List.mem_of_mem_filter h)⟩
  · exact .inr ⟨x, hx, .inr (List.mem_of_mem_filter h)⟩

/-- The component `n` has no group. -/
def CM.ungrouped (cm : CM) (n : Name) : Prop := ∀ h, cm.rm.findHw n = some h → h.group = none

/-- The full claim: when the hook reports success, everything is finalized. -/
def HookOk (o : Oracle) (cm : CM) (ctl hw : List (Name × List Op)) : Prop :=
  (cm.hook o ctl hw).2 = true →
    (∀ n ∈ cm.ctls.map (·.name), (cm.hook o ctl hw).1.lcOf n = some .finalized) ∧
    ∀ n ∈ cm.rm.comps.map (·.name), (cm.hook o ctl hw).1.rm.stateOf n = some .finalized

theorem stateOf_isSome {rm : RM} {n : Name} (h : n ∈ rm.comps.map (·.name)) : (rm.findHw n).isSome := by
  unfold RM.findHw
  rw [List.find?_isSome]
  obtain ⟨c, hc, e⟩ := List.mem_map.1 h
  exact ⟨c, hc, by simpa using e⟩

/-- **C63 (the hook).** Under any schedule of the real-time loop: if the hook reports success, every controller is FINALIZED and
so is every component that is in no group — every component, if no real-time cycle runs after the first visit of a component.
Whatever it reports, such a component ends FINALIZED unless its `on_deactivate` or `on_shutdown` did not succeed.
Missing for the full claim (`HookOk`): components in a group, see `C63_claim_fails_grouped`. -/
theorem C63_hook_partial (o : Oracle) (cm : CM) (hr : Reach o cm) (ctl hw : List (Name × List Op)) (hc : cm.CtlVisits ctl)
    (hh : cm.HwVisits hw) :
    ((cm.hook o ctl hw).2 = true → ∀ n ∈ cm.ctls.map (·.name), (cm.hook o ctl hw).1.lcOf n = some .finalized) ∧
    ∃ es, (cm.hook o ctl hw).1.rm.tr = es ++ cm.rm.tr ∧
      ∀ n ∈ cm.rm.comps.map (·.name), (∀ p ∈ hw, p.2 = []) ∨ cm.ungrouped n →
        ((cm.hook o ctl hw).2 = true → (cm.hook o ctl hw).1.rm.stateOf n = some .finalized) ∧
        ((cm.hook o ctl hw).1.rm.stateOf n = some .finalized ∨ RM.Excuse n es) := by
  obtain ⟨c1, c2, c3, c4, es1, c5, c6⟩ := hookCtls_out o ctl true hr.inv hc.2
    (fun p hp => by rw [← hc.1]; exact List.mem_map_of_mem hp) (cm.hookCtls o ctl) rfl
  obtain ⟨d1, d2, d3, d4, d5, es2, d6, d7⟩ := hookComps_out o hw true c1 hh.2 ((cm.hookCtls o ctl).1.hookComps o hw) rfl
  have hfst : (cm.hook o ctl hw).1 = ((cm.hookCtls o ctl).1.hookComps o hw).1 := rfl
  have hsnd : (cm.hook o ctl hw).2 = ((cm.hookCtls o ctl).2 && ((cm.hookCtls o ctl).1.hookComps o hw).2) := rfl
  -- the components before and after the controllers have been shut down
  have hu : ∀ (segs : List (Name × List Op)) (x : CM) (b : Bool), Inv x → (∀ p ∈ segs, ∀ op ∈ p.2, op.late = true) → ∀ n,
      ((segs.foldl (fun (s : CM × Bool) p =>
        (((s.1.shutdownOne o p.1).run o p.2, s.2 && decide ((s.1.shutdownOne o p.1).lcOf p.1 = some .finalized)) : CM × Bool))
        (x, b)).1.rm.findHw n).map (·.group) = (x.rm.findHw n).map (·.group) := by
    intro segs
    induction segs with
    | nil => intro x b _ _ n; rfl
    | cons p t ih =>
      intro x b I h n
      have I1 := (Fwd.shutdownOne o x p.1).cmInv I
      have I2 := (run_late o p.2 I1 (h p (by simp))).1
      refine (ih _ _ I2 (fun q hq => h q (by simp [hq])) n).trans ?_
      refine (run_grp o p.2 I1 n).trans ?_
      rw [(SameHw.shutdownOne o x p.1).find]
  have hg : ∀ n, ((cm.hookCtls o ctl).1.rm.findHw n).map (·.group) = (cm.rm.findHw n).map (·.group) :=
    hu ctl cm true hr.inv hc.2
  refine ⟨?_, es2 ++ es1, ?_, ?_⟩
  · intro h n hn
    rw [hsnd, Bool.and_eq_true] at h
    rw [hfst]
    exact d3 n (c4 h.1 n (by rw [hc.1]; exact hn))
  · rw [hfst, d6, c5, List.append_assoc]
  · intro n hn hA
    have hm : n ∈ hw.map (·.1) := hh.1.mem_iff.2 hn
    have hs := stateOf_isSome hn
    have hs' : ((cm.hookCtls o ctl).1.rm.findHw n).isSome := by
      rw [← Option.isSome_map (f := fun h : Hw => h.group)] at hs ⊢
      rw [hg]; exact hs
    have al : Alone hw (cm.hookCtls o ctl).1 n := by
      rcases hA with h | h
      · exact .inl h
      · right
        rw [hg]
        obtain ⟨c, hc⟩ := Option.isSome_iff_exists.1 hs
        rw [hc]
        exact congrArg some (h c hc)
    rw [hfst]
    refine ⟨fun h => ?_, ?_⟩
    · rw [hsnd, Bool.and_eq_true] at h
      exact d5 h.2 n hm al
    · rcases d7 n hm al hs' with h | h
      · exact .inl h
      · exact .inr (h.right _)

/-! ## Concrete runs -/

/-- The demo robot with the controllers 100, 200 and 300 active, 400 inactive. -/
def running (o : Oracle) : CM := demo o (switchOps [100, 200, 300] [] .strict)

theorem running_reach (o : Oracle) : Reach o (running o) := demo_reach o _

/-- A real-time cycle. -/
def cycle : List Op := [.read (fun _ => .run), .update (fun _ => true) true, .write (fun _ => .run)]

/-- Cycles between all the visits: everything is finalized, the status is `true`. -/
example :
    (running goodOracle).CtlVisits [(200, cycle), (400, cycle), (100, cycle), (300, cycle)] ∧
    (running goodOracle).HwVisits [(2, cycle), (1, cycle)] ∧
    ((running goodOracle).hook goodOracle [(200, cycle), (400, cycle), (100, cycle), (300, cycle)] [(2, cycle), (1, cycle)]).2 = true ∧
    (running goodOracle).lcOf 200 = some .active ∧
    ((running goodOracle).hook goodOracle [(200, cycle), (400, cycle), (100, cycle), (300, cycle)]
      [(2, cycle), (1, cycle)]).1.lcOf 200 = some .finalized ∧
    ((running goodOracle).hook goodOracle [(200, cycle), (400, cycle), (100, cycle), (300, cycle)]
      [(2, cycle), (1, cycle)]).1.rm.stateOf 2 = some .finalized := by
  refine ⟨⟨by decide +kernel, ?_⟩, ⟨?_, ?_⟩, by decide +kernel, by decide +kernel, by decide +kernel, by decide +kernel⟩
  · intro p hp op hop
    simp only [List.mem_cons, List.not_mem_nil, or_false] at hp
    rcases hp with rfl | rfl | rfl | rfl <;> (simp [cycle] at hop; rcases hop with rfl | rfl | rfl <;> rfl)
  · have : (running goodOracle).rm.comps.map (·.name) = [1, 2] := by decide +kernel
    rw [this]; decide
  · intro p hp op hop
    simp only [List.mem_cons, List.not_mem_nil, or_false] at hp
    rcases hp with rfl | rfl <;> (simp [cycle] at hop; rcases hop with rfl | rfl | rfl <;> rfl)

example : ((running goodOracle).shutdownAll goodOracle).2 = true ∧
    (running goodOracle).heldBy 300 = some [⟨20, 0⟩] ∧ (running goodOracle).rm.claimed ⟨20, 0⟩ = some true ∧
    ((running goodOracle).shutdownAll goodOracle).1.rm.claimed ⟨20, 0⟩ = some false := by decide +kernel

/-- Two actuators in one group. -/
def pairSpecs : List RM.HwSpec :=
  [{ name := 1, kind := .actuator, group := some 7, loads := true, exportS := [⟨10, 0⟩], exportC := [⟨10, 0⟩],
     declS := [⟨10, 0⟩], declC := [⟨10, 0⟩] },
   { name := 2, kind := .actuator, group := some 7, loads := true, exportS := [⟨20, 0⟩], exportC := [⟨20, 0⟩],
     declS := [⟨20, 0⟩], declC := [⟨20, 0⟩] }]

/-- The second actuator fails to be read. -/
def readFails2 : Oracle :=
  { goodOracle with hwIo := fun _ n k => if n = 2 ∧ k = .read then .ret .error else .ret .ok }

/-- Both actuators of the pair are active. -/
def pairCM : CM := CM.run readFails2 (CM.start readFails2 false false pairSpecs) [.setHw 1 .active, .setHw 2 .active]

/-- **C63 (the full claim fails for groups).** The first actuator is shut down; before the second one is, its `read` fails; the
next `read` cycle therefore calls `on_error` of the *finalized* first actuator, which brings it back to UNCONFIGURED. The hook
reports success. -/
theorem C63_claim_fails_grouped :
    Reach readFails2 pairCM ∧ pairCM.rm.stateOf 1 = some .active ∧
    pairCM.CtlVisits [] ∧
    pairCM.HwVisits [(1, [.read (fun _ => .run), .read (fun _ => .run)]), (2, [])] ∧
    (pairCM.hook readFails2 [] [(1, [.read (fun _ => .run), .read (fun _ => .run)]), (2, [])]).2 = true ∧
    (pairCM.hook readFails2 [] [(1, [.read (fun _ => .run), .read (fun _ => .run)]), (2, [])]).1.rm.stateOf 1 =
      some .unconfigured ∧
    ¬ HookOk readFails2 pairCM [] [(1, [.read (fun _ => .run), .read (fun _ => .run)]), (2, [])] := by
  have h1 : (pairCM.hook readFails2 [] [(1, [.read (fun _ => .run), .read (fun _ => .run)]), (2, [])]).2 = true := by decide +kernel
  have h2 : (pairCM.hook readFails2 [] [(1, [.read (fun _ => .run), .read (fun _ => .run)]), (2, [])]).1.rm.stateOf 1 =
      some .unconfigured := by decide +kernel
  have h3 : pairCM.rm.comps.map (·.name) = [1, 2] := by decide +kernel
  refine ⟨⟨false, false, pairSpecs, _, rfl⟩, by decide +kernel, ⟨by decide +kernel, by simp⟩, ⟨?_, ?_⟩, h1, h2, ?_⟩
  · rw [h3]; exact List.Perm.refl _
  · intro p hp op hop
    simp only [List.mem_cons, List.not_mem_nil, or_false] at hp
    rcases hp with rfl | rfl <;> simp at hop
    subst hop; rfl
  · intro h
    have := (h h1).2 1 (by rw [h3]; simp)
    rw [h2] at this
    simp at this

/-- The system 2 refuses to be deactivated. -/
def hwRefuses : Oracle :=
  { goodOracle with hwCb := fun _ n cb => if n = 2 ∧ cb = .deactivate then .failure else .success }

/-- **C63 (a refusing component).** A component that answers FAILURE to `on_deactivate` stays ACTIVE, is never asked to shut
down and the real-time loop goes on writing to it. -/
theorem C63_component_refuses :
    Reach hwRefuses (running hwRefuses) ∧
    ((running hwRefuses).hook hwRefuses (calmly [200, 400, 100, 300]) [(1, []), (2, cycle)]).2 = false ∧
    ((running hwRefuses).hook hwRefuses (calmly [200, 400, 100, 300]) [(1, []), (2, cycle)]).1.rm.stateOf 2 = some .active ∧
    (∀ x, .hwCb 2 .shutdown x ∉ ((running hwRefuses).hook hwRefuses (calmly [200, 400, 100, 300]) [(1, []), (2, cycle)]).1.rm.tr) ∧
    (((running hwRefuses).hook hwRefuses (calmly [200, 400, 100, 300]) [(1, []), (2, cycle)]).1.rm.tr.head? =
      some (.hwIo 2 .write (.ret .ok))) := by
  refine ⟨running_reach _, by decide +kernel, by decide +kernel, ?_, by decide +kernel⟩
  intro x
  cases x <;> decide +kernel

/-- The controller 300 refuses to be deactivated. -/
def ctlRefuses : Oracle :=
  { goodOracle with ctlCb := fun _ n cb => if n = 300 ∧ cb = .deactivate then .failure else .success }

/-- **C63 (a refusing controller).** A controller that answers FAILURE to `on_deactivate` stays ACTIVE but loses its interfaces;
the next cycle of the real-time loop calls its `update` without any interface. -/
theorem C63_controller_refuses :
    Reach ctlRefuses (running ctlRefuses) ∧
    (running ctlRefuses).heldBy 300 = some [⟨20, 0⟩] ∧
    ((running ctlRefuses).hookCtls ctlRefuses (calmly [200, 400, 100, 300])).2 = false ∧
    ((running ctlRefuses).hookCtls ctlRefuses (calmly [200, 400, 100, 300])).1.lcOf 300 = some .active ∧
    ((running ctlRefuses).hookCtls ctlRefuses (calmly [200, 400, 100, 300])).1.heldBy 300 = some [] ∧
    (((running ctlRefuses).hookCtls ctlRefuses [(200, []), (400, []), (100, []), (300, cycle)]).1.rm.tr.contains
      (.ctlUpdate 300 (.ret .ok))) = true ∧
    (((running ctlRefuses).hookCtls ctlRefuses (calmly [200, 400, 100, 300])).1.rm.tr.contains
      (.ctlUpdate 300 (.ret .ok))) = false := by
  refine ⟨running_reach _, ?_, ?_, ?_, ?_, ?_, ?_⟩ <;> decide +kernel

end Verif
