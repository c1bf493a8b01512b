import Verif.Boot.Lemmas
import Verif.Props.CMDemo
/-!
# C65: the controller manager waits for a robot description and takes the first that loads

`boot os cfg is`: a controller manager made without a description, after the events `is` (descriptions on the topic, service calls, cycles of the
real-time loop in any order). Quantification: all parameters, answers of plugins, descriptions and histories.
-/
namespace Verif.Boot
open Verif

/-- Any history of a controller manager that is started without a description. -/
def boot (os : Nat → Oracle) (cfg : Cfg) (is : List In) : St := run os cfg (start os cfg noDesc [] []) is

theorem boot_append (os : Nat → Oracle) (cfg : Cfg) (is : List In) (i : In) :
    boot os cfg (is ++ [i]) = step os cfg (boot os cfg is) i := by simp [boot, run]

theorem callback_in_use (os : Nat → Oracle) (cfg : Cfg) (s : St) (hi : s.inited = true) (d : Desc) (ord gord : List Name) :
    callback os cfg s d ord gord = { s with desc := d.id } := by
  unfold callback; rw [if_pos hi]

/-- Invariant: waiting, or using one of the descriptions received. -/
theorem boot_inv (os : Nat → Oracle) (cfg : Cfg) (hh : cfg.handle = true) (is : List In) :
    ((boot os cfg is).inited = false ∧ Waits cfg (boot os cfg is)) ∨
    ((boot os cfg is).inited = true ∧ ∃ pre d ord gord post, is = pre ++ .desc d ord gord :: post ∧ (boot os cfg pre).inited = false ∧
      (boot os cfg pre).gen = (boot os cfg is).gen ∧ Uses os cfg (boot os cfg is) d) := by
  induction is using List.reverseRecOn with
  | nil => exact .inl ⟨rfl, rfl, rfl, rfl, rfl⟩
  | append_singleton is i ih =>
    rw [boot_append]
    generalize hb : boot os cfg is = s at ih
    rcases ih with ⟨hi, W⟩ | ⟨hi, pre, d, ord, gord, post, e, hp, hg, U⟩
    · have ha := W.alive
      unfold step
      rw [if_neg (by simp [ha])]
      cases i with
      | desc d ord gord =>
        dsimp only
        rcases callback_waits os cfg hh s W hi d ord gord with ⟨h1, h2, h3, -⟩ | ⟨h1, -⟩
        · exact .inr ⟨h1, is, d, ord, gord, [], rfl, by rw [hb]; exact hi, by rw [hb, h3], h2⟩
        · left
          rw [h1]
          exact ⟨hi, rfl, W.lim, W.services, ha⟩
      | op x =>
        left
        dsimp only
        split
        · rename_i hx
          have hx : free x = true := by simpa [W.services] using hx
          refine ⟨hi, ?_, W.lim, W.services, ha⟩
          show s.cm.step (os s.gen) x = blank cfg s.gen
          rw [W.cm]
          exact quiet _ _ _ x hx
        · exact ⟨hi, W⟩
      | rtEnter =>
        left
        dsimp only
        split
        · exact ⟨hi, W.cm, W.lim, W.services, ha⟩
        · exact ⟨hi, W⟩
      | rtLeave => exact .inl ⟨hi, W.cm, W.lim, W.services, ha⟩
    · right
      have hU : (step os cfg s i).inited = true ∧ (step os cfg s i).gen = s.gen ∧ Uses os cfg (step os cfg s i) d := by
        unfold step
        split
        · exact ⟨hi, rfl, U⟩
        cases i with
        | desc d' ord' gord' =>
          dsimp only
          rw [callback_in_use os cfg s hi]
          exact ⟨hi, rfl, U.text, U.hw, U.lim, U.services, U.dead⟩
        | op x =>
          dsimp only
          split
          · refine ⟨hi, rfl, U.text, ?_, U.lim, U.services, U.dead⟩
            obtain ⟨specs, ops, h1, h2, h3⟩ := U.hw
            refine ⟨specs, ops ++ [x], h1, h2, ?_⟩
            dsimp only
            rw [h3]
            simp [CM.run]
          · exact ⟨hi, rfl, U⟩
        | rtEnter =>
          dsimp only
          split
          · exact ⟨hi, rfl, U.text, U.hw, U.lim, U.services, U.dead⟩
          · exact ⟨hi, rfl, U⟩
        | rtLeave => exact ⟨hi, rfl, U.text, U.hw, U.lim, U.services, U.dead⟩
      exact ⟨hU.1, pre, d, ord, gord, post ++ [i], by rw [e]; simp, hp, by rw [hU.2.1]; exact hg, hU.2.2⟩

/-- **C65 (nothing before a description).** As long as no description has been accepted no service is offered, no controller is loaded, there is no
hardware, no interface and no joint limit, and nothing has been asked of any plugin of the current resource manager — whatever descriptions were
rejected, whatever the real-time loop did. -/
theorem C65_waiting (os : Nat → Oracle) (cfg : Cfg) (hh : cfg.handle = true) (is : List In) (h : (boot os cfg is).inited = false) :
    (boot os cfg is).services = false ∧ (boot os cfg is).dead = false ∧ (boot os cfg is).lim = [] ∧ (boot os cfg is).cm.ctls = [] ∧
    (boot os cfg is).cm.rm.comps = [] ∧ (boot os cfg is).cm.rm.stateKeys = [] ∧ (boot os cfg is).cm.rm.cmdKeys = [] ∧
    (boot os cfg is).cm.rm.tr = [] := by
  rcases boot_inv os cfg hh is with ⟨-, W⟩ | ⟨h', -⟩
  · refine ⟨W.services, W.alive, W.lim, ?_⟩
    rw [W.cm]
    exact ⟨rfl, rfl, rfl, rfl, rfl⟩
  · rw [h] at h'; cases h'

/-- **C65 (the accepted description).** Once initialised: exactly one of the descriptions received is in use, the first that loads; the hardware
components are its components, in that order; no interface it declares was missing when it was loaded; the joint limits are its limits; and the manager is a state of
`CM.Reach`, so that everything proved about reachable managers holds. -/
theorem C65_accepted (os : Nat → Oracle) (cfg : Cfg) (hh : cfg.handle = true) (is : List In) (h : (boot os cfg is).inited = true) :
    ∃ pre d ord gord post specs, is = pre ++ .desc d ord gord :: post ∧ (boot os cfg pre).inited = false ∧
      d.empty = false ∧ d.parsed = some specs ∧ (boot os cfg is).rmDesc = d.id ∧
      (boot os cfg is).cm.rm.comps.map Hw.sig = specs.map RM.HwSpec.sig ∧
      (boot os cfg is).lim = (if cfg.enforce then addLimits [] d.limits else []) ∧
      ¬ (RM.loadLoop (os (boot os cfg is).gen) (boot os cfg pre).cm.rm specs).1.Missing specs ∧
      CM.Reach (os (boot os cfg is).gen) (boot os cfg is).cm ∧
      ((boot os cfg is).services = true ∨ (boot os cfg is).dead = true ∧ cfg.initial.shutdownOnFailure = true) := by
  rcases boot_inv os cfg hh is with ⟨h', -⟩ | ⟨-, pre, d, ord, gord, post, e, hp, hg, U⟩
  · rw [h] at h'; cases h'
  obtain ⟨specs, ops, h1, h2, h3⟩ := U.hw
  refine ⟨pre, d, ord, gord, post, specs, e, hp, U.text.1, h1, U.text.2, ?_, U.lim, ?_, ⟨_, _, _, _, h3⟩, ?_⟩
  · obtain ⟨k1, k2, -⟩ := RM.loadAll_true _ _ _ h2
    obtain ⟨k3, -⟩ := RM.loadLoop_ok _ _ _ k2
    rw [h3]
    have hst : ∀ (l : List CM.Op) (x : CM), CM.Inv x → (x.run (os (boot os cfg is).gen) l).rm.comps.map Hw.static = x.rm.comps.map Hw.static := by
      intro l
      induction l with
      | nil => intro x _; rfl
      | cons a t ih =>
        intro x I
        exact (ih _ (CM.inv_step _ I a)).trans (CM.step_used _ I a).2
    have hs := hst ops _ (CM.inv_start (os (boot os cfg is).gen) (params cfg (boot os cfg is).gen).1 (params cfg (boot os cfg is).gen).2 specs)
    have hc : ∀ l : List Hw, l.map Hw.sig = (l.map Hw.static).map Hw.sig := by
      intro l; rw [List.map_map]; rfl
    rw [hc, hs, ← hc]
    show ((RM.empty _ _).loadAll _ specs).1.comps.map Hw.sig = _
    rw [k1, k3]
    simp [RM.empty]
  · have W : Waits cfg (boot os cfg pre) := by
      rcases boot_inv os cfg hh pre with ⟨-, W⟩ | ⟨h', -⟩
      · exact W
      · rw [hp] at h'; cases h'
    have hrm : (boot os cfg pre).cm.rm = RM.empty (params cfg (boot os cfg is).gen).1 (params cfg (boot os cfg is).gen).2 := by
      rw [W.cm, hg]; rfl
    rw [hrm]
    exact (RM.loadAll_true _ _ _ h2).2.2
  · rw [U.services]
    cases hd : (boot os cfg is).dead with
    | false => exact .inl rfl
    | true => exact .inr ⟨rfl, U.dead hd⟩

theorem addLimits_find (new lim : List (Name × Name × Nat)) (p : Name × Name) :
    (addLimits lim new).find? (fun y => decide (y.1 = p.1 ∧ y.2.1 = p.2)) = (lim ++ new).find? (fun y => decide (y.1 = p.1 ∧ y.2.1 = p.2)) := by
  induction new generalizing lim with
  | nil => simp [addLimits]
  | cons x t ih =>
    show (addLimits (if lim.any (fun y => decide (y.1 = x.1 ∧ y.2.1 = x.2.1)) then lim else lim ++ [x]) t).find? _ = _
    rw [ih]
    split
    · rename_i ha
      rw [List.find?_append, List.find?_append]
      by_cases hx : x.1 = p.1 ∧ x.2.1 = p.2
      · have : (lim.find? (fun y => decide (y.1 = p.1 ∧ y.2.1 = p.2))).isSome := by
          rw [List.find?_isSome]
          obtain ⟨y, hy, h⟩ := List.any_eq_true.mp ha
          exact ⟨y, hy, by simpa [hx.1, hx.2] using h⟩
        obtain ⟨v, hv⟩ := Option.isSome_iff_exists.mp this
        rw [hv]; rfl
      · rw [List.find?_cons_of_neg (by simpa using hx)]
    · rw [List.append_assoc]; rfl

theorem addLimits_once (new lim : List (Name × Name × Nat)) (h : lim.Pairwise (fun x y => (x.1, x.2.1) ≠ (y.1, y.2.1))) :
    (addLimits lim new).Pairwise (fun x y => (x.1, x.2.1) ≠ (y.1, y.2.1)) := by
  induction new generalizing lim with
  | nil => simpa [addLimits] using h
  | cons x t ih =>
    show (addLimits (if lim.any (fun y => decide (y.1 = x.1 ∧ y.2.1 = x.2.1)) then lim else lim ++ [x]) t).Pairwise _
    apply ih
    split
    · exact h
    · rename_i ha
      rw [List.pairwise_append]
      refine ⟨h, by simp, fun a ha' b hb => ?_⟩
      rw [List.mem_singleton] at hb
      subst hb
      intro he
      apply ha
      rw [List.any_eq_true]
      exact ⟨a, ha', by simpa using he⟩

/-- **C65 (the limits in force).** With limit enforcement on, the limit applied to a joint of a component is the first one the accepted description
gives for that joint of that component, for every component and joint, and there is one limiter per joint of a component; with enforcement off there
is none. (`d` is the description in use: the first that loads, `C65_accepted`.) -/
theorem C65_limits (os : Nat → Oracle) (cfg : Cfg) (hh : cfg.handle = true) (is : List In) (h : (boot os cfg is).inited = true) :
    ∃ pre d ord gord post, is = pre ++ .desc d ord gord :: post ∧ (boot os cfg pre).inited = false ∧ (boot os cfg is).rmDesc = d.id ∧
      (boot os cfg is).lim.Pairwise (fun x y => (x.1, x.2.1) ≠ (y.1, y.2.1)) ∧
      ∀ hw joint : Name, (boot os cfg is).lim.find? (fun y => decide (y.1 = hw ∧ y.2.1 = joint)) =
        (if cfg.enforce then d.limits.find? (fun y => decide (y.1 = hw ∧ y.2.1 = joint)) else none) := by
  obtain ⟨pre, d, ord, gord, post, specs, e, hp, -, -, ht, -, hl, -⟩ := C65_accepted os cfg hh is h
  refine ⟨pre, d, ord, gord, post, e, hp, ht, ?_, fun hw joint => ?_⟩ <;> rw [hl]
  · split
    · exact addLimits_once _ _ List.Pairwise.nil
    · exact List.Pairwise.nil
  · split
    · exact addLimits_find d.limits [] (hw, joint)
    · rfl

/-- **C65 (a dead process).** After an exception left the callback or the constructor nothing happens any more: whatever descriptions, requests and
cycles come, neither the controllers nor the hardware, nor anything asked of a plugin changes. -/
theorem C65_dead (os : Nat → Oracle) (cfg : Cfg) (is post : List In) (h : (boot os cfg is).dead = true) : boot os cfg (is ++ post) = boot os cfg is := by
  induction post using List.reverseRecOn with
  | nil => rw [List.append_nil]
  | append_singleton post i ih => rw [← List.append_assoc, boot_append, ih]; unfold step; rw [if_pos h]

/-- **C65 (later descriptions are ignored).** Once a description is in use a further one changes nothing but the text handed to controllers. -/
theorem C65_ignored (os : Nat → Oracle) (cfg : Cfg) (s : St) (hi : s.inited = true) (hd : s.dead = false) (d : Desc) (ord gord : List Name) :
    step os cfg s (.desc d ord gord) = { s with desc := d.id } := by
  unfold step
  rw [if_neg (by simp [hd])]
  exact callback_in_use os cfg s hi d ord gord

/-- **C65 (which descriptions are accepted).** While waiting, a description is accepted exactly if it is not empty, can be parsed, and loads in a new
resource manager — independently of all descriptions that were rejected before. -/
theorem C65_accepted_iff (os : Nat → Oracle) (cfg : Cfg) (hh : cfg.handle = true) (is : List In) (h : (boot os cfg is).inited = false) (d : Desc)
    (ord gord : List Name) :
    (boot os cfg (is ++ [.desc d ord gord])).inited = true ↔
      d.empty = false ∧ ∃ specs, d.parsed = some specs ∧
        ((RM.empty (params cfg (boot os cfg is).gen).1 (params cfg (boot os cfg is).gen).2).loadAll (os (boot os cfg is).gen) specs).2 = true := by
  rw [boot_append]
  rcases boot_inv os cfg hh is with ⟨-, W⟩ | ⟨h', -⟩
  swap
  · rw [h] at h'; cases h'
  generalize boot os cfg is = s at *
  have e : step os cfg s (.desc d ord gord) = callback os cfg s d ord gord := by
    unfold step; rw [if_neg (by simp [W.alive])]
  rw [e]
  rcases callback_waits os cfg hh s W h d ord gord with ⟨h1, h2, h3, -⟩ | ⟨h1, h2⟩
  · refine ⟨fun _ => ⟨h2.text.1, ?_⟩, fun _ => h1⟩
    obtain ⟨specs, ops, k1, k2, -⟩ := h2.hw
    rw [h3] at k2
    exact ⟨specs, k1, k2⟩
  · refine ⟨fun hx => ?_, ?_⟩
    · rw [h1] at hx
      have : s.inited = true := hx
      rw [h] at this; cases this
    · rintro ⟨k1, specs, k2, k3⟩
      rcases h2 with h2 | h2 | ⟨specs', h2, h3⟩
      · rw [k1] at h2; cases h2
      · rw [k2] at h2; cases h2
      · rw [k2] at h2; cases h2
        rw [k3] at h3; cases h3

/-- **C65 (why a description does not load).** A name occurs twice, a plugin does not exist, an `on_init` was not successful, or a declared interface
is missing. -/
theorem C65_reasons (o : Oracle) (rm : RM) (specs : List RM.HwSpec) (h : (rm.loadAll o specs).2 = false) :
    (∃ pre s post, specs = pre ++ s :: post ∧ (RM.loadLoop o rm pre).1.LoadFails o s) ∨ (RM.loadLoop o rm specs).1.Missing specs := by
  rcases RM.loadAll_false o rm specs h with h | h
  · obtain ⟨pre, s, post, e, -, k⟩ := RM.loadLoop_fails o specs rm h
    exact .inl ⟨pre, s, post, e, k⟩
  · exact .inr h

/-- **C65 (the process ends only if asked to).** Without `shutdown_on_initial_state_failure` the start never throws. -/
theorem C65_no_throw (os : Nat → Oracle) (cfg : Cfg) (hh : cfg.handle = true) (hs : cfg.initial.shutdownOnFailure = false) (is : List In) :
    (boot os cfg is).dead = false := by
  rcases boot_inv os cfg hh is with ⟨-, W⟩ | ⟨-, pre, d, ord, gord, post, e, hp, hg, U⟩
  · exact W.alive
  · cases hd : (boot os cfg is).dead with
    | false => rfl
    | true => have := U.dead hd; rw [hs] at this; cases this

/-! ## The settings -/

theorem setting_step (o : Oracle) (rm : RM) (n : Name) (t : LState) :
    (rm.setComponentState o n t).1.allowInactive = rm.allowInactive ∧
    (rm.setComponentState o n t).1.reportDeactivated = rm.reportDeactivated := by
  have hrg : ∀ (rm : RM) g, (rm.resetGroup g).allowInactive = rm.allowInactive ∧ (rm.resetGroup g).reportDeactivated = rm.reportDeactivated := by
    intro rm g; unfold RM.resetGroup; split <;> exact ⟨rfl, rfl⟩
  have h1 : ∀ (rm : RM) h, (rm.configureHw o h).1.allowInactive = rm.allowInactive ∧ (rm.configureHw o h).1.reportDeactivated = rm.reportDeactivated := by
    intro rm h; unfold RM.configureHw; simp only; refine ⟨(hrg _ _).1.trans ?_, (hrg _ _).2.trans ?_⟩ <;> split <;> rfl
  have h2 : ∀ (rm : RM) h, (rm.cleanupHw o h).1.allowInactive = rm.allowInactive ∧ (rm.cleanupHw o h).1.reportDeactivated = rm.reportDeactivated := by
    intro rm h; unfold RM.cleanupHw; simp only; refine ⟨(hrg _ _).1.trans ?_, (hrg _ _).2.trans ?_⟩ <;> split <;> rfl
  have h3 : ∀ (rm : RM) h, (rm.shutdownHw o h).1.allowInactive = rm.allowInactive ∧ (rm.shutdownHw o h).1.reportDeactivated = rm.reportDeactivated := by
    intro rm h; unfold RM.shutdownHw; simp only
    split
    · exact ⟨(hrg _ _).1, (hrg _ _).2⟩
    · exact ⟨rfl, rfl⟩
  have h4 : ∀ (rm : RM) h, (rm.activateHw o h).1.allowInactive = rm.allowInactive ∧ (rm.activateHw o h).1.reportDeactivated = rm.reportDeactivated :=
    fun _ _ => ⟨rfl, rfl⟩
  have h5 : ∀ (rm : RM) h, (rm.deactivateHw o h).1.allowInactive = rm.allowInactive ∧ (rm.deactivateHw o h).1.reportDeactivated = rm.reportDeactivated :=
    fun _ _ => ⟨rfl, rfl⟩
  have h6 : ∀ (rm : RM) (r : RM × Hw × Bool) (f : RM → Hw → RM × Hw × Bool),
      (r.1.allowInactive = rm.allowInactive ∧ r.1.reportDeactivated = rm.reportDeactivated) →
      (∀ (x : RM) y, (f x y).1.allowInactive = x.allowInactive ∧ (f x y).1.reportDeactivated = x.reportDeactivated) →
      (RM.andThen r f).1.allowInactive = rm.allowInactive ∧ (RM.andThen r f).1.reportDeactivated = rm.reportDeactivated := by
    intro rm r f hr hf
    unfold RM.andThen
    split
    · exact ⟨(hf _ _).1.trans hr.1, (hf _ _).2.trans hr.2⟩
    · exact hr
  unfold RM.setComponentState
  split
  · exact ⟨rfl, rfl⟩
  rename_i h _
  simp only
  unfold RM.setHwState
  split <;> first
    | exact ⟨rfl, rfl⟩
    | exact h1 _ _
    | exact h2 _ _
    | exact h3 _ _
    | exact h6 _ _ _ (h1 _ _) h4
    | exact h6 _ _ _ (h5 _ _) h2
    | exact h6 _ _ _ (h5 _ _) h3

theorem setting_load (o : Oracle) (rm : RM) (specs : List RM.HwSpec) :
    (rm.loadAll o specs).1.allowInactive = rm.allowInactive ∧ (rm.loadAll o specs).1.reportDeactivated = rm.reportDeactivated := by
  have hS : ∀ (is : List Itf) (rm : RM), (rm.addStateItfs is).1.allowInactive = rm.allowInactive ∧
      (rm.addStateItfs is).1.reportDeactivated = rm.reportDeactivated := by
    intro is
    induction is with
    | nil => intro rm; exact ⟨rfl, rfl⟩
    | cons i t ih => intro rm; unfold RM.addStateItfs; split <;> exact ⟨(ih _).1, (ih _).2⟩
  have hC : ∀ (is : List Itf) (rm : RM), (rm.addCmdItfs is).1.allowInactive = rm.allowInactive ∧
      (rm.addCmdItfs is).1.reportDeactivated = rm.reportDeactivated := by
    intro is
    induction is with
    | nil => intro rm; exact ⟨rfl, rfl⟩
    | cons i t ih =>
      intro rm; unfold RM.addCmdItfs
      split
      · exact ⟨rfl, rfl⟩
      · exact ⟨(ih _).1, (ih _).2⟩
  have h1 : ∀ (rm : RM) s, (rm.loadOne o s).1.allowInactive = rm.allowInactive ∧ (rm.loadOne o s).1.reportDeactivated = rm.reportDeactivated := by
    intro rm s
    unfold RM.loadOne
    split
    · exact ⟨rfl, rfl⟩
    split
    · exact ⟨rfl, rfl⟩
    dsimp only
    split
    · split
      · exact ⟨(hS _ _).1, (hS _ _).2⟩
      · split <;> rename_i rm2 _ he <;>
          (have a := congrArg (fun q : RM × Option (List Itf) => q.1.allowInactive) he
           have b := congrArg (fun q : RM × Option (List Itf) => q.1.reportDeactivated) he
           dsimp only at a b
           rw [(hC _ _).1, (hS _ _).1] at a
           rw [(hC _ _).2, (hS _ _).2] at b
           exact ⟨a.symm, b.symm⟩)
    · exact ⟨rfl, rfl⟩
  have h2 : ∀ (l : List RM.HwSpec) (x : RM × Bool),
      (l.foldl (fun (acc : RM × Bool) s => if acc.2 then acc.1.loadOne o s else acc) x).1.allowInactive = x.1.allowInactive ∧
      (l.foldl (fun (acc : RM × Bool) s => if acc.2 then acc.1.loadOne o s else acc) x).1.reportDeactivated = x.1.reportDeactivated := by
    intro l
    induction l with
    | nil => intro x; exact ⟨rfl, rfl⟩
    | cons s t ih =>
      intro x
      rw [List.foldl_cons]
      refine ⟨(ih _).1.trans ?_, (ih _).2.trans ?_⟩ <;> split
      · exact (h1 _ _).1
      · rfl
      · exact (h1 _ _).2
      · rfl
  unfold RM.loadAll
  dsimp only
  split
  · exact h2 specs (rm, true)
  · exact h2 specs (rm, true)

/-- A description. -/
def In.isDesc : In → Bool
  | .desc _ _ _ => true
  | _ => false

/-- While the manager waits, each description has been rejected and made a new resource manager. -/
theorem gen_count (os : Nat → Oracle) (cfg : Cfg) (hh : cfg.handle = true) (is : List In) (h : (boot os cfg is).inited = false) :
    (boot os cfg is).gen = is.countP In.isDesc := by
  induction is using List.reverseRecOn with
  | nil => rfl
  | append_singleton is i ih =>
    have hi : (boot os cfg is).inited = false := by
      cases hx : (boot os cfg is).inited with
      | false => rfl
      | true =>
        rw [boot_append] at h
        generalize boot os cfg is = s at *
        unfold step at h
        split at h
        · rw [hx] at h; exact h
        cases i with
        | desc d ord gord => dsimp only at h; rw [callback_in_use os cfg s hx] at h; rw [← h]; exact hx.symm
        | op x => dsimp only at h; split at h <;> (rw [← h]; exact hx.symm)
        | rtEnter => dsimp only at h; split at h <;> (rw [← h]; exact hx.symm)
        | rtLeave => dsimp only at h; rw [← h]; exact hx.symm
    have ih := ih hi
    rw [List.countP_append, ← ih]
    rw [boot_append] at h ⊢
    rcases boot_inv os cfg hh is with ⟨-, W⟩ | ⟨h', -⟩
    swap
    · rw [hi] at h'; cases h'
    generalize boot os cfg is = s at *
    cases i with
    | desc d ord gord =>
      have e : step os cfg s (.desc d ord gord) = callback os cfg s d ord gord := by
        unfold step; rw [if_neg (by simp [W.alive])]
      rw [e] at h ⊢
      rcases callback_waits os cfg hh s W hi d ord gord with ⟨h1, -⟩ | ⟨h1, -⟩
      · rw [h] at h1; cases h1
      · rw [h1]; rfl
    | op x => unfold step; rw [if_neg (by simp [W.alive])]; dsimp only; split <;> rfl
    | rtEnter => unfold step; rw [if_neg (by simp [W.alive])]; dsimp only; split <;> rfl
    | rtLeave => unfold step; rw [if_neg (by simp [W.alive])]; rfl

/-- The settings a resource manager has when its description is accepted. -/
theorem setting_accepted (os : Nat → Oracle) (cfg : Cfg) (hh : cfg.handle = true) (is : List In) (h : (boot os cfg is).inited = false) (d : Desc)
    (ord gord : List Name) (ha : (boot os cfg (is ++ [.desc d ord gord])).inited = true) :
    ((boot os cfg (is ++ [.desc d ord gord])).cm.rm.allowInactive, (boot os cfg (is ++ [.desc d ord gord])).cm.rm.reportDeactivated) =
      params cfg (boot os cfg is).gen := by
  rw [boot_append] at ha ⊢
  rcases boot_inv os cfg hh is with ⟨-, W⟩ | ⟨h', -⟩
  swap
  · rw [h] at h'; cases h'
  generalize boot os cfg is = s at *
  have e : step os cfg s (.desc d ord gord) = callback os cfg s d ord gord := by
    unfold step; rw [if_neg (by simp [W.alive])]
  rw [e] at ha ⊢
  have hW : s.cm.rm.allowInactive = (params cfg s.gen).1 ∧ s.cm.rm.reportDeactivated = (params cfg s.gen).2 := by rw [W.cm]; exact ⟨rfl, rfl⟩
  unfold callback at ha ⊢
  rw [if_neg (by simp [h])] at ha ⊢
  dsimp only at ha ⊢
  split at ha
  · rename_i hx; dsimp only at ha; rw [hx] at ha; cases ha
  rename_i hx
  rw [if_neg hx]
  have hi : (initRm os cfg { s with desc := d.id } d).cm.rm.allowInactive = s.cm.rm.allowInactive ∧
      (initRm os cfg { s with desc := d.id } d).cm.rm.reportDeactivated = s.cm.rm.reportDeactivated := by
    unfold initRm
    split
    · exact ⟨rfl, rfl⟩
    split
    · split <;> exact ⟨rfl, rfl⟩
    · dsimp only
      rw [hh, loadDesc_handled]
      exact setting_load _ _ _
  have hb := RM.bringUp_ind (os (initRm os cfg { s with desc := d.id } d).gen)
    (fun rm => rm.allowInactive = s.cm.rm.allowInactive ∧ rm.reportDeactivated = s.cm.rm.reportDeactivated)
    (fun rm n t hr => ⟨(setting_step _ rm n t).1.trans hr.1, (setting_step _ rm n t).2.trans hr.2⟩) cfg.initial ord gord _ hi
  exact Prod.ext (hb.1.trans hW.1) (hb.2.trans hW.2)

/-- The full claim: the parameters of the controller manager are in force for the hardware. -/
def SettingsInForce (os : Nat → Oracle) (cfg : Cfg) (is : List In) : Prop :=
  (boot os cfg is).inited = true →
    (boot os cfg is).cm.rm.allowInactive = cfg.allowInactive ∧ (boot os cfg is).cm.rm.reportDeactivated = cfg.reportDeactivated

/-- **C65 (parameters).** If the first description received is accepted, the parameters of the controller manager are in force when its hardware
starts. Missing for the full claim (`SettingsInForce`): it is false once a description has been rejected, see `C65_settings_lost`. -/
theorem C65_settings_partial (os : Nat → Oracle) (cfg : Cfg) (hh : cfg.handle = true) (is : List In) (h : (boot os cfg is).inited = false)
    (hno : ∀ i ∈ is, i.isDesc = false) (d : Desc) (ord gord : List Name) : SettingsInForce os cfg (is ++ [.desc d ord gord]) := by
  intro ha
  have hs := setting_accepted os cfg hh is h d ord gord ha
  have hg : (boot os cfg is).gen = 0 := by
    rw [gen_count os cfg hh is h, List.countP_eq_zero]
    intro i hi; rw [hno i hi]; simp
  rw [hg] at hs
  simp only [params, if_true, Prod.mk.injEq] at hs
  exact hs

/-- **C65 (the parameters are lost after a rejected description).** If any description was rejected before, the accepted one runs with the default
settings, whatever the parameters of the controller manager say. -/
theorem C65_settings_lost (os : Nat → Oracle) (cfg : Cfg) (hh : cfg.handle = true) (is : List In) (h : (boot os cfg is).inited = false)
    (hsome : ∃ i ∈ is, i.isDesc = true) (d : Desc) (ord gord : List Name) (ha : (boot os cfg (is ++ [.desc d ord gord])).inited = true) :
    (boot os cfg (is ++ [.desc d ord gord])).cm.rm.allowInactive = false ∧
    (boot os cfg (is ++ [.desc d ord gord])).cm.rm.reportDeactivated = true := by
  have hs := setting_accepted os cfg hh is h d ord gord ha
  have hg : (boot os cfg is).gen ≠ 0 := by
    rw [gen_count os cfg hh is h]
    intro hx
    rw [List.countP_eq_zero] at hx
    obtain ⟨i, hi, hd⟩ := hsome
    exact hx i hi hd
  simp only [params, hg, if_false, Prod.mk.injEq] at hs
  exact hs

/-! ## The real-time thread and the replaced resource manager -/

theorem gen_mono (os : Nat → Oracle) (cfg : Cfg) (s : St) (i : In) : s.gen ≤ (step os cfg s i).gen := by
  unfold step
  split
  · exact Nat.le_refl _
  cases i with
  | desc d ord gord =>
    dsimp only
    have hi : ∀ x : St, (initRm os cfg x d).gen = x.gen := by
      intro x
      unfold initRm
      split
      · rfl
      split
      · split <;> rfl
      · dsimp only; split <;> rfl
    unfold callback
    split
    · exact Nat.le_refl _
    dsimp only
    split
    · dsimp only; rw [hi]; exact Nat.le_succ _
    · unfold finish; dsimp only; rw [hi]
  | op x => dsimp only; split <;> exact Nat.le_refl _
  | rtEnter => dsimp only; split <;> exact Nat.le_refl _
  | rtLeave => exact Nat.le_refl _

theorem callback_rt (os : Nat → Oracle) (cfg : Cfg) (s : St) (d : Desc) (ord gord : List Name) :
    (callback os cfg s d ord gord).rt = s.rt ∧ (callback os cfg s d ord gord).uaf = s.uaf := by
  have hi : ∀ x : St, (initRm os cfg x d).rt = x.rt ∧ (initRm os cfg x d).uaf = x.uaf := by
    intro x
    unfold initRm
    split
    · exact ⟨rfl, rfl⟩
    split
    · split <;> exact ⟨rfl, rfl⟩
    · dsimp only; split <;> exact ⟨rfl, rfl⟩
  unfold callback
  split
  · exact ⟨rfl, rfl⟩
  dsimp only
  split
  · exact hi _
  · exact hi _

/-- **C65 (no dangling resource manager).** As long as no description has been rejected — the resource manager is still the first object — the
real-time thread never uses a resource manager that has been destroyed. Missing for the full claim: see `C65_dangling`. -/
theorem C65_no_dangling_partial (os : Nat → Oracle) (cfg : Cfg) (is : List In) (h : (boot os cfg is).gen = 0) : (boot os cfg is).uaf = false := by
  have key : (∀ g, (boot os cfg is).rt = some g → g ≤ (boot os cfg is).gen) ∧ ((boot os cfg is).uaf = true → 0 < (boot os cfg is).gen) := by
    clear h
    induction is using List.reverseRecOn with
    | nil => exact ⟨(by intro g hg; cases hg), (by intro hu; cases hu)⟩
    | append_singleton is i ih =>
      rw [boot_append]
      generalize boot os cfg is = s at *
      have hm := gen_mono os cfg s i
      have hr : (∀ g, (step os cfg s i).rt = some g → s.rt = some g ∨ g = s.gen) ∧
          ((step os cfg s i).uaf = true → s.uaf = true ∨ ∃ g, s.rt = some g ∧ g ≠ s.gen) := by
        unfold step
        split
        · exact ⟨fun g hg => .inl hg, .inl⟩
        cases i with
        | desc d ord gord =>
          dsimp only
          rw [(callback_rt os cfg s d ord gord).1, (callback_rt os cfg s d ord gord).2]
          exact ⟨fun g hg => .inl hg, .inl⟩
        | op x => dsimp only; split <;> exact ⟨fun g hg => .inl hg, .inl⟩
        | rtEnter =>
          dsimp only
          split
          · exact ⟨fun g hg => .inr (Option.some.inj hg).symm, .inl⟩
          · exact ⟨fun g hg => .inl hg, .inl⟩
        | rtLeave =>
          refine ⟨(by intro g hg; cases hg), ?_⟩
          intro hu
          simp only [Bool.or_eq_true, decide_eq_true_eq] at hu
          rcases hu with hu | ⟨h1, h2⟩
          · exact .inl hu
          · right
            cases hx : s.rt with
            | none => exact absurd hx h1
            | some g => exact ⟨g, rfl, fun e => h2 (by rw [hx, e])⟩
      refine ⟨fun g hg => ?_, fun hu => ?_⟩
      · rcases hr.1 g hg with h1 | h1
        · exact Nat.le_trans (ih.1 g h1) hm
        · rw [h1]; exact hm
      · rcases hr.2 hu with h1 | ⟨g, h1, h2⟩
        · exact Nat.lt_of_lt_of_le (ih.2 h1) hm
        · have := ih.1 g h1
          omega
  cases hu : (boot os cfg is).uaf with
  | false => rfl
  | true => have := key.2 hu; omega

/-- **C65 (the text for controllers).** As long as no further description arrives after the accepted one, controllers are loaded with the description
the hardware was made from. Missing for the full claim: see `C65_text_diverges`. -/
theorem C65_text_partial (os : Nat → Oracle) (cfg : Cfg) (hh : cfg.handle = true) (is : List In) (h : (boot os cfg is).inited = false) (d : Desc)
    (ord gord : List Name) (ha : (boot os cfg (is ++ [.desc d ord gord])).inited = true) (post : List In) (hp : ∀ i ∈ post, i.isDesc = false) :
    (boot os cfg (is ++ [.desc d ord gord] ++ post)).desc = d.id ∧ (boot os cfg (is ++ [.desc d ord gord] ++ post)).rmDesc = d.id := by
  induction post using List.reverseRecOn with
  | nil =>
    rw [List.append_nil]
    rw [boot_append] at ha ⊢
    rcases boot_inv os cfg hh is with ⟨-, W⟩ | ⟨h', -⟩
    swap
    · rw [h] at h'; cases h'
    generalize boot os cfg is = s at *
    have e : step os cfg s (.desc d ord gord) = callback os cfg s d ord gord := by
      unfold step; rw [if_neg (by simp [W.alive])]
    rw [e] at ha ⊢
    rcases callback_waits os cfg hh s W h d ord gord with ⟨-, h2, -, h3⟩ | ⟨h1, -⟩
    · exact ⟨h3, h2.text.2⟩
    · rw [h1] at ha
      have : s.inited = true := ha
      rw [h] at this; cases this
  | append_singleton post i ih =>
    have ih := ih (fun i hi => hp i (by simp [hi]))
    have hi := hp i (by simp)
    rw [← List.append_assoc, boot_append]
    generalize boot os cfg (is ++ [.desc d ord gord] ++ post) = s at *
    unfold step
    split
    · exact ih
    cases i with
    | desc _ _ _ => cases hi
    | op x => dsimp only; split <;> exact ih
    | rtEnter => dsimp only; split <;> exact ih
    | rtLeave => exact ih

/-! ## Concrete runs -/

/-- Parameters that differ from the defaults. -/
def demoCfg : Cfg := { enforce := true, handle := true, allowInactive := true, reportDeactivated := false, initial := {} }

/-- The description of the demo robot. -/
def goodDesc : Desc := { id := 1, parsed := some demoSpecs, limits := [(1, 5, 100), (2, 6, 50)] }

/-- The same with the name of a plugin misspelled and other limits. -/
def badDesc : Desc :=
  { id := 2, parsed := some (demoSpecs.map (fun s => if s.name = 2 then { s with loads := false } else s)), limits := [(1, 5, 7)] }

/-- Two bad descriptions are rejected, the third one is accepted; the real-time loop runs all the time. -/
def demoIns : List In :=
  [.op (.read (fun _ => .run)), .desc badDesc [] [], .op (.update (fun _ => true) true), .desc noDesc [] [], .desc goodDesc [1, 2] [7],
   .op (.write (fun _ => .run))]

example : (boot (fun _ => goodOracle) demoCfg (demoIns.take 4)).inited = false ∧ (boot (fun _ => goodOracle) demoCfg (demoIns.take 4)).gen = 2 ∧
    (boot (fun _ => goodOracle) demoCfg demoIns).inited = true ∧ (boot (fun _ => goodOracle) demoCfg demoIns).services = true ∧
    (boot (fun _ => goodOracle) demoCfg demoIns).cm.rm.stateOf 2 = some .active ∧
    (boot (fun _ => goodOracle) demoCfg demoIns).lim = [(1, 5, 100), (2, 6, 50)] := by decide +kernel

/-- The parameters after a rejected description, and without one. -/
example : ¬ SettingsInForce (fun _ => goodOracle) demoCfg demoIns ∧
    SettingsInForce (fun _ => goodOracle) demoCfg [.desc goodDesc [1, 2] [7]] ∧
    (boot (fun _ => goodOracle) demoCfg [.desc goodDesc [1, 2] [7]]).inited = true := by
  refine ⟨fun h => ?_, C65_settings_partial _ _ rfl [] rfl (by simp) _ _ _, by decide +kernel⟩
  have h1 : (boot (fun _ => goodOracle) demoCfg demoIns).inited = true := by decide +kernel
  have h2 : (boot (fun _ => goodOracle) demoCfg demoIns).cm.rm.allowInactive = false := by decide +kernel
  have := (h h1).1
  rw [h2] at this
  cases this

/-- **C65 (dangling resource manager).** The real-time thread is inside `read` when a description is rejected: the resource manager it uses is
destroyed. -/
theorem C65_dangling : (boot (fun _ => goodOracle) demoCfg [.rtEnter, .desc badDesc [] [], .rtLeave]).uaf = true ∧
    (boot (fun _ => goodOracle) demoCfg [.rtEnter, .desc goodDesc [1, 2] [7], .rtLeave]).uaf = false := by decide +kernel

/-- **C65 (controllers get a description that is not in use).** A description that is ignored replaces the text handed to controllers. -/
theorem C65_text_diverges :
    (boot (fun _ => goodOracle) demoCfg [.desc goodDesc [1, 2] [7], .desc badDesc [] []]).rmDesc = 1 ∧
    (boot (fun _ => goodOracle) demoCfg [.desc goodDesc [1, 2] [7], .desc badDesc [] []]).desc = 2 ∧
    (boot (fun _ => goodOracle) demoCfg [.desc goodDesc [1, 2] [7], .desc badDesc [] []]).services = true := by decide +kernel

/-- **C65 (constructor with a description).** When the description given to the constructor is rejected its joint limits stay in force: the joint 5 of
component 1 gets the limits of the rejected description, not those of the accepted one. -/
theorem C65_limits_of_rejected :
    (start (fun _ => goodOracle) demoCfg badDesc [] []).inited = false ∧
    (run (fun _ => goodOracle) demoCfg (start (fun _ => goodOracle) demoCfg badDesc [] []) [.desc goodDesc [1, 2] [7]]).services = true ∧
    (run (fun _ => goodOracle) demoCfg (start (fun _ => goodOracle) demoCfg badDesc [] []) [.desc goodDesc [1, 2] [7]]).lim =
      [(1, 5, 7), (2, 6, 50)] ∧
    (boot (fun _ => goodOracle) demoCfg [.desc badDesc [] [], .desc goodDesc [1, 2] [7]]).lim = [(1, 5, 100), (2, 6, 50)] := by decide +kernel

/-- **C65 (exceptions not handled).** With `handle_exceptions` off, a description with a misspelled plugin is rejected with an error in the log — and
in use: the services are offered, the hardware up to the misspelled component runs, the rest is missing. -/
theorem C65_half_loaded :
    (boot (fun _ => goodOracle) { demoCfg with handle := false } [.desc badDesc [1] []]).services = true ∧
    (boot (fun _ => goodOracle) { demoCfg with handle := false } [.desc badDesc [1] []]).cm.rm.comps.map (·.name) = [1] ∧
    (boot (fun _ => goodOracle) { demoCfg with handle := false } [.desc badDesc [1] []]).cm.rm.stateOf 1 = some .active ∧
    (boot (fun _ => goodOracle) demoCfg [.desc badDesc [1] []]).services = false := by decide +kernel

end Verif.Boot
