import Verif.CM.RmStep
/-!
# The abstract system the controller manager refines

`Sys` forgets everything of the controller manager but the resource manager and, for every name, the
part of the controller that other components can observe (`Core`). `AStep` lists the elementary things
that may ever happen to it. `Verif/CM/Decomp` proves that every operation of the model is a sequence of
such steps; invariants are proved on the steps.
-/
namespace Verif

/-- Observable part of a loaded controller. -/
structure Core where
  chainable : Bool
  async : Bool
  fallbacks : List Name
  lc : LState
  held : List Itf
  chained : Bool
  /-- the command interfaces it asks for -/
  cmd : ItfCfg

def Ctl.core (c : Ctl) : Core := ⟨c.chainable, c.async, c.fallbacks, c.lc, c.held, c.chained, c.cfg.cmd⟩

/-- Abstract state. -/
structure Sys where
  rm : RM
  k : Name → Option Core
  dropped : List Itf

namespace CM

/-- Abstraction function. -/
def abs (cm : CM) : Sys := ⟨cm.rm, fun n => (cm.find n).map Ctl.core, cm.dropped⟩

theorem find_some {cm : CM} {n : Name} {c : Ctl} (h : cm.find n = some c) : c ∈ cm.ctls ∧ c.name = n := by
  unfold find at h
  exact ⟨List.mem_of_find?_eq_some h, by simpa using List.find?_some h⟩

theorem find_none {cm : CM} {n : Name} : cm.find n = none ↔ n ∉ cm.ctls.map (·.name) := by
  unfold find
  simp only [List.find?_eq_none, List.mem_map, not_exists, not_and]
  constructor
  · intro h c hc e; exact h c hc (by simpa using e)
  · intro h c hc; simpa using h c hc

theorem find_modify (cm : CM) (n m : Name) (f : Ctl → Ctl) (hf : ∀ c, (f c).name = c.name) :
    (cm.modify n f).find m = if m = n then (cm.find n).map f else cm.find m := by
  unfold find modify
  simp only
  induction cm.ctls with
  | nil => simp
  | cons c t ih =>
    simp only [List.map_cons, List.find?_cons]
    by_cases hc : c.name = n
    · by_cases hm : m = n
      · subst hm; simp [hc, hf]
      · have : ¬ c.name = m := fun e => hm (e ▸ hc)
        simp only [hc, if_true, hf, hm, if_false]
        simp only [hm, if_false] at ih
        rw [hc] at this
        simp [this, ih]
    · simp only [hc, if_false]
      by_cases hm : m = n
      · subst hm; simp [hc]; simpa using ih
      · simp only [hm, if_false] at ih ⊢
        split <;> simp_all

theorem modify_names (cm : CM) (n : Name) (f : Ctl → Ctl) (hf : ∀ c, (f c).name = c.name) :
    (cm.modify n f).ctls.map (·.name) = cm.ctls.map (·.name) := by
  simp only [modify, List.map_map]
  apply List.map_congr_left
  intro c _
  simp only [Function.comp]
  split <;> simp [hf]

end CM

namespace Sys

/-- Append an event. -/
def push (s : Sys) (e : Ev) : Sys := { s with rm := { s.rm with tr := e :: s.rm.tr } }

/-- Replace the controller `n`. -/
def set (s : Sys) (n : Name) (c : Core) : Sys := { s with k := upd s.k n (some c) }

/-- Give back the loans of `n`. -/
def release (s : Sys) (n : Name) : Sys :=
  match s.k n with
  | none => s
  | some c => ({ s with rm := c.held.foldl RM.release s.rm }).set n { c with held := [] }

/-- A lifecycle transition of the controller `n`. -/
def trigger (o : Oracle) (s : Sys) (n : Name) (cb : CtlCb) : Sys :=
  match s.k n with
  | none => s
  | some c =>
    if cb.legal c.lc then
      let a := o.ctlCb s.rm.tr n cb
      let s1 := s.push (.ctlCb n cb a)
      let s2 := if cb = .shutdown then s1.release n else s1
      let c2 : Core := if cb = .shutdown then { c with held := [] } else c
      match a with
      | .success => s2.set n { c2 with lc := cb.onSuccess }
      | .failure => s2.set n { c2 with lc := cb.onFailure }
      | _ =>
        let e := o.ctlErr s2.rm.tr n
        ((s2.push (.ctlErr n e)).release n).set n
          { c2 with held := [], lc := if e = .success then .unconfigured else .finalized }
    else s

/-- A request to change the chained mode. -/
def setChained (o : Oracle) (s : Sys) (n : Name) (v : Bool) : Sys :=
  match s.k n with
  | none => s
  | some c =>
    if c.chainable = true ∧ c.lc ≠ .active then
      let a := o.ctlChained s.rm.tr n v
      let s1 := s.push (.ctlChained n v a)
      if a then s1.set n { c with chained := v } else s1
    else s

/-- Activation of `n` with loans that have just been claimed. -/
def activate (o : Oracle) (s : Sys) (n : Name) (rm1 : RM) (loans : List Itf) : Sys :=
  match s.k n with
  | none => s
  | some c =>
    let s1 : Sys := ({ s with rm := c.held.foldl RM.release rm1 }).set n { c with held := loans }
    let s2 := s1.trigger o n .activate
    if (s2.k n).map (·.lc) = some .active then s2 else s2.release n

end Sys

namespace CM

@[simp] theorem abs_push (cm : CM) (e : Ev) : (cm.push e).abs = cm.abs.push e := rfl

theorem abs_k (cm : CM) (n : Name) : cm.abs.k n = (cm.find n).map Ctl.core := rfl

@[simp] theorem find_push (cm : CM) (e : Ev) (n : Name) : (cm.push e).find n = cm.find n := rfl

theorem abs_modify {cm : CM} {n : Name} {c : Ctl} (hc : cm.find n = some c) (f : Ctl → Ctl)
    (hf : ∀ c, (f c).name = c.name) : (cm.modify n f).abs = cm.abs.set n (f c).core := by
  unfold abs Sys.set
  simp only [find_modify cm n _ f hf]
  congr 1
  funext m
  simp only [upd_apply]
  split
  · simp [hc]
  · rfl

/-- Changing fields that are not observable. -/
theorem abs_modify_core (cm : CM) (n : Name) (f : Ctl → Ctl) (hf : ∀ c, (f c).name = c.name)
    (hk : ∀ c, (f c).core = c.core) : (cm.modify n f).abs = cm.abs := by
  unfold abs
  simp only [find_modify cm n _ f hf]
  congr 1
  funext m
  split
  · rename_i h; subst h; cases cm.find m <;> simp [hk]
  · rfl

theorem abs_releaseItfs (cm : CM) (n : Name) : (cm.releaseItfs n).abs = cm.abs.release n := by
  unfold releaseItfs Sys.release
  rw [abs_k]
  cases hc : cm.find n with
  | none => rfl
  | some c =>
    simp only [Option.map_some]
    rw [abs_modify (c := c) (by exact hc) _ (by intro _; rfl)]
    rfl

theorem find_releaseItfs {cm : CM} {n : Name} {c : Ctl} (hc : cm.find n = some c) :
    (cm.releaseItfs n).find n = some { c with held := [] } := by
  unfold releaseItfs
  rw [hc]
  simp only
  rw [find_modify _ n n _ (by intro _; rfl)]
  simp only [if_true]
  have : CM.find { cm with rm := c.held.foldl RM.release cm.rm } n = some c := hc
  rw [this]; rfl

theorem find_releaseItfs_ne (cm : CM) {n m : Name} (h : m ≠ n) : (cm.releaseItfs n).find m = cm.find m := by
  unfold releaseItfs
  split
  · rfl
  · rw [find_modify _ n m _ (by intro _; rfl)]; simp [h]; rfl

/-- State before the lifecycle state is written in `trigger`. -/
theorem abs_trigger (o : Oracle) (cm : CM) (n : Name) (cb : CtlCb) :
    (cm.trigger o n cb).abs = cm.abs.trigger o n cb := by
  unfold trigger Sys.trigger
  rw [abs_k]
  cases hc : cm.find n with
  | none => rfl
  | some c =>
    simp only [Option.map_some]
    have hl : c.core.lc = c.lc := rfl
    rw [hl]
    by_cases hleg : cb.legal c.lc = true
    swap
    · simp [hleg]
    simp only [hleg, if_true]
    have hrm : cm.abs.rm = cm.rm := rfl
    rw [hrm]
    generalize ha : o.ctlCb cm.rm.tr n cb = a
    -- after push and skipAsync
    let cm2 : CM := if cb = .activate then (cm.push (.ctlCb n cb a)).modify n (fun c => { c with skipAsync := false })
      else cm.push (.ctlCb n cb a)
    have h2 : cm2.abs = cm.abs.push (.ctlCb n cb a) := by
      simp only [cm2]
      split
      · rw [abs_modify_core _ _ _ (by intro _; rfl) (by intro _; rfl)]; rfl
      · rfl
    let c2 : Ctl := if cb = .activate then { c with skipAsync := false } else c
    have f2 : cm2.find n = some c2 := by
      simp only [cm2, c2]
      split
      · rw [find_modify _ n n _ (by intro _; rfl)]; simp [hc]
      · exact hc
    have k2 : c2.core = c.core := by simp only [c2]; split <;> rfl
    let cm3 : CM := if cb = .shutdown then cm2.releaseItfs n else cm2
    let c3 : Ctl := if cb = .shutdown then { c2 with held := [] } else c2
    have h3 : cm3.abs = if cb = .shutdown then (cm.abs.push (.ctlCb n cb a)).release n else cm.abs.push (.ctlCb n cb a) := by
      simp only [cm3]
      split
      · rw [abs_releaseItfs, h2]
      · rw [h2]
    have f3 : cm3.find n = some c3 := by
      simp only [cm3, c3]
      split
      · exact find_releaseItfs f2
      · exact f2
    have k3 : c3.core = if cb = .shutdown then { c.core with held := [] } else c.core := by
      simp only [c3]; rw [← k2]; split <;> rfl
    have hset : ∀ l : LState, (cm3.modify n (fun c => { c with lc := l })).abs =
        cm3.abs.set n { c3.core with lc := l } := by
      intro l; rw [abs_modify f3 _ (by intro _; rfl)]; rfl
    have herr : (CM.modify ((cm3.push (.ctlErr n (o.ctlErr cm3.rm.tr n))).releaseItfs n) n
        (fun c => { c with lc := if o.ctlErr cm3.rm.tr n = .success then .unconfigured else .finalized })).abs =
        ((cm3.abs.push (.ctlErr n (o.ctlErr cm3.abs.rm.tr n))).release n).set n
          { c3.core with held := [], lc := if o.ctlErr cm3.abs.rm.tr n = .success then .unconfigured else .finalized } := by
      rw [abs_modify (find_releaseItfs (cm := cm3.push _) (c := c3) f3) _ (by intro _; rfl), abs_releaseItfs]; rfl
    cases a with
    | success => exact (hset cb.onSuccess).trans (by rw [h3, k3]; rfl)
    | failure => exact (hset cb.onFailure).trans (by rw [h3, k3]; rfl)
    | error =>
      exact herr.trans (by rw [h3, k3]; rfl)
    | throws =>
      exact herr.trans (by rw [h3, k3]; rfl)

theorem abs_setChained (o : Oracle) (cm : CM) (n : Name) (v : Bool) :
    (cm.setChained o n v).abs = cm.abs.setChained o n v := by
  unfold setChained Sys.setChained
  rw [abs_k]
  cases hc : cm.find n with
  | none => rfl
  | some c =>
    simp only [Option.map_some]
    change (if c.chainable = true ∧ c.lc ≠ .active then _ else cm).abs = if c.chainable = true ∧ c.lc ≠ .active then _ else _
    split
    · have hrm : cm.abs.rm = cm.rm := rfl
      rw [hrm]
      by_cases ha : o.ctlChained cm.rm.tr n v = true
      · simp only [ha, if_true]
        rw [abs_modify (c := c) (by exact hc) _ (by intro _; rfl)]; rfl
      · simp only [ha]; rfl
    · rfl

end CM
end Verif
