import Verif.CM.Ops
/-!
# Operations on one controller leave all the others exactly as they were
-/
namespace Verif
namespace CM

/-- The other controllers, in execution order. -/
def others (cm : CM) (n : Name) : List Ctl := cm.ctls.filter (fun c => c.name ≠ n)

theorem find_of_others {a b : CM} {n m : Name} (h : a.others n = b.others n) (hm : m ≠ n) : a.find m = b.find m := by
  have key : ∀ c : CM, c.find m = (c.others n).find? (fun c => c.name = m) := by
    intro c
    unfold find others
    induction c.ctls with
    | nil => rfl
    | cons d t ih =>
      simp only [List.filter_cons, List.find?_cons]
      by_cases hd : d.name = n
      · have : ¬ d.name = m := fun e => hm (e.symm.trans hd)
        simp only [hd, ne_eq, not_true_eq_false, decide_false, Bool.false_eq_true, if_false]
        have : ¬ n = m := fun e => hm e.symm
        simp only [this, decide_false]
        exact ih
      · simp only [hd, ne_eq, not_false_eq_true, decide_true, if_true, List.find?_cons]
        split
        · rfl
        · exact ih
  rw [key a, key b, h]

theorem others_modify (cm : CM) (n : Name) (f : Ctl → Ctl) (hf : ∀ c, (f c).name = c.name) :
    (cm.modify n f).others n = cm.others n := by
  unfold others modify
  simp only
  induction cm.ctls with
  | nil => rfl
  | cons c t ih =>
    simp only [List.map_cons, List.filter_cons]
    by_cases hc : c.name = n
    · simp only [hc, if_true]
      have : (f c).name = n := (hf c).trans hc
      simp only [this, ne_eq, not_true_eq_false, decide_false, Bool.false_eq_true, if_false]
      exact ih
    · simp only [hc, if_false, ne_eq, not_false_eq_true, decide_true, if_true]
      rw [ih]

theorem others_releaseItfs (cm : CM) (n : Name) : (cm.releaseItfs n).others n = cm.others n := by
  unfold releaseItfs
  split
  · rfl
  · rw [others_modify _ _ _ (by intro _; rfl)]; rfl

theorem others_trigger (o : Oracle) (cm : CM) (n : Name) (cb : CtlCb) : (cm.trigger o n cb).others n = cm.others n := by
  unfold trigger
  split
  · rfl
  split
  · extract_lets a cm1 cm2 cm3
    have h2 : cm2.others n = cm.others n := by
      simp only [cm2]; split
      · rw [others_modify _ _ _ (by intro _; rfl)]; rfl
      · rfl
    have h3 : cm3.others n = cm.others n := by
      simp only [cm3]; split
      · rw [others_releaseItfs]; exact h2
      · exact h2
    clear_value cm3 a
    split
    · rw [others_modify _ _ _ (by intro _; rfl)]; exact h3
    · rw [others_modify _ _ _ (by intro _; rfl)]; exact h3
    · rw [others_modify _ _ _ (by intro _; rfl), others_releaseItfs]; exact h3
  · rfl

theorem others_setChained (o : Oracle) (cm : CM) (n : Name) (v : Bool) : (cm.setChained o n v).others n = cm.others n := by
  unfold setChained
  split
  · rfl
  split
  · extract_lets a cm1
    split
    · rw [others_modify _ _ _ (by intro _; rfl)]; rfl
    · rfl
  · rfl

theorem others_cleanupExports (cm : CM) (n : Name) : (cm.cleanupExports n).others n = cm.others n := by
  unfold cleanupExports
  split
  · rfl
  split
  · rfl
  · rfl

theorem others_cleanupSpec (o : Oracle) (cm : CM) (n : Name) : (cm.cleanupSpec o n).1.others n = cm.others n := by
  unfold cleanupSpec
  simp only
  rw [others_trigger, others_cleanupExports]

theorem others_cleanup (o : Oracle) (cm : CM) (n : Name) : (cm.cleanup o n).1.others n = cm.others n := by
  unfold cleanup
  split
  · rfl
  split
  · rfl
  · split
    · rfl
    · rfl
    · rfl
    · exact others_cleanupSpec o cm n

theorem others_unload (o : Oracle) (cm : CM) (n : Name) : (cm.unload o n).1.others n = cm.others n := by
  unfold unload
  split
  · rfl
  split
  · rfl
  split
  · rfl
  extract_lets r cm1 cm2
  split
  · exact others_cleanup o cm n
  · have h1 : cm1.others n = cm.others n := by
      simp only [cm1]; rw [others_trigger]; exact others_cleanup o cm n
    have h2 : cm2.others n = cm.others n := by simp only [cm2]; rw [others_releaseItfs]; exact h1
    rw [← h2]
    unfold others
    simp

/-- The state of a controller after a lifecycle transition. -/
theorem lcOf_trigger (o : Oracle) {cm : CM} {n : Name} {c : Ctl} (hc : cm.find n = some c) (cb : CtlCb)
    (hl : cb.legal c.lc = true) :
    (cm.trigger o n cb).lcOf n = some (match o.ctlCb cm.rm.tr n cb with
      | .success => cb.onSuccess
      | .failure => cb.onFailure
      | _ => if o.ctlErr (.ctlCb n cb (o.ctlCb cm.rm.tr n cb) :: cm.rm.tr) n = .success then .unconfigured else .finalized) := by
  have hk : cm.abs.k n = some c.core := by rw [abs_k, hc]; rfl
  have e := abs_trigger o cm n cb
  have hlc : ∀ x : CM, x.lcOf n = (x.abs.k n).map (·.lc) := by
    intro x; unfold lcOf; rw [abs_k]; cases x.find n <;> rfl
  rw [hlc, e]
  unfold Sys.trigger
  rw [hk]
  have hl' : cb.legal c.core.lc = true := hl
  have hrel : ∀ (l : List Itf) (rm : RM), (l.foldl RM.release rm).tr = rm.tr := by
    intro l
    induction l with
    | nil => intro rm; rfl
    | cons i t ih => intro rm; simp only [List.foldl_cons]; rw [ih]; rfl
  simp only [hl', if_true]
  cases ha : o.ctlCb cm.abs.rm.tr n cb <;>
    (have ha' : o.ctlCb cm.rm.tr n cb = _ := ha; rw [ha'])
  · simp [Sys.set]
  · simp [Sys.set]
  all_goals
    by_cases hs : cb = .shutdown
    · simp [hs, Sys.set, Sys.push, Sys.release, hrel, abs, hc]
    · simp [hs, Sys.set, Sys.push, Sys.release, abs, hc]

theorem lcOf_setChained (o : Oracle) (cm : CM) (n : Name) (v : Bool) (m : Name) :
    (cm.setChained o n v).lcOf m = cm.lcOf m := by
  unfold setChained
  split
  · rfl
  split
  · extract_lets a cm1
    split
    · unfold lcOf
      rw [find_modify _ _ _ _ (by intro _; rfl)]
      simp only [cm1, find_push]
      split
      · rename_i h; subst h; cases cm.find m <;> rfl
      · rfl
    · rfl
  · rfl

/-- What every intermediate state of `configure_controller` of `n` satisfies. -/
structure CfgOk (o : Oracle) (n : Name) (cm x : CM) : Prop where
  steps : Sys.Steps o (· = n) cm.abs x.abs
  topo : Topo x
  others : x.others n = cm.others n
  names : x.ctls.map (·.name) = cm.ctls.map (·.name)
  refC : x.refCache = cm.refCache
  stC : x.stateCache = cm.stateCache

theorem CfgOk.fwd {o n} {cm x y : CM} (h : CfgOk o n cm x) (f : Fwd o (· = n) x y) (ho : y.others n = x.others n) :
    CfgOk o n cm y :=
  ⟨Relation.ReflTransGen.trans h.steps f.steps, h.topo.same f.same, ho.trans h.others, (names_of_stat f.stat).trans h.names,
   f.refC.trans h.refC, f.stC.trans h.stC⟩

/-- `configure_controller` either fails without having reordered anything, or the controller ends INACTIVE,
its interface lists have no duplicates, and topology and order are recomputed. -/
theorem configure_spec (o : Oracle) (cm : CM) (n : Name) (cfg : CtlCfg) (ord : List Name) (rateOk : Bool) (I : Inv cm) :
    ((cm.configure o n cfg ord rateOk).2 = .error ∧ CfgOk o n cm (cm.configure o n cfg ord rateOk).1) ∨
    ∃ y d, cm.configure o n cfg ord rateOk = (y.topology.reorder ord, .ok) ∧ CfgOk o n cm y ∧
      y.find n = some d ∧ d.lc = .inactive ∧ d.cfg = cfg ∧ (y.cmdItfs d).Nodup ∧ (y.stateItfs d).Nodup := by
  unfold configure
  have r0 : CfgOk o n cm cm := ⟨.refl, I.topo, rfl, rfl, rfl, rfl⟩
  split
  · exact .inl ⟨rfl, r0⟩
  split
  · exact .inl ⟨rfl, r0⟩
  rename_i c hc
  split
  · exact .inl ⟨rfl, r0⟩
  extract_lets r0 cm1 cm2 ex
  have p0 : CfgOk o n cm r0.1 := by
    simp only [r0]; split
    · exact CfgOk.fwd ⟨.refl, I.topo, rfl, rfl, rfl, rfl⟩ (Fwd.cleanupSpec o cm n rfl) (others_cleanupSpec o cm n)
    · assumption
  by_cases h0 : r0.2 = false
  · rw [if_pos h0]; exact .inl ⟨rfl, p0⟩
  rw [if_neg h0]
  have hna : ∀ d, (r0.1.cleanupExports n).find n = some d → d.lc ≠ .active := by
    intro d hd
    have hf : ∀ x : CM, (x.cleanupExports n).find n = x.find n := by
      intro x; unfold CM.cleanupExports
      split
      · rfl
      · split <;> rfl
    rw [hf] at hd
    rename_i hnot
    simp only [r0] at hd h0
    split at hd
    · rename_i hin
      rw [if_pos hin] at h0
      unfold cleanupSpec at hd h0
      simp only [decide_eq_false_iff_not, not_not] at h0
      unfold lcOf at h0
      rw [hd] at h0
      simp at h0
      rw [h0]; simp
    · rw [hc] at hd
      simp at hd; subst hd
      exact fun e => hnot (.inl e)
  have hcfg1 : ∀ d, cm1.find n = some d → d.cfg = cfg := by
    intro d hd
    simp only [cm1] at hd
    rw [find_modify _ _ _ _ (by intro _; rfl)] at hd
    simp only [if_true] at hd
    cases hf : (r0.1.cleanupExports n).find n with
    | none => rw [hf] at hd; simp at hd
    | some e => rw [hf] at hd; simp at hd; rw [← hd]
  have p1 : CfgOk o n cm cm1 := by
    have := p0.fwd (Fwd.cleanupExports o r0.1 n rfl) (others_cleanupExports _ _)
    refine ⟨?_, modify_topo this.topo n _ (by intro _; rfl), ?_, ?_, this.refC, this.stC⟩
    · simp only [cm1]
      cases hf : (r0.1.cleanupExports n).find n with
      | none =>
        have hx : ∀ x : CM, x.find n = none → (x.modify n (fun c => { c with cfg := cfg })).abs = x.abs := by
          intro x hx
          unfold CM.abs
          congr 1
          funext m
          rw [find_modify _ _ _ _ (by intro _; rfl)]
          split
          · rename_i e; subst e; rw [hx]; rfl
          · rfl
        rw [hx _ hf]; exact this.steps
      | some d =>
        rw [abs_modify hf _ (by intro _; rfl)]
        have hk : (r0.1.cleanupExports n).abs.k n = some d.core := by rw [abs_k, hf]; rfl
        refine Relation.ReflTransGen.tail this.steps ?_
        exact Sys.AStep.recfg (T := (· = n)) (s := (r0.1.cleanupExports n).abs) (c := d.core) rfl hk (hna d hf) cfg.cmd
    · simp only [cm1]; rw [others_modify _ _ _ (by intro _; rfl)]; exact this.others
    · simp only [cm1]; rw [modify_names _ _ _ (by intro _; rfl)]; exact this.names
  have stf : ∀ x y : CM, y.ctls.map Ctl.stat = x.ctls.map Ctl.stat → ∀ d, y.find n = some d →
      ∃ e, x.find n = some e ∧ e.cfg = d.cfg := by
    intro x y hst d hd
    have hd' : (y.ctls.map Ctl.stat).find? (fun c => c.name = n) = some d.stat := by
      rw [List.find?_map]
      unfold CM.find at hd
      have : ((fun c : Ctl => decide (c.name = n)) ∘ Ctl.stat) = (fun c : Ctl => decide (c.name = n)) := by
        funext c; rfl
      rw [this, hd]; rfl
    rw [hst, List.find?_map] at hd'
    have : ((fun c : Ctl => decide (c.name = n)) ∘ Ctl.stat) = (fun c : Ctl => decide (c.name = n)) := by
      funext c; rfl
    rw [this] at hd'
    unfold CM.find
    cases hx : x.ctls.find? (fun c => c.name = n) with
    | none => rw [hx] at hd'; simp at hd'
    | some e =>
      rw [hx] at hd'; simp at hd'
      exact ⟨e, rfl, by have := congrArg Ctl.cfg hd'; exact this⟩
  have p2 : CfgOk o n cm cm2 ∧ ∀ d, cm2.find n = some d → d.cfg = cfg := by
    simp only [cm2]; split
    · have f := Fwd.trigger o cm1 n .configure (T := (· = n)) rfl (.inl rfl)
      refine ⟨p1.fwd f (others_trigger o _ _ _), ?_⟩
      intro d hd
      obtain ⟨e, he, h2⟩ := stf cm1 _ f.stat d hd
      rw [← h2]; exact hcfg1 e he
    · exact ⟨p1, hcfg1⟩
  split
  · exact .inl ⟨rfl, p2.1⟩
  rename_i hlc
  have hlc : cm2.lcOf n = some .inactive := by simpa using hlc
  have hex : ∃ d, cm2.find n = some d := by
    cases hf : cm2.find n with
    | none => simp [lcOf, hf] at hlc
    | some d => exact ⟨d, rfl⟩
  obtain ⟨d, hd⟩ := hex
  have hk : cm2.abs.k n = some d.core := by rw [abs_k, hd]; rfl
  have pe : CfgOk o n cm ex.1 ∧ (ex.2 = true → ex.1.lcOf n = some .inactive ∧ ∀ d, ex.1.find n = some d → d.cfg = cfg) := by
    simp only [ex]
    split
    · split
      · exact ⟨p2.1.fwd (Fwd.cleanupSpec o _ n rfl) (others_cleanupSpec o _ _), by simp⟩
      · rename_i ss rs _
        split
        · exact ⟨p2.1.fwd (Fwd.cleanupSpec o _ n rfl) (others_cleanupSpec o _ _), by simp⟩
        · have i1 : Sys.AStep o (· = n) cm2.abs { cm2.abs with rm := (cm2.rm.importReference n rs).1 } :=
            Sys.AStep.importR (T := (· = n)) (s := cm2.abs) rfl hk rs
          split
          · rename_i rm1 h1
            rw [h1] at i1
            have s1 : Sys.Steps o (· = n) cm.abs ({ cm2 with rm := rm1 } : CM).abs := Relation.ReflTransGen.tail p2.1.steps i1
            have p3 : CfgOk o n cm { cm2 with rm := rm1 } :=
              ⟨s1, p2.1.topo.same (Same.rm cm2 rm1), p2.1.others, p2.1.names, p2.1.refC, p2.1.stC⟩
            exact ⟨p3.fwd ((Quiet.faulted _).fwd (s1.inv I.sys)) rfl, by simp⟩
          · rename_i rm1 h1
            rw [h1] at i1
            have s1 : Sys.Steps o (· = n) cm.abs ({ cm2 with rm := rm1 } : CM).abs := Relation.ReflTransGen.tail p2.1.steps i1
            have i2 : Sys.AStep o (· = n) ({ cm2 with rm := rm1 } : CM).abs
                ({ cm2 with rm := rm1.importExportedState n ss } : CM).abs :=
              Sys.AStep.importS (T := (· = n)) (s := ({ cm2 with rm := rm1 } : CM).abs) rfl hk ss
            have s2 := Relation.ReflTransGen.tail s1 i2
            have p3 : CfgOk o n cm { cm2 with rm := rm1.importExportedState n ss } :=
              ⟨s2, p2.1.topo.same (Same.rm cm2 _), p2.1.others, p2.1.names, p2.1.refC, p2.1.stC⟩
            have f4 := Fwd.setChained o { cm2 with rm := rm1.importExportedState n ss } n false (T := (· = n)) rfl
            have p4 := p3.fwd f4 (others_setChained o _ _ _)
            have f5 := Fwd.exportsUnavailable o (· = n) (({ cm2 with rm := rm1.importExportedState n ss } : CM).setChained o n false) n
              (p4.steps.inv I.sys)
            refine ⟨p4.fwd f5 rfl, fun _ => ⟨?_, ?_⟩⟩
            · have : ∀ x : CM, (x.exportsUnavailable n).lcOf n = x.lcOf n := fun _ => rfl
              rw [this, lcOf_setChained]; exact hlc
            · intro d hd
              obtain ⟨e, he, h2⟩ := stf _ _ (f5.stat.trans f4.stat) d hd
              rw [← h2]; exact p2.2 e he
    · exact ⟨p2.1, fun _ => ⟨hlc, p2.2⟩⟩
  clear_value ex
  split
  · exact .inl ⟨rfl, pe.1⟩
  rename_i hex2
  split
  · exact .inl ⟨rfl, pe.1⟩
  rename_i d1 hd1
  split
  · exact .inl ⟨rfl, pe.1.fwd (Fwd.cleanupSpec o _ n rfl) (others_cleanupSpec o _ _)⟩
  · rename_i hnd
    simp only [not_or, not_not] at hnd
    obtain ⟨l1, l2⟩ := pe.2 (by simpa using hex2)
    refine .inr ⟨ex.1, d1, rfl, pe.1, hd1, ?_, l2 d1 hd1, hnd.1, hnd.2⟩
    unfold lcOf at l1; rw [hd1] at l1; simpa using l1

theorem configure_ok (o : Oracle) (cm : CM) (n : Name) (cfg : CtlCfg) (ord : List Name) (rateOk : Bool) (I : Inv cm) :
    Sys.Steps o (· = n) cm.abs (cm.configure o n cfg ord rateOk).1.abs ∧ Topo (cm.configure o n cfg ord rateOk).1 := by
  rcases configure_spec o cm n cfg ord rateOk I with ⟨_, h⟩ | ⟨y, d, e, h, _⟩
  · exact ⟨h.steps, h.topo⟩
  · rw [e]
    have ht := h.topo.topology
    refine ⟨?_, ht.reorder ord⟩
    simp only
    rw [reorder_abs ht, (topology_tab y).abs]
    exact h.steps

end CM
end Verif
