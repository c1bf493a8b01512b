import Verif.RM.Inv
/-! # Component operations preserve the invariant; frame facts -/
namespace Verif

namespace Hw

theorem error_not_conf (o : Oracle) (tr : List Ev) (h : Hw) : ¬ (h.error o tr).1.Conf := by
  unfold Hw.error Hw.Conf
  split
  · split <;> simp
  · rename_i hh
    rcases h with ⟨a,b,c,d,e,lc⟩
    cases lc <;> simp_all

theorem configure_unconf (o : Oracle) (tr : List Ev) (h : Hw) (hc : ¬ (h.configure o tr).1.Conf) :
    ¬ h.Conf := by
  unfold Hw.configure at hc
  split at hc
  · simp_all [Conf]
  · exact hc

theorem configure_active (o : Oracle) (tr : List Ev) (h : Hw) (hc : (h.configure o tr).1.lc = .active) :
    h.lc = .active := by
  unfold Hw.configure at hc
  split at hc
  · split at hc <;> simp_all
    exact absurd (Or.inr hc) (error_not_conf o _ _)
  · exact hc

theorem cleanup_conf (o : Oracle) (tr : List Ev) (h : Hw) (hc : (h.cleanup o tr).1.Conf) : h.Conf := by
  unfold Hw.cleanup at hc
  split at hc
  · left; assumption
  · exact hc

theorem cleanup_unconf (o : Oracle) (tr : List Ev) (h : Hw) (hc : ¬ (h.cleanup o tr).1.Conf) (hh : h.Conf)
    (hne : (h.cleanup o tr).1.lc ≠ .unconfigured) :
    ∃ e ∈ (h.cleanup o tr).2, BadEv h.name e := by
  unfold Hw.cleanup at *
  split at hc
  · split at hc <;> simp_all [Conf]
    · obtain ⟨es, e1, _⟩ := (good_error o (.hwCb h.name .cleanup .failure :: tr) h).ext
      exact ⟨.hwCb h.name .cleanup .failure, by rw [e1]; simp, by simp [BadEv]⟩
    · obtain ⟨es, e1, _⟩ := (good_error o (.hwCb h.name .cleanup .error :: tr) h).ext
      exact ⟨.hwCb h.name .cleanup .error, by rw [e1]; simp, by simp [BadEv]⟩
  · exact absurd hh hc

theorem shutdown_conf (o : Oracle) (tr : List Ev) (h : Hw) (hc : (h.shutdown o tr).1.Conf) : h.Conf := by
  unfold Hw.shutdown at hc
  split at hc
  · split at hc
    · simp [Conf] at hc
    · exact absurd hc (error_not_conf _ _ _)
    · exact absurd hc (error_not_conf _ _ _)
    · exact hc
  · exact hc

theorem shutdown_unconf (o : Oracle) (tr : List Ev) (h : Hw) (hc : ¬ (h.shutdown o tr).1.Conf) (hh : h.Conf)
    (hne : (h.shutdown o tr).1.lc ≠ .finalized) :
    ∃ e ∈ (h.shutdown o tr).2, BadEv h.name e := by
  unfold Hw.shutdown at *
  split at hc
  · split at hc <;> simp_all [Conf]
    · obtain ⟨es, e1, _⟩ := (good_error o (.hwCb h.name .shutdown .failure :: tr) h).ext
      exact ⟨.hwCb h.name .shutdown .failure, by rw [e1]; simp, by simp [BadEv]⟩
    · obtain ⟨es, e1, _⟩ := (good_error o (.hwCb h.name .shutdown .error :: tr) h).ext
      exact ⟨.hwCb h.name .shutdown .error, by rw [e1]; simp, by simp [BadEv]⟩
  · exact absurd hh hc

theorem activate_conf (o : Oracle) (tr : List Ev) (h : Hw) (hc : (h.activate o tr).1.Conf) : h.Conf := by
  unfold Hw.activate at hc
  split at hc
  · left; assumption
  · exact hc

theorem activate_unconf (o : Oracle) (tr : List Ev) (h : Hw) (hc : ¬ (h.activate o tr).1.Conf) (hh : h.Conf) :
    ∃ e ∈ (h.activate o tr).2, BadEv h.name e := by
  unfold Hw.activate at *
  split at hc
  · split at hc <;> simp_all [Conf]
    obtain ⟨es, e1, _⟩ := (good_error o (.hwCb h.name .activate .error :: tr) h).ext
    exact ⟨.hwCb h.name .activate .error, by rw [e1]; simp, by simp [BadEv]⟩
  · exact absurd hh hc

theorem deactivate_conf (o : Oracle) (tr : List Ev) (h : Hw) (hc : (h.deactivate o tr).1.Conf) : h.Conf := by
  unfold Hw.deactivate at hc
  split at hc
  · right; assumption
  · exact hc

theorem deactivate_unconf (o : Oracle) (tr : List Ev) (h : Hw) (hc : ¬ (h.deactivate o tr).1.Conf) (hh : h.Conf) :
    ∃ e ∈ (h.deactivate o tr).2, BadEv h.name e := by
  unfold Hw.deactivate at *
  split at hc
  · split at hc <;> simp_all [Conf]
    obtain ⟨es, e1, _⟩ := (good_error o (.hwCb h.name .deactivate .error :: tr) h).ext
    exact ⟨.hwCb h.name .deactivate .error, by rw [e1]; simp, by simp [BadEv]⟩
  · exact absurd hh hc

end Hw

namespace RM

/-- Everything a component operation leaves alone. -/
structure Frame (rm : RM) (h h' : Hw) (rm' : RM) : Prop where
  comps : rm'.comps = (rm.setHw h').comps
  good : h.Good rm.tr h' rm'.tr
  stateKeys : rm'.stateKeys = rm.stateKeys
  cmdKeys : rm'.cmdKeys = rm.cmdKeys
  claimed : rm'.claimed = rm.claimed
  expS : rm'.expS = rm.expS
  expR : rm'.expR = rm.expR
  usedBy : rm'.usedBy = rm.usedBy
  allow : rm'.allowInactive = rm.allowInactive
  report : rm'.reportDeactivated = rm.reportDeactivated
  fault : rm'.fault = rm.fault
  keepS : ∀ i, i ∉ h.stateItfs → (i ∈ rm'.availS ↔ i ∈ rm.availS)
  keepC : ∀ i, i ∉ h.cmdItfs → (i ∈ rm'.availC ↔ i ∈ rm.availC)
  group : ∀ g, h.group ≠ some g → rm'.groupSt g = rm.groupSt g

theorem setHw_setHw (rm : RM) (h1 h2 : Hw) (e : h2.name = h1.name) (x : RM)
    (hx : x.comps = (rm.setHw h1).comps) : (x.setHw h2).comps = (rm.setHw h2).comps := by
  simp only [setHw, hx, List.map_map]
  apply List.map_congr_left
  intro c _
  simp only [Function.comp]
  by_cases hc : c.name = h1.name
  · simp [hc, e]
  · simp [hc, e]

theorem setHw_self {rm : RM} (hn : (rm.comps.map (·.name)).Nodup) {h : Hw} (hh : h ∈ rm.comps) :
    (rm.setHw h).comps = rm.comps := by
  simp only [setHw]
  conv_rhs => rw [← List.map_id rm.comps]
  apply List.map_congr_left
  intro c hc
  split
  · rename_i e; exact eq_of_name hn hh hc e.symm
  · rfl

theorem Frame.refl {rm : RM} (hn : (rm.comps.map (·.name)).Nodup) {h : Hw} (hh : h ∈ rm.comps) :
    Frame rm h h rm :=
  ⟨(setHw_self hn hh).symm, Hw.Good.refl _ _, rfl, rfl, rfl, rfl, rfl, rfl, rfl, rfl, rfl,
   fun _ _ => Iff.rfl, fun _ _ => Iff.rfl, fun _ _ => rfl⟩

theorem Frame.mem {rm rm' : RM} {h h' : Hw} (f : Frame rm h h' rm') (hh : h ∈ rm.comps) :
    h' ∈ rm'.comps := by
  rw [f.comps]; exact setHw_mem_self hh f.good.name

theorem Frame.trans {rm rm' rm'' : RM} {h h' h'' : Hw} (f : Frame rm h h' rm') (f' : Frame rm' h' h'' rm'') :
    Frame rm h h'' rm'' := by
  have hS : h'.stateItfs = h.stateItfs := by rw [f.good.frame]
  have hC : h'.cmdItfs = h.cmdItfs := by rw [f.good.frame]
  have hG : h'.group = h.group := by rw [f.good.frame]
  refine ⟨?_, f.good.trans f'.good, f'.stateKeys.trans f.stateKeys, f'.cmdKeys.trans f.cmdKeys,
    f'.claimed.trans f.claimed, f'.expS.trans f.expS, f'.expR.trans f.expR, f'.usedBy.trans f.usedBy,
    f'.allow.trans f.allow, f'.report.trans f.report, f'.fault.trans f.fault, ?_, ?_, ?_⟩
  · rw [f'.comps]; exact setHw_setHw rm h' h'' f'.good.name rm' f.comps
  · intro i hi; rw [f'.keepS i (by rw [hS]; exact hi), f.keepS i hi]
  · intro i hi; rw [f'.keepC i (by rw [hC]; exact hi), f.keepC i hi]
  · intro g hg; rw [f'.group g (by rw [hG]; exact hg), f.group g hg]

@[simp] theorem resetGroup_fields (rm : RM) (g : Option Name) :
    (rm.resetGroup g).comps = rm.comps ∧ (rm.resetGroup g).tr = rm.tr ∧
    (rm.resetGroup g).stateKeys = rm.stateKeys ∧ (rm.resetGroup g).cmdKeys = rm.cmdKeys ∧
    (rm.resetGroup g).claimed = rm.claimed ∧ (rm.resetGroup g).expS = rm.expS ∧
    (rm.resetGroup g).expR = rm.expR ∧ (rm.resetGroup g).usedBy = rm.usedBy ∧
    (rm.resetGroup g).allowInactive = rm.allowInactive ∧
    (rm.resetGroup g).reportDeactivated = rm.reportDeactivated ∧
    (rm.resetGroup g).fault = rm.fault ∧
    (rm.resetGroup g).availS = rm.availS ∧ (rm.resetGroup g).availC = rm.availC := by
  cases g <;> simp [resetGroup]

theorem resetGroup_other (rm : RM) (g : Option Name) (x : Name) (hx : g ≠ some x) :
    (rm.resetGroup g).groupSt x = rm.groupSt x := by
  cases g with
  | none => rfl
  | some g => simp [resetGroup]; rw [upd_ne]; intro e; exact hx (by rw [e])

/-- Invariant from a frame. -/
theorem Inv.frame {rm rm' : RM} (I : rm.Inv) {h h' : Hw} (hh : h ∈ rm.comps) (f : Frame rm h h' rm')
    (nS : rm'.availS.Nodup) (nC : rm'.availC.Nodup)
    (cf : h'.Conf → (∀ i ∈ h.stateItfs, i ∈ rm'.availS) ∧ (∀ i ∈ h.cmdItfs, i ∈ rm'.availC))
    (cl : ¬ h'.Conf → (∀ e ∈ rm'.tr, ¬ BadEv h.name e) →
      (∀ i ∈ h.stateItfs, i ∉ rm'.availS) ∧ (∀ i ∈ h.cmdItfs, i ∉ rm'.availC)) : rm'.Inv :=
  I.replace hh f.good f.comps rfl f.stateKeys f.cmdKeys f.claimed f.expS f.expR nS nC f.keepS f.keepC cf cl

theorem frame_configure (o : Oracle) (rm : RM) (h : Hw) :
    Frame rm h (rm.configureHw o h).2.1 (rm.configureHw o h).1 := by
  unfold configureHw
  have g := Hw.good_configure o rm.tr h
  by_cases hc : (h.configure o rm.tr).1.lc = .inactive
  · simp only [hc, decide_true, if_true]
    refine ⟨by simp [setHw], by simpa using g, by simp [setHw], by simp [setHw], by simp [setHw],
      by simp [setHw], by simp [setHw], by simp [setHw], by simp [setHw], by simp [setHw],
      by simp [setHw], ?_, ?_, ?_⟩
    · intro i hi; simp [setHw, hi]
    · intro i hi; simp [setHw, hi]
    · intro x hx; rw [resetGroup_other _ _ _ hx]; simp [setHw]
  · simp only [hc, decide_false]
    refine ⟨by simp [setHw], by simpa using g, by simp [setHw], by simp [setHw], by simp [setHw],
      by simp [setHw], by simp [setHw], by simp [setHw], by simp [setHw], by simp [setHw],
      by simp [setHw], ?_, ?_, ?_⟩
    · intro i hi; simp [setHw]
    · intro i hi; simp [setHw]
    · intro x hx; rw [resetGroup_other _ _ _ hx]; simp [setHw]

theorem frame_cleanup (o : Oracle) (rm : RM) (h : Hw) :
    Frame rm h (rm.cleanupHw o h).2.1 (rm.cleanupHw o h).1 := by
  unfold cleanupHw
  have g := Hw.good_cleanup o rm.tr h
  by_cases hc : (h.cleanup o rm.tr).1.lc = .unconfigured
  · simp only [hc, decide_true, if_true]
    refine ⟨by simp [setHw, removeAvail], by simpa [removeAvail] using g, by simp [setHw, removeAvail],
      by simp [setHw, removeAvail], by simp [setHw, removeAvail], by simp [setHw, removeAvail],
      by simp [setHw, removeAvail], by simp [setHw, removeAvail], by simp [setHw, removeAvail],
      by simp [setHw, removeAvail], by simp [setHw, removeAvail], ?_, ?_, ?_⟩
    · intro i hi; simp [setHw, removeAvail, mem_removeItems_of_not_mem hi]
    · intro i hi; simp [setHw, removeAvail, mem_removeItems_of_not_mem hi]
    · intro x hx; rw [resetGroup_other _ _ _ hx]; simp [setHw, removeAvail]
  · simp only [hc, decide_false]
    refine ⟨by simp [setHw], by simpa using g, by simp [setHw], by simp [setHw], by simp [setHw],
      by simp [setHw], by simp [setHw], by simp [setHw], by simp [setHw], by simp [setHw],
      by simp [setHw], ?_, ?_, ?_⟩
    · intro i hi; simp [setHw]
    · intro i hi; simp [setHw]
    · intro x hx; rw [resetGroup_other _ _ _ hx]; simp [setHw]

theorem frame_shutdown (o : Oracle) (rm : RM) (h : Hw) :
    Frame rm h (rm.shutdownHw o h).2.1 (rm.shutdownHw o h).1 := by
  unfold shutdownHw
  have g := Hw.good_shutdown o rm.tr h
  by_cases hc : (h.shutdown o rm.tr).1.lc = .finalized
  · simp only [hc, decide_true, if_true]
    refine ⟨by simp [setHw, removeAvail], by simpa [removeAvail] using g, by simp [setHw, removeAvail],
      by simp [setHw, removeAvail], by simp [setHw, removeAvail], by simp [setHw, removeAvail],
      by simp [setHw, removeAvail], by simp [setHw, removeAvail], by simp [setHw, removeAvail],
      by simp [setHw, removeAvail], by simp [setHw, removeAvail], ?_, ?_, ?_⟩
    · intro i hi; simp [setHw, removeAvail, mem_removeItems_of_not_mem hi]
    · intro i hi; simp [setHw, removeAvail, mem_removeItems_of_not_mem hi]
    · intro x hx; rw [resetGroup_other _ _ _ hx]; simp [setHw, removeAvail]
  · simp only [hc, decide_false]
    refine ⟨by simp [setHw], by simpa using g, by simp [setHw], by simp [setHw], by simp [setHw],
      by simp [setHw], by simp [setHw], by simp [setHw], by simp [setHw], by simp [setHw],
      by simp [setHw], ?_, ?_, ?_⟩
    · intro i hi; simp [setHw]
    · intro i hi; simp [setHw]
    · intro x hx; simp [setHw]

theorem frame_activate (o : Oracle) (rm : RM) (h : Hw) :
    Frame rm h (rm.activateHw o h).2.1 (rm.activateHw o h).1 :=
  ⟨rfl, by simpa [activateHw] using Hw.good_activate o rm.tr h,
   rfl, rfl, rfl, rfl, rfl, rfl, rfl, rfl, rfl, fun _ _ => Iff.rfl, fun _ _ => Iff.rfl, fun _ _ => rfl⟩

theorem frame_deactivate (o : Oracle) (rm : RM) (h : Hw) :
    Frame rm h (rm.deactivateHw o h).2.1 (rm.deactivateHw o h).1 :=
  ⟨rfl, by simpa [deactivateHw] using Hw.good_deactivate o rm.tr h,
   rfl, rfl, rfl, rfl, rfl, rfl, rfl, rfl, rfl, fun _ _ => Iff.rfl, fun _ _ => Iff.rfl, fun _ _ => rfl⟩

theorem Inv.noBad {rm : RM} (I : rm.Inv) {h h' : Hw} {tr' : List Ev} (hh : h ∈ rm.comps)
    (g : h.Good rm.tr h' tr') (hc : ¬ h.Conf) (hb : ∀ e ∈ tr', ¬ BadEv h.name e) :
    (∀ i ∈ h.stateItfs, i ∉ rm.availS) ∧ (∀ i ∈ h.cmdItfs, i ∉ rm.availC) := by
  refine I.clean h hh hc ?_
  intro e he
  obtain ⟨es, e1, _⟩ := g.ext
  exact hb e (by rw [e1]; exact List.mem_append_right _ he)

theorem inv_configure (o : Oracle) {rm : RM} (I : rm.Inv) {h : Hw} (hh : h ∈ rm.comps) :
    (rm.configureHw o h).1.Inv := by
  refine I.frame hh (frame_configure o rm h) ?_ ?_ ?_ ?_
  · unfold configureHw; dsimp only; split <;> simp [setHw, I.nodS, nodup_addItems]
  · unfold configureHw; dsimp only; split <;> simp [setHw, I.nodC, nodup_addItems]
  · unfold configureHw; dsimp only
    intro hc
    by_cases hi : (h.configure o rm.tr).1.lc = .inactive
    · simp only [hi, decide_true, if_true]
      constructor <;> intro i hi2 <;> simp [setHw, hi2]
    · simp only [hi, decide_false]
      have ha : (h.configure o rm.tr).1.lc = .active := by
        rcases hc with hc | hc
        · exact absurd hc hi
        · exact hc
      have := I.conf h hh (Or.inr (Hw.configure_active o _ _ ha))
      simpa [setHw] using this
  · unfold configureHw; dsimp only
    intro hc hb
    have hi : ¬ (h.configure o rm.tr).1.lc = .inactive := fun e => hc (Or.inl e)
    simp only [hi, decide_false] at *
    have := I.noBad hh (Hw.good_configure o rm.tr h) (Hw.configure_unconf o _ _ hc) (by simpa using hb)
    simpa [setHw] using this

theorem inv_cleanup (o : Oracle) {rm : RM} (I : rm.Inv) {h : Hw} (hh : h ∈ rm.comps) :
    (rm.cleanupHw o h).1.Inv := by
  refine I.frame hh (frame_cleanup o rm h) ?_ ?_ ?_ ?_
  · unfold cleanupHw; dsimp only; split <;> simp [setHw, removeAvail, I.nodS, nodup_removeItems]
  · unfold cleanupHw; dsimp only; split <;> simp [setHw, removeAvail, I.nodC, nodup_removeItems]
  · unfold cleanupHw; dsimp only
    intro hc
    have hi : ¬ (h.cleanup o rm.tr).1.lc = .unconfigured := by
      rcases hc with hc | hc <;> rw [hc] <;> simp
    simp only [hi, decide_false]
    have := I.conf h hh (Hw.cleanup_conf o _ _ hc)
    simpa [setHw] using this
  · unfold cleanupHw; dsimp only
    intro hc hb
    by_cases hi : (h.cleanup o rm.tr).1.lc = .unconfigured
    · simp only [hi, decide_true, if_true]
      constructor <;> intro i hi2 <;> simp [setHw, removeAvail, mem_removeItems, I.nodS, I.nodC, hi2]
    · have hi' := hi
      simp only [hi, decide_false] at hb ⊢
      by_cases hcf : h.Conf
      · obtain ⟨e, he, hbe⟩ := Hw.cleanup_unconf o _ _ hc hcf hi'
        exact absurd hbe (hb e (by simpa using he))
      · have := I.noBad hh (Hw.good_cleanup o rm.tr h) hcf (by simpa using hb)
        simpa [setHw] using this

theorem inv_shutdown (o : Oracle) {rm : RM} (I : rm.Inv) {h : Hw} (hh : h ∈ rm.comps) :
    (rm.shutdownHw o h).1.Inv := by
  refine I.frame hh (frame_shutdown o rm h) ?_ ?_ ?_ ?_
  · unfold shutdownHw; dsimp only; split <;> simp [setHw, removeAvail, I.nodS, nodup_removeItems]
  · unfold shutdownHw; dsimp only; split <;> simp [setHw, removeAvail, I.nodC, nodup_removeItems]
  · unfold shutdownHw; dsimp only
    intro hc
    have hi : ¬ (h.shutdown o rm.tr).1.lc = .finalized := by
      rcases hc with hc | hc <;> rw [hc] <;> simp
    simp only [hi, decide_false]
    have := I.conf h hh (Hw.shutdown_conf o _ _ hc)
    simpa [setHw] using this
  · unfold shutdownHw; dsimp only
    intro hc hb
    by_cases hi : (h.shutdown o rm.tr).1.lc = .finalized
    · simp only [hi, decide_true, if_true]
      constructor <;> intro i hi2 <;> simp [setHw, removeAvail, mem_removeItems, I.nodS, I.nodC, hi2]
    · have hi' := hi
      simp only [hi, decide_false] at hb ⊢
      by_cases hcf : h.Conf
      · obtain ⟨e, he, hbe⟩ := Hw.shutdown_unconf o _ _ hc hcf hi'
        exact absurd hbe (hb e (by simpa using he))
      · have := I.noBad hh (Hw.good_shutdown o rm.tr h) hcf (by simpa using hb)
        simpa [setHw] using this

theorem inv_activate (o : Oracle) {rm : RM} (I : rm.Inv) {h : Hw} (hh : h ∈ rm.comps) :
    (rm.activateHw o h).1.Inv := by
  refine I.frame hh (frame_activate o rm h) I.nodS I.nodC ?_ ?_
  · intro hc; exact I.conf h hh (Hw.activate_conf o _ _ hc)
  · intro hc hb
    by_cases hcf : h.Conf
    · obtain ⟨e, he, hbe⟩ := Hw.activate_unconf o _ _ hc hcf
      exact absurd hbe (hb e he)
    · exact I.noBad hh (Hw.good_activate o rm.tr h) hcf hb

theorem inv_deactivate (o : Oracle) {rm : RM} (I : rm.Inv) {h : Hw} (hh : h ∈ rm.comps) :
    (rm.deactivateHw o h).1.Inv := by
  refine I.frame hh (frame_deactivate o rm h) I.nodS I.nodC ?_ ?_
  · intro hc; exact I.conf h hh (Hw.deactivate_conf o _ _ hc)
  · intro hc hb
    by_cases hcf : h.Conf
    · obtain ⟨e, he, hbe⟩ := Hw.deactivate_unconf o _ _ hc hcf
      exact absurd hbe (hb e he)
    · exact I.noBad hh (Hw.good_deactivate o rm.tr h) hcf hb

/-- Invariant and frame of a component operation. -/
structure OpOk (rm : RM) (h : Hw) (r : RM × Hw × Bool) : Prop where
  inv : r.1.Inv
  frame : Frame rm h r.2.1 r.1

theorem OpOk.refl {rm : RM} (I : rm.Inv) {h : Hw} (hh : h ∈ rm.comps) (b : Bool) : OpOk rm h (rm, h, b) :=
  ⟨I, Frame.refl I.names hh⟩

theorem OpOk.andThen {rm : RM} {h : Hw} (hh : h ∈ rm.comps) {r : RM × Hw × Bool} (k : OpOk rm h r)
    {f : RM → Hw → RM × Hw × Bool}
    (hf : ∀ rm' h', rm'.Inv → h' ∈ rm'.comps → OpOk rm' h' (f rm' h')) :
    OpOk rm h (RM.andThen r f) := by
  unfold RM.andThen
  split
  · have := hf r.1 r.2.1 k.inv (k.frame.mem hh)
    exact ⟨this.inv, k.frame.trans this.frame⟩
  · exact k

theorem setHwState_ok (o : Oracle) {rm : RM} (I : rm.Inv) {h : Hw} (hh : h ∈ rm.comps) (t : LState) :
    OpOk rm h (rm.setHwState o h t) := by
  have c1 : ∀ rm' h', rm'.Inv → h' ∈ rm'.comps → OpOk rm' h' (rm'.configureHw o h') :=
    fun rm' h' I hh => ⟨inv_configure o I hh, frame_configure o rm' h'⟩
  have c2 : ∀ rm' h', rm'.Inv → h' ∈ rm'.comps → OpOk rm' h' (rm'.cleanupHw o h') :=
    fun rm' h' I hh => ⟨inv_cleanup o I hh, frame_cleanup o rm' h'⟩
  have c3 : ∀ rm' h', rm'.Inv → h' ∈ rm'.comps → OpOk rm' h' (rm'.shutdownHw o h') :=
    fun rm' h' I hh => ⟨inv_shutdown o I hh, frame_shutdown o rm' h'⟩
  have c4 : ∀ rm' h', rm'.Inv → h' ∈ rm'.comps → OpOk rm' h' (rm'.activateHw o h') :=
    fun rm' h' I hh => ⟨inv_activate o I hh, frame_activate o rm' h'⟩
  have c5 : ∀ rm' h', rm'.Inv → h' ∈ rm'.comps → OpOk rm' h' (rm'.deactivateHw o h') :=
    fun rm' h' I hh => ⟨inv_deactivate o I hh, frame_deactivate o rm' h'⟩
  unfold setHwState
  split
  · exact OpOk.refl I hh _
  · exact c2 _ _ I hh
  · exact (c5 _ _ I hh).andThen hh c2
  · exact c1 _ _ I hh
  · exact OpOk.refl I hh _
  · exact c5 _ _ I hh
  · exact (c1 _ _ I hh).andThen hh c4
  · exact c4 _ _ I hh
  · exact OpOk.refl I hh _
  · exact c3 _ _ I hh
  · exact c3 _ _ I hh
  · exact (c5 _ _ I hh).andThen hh c3
  · exact OpOk.refl I hh _
  · exact OpOk.refl I hh _

theorem inv_setComponentState (o : Oracle) {rm : RM} (I : rm.Inv) (n : Name) (t : LState) :
    (rm.setComponentState o n t).1.Inv := by
  unfold setComponentState
  split
  · exact I
  · rename_i h hf
    exact (setHwState_ok o I (findHw_some hf).1 t).inv

end RM
end Verif
