import Verif.CM.Exposed
/-!
# Operations that neither configure, clean up, load nor unload a controller

They leave the lists of exported interfaces alone, bring no controller into a configured state and leave finalized
controllers finalized.
-/
namespace Verif

/-- The event is neither a configuration nor a clean-up of the controller `n`. -/
def Ev.offCfg (n : Name) (e : Ev) : Prop := ∀ cb a, e = .ctlCb n cb a → cb ≠ .cleanup ∧ cb ≠ .configure

/-- The new events of `b` are neither configurations nor clean-ups of the controller `n`. -/
def Plain (n : Name) (a b : List Ev) : Prop := ∃ es, b = es ++ a ∧ ∀ e ∈ es, e.offCfg n

theorem Plain.refl (n : Name) (a : List Ev) : Plain n a a := ⟨[], rfl, by simp⟩
theorem Plain.trans {n : Name} {a b c : List Ev} (h : Plain n a b) (k : Plain n b c) : Plain n a c := by
  obtain ⟨x, hx, h2⟩ := h
  obtain ⟨y, hy, k2⟩ := k
  refine ⟨y ++ x, by rw [hy, hx, List.append_assoc], fun e he => ?_⟩
  rcases List.mem_append.1 he with he | he
  · exact k2 e he
  · exact h2 e he
theorem Plain.one {n : Name} (a : List Ev) (e : Ev) (h : e.offCfg n) : Plain n a (e :: a) := ⟨[e], rfl, by simpa using h⟩
theorem Plain.eq {n : Name} {a b : List Ev} (h : b = a) : Plain n a b := h ▸ .refl _ _

theorem RM.RmStep.plain {a b : RM} (h : RmStep a b) (n : Name) : Plain n a.tr b.tr := by
  obtain ⟨es, e, he⟩ := h.ext
  refine ⟨es, e, fun x hx cb a ex => ?_⟩
  have := he x hx
  rw [ex] at this
  exact absurd rfl this

namespace RM

/-- The lists of exported interfaces are unchanged (and a fault stays a fault); no controller is configured or cleaned up. -/
def Even (a b : RM) : Prop :=
  a.Inv → b.Inv ∧ b.expS = a.expS ∧ b.expR = a.expR ∧ (a.fault = true → b.fault = true) ∧ ∀ n, Plain n a.tr b.tr

theorem Even.refl (a : RM) : Even a a := fun I => ⟨I, rfl, rfl, id, fun _ => .refl _ _⟩
theorem Even.trans {a b c : RM} (h : Even a b) (k : Even b c) : Even a c := by
  intro I
  obtain ⟨I1, h1, h2, h3, h4⟩ := h I
  obtain ⟨I2, k1, k2, k3, k4⟩ := k I1
  exact ⟨I2, k1.trans h1, k2.trans h2, fun x => k3 (h3 x), fun n => (h4 n).trans (k4 n)⟩
theorem Even.of {a b : RM} (h : a.Inv → RmStep a b) : Even a b := fun I =>
  ⟨(h I).inv, (h I).expS, (h I).expR, (h I).fault, (h I).plain⟩

theorem Even.release (rm : RM) (k : Itf) : Even rm (rm.release k) :=
  fun I => ⟨inv_release I k, rfl, rfl, id, fun _ => .refl _ _⟩

theorem Even.releaseAll (l : List Itf) : ∀ rm : RM, Even rm (l.foldl RM.release rm) := by
  induction l with
  | nil => intro rm; exact .refl _
  | cons k t ih => intro rm; exact (Even.release rm k).trans (ih _)

theorem Even.push (rm : RM) (e : Ev) (he : e.hwName = none) (hc : ∀ n, e.offCfg n) :
    Even rm { rm with tr := e :: rm.tr } :=
  fun I => ⟨inv_push I e he, rfl, rfl, id, fun n => .one _ _ (hc n)⟩

theorem Even.claim (rm : RM) (k : Itf) : Even rm (rm.claim k).1 := by
  intro I
  refine ⟨inv_claim I k, ?_, ?_, ?_, fun n => .eq ?_⟩ <;>
    (unfold RM.claim; split
     · (split <;> first | rfl | exact id)
     · (first | rfl | exact id))

theorem Even.claimAll (l : List Itf) : ∀ (rm : RM) (acc : List Itf), Even rm (CM.claimAll rm acc l).1 := by
  induction l with
  | nil => intro rm acc; exact .refl _
  | cons i t ih =>
    intro rm acc
    unfold CM.claimAll
    split
    · exact (Even.releaseAll acc rm).trans (Even.of rmStep_fault)
    · exact Even.releaseAll acc rm
    · have h := Even.claim rm i
      split
      · rename_i rm1 e; rw [e] at h; exact h.trans (ih _ _)
      · rename_i rm1 e; rw [e] at h; exact h.trans (Even.releaseAll acc _)

end RM

namespace CM

/-- No controller gets configured and the finalized ones stay so. -/
def LcCalm (a b : CM) : Prop :=
  (∀ n, a.lcOf n = some .finalized → b.lcOf n = some .finalized) ∧ (∀ n, b.Ready n → a.Ready n)

theorem LcCalm.refl (a : CM) : LcCalm a a := ⟨fun _ h => h, fun _ h => h⟩
theorem LcCalm.trans {a b c : CM} (h : LcCalm a b) (k : LcCalm b c) : LcCalm a c :=
  ⟨fun n x => k.1 n (h.1 n x), fun n x => h.2 n (k.2 n x)⟩
theorem LcCalm.same {a b : CM} (h : ∀ n, b.lcOf n = a.lcOf n) : LcCalm a b :=
  ⟨fun n x => (h n).trans x, fun n x => by unfold Ready at *; rw [h n] at x; exact x⟩

/-- The calm operations. -/
structure Calm (a b : CM) : Prop where
  rm : RM.Even a.rm b.rm
  lc : LcCalm a b

theorem Calm.refl (a : CM) : Calm a a := ⟨.refl _, .refl _⟩
theorem Calm.trans {a b c : CM} (h : Calm a b) (k : Calm b c) : Calm a c := ⟨h.rm.trans k.rm, h.lc.trans k.lc⟩

theorem Calm.foldl {α β : Type} (g : β → CM) (f : β → α → β) (l : List α) (b : β)
    (h : ∀ b, ∀ a ∈ l, Calm (g b) (g (f b a))) : Calm (g b) (g (l.foldl f b)) := by
  induction l generalizing b with
  | nil => exact .refl _
  | cons a t ih => exact (h b a (by simp)).trans (ih _ (fun b a ha => h b a (by simp [ha])))

theorem Calm.rmOnly (cm : CM) {r : RM} (h : RM.Even cm.rm r) : Calm cm { cm with rm := r } := ⟨h, .same (fun _ => rfl)⟩

theorem Calm.sw (cm : CM) (sw : Sw) (p : Bool) : Calm cm { cm with sw := sw, pending := p } :=
  ⟨.refl _, .same (fun _ => rfl)⟩

theorem Calm.modify (cm : CM) (m : Name) (f : Ctl → Ctl) (hn : ∀ c, (f c).name = c.name)
    (hl : ∀ c, (f c).lc = c.lc) : Calm cm (cm.modify m f) := by
  refine ⟨.refl _, .same (fun n => ?_)⟩
  unfold CM.lcOf
  rw [find_modify _ _ _ _ hn]
  split
  · rename_i e; subst e; cases cm.find n <;> simp [hl]
  · rfl

theorem Calm.release (cm : CM) (m : Name) : Calm cm (cm.releaseItfs m) := by
  unfold CM.releaseItfs
  split
  · exact .refl _
  · exact (Calm.rmOnly cm (RM.Even.releaseAll _ _)).trans (Calm.modify _ _ _ (by intro _; rfl) (by intro _; rfl))

theorem Even.trigger (o : Oracle) (cm : CM) (m : Name) (cb : CtlCb) (hcb : cb ≠ .cleanup ∧ cb ≠ .configure) :
    RM.Even cm.rm (cm.trigger o m cb).rm := by
  unfold CM.trigger
  split
  · exact .refl _
  split
  swap
  · exact .refl _
  extract_lets a cm1 cm2 cm3 e
  have h1 : RM.Even cm.rm cm1.rm := RM.Even.push cm.rm _ rfl
    (fun n cb' a' e => by simp only [Ev.ctlCb.injEq] at e; rw [← e.2.1]; exact hcb)
  have h2 : RM.Even cm.rm cm2.rm := by
    simp only [cm2]; split
    · exact h1
    · exact h1
  have h3 : RM.Even cm.rm cm3.rm := by
    simp only [cm3]; split
    · exact h2.trans (Calm.release _ _).rm
    · exact h2
  clear_value e cm3 cm2 cm1 a
  split
  · exact h3
  · exact h3
  · exact (h3.trans (b := cm3.rm) (RM.Even.push _ _ rfl (by intro n cb' a' e; simp at e))).trans (Calm.release (cm3.push _) m).rm

theorem finalized_trigger (o : Oracle) (cm : CM) (m : Name) (cb : CtlCb) (n : Name)
    (h : cm.lcOf n = some .finalized) : (cm.trigger o m cb).lcOf n = some .finalized := by
  by_cases e : n = m
  swap
  · unfold CM.lcOf at *; rw [find_of_others (others_trigger o cm m cb) e]; exact h
  subst e
  obtain ⟨g, hg, _, _, h3⟩ := find_trigger o cm n cb
  unfold CM.lcOf at *
  cases hc : cm.find n with
  | none => rw [hc] at h; simp at h
  | some c =>
    rw [hc] at h
    simp only [Option.map_some, Option.some.injEq] at h
    rw [hg, hc]
    simp only [Option.map_some, Option.some.injEq]
    rw [h3 c hc (by rw [h]; cases cb <;> rfl), h]

theorem Calm.trigger (o : Oracle) (cm : CM) (m : Name) (cb : CtlCb)
    (h : cb ≠ .cleanup ∧ cb ≠ .configure ∧ cb ≠ .init) : Calm cm (cm.trigger o m cb) :=
  ⟨Even.trigger o cm m cb ⟨h.1, h.2.1⟩, fun n x => finalized_trigger o cm m cb n x, (Keeps.trigger o cm m cb h.2).2.2⟩

theorem Calm.setChained (o : Oracle) (cm : CM) (m : Name) (v : Bool) : Calm cm (cm.setChained o m v) := by
  unfold CM.setChained
  split
  · exact .refl _
  split
  swap
  · exact .refl _
  extract_lets a cm1
  have h1 : Calm cm cm1 := ⟨RM.Even.push cm.rm _ rfl (by intro n cb' a' e; simp at e), .same (fun _ => rfl)⟩
  split
  · exact h1.trans (Calm.modify cm1 m _ (by intro _; rfl) (by intro _; rfl))
  · exact h1

theorem Calm.exportsUnavailable (cm : CM) (m : Name) : Calm cm (cm.exportsUnavailable m) :=
  Calm.rmOnly cm ((RM.Even.of (fun I => RM.rmStep_expSUnavail I m)).trans (RM.Even.of (fun I => RM.rmStep_refUnavail I m)))

theorem Calm.exportsAvailable (cm : CM) (m : Name) : Calm cm (cm.exportsAvailable m) :=
  Calm.rmOnly cm ((RM.Even.of (fun I => RM.rmStep_expSAvail I m)).trans (RM.Even.of (fun I => RM.rmStep_refAvail I m)))

theorem Calm.exportsTry (cm : CM) (m : Name) : Calm cm (cm.exportsUnavailableTry m) := by
  unfold CM.exportsUnavailableTry
  split
  · exact .refl _
  · simp only
    split
    · exact Calm.rmOnly cm (RM.Even.of (fun I => RM.rmStep_expSUnavail I m))
    · exact Calm.rmOnly cm ((RM.Even.of (fun I => RM.rmStep_expSUnavail I m)).trans (RM.Even.of (fun I => RM.rmStep_refUnavail I m)))

theorem Calm.deactivateOne (o : Oracle) (cm : CM) (m : Name) : Calm cm (cm.deactivateOne o m) := by
  unfold CM.deactivateOne
  split
  · exact .refl _
  split
  swap
  · exact .refl _
  extract_lets cm1
  have h1 : Calm cm cm1 := (Calm.trigger o cm m .deactivate (by decide)).trans (Calm.release _ m)
  split
  · exact h1.trans ((Calm.setChained o cm1 m false).trans (Calm.exportsTry _ m))
  · exact h1

theorem Calm.deactivateAll (o : Oracle) (cm : CM) (l : List Name) : Calm cm (cm.deactivateAll o l) :=
  Calm.foldl id (CM.deactivateOne o) l cm (fun b a _ => Calm.deactivateOne o b a)

theorem Calm.switchChained (o : Oracle) (cm : CM) (l : List Name) (v : Bool) : Calm cm (cm.switchChained o l v) := by
  refine Calm.foldl id _ l cm (fun b a _ => ?_)
  simp only [id]
  split
  · exact .refl _
  · split
    · exact Calm.setChained o _ _ _
    · exact .refl _

theorem Calm.preAvailable (cm : CM) (l : List Name) : Calm cm (cm.preAvailable l) := by
  refine Calm.foldl id _ l cm (fun b a ha => ?_)
  simp only [id]
  split
  · exact .refl _
  · split
    · exact Calm.exportsAvailable b a
    · exact .refl _

theorem Calm.activateOne (o : Oracle) (s : CM × Bool × List Itf) (m : Name) : Calm s.1 (CM.activateOne o s m).1 := by
  unfold CM.activateOne
  split
  · exact .refl _
  rename_i c hc
  simp only
  have hcl := RM.Even.claimAll (s.1.cmdItfs c) s.1.rm []
  split
  · rename_i rm1 e; rw [e] at hcl; exact Calm.rmOnly _ hcl
  rename_i rm1 loans e
  rw [e] at hcl
  have h0 : Calm s.1 { s.1 with rm := rm1 } := Calm.rmOnly _ hcl
  split
  · have h2 := ((h0.trans (Calm.release _ m)).trans (Calm.modify _ m (fun c => { c with held := loans }) (by intro _; rfl)
      (by intro _; rfl))).trans (Calm.trigger o _ m .activate (by decide))
    generalize (((({ s.1 with rm := rm1 } : CM).releaseItfs m).modify m (fun c => { c with held := loans })).trigger o m .activate) = x at h2 ⊢
    split
    · split
      · exact h2.trans (Calm.exportsAvailable x m)
      · exact h2
    · split
      · exact (h2.trans (Calm.release _ _)).trans (Calm.exportsUnavailable _ _)
      · exact h2.trans (Calm.release _ _)
  · exact Calm.rmOnly _ (hcl.trans (RM.Even.releaseAll _ _))

theorem Calm.prepareAndPerform (o : Oracle) (cm : CM) (a b : List Itf) : Calm cm (cm.prepareAndPerform o a b) := by
  unfold CM.prepareAndPerform
  have h1 : RM.Even cm.rm (cm.rm.prepareSwitch o a b).1 := RM.Even.of (fun I => RM.rmStep_prepareSwitch o I a b)
  split
  · rename_i rm1 e
    rw [e] at h1
    exact Calm.rmOnly cm (h1.trans (RM.Even.of (fun I => RM.rmStep_performSwitch o I a b)))
  · rename_i rm1 e
    rw [e] at h1
    exact Calm.rmOnly cm h1

theorem Calm.activateAll (o : Oracle) (cm : CM) (l : List Name) (s : Strictness) : Calm cm (cm.activateAll o l s) := by
  unfold CM.activateAll
  have f := (Calm.preAvailable cm l).trans (Calm.foldl (fun b : CM × Bool × List Itf => b.1) (CM.activateOne o) l
    (cm.preAvailable l, true, []) (fun b a _ => Calm.activateOne o b a))
  simp only
  split
  · exact f.trans ((Calm.deactivateAll o _ l).trans (Calm.prepareAndPerform o _ _ _))
  · split
    · exact f.trans (Calm.prepareAndPerform o _ _ _)
    · exact f

theorem Calm.modeChange (o : Oracle) (cm : CM) (a b : List Name) : Calm cm (cm.modeChange o a b) := by
  unfold CM.modeChange
  simp only
  split
  · exact .refl _
  · exact Calm.prepareAndPerform o cm _ _

theorem Calm.manageSwitch (o : Oracle) (cm : CM) : Calm cm (cm.manageSwitch o) := by
  have s1 : RM.Even cm.rm (cm.rm.performSwitch o cm.sw.actItf cm.sw.deactItf).1 :=
    RM.Even.of (fun I => RM.rmStep_performSwitch o I _ _)
  unfold CM.manageSwitch
  split
  · rename_i rm1 e; rw [e] at s1; exact (Calm.rmOnly cm s1).trans (Calm.sw _ _ _)
  · rename_i rm1 e
    rw [e] at s1
    simp only
    exact (((((Calm.rmOnly cm s1).trans (Calm.deactivateAll o _ _)).trans (Calm.switchChained o _ _ _)).trans
      (Calm.switchChained o _ _ _)).trans (Calm.activateAll o _ _ _)).trans (Calm.sw _ _ _)

theorem Calm.handleFailed (o : Oracle) (cm : CM) (l : List Name) : Calm cm (cm.handleFailed o l) := by
  unfold CM.handleFailed
  split
  · exact .refl _
  extract_lets plan l' cm1
  have f : Calm cm cm1 := (Calm.modeChange o cm _ _).trans (Calm.deactivateAll o _ _)
  split
  · exact f
  · exact f.trans (Calm.activateAll o _ _ _)

theorem Calm.rtRead (o : Oracle) (s : Name → RM.Sched) (cm : CM) : Calm cm (cm.rtRead o s) := by
  unfold CM.rtRead
  have h : Calm cm { cm with rm := (cm.rm.read o s).1 } := Calm.rmOnly cm (RM.Even.of (RM.rmStep_read o s))
  simp only
  split
  · exact h.trans ((Calm.modeChange o _ _ _).trans (Calm.deactivateAll o _ _))
  · exact h

theorem Calm.rtWrite (o : Oracle) (s : Name → RM.Sched) (cm : CM) : Calm cm (cm.rtWrite o s) := by
  unfold CM.rtWrite
  have h : Calm cm { cm with rm := (cm.rm.write o s).1 } := Calm.rmOnly cm (RM.Even.of (RM.rmStep_write o s))
  simp only
  split
  · exact h
  · exact h.trans ((Calm.modeChange o _ _ _).trans (Calm.deactivateAll o _ _))
  · exact h.trans ((Calm.modeChange o _ _ _).trans (Calm.deactivateAll o _ _))

theorem Calm.updateLoop (o : Oracle) (due : Name → Bool) (l : List Ctl) : ∀ (cm : CM) (k : List Name) (r : Ret),
    Calm cm (CM.updateLoop o due l cm k r).1 := by
  induction l with
  | nil => intro cm k r; exact .refl _
  | cons c t ih =>
    intro cm k r
    unfold CM.updateLoop
    split
    · extract_lets a cm1
      have h1 : Calm cm cm1 := ⟨RM.Even.push cm.rm _ rfl (by intro n cb' a' e; simp at e), .same (fun _ => rfl)⟩
      clear_value cm1 a
      split
      · exact h1.trans (ih _ _ _)
      · exact h1.trans (ih _ _ _)
      · exact h1.trans (ih _ _ _)
    · exact ih _ _ _

theorem Calm.rtUpdate (o : Oracle) (due : Name → Bool) (lock : Bool) (cm : CM) : Calm cm (cm.rtUpdate o due lock).1 := by
  unfold CM.rtUpdate
  extract_lets r cm1 sw1 cm2
  have f1 : Calm cm cm1 := (Calm.updateLoop o due _ _ _ _).trans (Calm.handleFailed o r.1 r.2.1)
  clear_value r cm1
  simp only [cm2]
  split
  · split
    · split
      · exact f1.trans (Calm.manageSwitch o cm1)
      · exact f1
    · exact f1.trans (Calm.sw _ _ _)
  · exact f1

theorem Calm.switchFinish (cm : CM) : Calm cm (cm.switchFinish).1 := by
  refine ⟨.refl _, .same (fun n => ?_)⟩
  unfold CM.lcOf
  rw [find_switchFinish]
  cases cm.find n <;> rfl

theorem Calm.switchWake (o : Oracle) (cm : CM) : Calm cm (cm.switchWake o).1 := by
  unfold CM.switchWake
  split
  · exact .refl _
  split
  · split
    · exact .refl _
    · exact Calm.switchFinish cm
  split
  · exact (Calm.manageSwitch o cm).trans (Calm.switchFinish _)
  · exact .refl _

theorem Calm.switchTimeout (cm : CM) : Calm cm (cm.switchTimeout).1 := by
  unfold CM.switchTimeout
  split
  · exact Calm.sw cm _ false
  · exact .refl _

theorem Calm.setHw (o : Oracle) (cm : CM) (h : Name) (t : LState) : Calm cm (cm.setHw o h t).1 := by
  unfold CM.setHw
  split
  · exact .refl _
  · exact Calm.rmOnly cm (RM.Even.of (fun I => RM.rmStep_setComponentState o I h t))

theorem Calm.shutdownAll (o : Oracle) (cm : CM) : Calm cm (cm.shutdownAll o).1 := by
  unfold CM.shutdownAll
  refine Calm.foldl id (shutdownOne o) (cm.ctls.map (·.name)) cm (fun b a _ => ?_)
  simp only [id]
  unfold shutdownOne
  extract_lets cm1
  have f1 : Calm b cm1 := by
    simp only [cm1]; split
    · exact (Calm.trigger o b a .deactivate (by decide)).trans (Calm.release _ a)
    · exact .refl _
  clear_value cm1
  split
  · exact f1.trans (Calm.trigger o _ a .shutdown (by decide))
  · exact f1

end CM

namespace Sys

/-- What steps that do not touch the controller `n` leave alone. -/
structure Away (n : Name) (s s' : Sys) : Prop where
  k : s'.k n = s.k n
  expS : s'.rm.expS n = s.rm.expS n
  expR : s'.rm.expR n = s.rm.expR n
  fault : s.rm.fault = true → s'.rm.fault = true
  plain : Plain n s.rm.tr s'.rm.tr

theorem Away.refl (n : Name) (s : Sys) : Away n s s := ⟨rfl, rfl, rfl, id, .refl _ _⟩
theorem Away.trans {n : Name} {a b c : Sys} (h : Away n a b) (k : Away n b c) : Away n a c :=
  ⟨k.k.trans h.k, k.expS.trans h.expS, k.expR.trans h.expR, fun x => k.fault (h.fault x), h.plain.trans k.plain⟩

theorem Away.release {n m : Name} (s : Sys) (h : n ≠ m) : Away n s (s.release m) := by
  unfold Sys.release
  split
  · exact .refl _ _
  · rw [RM.foldl_release]
    exact ⟨by simp [Sys.set, upd_apply, h], rfl, rfl, id, .refl _ _⟩

theorem TrigEvs.offCfg {n m : Name} {cb es lc'} (h : TrigEvs m cb es lc') (hn : n ≠ m) : ∀ e ∈ es, e.offCfg n := by
  cases h <;> (simp only [List.mem_cons, List.not_mem_nil, or_false, forall_eq_or_imp, forall_eq, Ev.offCfg, Ev.ctlCb.injEq,
    reduceCtorEq, false_implies, implies_true, and_true, true_and]) <;>
    (intros; rename_i h; exact absurd h.1.symm hn)

theorem Away.trigger (o : Oracle) {n m : Name} (s : Sys) (cb : CtlCb) (h : n ≠ m) : Away n s (s.trigger o m cb) := by
  by_cases hl : ∃ c, s.k m = some c ∧ cb.legal c.lc = true
  swap
  · rw [trigger_illegal o cb (fun c hc => by
      by_contra hx; exact hl ⟨c, hc, by simpa using hx⟩)]
    exact .refl _ _
  obtain ⟨c, hc, hleg⟩ := hl
  obtain ⟨es, lc', hev, hcase⟩ := trigger_spec o cb hc hleg
  rcases hcase with ⟨_, _, e⟩ | e <;> rw [e]
  · exact ⟨by simp [Sys.set, upd_apply, h], rfl, rfl, id, es, rfl, hev.offCfg h⟩
  · rw [RM.foldl_release]
    exact ⟨by simp [Sys.set, upd_apply, h], rfl, rfl, id, es, rfl, hev.offCfg h⟩

theorem _root_.Verif.RM.removeStateItfs_fault (l : List Itf) : ∀ rm : RM, rm.fault = true → (rm.removeStateItfs l).fault = true := by
  induction l with
  | nil => intro rm h; exact h
  | cons i t ih =>
    intro rm h
    unfold RM.removeStateItfs
    apply ih
    simp [h]

theorem _root_.Verif.RM.removeCmdItfs_fault (l : List Itf) : ∀ rm : RM, rm.fault = true → (rm.removeCmdItfs l).fault = true := by
  induction l with
  | nil => intro rm h; exact h
  | cons i t ih =>
    intro rm h
    unfold RM.removeCmdItfs
    apply ih
    simp [h]

theorem _root_.Verif.RM.removeExports_fault (rm : RM) (m : Name) (h : rm.fault = true) :
    ((rm.removeExportedState m).removeReference m).fault = true := by
  have h1 : (rm.removeExportedState m).fault = true := by
    unfold RM.removeExportedState
    split
    · exact h
    · exact RM.removeStateItfs_fault _ _ h
  unfold RM.removeReference
  split
  · exact h1
  · exact RM.removeCmdItfs_fault _ _ h1

theorem AStep.away {o : Oracle} {T : Name → Prop} {s s' : Sys} (h : AStep o T s s') {n : Name} (hn : ¬ T n) : Away n s s' := by
  have ne : ∀ {m}, T m → n ≠ m := fun hm e => hn (e ▸ hm)
  cases h with
  | rm st => exact ⟨rfl, congrFun st.expS n, congrFun st.expR n, st.fault, st.plain n⟩
  | update a hc hl => exact ⟨rfl, rfl, rfl, id, .one _ _ (by intro cb' a' e; simp at e)⟩
  | claimFail h =>
    have ht := claimAll_tr h
    obtain ⟨g, fl, e, hf, _⟩ := RM.claimAll_none h
    rw [e]; exact ⟨rfl, rfl, rfl, hf, .refl _ _⟩
  | deact hT => exact (Away.trigger o s _ (ne hT)).trans (Away.release _ (ne hT))
  | trig hT => exact Away.trigger o s _ (ne hT)
  | act hT h hl =>
    rename_i m l loans rm1
    obtain ⟨_, _, _, e⟩ := RM.claimAll_some h
    unfold Sys.activate
    split
    · exact .refl _ _
    · rename_i c hc
      simp only
      have h1 : Away n s (({ s with rm := c.held.foldl RM.release rm1 } : Sys).set m { c with held := loans }) := by
        rw [RM.foldl_release, e]
        exact ⟨by simp [Sys.set, upd_apply, ne hT], rfl, rfl, id, .refl _ _⟩
      have h2 := h1.trans (Away.trigger o _ .activate (ne hT))
      split
      · exact h2
      · exact h2.trans (Away.release _ (ne hT))
  | chain hT =>
    have := ne hT
    unfold Sys.setChained
    split
    · exact .refl _ _
    · split
      · simp only
        split
        · exact ⟨by simp [Sys.set, Sys.push, upd_apply, this], rfl, rfl, id, .one _ _ (by intro cb' a' e; simp at e)⟩
        · exact ⟨rfl, rfl, rfl, id, .one _ _ (by intro cb' a' e; simp at e)⟩
      · exact .refl _ _
  | load hT hn' ch as fb cmd =>
    have := ne hT
    exact ⟨by simp [Sys.set, Sys.push, upd_apply, this], rfl, rfl, id, .one _ _ (by
      intro cb' a' e; simp only [Ev.ctlCb.injEq] at e; exact absurd e.1.symm this)⟩
  | loadFail hT hn' a ha =>
    have := ne hT
    exact ⟨rfl, rfl, rfl, id, .one _ _ (by
      intro cb' a' e; simp only [Ev.ctlCb.injEq] at e; exact absurd e.1.symm this)⟩
  | dropExports hT hc hl =>
    rename_i m c
    have hne := ne hT
    obtain ⟨e1, e2, _, _⟩ := RM.removeExported_exp s.rm m
    refine ⟨rfl, ?_, ?_, RM.removeExports_fault s.rm m, .eq (dropExports_tr _ _)⟩
    · show ((s.rm.removeExportedState m).removeReference m).expS n = _
      rw [e1]; simp [upd_apply, hne]
    · show ((s.rm.removeExportedState m).removeReference m).expR n = _
      rw [e2]; simp [upd_apply, hne]
  | importR hT hc rs =>
    rename_i m c
    obtain ⟨_, _, e3, e4, _⟩ := RM.import_exp s.rm m rs []
    refine ⟨rfl, congrFun e3 n, e4 n (ne hT), ?_, .eq (importReference_tr _ _ _)⟩
    obtain ⟨ks, cl, e, _⟩ := (RM.addCmdItfs_spec s.rm rs).eq
    intro hf
    show (s.rm.importReference m rs).1.fault = true
    unfold RM.importReference
    split
    · rename_i rm' names hh; rw [hh] at e; simp only at e; subst e; exact hf
    · rename_i rm' hh; rw [hh] at e; simp only at e; subst e; exact hf
  | importS hT hc ss =>
    rename_i m c
    obtain ⟨_, _, _, _, _, _, _, e8, _, e10⟩ := RM.import_exp s.rm m [] ss
    refine ⟨rfl, e10 n (ne hT), congrFun e8 n, ?_, .eq (importExportedState_tr _ _ _)⟩
    have := (RM.addStateItfs_spec s.rm ss).eq
    intro hf
    show (s.rm.importExportedState m ss).fault = true
    unfold RM.importExportedState
    simp only; rw [this]; exact hf
  | erase hT hc hh => exact ⟨by simp [upd_apply, ne hT], rfl, rfl, id, .refl _ _⟩
  | recfg hT hc hl cmd => exact ⟨by simp [Sys.set, upd_apply, ne hT], rfl, rfl, id, .refl _ _⟩

theorem Steps.away {o : Oracle} {T : Name → Prop} {s s' : Sys} (h : Steps o T s s') {n : Name} (hn : ¬ T n) : Away n s s' := by
  induction h with
  | refl => exact .refl _ _
  | tail _ h ih => exact ih.trans (h.away hn)

end Sys

namespace CM

theorem Calm.switchBegin (o : Oracle) (cm : CM) (I : Inv cm) (a d : List Name) (s : Strictness) (asap : Bool) :
    Calm cm (cm.switchBegin o a d s asap).1 := by
  have f := Fwd.switchBegin o cm a d s asap I.sys
  have aw := fun n => f.steps.away (n := n) (by intro h; exact h)
  refine ⟨fun _ => ⟨(f.cmInv I).sys.claims.rm, funext (fun n => (aw n).expS), funext (fun n => (aw n).expR),
    (aw 0).fault, fun n => (aw n).plain⟩, .same (fun n => ?_)⟩
  have := (aw n).k
  rw [abs_k, abs_k] at this
  unfold CM.lcOf
  have h5 := congrArg (Option.map Core.lc) this
  simpa [Option.map_map, Function.comp_def, Ctl.core] using h5

/-- `op` is not `load`, `configure`, `cleanup` or `unload`. -/
def Op.calm : Op → Bool
  | .load .. => false
  | .configure .. => false
  | .cleanup _ => false
  | .unload _ => false
  | _ => true

theorem Calm.step (o : Oracle) {cm : CM} (I : Inv cm) (op : Op) (h : op.calm = true) : Calm cm (cm.step o op) := by
  cases op <;> simp only [Op.calm, Bool.false_eq_true] at h <;> simp only [CM.step]
  · split
    · exact .refl _
    · exact Calm.switchBegin o cm I _ _ _ _
  · exact Calm.switchWake o cm
  · exact Calm.switchTimeout cm
  · exact Calm.rtRead o _ cm
  · exact Calm.rtUpdate o _ _ cm
  · exact Calm.rtWrite o _ cm
  · exact Calm.setHw o cm _ _
  · exact Calm.shutdownAll o cm

end CM
end Verif
