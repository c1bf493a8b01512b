import Verif.CM.Told
/-!
# What changes the hardware components

Only `read`, `write` and `set_hardware_component_state` touch the states of hardware components; everything the controller
manager does with controllers leaves them as they are.
-/
namespace Verif
namespace CM

/-- The hardware components are the same, in the same states. -/
def SameHw (a b : CM) : Prop := b.rm.comps = a.rm.comps

theorem SameHw.refl (a : CM) : SameHw a a := rfl
theorem SameHw.trans {a b c : CM} (h : SameHw a b) (k : SameHw b c) : SameHw a c := Eq.trans k h

theorem SameHw.foldl {α β : Type} (g : β → CM) (f : β → α → β) (l : List α) (b : β)
    (h : ∀ b a, SameHw (g b) (g (f b a))) : SameHw (g b) (g (l.foldl f b)) := by
  induction l generalizing b with
  | nil => exact .refl _
  | cons a t ih => exact (h b a).trans (ih _)

theorem SameHw.release (cm : CM) (n : Name) : SameHw cm (cm.releaseItfs n) := by
  unfold CM.releaseItfs
  split
  · exact .refl _
  · show (List.foldl RM.release cm.rm _).comps = _
    rw [RM.foldl_release]

theorem SameHw.trigger (o : Oracle) (cm : CM) (n : Name) (cb : CtlCb) : SameHw cm (cm.trigger o n cb) := by
  unfold CM.trigger
  split
  · exact .refl _
  split
  swap
  · exact .refl _
  extract_lets a cm1 cm2 cm3
  have h2 : SameHw cm cm2 := by
    simp only [cm2]; split <;> exact rfl
  have h3 : SameHw cm cm3 := by
    simp only [cm3]; split
    · exact h2.trans (.release _ _)
    · exact h2
  clear_value cm3 a
  split
  · exact h3
  · exact h3
  · exact h3.trans (SameHw.trans (b := cm3.push _) rfl (SameHw.trans (SameHw.release _ n) rfl))

theorem SameHw.setChained (o : Oracle) (cm : CM) (n : Name) (v : Bool) : SameHw cm (cm.setChained o n v) := by
  unfold CM.setChained
  split
  · exact .refl _
  split
  · simp only; split <;> exact rfl
  · exact .refl _

theorem comps_expS (rm : RM) (n : Name) : (rm.exportedStateUnavailable n).comps = rm.comps := by
  unfold RM.exportedStateUnavailable; split <;> rfl
theorem comps_expR (rm : RM) (n : Name) : (rm.referenceUnavailable n).comps = rm.comps := by
  unfold RM.referenceUnavailable; split <;> rfl
theorem comps_expS' (rm : RM) (n : Name) : (rm.exportedStateAvailable n).comps = rm.comps := by
  unfold RM.exportedStateAvailable; split <;> rfl
theorem comps_expR' (rm : RM) (n : Name) : (rm.referenceAvailable n).comps = rm.comps := by
  unfold RM.referenceAvailable; split <;> rfl

theorem SameHw.exportsAvailable (cm : CM) (n : Name) : SameHw cm (cm.exportsAvailable n) := by
  unfold CM.exportsAvailable SameHw
  simp only [comps_expS', comps_expR']

theorem SameHw.exportsUnavailable (cm : CM) (n : Name) : SameHw cm (cm.exportsUnavailable n) := by
  unfold CM.exportsUnavailable SameHw
  simp only [comps_expS, comps_expR]

theorem SameHw.exportsTry (cm : CM) (n : Name) : SameHw cm (cm.exportsUnavailableTry n) := by
  unfold CM.exportsUnavailableTry
  split
  · exact .refl _
  · simp only
    split
    · exact comps_expS _ _
    · exact (comps_expR _ _).trans (comps_expS _ _)

theorem SameHw.deactivateOne (o : Oracle) (cm : CM) (n : Name) : SameHw cm (cm.deactivateOne o n) := by
  unfold CM.deactivateOne
  split
  · exact .refl _
  split
  swap
  · exact .refl _
  simp only
  have h := (SameHw.trigger o cm n .deactivate).trans (SameHw.release _ n)
  split
  · exact h.trans ((SameHw.setChained o _ n false).trans (SameHw.exportsTry _ _))
  · exact h

theorem SameHw.deactivateAll (o : Oracle) (cm : CM) (l : List Name) : SameHw cm (cm.deactivateAll o l) :=
  SameHw.foldl id (CM.deactivateOne o) l cm (fun b a => SameHw.deactivateOne o b a)

theorem SameHw.switchChained (o : Oracle) (cm : CM) (l : List Name) (v : Bool) : SameHw cm (cm.switchChained o l v) := by
  refine SameHw.foldl id _ l cm (fun b a => ?_)
  simp only [id]
  split
  · exact .refl _
  · split
    · exact SameHw.setChained o _ _ _
    · exact .refl _

theorem SameHw.preAvailable (cm : CM) (l : List Name) : SameHw cm (cm.preAvailable l) := by
  refine SameHw.foldl id _ l cm (fun b a => ?_)
  simp only [id]
  split
  · exact .refl _
  · split
    · exact SameHw.exportsAvailable _ _
    · exact .refl _

theorem SameHw.activateOne (o : Oracle) (s : CM × Bool × List Itf) (n : Name) : SameHw s.1 (CM.activateOne o s n).1 := by
  unfold CM.activateOne
  split
  · exact .refl _
  simp only
  split
  · rename_i h; exact (Sys.claimAll_used h).2
  rename_i c _ rm1 loans h
  have h0 : SameHw s.1 ({ s.1 with rm := rm1 } : CM) := (Sys.claimAll_used h).2
  split
  · have h1 : SameHw s.1 ((({ s.1 with rm := rm1 } : CM).releaseItfs n).modify n (fun c => { c with held := loans })) :=
      h0.trans (SameHw.trans (SameHw.release _ n) rfl)
    have h2 := h1.trans (SameHw.trigger o _ n .activate)
    split
    · split
      · exact h2.trans (SameHw.exportsAvailable _ _)
      · exact h2
    · split
      · exact (h2.trans (SameHw.release _ _)).trans (SameHw.exportsUnavailable _ _)
      · exact h2.trans (SameHw.release _ _)
  · refine h0.trans ?_
    show (List.foldl RM.release rm1 _).comps = _
    rw [RM.foldl_release]

theorem comps_prepare (o : Oracle) (rm : RM) (a b : List Itf) : (rm.prepareSwitch o a b).1.comps = rm.comps := by
  obtain ⟨es, e⟩ := prepareSwitch_only o rm a b
  rw [e]

theorem comps_perform (o : Oracle) (rm : RM) (a b : List Itf) : (rm.performSwitch o a b).1.comps = rm.comps := by
  unfold RM.performSwitch
  split
  · rfl
  · rfl

theorem SameHw.prepareAndPerform (o : Oracle) (cm : CM) (a b : List Itf) : SameHw cm (cm.prepareAndPerform o a b) := by
  unfold CM.prepareAndPerform
  have h := comps_prepare o cm.rm a b
  split
  · rename_i rm1 e
    rw [e] at h
    exact (comps_perform o rm1 a b).trans h
  · rename_i rm1 e
    rw [e] at h
    exact h

theorem SameHw.activateAll (o : Oracle) (cm : CM) (l : List Name) (s : Strictness) : SameHw cm (cm.activateAll o l s) := by
  unfold CM.activateAll
  have f := (SameHw.preAvailable cm l).trans (SameHw.foldl (fun b : CM × Bool × List Itf => b.1) (CM.activateOne o) l
    (cm.preAvailable l, true, []) (fun b a => SameHw.activateOne o b a))
  simp only
  split
  · exact f.trans ((SameHw.deactivateAll o _ l).trans (SameHw.prepareAndPerform o _ _ _))
  · split
    · exact f.trans (SameHw.prepareAndPerform o _ _ _)
    · exact f

theorem SameHw.modeChange (o : Oracle) (cm : CM) (a d : List Name) : SameHw cm (cm.modeChange o a d) := by
  unfold CM.modeChange
  simp only
  split
  · exact .refl _
  · exact SameHw.prepareAndPerform o _ _ _

theorem SameHw.handleFailed (o : Oracle) (cm : CM) (l : List Name) : SameHw cm (cm.handleFailed o l) := by
  unfold CM.handleFailed
  split
  · exact .refl _
  · simp only
    have f := (SameHw.modeChange o cm (cm.fallbackPlan l).1 (addItems l (cm.fallbackPlan l).2)).trans
      (SameHw.deactivateAll o _ (addItems l (cm.fallbackPlan l).2))
    split
    · exact f
    · exact f.trans (SameHw.activateAll o _ _ _)

theorem SameHw.manageSwitch (o : Oracle) (cm : CM) : SameHw cm (cm.manageSwitch o) := by
  unfold CM.manageSwitch
  have h := comps_perform o cm.rm cm.sw.actItf cm.sw.deactItf
  split
  · rename_i rm1 e
    rw [e] at h
    exact h
  · rename_i rm1 e
    rw [e] at h
    have f : SameHw cm ((((({ cm with rm := rm1 } : CM).deactivateAll o cm.sw.deact).switchChained o cm.sw.toCh true).switchChained o
        cm.sw.fromCh false).activateAll o cm.sw.act cm.sw.strict) :=
      ((((SameHw.trans (b := { cm with rm := rm1 }) h (SameHw.deactivateAll o _ _)).trans
        (SameHw.switchChained o _ _ _)).trans (SameHw.switchChained o _ _ _)).trans (SameHw.activateAll o _ _ _))
    exact f

theorem SameHw.rtUpdate (o : Oracle) (due : Name → Bool) (lock : Bool) (cm : CM) : SameHw cm (cm.rtUpdate o due lock).1 := by
  unfold CM.rtUpdate
  extract_lets r cm1 _ cm2
  have h0 : SameHw cm r.1 := by
    obtain ⟨es, h⟩ := updateLoop_push o due cm.ctls cm [] .ok
    change r.1 = _ at h
    rw [h]; rfl
  have h1 : SameHw cm cm1 := h0.trans (SameHw.handleFailed o _ _)
  clear_value cm1
  simp only [cm2]
  split
  · split
    · split
      · exact h1.trans (SameHw.manageSwitch o _)
      · exact h1
    · exact h1
  · exact h1

theorem SameHw.switchFinish (cm : CM) : SameHw cm cm.switchFinish.1 := rfl

theorem SameHw.switchWake (o : Oracle) (cm : CM) : SameHw cm (cm.switchWake o).1 := by
  unfold CM.switchWake
  split
  · exact .refl _
  split
  · split
    · exact .refl _
    · exact SameHw.switchFinish cm
  · split
    · exact (SameHw.manageSwitch o cm).trans (SameHw.switchFinish _)
    · exact .refl _

theorem SameHw.switchTimeout (cm : CM) : SameHw cm cm.switchTimeout.1 := by
  unfold CM.switchTimeout
  split
  · exact rfl
  · exact .refl _

theorem SameHw.shutdownOne (o : Oracle) (cm : CM) (n : Name) : SameHw cm (cm.shutdownOne o n) := by
  unfold CM.shutdownOne
  extract_lets cm1
  have f1 : SameHw cm cm1 := by
    simp only [cm1]; split
    · exact (SameHw.trigger o cm n .deactivate).trans (SameHw.release _ _)
    · exact .refl _
  split
  · exact f1.trans (SameHw.trigger o _ _ _)
  · exact f1

theorem SameHw.shutdownAll (o : Oracle) (cm : CM) : SameHw cm (cm.shutdownAll o).1 :=
  SameHw.foldl id (CM.shutdownOne o) (cm.ctls.map (fun c : Ctl => c.name)) cm (fun b a => SameHw.shutdownOne o b a)

/-- The hardware after a read cycle is what `ResourceManager::read` made of it. -/
theorem comps_rtRead (o : Oracle) (s : Name → RM.Sched) (cm : CM) :
    (cm.rtRead o s).rm.comps = (cm.rm.read o s).1.comps := by
  unfold CM.rtRead
  simp only
  split
  · exact (SameHw.modeChange o ({ cm with rm := (cm.rm.read o s).1 } : CM) _ _).trans (SameHw.deactivateAll o _ _)
  · rfl

/-- The hardware after a write cycle is what `ResourceManager::write` made of it. -/
theorem comps_rtWrite (o : Oracle) (s : Name → RM.Sched) (cm : CM) :
    (cm.rtWrite o s).rm.comps = (cm.rm.write o s).1.comps := by
  unfold CM.rtWrite
  simp only
  split
  · rfl
  · exact (SameHw.modeChange o ({ cm with rm := (cm.rm.write o s).1 } : CM) _ _).trans (SameHw.deactivateAll o _ _)
  · exact (SameHw.modeChange o ({ cm with rm := (cm.rm.write o s).1 } : CM) _ _).trans (SameHw.deactivateAll o _ _)

end CM
end Verif
