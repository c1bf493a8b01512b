import Verif.CM.Accept
import Verif.CM.Run
/-!
# While a switch request is waiting nothing but the switch itself changes the request
-/
namespace Verif
namespace CM

/-- The controller `n` is configured: INACTIVE or ACTIVE. -/
def Ready (cm : CM) (n : Name) : Prop := cm.lcOf n = some .inactive ∨ cm.lcOf n = some .active

/-- The switch request is the same, and no controller became configured. -/
def Keeps (a b : CM) : Prop := b.sw = a.sw ∧ b.pending = a.pending ∧ ∀ n, b.Ready n → a.Ready n

theorem Keeps.refl (a : CM) : Keeps a a := ⟨rfl, rfl, fun _ h => h⟩
theorem Keeps.trans {a b c : CM} (h : Keeps a b) (k : Keeps b c) : Keeps a c :=
  ⟨k.1.trans h.1, k.2.1.trans h.2.1, fun n x => h.2.2 n (k.2.2 n x)⟩

theorem Keeps.foldl {α β : Type} (g : β → CM) (f : β → α → β) (l : List α) (b : β)
    (h : ∀ b a, Keeps (g b) (g (f b a))) : Keeps (g b) (g (l.foldl f b)) := by
  induction l generalizing b with
  | nil => exact .refl _
  | cons a t ih => exact (h b a).trans (ih _)

theorem Keeps.rm (cm : CM) (rm' : RM) : Keeps cm { cm with rm := rm' } := ⟨rfl, rfl, fun _ h => h⟩

theorem Keeps.modify (cm : CM) (n : Name) (f : Ctl → Ctl) (hn : ∀ c, (f c).name = c.name) (hl : ∀ c, (f c).lc = c.lc) :
    Keeps cm (cm.modify n f) := by
  refine ⟨rfl, rfl, fun m h => ?_⟩
  have : (cm.modify n f).lcOf m = cm.lcOf m := by
    unfold CM.lcOf
    rw [find_modify _ _ _ _ hn]
    split
    · rename_i e; subst e; cases hx : cm.find m <;> simp [hl]
    · rfl
  unfold Ready at h ⊢
  rw [this] at h; exact h

theorem Keeps.modifyLc (cm : CM) (n : Name) (l : LState) (h : (l = .inactive ∨ l = .active) → cm.Ready n) :
    Keeps cm (cm.modify n (fun c => { c with lc := l })) := by
  refine ⟨rfl, rfl, fun m hm => ?_⟩
  unfold Ready CM.lcOf at hm
  rw [find_modify _ _ _ _ (by intro _; rfl)] at hm
  by_cases e : m = n
  · subst e
    cases hc : cm.find m with
    | none => simp [hc] at hm
    | some c => simp [hc] at hm; exact h hm
  · rw [if_neg e] at hm; exact hm

theorem Keeps.release (cm : CM) (n : Name) : Keeps cm (cm.releaseItfs n) := by
  unfold releaseItfs; split
  · exact .refl _
  · exact (Keeps.rm _ _).trans (Keeps.modify _ _ _ (by intro _; rfl) (by intro _; rfl))

theorem Keeps.trigger (o : Oracle) (cm : CM) (n : Name) (cb : CtlCb) (hcb : cb ≠ .configure ∧ cb ≠ .init) :
    Keeps cm (cm.trigger o n cb) := by
  unfold CM.trigger
  split
  · exact .refl cm
  · rename_i c hc
    split
    swap
    · exact .refl cm
    rename_i hleg
    extract_lets a cm1 cm2 cm3
    have s1 : Keeps cm cm1 := Keeps.rm _ _
    have s2 : Keeps cm1 cm2 := by
      simp only [cm2]; split
      · exact Keeps.modify _ _ _ (by intro _; rfl) (by intro _; rfl)
      · exact .refl _
    have s3 : Keeps cm2 cm3 := by
      simp only [cm3]; split
      · exact Keeps.release _ _
      · exact .refl _
    have hl3 : cm3.lcOf n = cm.lcOf n := by
      have l1 : cm1.lcOf n = cm.lcOf n := rfl
      have l2 : cm2.lcOf n = cm1.lcOf n := by
        simp only [cm2]; split
        · unfold CM.lcOf; rw [find_modify _ _ _ _ (by intro _; rfl)]
          simp; cases cm1.find n <;> rfl
        · rfl
      have l3 : cm3.lcOf n = cm2.lcOf n := by
        simp only [cm3]; split
        · unfold releaseItfs
          split
          · rfl
          · rename_i d hd
            unfold CM.lcOf; rw [find_modify _ _ _ _ (by intro _; rfl), if_pos rfl]
            change (((cm2.find n).map _).map _) = _
            rw [hd]; rfl
        · rfl
      rw [l3, l2, l1]
    have s := s1.trans (s2.trans s3)
    have hcl : cm3.lcOf n = some c.lc := by rw [hl3]; unfold CM.lcOf; rw [hc]; rfl
    clear_value cm3 a
    have rdy : ∀ l, (l = cb.onSuccess ∨ l = cb.onFailure) → (l = .inactive ∨ l = .active) → cm3.Ready n := by
      intro l h1 h2
      unfold Ready
      rw [hcl]
      cases cb <;> simp [CtlCb.onSuccess, CtlCb.onFailure, CtlCb.legal] at h1 hcb hleg ⊢ <;>
        cases hcc : c.lc <;> simp_all [CtlCb.legal]
    split
    · exact s.trans (Keeps.modifyLc _ _ _ (rdy _ (.inl rfl)))
    · exact s.trans (Keeps.modifyLc _ _ _ (rdy _ (.inr rfl)))
    · refine s.trans (Keeps.trans (b := cm3.push _) (Keeps.rm _ _) ((Keeps.release _ _).trans (Keeps.modifyLc _ _ _ ?_)))
      intro h; split at h <;> simp at h

theorem Keeps.setChained (o : Oracle) (cm : CM) (n : Name) (v : Bool) : Keeps cm (cm.setChained o n v) := by
  unfold CM.setChained
  split
  · exact .refl cm
  · split
    · simp only
      split
      · exact (Keeps.rm cm _).trans (Keeps.modify _ _ _ (by intro _; rfl) (by intro _; rfl))
      · exact ⟨rfl, rfl, fun _ h => h⟩
    · exact .refl cm

theorem Keeps.exportsTry (cm : CM) (n : Name) : Keeps cm (cm.exportsUnavailableTry n) := by
  unfold exportsUnavailableTry
  split
  · exact .refl _
  · simp only; split <;> exact ⟨rfl, rfl, fun _ h => h⟩

theorem Keeps.deactivateOne (o : Oracle) (cm : CM) (n : Name) : Keeps cm (cm.deactivateOne o n) := by
  unfold CM.deactivateOne
  split
  · exact .refl _
  split
  swap
  · exact .refl _
  simp only
  have h := (Keeps.trigger o cm n .deactivate (by decide)).trans (Keeps.release _ n)
  split
  · exact h.trans ((Keeps.setChained o _ n false).trans (Keeps.exportsTry _ _))
  · exact h

theorem Keeps.deactivateAll (o : Oracle) (cm : CM) (l : List Name) : Keeps cm (cm.deactivateAll o l) :=
  Keeps.foldl id (CM.deactivateOne o) l cm (fun b a => Keeps.deactivateOne o b a)

theorem Keeps.switchChained (o : Oracle) (cm : CM) (l : List Name) (v : Bool) : Keeps cm (cm.switchChained o l v) := by
  refine Keeps.foldl id _ l cm (fun b a => ?_)
  simp only [id]
  split
  · exact .refl _
  · split
    · exact Keeps.setChained o _ _ _
    · exact .refl _

theorem Keeps.preAvailable (cm : CM) (l : List Name) : Keeps cm (cm.preAvailable l) := by
  refine Keeps.foldl id _ l cm (fun b a => ?_)
  simp only [id]
  split
  · exact .refl _
  · split
    · exact ⟨rfl, rfl, fun _ h => h⟩
    · exact .refl _

theorem Keeps.activateOne (o : Oracle) (s : CM × Bool × List Itf) (n : Name) : Keeps s.1 (CM.activateOne o s n).1 := by
  unfold CM.activateOne
  split
  · exact .refl _
  simp only
  split
  · exact ⟨rfl, rfl, fun _ h => h⟩
  rename_i c _ rm1 loans _
  split
  · have h1 : Keeps s.1 ((({ s.1 with rm := rm1 } : CM).releaseItfs n).modify n (fun c => { c with held := loans })) :=
      (Keeps.trans (b := { s.1 with rm := rm1 }) ⟨rfl, rfl, fun _ h => h⟩ (Keeps.release _ _)).trans
        (Keeps.modify _ _ _ (by intro _; rfl) (by intro _; rfl))
    have h2 := h1.trans (Keeps.trigger o _ n .activate (by decide))
    split
    · split
      · exact h2.trans ⟨rfl, rfl, fun _ h => h⟩
      · exact h2
    · split
      · exact (h2.trans (Keeps.release _ _)).trans ⟨rfl, rfl, fun _ h => h⟩
      · exact h2.trans (Keeps.release _ _)
  · exact ⟨rfl, rfl, fun _ h => h⟩

theorem Keeps.prepareAndPerform (o : Oracle) (cm : CM) (a b : List Itf) : Keeps cm (cm.prepareAndPerform o a b) := by
  unfold CM.prepareAndPerform
  split <;> exact ⟨rfl, rfl, fun _ h => h⟩

theorem Keeps.activateAll (o : Oracle) (cm : CM) (l : List Name) (s : Strictness) : Keeps cm (cm.activateAll o l s) := by
  unfold CM.activateAll
  have f := (Keeps.preAvailable cm l).trans (Keeps.foldl (fun b : CM × Bool × List Itf => b.1) (CM.activateOne o) l
    (cm.preAvailable l, true, []) (fun b a => Keeps.activateOne o b a))
  simp only
  split
  · exact f.trans ((Keeps.deactivateAll o _ l).trans (Keeps.prepareAndPerform o _ _ _))
  · split
    · exact f.trans (Keeps.prepareAndPerform o _ _ _)
    · exact f

theorem Keeps.modeChange (o : Oracle) (cm : CM) (a d : List Name) : Keeps cm (cm.modeChange o a d) := by
  unfold CM.modeChange
  simp only
  split
  · exact .refl _
  · exact Keeps.prepareAndPerform o _ _ _

theorem Keeps.handleFailed (o : Oracle) (cm : CM) (l : List Name) : Keeps cm (cm.handleFailed o l) := by
  unfold CM.handleFailed
  split
  · exact .refl _
  · simp only
    have f := (Keeps.modeChange o cm (cm.fallbackPlan l).1 (addItems l (cm.fallbackPlan l).2)).trans
      (Keeps.deactivateAll o _ (addItems l (cm.fallbackPlan l).2))
    split
    · exact f
    · exact f.trans (Keeps.activateAll o _ _ _)

theorem Keeps.rtRead (o : Oracle) (s : Name → RM.Sched) (cm : CM) : Keeps cm (cm.rtRead o s) := by
  unfold CM.rtRead
  simp only
  split
  · exact (Keeps.trans (b := { cm with rm := (cm.rm.read o s).1 }) ⟨rfl, rfl, fun _ h => h⟩ (Keeps.modeChange o _ _ _)).trans
      (Keeps.deactivateAll o _ _)
  · exact ⟨rfl, rfl, fun _ h => h⟩

theorem Keeps.rtWrite (o : Oracle) (s : Name → RM.Sched) (cm : CM) : Keeps cm (cm.rtWrite o s) := by
  unfold CM.rtWrite
  simp only
  split
  · exact ⟨rfl, rfl, fun _ h => h⟩
  · exact (Keeps.trans (b := { cm with rm := (cm.rm.write o s).1 }) ⟨rfl, rfl, fun _ h => h⟩ (Keeps.modeChange o _ _ _)).trans
      (Keeps.deactivateAll o _ _)
  · exact (Keeps.trans (b := { cm with rm := (cm.rm.write o s).1 }) ⟨rfl, rfl, fun _ h => h⟩ (Keeps.modeChange o _ _ _)).trans
      (Keeps.deactivateAll o _ _)

theorem Keeps.shutdownAll (o : Oracle) (cm : CM) : Keeps cm (cm.shutdownAll o).1 := by
  unfold CM.shutdownAll
  refine Keeps.foldl id (shutdownOne o) (cm.ctls.map (·.name)) cm (fun b a => ?_)
  simp only [id]
  unfold shutdownOne
  extract_lets cm1
  have f1 : Keeps b cm1 := by
    simp only [cm1]; split
    · exact (Keeps.trigger o b a .deactivate (by decide)).trans (Keeps.release _ _)
    · exact .refl _
  split
  · exact f1.trans (Keeps.trigger o _ _ _ (by decide))
  · exact f1

theorem manageSwitch_keeps (o : Oracle) (cm : CM) :
    (cm.manageSwitch o).sw = { cm.sw with doSwitch := false } ∧ (cm.manageSwitch o).pending = cm.pending ∧
    ∀ n, (cm.manageSwitch o).Ready n → cm.Ready n := by
  unfold CM.manageSwitch
  split
  · exact ⟨rfl, rfl, fun _ h => h⟩
  · rename_i rm1 _
    have h : Keeps cm ((((({ cm with rm := rm1 } : CM).deactivateAll o cm.sw.deact).switchChained o cm.sw.toCh true).switchChained o
        cm.sw.fromCh false).activateAll o cm.sw.act cm.sw.strict) :=
      ((((Keeps.trans (b := { cm with rm := rm1 }) ⟨rfl, rfl, fun _ h => h⟩ (Keeps.deactivateAll o _ _)).trans
        (Keeps.switchChained o _ _ _)).trans (Keeps.switchChained o _ _ _)).trans (Keeps.activateAll o _ _ _))
    simp only
    exact ⟨by rw [h.1], h.2.1, h.2.2⟩

theorem manageSwitch_sw (o : Oracle) (cm : CM) :
    (cm.manageSwitch o).sw = { cm.sw with doSwitch := false } ∧ (cm.manageSwitch o).pending = cm.pending :=
  ⟨(manageSwitch_keeps o cm).1, (manageSwitch_keeps o cm).2.1⟩

theorem rtUpdate_sw (o : Oracle) (due : Name → Bool) (lock : Bool) (cm : CM) :
    ∃ d r, (cm.rtUpdate o due lock).1.sw = { cm.sw with doSwitch := d, ready := r } ∧
      (cm.rtUpdate o due lock).1.pending = cm.pending ∧ (cm.sw.doSwitch = false → d = false) ∧
      ∀ n, (cm.rtUpdate o due lock).1.Ready n → cm.Ready n := by
  unfold CM.rtUpdate
  extract_lets r cm1 _ cm2
  have h0 : Keeps cm r.1 := by
    obtain ⟨es, h⟩ := updateLoop_push o due cm.ctls cm [] .ok
    change r.1 = _ at h
    rw [h]; exact ⟨rfl, rfl, fun _ h => h⟩
  have h1 : Keeps cm cm1 := h0.trans (Keeps.handleFailed o _ _)
  clear_value cm1
  simp only [cm2]
  obtain ⟨e1, e2, e3⟩ := h1
  split
  · split
    · split
      · obtain ⟨m1, m2, m3⟩ := manageSwitch_keeps o cm1
        exact ⟨false, cm1.sw.ready, by rw [m1, e1], by rw [m2, e2], fun _ => rfl, fun n h => e3 n (m3 n h)⟩
      · exact ⟨_, _, by rw [e1], e2, id, e3⟩
    · exact ⟨cm.sw.doSwitch, true, by show { cm1.sw with ready := true } = _; rw [e1], e2, id, e3⟩
  · exact ⟨_, _, by rw [e1], e2, id, e3⟩

/-- Whatever happens while `switch_controller` is waiting, the request itself stays and so do the names
of the loaded controllers (services are blocked). -/
theorem step_pending (o : Oracle) {cm : CM} (I : Inv cm) (op : Op) (h : cm.pending = true)
    (h' : (cm.step o op).pending = true) :
    (∃ d r, (cm.step o op).sw = { cm.sw with doSwitch := d, ready := r } ∧ (cm.sw.doSwitch = false → d = false)) ∧
    (cm.step o op).ctls.map (·.name) = cm.ctls.map (·.name) := by
  have nm : ∀ {T} {b : CM}, Fwd o T cm b → b.ctls.map (·.name) = cm.ctls.map (·.name) :=
    fun f => names_of_stat f.stat
  have keep : ∀ {b : CM}, Keeps cm b → ∃ d r, b.sw = { cm.sw with doSwitch := d, ready := r } ∧ (cm.sw.doSwitch = false → d = false) :=
    fun k => ⟨_, _, k.1, id⟩
  have same : ∃ d r, cm.sw = { cm.sw with doSwitch := d, ready := r } ∧ (cm.sw.doSwitch = false → d = false) :=
    ⟨_, _, rfl, id⟩
  cases op <;> simp only [step] at h' ⊢
  · simp only [load, h, if_true]; exact ⟨same, trivial⟩
  · simp only [configure, h, if_true]; exact ⟨same, trivial⟩
  · simp only [cleanup, h, if_true]; exact ⟨same, trivial⟩
  · simp only [unload, h, if_true]; exact ⟨same, trivial⟩
  · simp only [h, if_true]; exact ⟨same, trivial⟩
  · refine ⟨?_, nm (Fwd.switchWake o cm I)⟩
    unfold switchWake at h' ⊢
    rw [if_neg (by simp [h])] at h' ⊢
    split
    · split
      · exact same
      · rename_i h1 h2
        rw [if_pos h1, if_neg h2] at h'
        simp [switchFinish, clear] at h'
    · split
      · rename_i h1 h2
        rw [if_neg h1, if_pos h2] at h'
        simp [switchFinish, clear] at h'
      · exact same
  · simp [switchTimeout, h, clear] at h'
  · exact ⟨keep (Keeps.rtRead o _ cm), nm (Fwd.rtRead o _ cm I.sys)⟩
  · rename_i due lock
    obtain ⟨d, r, h1, h2, h3, _⟩ := rtUpdate_sw o due lock cm
    exact ⟨⟨d, r, h1, h3⟩, nm (Fwd.rtUpdate o due lock cm I)⟩
  · exact ⟨keep (Keeps.rtWrite o _ cm), nm (Fwd.rtWrite o _ cm I.sys)⟩
  · simp only [setHw, h, if_true]; exact ⟨same, trivial⟩
  · exact ⟨keep (Keeps.shutdownAll o cm), nm (Fwd.shutdownAll o cm)⟩


theorem conflictLoop_false (s : Strictness) (l : List Ctl) : ∀ cm : CM, (conflictLoop s l cm).2 = false →
    (conflictLoop s l cm).1.sw.doSwitch = false := by
  induction l with
  | nil => intro cm h; simp [conflictLoop] at h
  | cons c t ih =>
    intro cm h
    unfold conflictLoop at h ⊢
    split
    · rfl
    · rename_i cm' e
      rw [e] at h
      exact ih cm' h

/-- A request that is answered immediately leaves no work for the real-time loop. -/
theorem switchBegin_done {o : Oracle} {cm : CM} {act deact : List Name} {s : Strictness} {asap : Bool} {r : Ret}
    (h : (cm.switchBegin o act deact s asap).2 = .done r) :
    (cm.switchBegin o act deact s asap).1.sw.doSwitch = false ∧
    (cm.switchBegin o act deact s asap).1.pending = cm.pending := by
  unfold CM.switchBegin at h ⊢
  extract_lets _ sw0 at h ⊢
  split
  · exact ⟨rfl, rfl⟩
  split
  · exact ⟨rfl, rfl⟩
  rename_i d hd _ a ha
  simp only [hd, ha] at h
  refine ⟨?_, ?_⟩
  swap
  · obtain ⟨_, hc⟩ := validate_cases o { cm with sw := { sw0 with deact := d, act := a } } s asap
    rcases hc with hc | ⟨_, _, ⟨_, hc, _⟩ | ⟨_, ⟨_, hc, _⟩ | W⟩⟩
    · exact hc.2
    · exact hc
    · exact hc
    · have := W.out; rw [h] at this; simp at this
  revert h
  generalize ({ cm with sw := { sw0 with deact := d, act := a } } : CM) = x
  unfold CM.validate
  extract_lets cm1 r1 r2 r3 cm4 p cm5
  have c3 : r3.2 = false → r3.1.sw.doSwitch = false := conflictLoop_false s _ _
  clear_value cm1 r1 r2 r3 cm4 p
  intro h
  split
  · rfl
  rename_i g1; rw [if_neg g1] at h
  split
  · rfl
  rename_i g2; rw [if_neg g2] at h
  split
  · rfl
  rename_i g3; rw [if_neg g3] at h
  split
  · rename_i g4; exact c3 g4
  rename_i g4; rw [if_neg g4] at h
  split
  · rfl
  rename_i g5; rw [if_neg g5] at h
  split
  · rfl
  · rfl
  · rename_i z hz
    split
    · rfl
    · rename_i g6
      rw [hz] at h
      simp only at h
      rw [if_neg g6] at h
      simp at h

/-- A request that waits has been handed to the real-time loop. -/
theorem switchBegin_wait {o : Oracle} {cm : CM} {act deact : List Name} {s : Strictness} {asap : Bool}
    (h : (cm.switchBegin o act deact s asap).2 = .wait) :
    (cm.switchBegin o act deact s asap).1.pending = true ∧
    (cm.switchBegin o act deact s asap).1.sw.doSwitch = true ∧
    (cm.switchBegin o act deact s asap).1.sw.asap = asap ∧
    (cm.switchBegin o act deact s asap).1.sw.strict = s := by
  unfold CM.switchBegin at h ⊢
  extract_lets _ sw0 at h ⊢
  split
  · rename_i hd; simp [hd] at h
  split
  · rename_i hd _ ha; simp [hd, ha] at h
  rename_i d hd _ a ha
  simp only [hd, ha] at h
  obtain ⟨_, hc⟩ := validate_cases o { cm with sw := { sw0 with deact := d, act := a } } s asap
  rcases hc with hc | ⟨_, _, ⟨hc, _⟩ | ⟨_, ⟨hc, _⟩ | W⟩⟩
  · rw [h] at hc; simp at hc
  · rw [h] at hc; simp at hc
  · rw [h] at hc; simp at hc
  · exact ⟨W.pending, by rw [W.sw], by rw [W.sw], by rw [W.sw]⟩

end CM
end Verif
