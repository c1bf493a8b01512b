import Verif.CM.HwUse
/-!
# Strict activation, and the reaction to failed controller updates
-/
namespace Verif
namespace CM

theorem lcOf_preAvailable (cm : CM) (l : List Name) (n : Name) : (cm.preAvailable l).lcOf n = cm.lcOf n := by
  unfold CM.preAvailable
  refine foldl_inv (fun x : CM => x.lcOf n = cm.lcOf n) _ _ _ rfl ?_
  intro b m _ h
  split
  · exact h
  · split
    · exact h
    · exact h

/-- Activating one controller does not touch the others. -/
theorem activateOne_other (o : Oracle) (s : CM × Bool × List Itf) (I : s.1.abs.Inv) {n m : Name} (h : m ≠ n) :
    (CM.activateOne o s n).1.lcOf m = s.1.lcOf m :=
  lcOf_of_k ((Fwd.activateOne o (T := (· = n)) s n rfl I).steps.frame h)

/-- If the success flag survives, the controller is ACTIVE (if it is loaded at all). -/
theorem activateOne_flag (o : Oracle) (s : CM × Bool × List Itf) (n : Name) (h : (CM.activateOne o s n).2.1 = true) :
    s.2.1 = true ∧ ∀ l, (CM.activateOne o s n).1.lcOf n = some l → l = .active := by
  unfold CM.activateOne at h ⊢
  cases hc : s.1.find n with
  | none =>
    have hn := hc
    simp only [hc] at h ⊢
    refine ⟨h, fun l hl => ?_⟩
    unfold CM.lcOf at hl; rw [hn] at hl; simp at hl
  | some c =>
    simp only [hc] at h ⊢
    rcases hcl : claimAll s.1.rm [] (s.1.cmdItfs c) with ⟨rm1, loans⟩
    cases loans with
    | none => simp only [hcl] at h; simp at h
    | some loans =>
      simp only [hcl] at h ⊢
      split at h
      swap
      · simp at h
      rename_i hst
      rw [if_pos hst]
      split at h
      swap
      · simp at h
      rename_i ha
      rw [if_pos ha]
      refine ⟨h, fun l hl => ?_⟩
      have key : ∀ x : CM, x.isActive n = true → x.lcOf n = some l → l = .active := by
        intro x hx hl
        unfold CM.isActive at hx
        simp at hx
        rw [hx] at hl
        exact (Option.some.inj hl).symm
      have ea : ∀ x : CM, (x.exportsAvailable n).lcOf n = x.lcOf n := fun _ => rfl
      split at hl
      · rw [ea] at hl; exact key _ ha hl
      · exact key _ ha hl

/-- **Strict activation is all or nothing.** Either everything asked for is ACTIVE, or whatever of it is ACTIVE refused
to be stopped again. -/
theorem activateAll_strict (o : Oracle) (cm : CM) (l : List Name) (I : cm.abs.Inv) :
    (∀ n ∈ l, ∀ s, (cm.activateAll o l .strict).lcOf n = some s → s = .active) ∨
    (∀ n ∈ l, (cm.activateAll o l .strict).lcOf n = some .active → stopRefused n (cm.activateAll o l .strict).rm.tr = true) := by
  unfold CM.activateAll
  extract_lets r
  have f0 := Fwd.preAvailable o Anybody cm l I
  have f1 : Fwd o Anybody (cm.preAvailable l) r.1 := Fwd.foldl (o := o) (T := Anybody) (g := fun b : CM × Bool × List Itf => b.1) (CM.activateOne o) l
    (cm.preAvailable l, true, []) (fun b a ha hI => Fwd.activateOne o b a trivial hI) (f0.inv I)
  have hr : r.2.1 = true → ∀ n ∈ l, ∀ s, r.1.lcOf n = some s → s = .active := by
    have gen : ∀ (l : List Name) (b : CM × Bool × List Itf) (P : Name → Prop), b.1.abs.Inv →
        (b.2.1 = true → ∀ n, P n → ∀ s, b.1.lcOf n = some s → s = .active) →
        (l.foldl (CM.activateOne o) b).2.1 = true →
        ∀ n, (P n ∨ n ∈ l) → ∀ s, (l.foldl (CM.activateOne o) b).1.lcOf n = some s → s = .active := by
      intro l
      induction l with
      | nil => intro b P _ h hb n hn; exact h hb n (by simpa using hn)
      | cons m t ih =>
        intro b P hI h hb n hn
        refine ih (CM.activateOne o b m) (fun n => P n ∨ n = m) ((Fwd.activateOne o (T := Anybody) b m trivial hI).inv hI) ?_ hb n ?_
        · intro hb' k hk s hs
          obtain ⟨h1, h2⟩ := activateOne_flag o b m hb'
          by_cases e : k = m
          · subst e; exact h2 s hs
          · rw [activateOne_other o b hI e] at hs
            exact h h1 k (hk.resolve_right e) s hs
        · rcases hn with hn | hn
          · exact .inl (.inl hn)
          · rcases List.mem_cons.1 hn with hn | hn
            · exact .inl (.inr hn)
            · exact .inr hn
    intro hb n hn
    exact gen l _ (fun _ => False) (f0.inv I) (by simp) hb n (.inr hn)
  have Ir := f1.inv (f0.inv I)
  clear_value r
  split
  · right
    intro n hn ha
    have f2 := Fwd.deactivateAll o (T := Anybody) r.1 l (fun _ _ => trivial) Ir
    obtain ⟨h1, h2⟩ := (Falls.prepareAndPerform o n (r.1.deactivateAll o l) [] r.1.sw.actItf (f2.inv Ir).claims.rm).1 ha
    exact h2 (deactivateAll_stops o l r.1 n hn h1)
  · rename_i h
    have hb : r.2.1 = true := by simpa using h
    left
    split
    · have hc : ∀ a b n, (r.1.prepareAndPerform o a b).lcOf n = r.1.lcOf n := by
        intro a b n; unfold CM.prepareAndPerform; split <;> rfl
      intro n hn s hs
      rw [hc] at hs; exact hr hb n hn s hs
    · exact hr hb

theorem activateAll_strict_lc (o : Oracle) (cm : CM) (l : List Name) (n : Name) (I : cm.abs.Inv) (h : n ∉ l) :
    (cm.activateAll o l .strict).lcOf n = cm.lcOf n :=
  lcOf_of_k ((Fwd.activateAll o (T := (· ∈ l)) cm l .strict (fun _ h => h) I).steps.frame h)

/-- A strict `manage_switch`: either the hardware refused and nothing changed, or everything to be activated is ACTIVE, or
whatever of it is ACTIVE refused to be stopped again. -/
theorem manageSwitch_strict (o : Oracle) (cm : CM) (I : cm.abs.Inv) (hs : cm.sw.strict = .strict) :
    (∀ n, (cm.manageSwitch o).find n = cm.find n) ∨
    (∀ n ∈ cm.sw.act, ∀ s, (cm.manageSwitch o).lcOf n = some s → s = .active) ∨
    (∀ n ∈ cm.sw.act, (cm.manageSwitch o).lcOf n = some .active → stopRefused n (cm.manageSwitch o).rm.tr = true) := by
  have s1 := RM.rmStep_performSwitch o I.claims.rm cm.sw.actItf cm.sw.deactItf
  rw [show cm.abs.rm = cm.rm from rfl] at s1
  unfold CM.manageSwitch
  split
  · exact .inl (fun _ => rfl)
  · rename_i rm1 h
    rw [h] at s1
    have f1 : Fwd o Anybody cm { cm with rm := rm1 } := Fwd.rm cm s1
    have f2 := f1.trans (Fwd.deactivateAll o _ cm.sw.deact (fun n hn => trivial) (f1.inv I))
    have f3 := f2.trans (Fwd.switchChained o _ cm.sw.toCh true (fun n hn => trivial) (f2.inv I))
    have f4 := f3.trans (Fwd.switchChained o _ cm.sw.fromCh false (fun n hn => trivial) (f3.inv I))
    simp only
    rw [hs]
    exact .inr (activateAll_strict o _ cm.sw.act (f4.inv I))

/-! ## Failed updates -/

/-- The controllers the update loop wants stopped: the chain groups of the controllers whose `update` answered something
else than OK in these events. -/
theorem updateLoop_failed (o : Oracle) (due : Name → Bool) : ∀ (l : List Ctl) (cm : CM) (acc : List Name) (r : Ret),
    ∃ es, (updateLoop o due l cm acc r).1.rm.tr = es ++ cm.rm.tr ∧
      (∀ e ∈ es, ∃ n a, e = .ctlUpdate n a ∧ ∃ c ∈ l, c.name = n ∧ c.lc = .active) ∧
      ((l.map (·.name)).Nodup → ∀ m, m ∈ (updateLoop o due l cm acc r).2.1 ↔
        m ∈ acc ∨ ∃ c ∈ l, ∃ a, Ev.ctlUpdate c.name a ∈ es ∧ a ≠ .ret .ok ∧ m ∈ c.group) := by
  intro l
  induction l with
  | nil => intro cm acc r; exact ⟨[], rfl, by simp, fun _ m => by simp [updateLoop]⟩
  | cons c t ih =>
    intro cm acc r
    unfold updateLoop
    split
    swap
    · obtain ⟨es, h1, h2, h3⟩ := ih cm acc r
      refine ⟨es, h1, fun e he => ?_, fun hn m => ?_⟩
      · obtain ⟨n, a, e1, d, hd, e2⟩ := h2 e he
        exact ⟨n, a, e1, d, by simp [hd], e2⟩
      · have hn' := (List.nodup_cons.1 hn)
        rw [h3 hn'.2]
        simp only [List.mem_cons, exists_eq_or_imp]
        constructor
        · rintro (h | h)
          · exact .inl h
          · exact .inr (.inr h)
        · rintro (h | ⟨a, ha, _⟩ | h)
          · exact .inl h
          · obtain ⟨n, a', e1, d, hd, e2⟩ := h2 _ ha
            cases e1
            exact absurd (List.mem_map.2 ⟨d, hd, e2.1⟩) hn'.1
          · exact .inr h
    rename_i hr
    have hrun : c.lc = .active := by
      unfold runs at hr; simp at hr; exact hr.1.1.1.2
    extract_lets a cm1
    have key : ∀ (acc' : List Name) (r' : Ret), (∀ m, m ∈ acc' ↔ m ∈ acc ∨ (a ≠ .ret .ok ∧ m ∈ c.group)) →
        ∃ es, (updateLoop o due t cm1 acc' r').1.rm.tr = es ++ cm.rm.tr ∧
          (∀ e ∈ es, ∃ n a, e = .ctlUpdate n a ∧ ∃ d ∈ c :: t, d.name = n ∧ d.lc = .active) ∧
          (((c :: t).map (·.name)).Nodup → ∀ m, m ∈ (updateLoop o due t cm1 acc' r').2.1 ↔
            m ∈ acc ∨ ∃ d ∈ c :: t, ∃ a, Ev.ctlUpdate d.name a ∈ es ∧ a ≠ .ret .ok ∧ m ∈ d.group) := by
      intro acc' r' hacc
      obtain ⟨es, h1, h2, h3⟩ := ih cm1 acc' r'
      refine ⟨es ++ [.ctlUpdate c.name a], by rw [h1]; simp [cm1, CM.push], fun e he => ?_, fun hn m => ?_⟩
      · rcases List.mem_append.1 he with he | he
        · obtain ⟨n, a, e1, d, hd, e2⟩ := h2 e he
          exact ⟨n, a, e1, d, by simp [hd], e2⟩
        · simp at he; exact ⟨c.name, a, he, c, by simp, rfl, hrun⟩
      · have hn' := (List.nodup_cons.1 hn)
        rw [h3 hn'.2, hacc]
        have noc : ∀ x, Ev.ctlUpdate c.name x ∉ es := by
          intro x hx
          obtain ⟨n, a', e1, d, hd, e2⟩ := h2 _ hx
          cases e1
          exact hn'.1 (List.mem_map.2 ⟨d, hd, e2.1⟩)
        simp only [List.mem_cons, exists_eq_or_imp, List.mem_append, List.not_mem_nil, or_false]
        constructor
        · rintro ((h | ⟨h, h'⟩) | ⟨d, hd, x, hx, h⟩)
          · exact .inl h
          · exact .inr (.inl ⟨a, .inr rfl, h, h'⟩)
          · exact .inr (.inr ⟨d, hd, x, .inl hx, h⟩)
        · rintro (h | ⟨x, hx | hx, h, h'⟩ | ⟨d, hd, x, hx | hx, h⟩)
          · exact .inl (.inl h)
          · exact absurd hx (noc x)
          · cases hx; exact .inl (.inr ⟨h, h'⟩)
          · exact .inr ⟨d, hd, x, hx, h⟩
          · have : d.name = c.name := by injection hx
            exact absurd (List.mem_map.2 ⟨d, hd, this⟩) hn'.1
    clear_value cm1 a
    rcases a with (_ | _ | _) | _
    · exact key _ _ (fun m => by simp)
    · exact key _ _ (fun m => by simp)
    · exact key _ _ (fun m => by simp)
    · exact key _ _ (fun m => by simp)

/-- The history grows by events that are no `update` calls. -/
def NoUpd (a b : CM) : Prop := ∃ es, b.rm.tr = es ++ a.rm.tr ∧ ∀ n x, Ev.ctlUpdate n x ∉ es

theorem NoUpd.same {a b : CM} (h : b.rm.tr = a.rm.tr) : NoUpd a b := ⟨[], h, by simp⟩
theorem NoUpd.refl (a : CM) : NoUpd a a := .same rfl
theorem NoUpd.trans {a b c : CM} (h : NoUpd a b) (k : NoUpd b c) : NoUpd a c := by
  obtain ⟨x, hx, hx'⟩ := h
  obtain ⟨y, hy, hy'⟩ := k
  refine ⟨y ++ x, by rw [hy, hx, List.append_assoc], fun n z hz => ?_⟩
  rcases List.mem_append.1 hz with h | h
  · exact hy' n z h
  · exact hx' n z h

theorem NoUpd.foldl {α β : Type} (g : β → CM) (f : β → α → β) (l : List α) (b : β)
    (h : ∀ b a, NoUpd (g b) (g (f b a))) : NoUpd (g b) (g (l.foldl f b)) := by
  induction l generalizing b with
  | nil => exact .refl _
  | cons a t ih => exact (h b a).trans (ih _)

theorem NoUpd.release (cm : CM) (n : Name) : NoUpd cm (cm.releaseItfs n) := by
  unfold releaseItfs; split
  · exact .refl _
  · exact .same (by simp only [CM.modify]; rw [RM.foldl_release])

theorem NoUpd.trigger (o : Oracle) (cm : CM) (n : Name) (cb : CtlCb) : NoUpd cm (cm.trigger o n cb) := by
  by_cases hleg : ∃ c, cm.find n = some c ∧ cb.legal c.lc = true
  swap
  · have : cm.trigger o n cb = cm := by
      unfold CM.trigger
      split
      · rfl
      · rename_i c hc
        split
        · rename_i hl; exact absurd ⟨c, hc, hl⟩ hleg
        · rfl
    rw [this]; exact .refl _
  obtain ⟨c, hc, hl⟩ := hleg
  have hk : cm.abs.k n = some c.core := by rw [abs_k, hc]; rfl
  obtain ⟨es, lc', hev, hcase⟩ := Sys.trigger_spec o cb hk hl
  have e := abs_trigger o cm n cb
  have ht : (cm.trigger o n cb).abs.rm.tr = es ++ cm.rm.tr := by
    rw [e]; rcases hcase with ⟨_, _, e⟩ | e <;> rw [e] <;> rfl
  refine ⟨es, ht, fun m x hx => ?_⟩
  cases hev <;> simp at hx

theorem NoUpd.setChained (o : Oracle) (cm : CM) (n : Name) (v : Bool) : NoUpd cm (cm.setChained o n v) := by
  unfold CM.setChained
  split
  · exact .refl _
  split
  swap
  · exact .refl _
  simp only
  split <;> exact ⟨[.ctlChained n v (o.ctlChained cm.rm.tr n v)], rfl, by simp⟩

theorem NoUpd.exportsTry (cm : CM) (n : Name) : NoUpd cm (cm.exportsUnavailableTry n) := by
  unfold exportsUnavailableTry RM.referenceUnavailable RM.exportedStateUnavailable
  simp only
  (repeat' split) <;> exact .same rfl

theorem NoUpd.exportsAvailable (cm : CM) (n : Name) : NoUpd cm (cm.exportsAvailable n) := by
  refine .same ?_
  unfold CM.exportsAvailable RM.referenceAvailable RM.exportedStateAvailable
  simp only
  (repeat' split) <;> rfl

theorem NoUpd.exportsUnavailable (cm : CM) (n : Name) : NoUpd cm (cm.exportsUnavailable n) := by
  refine .same ?_
  unfold CM.exportsUnavailable RM.referenceUnavailable RM.exportedStateUnavailable
  simp only
  (repeat' split) <;> rfl

theorem NoUpd.deactivateOne (o : Oracle) (cm : CM) (n : Name) : NoUpd cm (cm.deactivateOne o n) := by
  unfold CM.deactivateOne
  split
  · exact .refl _
  split
  swap
  · exact .refl _
  extract_lets cm1
  have h1 : NoUpd cm cm1 := (NoUpd.trigger o cm n .deactivate).trans (NoUpd.release _ n)
  split
  · exact h1.trans ((NoUpd.setChained o cm1 n false).trans (NoUpd.exportsTry _ n))
  · exact h1

theorem NoUpd.deactivateAll (o : Oracle) (cm : CM) (l : List Name) : NoUpd cm (cm.deactivateAll o l) :=
  NoUpd.foldl id (CM.deactivateOne o) l cm (fun b a => NoUpd.deactivateOne o b a)

theorem NoUpd.switchChained (o : Oracle) (cm : CM) (l : List Name) (v : Bool) : NoUpd cm (cm.switchChained o l v) := by
  refine NoUpd.foldl id _ l cm (fun b a => ?_)
  simp only [id]
  split
  · exact .refl _
  · split
    · exact NoUpd.setChained o _ _ _
    · exact .refl _

theorem NoUpd.hw (cm : CM) {rm : RM} (h : RM.RmStep cm.rm rm) : NoUpd cm { cm with rm := rm } := by
  obtain ⟨es, e, he⟩ := h.ext
  refine ⟨es, e, fun n x hx => he _ hx rfl⟩

theorem NoUpd.prepareAndPerform (o : Oracle) (cm : CM) (a b : List Itf) (I : cm.rm.Inv) : NoUpd cm (cm.prepareAndPerform o a b) := by
  unfold CM.prepareAndPerform
  have h1 := RM.rmStep_prepareSwitch o I a b
  split
  · rename_i rm1 e
    rw [e] at h1
    exact NoUpd.hw cm (h1.trans (RM.rmStep_performSwitch o h1.inv a b))
  · rename_i rm1 e
    rw [e] at h1
    exact NoUpd.hw cm h1

theorem NoUpd.modeChange (o : Oracle) (cm : CM) (a b : List Name) (I : cm.rm.Inv) : NoUpd cm (cm.modeChange o a b) := by
  unfold CM.modeChange
  simp only
  split
  · exact .refl _
  · exact NoUpd.prepareAndPerform o cm _ _ I

theorem NoUpd.preAvailable (cm : CM) (l : List Name) : NoUpd cm (cm.preAvailable l) := by
  refine NoUpd.foldl id _ l cm (fun b a => ?_)
  simp only [id]
  split
  · exact .refl _
  · split
    · exact NoUpd.exportsAvailable _ _
    · exact .refl _

theorem NoUpd.activateOne (o : Oracle) (s : CM × Bool × List Itf) (n : Name) : NoUpd s.1 (CM.activateOne o s n).1 := by
  unfold CM.activateOne
  split
  · exact .refl _
  simp only
  split
  · rename_i h; exact .same (Sys.claimAll_tr h)
  rename_i c _ rm1 loans h
  split
  · have h0 : NoUpd s.1 { s.1 with rm := rm1 } := .same (Sys.claimAll_tr h)
    have h2 := (h0.trans (NoUpd.release _ n)).trans ((NoUpd.same rfl : NoUpd _ ((({ s.1 with rm := rm1 } : CM).releaseItfs n).modify n
      (fun c => { c with held := loans }))).trans (NoUpd.trigger o _ n .activate))
    split
    · split
      · exact h2.trans (NoUpd.exportsAvailable _ _)
      · exact h2
    · split
      · exact (h2.trans (NoUpd.release _ _)).trans (NoUpd.exportsUnavailable _ _)
      · exact h2.trans (NoUpd.release _ _)
  · refine .same ?_
    simp only
    rw [RM.foldl_release]
    have := Sys.claimAll_tr h
    exact this

theorem NoUpd.activateAll (o : Oracle) (cm : CM) (l : List Name) (s : Strictness) (I : cm.abs.Inv) : NoUpd cm (cm.activateAll o l s) := by
  unfold CM.activateAll
  have f := (NoUpd.preAvailable cm l).trans (NoUpd.foldl (fun b : CM × Bool × List Itf => b.1) (CM.activateOne o) l
    (cm.preAvailable l, true, []) (fun b a => NoUpd.activateOne o b a))
  have f0 := Fwd.preAvailable o Anybody cm l I
  have f1 := f0.trans (Fwd.foldl (o := o) (T := Anybody) (g := fun b : CM × Bool × List Itf => b.1) (CM.activateOne o) l
    (cm.preAvailable l, true, []) (fun b a ha hI => Fwd.activateOne o b a trivial hI) (f0.inv I))
  simp only
  split
  · have f2 := f1.trans (Fwd.deactivateAll o (T := Anybody) _ l (fun _ _ => trivial) (f1.inv I))
    exact f.trans ((NoUpd.deactivateAll o _ l).trans (NoUpd.prepareAndPerform o _ _ _ (f2.inv I).claims.rm))
  · split
    · exact f.trans (NoUpd.prepareAndPerform o _ _ _ (f1.inv I).claims.rm)
    · exact f

theorem NoUpd.handleFailed (o : Oracle) (cm : CM) (l : List Name) (I : cm.abs.Inv) : NoUpd cm (cm.handleFailed o l) := by
  unfold CM.handleFailed
  split
  · exact .refl _
  · simp only
    have f1 := Fwd.modeChange o Anybody cm (cm.fallbackPlan l).1 (addItems l (cm.fallbackPlan l).2) I
    have f2 := f1.trans (Fwd.deactivateAll o (T := Anybody) _ (addItems l (cm.fallbackPlan l).2) (fun n hn => trivial) (f1.inv I))
    have f := (NoUpd.modeChange o cm (cm.fallbackPlan l).1 (addItems l (cm.fallbackPlan l).2) I.claims.rm).trans
      (NoUpd.deactivateAll o _ (addItems l (cm.fallbackPlan l).2))
    split
    · exact f
    · exact f.trans (NoUpd.activateAll o _ _ _ (f2.inv I))

theorem NoUpd.manageSwitch (o : Oracle) (cm : CM) (I : cm.abs.Inv) : NoUpd cm (cm.manageSwitch o) := by
  have s1 := RM.rmStep_performSwitch o I.claims.rm cm.sw.actItf cm.sw.deactItf
  rw [show cm.abs.rm = cm.rm from rfl] at s1
  unfold CM.manageSwitch
  split
  · rename_i rm1 h; rw [h] at s1; exact NoUpd.hw cm s1
  · rename_i rm1 h
    rw [h] at s1
    have f1 : Fwd o Anybody cm { cm with rm := rm1 } := Fwd.rm cm s1
    have f2 := f1.trans (Fwd.deactivateAll o _ cm.sw.deact (fun n hn => trivial) (f1.inv I))
    have f3 := f2.trans (Fwd.switchChained o _ cm.sw.toCh true (fun n hn => trivial) (f2.inv I))
    have f4 := f3.trans (Fwd.switchChained o _ cm.sw.fromCh false (fun n hn => trivial) (f3.inv I))
    simp only
    exact ((((NoUpd.hw cm s1).trans (NoUpd.deactivateAll o _ _)).trans (NoUpd.switchChained o _ _ _)).trans
      (NoUpd.switchChained o _ _ _)).trans (NoUpd.activateAll o _ _ _ (f4.inv I))

/-! ## The reaction -/

theorem mem_usersOf (cm : CM) (f : Name) (acc : List Name) (m : Name) : m ∈ cm.usersOf f acc ↔
    m ∈ acc ∨ ∃ fc, cm.find f = some fc ∧ ∃ i ∈ cm.cmdItfs fc, ∃ d ∈ cm.ctls, d.name = m ∧ d.lc = .active ∧ i ∈ cm.cmdItfs d := by
  unfold usersOf
  cases hf : cm.find f with
  | none => simp
  | some fc =>
    simp only [Option.some.injEq, exists_eq_left']
    have inner : ∀ (i : Itf) (l : List Ctl) (acc : List Name), m ∈ l.foldl (fun acc d =>
        if d.lc = .active ∧ i ∈ cm.cmdItfs d then addItem acc d.name else acc) acc ↔
        m ∈ acc ∨ ∃ d ∈ l, d.name = m ∧ d.lc = .active ∧ i ∈ cm.cmdItfs d := by
      intro i l
      induction l with
      | nil => intro acc; simp
      | cons d t ih =>
        intro acc
        rw [List.foldl_cons, ih]
        simp only [List.mem_cons, exists_eq_or_imp]
        split
        · rename_i h
          rw [mem_addItem]
          constructor
          · rintro ((h1 | h1) | h1)
            · exact .inl h1
            · exact .inr (.inl ⟨h1.symm, h⟩)
            · exact .inr (.inr h1)
          · rintro (h1 | h1 | h1)
            · exact .inl (.inl h1)
            · exact .inl (.inr h1.1.symm)
            · exact .inr h1
        · rename_i h
          constructor
          · rintro (h1 | h1)
            · exact .inl h1
            · exact .inr (.inr h1)
          · rintro (h1 | h1 | h1)
            · exact .inl h1
            · exact absurd h1.2 h
            · exact .inr h1
    have outer : ∀ (l : List Itf) (acc : List Name), m ∈ l.foldl (fun acc i =>
      cm.ctls.foldl (fun acc d =>
        if d.lc = .active ∧ i ∈ cm.cmdItfs d then addItem acc d.name else acc) acc) acc ↔
        m ∈ acc ∨ ∃ i ∈ l, ∃ d ∈ cm.ctls, d.name = m ∧ d.lc = .active ∧ i ∈ cm.cmdItfs d := by
      intro l
      induction l with
      | nil => intro acc; simp
      | cons i t ih =>
        intro acc
        rw [List.foldl_cons, ih, inner]
        simp only [List.mem_cons, exists_eq_or_imp, or_assoc]
    exact outer _ _

/-- `f` is a fallback of one of the controllers of `l`. -/
def FallbackOf (cm : CM) (l : Name → Prop) (f : Name) : Prop := ∃ n c, l n ∧ cm.find n = some c ∧ f ∈ c.fallbacks

/-- `m` is ACTIVE and drives a command interface that the controller `f` needs. -/
def InTheWay (cm : CM) (f m : Name) : Prop :=
  ∃ fc, cm.find f = some fc ∧ ∃ i ∈ cm.cmdItfs fc, ∃ d ∈ cm.ctls, d.name = m ∧ d.lc = .active ∧ i ∈ cm.cmdItfs d

theorem mem_fallbackPlan (cm : CM) (l : List Name) (m : Name) :
    (m ∈ (cm.fallbackPlan l).1 ↔ cm.FallbackOf (· ∈ l) m) ∧
    (m ∈ (cm.fallbackPlan l).2 ↔ ∃ f, cm.FallbackOf (· ∈ l) f ∧ cm.InTheWay f m) := by
  have inner : ∀ (fs : List Name) (acc : List Name × List Name),
      (m ∈ (fs.foldl (fun (acc : List Name × List Name) fb => (addItem acc.1 fb, cm.usersOf fb acc.2)) acc).1 ↔ m ∈ acc.1 ∨ m ∈ fs) ∧
      (m ∈ (fs.foldl (fun (acc : List Name × List Name) fb => (addItem acc.1 fb, cm.usersOf fb acc.2)) acc).2 ↔
        m ∈ acc.2 ∨ ∃ f ∈ fs, cm.InTheWay f m) := by
    intro fs
    induction fs with
    | nil => intro acc; simp
    | cons f t ih =>
      intro acc
      rw [List.foldl_cons, (ih _).1, (ih _).2]
      simp only [mem_addItem, mem_usersOf, List.mem_cons, exists_eq_or_imp, or_assoc]
      exact ⟨trivial, Iff.rfl⟩
  have outer : ∀ (l : List Name) (acc : List Name × List Name),
      let r := l.foldl (fun (acc : List Name × List Name) n =>
        match cm.find n with
        | none => acc
        | some c => c.fallbacks.foldl (fun (acc : List Name × List Name) fb => (addItem acc.1 fb, cm.usersOf fb acc.2)) acc) acc
      (m ∈ r.1 ↔ m ∈ acc.1 ∨ cm.FallbackOf (· ∈ l) m) ∧
      (m ∈ r.2 ↔ m ∈ acc.2 ∨ ∃ f, cm.FallbackOf (· ∈ l) f ∧ cm.InTheWay f m) := by
    intro l
    induction l with
    | nil => intro acc; simp [FallbackOf]
    | cons n t ih =>
      intro acc
      have hfb : ∀ f, cm.FallbackOf (· ∈ n :: t) f ↔ (∃ c, cm.find n = some c ∧ f ∈ c.fallbacks) ∨ cm.FallbackOf (· ∈ t) f := by
        intro f
        unfold FallbackOf
        simp only [List.mem_cons]
        constructor
        · rintro ⟨k, c, rfl | hk, hc, h⟩
          · exact .inl ⟨c, hc, h⟩
          · exact .inr ⟨k, c, hk, hc, h⟩
        · rintro (⟨c, hc, h⟩ | ⟨k, c, hk, hc, h⟩)
          · exact ⟨n, c, .inl rfl, hc, h⟩
          · exact ⟨k, c, .inr hk, hc, h⟩
      simp only [List.foldl_cons]
      have := ih (match cm.find n with
        | none => acc
        | some c => c.fallbacks.foldl (fun (acc : List Name × List Name) fb => (addItem acc.1 fb, cm.usersOf fb acc.2)) acc)
      simp only at this
      rw [this.1, this.2]
      cases hn : cm.find n with
      | none => simp only [hfb, hn]; simp
      | some c =>
        simp only [(inner _ _).1, (inner _ _).2, hfb, hn, Option.some.injEq, exists_eq_left', or_assoc]
        refine ⟨trivial, ?_⟩
        constructor
        · rintro (h | ⟨f, h, h'⟩ | ⟨f, h, h'⟩)
          · exact .inl h
          · exact .inr ⟨f, .inl h, h'⟩
          · exact .inr ⟨f, .inr h, h'⟩
        · rintro (h | ⟨f, h | h, h'⟩)
          · exact .inl h
          · exact .inr (.inl ⟨f, h, h'⟩)
          · exact .inr (.inr ⟨f, h, h'⟩)
  have := outer l ([], [])
  simp only at this
  exact ⟨this.1.trans (by simp), this.2.trans (by simp)⟩

theorem Falls.triggerOther (o : Oracle) {k n : Name} (cm : CM) (cb : CtlCb) (hk : k ≠ n) : Falls k cm (cm.trigger o n cb) := by
  by_cases hcb : cb = .activate
  swap
  · exact Falls.trigger o k cm n cb hcb
  refine ⟨fun h => ?_, ?_⟩
  · have hf := find_of_others (others_trigger o cm n cb) hk
    obtain ⟨es, e, _⟩ : ∃ es, (cm.trigger o n cb).rm.tr = es ++ cm.rm.tr ∧ ∀ x ∈ es, x.ctlName ≠ some k := by
      by_cases hleg : ∃ c, cm.find n = some c ∧ cb.legal c.lc = true
      swap
      · have : cm.trigger o n cb = cm := by
          unfold CM.trigger
          split
          · rfl
          · rename_i c hc
            split
            · rename_i hl; exact absurd ⟨c, hc, hl⟩ hleg
            · rfl
        rw [this]; exact ⟨[], rfl, by simp⟩
      obtain ⟨c, hc, hl⟩ := hleg
      have hk' : cm.abs.k n = some c.core := by rw [abs_k, hc]; rfl
      obtain ⟨es, lc', hev, hcase⟩ := Sys.trigger_spec o cb hk' hl
      have e := abs_trigger o cm n cb
      have ht : (cm.trigger o n cb).abs.rm.tr = es ++ cm.rm.tr := by
        rw [e]; rcases hcase with ⟨_, _, e⟩ | e <;> rw [e] <;> rfl
      refine ⟨es, ht, fun x hx => ?_⟩
      cases hev <;> simp at hx <;> (try subst hx) <;> simp [Ev.ctlName] <;> first | exact fun x => hk x.symm | (rcases hx with hx | hx <;> subst hx <;> simp <;> exact fun x => hk x.symm)
    rename_i hne
    unfold CM.lcOf at h ⊢
    rw [hf] at h
    exact ⟨h, fun r => by rw [e, Sys.stopRefused_append_other hne]; exact r⟩
  · exact fb_of_stat (Same.trigger o cm n cb).stat

theorem Falls.preAvailable (k : Name) (cm : CM) (l : List Name) : Falls k cm (cm.preAvailable l) := by
  refine Falls.foldl id _ l cm (fun b a => ?_)
  simp only [id]
  split
  · exact .refl _ _
  · split
    · exact Falls.exportsAvailable _ _ _
    · exact .refl _ _

theorem Falls.activateOne (o : Oracle) (s : CM × Bool × List Itf) {k n : Name} (hk : k ≠ n) : Falls k s.1 (CM.activateOne o s n).1 := by
  unfold CM.activateOne
  split
  · exact .refl _ _
  simp only
  split
  · rename_i h; exact Falls.same rfl (by simp only; rw [Sys.claimAll_tr h])
  rename_i c _ rm1 loans h
  split
  · have h0 : Falls k s.1 { s.1 with rm := rm1 } := Falls.same rfl (by simp only; rw [Sys.claimAll_tr h])
    have h2 := ((h0.trans (Falls.release k _ n)).trans (Falls.modify k _ n (fun c => { c with held := loans }) (by intro _; rfl)
      (by intro _ h; exact h) (by intro _; rfl))).trans (Falls.triggerOther o _ .activate hk)
    split
    · split
      · exact h2.trans (Falls.exportsAvailable k _ _)
      · exact h2
    · split
      · exact (h2.trans (Falls.release k _ _)).trans (Falls.exportsUnavailable k _ _)
      · exact h2.trans (Falls.release k _ _)
  · refine Falls.same rfl ?_
    simp only
    rw [RM.foldl_release]
    have := Sys.claimAll_tr h
    simp only [this]

theorem Falls.activateAll (o : Oracle) (cm : CM) (l : List Name) (s : Strictness) {k : Name} (hk : k ∉ l) (I : cm.abs.Inv) :
    Falls k cm (cm.activateAll o l s) := by
  unfold CM.activateAll
  have f0 := Fwd.preAvailable o Anybody cm l I
  have f1 := f0.trans (Fwd.foldl (o := o) (T := Anybody) (g := fun b : CM × Bool × List Itf => b.1) (CM.activateOne o) l
    (cm.preAvailable l, true, []) (fun b a ha hI => Fwd.activateOne o b a trivial hI) (f0.inv I))
  have f : Falls k cm (l.foldl (CM.activateOne o) (cm.preAvailable l, true, [])).1 := by
    refine (Falls.preAvailable k cm l).trans ?_
    have gen : ∀ (l : List Name) (b : CM × Bool × List Itf), k ∉ l → Falls k b.1 (l.foldl (CM.activateOne o) b).1 := by
      intro l
      induction l with
      | nil => intro b _; exact .refl _ _
      | cons m t ih =>
        intro b hk
        simp at hk
        exact (Falls.activateOne o b hk.1).trans (ih _ hk.2)
    exact gen l (cm.preAvailable l, true, []) hk
  simp only
  split
  · have f2 := f1.trans (Fwd.deactivateAll o (T := Anybody) _ l (fun _ _ => trivial) (f1.inv I))
    exact f.trans ((Falls.deactivateAll o k _ l).trans (Falls.prepareAndPerform o k _ _ _ (f2.inv I).claims.rm))
  · split
    · exact f.trans (Falls.prepareAndPerform o k _ _ _ (f1.inv I).claims.rm)
    · exact f

theorem Falls.manageSwitch (o : Oracle) (cm : CM) {k : Name} (hk : k ∉ cm.sw.act) (I : cm.abs.Inv) : Falls k cm (cm.manageSwitch o) := by
  have s1 := RM.rmStep_performSwitch o I.claims.rm cm.sw.actItf cm.sw.deactItf
  rw [show cm.abs.rm = cm.rm from rfl] at s1
  unfold CM.manageSwitch
  split
  · rename_i rm1 h; rw [h] at s1; exact Falls.hw cm s1
  · rename_i rm1 h
    rw [h] at s1
    have f1 : Fwd o Anybody cm { cm with rm := rm1 } := Fwd.rm cm s1
    have f2 := f1.trans (Fwd.deactivateAll o _ cm.sw.deact (fun n hn => trivial) (f1.inv I))
    have f3 := f2.trans (Fwd.switchChained o _ cm.sw.toCh true (fun n hn => trivial) (f2.inv I))
    have f4 := f3.trans (Fwd.switchChained o _ cm.sw.fromCh false (fun n hn => trivial) (f3.inv I))
    simp only
    exact ((((Falls.hw cm s1).trans (Falls.deactivateAll o k _ _)).trans (Falls.switchChained o k _ _ _)).trans
      (Falls.switchChained o k _ _ _)).trans (Falls.activateAll o _ _ _ hk (f4.inv I))

/-- Whatever `handleFailed` wants stopped is stopped unless it refuses or is itself a fallback. -/
theorem handleFailed_stops (o : Oracle) (cm : CM) (l : List Name) (I : cm.abs.Inv) {m : Name}
    (hm : m ∈ l ∨ (l ≠ [] ∧ m ∈ (cm.fallbackPlan l).2)) (hf : m ∉ (cm.fallbackPlan l).1)
    (ha : (cm.handleFailed o l).lcOf m = some .active) : stopRefused m (cm.handleFailed o l).rm.tr = true := by
  have hne : l ≠ [] := by
    rcases hm with h | h
    · exact List.ne_nil_of_mem h
    · exact h.1
  unfold CM.handleFailed at ha ⊢
  rw [if_neg hne] at ha ⊢
  simp only at ha ⊢
  have f1 := Fwd.modeChange o Anybody cm (cm.fallbackPlan l).1 (addItems l (cm.fallbackPlan l).2) I
  have f2 := f1.trans (Fwd.deactivateAll o (T := Anybody) _ (addItems l (cm.fallbackPlan l).2) (fun n hn => trivial) (f1.inv I))
  have hin : m ∈ addItems l (cm.fallbackPlan l).2 := by
    rw [mem_addItems]; exact hm.imp id (·.2)
  have key := deactivateAll_stops o (addItems l (cm.fallbackPlan l).2) (cm.modeChange o (cm.fallbackPlan l).1 (addItems l (cm.fallbackPlan l).2)) m hin
  split at ha
  · rename_i g; rw [if_pos g]; exact key ha
  · rename_i g; rw [if_neg g]
    obtain ⟨h1, h2⟩ := (Falls.activateAll o _ _ .strict hf (f2.inv I)).1 ha
    exact h2 (key h1)

theorem handleFailed_fallbacks (o : Oracle) (cm : CM) (l : List Name) (I : cm.abs.Inv) :
    (∀ n ∈ (cm.fallbackPlan l).1, ∀ s, (cm.handleFailed o l).lcOf n = some s → s = .active) ∨
    (∀ n ∈ (cm.fallbackPlan l).1, (cm.handleFailed o l).lcOf n = some .active → stopRefused n (cm.handleFailed o l).rm.tr = true) := by
  unfold CM.handleFailed
  split
  · rename_i h; subst h; left; simp [fallbackPlan]
  simp only
  have f1 := Fwd.modeChange o Anybody cm (cm.fallbackPlan l).1 (addItems l (cm.fallbackPlan l).2) I
  have f2 := f1.trans (Fwd.deactivateAll o (T := Anybody) _ (addItems l (cm.fallbackPlan l).2) (fun n hn => trivial) (f1.inv I))
  split
  · rename_i h; left; rw [h]; simp
  · exact activateAll_strict o _ _ (f2.inv I)

end CM
end Verif
