import Verif.CM.Asked
/-!
# When are the interfaces exported by a controller available?
-/
namespace Verif

/-- Some reference or state interface exported by `n` is available to other controllers. -/
def RM.Shown (rm : RM) (n : Name) : Prop :=
  (∃ l, rm.expR n = some l ∧ ∃ i ∈ l, i ∈ rm.availC) ∨ (∃ l, rm.expS n = some l ∧ ∃ i ∈ l, i ∈ rm.availS)

/-- Reference and state interfaces of a controller are registered together. -/
def RM.Paired (rm : RM) (n : Name) : Prop := rm.expS n = none → rm.expR n = none

namespace RM

/-- From `a` to `b` nothing exported by `n` becomes available. -/
def Hush (n : Name) (a b : RM) : Prop :=
  a.Inv → b.Inv ∧ (a.Paired n → b.Paired n) ∧ (b.Shown n → a.Shown n)

theorem Hush.refl (n : Name) (a : RM) : Hush n a a := fun I => ⟨I, id, id⟩
theorem Hush.trans {n : Name} {a b c : RM} (h : Hush n a b) (k : Hush n b c) : Hush n a c := by
  intro I
  obtain ⟨I1, p1, s1⟩ := h I
  obtain ⟨I2, p2, s2⟩ := k I1
  exact ⟨I2, p2 ∘ p1, s1 ∘ s2⟩

theorem Hush.of {n : Name} {a b : RM} (hI : a.Inv → b.Inv) (eR : b.expR n = a.expR n) (eS : b.expS n = a.expS n)
    (hC : a.Inv → ∀ i, a.OwnC i (.ctl n) → i ∈ b.availC → i ∈ a.availC)
    (hS : a.Inv → ∀ i, a.OwnS i (.ctl n) → i ∈ b.availS → i ∈ a.availS) : Hush n a b := by
  intro I
  refine ⟨hI I, ?_, ?_⟩
  · unfold Paired; rw [eR, eS]; exact id
  · rintro (⟨l, h1, i, h2, h3⟩ | ⟨l, h1, i, h2, h3⟩)
    · rw [eR] at h1; exact .inl ⟨l, h1, i, h2, hC I i ⟨l, h1, h2⟩ h3⟩
    · rw [eS] at h1; exact .inr ⟨l, h1, i, h2, hS I i ⟨l, h1, h2⟩ h3⟩

theorem Hush.same {n : Name} {a b : RM} (hI : a.Inv → b.Inv) (eR : b.expR = a.expR) (eS : b.expS = a.expS)
    (eC : b.availC = a.availC) (eV : b.availS = a.availS) : Hush n a b :=
  Hush.of hI (by rw [eR]) (by rw [eS]) (fun _ i _ h => eC ▸ h) (fun _ i _ h => eV ▸ h)

theorem Hush.frame (n : Name) {a b : RM} {h h' : Hw} (hh : h ∈ a.comps) (f : Frame a h h' b) (hI : b.Inv) : Hush n a b := by
  refine Hush.of (fun _ => hI) (by rw [f.expR]) (by rw [f.expS]) ?_ ?_
  · intro I i hi hb
    refine (f.keepC i ?_).1 hb
    intro hx
    have := I.uniC i _ (.hw h.name) hi ⟨h, hh, rfl, hx⟩
    simp at this
  · intro I i hi hb
    refine (f.keepS i ?_).1 hb
    intro hx
    have := I.uniS i _ (.hw h.name) hi ⟨h, hh, rfl, hx⟩
    simp at this

theorem Hush.setState (o : Oracle) (n : Name) (rm : RM) (m : Name) (t : LState) : Hush n rm (rm.setComponentState o m t).1 := by
  intro I
  unfold setComponentState
  split
  · exact Hush.refl n rm I
  · rename_i h hf
    have k := setHwState_ok o I (findHw_some hf).1 t
    exact Hush.frame n (findHw_some hf).1 k.frame k.inv I

theorem Hush.iter (n : Name) {s r : RM × Status} {m : Name} (h : s.1.Inv → IterOk s m r) : Hush n s.1 r.1 := by
  intro I
  have h := h I
  cases hf : s.1.findHw m with
  | none => rw [h.skip hf]; exact Hush.refl n _ I
  | some c =>
    obtain ⟨c', f⟩ := h.frame c hf
    exact Hush.frame n (findHw_some hf).1 f h.inv I

theorem Hush.read (o : Oracle) (n : Name) (sched : Name → Sched) (rm : RM) : Hush n rm (rm.read o sched).1 := by
  unfold RM.read
  exact foldl_inv (fun s : RM × Status => Hush n rm s.1) _ _ _ (.refl n rm)
    (fun s m _ h => h.trans (Hush.iter n (fun I => readOne_ok o sched s m I)))

theorem Hush.write (o : Oracle) (n : Name) (sched : Name → Sched) (rm : RM) : Hush n rm (rm.write o sched).1 := by
  unfold RM.write
  exact foldl_inv (fun s : RM × Status => Hush n rm s.1) _ _ _ (.refl n rm)
    (fun s m _ h => h.trans (Hush.iter n (fun I => writeOne_ok o sched s m I)))

theorem Hush.modeSwitch (o : Oracle) (n : Name) (prep : Bool) (rm : RM) (start stop : List Itf) :
    Hush n rm (rm.modeSwitch o prep start stop).1 := by
  obtain ⟨es, e, he⟩ := modeSwitch_ext o prep rm start stop
  refine Hush.same (fun I => inv_modeSwitch o prep I start stop) ?_ ?_ ?_ ?_ <;> rw [e]

theorem Hush.prepareSwitch (o : Oracle) (n : Name) (rm : RM) (start stop : List Itf) :
    Hush n rm (rm.prepareSwitch o start stop).1 := by
  unfold RM.prepareSwitch
  split
  · exact .refl _ _
  split
  · exact .refl _ _
  split
  · exact .refl _ _
  · exact Hush.modeSwitch o n true rm _ _

theorem Hush.performSwitch (o : Oracle) (n : Name) (rm : RM) (start stop : List Itf) :
    Hush n rm (rm.performSwitch o start stop).1 := by
  unfold RM.performSwitch
  split
  · exact .refl _ _
  · exact Hush.modeSwitch o n false rm _ _

theorem Hush.release (n : Name) (rm : RM) (k : Itf) : Hush n rm (rm.release k) :=
  Hush.same (fun I => inv_release I k) rfl rfl rfl rfl

theorem Hush.releaseAll (n : Name) (l : List Itf) : ∀ rm : RM, Hush n rm (l.foldl RM.release rm) := by
  induction l with
  | nil => intro rm; exact .refl _ _
  | cons k t ih => intro rm; exact (Hush.release n rm k).trans (ih _)

theorem Hush.fault (n : Name) (rm : RM) (f : Bool) : Hush n rm { rm with fault := f } :=
  Hush.same (fun I => inv_fault I f) rfl rfl rfl rfl

theorem Hush.push (n : Name) (rm : RM) (e : Ev) (he : e.hwName = none) : Hush n rm { rm with tr := e :: rm.tr } :=
  Hush.same (fun I => inv_push I e he) rfl rfl rfl rfl

theorem Hush.claim (n : Name) (rm : RM) (k : Itf) : Hush n rm (rm.claim k).1 := by
  refine Hush.same (fun I => inv_claim I k) ?_ ?_ ?_ ?_ <;>
    (unfold RM.claim; split <;> [split <;> rfl; rfl])

theorem Hush.claimAll (n : Name) (l : List Itf) : ∀ (rm : RM) (acc : List Itf), Hush n rm (CM.claimAll rm acc l).1 := by
  induction l with
  | nil => intro rm acc; exact .refl _ _
  | cons i t ih =>
    intro rm acc
    unfold CM.claimAll
    split
    · exact (Hush.releaseAll n acc rm).trans (Hush.fault n _ true)
    · exact Hush.releaseAll n acc rm
    · have h := Hush.claim n rm i
      split
      · rename_i rm1 e; rw [e] at h; exact h.trans (ih _ _)
      · rename_i rm1 e; rw [e] at h; exact h.trans (Hush.releaseAll n acc _)

theorem Hush.cache (n : Name) (rm : RM) (c : Name) (is : List Itf) : Hush n rm (rm.cacheController c is) := by
  obtain ⟨u, e⟩ := cacheController_eq rm c is
  refine Hush.same (fun I => inv_cacheController I c is) ?_ ?_ ?_ ?_ <;> rw [e]

theorem Hush.stUnavail (n : Name) (rm : RM) (m : Name) : Hush n rm (rm.exportedStateUnavailable m) := by
  refine Hush.of (fun I => inv_exportedStateUnavailable I m) ?_ ?_ ?_ ?_
  · unfold exportedStateUnavailable; split <;> rfl
  · unfold exportedStateUnavailable; split <;> rfl
  · intro _ i _; unfold exportedStateUnavailable; split <;> exact id
  · intro _ i _; unfold exportedStateUnavailable; split
    · exact mem_of_mem_removeItems
    · exact id

theorem Hush.refUnavail (n : Name) (rm : RM) (m : Name) : Hush n rm (rm.referenceUnavailable m) := by
  refine Hush.of (fun I => inv_referenceUnavailable I m) ?_ ?_ ?_ ?_
  · unfold referenceUnavailable; split <;> rfl
  · unfold referenceUnavailable; split <;> rfl
  · intro _ i _; unfold referenceUnavailable; split
    · exact mem_of_mem_removeItems
    · exact id
  · intro _ i _; unfold referenceUnavailable; split <;> exact id

theorem Hush.stAvail {n m : Name} (rm : RM) (h : m ≠ n) : Hush n rm (rm.exportedStateAvailable m) := by
  refine Hush.of (fun I => inv_exportedStateAvailable I m) ?_ ?_ ?_ ?_
  · unfold exportedStateAvailable; split <;> rfl
  · unfold exportedStateAvailable; split <;> rfl
  · intro _ i _; unfold exportedStateAvailable; split <;> exact id
  · intro I i hi; unfold exportedStateAvailable; split
    · rename_i l hl
      simp only [mem_addItems]
      rintro (h1 | h1)
      · exact h1
      · have := I.uniS i _ (.ctl m) hi ⟨l, hl, h1⟩
        simp at this; exact absurd this.symm h
    · exact id

theorem Hush.refAvail {n m : Name} (rm : RM) (h : m ≠ n) : Hush n rm (rm.referenceAvailable m) := by
  refine Hush.of (fun I => inv_referenceAvailable I m) ?_ ?_ ?_ ?_
  · unfold referenceAvailable; split <;> rfl
  · unfold referenceAvailable; split <;> rfl
  · intro I i hi; unfold referenceAvailable; split
    · rename_i l hl
      simp only [mem_addItems]
      rintro (h1 | h1)
      · exact h1
      · have := I.uniC i _ (.ctl m) hi ⟨l, hl, h1⟩
        simp at this; exact absurd this.symm h
    · exact id
  · intro _ i _; unfold referenceAvailable; split <;> exact id

/-- After both kinds were made unavailable nothing exported by `n` is available. -/
theorem not_shown_unavailable {rm : RM} (I : rm.Inv) (n : Name) :
    ¬ ((rm.exportedStateUnavailable n).referenceUnavailable n).Shown n := by
  have eS : ((rm.exportedStateUnavailable n).referenceUnavailable n).expS n = rm.expS n := by
    unfold referenceUnavailable exportedStateUnavailable; split <;> split <;> rfl
  have eR : ((rm.exportedStateUnavailable n).referenceUnavailable n).expR n = rm.expR n := by
    unfold referenceUnavailable exportedStateUnavailable; split <;> split <;> rfl
  have e1 : (rm.exportedStateUnavailable n).expR n = rm.expR n := by
    unfold exportedStateUnavailable; split <;> rfl
  have e2 : (rm.exportedStateUnavailable n).availC = rm.availC := by
    unfold exportedStateUnavailable; split <;> rfl
  have e3 : ((rm.exportedStateUnavailable n).referenceUnavailable n).availS = (rm.exportedStateUnavailable n).availS := by
    unfold referenceUnavailable; split <;> rfl
  rintro (⟨l, h1, i, h2, h3⟩ | ⟨l, h1, i, h2, h3⟩)
  · rw [eR] at h1
    unfold referenceUnavailable at h3
    rw [e1, h1] at h3
    simp only [e2] at h3
    exact ((mem_removeItems I.nodC).1 h3).2 h2
  · rw [eS] at h1
    rw [e3] at h3
    unfold exportedStateUnavailable at h3
    rw [h1] at h3
    exact ((mem_removeItems I.nodS).1 h3).2 h2

theorem removeExported_exp (rm : RM) (m : Name) :
    ((rm.removeExportedState m).removeReference m).expS = upd rm.expS m none ∧
    ((rm.removeExportedState m).removeReference m).expR = upd rm.expR m none ∧
    ((rm.removeExportedState m).removeReference m).availC = rm.availC ∧
    ((rm.removeExportedState m).removeReference m).availS = rm.availS := by
  have u : ∀ {α : Type} (f : Name → Option α), f m = none → upd f m none = f := by
    intro α f h; funext x; rw [upd_apply]; split
    · rename_i e; rw [e, h]
    · rfl
  have a : (rm.removeExportedState m).expS = upd rm.expS m none ∧ (rm.removeExportedState m).expR = rm.expR ∧
      (rm.removeExportedState m).availC = rm.availC ∧ (rm.removeExportedState m).availS = rm.availS := by
    unfold removeExportedState
    split
    · rename_i h; rw [u _ h]; exact ⟨rfl, rfl, rfl, rfl⟩
    · rename_i l h
      obtain ⟨fl, e, _⟩ := removeStateItfs_spec { rm with expS := upd rm.expS m none } l
      rw [e]; exact ⟨rfl, rfl, rfl, rfl⟩
  have b : ∀ r : RM, (r.removeReference m).expS = r.expS ∧ (r.removeReference m).expR = upd r.expR m none ∧
      (r.removeReference m).availC = r.availC ∧ (r.removeReference m).availS = r.availS := by
    intro r
    unfold removeReference
    split
    · rename_i h; rw [u _ h]; exact ⟨rfl, rfl, rfl, rfl⟩
    · rename_i l h
      obtain ⟨fl, cl, e, _⟩ := removeCmdItfs_spec { r with expR := upd r.expR m none } l
      rw [e]; exact ⟨rfl, rfl, rfl, rfl⟩
  obtain ⟨a1, a2, a3, a4⟩ := a
  obtain ⟨b1, b2, b3, b4⟩ := b (rm.removeExportedState m)
  exact ⟨by rw [b1, a1], by rw [b2, a2], by rw [b3, a3], by rw [b4, a4]⟩

theorem Hush.remove (n : Name) (rm : RM) (m : Name) : Hush n rm ((rm.removeExportedState m).removeReference m) := by
  intro I
  obtain ⟨e1, e2, e3, e4⟩ := removeExported_exp rm m
  refine ⟨inv_removeReference (inv_removeExportedState I m) m, ?_, ?_⟩
  · unfold Paired; rw [e1, e2]
    by_cases h : n = m
    · subst h; intro _ _; simp [upd_apply]
    · simp [upd_apply, h]
  · unfold Shown; rw [e1, e2, e3, e4]
    by_cases h : n = m
    · subst h; simp [upd_apply]
    · simp [upd_apply, h]

theorem import_exp (rm : RM) (m : Name) (rs ss : List Itf) :
    (rm.importReference m rs).1.availC = rm.availC ∧ (rm.importReference m rs).1.availS = rm.availS ∧
    (rm.importReference m rs).1.expS = rm.expS ∧
    (∀ n, n ≠ m → (rm.importReference m rs).1.expR n = rm.expR n) ∧
    ((rm.importReference m rs).2 = false → (rm.importReference m rs).1.expR = rm.expR) ∧
    (rm.importExportedState m ss).availC = rm.availC ∧ (rm.importExportedState m ss).availS = rm.availS ∧
    (rm.importExportedState m ss).expR = rm.expR ∧ (rm.importExportedState m ss).expS m ≠ none ∧
    (∀ n, n ≠ m → (rm.importExportedState m ss).expS n = rm.expS n) := by
  obtain ⟨ks, cl, e, _⟩ := (addCmdItfs_spec rm rs).eq
  have e2 := (addStateItfs_spec rm ss).eq
  unfold importReference importExportedState
  refine ⟨?_, ?_, ?_, ?_, ?_, ?_, ?_, ?_, ?_, ?_⟩
  · split <;> rename_i h <;> rw [h] at e <;> simp only at e ⊢ <;> rw [e]
  · split <;> rename_i h <;> rw [h] at e <;> simp only at e ⊢ <;> rw [e]
  · split <;> rename_i h <;> rw [h] at e <;> simp only at e ⊢ <;> rw [e]
  · intro n hn
    split <;> rename_i h <;> rw [h] at e <;> simp only at e ⊢ <;> rw [e] <;> simp [upd_apply, hn]
  · split
    · simp
    · rename_i h; rw [h] at e; simp only at e ⊢; rw [e]; simp
  · simp only; rw [e2]
  · simp only; rw [e2]
  · simp only; rw [e2]
  · simp [upd_apply]
  · intro n hn; simp only [upd_apply, hn, if_false]; rw [e2]

end RM

namespace CM

/-- Whatever is exported by `n` and available belongs to a loaded chainable controller that is active (or `A` holds). -/
def Okay (A : Prop) (n : Name) (cm : CM) : Prop :=
  cm.rm.Paired n ∧ (cm.rm.Shown n → ∃ c, cm.find n = some c ∧ c.chainable = true ∧ (A ∨ c.lc = .active))

/-- `Okay` is kept. -/
def Cov (A : Prop) (n : Name) (a b : CM) : Prop := a.rm.Inv → b.rm.Inv ∧ (a.Okay A n → b.Okay A n)

theorem Cov.refl (A : Prop) (n : Name) (a : CM) : Cov A n a a := fun I => ⟨I, id⟩
theorem Cov.trans {A : Prop} {n : Name} {a b c : CM} (h : Cov A n a b) (k : Cov A n b c) : Cov A n a c := by
  intro I
  obtain ⟨I1, h1⟩ := h I
  obtain ⟨I2, h2⟩ := k I1
  exact ⟨I2, h2 ∘ h1⟩

theorem Cov.foldl {A : Prop} {n : Name} {α β : Type} (g : β → CM) (f : β → α → β) (l : List α) (b : β)
    (h : ∀ b, ∀ a ∈ l, Cov A n (g b) (g (f b a))) : Cov A n (g b) (g (l.foldl f b)) := by
  induction l generalizing b with
  | nil => exact .refl _ _ _
  | cons a t ih => exact (h b a (by simp)).trans (ih _ (fun b a ha => h b a (by simp [ha])))

/-- The controller keeps being loaded, chainable and active (unless `A`). -/
def Stays (A : Prop) (n : Name) (a b : CM) : Prop :=
  ∀ c, a.find n = some c → ∃ d, b.find n = some d ∧ d.chainable = c.chainable ∧ (A ∨ (c.lc = .active → d.lc = .active))

theorem Stays.eq {A : Prop} {n : Name} {a b : CM} (h : b.find n = a.find n) : Stays A n a b :=
  fun c hc => ⟨c, h.trans hc, rfl, .inr id⟩

theorem Cov.of {A : Prop} {n : Name} {a b : CM} (h : RM.Hush n a.rm b.rm) (k : Stays A n a b) : Cov A n a b := by
  intro I
  obtain ⟨I1, p, s⟩ := h I
  refine ⟨I1, fun ⟨g1, g2⟩ => ⟨p g1, fun hs => ?_⟩⟩
  obtain ⟨c, hc, h1, h2⟩ := g2 (s hs)
  obtain ⟨d, hd, e1, e2⟩ := k c hc
  refine ⟨d, hd, e1.trans h1, ?_⟩
  rcases h2 with h2 | h2
  · exact .inl h2
  · exact e2.imp id (fun x => x h2)

theorem Cov.rm {A : Prop} {n : Name} (cm : CM) {r : RM} (h : RM.Hush n cm.rm r) : Cov A n cm { cm with rm := r } :=
  Cov.of h (Stays.eq rfl)

/-- A step after which nothing of `n` is available. -/
theorem Cov.hidden {A : Prop} {n : Name} {a b : CM} (hI : a.rm.Inv → b.rm.Inv) (hp : a.rm.Paired n → b.rm.Paired n)
    (hs : a.rm.Inv → a.rm.Paired n → ¬ b.rm.Shown n) : Cov A n a b :=
  fun I => ⟨hI I, fun g => ⟨hp g.1, fun x => absurd x (hs I g.1)⟩⟩

/-- A controller that is neither active nor excused: its interfaces are not available. -/
theorem Okay.not_shown {n : Name} {cm : CM} (h : cm.Okay False n) (hl : cm.lcOf n ≠ some .active) : ¬ cm.rm.Shown n := by
  intro hs
  obtain ⟨c, hc, _, h | h⟩ := h.2 hs
  · exact h
  · exact hl (by unfold CM.lcOf; rw [hc]; simp [h])

theorem Hush.releaseItfs (n : Name) (cm : CM) (m : Name) : RM.Hush n cm.rm (cm.releaseItfs m).rm := by
  unfold CM.releaseItfs
  split
  · exact .refl _ _
  · exact RM.Hush.releaseAll n _ _

theorem Stays.release (A : Prop) (n : Name) (cm : CM) (m : Name) : Stays A n cm (cm.releaseItfs m) := by
  intro c hc
  rw [find_release, hc]
  refine ⟨_, rfl, ?_, ?_⟩ <;> split <;> simp

theorem Cov.release (A : Prop) (n : Name) (cm : CM) (m : Name) : Cov A n cm (cm.releaseItfs m) :=
  Cov.of (Hush.releaseItfs n cm m) (Stays.release A n cm m)

theorem Hush.trigger (o : Oracle) (n : Name) (cm : CM) (m : Name) (cb : CtlCb) : RM.Hush n cm.rm (cm.trigger o m cb).rm := by
  unfold CM.trigger
  split
  · exact .refl _ _
  split
  swap
  · exact .refl _ _
  extract_lets a cm1 cm2 cm3 e
  have h1 : RM.Hush n cm.rm cm1.rm := RM.Hush.push n cm.rm _ rfl
  have h2 : RM.Hush n cm.rm cm2.rm := by
    simp only [cm2]; split
    · exact h1
    · exact h1
  have h3 : RM.Hush n cm.rm cm3.rm := by
    simp only [cm3]; split
    · exact h2.trans (Hush.releaseItfs n _ _)
    · exact h2
  clear_value e cm3 cm2 cm1 a
  split
  · exact h3
  · exact h3
  · exact (h3.trans (b := cm3.rm) (RM.Hush.push n _ _ rfl)).trans (Hush.releaseItfs n (cm3.push _) m)

theorem Cov.trigger (o : Oracle) (A : Prop) (n : Name) (cm : CM) (m : Name) (cb : CtlCb)
    (h : m = n → A ∨ (cb ≠ .deactivate ∧ cb ≠ .shutdown)) : Cov A n cm (cm.trigger o m cb) := by
  refine Cov.of (Hush.trigger o n cm m cb) ?_
  by_cases e : n = m
  swap
  · exact Stays.eq (find_of_others (others_trigger o cm m cb) e)
  subst e
  obtain ⟨g, hg, _, h2, h3⟩ := find_trigger o cm n cb
  intro c hc
  refine ⟨g c, by rw [hg, hc]; rfl, h2 c, ?_⟩
  rcases h rfl with h | ⟨h, h'⟩
  · exact .inl h
  · right
    intro ha
    rw [h3 c hc]
    · exact ha
    · rw [ha]; cases cb <;> simp_all [CtlCb.legal]

theorem Cov.modify (A : Prop) (n : Name) (cm : CM) (m : Name) (f : Ctl → Ctl) (hn : ∀ c, (f c).name = c.name)
    (hl : ∀ c, (f c).lc = c.lc) (hc : ∀ c, (f c).chainable = c.chainable) : Cov A n cm (cm.modify m f) := by
  refine Cov.of (.refl _ _) ?_
  intro c hx
  rw [find_modify _ _ _ _ hn]
  by_cases e : m = n
  · subst e
    rw [if_pos rfl, hx]
    exact ⟨_, rfl, hc c, .inr (fun h => (hl c).trans h)⟩
  · rw [if_neg (by first | exact e | exact fun x => e x.symm)]; exact ⟨c, hx, rfl, .inr id⟩

theorem Cov.setChained (o : Oracle) (A : Prop) (n : Name) (cm : CM) (m : Name) (v : Bool) : Cov A n cm (cm.setChained o m v) := by
  unfold CM.setChained
  split
  · exact .refl _ _ _
  split
  swap
  · exact .refl _ _ _
  extract_lets a cm1
  have h1 : Cov A n cm cm1 := Cov.of (RM.Hush.push n cm.rm _ rfl) (Stays.eq rfl)
  split
  · exact h1.trans (Cov.modify A n cm1 m _ (by intro _; rfl) (by intro _; rfl) (by intro _; rfl))
  · exact h1

theorem Hush.exportsUnavailable (n : Name) (cm : CM) (m : Name) : RM.Hush n cm.rm (cm.exportsUnavailable m).rm :=
  (RM.Hush.stUnavail n cm.rm m).trans (RM.Hush.refUnavail n _ m)

theorem Cov.exportsUnavailable (A : Prop) (n : Name) (cm : CM) (m : Name) : Cov A n cm (cm.exportsUnavailable m) :=
  Cov.of (Hush.exportsUnavailable n cm m) (Stays.eq rfl)

theorem Cov.exportsTry (A : Prop) (n : Name) (cm : CM) (m : Name) : Cov A n cm (cm.exportsUnavailableTry m) := by
  unfold CM.exportsUnavailableTry
  split
  · exact .refl _ _ _
  · simp only
    split
    · exact Cov.rm cm (RM.Hush.stUnavail n cm.rm m)
    · exact Cov.rm cm ((RM.Hush.stUnavail n cm.rm m).trans (RM.Hush.refUnavail n _ m))

theorem not_shown_exportsTry {cm : CM} (I : cm.rm.Inv) {n : Name} (hp : cm.rm.Paired n) :
    ¬ (cm.exportsUnavailableTry n).rm.Shown n := by
  unfold CM.exportsUnavailableTry
  split
  · rename_i h
    have := hp h
    rintro (⟨l, h1, _⟩ | ⟨l, h1, _⟩)
    · rw [this] at h1; simp at h1
    · rw [h] at h1; simp at h1
  · rename_i l h
    have e1 : (cm.rm.exportedStateUnavailable n).expR n = cm.rm.expR n := by
      unfold RM.exportedStateUnavailable; split <;> rfl
    simp only
    split
    · rename_i hr
      have e := RM.not_shown_unavailable I n
      rintro hs
      apply e
      unfold RM.referenceUnavailable
      rw [hr]
      exact hs
    · exact RM.not_shown_unavailable I n

theorem Cov.exportsAvailable (A : Prop) {n : Name} (cm : CM) (m : Name)
    (h : m = n → ∃ c, cm.find n = some c ∧ c.chainable = true ∧ (A ∨ c.lc = .active)) : Cov A n cm (cm.exportsAvailable m) := by
  by_cases e : m = n
  swap
  · exact Cov.of ((RM.Hush.stAvail cm.rm e).trans (RM.Hush.refAvail _ e)) (Stays.eq rfl)
  subst e
  intro I
  refine ⟨RM.inv_referenceAvailable (RM.inv_exportedStateAvailable I m) m, fun g => ⟨?_, fun _ => h rfl⟩⟩
  have e1 : ((cm.rm.exportedStateAvailable m).referenceAvailable m).expS m = cm.rm.expS m := by
    unfold RM.referenceAvailable RM.exportedStateAvailable; split <;> split <;> rfl
  have e2 : ((cm.rm.exportedStateAvailable m).referenceAvailable m).expR m = cm.rm.expR m := by
    unfold RM.referenceAvailable RM.exportedStateAvailable; split <;> split <;> rfl
  unfold RM.Paired CM.exportsAvailable
  rw [e1, e2]; exact g.1

theorem Cov.deactivateOne (o : Oracle) (A : Prop) (n : Name) (cm : CM) (m : Name) : Cov A n cm (cm.deactivateOne o m) := by
  unfold CM.deactivateOne
  split
  · exact .refl _ _ _
  rename_i c hc
  split
  swap
  · exact .refl _ _ _
  extract_lets cm1
  by_cases e : m = n
  swap
  · have h1 : Cov A n cm cm1 := (Cov.trigger o A n cm m .deactivate (fun x => absurd x e)).trans (Cov.release A n _ m)
    split
    · exact h1.trans ((Cov.setChained o A n cm1 m false).trans (Cov.exportsTry A n _ m))
    · exact h1
  subst e
  have hh : RM.Hush m cm.rm cm1.rm := (Hush.trigger o m cm m .deactivate).trans (Hush.releaseItfs m _ m)
  split
  · rename_i hch
    intro I
    obtain ⟨I1, p1, s1⟩ := hh I
    obtain ⟨I2, g2⟩ := Cov.setChained o True m cm1 m false I1
    obtain ⟨I3, g3⟩ := Cov.exportsTry True m (cm1.setChained o m false) m I2
    refine ⟨I3, fun g => ?_⟩
    have gT : cm1.Okay True m := ⟨p1 g.1, fun hs => by
      obtain ⟨d, hd, h1, _⟩ := g.2 (s1 hs)
      obtain ⟨f, hf, _, h2, _⟩ := find_trigger o cm m .deactivate
      have : (cm.trigger o m .deactivate).find m = some (f d) := by rw [hf, hd]; rfl
      obtain ⟨e, he, h3, _⟩ := Stays.release True m (cm.trigger o m .deactivate) m (f d) this
      exact ⟨e, he, by rw [h3, h2, h1], .inl trivial⟩⟩
    have g4 := g2 gT
    exact ⟨(g3 g4).1, fun hs => absurd hs (not_shown_exportsTry I2 g4.1)⟩
  · rename_i hch
    intro I
    obtain ⟨I1, p1, s1⟩ := hh I
    refine ⟨I1, fun g => ⟨p1 g.1, fun hs => ?_⟩⟩
    obtain ⟨d, hd, h1, _⟩ := g.2 (s1 hs)
    rw [hc] at hd; simp at hd; subst hd
    exact absurd h1 hch

theorem Cov.deactivateAll (o : Oracle) (A : Prop) (n : Name) (cm : CM) (l : List Name) : Cov A n cm (cm.deactivateAll o l) :=
  Cov.foldl id (CM.deactivateOne o) l cm (fun b a _ => Cov.deactivateOne o A n b a)

theorem Cov.switchChained (o : Oracle) (A : Prop) (n : Name) (cm : CM) (l : List Name) (v : Bool) :
    Cov A n cm (cm.switchChained o l v) := by
  refine Cov.foldl id _ l cm (fun b a _ => ?_)
  simp only [id]
  split
  · exact .refl _ _ _
  · split
    · exact Cov.setChained o A n _ _ _
    · exact .refl _ _ _

theorem Cov.preAvailable (A : Prop) (n : Name) (cm : CM) (l : List Name) (h : n ∈ l → A) : Cov A n cm (cm.preAvailable l) := by
  refine Cov.foldl id _ l cm (fun b a ha => ?_)
  simp only [id]
  split
  · exact .refl _ _ _
  · rename_i c hc
    split
    · rename_i hch
      exact Cov.exportsAvailable A b a (fun e => by subst e; exact ⟨c, hc, hch, .inl (h ha)⟩)
    · exact .refl _ _ _

theorem Cov.activateOne (o : Oracle) (A : Prop) (n : Name) (s : CM × Bool × List Itf) (m : Name) (h : m = n → A) :
    Cov A n s.1 (CM.activateOne o s m).1 := by
  unfold CM.activateOne
  split
  · exact .refl _ _ _
  rename_i c hc
  simp only
  have hcl := RM.Hush.claimAll n (s.1.cmdItfs c) s.1.rm []
  split
  · rename_i rm1 e; rw [e] at hcl; exact Cov.rm _ hcl
  rename_i rm1 loans e
  rw [e] at hcl
  have h0 : Cov A n s.1 { s.1 with rm := rm1 } := Cov.rm _ hcl
  split
  · have f2 : (((({ s.1 with rm := rm1 } : CM).releaseItfs m).modify m (fun c => { c with held := loans })).trigger o m .activate).find m
        ≠ none → ∃ d, (((({ s.1 with rm := rm1 } : CM).releaseItfs m).modify m (fun c => { c with held := loans })).trigger o m .activate).find m = some d
          ∧ d.chainable = c.chainable := by
      intro _
      obtain ⟨g, hg, _, h2, _⟩ := find_trigger o ((({ s.1 with rm := rm1 } : CM).releaseItfs m).modify m (fun c => { c with held := loans })) m .activate
      rw [hg, find_modify _ _ _ _ (by intro _; rfl), if_pos rfl, find_release,
        show ({ s.1 with rm := rm1 } : CM).find m = some c from hc]
      exact ⟨_, rfl, by rw [h2]; simp⟩
    have h2 := ((h0.trans (Cov.release A n _ m)).trans (Cov.modify A n _ m (fun c => { c with held := loans }) (by intro _; rfl)
      (by intro _; rfl) (by intro _; rfl))).trans (Cov.trigger o A n _ m .activate (fun _ => .inr (by decide)))
    generalize hx : (((({ s.1 with rm := rm1 } : CM).releaseItfs m).modify m (fun c => { c with held := loans })).trigger o m .activate) = x at f2 h2 ⊢
    split
    · rename_i ha
      split
      · rename_i hch
        refine h2.trans (Cov.exportsAvailable A x m (fun e => ?_))
        subst e
        unfold CM.isActive at ha
        obtain ⟨d, hd, hk⟩ := f2 (by intro hx; unfold CM.lcOf at ha; rw [hx] at ha; simp at ha)
        exact ⟨d, hd, hk.trans hch, .inl (h rfl)⟩
      · exact h2
    · split
      · exact (h2.trans (Cov.release A n _ _)).trans (Cov.exportsUnavailable A n _ _)
      · exact h2.trans (Cov.release A n _ _)
  · exact Cov.rm _ (hcl.trans (RM.Hush.releaseAll n _ _))

theorem Cov.prepareAndPerform (o : Oracle) (A : Prop) (n : Name) (cm : CM) (a b : List Itf) : Cov A n cm (cm.prepareAndPerform o a b) := by
  unfold CM.prepareAndPerform
  have h1 := RM.Hush.prepareSwitch o n cm.rm a b
  split
  · rename_i rm1 e
    rw [e] at h1
    exact Cov.rm cm (h1.trans (RM.Hush.performSwitch o n rm1 a b))
  · rename_i rm1 e
    rw [e] at h1
    exact Cov.rm cm h1

theorem Cov.activateAll (o : Oracle) (A : Prop) (n : Name) (cm : CM) (l : List Name) (s : Strictness) (h : n ∈ l → A) :
    Cov A n cm (cm.activateAll o l s) := by
  unfold CM.activateAll
  have f := (Cov.preAvailable A n cm l h).trans (Cov.foldl (fun b : CM × Bool × List Itf => b.1) (CM.activateOne o) l
    (cm.preAvailable l, true, []) (fun b a ha => Cov.activateOne o A n b a (fun e => h (e ▸ ha))))
  simp only
  split
  · exact f.trans ((Cov.deactivateAll o A n _ l).trans (Cov.prepareAndPerform o A n _ _ _))
  · split
    · exact f.trans (Cov.prepareAndPerform o A n _ _ _)
    · exact f

theorem Cov.modeChange (o : Oracle) (A : Prop) (n : Name) (cm : CM) (a b : List Name) : Cov A n cm (cm.modeChange o a b) := by
  unfold CM.modeChange
  simp only
  split
  · exact .refl _ _ _
  · exact Cov.prepareAndPerform o A n cm _ _

theorem Cov.sw (A : Prop) (n : Name) (cm : CM) (sw : Sw) (p : Bool) : Cov A n cm { cm with sw := sw, pending := p } :=
  Cov.of (.refl _ _) (Stays.eq rfl)

theorem Cov.manageSwitch (o : Oracle) (A : Prop) (n : Name) (cm : CM) (h : n ∈ cm.sw.act → A) : Cov A n cm (cm.manageSwitch o) := by
  have s1 := RM.Hush.performSwitch o n cm.rm cm.sw.actItf cm.sw.deactItf
  unfold CM.manageSwitch
  split
  · rename_i rm1 e; rw [e] at s1; exact (Cov.rm cm s1).trans (Cov.sw A n _ _ _)
  · rename_i rm1 e
    rw [e] at s1
    simp only
    exact (((((Cov.rm cm s1).trans (Cov.deactivateAll o A n _ _)).trans (Cov.switchChained o A n _ _ _)).trans
      (Cov.switchChained o A n _ _ _)).trans (Cov.activateAll o A n _ _ _ h)).trans (Cov.sw A n _ _ _)

theorem Cov.handleFailed (o : Oracle) (A : Prop) (n : Name) (cm : CM) (l : List Name) (h : n ∈ (cm.fallbackPlan l).1 → A) :
    Cov A n cm (cm.handleFailed o l) := by
  unfold CM.handleFailed
  split
  · exact .refl _ _ _
  extract_lets plan l' cm1
  have f : Cov A n cm cm1 := (Cov.modeChange o A n cm _ _).trans (Cov.deactivateAll o A n _ _)
  split
  · exact f
  · exact f.trans (Cov.activateAll o A n _ _ _ h)

theorem Cov.rtRead (o : Oracle) (A : Prop) (n : Name) (s : Name → RM.Sched) (cm : CM) : Cov A n cm (cm.rtRead o s) := by
  unfold CM.rtRead
  have h : Cov A n cm { cm with rm := (cm.rm.read o s).1 } := Cov.rm cm (RM.Hush.read o n s cm.rm)
  simp only
  split
  · exact h.trans ((Cov.modeChange o A n _ _ _).trans (Cov.deactivateAll o A n _ _))
  · exact h

theorem Cov.rtWrite (o : Oracle) (A : Prop) (n : Name) (s : Name → RM.Sched) (cm : CM) : Cov A n cm (cm.rtWrite o s) := by
  unfold CM.rtWrite
  have h : Cov A n cm { cm with rm := (cm.rm.write o s).1 } := Cov.rm cm (RM.Hush.write o n s cm.rm)
  simp only
  split
  · exact h
  · exact h.trans ((Cov.modeChange o A n _ _ _).trans (Cov.deactivateAll o A n _ _))
  · exact h.trans ((Cov.modeChange o A n _ _ _).trans (Cov.deactivateAll o A n _ _))

theorem Cov.updateLoop (o : Oracle) (A : Prop) (n : Name) (due : Name → Bool) (l : List Ctl) : ∀ (cm : CM) (k : List Name) (r : Ret),
    Cov A n cm (CM.updateLoop o due l cm k r).1 := by
  induction l with
  | nil => intro cm k r; exact .refl _ _ _
  | cons c t ih =>
    intro cm k r
    unfold CM.updateLoop
    split
    · extract_lets a cm1
      have h1 : Cov A n cm cm1 := Cov.of (RM.Hush.push n cm.rm _ rfl) (Stays.eq rfl)
      clear_value cm1 a
      split
      · exact h1.trans (ih _ _ _)
      · exact h1.trans (ih _ _ _)
      · exact h1.trans (ih _ _ _)
    · exact ih _ _ _

theorem Cov.rtUpdate (o : Oracle) (A : Prop) (n : Name) (due : Name → Bool) (lock : Bool) (cm : CM)
    (h1 : cm.IsFallback n → A) (h2 : n ∈ cm.sw.act → A) : Cov A n cm (cm.rtUpdate o due lock).1 := by
  unfold CM.rtUpdate
  extract_lets r cm1 sw1 cm2
  have f0 : Cov A n cm r.1 := Cov.updateLoop o A n due _ _ _ _
  have hp : PushOnly cm r.1 := updateLoop_push o due _ _ _ _
  obtain ⟨es, hp⟩ := hp
  have hsw : cm1.sw = cm.sw := by
    simp only [cm1]; rw [(Keeps.handleFailed o _ _).1, hp]
  have f1 : Cov A n cm cm1 := by
    refine f0.trans (Cov.handleFailed o A n r.1 r.2.1 (fun hx => h1 ?_))
    obtain ⟨c, hc, hf⟩ := fallbackPlan_mem r.1 r.2.1 n hx
    exact ⟨c, by rw [hp] at hc; exact hc, hf⟩
  clear_value r cm1
  simp only [cm2]
  split
  · split
    · split
      · exact f1.trans (Cov.manageSwitch o A n cm1 (by rw [hsw]; exact h2))
      · exact f1
    · exact f1.trans (Cov.sw A n _ _ _)
  · exact f1

/-! ## The services -/

theorem Cov.faulted (A : Prop) (n : Name) (cm : CM) : Cov A n cm cm.faulted := Cov.rm cm (RM.Hush.fault n cm.rm true)

theorem Cov.stAvail (A : Prop) {n : Name} (cm : CM) (m : Name)
    (h : m = n → ∃ c, cm.find n = some c ∧ c.chainable = true ∧ (A ∨ c.lc = .active)) :
    Cov A n cm { cm with rm := cm.rm.exportedStateAvailable m } := by
  by_cases e : m = n
  swap
  · exact Cov.rm cm (RM.Hush.stAvail cm.rm e)
  subst e
  intro I
  refine ⟨RM.inv_exportedStateAvailable I m, fun g => ⟨?_, fun _ => h rfl⟩⟩
  have e1 : (cm.rm.exportedStateAvailable m).expS m = cm.rm.expS m := by
    unfold RM.exportedStateAvailable; split <;> rfl
  have e2 : (cm.rm.exportedStateAvailable m).expR m = cm.rm.expR m := by
    unfold RM.exportedStateAvailable; split <;> rfl
  unfold RM.Paired
  simp only [e1, e2]; exact g.1

theorem Cov.checkFollowing (A : Prop) (n : Name) (fuel : Nat) : ∀ (cm : CM) (c : Ctl), (n ∈ cm.sw.act → A) →
    Cov A n cm (cm.checkFollowing fuel c).1 := by
  induction fuel with
  | zero => intro cm c _; exact Cov.faulted A n cm
  | succ fuel ih =>
    intro cm c h
    unfold CM.checkFollowing
    extract_lets cmd st
    suffices ∀ (l : List Itf) (f : CM × Bool → Itf → CM × Bool), (∀ (acc : CM × Bool) (i : Itf), Mild cm acc.1 →
        Cov A n acc.1 (f acc i).1 ∧ Mild cm (f acc i).1) →
        ∀ acc : CM × Bool, Mild cm acc.1 → Cov A n acc.1 (l.foldl f acc).1 by
      refine this _ _ ?_ (cm, true) (Mild.refl cm)
      intro acc i hm
      split
      · exact ⟨.refl _ _ _, hm⟩
      rename_i hacc
      simp only
      split
      · exact ⟨.refl _ _ _, hm⟩
      rename_i f hf
      split
      · exact ⟨.refl _ _ _, hm⟩
      rename_i hch
      split
      · split
        · exact ⟨.refl _ _ _, hm⟩
        · exact ⟨.refl _ _ _, hm⟩
      split
      · exact ⟨.refl _ _ _, hm⟩
      rename_i hna
      have hr := Mild.checkFollowing fuel acc.1 f
      have hc := ih acc.1 f (by rw [hm.act]; exact h)
      have hfind : ∀ x : CM, Mild acc.1 x → f.name = n → ∃ c, x.find n = some c ∧ c.chainable = true ∧ (A ∨ c.lc = .active) := by
        intro x hx e
        have hn : f.name = i.pre := by unfold CM.chainedTo CM.find at hf; simpa using List.find?_some hf
        refine ⟨f, ?_, by simpa using hch, ?_⟩
        · rw [hx.find, ← e, hn]; exact hf
        · by_cases ha : f.lc = .active
          · exact .inr ha
          · left; apply h; rw [← hm.act, ← e]; by_contra hx; exact hna ⟨ha, hx⟩
      split
      · exact ⟨hc, hm.trans hr⟩
      split
      · split
        · exact ⟨hc, hm.trans hr⟩
        · split
          · refine ⟨?_, hm.trans (hr.trans ((Mild.expS _ _).trans ((Mild.expR { (acc.1.checkFollowing fuel f).1 with
              rm := (acc.1.checkFollowing fuel f).1.rm.exportedStateAvailable f.name } _).trans (Mild.lists _ _ _))))⟩
            exact (hc.trans (Cov.exportsAvailable A _ f.name (hfind _ hr))).trans (Cov.sw A n _ _ _)
          · exact ⟨hc.trans (Cov.stAvail A _ f.name (hfind _ hr)), hm.trans (hr.trans (Mild.expS _ _))⟩
      · exact ⟨hc.trans (Cov.sw A n _ _ _), hm.trans (hr.trans (Mild.lists _ _ _))⟩
    intro l
    induction l with
    | nil => intro f _ acc _; exact .refl _ _ _
    | cons i t iht =>
      intro f hf acc hm
      obtain ⟨h1, h2⟩ := hf acc i hm
      exact h1.trans (iht f hf _ h2)

theorem Cov.checkActivate (A : Prop) (n : Name) (cm : CM) (m : Name) (h : n ∈ cm.sw.act → A) :
    Cov A n cm (cm.checkActivate m).1 := by
  unfold CM.checkActivate
  split
  · exact .refl _ _ _
  rename_i c hc
  extract_lets r
  have hr : Cov A n cm r.1 := by
    simp only [r]
    split
    · exact .refl _ _ _
    · exact .refl _ _ _
    · exact Cov.checkFollowing A n _ cm c h
    · exact .refl _ _ _
  clear_value r
  split
  · refine hr.trans ?_
    unfold CM.checkFallback
    split
    · exact .refl _ _ _
    · exact .refl _ _ _
    · exact Cov.faulted A n _
  · exact hr

theorem Cov.actLoop (A : Prop) (n : Name) (s : Strictness) (l : List Name) : ∀ (kept : List Name) (cm : CM),
    (n ∈ cm.sw.act → A) → (n ∈ kept ++ l → A) → Cov A n cm (CM.actLoop s l kept cm).1 := by
  induction l with
  | nil => intro kept cm _ _; exact .refl _ _ _
  | cons m t ih =>
    intro kept cm h k
    unfold CM.actLoop
    have hc := Cov.checkActivate A n cm m h
    have hm := (Mild.checkActivate cm m).act
    simp only
    split
    · exact hc.trans (ih _ _ (by rw [hm]; exact h) (by simpa using k))
    · split
      · exact hc
      · exact (hc.trans (Cov.sw A n _ _ _)).trans (ih _ _ (fun x => k (by
          rcases List.mem_append.1 x with x | x <;> simp [x])) (fun x => k (by
          rcases List.mem_append.1 x with x | x <;> simp [x])))
      · exact hc.trans (ih _ _ (by rw [hm]; exact h) (by simpa using k))

theorem Cov.deactLoop (A : Prop) (n : Name) (s : Strictness) (l : List Name) : ∀ (kept : List Name) (cm : CM),
    Cov A n cm (CM.deactLoop s l kept cm).1 := by
  induction l with
  | nil => intro kept cm; exact .refl _ _ _
  | cons m t ih =>
    intro kept cm
    unfold CM.deactLoop
    extract_lets ok
    clear_value ok
    split
    · exact ih _ _
    · split
      · exact .refl _ _ _
      · exact (Cov.sw A n cm _ cm.pending).trans (ih _ _)
      · exact ih _ _

theorem Cov.conflictLoop (A : Prop) (n : Name) (s : Strictness) (l : List Ctl) : ∀ cm : CM, Cov A n cm (CM.conflictLoop s l cm).1 := by
  induction l with
  | nil => intro cm; exact .refl _ _ _
  | cons c t ih =>
    intro cm
    unfold CM.conflictLoop
    split
    · exact Cov.sw A n cm _ cm.pending
    · rename_i cm' h
      refine Cov.trans ?_ (ih cm')
      unfold CM.conflictOne at h
      extract_lets k restart d1 a1 inD inA ds d2 inD2 da a2 inA2 ill a3 inA3 at h
      clear_value inA3 inD2 ill da ds
      split at h
      · simp at h
      split at h
      · simp at h
      split at h
      · simp at h
      simp only [Option.some.injEq] at h
      rw [← h]
      split
      · exact (Cov.rm cm (RM.Hush.cache n cm.rm _ _)).trans (Cov.sw A n _ _ _)
      · exact Cov.sw A n cm _ cm.pending

theorem Cov.propagate (A : Prop) (n : Name) (l : List Ctl) : ∀ cm : CM, Cov A n cm (cm.propagate l) := by
  induction l with
  | nil => intro cm; exact .refl _ _ _
  | cons c t ih =>
    intro cm
    unfold CM.propagate
    split
    · split
      · exact .refl _ _ _
      · exact (Cov.sw A n cm _ cm.pending : Cov A n cm (cm.addFromChained c)).trans (ih _)
    · exact ih _

theorem Cov.prepareDeact (A : Prop) (n : Name) (cm : CM) (l : List Name) : Cov A n cm (cm.prepareDeact l) :=
  Cov.foldl id _ l cm (fun b a _ => Cov.modify A n b a _ (by intro _; rfl) (by intro _; rfl) (by intro _; rfl))

theorem Cov.switchBegin (o : Oracle) (A : Prop) (n : Name) (cm : CM) (act deact : List Name) (s : Strictness) (asap : Bool)
    (h : n ∈ act → A) : Cov A n cm (cm.switchBegin o act deact s asap).1 := by
  unfold CM.switchBegin
  extract_lets _ sw0
  split
  · exact Cov.sw A n cm _ cm.pending
  split
  · exact Cov.sw A n cm _ cm.pending
  rename_i d hd _ a ha
  have hsub := listControllers_sub cm s act a ha
  refine (Cov.sw A n cm { sw0 with deact := d, act := a } cm.pending).trans ?_
  suffices hs : ∀ x : CM, x.sw.act = a → Cov A n x (x.validate o s asap).1 from
    hs { cm with sw := { sw0 with deact := d, act := a } } rfl
  intro x xa
  have : Cov A n x (x.validate o s asap).1 := by
    unfold CM.validate
    extract_lets cm1 r1 r2 r3 cm4 p cm5
    have a1 : cm1.sw.act = a := (propagate_act _ x).trans xa
    have f1 : Cov A n x cm1 := Cov.propagate A n _ x
    have f2 : Cov A n x r1.1 := f1.trans (Cov.actLoop A n s cm1.sw.act [] cm1
      (by rw [a1]; exact fun hx => h (hsub n hx)) (by rw [a1]; exact fun hx => h (hsub n (by simpa using hx))))
    have f3 : Cov A n x r2.1 := f2.trans (Cov.deactLoop A n s _ _ _)
    have f4 : Cov A n x r3.1 := f3.trans (Cov.conflictLoop A n s _ _)
    have f5 : Cov A n x cm4 := f4.trans (Cov.prepareDeact A n _ _)
    have f6 : Cov A n x cm5 := by
      refine f5.trans (Cov.rm cm4 ?_)
      simp only [p]
      split
      · exact .refl _ _
      · exact RM.Hush.prepareSwitch o n _ _ _
    clear_value cm1 r1 r2 r3 cm5 cm4 p
    split
    · exact f2.trans (Cov.sw A n _ _ _)
    split
    · exact f3.trans (Cov.sw A n _ _ _)
    split
    · exact f3.trans (Cov.sw A n _ _ _)
    split
    · exact f4
    split
    · exact f4.trans (Cov.sw A n _ _ _)
    split
    · exact f4.trans (Cov.sw A n _ _ _)
    · exact f4.trans ((Cov.sw A n _ r3.1.sw.cleared r3.1.pending).trans (Cov.faulted A n _))
    · split
      · exact f6.trans (Cov.sw A n _ _ _)
      · exact f6.trans (Cov.sw A n _ _ _)
  exact this

theorem Cov.switchFinish (A : Prop) (n : Name) (cm : CM) : Cov A n cm (cm.switchFinish).1 := by
  refine Cov.of (.refl _ _) ?_
  intro c hc
  exact ⟨cm.evalOne c, by rw [find_switchFinish, hc]; rfl, rfl, .inr id⟩

theorem Cov.switchWake (o : Oracle) (A : Prop) (n : Name) (cm : CM) (h : cm.pending = true ∧ n ∈ cm.sw.act → A) :
    Cov A n cm (cm.switchWake o).1 := by
  unfold CM.switchWake
  split
  · exact .refl _ _ _
  rename_i hp
  split
  · split
    · exact .refl _ _ _
    · exact Cov.switchFinish A n cm
  split
  · exact (Cov.manageSwitch o A n cm (fun hx => h ⟨by simpa using hp, hx⟩)).trans (Cov.switchFinish A n _)
  · exact .refl _ _ _

theorem Cov.switchTimeout (A : Prop) (n : Name) (cm : CM) : Cov A n cm (cm.switchTimeout).1 := by
  unfold CM.switchTimeout
  split
  · exact Cov.sw A n cm _ false
  · exact .refl _ _ _

theorem Cov.cleanupExports (A : Prop) (n : Name) (cm : CM) (m : Name) : Cov A n cm (cm.cleanupExports m) := by
  unfold CM.cleanupExports
  split
  · exact .refl _ _ _
  split
  · exact Cov.of (RM.Hush.remove n cm.rm m) (Stays.eq rfl)
  · exact .refl _ _ _

theorem Cov.cleanupSpec (o : Oracle) (A : Prop) (n : Name) (cm : CM) (m : Name) : Cov A n cm (cm.cleanupSpec o m).1 :=
  (Cov.cleanupExports A n cm m).trans (Cov.trigger o A n _ m .cleanup (fun _ => .inr (by decide)))

theorem Cov.cleanup (o : Oracle) (A : Prop) (n : Name) (cm : CM) (m : Name) : Cov A n cm (cm.cleanup o m).1 := by
  unfold CM.cleanup
  split
  · exact .refl _ _ _
  split
  · exact .refl _ _ _
  split <;> first | exact .refl _ _ _ | exact Cov.cleanupSpec o A n cm m

theorem Cov.setHw (o : Oracle) (A : Prop) (n : Name) (cm : CM) (h : Name) (t : LState) : Cov A n cm (cm.setHw o h t).1 := by
  unfold CM.setHw
  split
  · exact .refl _ _ _
  · exact Cov.rm cm (RM.Hush.setState o n cm.rm h t)

theorem Cov.load (o : Oracle) (A : Prop) (n : Name) (cm : CM) (m : Name) (ch as : Bool) (cfg : CtlCfg) (fb : List Name) :
    Cov A n cm (cm.load o m ch as cfg fb).1 := by
  unfold CM.load
  split
  · exact .refl _ _ _
  split
  · exact .refl _ _ _
  split
  · exact .refl _ _ _
  rename_i hf
  simp only
  split
  · refine Cov.of (RM.Hush.push n cm.rm _ rfl) ?_
    intro c hc
    refine ⟨c, ?_, rfl, .inr id⟩
    rw [find_append (cm := cm) _ rfl, hc]; rfl
  · exact Cov.of (RM.Hush.push n cm.rm _ rfl) (Stays.eq rfl)

/-- Nothing of `n` is available (and the registration is sane). -/
def Hid (n : Name) (cm : CM) : Prop := cm.rm.Inv ∧ cm.rm.Paired n ∧ ¬ cm.rm.Shown n

theorem Hid.next {n : Name} {a b : CM} (h : Hid n a) (k : RM.Hush n a.rm b.rm) : Hid n b := by
  obtain ⟨I, p, s⟩ := k h.1
  exact ⟨I, p h.2.1, fun x => h.2.2 (s x)⟩

theorem Hid.okay {A : Prop} {n : Name} {cm : CM} (h : Hid n cm) : cm.Okay A n := ⟨h.2.1, fun x => absurd x h.2.2⟩

theorem Hush.setChained (o : Oracle) (n : Name) (cm : CM) (m : Name) (v : Bool) : RM.Hush n cm.rm (cm.setChained o m v).rm := by
  unfold CM.setChained
  split
  · exact .refl _ _
  split
  swap
  · exact .refl _ _
  extract_lets a cm1
  have h1 : RM.Hush n cm.rm cm1.rm := RM.Hush.push n cm.rm _ rfl
  split
  · exact h1
  · exact h1

theorem Hush.cleanupExports (n : Name) (cm : CM) (m : Name) : RM.Hush n cm.rm (cm.cleanupExports m).rm := by
  unfold CM.cleanupExports
  split
  · exact .refl _ _
  split
  · exact RM.Hush.remove n cm.rm m
  · exact .refl _ _

theorem Hush.cleanupSpec (o : Oracle) (n : Name) (cm : CM) (m : Name) : RM.Hush n cm.rm (cm.cleanupSpec o m).1.rm :=
  (Hush.cleanupExports n cm m).trans (Hush.trigger o n _ m .cleanup)

theorem Hush.cleanup (o : Oracle) (n : Name) (cm : CM) (m : Name) : RM.Hush n cm.rm (cm.cleanup o m).1.rm := by
  unfold CM.cleanup
  split
  · exact .refl _ _
  split
  · exact .refl _ _
  split <;> first | exact .refl _ _ | exact Hush.cleanupSpec o n cm m

theorem Hush.unload (o : Oracle) (n : Name) (cm : CM) (m : Name) : RM.Hush n cm.rm (cm.unload o m).1.rm := by
  unfold CM.unload
  split
  · exact .refl _ _
  split
  · exact .refl _ _
  split
  · exact .refl _ _
  extract_lets r cm1 cm2
  have h1 : RM.Hush n cm.rm r.1.rm := Hush.cleanup o n cm m
  split
  · exact h1
  · exact (h1.trans (Hush.trigger o n (r.1.chainCleanup m) m .shutdown)).trans (Hush.releaseItfs n _ m)

theorem Cov.unload (o : Oracle) (n : Name) (cm : CM) (m : Name) : Cov False n cm (cm.unload o m).1 := by
  by_cases e : n = m
  swap
  · exact Cov.of (Hush.unload o n cm m) (Stays.eq (find_of_others (others_unload o cm m) e))
  subst e
  by_cases ha : cm.lcOf n = some .active
  · have : (cm.unload o n).1 = cm := by
      unfold CM.unload
      split
      · rfl
      split
      · rfl
      · rename_i c hc
        unfold CM.lcOf at ha; rw [hc] at ha
        rw [if_pos (by simpa using ha)]
    rw [this]; exact .refl _ _ _
  · intro I
    refine ⟨(Hush.unload o n cm n I).1, fun g => ?_⟩
    exact (Hid.next ⟨I, g.1, Okay.not_shown g ha⟩ (Hush.unload o n cm n)).okay

theorem topology_rm (cm : CM) : cm.topology.rm = cm.rm ∧ cm.topology.ctls = cm.ctls := by
  obtain ⟨f, p, r, s, e⟩ := topology_tab cm
  rw [e]; exact ⟨rfl, rfl⟩

theorem RM.Hush.imports {n : Name} {m : Name} (h : n ≠ m) (rm : RM) (rs ss : List Itf) :
    RM.Hush n rm (rm.importReference m rs).1 ∧ RM.Hush n (rm.importReference m rs).1 ((rm.importReference m rs).1.importExportedState m ss) := by
  obtain ⟨a1, a2, a3, a4, _, _⟩ := RM.import_exp rm m rs ss
  obtain ⟨_, _, _, _, _, b1, b2, b3, _, b5⟩ := RM.import_exp (rm.importReference m rs).1 m rs ss
  refine ⟨RM.Hush.of (fun I => RM.inv_importReference I m rs) (a4 n h) (by rw [a3]) ?_ ?_,
    RM.Hush.of (fun I => RM.inv_importExportedState I m ss) (by rw [b3]) (b5 n h) ?_ ?_⟩
  · intro _ i _; rw [a1]; exact id
  · intro _ i _; rw [a2]; exact id
  · intro _ i _; rw [b1]; exact id
  · intro _ i _; rw [b2]; exact id

theorem configure_rm {n : Name} (Q : RM → Prop) (o : Oracle) (cm : CM) (m : Name) (cfg : CtlCfg) (ord : List Name) (rt : Bool)
    (hQ : ∀ a b, Q a → RM.Hush n a b → Q b)
    (hF : ∀ a rs, Q a → (a.importReference m rs).2 = false → Q (a.importReference m rs).1)
    (hT : ∀ (x : CM) rs ss, Q x.rm → Q ((({ x with rm := (x.rm.importReference m rs).1.importExportedState m ss } : CM).setChained o m false).exportsUnavailable m).rm)
    (h : Q cm.rm) : Q (cm.configure o m cfg ord rt).1.rm := by
  unfold CM.configure
  split
  · exact h
  split
  · exact h
  split
  · exact h
  extract_lets r0 cm1 cm2 ex
  have h0 : Q r0.1.rm := by
    simp only [r0]; split
    · exact hQ _ _ h (Hush.cleanupSpec o n cm m)
    · exact h
  have h1 : Q cm1.rm := hQ _ _ h0 (Hush.cleanupExports n r0.1 m)
  have h2 : Q cm2.rm := by
    simp only [cm2]; split
    · exact hQ _ _ h1 (Hush.trigger o n _ _ _)
    · exact h1
  have h3 : Q ex.1.rm := by
    simp only [ex]
    split
    · split
      · exact hQ _ _ h2 (Hush.cleanupSpec o n _ _)
      · rename_i ss rs _
        split
        · exact hQ _ _ h2 (Hush.cleanupSpec o n _ _)
        · have hf := hF cm2.rm rs h2
          have ht := hT cm2 rs ss h2
          split
          · rename_i rm1 e
            rw [e] at hf
            exact hQ _ _ (hf rfl) (RM.Hush.fault n _ true)
          · rename_i rm1 e
            rw [e] at ht
            exact ht
    · exact h2
  clear_value r0 cm2 ex
  split
  · exact h0
  split
  · exact h2
  split
  · exact h3
  split
  · exact h3
  split
  · exact hQ _ _ h3 (Hush.cleanupSpec o n _ _)
  · show Q (ex.1.topology.rm)
    rw [(topology_rm _).1]; exact h3

theorem Cov.configure (o : Oracle) (n : Name) (cm : CM) (m : Name) (cfg : CtlCfg) (ord : List Name) (rt : Bool) (J : Inv cm) :
    Cov False n cm (cm.configure o m cfg ord rt).1 := by
  by_cases e : n = m
  swap
  · refine Cov.of ?_ ?_
    · refine configure_rm (n := n) (RM.Hush n cm.rm) o cm m cfg ord rt (fun a b h k => h.trans k) ?_ ?_ (.refl _ _)
      · intro a rs h _; exact h.trans (RM.Hush.imports e a rs []).1
      · intro x rs ss h
        have hi := RM.Hush.imports e x.rm rs ss
        exact (h.trans (hi.1.trans hi.2)).trans ((Hush.setChained o n { x with rm := (x.rm.importReference m rs).1.importExportedState m ss } m false).trans (Hush.exportsUnavailable n _ m))
    · rcases configure_spec o cm m cfg ord rt J with ⟨_, h⟩ | ⟨y, d, he, h, _⟩
      · exact Stays.eq (find_of_others h.others e)
      · rw [he]
        intro c hc
        rw [reorder_find h.topo.topology]
        have : y.topology.find n = y.find n := by unfold CM.find; rw [(topology_rm y).2]
        rw [this, find_of_others h.others e, hc]
        exact ⟨_, rfl, rfl, .inr id⟩
  subst e
  by_cases ha : cm.lcOf n = some .active
  · have : (cm.configure o n cfg ord rt).1 = cm := by
      unfold CM.configure
      split
      · rfl
      split
      · rfl
      · rename_i c hc
        unfold CM.lcOf at ha; rw [hc] at ha
        rw [if_pos (.inl (by simpa using ha))]
    rw [this]; exact .refl _ _ _
  · intro I
    have key : cm.rm.Inv → (cm.rm.Paired n → ¬ cm.rm.Shown n → (cm.configure o n cfg ord rt).1.rm.Inv ∧
        (cm.configure o n cfg ord rt).1.rm.Paired n ∧ ¬ (cm.configure o n cfg ord rt).1.rm.Shown n) := by
      intro I hp hs
      refine configure_rm (n := n) (fun r => r.Inv ∧ r.Paired n ∧ ¬ r.Shown n) o cm n cfg ord rt ?_ ?_ ?_ ⟨I, hp, hs⟩
      · intro a b ⟨I, p, s⟩ k
        obtain ⟨I1, p1, s1⟩ := k I
        exact ⟨I1, p1 p, fun x => s (s1 x)⟩
      · intro a rs ⟨I, p, s⟩ hf
        obtain ⟨a1, a2, a3, _, a5, _⟩ := RM.import_exp a n rs []
        have a5 := a5 hf
        refine ⟨RM.inv_importReference I n rs, ?_, ?_⟩
        · unfold RM.Paired; rw [a3, a5]; exact p
        · unfold RM.Shown; rw [a1, a2, a3, a5]; exact s
      · intro x rs ss ⟨I, p, s⟩
        obtain ⟨_, _, _, _, _, _, _, _, b4, _⟩ := RM.import_exp (x.rm.importReference n rs).1 n rs ss
        obtain ⟨I1, p1, _⟩ := Hush.setChained o n { x with rm := (x.rm.importReference n rs).1.importExportedState n ss } n false
          (RM.inv_importExportedState (RM.inv_importReference I n rs) n ss)
        obtain ⟨I2, p2, _⟩ := Hush.exportsUnavailable n _ n I1
        exact ⟨I2, p2 (p1 (fun hx => absurd hx b4)), RM.not_shown_unavailable I1 n⟩
    refine ⟨?_, fun g => (key I g.1 (Okay.not_shown g ha)).2 |> fun k => ⟨k.1, fun x => absurd x k.2⟩⟩
    exact inv_step o J (.configure n cfg ord rt) |>.sys.claims.rm

/-! ## Every operation -/

/-- `n` is in the activation list of the switch request that is being carried out. -/
def Requested (cm : CM) (n : Name) : Prop := cm.pending = true ∧ n ∈ cm.sw.act

/-- During `op` somebody wants `n` active (or the program ends). -/
def Wanted (cm : CM) (n : Name) (op : Op) : Prop :=
  cm.Requested n ∨ (∃ act deact s asap, op = .switchBegin act deact s asap ∧ n ∈ act) ∨
  (∃ due lock, op = .update due lock ∧ cm.IsFallback n) ∨ op = .shutdown

theorem Cov.shutdownAll (o : Oracle) (n : Name) (cm : CM) : Cov True n cm (cm.shutdownAll o).1 := by
  unfold CM.shutdownAll
  refine Cov.foldl id (shutdownOne o) (cm.ctls.map (·.name)) cm (fun b a _ => ?_)
  simp only [id]
  unfold shutdownOne
  extract_lets cm1
  have f1 : Cov True n b cm1 := by
    simp only [cm1]; split
    · exact (Cov.trigger o True n b a .deactivate (fun _ => .inl trivial)).trans (Cov.release True n _ a)
    · exact .refl _ _ _
  clear_value cm1
  split
  · exact f1.trans (Cov.trigger o True n _ a .shutdown (fun _ => .inl trivial))
  · exact f1

theorem Okay.mono {A B : Prop} {n : Name} {cm : CM} (h : cm.Okay A n) (k : A → B) : cm.Okay B n :=
  ⟨h.1, fun x => by obtain ⟨c, h1, h2, h3⟩ := h.2 x; exact ⟨c, h1, h2, h3.imp k id⟩⟩

theorem Idle.requested {cm : CM} (h : Idle cm) {n : Name} (k : n ∈ cm.sw.act) : cm.Requested n := by
  refine ⟨?_, k⟩
  by_contra hp
  have := h (by simpa using hp)
  rw [this.act] at k; simp at k

theorem step_okay (o : Oracle) {cm : CM} (I : Inv cm) (J : Idle cm) (op : Op) (n : Name) (h : cm.Okay (cm.Requested n) n) :
    (cm.step o op).Okay (cm.Wanted n op) n := by
  have R := I.sys.claims.rm
  have hA : cm.Okay (cm.Wanted n op) n := h.mono .inl
  have hF : ¬ cm.pending = true → cm.Okay False n := fun hp => h.mono (fun x => hp x.1)
  cases op <;> simp only [step]
  · exact (Cov.load o _ n cm _ _ _ _ _ R).2 hA
  · rename_i m cfg ord r
    by_cases hp : cm.pending = true
    · unfold CM.configure; rw [if_pos hp]; exact hA
    · exact ((Cov.configure o n cm m cfg ord r I R).2 (hF hp)).mono False.elim
  · exact (Cov.cleanup o _ n cm _ R).2 hA
  · rename_i m
    by_cases hp : cm.pending = true
    · unfold CM.unload; rw [if_pos hp]; exact hA
    · exact ((Cov.unload o n cm m R).2 (hF hp)).mono False.elim
  · split
    · exact hA
    · exact (Cov.switchBegin o _ n cm _ _ _ _ (fun hx => .inr (.inl ⟨_, _, _, _, rfl, hx⟩)) R).2 hA
  · exact (Cov.switchWake o _ n cm (fun hx => .inl hx) R).2 hA
  · exact (Cov.switchTimeout _ n cm R).2 hA
  · exact (Cov.rtRead o _ n _ cm R).2 hA
  · exact (Cov.rtUpdate o _ n _ _ cm (fun hx => .inr (.inr (.inl ⟨_, _, rfl, hx⟩))) (fun hx => .inl (J.requested hx)) R).2 hA
  · exact (Cov.rtWrite o _ n _ cm R).2 hA
  · exact (Cov.setHw o _ n cm _ _ R).2 hA
  · exact ((Cov.shutdownAll o n cm R).2 (h.mono (fun _ => trivial))).mono (fun _ => .inr (.inr (.inr rfl)))

end CM
end Verif
