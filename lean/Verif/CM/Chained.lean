import Verif.CM.SwFrame
/-!
# Chained mode is left when a controller is deactivated
-/
namespace Verif
namespace CM

/-- The controller `n` is not in chained mode (or not loaded). -/
def Unchained (cm : CM) (n : Name) : Prop := ∀ c, cm.find n = some c → c.chained = false

/-- The controller `n` is active or not in chained mode (or not loaded). -/
def ActOrUnch (cm : CM) (n : Name) : Prop := ∀ c, cm.find n = some c → c.lc = .active ∨ c.chained = false

/-- The controller `n`, if loaded, is chainable. -/
def Chbl (cm : CM) (n : Name) : Prop := ∀ c, cm.find n = some c → c.chainable = true

/-- Nothing puts `n` into chained mode, and if `n` stops being active it leaves chained mode. -/
structure Unch (n : Name) (a b : CM) : Prop where
  chbl : a.Chbl n → b.Chbl n
  unch : a.Unchained n → b.Unchained n
  aou : a.Chbl n → a.ActOrUnch n → b.ActOrUnch n

theorem Unch.refl (n : Name) (a : CM) : Unch n a a := ⟨id, id, fun _ h => h⟩
theorem Unch.trans {n : Name} {a b c : CM} (h : Unch n a b) (k : Unch n b c) : Unch n a c :=
  ⟨fun x => k.chbl (h.chbl x), fun x => k.unch (h.unch x), fun x y => k.aou (h.chbl x) (h.aou x y)⟩

theorem Unch.foldl {n : Name} {α β : Type} (g : β → CM) (f : β → α → β) (l : List α) (b : β)
    (h : ∀ b, ∀ a ∈ l, Unch n (g b) (g (f b a))) : Unch n (g b) (g (l.foldl f b)) := by
  induction l generalizing b with
  | nil => exact .refl _ _
  | cons a t ih => exact (h b a (by simp)).trans (ih _ (fun b a ha => h b a (by simp [ha])))

theorem Unch.ofFind {n : Name} {a b : CM} (h : b.find n = a.find n) : Unch n a b :=
  ⟨fun x c hc => x c (h ▸ hc), fun x c hc => x c (h ▸ hc), fun _ x c hc => x c (h ▸ hc)⟩

/-- A controller update that keeps the lifecycle state and the chained mode. -/
theorem Unch.ofMap {n : Name} {a b : CM} (f : Ctl → Ctl) (h : b.find n = (a.find n).map f)
    (h1 : ∀ c, (f c).lc = c.lc) (h2 : ∀ c, (f c).chained = c.chained) (h3 : ∀ c, (f c).chainable = c.chainable) :
    Unch n a b := by
  have key : ∀ c, b.find n = some c → ∃ d, a.find n = some d ∧ c = f d := by
    intro c hc
    rw [h] at hc
    cases hd : a.find n with
    | none => simp [hd] at hc
    | some d => simp [hd] at hc; exact ⟨d, rfl, hc.symm⟩
  refine ⟨?_, ?_, ?_⟩
  · intro x c hc; obtain ⟨d, hd, rfl⟩ := key c hc; rw [h3]; exact x d hd
  · intro x c hc; obtain ⟨d, hd, rfl⟩ := key c hc; rw [h2]; exact x d hd
  · intro _ x c hc; obtain ⟨d, hd, rfl⟩ := key c hc; rw [h2, h1]; exact x d hd

theorem Unch.rm (n : Name) (cm : CM) (rm' : RM) : Unch n cm { cm with rm := rm' } := Unch.ofFind rfl

theorem find_release (cm : CM) (n m : Name) :
    (cm.releaseItfs n).find m = (cm.find m).map (fun c => if m = n then { c with held := [] } else c) := by
  by_cases e : m = n
  · subst e
    unfold releaseItfs
    split
    · rename_i h; rw [h]; rfl
    · rename_i c h
      rw [find_modify _ _ _ _ (by intro _; rfl), if_pos rfl]
      change (cm.find m).map _ = _
      simp
  · rw [find_of_others (others_releaseItfs cm n) e]
    simp [e]

theorem Unch.release (n : Name) (cm : CM) (m : Name) : Unch n cm (cm.releaseItfs m) := by
  refine Unch.ofMap _ (find_release cm m n) ?_ ?_ ?_ <;> intro c <;> split <;> rfl

/-- A lifecycle transition of `n` changes only its state, its loans and its asynchronous trigger. -/
theorem find_trigger (o : Oracle) (cm : CM) (n : Name) (cb : CtlCb) :
    ∃ g : Ctl → Ctl, (cm.trigger o n cb).find n = (cm.find n).map g ∧ (∀ c, (g c).chained = c.chained) ∧
      (∀ c, (g c).chainable = c.chainable) ∧ (∀ c, cm.find n = some c → cb.legal c.lc = false → (g c).lc = c.lc) := by
  cases hc : cm.find n with
  | none =>
    refine ⟨id, ?_, fun _ => rfl, fun _ => rfl, fun _ h => by simp at h⟩
    unfold trigger; rw [hc]; simpa using hc
  | some c =>
    by_cases hl : cb.legal c.lc = true
    · obtain ⟨g, hg, h1, h2⟩ : ∃ g : Ctl → Ctl, (cm.trigger o n cb).find n = (cm.find n).map g ∧
          (∀ c, (g c).chained = c.chained) ∧ (∀ c, (g c).chainable = c.chainable) := by
        unfold trigger
        rw [hc]
        simp -zeta only [hl, if_true]
        extract_lets a cm1 cm2 cm3 e
        have e2 : ∃ g : Ctl → Ctl, cm2.find n = (cm.find n).map g ∧ (∀ c, (g c).chained = c.chained) ∧
            (∀ c, (g c).chainable = c.chainable) := by
          simp only [cm2]; split
          · refine ⟨fun c => { c with skipAsync := false }, ?_, fun _ => rfl, fun _ => rfl⟩
            rw [find_modify _ _ _ _ (by intro _; rfl), if_pos rfl]
            rfl
          · exact ⟨id, by simp [cm1, find_push], fun _ => rfl, fun _ => rfl⟩
        have e3 : ∃ g : Ctl → Ctl, cm3.find n = (cm.find n).map g ∧ (∀ c, (g c).chained = c.chained) ∧
            (∀ c, (g c).chainable = c.chainable) := by
          simp only [cm3]; split
          · obtain ⟨g, h, h1, h2⟩ := e2
            refine ⟨fun c => { g c with held := [] }, ?_, fun c => h1 c, fun c => h2 c⟩
            rw [find_release, h, Option.map_map]; simp [Function.comp_def]
          · exact e2
        clear_value e cm3 a
        obtain ⟨g, h, h1, h2⟩ := e3
        rw [hc] at h
        split
        · refine ⟨fun c => { g c with lc := cb.onSuccess }, ?_, fun c => h1 c, fun c => h2 c⟩
          rw [find_modify _ _ _ _ (by intro _; rfl), if_pos rfl, h]; rfl
        · refine ⟨fun c => { g c with lc := cb.onFailure }, ?_, fun c => h1 c, fun c => h2 c⟩
          rw [find_modify _ _ _ _ (by intro _; rfl), if_pos rfl, h]; rfl
        · refine ⟨fun c => { g c with held := [], lc := if e = .success then .unconfigured else .finalized }, ?_,
            fun c => h1 c, fun c => h2 c⟩
          rw [find_modify _ _ _ _ (by intro _; rfl), if_pos rfl, find_release, find_push, h]; simp
      rw [hc] at hg
      exact ⟨g, hg, h1, h2, fun d hd hl' => by simp at hd; subst hd; rw [hl] at hl'; simp at hl'⟩
    · have hl' : cb.legal c.lc = false := by simpa using hl
      refine ⟨id, ?_, fun _ => rfl, fun _ => rfl, fun _ _ _ => rfl⟩
      unfold trigger; rw [hc]; simp only [hl', Bool.false_eq_true, if_false]; simpa using hc

theorem Unch.trigger (o : Oracle) (n : Name) (cm : CM) (m : Name) (cb : CtlCb) (h : m = n → cb = .activate) :
    Unch n cm (cm.trigger o m cb) := by
  by_cases e : n = m
  · subst e
    have := h rfl; subst this
    obtain ⟨g, hg, h1, h2, h3⟩ := find_trigger o cm n .activate
    have key : ∀ c, (cm.trigger o n .activate).find n = some c → ∃ d, cm.find n = some d ∧ c = g d := by
      intro c hc
      rw [hg] at hc
      cases hd : cm.find n with
      | none => simp [hd] at hc
      | some d => simp [hd] at hc; exact ⟨d, rfl, hc.symm⟩
    refine ⟨?_, ?_, ?_⟩
    · intro x c hc; obtain ⟨d, hd, rfl⟩ := key c hc; rw [h2]; exact x d hd
    · intro x c hc; obtain ⟨d, hd, rfl⟩ := key c hc; rw [h1]; exact x d hd
    · intro _ x c hc; obtain ⟨d, hd, rfl⟩ := key c hc
      rw [h1]
      rcases x d hd with y | y
      · left; rw [h3 d hd (by rw [y]; rfl)]; exact y
      · exact .inr y
  · exact Unch.ofFind (find_of_others (others_trigger o cm m cb) e)

theorem Unch.setChained (o : Oracle) (n : Name) (cm : CM) (m : Name) (v : Bool) (h : m = n → v = false) :
    Unch n cm (cm.setChained o m v) := by
  by_cases e : n = m
  · subst e
    have := h rfl; subst this
    unfold CM.setChained
    split
    · exact .refl _ _
    · split
      · extract_lets a cm1
        split
        · have hf : (cm1.modify n (fun c => { c with chained := false })).find n =
              (cm.find n).map (fun c => { c with chained := false }) := by
            rw [find_modify _ _ _ _ (by intro _; rfl), if_pos rfl]; rfl
          have key : ∀ c, (cm1.modify n (fun c => { c with chained := false })).find n = some c →
              ∃ d, cm.find n = some d ∧ c = { d with chained := false } := by
            intro c hc
            rw [hf] at hc
            cases hd : cm.find n with
            | none => simp [hd] at hc
            | some d => simp [hd] at hc; exact ⟨d, rfl, hc.symm⟩
          refine ⟨?_, ?_, ?_⟩
          · intro x c hc; obtain ⟨d, hd, rfl⟩ := key c hc; exact x d hd
          · intro x c hc; obtain ⟨d, hd, rfl⟩ := key c hc; rfl
          · intro _ x c hc; obtain ⟨d, hd, rfl⟩ := key c hc; exact .inr rfl
        · exact Unch.rm _ _ _
      · exact .refl _ _
  · exact Unch.ofFind (find_of_others (others_setChained o cm m v) e)

theorem Unch.exportsTry (n : Name) (cm : CM) (m : Name) : Unch n cm (cm.exportsUnavailableTry m) := by
  unfold exportsUnavailableTry
  split
  · exact .refl _ _
  · simp only; split <;> exact Unch.rm _ _ _

/-- A controller that is asked to leave chained mode while it is not active, and accepts. -/
theorem setChained_unch (o : Oracle) (cm : CM) (n : Name) (hacc : ∀ t, o.ctlChained t n false = true)
    (hch : cm.Chbl n) (hl : cm.lcOf n ≠ some .active) : (cm.setChained o n false).Unchained n := by
  intro c hc
  unfold CM.setChained at hc
  cases hd : cm.find n with
  | none => simp [hd] at hc
  | some d =>
    have h1 : d.chainable = true := hch d hd
    have h2 : d.lc ≠ .active := by intro e; apply hl; unfold CM.lcOf; rw [hd]; simp [e]
    rw [hd] at hc
    simp only [h1, h2, ne_eq, not_false_eq_true, and_self, if_true, hacc] at hc
    rw [find_modify _ _ _ _ (by intro _; rfl), if_pos rfl, find_push, hd] at hc
    simp at hc
    rw [← hc]

theorem Unch.deactivateOne (o : Oracle) (n : Name) (hacc : ∀ t, o.ctlChained t n false = true) (cm : CM) (m : Name) :
    Unch n cm (cm.deactivateOne o m) := by
  by_cases e : n = m
  swap
  · unfold CM.deactivateOne
    split
    · exact .refl _ _
    split
    swap
    · exact .refl _ _
    simp only
    have h := (Unch.trigger o n cm m .deactivate (fun h => absurd h.symm e)).trans (Unch.release n _ m)
    split
    · exact h.trans ((Unch.setChained o n _ m false (fun _ => rfl)).trans (Unch.exportsTry _ _ _))
    · exact h
  subst e
  unfold CM.deactivateOne
  split
  · exact .refl _ _
  rename_i c hc
  split
  swap
  · exact .refl _ _
  rename_i hl
  extract_lets cm1
  have hf : ∃ g : Ctl → Ctl, cm1.find n = (cm.find n).map g ∧ (∀ c, (g c).chained = c.chained) ∧
            (∀ c, (g c).chainable = c.chainable) := by
    obtain ⟨g, hg, h1, h2, _⟩ := find_trigger o cm n .deactivate
    refine ⟨fun c => { g c with held := [] }, ?_, h1, h2⟩
    simp only [cm1]
    rw [find_release, hg, Option.map_map]; simp [Function.comp_def]
  obtain ⟨g, hg, h1, h2⟩ := hf
  rw [hc] at hg
  have hch : cm.Chbl n → cm1.Chbl n := by
    intro x d hd; rw [hg] at hd; simp at hd; rw [← hd, h2]; exact x c hc
  have hun : cm.Unchained n → cm1.Unchained n := by
    intro x d hd; rw [hg] at hd; simp at hd; rw [← hd, h1]; exact x c hc
  clear_value cm1
  split
  · have s := (Unch.setChained o n cm1 n false (fun _ => rfl)).trans (Unch.exportsTry n (cm1.setChained o n false) n)
    refine ⟨fun x => s.chbl (hch x), fun x => s.unch (hun x), fun x _ => ?_⟩
    by_cases ha : cm1.lcOf n = some .active
    · refine s.aou (hch x) (fun d hd => .inl ?_)
      unfold CM.lcOf at ha
      rw [hd] at ha; simpa using ha
    · have := setChained_unch o cm1 n hacc (hch x) ha
      have := (Unch.exportsTry n (cm1.setChained o n false) n).unch this
      exact fun d hd => .inr (this d hd)
  · rename_i hn
    refine ⟨hch, hun, fun x _ => absurd (x c hc) hn⟩

section
variable (o : Oracle) (n : Name) (hacc : ∀ t, o.ctlChained t n false = true)
include hacc

theorem Unch.deactivateAll (cm : CM) (l : List Name) : Unch n cm (cm.deactivateAll o l) :=
  Unch.foldl id (CM.deactivateOne o) l cm (fun b a _ => Unch.deactivateOne o n hacc b a)

omit hacc in
theorem Unch.switchChained (cm : CM) (l : List Name) (v : Bool) (h : v = false ∨ n ∉ l) :
    Unch n cm (cm.switchChained o l v) := by
  refine Unch.foldl id _ l cm (fun b a ha => ?_)
  simp only [id]
  split
  · exact .refl _ _
  · split
    · refine Unch.setChained o _ _ _ _ (fun e => ?_)
      rcases h with h | h
      · exact h
      · subst e; exact absurd ha h
    · exact .refl _ _

omit hacc in
theorem Unch.preAvailable (cm : CM) (l : List Name) : Unch n cm (cm.preAvailable l) := by
  refine Unch.foldl id _ l cm (fun b a _ => ?_)
  simp only [id]
  split
  · exact .refl _ _
  · split
    · exact Unch.rm _ _ _
    · exact .refl _ _

omit hacc in
theorem Unch.activateOne (s : CM × Bool × List Itf) (m : Name) : Unch n s.1 (CM.activateOne o s m).1 := by
  unfold CM.activateOne
  split
  · exact .refl _ _
  simp only
  split
  · exact Unch.rm _ _ _
  rename_i c _ rm1 loans _
  split
  · have hm : ∀ x : CM, Unch n x (x.modify m (fun c => { c with held := loans })) := by
      intro x
      by_cases e : n = m
      · subst e
        refine Unch.ofMap (fun c => { c with held := loans }) ?_ (fun _ => rfl) (fun _ => rfl) (fun _ => rfl)
        rw [find_modify _ _ _ _ (by intro _; rfl), if_pos rfl]
      · refine Unch.ofFind ?_
        rw [find_modify _ _ _ _ (by intro _; rfl), if_neg e]
    have h1 : Unch n s.1 ((({ s.1 with rm := rm1 } : CM).releaseItfs m).modify m (fun c => { c with held := loans })) :=
      ((Unch.rm n s.1 rm1).trans (Unch.release _ _ _)).trans (hm _)
    have h2 := h1.trans (Unch.trigger o n _ m .activate (fun _ => rfl))
    split
    · split
      · exact h2.trans (Unch.rm _ _ _)
      · exact h2
    · split
      · exact (h2.trans (Unch.release _ _ _)).trans (Unch.rm _ _ _)
      · exact h2.trans (Unch.release _ _ _)
  · exact Unch.rm _ _ _

omit hacc in
theorem Unch.prepareAndPerform (cm : CM) (a b : List Itf) : Unch n cm (cm.prepareAndPerform o a b) := by
  unfold CM.prepareAndPerform
  split <;> exact Unch.rm _ _ _

theorem Unch.activateAll (cm : CM) (l : List Name) (s : Strictness) : Unch n cm (cm.activateAll o l s) := by
  unfold CM.activateAll
  have f := (Unch.preAvailable n cm l).trans (Unch.foldl (n := n) (fun b : CM × Bool × List Itf => b.1) (CM.activateOne o) l
    (cm.preAvailable l, true, []) (fun b a _ => Unch.activateOne o n b a))
  simp only
  split
  · exact f.trans ((Unch.deactivateAll o n hacc _ l).trans (Unch.prepareAndPerform o n _ _ _))
  · split
    · exact f.trans (Unch.prepareAndPerform o n _ _ _)
    · exact f

omit hacc in
theorem Unch.modeChange (cm : CM) (a d : List Name) : Unch n cm (cm.modeChange o a d) := by
  unfold CM.modeChange
  simp only
  split
  · exact .refl _ _
  · exact Unch.prepareAndPerform o n _ _ _

theorem Unch.handleFailed (cm : CM) (l : List Name) : Unch n cm (cm.handleFailed o l) := by
  unfold CM.handleFailed
  split
  · exact .refl _ _
  · simp only
    have f := (Unch.modeChange o n cm (cm.fallbackPlan l).1 (addItems l (cm.fallbackPlan l).2)).trans
      (Unch.deactivateAll o n hacc _ (addItems l (cm.fallbackPlan l).2))
    split
    · exact f
    · exact f.trans (Unch.activateAll o n hacc _ _ _)

theorem Unch.rtRead (s : Name → RM.Sched) (cm : CM) : Unch n cm (cm.rtRead o s) := by
  unfold CM.rtRead
  simp only
  split
  · exact ((Unch.rm n cm (cm.rm.read o s).1).trans (Unch.modeChange o n _ _ _)).trans (Unch.deactivateAll o n hacc _ _)
  · exact Unch.rm _ _ _

theorem Unch.rtWrite (s : Name → RM.Sched) (cm : CM) : Unch n cm (cm.rtWrite o s) := by
  unfold CM.rtWrite
  simp only
  split
  · exact Unch.rm _ _ _
  · exact ((Unch.rm n cm (cm.rm.write o s).1).trans (Unch.modeChange o n _ _ _)).trans (Unch.deactivateAll o n hacc _ _)
  · exact ((Unch.rm n cm (cm.rm.write o s).1).trans (Unch.modeChange o n _ _ _)).trans (Unch.deactivateAll o n hacc _ _)

theorem Unch.manageSwitch (cm : CM) (h : n ∉ cm.sw.toCh) : Unch n cm (cm.manageSwitch o) := by
  unfold CM.manageSwitch
  split
  · exact Unch.ofFind rfl
  · rename_i rm1 _
    have h : Unch n cm ((((({ cm with rm := rm1 } : CM).deactivateAll o cm.sw.deact).switchChained o cm.sw.toCh true).switchChained o
        cm.sw.fromCh false).activateAll o cm.sw.act cm.sw.strict) :=
      ((((Unch.rm n cm rm1).trans (Unch.deactivateAll o n hacc _ _)).trans
        (Unch.switchChained o n _ _ _ (.inr h))).trans (Unch.switchChained o n _ _ _ (.inl rfl))).trans
        (Unch.activateAll o n hacc _ _ _)
    exact h.trans (Unch.ofFind rfl)

theorem Unch.rtUpdate (due : Name → Bool) (lock : Bool) (cm : CM) (h : cm.sw.doSwitch = true → n ∉ cm.sw.toCh) :
    Unch n cm (cm.rtUpdate o due lock).1 := by
  unfold CM.rtUpdate
  extract_lets r cm1 _ cm2
  have h0 : Unch n cm r.1 ∧ Keeps cm r.1 := by
    obtain ⟨es, h⟩ := updateLoop_push o due cm.ctls cm [] .ok
    change r.1 = _ at h
    rw [h]; exact ⟨Unch.rm _ _ _, ⟨rfl, rfl, fun _ h => h⟩⟩
  have h1 : Unch n cm cm1 := h0.1.trans (Unch.handleFailed o n hacc _ _)
  have hk : Keeps cm cm1 := h0.2.trans (Keeps.handleFailed o _ _)
  clear_value cm1
  simp only [cm2]
  split
  · rename_i hd
    rw [hk.1] at hd
    split
    · split
      · exact h1.trans (Unch.manageSwitch o n hacc cm1 (by rw [hk.1]; exact h hd))
      · exact h1
    · exact h1.trans (Unch.ofFind rfl)
  · exact h1

end

theorem find_switchFinish (cm : CM) (n : Name) : (cm.switchFinish).1.find n = (cm.find n).map cm.evalOne := by
  unfold switchFinish clear find
  simp only [List.find?_map]
  congr 1

theorem Unch.switchFinish (n : Name) (cm : CM) : Unch n cm (cm.switchFinish).1 :=
  Unch.ofMap _ (find_switchFinish cm n) (fun _ => rfl) (fun _ => rfl) (fun _ => rfl)

end CM
end Verif
