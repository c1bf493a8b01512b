import Verif.CM.Hist
import Verif.CM.Idle
/-!
# Stopping controllers; the record of which controller uses which hardware
-/
namespace Verif
namespace Sys

/-- The records of hardware users only grow, and the hardware components keep their fixed part. -/
def Used (a b : Sys) : Prop :=
  (∀ h, a.rm.usedBy h ⊆ b.rm.usedBy h) ∧ b.rm.comps.map Hw.static = a.rm.comps.map Hw.static

theorem Used.refl (a : Sys) : Used a a := ⟨fun _ => List.Subset.refl _, rfl⟩
theorem Used.trans {a b c : Sys} (h : Used a b) (k : Used b c) : Used a c :=
  ⟨fun x => List.Subset.trans (h.1 x) (k.1 x), k.2.trans h.2⟩
theorem Used.ofEq {a b : Sys} (h : b.rm.usedBy = a.rm.usedBy) (k : b.rm.comps = a.rm.comps) : Used a b :=
  ⟨fun x => by rw [h]; exact List.Subset.refl _, by rw [k]⟩

theorem Used.release (s : Sys) (n : Name) : Used s (s.release n) := by
  unfold Sys.release
  split
  · exact .refl _
  · exact .ofEq (by simp only [Sys.set]; rw [RM.foldl_release]) (by simp only [Sys.set]; rw [RM.foldl_release])

theorem Used.trigger (o : Oracle) (s : Sys) (n : Name) (cb : CtlCb) : Used s (s.trigger o n cb) := by
  by_cases hl : ∃ c, s.k n = some c ∧ cb.legal c.lc = true
  swap
  · rw [trigger_illegal o cb (fun c hc => by
      by_contra hx; exact hl ⟨c, hc, by simpa using hx⟩)]
    exact .refl _
  obtain ⟨c, hc, hleg⟩ := hl
  obtain ⟨es, lc', hev, hcase⟩ := trigger_spec o cb hc hleg
  rcases hcase with ⟨_, _, e⟩ | e <;> rw [e]
  · exact .ofEq rfl rfl
  · exact .ofEq (by simp only [Sys.set]; rw [RM.foldl_release]) (by simp only [Sys.set]; rw [RM.foldl_release])

theorem claimAll_used {rm rm1 : RM} {l : List Itf} {x} (h : CM.claimAll rm [] l = (rm1, x)) :
    rm1.usedBy = rm.usedBy ∧ rm1.comps = rm.comps := by
  cases x with
  | none => obtain ⟨g, fl, e, _⟩ := RM.claimAll_none h; rw [e]; exact ⟨rfl, rfl⟩
  | some loans => obtain ⟨_, _, _, e⟩ := RM.claimAll_some h; rw [e]; exact ⟨rfl, rfl⟩

theorem dropExports_used (s : Sys) (n : Name) : Used s (s.dropExports n) := by
  unfold dropExports
  obtain ⟨sk, es, fl, e1⟩ := removeExportedState_eq s.rm n
  simp only [e1]
  obtain ⟨er, cl, fl2, e2, _, _⟩ := removeReference_eq { s.rm with stateKeys := sk, expS := es, fault := fl } n
  exact .ofEq (by rw [e2]) (by rw [e2])

theorem AStep.used {o T s s'} (h : AStep o T s s') : Used s s' := by
  cases h with
  | rm st => exact ⟨st.used, st.comps⟩
  | update a hc hl => exact .ofEq rfl rfl
  | deact hT => exact (Used.trigger o s _ _).trans (Used.release _ _)
  | trig hT hcb => exact Used.trigger o s _ _
  | act hT h hl =>
    rename_i n l loans rm1
    have hr := claimAll_used h
    unfold Sys.activate
    split
    · exact .refl _
    · rename_i c hc
      simp only
      have h1 : Used s (({ s with rm := c.held.foldl RM.release rm1 } : Sys).set n { c with held := loans }) :=
        .ofEq (by simp only [Sys.set]; rw [RM.foldl_release]; exact hr.1) (by simp only [Sys.set]; rw [RM.foldl_release]; exact hr.2)
      have h2 := h1.trans (Used.trigger o _ n .activate)
      split
      · exact h2
      · exact h2.trans (Used.release _ _)
  | claimFail h => exact .ofEq (claimAll_used h).1 (claimAll_used h).2
  | chain hT =>
    unfold Sys.setChained
    split
    · exact .refl _
    · split
      · simp only; split <;> exact .ofEq rfl rfl
      · exact .refl _
  | load hT hn ch as fb cmd => exact .ofEq rfl rfl
  | loadFail hT hn a ha => exact .ofEq rfl rfl
  | dropExports hT hc hl => exact dropExports_used _ _
  | importR hT hc rs =>
    obtain ⟨ks, cl, e, _⟩ := (RM.addCmdItfs_spec s.rm rs).eq
    unfold RM.importReference
    split
    · rename_i rm' names hh
      rw [hh] at e; simp only at e; subst e; exact .ofEq rfl rfl
    · rename_i rm' hh
      rw [hh] at e; simp only at e; subst e; exact .ofEq rfl rfl
  | importS hT hc ss =>
    have := (RM.addStateItfs_spec s.rm ss).eq
    unfold RM.importExportedState
    exact .ofEq (by simp only; rw [this]) (by simp only; rw [this])
  | erase hT hc hh => exact .ofEq rfl rfl
  | recfg hT hc hl cmd => exact .ofEq rfl rfl

theorem Steps.used {o T s s'} (h : Steps o T s s') : Used s s' := by
  induction h with
  | refl => exact .refl _
  | tail _ h ih => exact ih.trans h.used

end Sys

namespace CM

theorem step_used (o : Oracle) {cm : CM} (I : Inv cm) (op : Op) : Sys.Used cm.abs (cm.step o op).abs :=
  (step_steps o I op).used

/-- A controller active in `b` was active in `a`, and a refused stop remains its last transition; every fallback list of `b`
is one of `a`. -/
def Falls (n : Name) (a b : CM) : Prop :=
  (b.lcOf n = some .active → a.lcOf n = some .active ∧ (stopRefused n a.rm.tr = true → stopRefused n b.rm.tr = true)) ∧
  ∀ c ∈ b.ctls, ∃ d ∈ a.ctls, d.fallbacks = c.fallbacks

theorem Falls.refl (n : Name) (a : CM) : Falls n a a := ⟨fun h => ⟨h, id⟩, fun c hc => ⟨c, hc, rfl⟩⟩

theorem Falls.trans {n : Name} {a b c : CM} (h : Falls n a b) (k : Falls n b c) : Falls n a c := by
  refine ⟨fun hc => ?_, fun x hx => ?_⟩
  · obtain ⟨hb, k2⟩ := k.1 hc
    obtain ⟨ha, h2⟩ := h.1 hb
    exact ⟨ha, fun r => k2 (h2 r)⟩
  · obtain ⟨y, hy, e⟩ := k.2 x hx
    obtain ⟨z, hz, e'⟩ := h.2 y hy
    exact ⟨z, hz, e'.trans e⟩

theorem Falls.foldl {n : Name} {α β : Type} (g : β → CM) (f : β → α → β) (l : List α) (b : β)
    (h : ∀ b a, Falls n (g b) (g (f b a))) : Falls n (g b) (g (l.foldl f b)) := by
  induction l generalizing b with
  | nil => exact .refl _ _
  | cons a t ih => exact (h b a).trans (ih _)

/-- Same controllers, and events that are no lifecycle callbacks of controllers. -/
theorem Falls.same {n : Name} {a b : CM} (hc : b.ctls = a.ctls) (ht : stopRefused n b.rm.tr = stopRefused n a.rm.tr) : Falls n a b := by
  have e : b.lcOf n = a.lcOf n := by unfold CM.lcOf CM.find; rw [hc]
  exact ⟨fun h => ⟨e ▸ h, fun r => by rw [ht]; exact r⟩, fun c h => ⟨c, hc ▸ h, rfl⟩⟩

theorem Falls.modify (k : Name) (cm : CM) (n : Name) (f : Ctl → Ctl) (hn : ∀ c, (f c).name = c.name) (hl : ∀ c, (f c).lc = .active → c.lc = .active)
    (hf : ∀ c, (f c).fallbacks = c.fallbacks) : Falls k cm (cm.modify n f) := by
  refine ⟨fun h => ⟨?_, id⟩, fun c hc => ?_⟩
  · unfold CM.lcOf at h ⊢
    rw [find_modify _ _ _ _ hn] at h
    split at h
    · rename_i e; subst e
      cases hx : cm.find k with
      | none => rw [hx] at h; simp at h
      | some c => rw [hx] at h; simp at h; simp [hl c h]
    · exact h
  · unfold CM.modify at hc
    simp only [List.mem_map] at hc
    obtain ⟨d, hd, e⟩ := hc
    refine ⟨d, hd, ?_⟩
    rw [← e]; split
    · exact (hf d).symm
    · rfl

theorem Falls.release (k : Name) (cm : CM) (n : Name) : Falls k cm (cm.releaseItfs n) := by
  unfold releaseItfs; split
  · exact .refl _ _
  · rename_i c hc
    refine Falls.trans (b := { cm with rm := c.held.foldl RM.release cm.rm }) (Falls.same rfl ?_) ?_
    · simp only; rw [RM.foldl_release]
    · exact Falls.modify k _ n (fun c => { c with held := [] }) (by intro _; rfl) (by intro _ h; exact h) (by intro _; rfl)

/-- A transition other than activation makes nobody active. -/
theorem Falls.trigger (o : Oracle) (k : Name) (cm : CM) (n : Name) (cb : CtlCb) (hcb : cb ≠ .activate) : Falls k cm (cm.trigger o n cb) := by
  refine ⟨fun h => ?_, ?_⟩
  · by_cases hleg : ∃ c, cm.find n = some c ∧ cb.legal c.lc = true
    swap
    · have : cm.trigger o n cb = cm := by
        unfold CM.trigger
        split
        · rfl
        · rename_i c hc
          split
          · rename_i hl; exact absurd ⟨c, hc, hl⟩ hleg
          · rfl
      rw [this] at h ⊢; exact ⟨h, id⟩
    obtain ⟨c, hc, hl⟩ := hleg
    have hk : cm.abs.k n = some c.core := by rw [abs_k, hc]; rfl
    obtain ⟨es, lc', hev, hcase⟩ := Sys.trigger_spec o cb hk hl
    have e := abs_trigger o cm n cb
    have ht : (cm.trigger o n cb).rm.tr = es ++ cm.rm.tr := by
      have : (cm.trigger o n cb).abs.rm.tr = es ++ cm.rm.tr := by
        rw [e]; rcases hcase with ⟨_, _, e⟩ | e <;> rw [e] <;> rfl
      exact this
    by_cases hkn : k = n
    · subst hkn
      have hlc := lcOf_trigger o hc cb hl
      rw [h] at hlc
      have h2 : (cm.trigger o k cb).abs.k k = some { c.core with lc := lc' } ∨ (cm.trigger o k cb).abs.k k = some { c.core with lc := lc', held := [] } := by
        rw [e]; rcases hcase with ⟨_, _, e⟩ | e <;> rw [e] <;> simp [Sys.set]
      have h3 : lc' = .active := by
        rw [abs_k] at h2
        unfold CM.lcOf at h
        cases hx : (cm.trigger o k cb).find k with
        | none => rw [hx] at h; simp at h
        | some d =>
          rw [hx] at h h2; simp at h
          rcases h2 with h2 | h2
          · have : d.core.lc = lc' := by simp at h2; rw [h2]
            rw [← this]; exact h
          · have : d.core.lc = lc' := by simp at h2; rw [h2]
            rw [← this]; exact h
      rw [ht]
      unfold CM.lcOf; rw [hc]
      cases hev with
      | success => cases cb <;> simp [CtlCb.onSuccess] at h3 hcb
      | failure =>
        cases cb <;> simp [CtlCb.onFailure] at h3
        have : c.lc = .active := by revert hl; cases c.lc <;> simp [CtlCb.legal]
        refine ⟨by simp [this], fun _ => by simp [stopRefused]⟩
      | error a x ha => split at h3 <;> simp at h3
    · have hf := find_of_others (others_trigger o cm n cb) hkn
      unfold CM.lcOf at h ⊢
      rw [hf] at h
      refine ⟨h, fun r => ?_⟩
      rw [ht, Sys.stopRefused_append_other]
      · exact r
      · intro x hx
        cases hev <;> simp at hx <;> (try subst hx) <;> simp [Ev.ctlName] <;> first | exact fun x => hkn x.symm | (rcases hx with hx | hx <;> subst hx <;> simp <;> exact fun x => hkn x.symm)
  · intro c hc
    have hs := (Same.trigger o cm n cb).stat
    have : c.stat ∈ cm.ctls.map Ctl.stat := by rw [← hs]; exact List.mem_map_of_mem hc
    obtain ⟨d, hd, e⟩ := List.mem_map.1 this
    refine ⟨d, hd, ?_⟩
    have : d.stat.fallbacks = c.stat.fallbacks := by rw [e]
    exact this

theorem fb_of_stat {a b : CM} (h : b.ctls.map Ctl.stat = a.ctls.map Ctl.stat) : ∀ c ∈ b.ctls, ∃ d ∈ a.ctls, d.fallbacks = c.fallbacks := by
  intro c hc
  have : c.stat ∈ a.ctls.map Ctl.stat := by rw [← h]; exact List.mem_map_of_mem hc
  obtain ⟨d, hd, e⟩ := List.mem_map.1 this
  refine ⟨d, hd, ?_⟩
  have : d.stat.fallbacks = c.stat.fallbacks := by rw [e]
  exact this

theorem Falls.setChained (o : Oracle) (k : Name) (cm : CM) (n : Name) (v : Bool) : Falls k cm (cm.setChained o n v) := by
  unfold CM.setChained
  split
  · exact .refl _ _
  split
  swap
  · exact .refl _ _
  extract_lets a cm1
  have h1 : Falls k cm cm1 := Falls.same rfl rfl
  split
  · exact h1.trans (Falls.modify k cm1 n _ (by intro _; rfl) (by intro _ h; exact h) (by intro _; rfl))
  · exact h1

theorem Falls.exportsTry (k : Name) (cm : CM) (n : Name) : Falls k cm (cm.exportsUnavailableTry n) := by
  unfold exportsUnavailableTry RM.referenceUnavailable RM.exportedStateUnavailable
  simp only
  (repeat' split) <;> exact Falls.same rfl rfl

theorem Falls.exportsAvailable (k : Name) (cm : CM) (n : Name) : Falls k cm (cm.exportsAvailable n) := by
  refine Falls.same rfl ?_
  unfold CM.exportsAvailable RM.referenceAvailable RM.exportedStateAvailable
  simp only
  (repeat' split) <;> rfl

theorem Falls.exportsUnavailable (k : Name) (cm : CM) (n : Name) : Falls k cm (cm.exportsUnavailable n) := by
  refine Falls.same rfl ?_
  unfold CM.exportsUnavailable RM.referenceUnavailable RM.exportedStateUnavailable
  simp only
  (repeat' split) <;> rfl

theorem Falls.deactivateOne (o : Oracle) (k : Name) (cm : CM) (n : Name) : Falls k cm (cm.deactivateOne o n) := by
  unfold CM.deactivateOne
  split
  · exact .refl _ _
  split
  swap
  · exact .refl _ _
  extract_lets cm1
  have h1 : Falls k cm cm1 := (Falls.trigger o k cm n .deactivate (by decide)).trans (Falls.release k _ n)
  split
  · exact h1.trans ((Falls.setChained o k cm1 n false).trans (Falls.exportsTry k _ n))
  · exact h1

theorem Falls.deactivateAll (o : Oracle) (k : Name) (cm : CM) (l : List Name) : Falls k cm (cm.deactivateAll o l) :=
  Falls.foldl id (CM.deactivateOne o) l cm (fun b a => Falls.deactivateOne o k b a)

/-- A controller `deactivate_controllers` was asked to stop is stopped, unless its `on_deactivate` answered FAILURE. -/
theorem deactivateOne_stops (o : Oracle) (cm : CM) (n : Name) (h : (cm.deactivateOne o n).lcOf n = some .active) :
    stopRefused n (cm.deactivateOne o n).rm.tr = true := by
  unfold CM.deactivateOne at h ⊢
  cases hc : cm.find n with
  | none => simp only [hc] at h; simp [CM.lcOf, hc] at h
  | some c =>
    simp only [hc] at h ⊢
    by_cases hl : c.lc = .active
    swap
    · rw [if_neg hl] at h; simp [CM.lcOf, hc, hl] at h
    rw [if_pos hl] at h ⊢
    have key : ∀ x : CM, Falls n (cm.trigger o n .deactivate) x → x.lcOf n = some .active → stopRefused n x.rm.tr = true := by
      intro x hx h
      obtain ⟨h1, h2⟩ := hx.1 h
      apply h2
      have e := lcOf_trigger o hc .deactivate (by rw [hl]; rfl)
      rw [h1] at e
      have hr : o.ctlCb cm.rm.tr n .deactivate = .failure := by
        cases ha : o.ctlCb cm.rm.tr n .deactivate <;> simp only [ha] at e <;> simp [CtlCb.onSuccess] at e
        · rfl
        · split at e <;> simp at e
        · split at e <;> simp at e
      unfold CM.trigger
      rw [hc]
      simp only
      rw [if_pos (by rw [hl]; rfl)]
      simp only [hr]
      simp [CM.modify, CM.push, stopRefused]
    split at h
    · rename_i g; rw [if_pos g]
      exact key _ ((Falls.release n _ n).trans ((Falls.setChained o n _ n false).trans (Falls.exportsTry n _ n))) h
    · rename_i g; rw [if_neg g]
      exact key _ (Falls.release n _ n) h

theorem deactivateAll_stops (o : Oracle) (l : List Name) : ∀ (cm : CM) (n : Name), n ∈ l →
    (cm.deactivateAll o l).lcOf n = some .active → stopRefused n (cm.deactivateAll o l).rm.tr = true := by
  induction l with
  | nil => intro cm n h; simp at h
  | cons m t ih =>
    intro cm n hn h
    have e : cm.deactivateAll o (m :: t) = (cm.deactivateOne o m).deactivateAll o t := rfl
    rw [e] at h ⊢
    by_cases ht : n ∈ t
    · exact ih _ n ht h
    · have : n = m := by simpa [ht] using hn
      subst this
      obtain ⟨h1, h2⟩ := (Falls.deactivateAll o n (cm.deactivateOne o n) t).1 h
      exact h2 (deactivateOne_stops o cm n h1)

theorem Falls.switchChained (o : Oracle) (k : Name) (cm : CM) (l : List Name) (v : Bool) : Falls k cm (cm.switchChained o l v) := by
  refine Falls.foldl id _ l cm (fun b a => ?_)
  simp only [id]
  split
  · exact .refl _ _
  · split
    · exact Falls.setChained o k _ _ _
    · exact .refl _ _

theorem Falls.hw {k : Name} (cm : CM) {rm : RM} (h : RM.RmStep cm.rm rm) : Falls k cm { cm with rm := rm } := by
  refine Falls.same rfl ?_
  obtain ⟨es, e, he⟩ := h.ext
  simp only [e]
  exact Sys.stopRefused_append_other (fun x hx => by rw [ctlName_of_hw (he x hx)]; simp)

theorem Falls.prepareAndPerform (o : Oracle) (k : Name) (cm : CM) (a b : List Itf) (I : cm.rm.Inv) : Falls k cm (cm.prepareAndPerform o a b) := by
  unfold CM.prepareAndPerform
  have h1 := RM.rmStep_prepareSwitch o I a b
  split
  · rename_i rm1 e
    rw [e] at h1
    exact Falls.hw cm (h1.trans (RM.rmStep_performSwitch o h1.inv a b))
  · rename_i rm1 e
    rw [e] at h1
    exact Falls.hw cm h1

theorem Falls.modeChange (o : Oracle) (k : Name) (cm : CM) (a b : List Name) (I : cm.rm.Inv) : Falls k cm (cm.modeChange o a b) := by
  unfold CM.modeChange
  simp only
  split
  · exact .refl _ _
  · exact Falls.prepareAndPerform o k cm _ _ I

theorem Falls.cleanupExports (k : Name) (cm : CM) (n : Name) : Falls k cm (cm.cleanupExports n) := by
  unfold CM.cleanupExports
  split
  · exact .refl _ _
  · split
    · refine Falls.same rfl ?_
      obtain ⟨sk, es, fl, e1⟩ := Sys.removeExportedState_eq cm.rm n
      simp only [e1]
      obtain ⟨er, cl, fl2, e2, _, _⟩ := Sys.removeReference_eq { cm.rm with stateKeys := sk, expS := es, fault := fl } n
      rw [e2]
    · exact .refl _ _

theorem Falls.cleanupSpec (o : Oracle) (k : Name) (cm : CM) (n : Name) : Falls k cm (cm.cleanupSpec o n).1 :=
  (Falls.cleanupExports k cm n).trans (Falls.trigger o k _ n .cleanup (by decide))

theorem Falls.cleanup (o : Oracle) (k : Name) (cm : CM) (n : Name) : Falls k cm (cm.cleanup o n).1 := by
  unfold CM.cleanup
  split
  · exact .refl _ _
  split
  · exact .refl _ _
  split <;> first | exact .refl _ _ | exact Falls.cleanupSpec o k cm n

theorem Falls.unload (o : Oracle) (k : Name) (cm : CM) (n : Name) : Falls k cm (cm.unload o n).1 := by
  unfold CM.unload
  split
  · exact .refl _ _
  split
  · exact .refl _ _
  split
  · exact .refl _ _
  extract_lets r cm1 cm2
  have h : Falls k cm r.1 := Falls.cleanup o k cm n
  split
  · exact h
  · have h1 : Falls k cm cm1 := (h.trans (b := r.1) (Falls.same rfl rfl) : Falls k cm (r.1.chainCleanup n)).trans (Falls.trigger o k _ n .shutdown (by decide))
    have h2 : Falls k cm cm2 := h1.trans (Falls.release k _ n)
    refine h2.trans ⟨fun h => ?_, fun c hc => ⟨c, (List.mem_filter.1 hc).1, rfl⟩⟩
    refine ⟨?_, id⟩
    by_cases hk : k = n
    · subst hk
      unfold CM.lcOf CM.find at h
      cases hx : (cm2.ctls.filter (fun c => c.name ≠ k)).find? (fun c => c.name = k) with
      | none => simp only [hx] at h; simp at h
      | some d =>
        have a := List.find?_some hx
        have b := List.mem_of_find?_eq_some hx
        simp at a b; exact absurd a b.2
    · have : ({ cm2 with ctls := cm2.ctls.filter (fun c => c.name ≠ n) } : CM).find k = cm2.find k := by
        refine find_of_others (n := n) ?_ hk
        unfold others; simp
      unfold CM.lcOf at h ⊢
      rw [this] at h; exact h

theorem Falls.topology (k : Name) (cm : CM) : Falls k cm cm.topology := by
  unfold CM.topology
  refine Falls.trans (b := { cm with foll := fun _ => [], prec := fun _ => [], refCache := fun _ => [], stateCache := fun _ => [] })
    (Falls.same rfl rfl) (Falls.foldl id topoOne _ _ (fun b c => ?_))
  simp only [id]
  unfold topoOne
  split
  · exact .refl _ _
  · refine (Falls.foldl id (topoCmd c.name) _ b (fun b i => ?_)).trans (Falls.foldl id (topoState c.name) _ _ (fun b i => ?_))
    · simp only [id]; unfold topoCmd; split <;> exact Falls.same rfl rfl
    · simp only [id]; unfold topoState; split <;> exact Falls.same rfl rfl

theorem Falls.reorder (k : Name) (cm : CM) (ord : List Name) : Falls k cm (cm.reorder ord) := by
  have mem : ∀ c ∈ (cm.reorder ord).ctls, ∃ d, cm.find c.name = some d ∧ d.fallbacks = c.fallbacks ∧ d.lc = c.lc := by
    intro c hc
    unfold CM.reorder at hc
    simp only [List.mem_map, List.mem_filterMap] at hc
    obtain ⟨d, ⟨m, _, hd⟩, e⟩ := hc
    have hm : d.name = m := by
      unfold CM.find at hd; simpa using List.find?_some hd
    subst hm
    split at e <;> (subst e; exact ⟨d, hd, rfl, rfl⟩)
  refine ⟨fun h => ⟨?_, id⟩, fun c hc => ?_⟩
  · unfold CM.lcOf at h
    cases hx : (cm.reorder ord).find k with
    | none => rw [hx] at h; simp at h
    | some d =>
      rw [hx] at h; simp at h
      have hm : d ∈ (cm.reorder ord).ctls := by unfold CM.find at hx; exact List.mem_of_find?_eq_some hx
      have hn : d.name = k := by unfold CM.find at hx; simpa using List.find?_some hx
      obtain ⟨e, he, _, hl⟩ := mem d hm
      rw [hn] at he
      unfold CM.lcOf; rw [he]; simp [hl, h]
  · obtain ⟨d, hd, hf, _⟩ := mem c hc
    exact ⟨d, by unfold CM.find at hd; exact List.mem_of_find?_eq_some hd, hf⟩

theorem Falls.importR (k : Name) (cm : CM) (n : Name) (rs ss : List Itf) :
    Falls k cm { cm with rm := (cm.rm.importReference n rs).1.importExportedState n ss } ∧
    Falls k cm { cm with rm := (cm.rm.importReference n rs).1 } :=
  ⟨Falls.same rfl (by simp only; rw [Sys.importExportedState_tr, Sys.importReference_tr]),
   Falls.same rfl (by simp only; rw [Sys.importReference_tr])⟩

theorem Falls.configure (o : Oracle) (k : Name) (cm : CM) (n : Name) (cfg : CtlCfg) (ord : List Name) (r : Bool) :
    Falls k cm (cm.configure o n cfg ord r).1 := by
  unfold CM.configure
  split
  · exact .refl _ _
  split
  · exact .refl _ _
  split
  · exact .refl _ _
  extract_lets r0 cm1 cm2 ex
  have h0 : Falls k cm r0.1 := by
    simp only [r0]; split
    · exact Falls.cleanupSpec o k cm n
    · exact .refl _ _
  have h1 : Falls k cm cm1 := h0.trans ((Falls.cleanupExports k r0.1 n).trans
    (Falls.modify k _ n _ (by intro _; rfl) (by intro _ h; exact h) (by intro _; rfl)))
  have h2 : Falls k cm cm2 := by
    simp only [cm2]; split
    · exact h1.trans (Falls.trigger o k _ _ _ (by decide))
    · exact h1
  have h3 : Falls k cm ex.1 := by
    simp only [ex]
    split
    · split
      · exact h2.trans (Falls.cleanupSpec o k _ _)
      · rename_i ss rs _
        split
        · exact h2.trans (Falls.cleanupSpec o k _ _)
        · have hi := Falls.importR k cm2 n rs ss
          split
          · rename_i rm1 e
            rw [e] at hi
            exact h2.trans (hi.2.trans (Falls.same rfl rfl))
          · rename_i rm1 e
            rw [e] at hi
            exact h2.trans (hi.1.trans ((Falls.setChained o k _ n false).trans (Falls.exportsUnavailable k _ n)))
    · exact h2
  clear_value r0 cm2 ex
  split
  · exact h0
  split
  · exact h2
  split
  · exact h3
  split
  · exact h3
  split
  · exact h3.trans (Falls.cleanupSpec o k _ _)
  · exact h3.trans ((Falls.topology k _).trans (Falls.reorder k _ ord))

theorem Falls.shutdownAll (o : Oracle) (k : Name) (cm : CM) : Falls k cm (cm.shutdownAll o).1 := by
  unfold CM.shutdownAll
  refine Falls.foldl id (shutdownOne o) (cm.ctls.map (·.name)) cm (fun b a => ?_)
  simp only [id]
  unfold shutdownOne
  extract_lets cm1
  have f1 : Falls k b cm1 := by
    simp only [cm1]; split
    · exact (Falls.trigger o k b a .deactivate (by decide)).trans (Falls.release k _ a)
    · exact .refl _ _
  clear_value cm1
  split
  · exact f1.trans (Falls.trigger o k _ a .shutdown (by decide))
  · exact f1

/-! ## Who becomes active -/

/-- A controller active in `b` was active in `a` or is in `A`. -/
def Rise (A : Name → Prop) (a b : CM) : Prop := ∀ n, b.lcOf n = some .active → a.lcOf n = some .active ∨ A n

theorem Rise.refl (A) (a : CM) : Rise A a a := fun _ h => .inl h

theorem Rise.trans {A} {a b c : CM} (h : Rise A a b) (k : Rise A b c) : Rise A a c := by
  intro n hn
  rcases k n hn with hb | hb
  · exact h n hb
  · exact .inr hb

theorem Rise.mono {A B : Name → Prop} {a b : CM} (h : Rise A a b) (k : ∀ n, A n → B n) : Rise B a b :=
  fun n hn => (h n hn).imp id (k n)

theorem Falls.rise {A} {a b : CM} (h : ∀ n, Falls n a b) : Rise A a b := fun n hn => .inl ((h n).1 hn).1

theorem lcOf_of_k {a b : CM} {n : Name} (h : b.abs.k n = a.abs.k n) : b.lcOf n = a.lcOf n := by
  rw [abs_k, abs_k] at h
  unfold CM.lcOf
  cases hb : b.find n <;> cases ha : a.find n <;> rw [hb, ha] at h <;> simp at h ⊢
  rename_i x y
  have : x.core.lc = y.core.lc := by rw [h]
  exact this

theorem Fwd.rise {o T} {a b : CM} (h : Fwd o T a b) : Rise T a b := by
  intro n hn
  by_cases hT : T n
  · exact .inr hT
  · rw [lcOf_of_k (h.steps.frame hT)] at hn; exact .inl hn

theorem Rise.manageSwitch (o : Oracle) (cm : CM) (I : cm.abs.Inv) : Rise (· ∈ cm.sw.act) cm (cm.manageSwitch o) := by
  have s1 := RM.rmStep_performSwitch o I.claims.rm cm.sw.actItf cm.sw.deactItf
  rw [show cm.abs.rm = cm.rm from rfl] at s1
  unfold CM.manageSwitch
  split
  · exact fun n h => .inl h
  · rename_i rm1 h
    rw [h] at s1
    have f1 : Fwd o (Sw.names cm.sw) cm { cm with rm := rm1 } := Fwd.rm cm s1
    have f2 := f1.trans (Fwd.deactivateAll o _ cm.sw.deact (fun n hn => .inl hn) (f1.inv I))
    have f3 := f2.trans (Fwd.switchChained o _ cm.sw.toCh true (fun n hn => .inr (.inr (.inl hn))) (f2.inv I))
    have f4 := f3.trans (Fwd.switchChained o _ cm.sw.fromCh false (fun n hn => .inr (.inr (.inr hn))) (f3.inv I))
    have f5 := Fwd.activateAll o (T := (· ∈ cm.sw.act)) _ cm.sw.act cm.sw.strict (fun n hn => hn) (f4.inv I)
    have r1 : Rise (· ∈ cm.sw.act) cm (((({ cm with rm := rm1 } : CM).deactivateAll o cm.sw.deact).switchChained o cm.sw.toCh true).switchChained o cm.sw.fromCh false) :=
      Falls.rise (fun n => (((Falls.hw cm s1).trans (Falls.deactivateAll o n _ _)).trans (Falls.switchChained o n _ _ _)).trans (Falls.switchChained o n _ _ _))
    have r2 := r1.trans f5.rise
    exact fun n hn => r2 n hn

theorem Rise.handleFailed (o : Oracle) (cm : CM) (l : List Name) (I : cm.abs.Inv) :
    Rise (· ∈ (cm.fallbackPlan l).1) cm (cm.handleFailed o l) := by
  unfold CM.handleFailed
  split
  · exact .refl _ _
  · rename_i hne
    simp only
    have f1 := Fwd.modeChange o Anybody cm (cm.fallbackPlan l).1 (addItems l (cm.fallbackPlan l).2) I
    have f2 := f1.trans (Fwd.deactivateAll o (T := Anybody) _ (addItems l (cm.fallbackPlan l).2) (fun n hn => trivial) (f1.inv I))
    have r1 : Rise (· ∈ (cm.fallbackPlan l).1) cm _ := Falls.rise (fun n =>
      (Falls.modeChange o n cm (cm.fallbackPlan l).1 (addItems l (cm.fallbackPlan l).2) I.claims.rm).trans
        (Falls.deactivateAll o n _ (addItems l (cm.fallbackPlan l).2)))
    split
    · exact r1
    · exact r1.trans (Fwd.activateAll o _ _ .strict (fun n hn => hn) (f2.inv I)).rise

/-- Fallback controllers come from the lists given when the controllers were loaded. -/
theorem fallbackPlan_mem (cm : CM) (l : List Name) : ∀ n ∈ (cm.fallbackPlan l).1, ∃ c ∈ cm.ctls, n ∈ c.fallbacks := by
  unfold CM.fallbackPlan
  refine foldl_inv (fun acc : List Name × List Name => ∀ n ∈ acc.1, ∃ c ∈ cm.ctls, n ∈ c.fallbacks) _ _ _ (by simp) ?_
  intro acc m _ h
  split
  · exact h
  · rename_i c hc
    have hm : c ∈ cm.ctls := by unfold CM.find at hc; exact List.mem_of_find?_eq_some hc
    refine foldl_inv (fun acc : List Name × List Name => ∀ n ∈ acc.1, ∃ c ∈ cm.ctls, n ∈ c.fallbacks) _ _ _ h ?_
    intro acc f hf h n hn
    rcases mem_addItem.1 hn with hn | hn
    · exact h n hn
    · subst hn; exact ⟨c, hm, hf⟩

/-- Somebody has `n` as a fallback. -/
def IsFallback (cm : CM) (n : Name) : Prop := ∃ c ∈ cm.ctls, n ∈ c.fallbacks

theorem Rise.rtUpdate (o : Oracle) (due : Name → Bool) (lock : Bool) (cm : CM) (I : Inv cm) :
    Rise (fun n => n ∈ cm.sw.act ∨ cm.IsFallback n) cm (cm.rtUpdate o due lock).1 := by
  unfold CM.rtUpdate
  extract_lets r cm1 _ cm2
  have f1 : Fwd o Anybody cm r.1 := Fwd.updateLoop o _ due _ _ _ _
    (fun c hc => (find_iff I.topo.names).2 ⟨hc, rfl⟩)
  have hp : PushOnly cm r.1 := updateLoop_push o due _ _ _ _
  have f2 : Fwd o Anybody cm cm1 := f1.trans (Fwd.handleFailed o _ _ (f1.inv I.sys)).any
  have e1 : r.1.ctls = cm.ctls ∧ r.1.sw = cm.sw := by obtain ⟨es, e⟩ := hp; rw [e]; exact ⟨rfl, rfl⟩
  have r1 : Rise (fun n => n ∈ cm.sw.act ∨ cm.IsFallback n) cm r.1 := by
    intro n hn; left
    unfold CM.lcOf CM.find at hn ⊢
    rw [e1.1] at hn; exact hn
  have r2 : Rise (fun n => n ∈ cm.sw.act ∨ cm.IsFallback n) cm cm1 := r1.trans ((Rise.handleFailed o r.1 r.2.1 (f1.inv I.sys)).mono (fun n hn => by
    obtain ⟨c, hc, h⟩ := fallbackPlan_mem _ _ n hn
    exact .inr ⟨c, e1.1 ▸ hc, h⟩))
  have hk : cm1.sw = cm.sw := (Keeps.handleFailed o r.1 r.2.1).1.trans e1.2
  clear_value cm1
  simp only [cm2]
  split
  · split
    · split
      · exact r2.trans ((Rise.manageSwitch o cm1 (f2.inv I.sys)).mono (fun n hn => .inl (hk ▸ hn)))
      · exact r2
    · exact fun n hn => r2 n hn
  · exact r2

end CM
end Verif
