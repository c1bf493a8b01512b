import Verif.CM.SysSteps
/-!
# Every operation is a sequence of elementary steps
-/
namespace Verif

/-- The part of a controller that only `load` and `configure` write. -/
def Ctl.stat (c : Ctl) : Ctl :=
  { c with lc := .unknown, held := [], chained := false, claimedInfo := [], skipAsync := false }

namespace CM

/-- Validation steps: only the request, the available lists, the hardware usage cache and the fault flag
change. -/
def Quiet (cm cm' : CM) : Prop :=
  ∃ aS aC u f sw, cm' = { cm with rm := { cm.rm with availS := aS, availC := aC, usedBy := u, fault := f }, sw := sw } ∧
    (cm.rm.Inv → cm'.rm.Inv) ∧ (cm.rm.fault = true → f = true) ∧ ∀ h, cm.rm.usedBy h ⊆ u h

theorem Quiet.refl (cm : CM) : Quiet cm cm := ⟨_, _, _, _, _, rfl, id, id, fun _ => List.Subset.refl _⟩

theorem Quiet.trans {a b c : CM} (h : Quiet a b) (k : Quiet b c) : Quiet a c := by
  obtain ⟨aS, aC, u, f, sw, rfl, h1, h2, h3⟩ := h
  obtain ⟨aS', aC', u', f', sw', rfl, k1, k2, k3⟩ := k
  exact ⟨_, _, _, _, _, rfl, fun I => k1 (h1 I), fun x => k2 (h2 x), fun x => List.Subset.trans (h3 x) (k3 x)⟩

theorem Quiet.sw (cm : CM) (sw : Sw) : Quiet cm { cm with sw := sw } := ⟨_, _, _, _, _, rfl, id, id, fun _ => List.Subset.refl _⟩

theorem Quiet.rmExpS (cm : CM) (n : Name) : Quiet cm { cm with rm := cm.rm.exportedStateAvailable n } := by
  have e : ∃ aS f, cm.rm.exportedStateAvailable n = { cm.rm with availS := aS, fault := f } ∧ (cm.rm.fault = true → f = true) := by
    unfold RM.exportedStateAvailable; split
    · exact ⟨_, _, rfl, id⟩
    · exact ⟨_, _, rfl, fun _ => rfl⟩
  obtain ⟨aS, f, e, hf⟩ := e
  exact ⟨aS, cm.rm.availC, cm.rm.usedBy, f, cm.sw, by rw [e], fun I => RM.inv_exportedStateAvailable I n, hf, fun _ => List.Subset.refl _⟩

theorem Quiet.rmRef (cm : CM) (n : Name) : Quiet cm { cm with rm := cm.rm.referenceAvailable n } := by
  have e : ∃ aC f, cm.rm.referenceAvailable n = { cm.rm with availC := aC, fault := f } ∧ (cm.rm.fault = true → f = true) := by
    unfold RM.referenceAvailable; split
    · exact ⟨_, _, rfl, id⟩
    · exact ⟨_, _, rfl, fun _ => rfl⟩
  obtain ⟨aC, f, e, hf⟩ := e
  exact ⟨cm.rm.availS, aC, cm.rm.usedBy, f, cm.sw, by rw [e], fun I => RM.inv_referenceAvailable I n, hf, fun _ => List.Subset.refl _⟩

theorem Quiet.cache (cm : CM) (n : Name) (is : List Itf) : Quiet cm { cm with rm := cm.rm.cacheController n is } := by
  obtain ⟨u, e⟩ := RM.cacheController_eq cm.rm n is
  have hu := RM.cacheController_used cm.rm n is
  rw [e] at hu
  exact ⟨cm.rm.availS, cm.rm.availC, u, cm.rm.fault, cm.sw, by rw [e], fun I => RM.inv_cacheController I n is, id, hu⟩

theorem Quiet.faulted (cm : CM) : Quiet cm cm.faulted :=
  ⟨cm.rm.availS, cm.rm.availC, cm.rm.usedBy, true, cm.sw, rfl, fun I => RM.inv_fault I true, fun _ => rfl, fun _ => List.Subset.refl _⟩

theorem Quiet.clear (cm : CM) : Quiet cm cm.clear := Quiet.sw cm _

theorem Quiet.propagate (cm : CM) (l : List Ctl) : Quiet cm (cm.propagate l) := by
  induction l generalizing cm with
  | nil => exact .refl cm
  | cons c t ih =>
    unfold CM.propagate
    split
    · split
      · exact .refl cm
      · exact (Quiet.sw cm _).trans (ih _)
    · exact ih _

theorem quiet_foldl {α β : Type} (g : β → CM) (f : β → α → β) (l : List α) (b : β)
    (h : ∀ b a, a ∈ l → Quiet (g b) (g (f b a))) : Quiet (g b) (g (l.foldl f b)) := by
  induction l generalizing b with
  | nil => exact .refl _
  | cons a t ih =>
    simp only [List.foldl_cons]
    exact (h b a (by simp)).trans (ih _ (fun b c hc => h b c (by simp [hc])))

theorem Quiet.checkFollowing (fuel : Nat) : ∀ (cm : CM) (c : Ctl), Quiet cm (cm.checkFollowing fuel c).1 := by
  induction fuel with
  | zero => intro cm c; exact Quiet.faulted cm
  | succ fuel ih =>
    intro cm c
    unfold CM.checkFollowing
    apply quiet_foldl (g := fun b : CM × Bool => b.1) (b := (cm, true))
    intro acc i _
    simp only
    split
    · exact .refl _
    split
    · exact .refl _
    rename_i f _
    split
    · exact .refl _
    split
    · split <;> exact .refl _
    split
    · exact .refl _
    have hr := ih acc.1 f
    split
    · exact hr
    split
    · split
      · exact hr
      · split
        · exact hr.trans ((Quiet.rmExpS _ _).trans ((Quiet.rmRef { (acc.1.checkFollowing fuel f).1 with
            rm := (acc.1.checkFollowing fuel f).1.rm.exportedStateAvailable f.name } _).trans (Quiet.sw _ _)))
        · exact hr.trans (Quiet.rmExpS _ _)
    · exact hr.trans (Quiet.sw _ _)

theorem Quiet.checkFallback (cm : CM) (c : Ctl) : Quiet cm (cm.checkFallback c).1 := by
  unfold CM.checkFallback
  split
  · exact .refl _
  · exact .refl _
  · exact .faulted _

theorem Quiet.checkActivate (cm : CM) (n : Name) : Quiet cm (cm.checkActivate n).1 := by
  unfold CM.checkActivate
  split
  · exact .refl _
  · rename_i c _
    cases c.lc <;> simp only <;> try exact .refl _
    · split
      · exact (Quiet.checkFollowing _ cm c).trans (Quiet.checkFallback _ c)
      · exact Quiet.checkFollowing _ cm c
    · split
      · exact Quiet.checkFallback _ c
      · exact .refl _

theorem Quiet.actLoop (s : Strictness) (l : List Name) : ∀ (kept : List Name) (cm : CM),
    Quiet cm (CM.actLoop s l kept cm).1 := by
  induction l with
  | nil => intro kept cm; exact .refl cm
  | cons n t ih =>
    intro kept cm
    unfold CM.actLoop
    simp only
    split
    · exact (Quiet.checkActivate cm n).trans (ih _ _)
    · cases s
      · exact Quiet.checkActivate cm n
      · exact (Quiet.checkActivate cm n).trans ((Quiet.sw _ _).trans (ih _ _))
      · exact (Quiet.checkActivate cm n).trans (ih _ _)

theorem Quiet.deactLoop (s : Strictness) (l : List Name) : ∀ (kept : List Name) (cm : CM),
    Quiet cm (CM.deactLoop s l kept cm).1 := by
  induction l with
  | nil => intro kept cm; exact .refl cm
  | cons n t ih =>
    intro kept cm
    unfold CM.deactLoop
    extract_lets ok
    split
    · exact ih _ _
    · cases s
      · exact .refl _
      · exact (Quiet.sw cm _).trans (ih _ _)
      · exact ih _ _

theorem quiet_rm_sw (cm : CM) (sw : Sw) (n : Name) (is : List Itf) :
    Quiet cm { cm with rm := cm.rm.cacheController n is, sw := sw } := (Quiet.cache cm n is).trans (Quiet.sw _ _)

theorem Quiet.conflictOne {s : Strictness} {cm cm' : CM} {c : Ctl} (h : cm.conflictOne s c = some cm') : Quiet cm cm' := by
  unfold CM.conflictOne at h
  extract_lets n restart deact1 act1 inDeact inAct doubleStop deact2 inDeact2 dblAct act2 inAct2 illegal act3 inAct3 at h
  clear_value inAct3 inDeact2 illegal dblAct doubleStop
  split at h
  · simp at h
  split at h
  · simp at h
  split at h
  · simp at h
  simp only [Option.some.injEq] at h
  rw [← h]
  split
  · exact quiet_rm_sw cm _ _ _
  · exact Quiet.sw _ _

theorem Quiet.conflictLoop (s : Strictness) (l : List Ctl) : ∀ cm : CM, Quiet cm (CM.conflictLoop s l cm).1 := by
  induction l with
  | nil => intro cm; exact .refl cm
  | cons c t ih =>
    intro cm
    unfold CM.conflictLoop
    split
    · exact Quiet.sw _ _
    · rename_i cm' h
      exact (Quiet.conflictOne h).trans (ih cm')

/-! ## Forward relation -/

/-- `cm'` results from `cm` by elementary steps touching only controllers in `T`, with the chain tables
and the static part of every controller unchanged. -/
structure Fwd (o : Oracle) (T : Name → Prop) (cm cm' : CM) : Prop where
  steps : Sys.Steps o T cm.abs cm'.abs
  stat : cm'.ctls.map Ctl.stat = cm.ctls.map Ctl.stat
  keys : cm'.chainKeys = cm.chainKeys
  foll : cm'.foll = cm.foll
  prec : cm'.prec = cm.prec
  refC : cm'.refCache = cm.refCache
  stC : cm'.stateCache = cm.stateCache

theorem Fwd.refl (o T) (cm : CM) : Fwd o T cm cm := ⟨.refl, rfl, rfl, rfl, rfl, rfl, rfl⟩

theorem Fwd.trans {o T} {a b c : CM} (h : Fwd o T a b) (k : Fwd o T b c) : Fwd o T a c :=
  ⟨Relation.ReflTransGen.trans h.steps k.steps, k.stat.trans h.stat, k.keys.trans h.keys, k.foll.trans h.foll,
   k.prec.trans h.prec, k.refC.trans h.refC, k.stC.trans h.stC⟩

theorem Fwd.mono {o T T'} {a b : CM} (h : Fwd o T a b) (hT : ∀ n, T n → T' n) : Fwd o T' a b :=
  { h with steps := h.steps.mono hT }

theorem Fwd.inv {o T} {a b : CM} (h : Fwd o T a b) (I : a.abs.Inv) : b.abs.Inv := h.steps.inv I

theorem Fwd.rm {o T} (cm : CM) {rm' : RM} (st : RM.RmStep cm.rm rm') : Fwd o T cm { cm with rm := rm' } :=
  ⟨.single (.rm (s := cm.abs) st), rfl, rfl, rfl, rfl, rfl, rfl⟩

theorem Fwd.sw (o T) (cm : CM) (sw : Sw) (p : Bool) : Fwd o T cm { cm with sw := sw, pending := p } :=
  ⟨.refl, rfl, rfl, rfl, rfl, rfl, rfl⟩

theorem Fwd.sw' (o T) (cm : CM) (sw : Sw) : Fwd o T cm { cm with sw := sw } := Fwd.sw o T cm sw cm.pending

theorem Quiet.fwd {o T} {cm cm' : CM} (h : Quiet cm cm') (I : cm.abs.Inv) : Fwd o T cm cm' := by
  obtain ⟨aS, aC, u, f, sw, rfl, h1, h2, h3⟩ := h
  have : RM.RmStep cm.rm { cm.rm with availS := aS, availC := aC, usedBy := u, fault := f } :=
    ⟨h1 I.claims.rm, rfl, rfl, rfl, rfl, rfl, ⟨[], by simp⟩, rfl, h2, h3⟩
  exact (Fwd.rm cm this).trans (Fwd.sw' o T _ sw)

theorem map_stat_modify (cm : CM) (n : Name) (f : Ctl → Ctl) (hf : ∀ c, (f c).stat = c.stat) :
    (cm.modify n f).ctls.map Ctl.stat = cm.ctls.map Ctl.stat := by
  simp only [modify, List.map_map]
  apply List.map_congr_left
  intro c _
  simp only [Function.comp]
  split
  · exact hf c
  · rfl

theorem Fwd.modifyQuiet (o T) (cm : CM) (n : Name) (f : Ctl → Ctl) (hn : ∀ c, (f c).name = c.name)
    (hk : ∀ c, (f c).core = c.core) (hs : ∀ c, (f c).stat = c.stat) : Fwd o T cm (cm.modify n f) :=
  ⟨by rw [abs_modify_core cm n f hn hk]; exact .refl, map_stat_modify cm n f hs, rfl, rfl, rfl, rfl, rfl⟩

/-- Same static part, same tables: what is left is the abstract part. -/
structure Same (cm cm' : CM) : Prop where
  stat : cm'.ctls.map Ctl.stat = cm.ctls.map Ctl.stat
  keys : cm'.chainKeys = cm.chainKeys
  foll : cm'.foll = cm.foll
  prec : cm'.prec = cm.prec
  refC : cm'.refCache = cm.refCache
  stC : cm'.stateCache = cm.stateCache

theorem Same.refl (cm : CM) : Same cm cm := ⟨rfl, rfl, rfl, rfl, rfl, rfl⟩

theorem Same.trans {a b c : CM} (h : Same a b) (k : Same b c) : Same a c :=
  ⟨k.stat.trans h.stat, k.keys.trans h.keys, k.foll.trans h.foll,
   k.prec.trans h.prec, k.refC.trans h.refC, k.stC.trans h.stC⟩

theorem Same.fwd {o T} {cm cm' : CM} (h : Same cm cm') (hs : Sys.Steps o T cm.abs cm'.abs) : Fwd o T cm cm' :=
  ⟨hs, h.stat, h.keys, h.foll, h.prec, h.refC, h.stC⟩

theorem Same.modify (cm : CM) (n : Name) (f : Ctl → Ctl) (hs : ∀ c, (f c).stat = c.stat) : Same cm (cm.modify n f) :=
  ⟨map_stat_modify cm n f hs, rfl, rfl, rfl, rfl, rfl⟩

theorem Same.rm (cm : CM) (rm : RM) : Same cm { cm with rm := rm } := ⟨rfl, rfl, rfl, rfl, rfl, rfl⟩

theorem Same.release (cm : CM) (n : Name) : Same cm (cm.releaseItfs n) := by
  unfold releaseItfs
  split
  · exact .refl cm
  · exact (Same.rm cm _).trans (Same.modify _ _ _ (by intro _; rfl))

theorem Same.trigger (o : Oracle) (cm : CM) (n : Name) (cb : CtlCb) : Same cm (cm.trigger o n cb) := by
  unfold CM.trigger
  split
  · exact .refl cm
  · split
    swap
    · exact .refl cm
    extract_lets a cm1 cm2 cm3
    have s1 : Same cm cm1 := Same.rm cm _
    have s2 : Same cm1 cm2 := by
      simp only [cm2]; split
      · exact Same.modify _ _ _ (by intro _; rfl)
      · exact .refl _
    have s3 : Same cm2 cm3 := by
      simp only [cm3]; split
      · exact Same.release _ _
      · exact .refl _
    have s := s1.trans (s2.trans s3)
    clear_value cm3 a
    split
    · exact s.trans (Same.modify _ _ _ (by intro _; rfl))
    · exact s.trans (Same.modify _ _ _ (by intro _; rfl))
    · exact s.trans ((Same.rm cm3 _).trans ((Same.release _ _).trans (Same.modify _ _ _ (by intro _; rfl))))

theorem Same.setChained (o : Oracle) (cm : CM) (n : Name) (v : Bool) : Same cm (cm.setChained o n v) := by
  unfold CM.setChained
  split
  · exact .refl cm
  · split
    · simp only
      split
      · exact (Same.rm cm _).trans (Same.modify _ _ _ (by intro _; rfl))
      · exact Same.rm cm _
    · exact .refl cm

theorem Fwd.trigger (o : Oracle) {T : Name → Prop} (cm : CM) (n : Name) (cb : CtlCb) (hT : T n)
    (hcb : cb = .configure ∨ cb = .cleanup ∨ cb = .shutdown) : Fwd o T cm (cm.trigger o n cb) :=
  (Same.trigger o cm n cb).fwd (by rw [abs_trigger]; exact .single (.trig hT hcb))

theorem Fwd.deact (o : Oracle) {T : Name → Prop} (cm : CM) (n : Name) (hT : T n) :
    Fwd o T cm ((cm.trigger o n .deactivate).releaseItfs n) :=
  ((Same.trigger o cm n .deactivate).trans (Same.release _ n)).fwd
    (by rw [abs_releaseItfs, abs_trigger]; exact .single (.deact hT))

theorem Fwd.setChained (o : Oracle) {T : Name → Prop} (cm : CM) (n : Name) (v : Bool) (hT : T n) :
    Fwd o T cm (cm.setChained o n v) :=
  (Same.setChained o cm n v).fwd (by rw [abs_setChained]; exact .single (.chain hT))

theorem Fwd.foldl {o T} {α β : Type} (g : β → CM) (f : β → α → β) (l : List α) (b : β)
    (h : ∀ b a, a ∈ l → (g b).abs.Inv → Fwd o T (g b) (g (f b a))) (I : (g b).abs.Inv) :
    Fwd o T (g b) (g (l.foldl f b)) := by
  induction l generalizing b with
  | nil => exact .refl _ _ _
  | cons a t ih =>
    simp only [List.foldl_cons]
    have h1 := h b a (by simp) I
    exact h1.trans (ih _ (fun b c hc => h b c (by simp [hc])) (h1.inv I))

theorem Fwd.exportsUnavailableTry (o T) (cm : CM) (n : Name) (I : cm.abs.Inv) :
    Fwd o T cm (cm.exportsUnavailableTry n) := by
  unfold CM.exportsUnavailableTry
  split
  · exact .refl _ _ _
  · have s1 := RM.rmStep_expSUnavail I.claims.rm n
    simp only
    split
    · exact Fwd.rm cm s1
    · exact Fwd.rm cm (s1.trans (RM.rmStep_refUnavail s1.inv n))

theorem Fwd.exportsAvailable (o T) (cm : CM) (n : Name) (I : cm.abs.Inv) : Fwd o T cm (cm.exportsAvailable n) := by
  have s1 := RM.rmStep_expSAvail I.claims.rm n
  exact Fwd.rm cm (s1.trans (RM.rmStep_refAvail s1.inv n))

theorem Fwd.exportsUnavailable (o T) (cm : CM) (n : Name) (I : cm.abs.Inv) : Fwd o T cm (cm.exportsUnavailable n) := by
  have s1 := RM.rmStep_expSUnavail I.claims.rm n
  exact Fwd.rm cm (s1.trans (RM.rmStep_refUnavail s1.inv n))

theorem Fwd.deactivateOne (o : Oracle) {T : Name → Prop} (cm : CM) (n : Name) (hT : T n) (I : cm.abs.Inv) :
    Fwd o T cm (cm.deactivateOne o n) := by
  unfold CM.deactivateOne
  split
  · exact .refl _ _ _
  · rename_i c _
    split
    swap
    · exact .refl _ _ _
    have f1 := Fwd.deact o (T := T) cm n hT
    simp only
    split
    · have f2 := f1.trans (Fwd.setChained o _ n false hT)
      exact f2.trans (Fwd.exportsUnavailableTry o T _ n (f2.inv I))
    · exact f1

theorem Fwd.deactivateAll (o : Oracle) {T : Name → Prop} (cm : CM) (l : List Name) (hT : ∀ n ∈ l, T n)
    (I : cm.abs.Inv) : Fwd o T cm (cm.deactivateAll o l) :=
  Fwd.foldl (g := id) (CM.deactivateOne o) l cm (fun b a ha hI => Fwd.deactivateOne o b a (hT a ha) hI) I

theorem Fwd.switchChained (o : Oracle) {T : Name → Prop} (cm : CM) (l : List Name) (v : Bool) (hT : ∀ n ∈ l, T n)
    (I : cm.abs.Inv) : Fwd o T cm (cm.switchChained o l v) := by
  refine Fwd.foldl (g := id) _ l cm (fun b a ha hI => ?_) I
  simp only [id]
  split
  · exact .refl _ _ _
  · split
    · exact Fwd.setChained o _ _ _ (hT a ha)
    · exact .refl _ _ _

theorem Fwd.preAvailable (o T) (cm : CM) (l : List Name) (I : cm.abs.Inv) : Fwd o T cm (cm.preAvailable l) := by
  refine Fwd.foldl (g := id) _ l cm (fun b a ha hI => ?_) I
  simp only [id]
  split
  · exact .refl _ _ _
  · split
    · exact Fwd.exportsAvailable o T _ _ hI
    · exact .refl _ _ _

/-- The activation of one controller whose interfaces have been claimed. -/
theorem Fwd.act (o : Oracle) {T : Name → Prop} (cm : CM) {n : Name} {c : Ctl} (hc : cm.find n = some c) (hT : T n)
    {loans : List Itf} {rm1 : RM} (h : claimAll cm.rm [] (cm.cmdItfs c) = (rm1, some loans)) :
    let cm3 := ((({ cm with rm := rm1 } : CM).releaseItfs n).modify n (fun c => { c with held := loans })).trigger o n .activate
    Fwd o T cm (if cm3.isActive n then cm3 else cm3.releaseItfs n) := by
  intro cm3
  have e2 : ((({ cm with rm := rm1 } : CM).releaseItfs n).modify n (fun c => { c with held := loans })).abs =
      ({ cm.abs with rm := c.core.held.foldl RM.release rm1 } : Sys).set n { c.core with held := loans } := by
    rw [abs_modify (c := { c with held := [] }) (find_releaseItfs (cm := { cm with rm := rm1 }) hc) _ (by intro _; rfl),
      abs_releaseItfs]
    have : (({ cm with rm := rm1 } : CM).abs).k n = some c.core := by rw [abs_k]; exact congrArg _ hc
    rw [Sys.release_some this, Sys.set_set]
    rfl
  have e3 : cm3.abs = (({ cm.abs with rm := c.core.held.foldl RM.release rm1 } : Sys).set n { c.core with held := loans }).trigger o n .activate := by
    simp only [cm3]; rw [abs_trigger, e2]
  have s3 : Same cm cm3 := (Same.rm cm rm1).trans ((Same.release _ n).trans
    ((Same.modify _ _ _ (by intro _; rfl)).trans (Same.trigger o _ n .activate)))
  have hk : cm.abs.k n = some c.core := by rw [abs_k, hc]; rfl
  have hlc : (cm3.abs.k n).map (·.lc) = cm3.lcOf n := by
    rw [abs_k]; unfold lcOf; cases cm3.find n <;> rfl
  have ea : cm.abs.activate o n rm1 loans = (if cm3.isActive n then cm3 else cm3.releaseItfs n).abs := by
    unfold Sys.activate
    rw [hk]
    simp only at e3 ⊢
    rw [← e3, hlc]
    unfold isActive
    by_cases hx : cm3.lcOf n = some .active
    · simp [hx]
    · simp only [hx, if_false, decide_false, Bool.false_eq_true]; rw [abs_releaseItfs]
  refine Same.fwd ?_ ?_
  · split
    · exact s3
    · exact s3.trans (Same.release _ n)
  · rw [← ea]
    exact .single (.act (s := cm.abs) hT h (by intro d hd; rw [hk] at hd; simp at hd; subst hd; rfl))

theorem Fwd.activateOne (o : Oracle) {T : Name → Prop} (s : CM × Bool × List Itf) (n : Name) (hT : T n)
    (I : s.1.abs.Inv) : Fwd o T s.1 (CM.activateOne o s n).1 := by
  unfold CM.activateOne
  split
  · exact .refl _ _ _
  · rename_i c hc
    simp only
    split
    · rename_i rm1 h
      exact ⟨.single (.claimFail (s := s.1.abs) h), rfl, rfl, rfl, rfl, rfl, rfl⟩
    · rename_i rm1 loans h
      split
      · have f := Fwd.act o (T := T) s.1 hc hT h
        simp only at f
        split
        · rename_i ha
          rw [if_pos ha] at f
          split
          · exact f.trans (Fwd.exportsAvailable o T _ n (f.inv I))
          · exact f
        · rename_i ha
          rw [if_neg ha] at f
          split
          · exact f.trans (Fwd.exportsUnavailable o T _ n (f.inv I))
          · exact f
      · simp only
        rw [Sys.claim_abort h]
        exact .refl _ _ _

theorem Fwd.prepareAndPerform (o T) (cm : CM) (start stop : List Itf) (I : cm.abs.Inv) :
    Fwd o T cm (cm.prepareAndPerform o start stop) := by
  have s1 := RM.rmStep_prepareSwitch o I.claims.rm start stop
  unfold CM.prepareAndPerform
  split
  · rename_i rm1 h
    rw [show cm.abs.rm = cm.rm from rfl, h] at s1
    exact Fwd.rm cm (s1.trans (RM.rmStep_performSwitch o s1.inv start stop))
  · rename_i rm1 h
    rw [show cm.abs.rm = cm.rm from rfl, h] at s1
    exact Fwd.rm cm s1

theorem Fwd.activateAll (o : Oracle) {T : Name → Prop} (cm : CM) (l : List Name) (st : Strictness)
    (hT : ∀ n ∈ l, T n) (I : cm.abs.Inv) : Fwd o T cm (cm.activateAll o l st) := by
  unfold CM.activateAll
  have f0 := Fwd.preAvailable o T cm l I
  have f1 := Fwd.foldl (o := o) (T := T) (g := fun b : CM × Bool × List Itf => b.1) (CM.activateOne o) l
    (cm.preAvailable l, true, []) (fun b a ha hI => Fwd.activateOne o b a (hT a ha) hI) (f0.inv I)
  have f := f0.trans f1
  simp only
  split
  · have g := f.trans (Fwd.deactivateAll o _ l hT (f.inv I))
    exact g.trans (Fwd.prepareAndPerform o T _ _ _ (g.inv I))
  · split
    · exact f.trans (Fwd.prepareAndPerform o T _ _ _ (f.inv I))
    · exact f

theorem Fwd.modeChange (o T) (cm : CM) (act deact : List Name) (I : cm.abs.Inv) :
    Fwd o T cm (cm.modeChange o act deact) := by
  unfold CM.modeChange
  simp only
  split
  · exact .refl _ _ _
  · exact Fwd.prepareAndPerform o T _ _ _ I

/-- Everything a switch may touch. -/
def Sw.names (s : Sw) (n : Name) : Prop := n ∈ s.deact ∨ n ∈ s.act ∨ n ∈ s.toCh ∨ n ∈ s.fromCh

theorem Fwd.manageSwitch (o : Oracle) (cm : CM) (I : cm.abs.Inv) : Fwd o (Sw.names cm.sw) cm (cm.manageSwitch o) := by
  have s1 := RM.rmStep_performSwitch o I.claims.rm cm.sw.actItf cm.sw.deactItf
  rw [show cm.abs.rm = cm.rm from rfl] at s1
  unfold CM.manageSwitch
  split
  · rename_i rm1 h
    rw [h] at s1
    exact (Fwd.rm cm s1).trans (Fwd.sw' o _ { cm with rm := rm1 } _)
  · rename_i rm1 h
    rw [h] at s1
    have f1 : Fwd o (Sw.names cm.sw) cm { cm with rm := rm1 } := Fwd.rm cm s1
    have f2 := f1.trans (Fwd.deactivateAll o _ cm.sw.deact (fun n hn => .inl hn) (f1.inv I))
    have f3 := f2.trans (Fwd.switchChained o _ cm.sw.toCh true (fun n hn => .inr (.inr (.inl hn))) (f2.inv I))
    have f4 := f3.trans (Fwd.switchChained o _ cm.sw.fromCh false (fun n hn => .inr (.inr (.inr hn))) (f3.inv I))
    have f5 := f4.trans (Fwd.activateAll o _ cm.sw.act cm.sw.strict (fun n hn => .inr (.inl hn)) (f4.inv I))
    exact f5.trans (Fwd.sw' o _ _ _)

end CM
end Verif
