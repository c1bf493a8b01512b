import Verif.CM.Topo
/-!
# All operations of the controller manager preserve the invariant
-/
namespace Verif
namespace CM

/-- Invariant of the controller manager. -/
structure Inv (cm : CM) : Prop where
  sys : cm.abs.Inv
  topo : Topo cm

theorem Fwd.cmInv {o T} {a b : CM} (h : Fwd o T a b) (I : Inv a) : Inv b := ⟨h.inv I.sys, I.topo.same h.same⟩

theorem Fwd.prepareDeact (o T) (cm : CM) (l : List Name) : Fwd o T cm (cm.prepareDeact l) := by
  unfold CM.prepareDeact
  induction l generalizing cm with
  | nil => exact .refl _ _ _
  | cons n t ih =>
    exact (Fwd.modifyQuiet o T cm n _ (by intro _; rfl) (by intro _; rfl) (by intro _; rfl)).trans (ih _)

/-- Nobody. -/
def Nobody (_ : Name) : Prop := False

/-- The synchronous part of `switch_controller` touches no controller. -/
theorem Fwd.validate (o : Oracle) (cm : CM) (s : Strictness) (asap : Bool) (I : cm.abs.Inv) :
    Fwd o Nobody cm (cm.validate o s asap).1 := by
  unfold CM.validate
  extract_lets cm1 r1 r2 r3 cm4 p cm5
  have q1 : Quiet cm cm1 := Quiet.propagate cm _
  have q2 : Quiet cm r1.1 := q1.trans (Quiet.actLoop s _ _ _)
  have q3 : Quiet cm r2.1 := q2.trans (Quiet.deactLoop s _ _ _)
  have q4 : Quiet cm r3.1 := q3.trans (Quiet.conflictLoop s _ _)
  clear_value cm1 r1 r2 r3
  split
  · exact (q2.trans (Quiet.clear _)).fwd I
  split
  · exact (q3.trans (Quiet.clear _)).fwd I
  split
  · exact (q3.trans (Quiet.clear _)).fwd I
  split
  · exact q4.fwd I
  split
  · exact (q4.trans (Quiet.clear _)).fwd I
  split
  · exact (q4.trans (Quiet.clear _)).fwd I
  · exact (q4.trans ((Quiet.clear _).trans (Quiet.faulted _))).fwd I
  · have f4 : Fwd o Nobody cm cm4 := (q4.fwd I).trans (Fwd.prepareDeact o _ _ _)
    have f5 : Fwd o Nobody cm cm5 := by
      refine f4.trans (Fwd.rm cm4 ?_)
      simp only [p]
      split
      · exact .refl (f4.inv I).claims.rm
      · exact RM.rmStep_prepareSwitch o (f4.inv I).claims.rm _ _
    split
    · exact f5.trans (Fwd.sw' o _ _ _)
    · exact f5.trans (Fwd.sw o _ _ _ _)

theorem Fwd.switchBegin (o : Oracle) (cm : CM) (act deact : List Name) (s : Strictness) (asap : Bool) (I : cm.abs.Inv) :
    Fwd o Nobody cm (cm.switchBegin o act deact s asap).1 := by
  unfold CM.switchBegin
  extract_lets _ sw0
  split
  · exact Fwd.sw' o _ cm _
  · split
    · exact Fwd.sw' o _ cm _
    · rename_i d _ _ a _
      exact Fwd.trans (b := { cm with sw := { sw0 with deact := d, act := a } }) (Fwd.sw' o Nobody cm _)
        (Fwd.validate o { cm with sw := { sw0 with deact := d, act := a } } s asap I)

theorem Fwd.switchFinish (o T) (cm : CM) : Fwd o T cm (cm.switchFinish).1 := by
  unfold CM.switchFinish CM.clear
  simp only
  refine ⟨?_, ?_, rfl, rfl, rfl, rfl, rfl⟩
  · have : CM.abs { cm with ctls := cm.ctls.map cm.evalOne, pending := false, sw := cm.sw.cleared } = cm.abs := by
      unfold CM.abs
      congr 1
      funext n
      simp only [CM.find]
      induction cm.ctls with
      | nil => rfl
      | cons c t ih =>
        simp only [List.map_cons, List.find?_cons]
        have : (cm.evalOne c).name = c.name := rfl
        rw [this]
        split
        · rfl
        · exact ih
    rw [this]; exact .refl
  · simp only [List.map_map]
    apply List.map_congr_left
    intro c _; rfl

/-- Everybody. -/
def Anybody (_ : Name) : Prop := True

theorem Fwd.any {o T} {a b : CM} (h : Fwd o T a b) : Fwd o Anybody a b := h.mono (fun _ _ => trivial)

theorem Fwd.switchWake (o : Oracle) (cm : CM) (I : Inv cm) : Fwd o (Sw.names cm.sw) cm (cm.switchWake o).1 := by
  unfold CM.switchWake
  split
  · exact .refl _ _ _
  split
  · split
    · exact .refl _ _ _
    · exact Fwd.switchFinish o _ _
  · split
    · have f := Fwd.manageSwitch o cm I.sys
      exact f.trans (Fwd.switchFinish o _ _)
    · exact .refl _ _ _

theorem Fwd.switchTimeout (o T) (cm : CM) : Fwd o T cm (cm.switchTimeout).1 := by
  unfold CM.switchTimeout
  split
  · exact Fwd.sw o T cm _ _
  · exact .refl _ _ _

theorem Fwd.rtRead (o : Oracle) (sched : Name → RM.Sched) (cm : CM) (I : cm.abs.Inv) :
    Fwd o (fun n => n ∈ ({ cm with rm := (cm.rm.read o sched).1 } : CM).cachedControllers (cm.rm.read o sched).2.failed)
      cm (cm.rtRead o sched) := by
  unfold CM.rtRead
  simp only
  have f1 : Fwd o (fun n => n ∈ ({ cm with rm := (cm.rm.read o sched).1 } : CM).cachedControllers (cm.rm.read o sched).2.failed)
      cm { cm with rm := (cm.rm.read o sched).1 } := Fwd.rm cm (RM.rmStep_read o sched I.claims.rm)
  split
  · refine Fwd.trans (Fwd.trans f1 (Fwd.modeChange o _ _ [] _ (f1.inv I))) (Fwd.deactivateAll o _ _ (fun n hn => hn) ?_)
    exact (Fwd.trans f1 (Fwd.modeChange o _ _ [] _ (f1.inv I))).inv I
  · exact f1

theorem Fwd.rtWrite (o : Oracle) (sched : Name → RM.Sched) (cm : CM) (I : cm.abs.Inv) :
    Fwd o (fun n => n ∈ ({ cm with rm := (cm.rm.write o sched).1 } : CM).cachedControllers (cm.rm.write o sched).2.failed)
      cm (cm.rtWrite o sched) := by
  unfold CM.rtWrite
  simp only
  have f1 : Fwd o (fun n => n ∈ ({ cm with rm := (cm.rm.write o sched).1 } : CM).cachedControllers (cm.rm.write o sched).2.failed)
      cm { cm with rm := (cm.rm.write o sched).1 } := Fwd.rm cm (RM.rmStep_write o sched I.claims.rm)
  split
  · exact f1
  · refine Fwd.trans (Fwd.trans f1 (Fwd.modeChange o _ _ [] _ (f1.inv I))) (Fwd.deactivateAll o _ _ (fun n hn => hn) ?_)
    exact (Fwd.trans f1 (Fwd.modeChange o _ _ [] _ (f1.inv I))).inv I
  · refine Fwd.trans (Fwd.trans f1 (Fwd.modeChange o _ _ [] _ (f1.inv I)))
      (Fwd.deactivateAll o _ _ (fun n hn => List.mem_of_mem_filter hn) ?_)
    exact (Fwd.trans f1 (Fwd.modeChange o _ _ [] _ (f1.inv I))).inv I

/-- Only the history changed. -/
def PushOnly (cm cm' : CM) : Prop := ∃ es, cm' = { cm with rm := { cm.rm with tr := es ++ cm.rm.tr } }

theorem PushOnly.refl (cm : CM) : PushOnly cm cm := ⟨[], rfl⟩

theorem PushOnly.trans {a b c : CM} (h : PushOnly a b) (k : PushOnly b c) : PushOnly a c := by
  obtain ⟨e, rfl⟩ := h
  obtain ⟨f, rfl⟩ := k
  exact ⟨f ++ e, by simp⟩

theorem updateLoop_push (o : Oracle) (due : Name → Bool) (l : List Ctl) : ∀ (cm : CM) (d : List Name) (r : Ret),
    PushOnly cm (updateLoop o due l cm d r).1 := by
  induction l with
  | nil => intro cm d r; exact .refl cm
  | cons c t ih =>
    intro cm d r
    unfold updateLoop
    split
    · simp only
      have h1 : PushOnly cm (cm.push (.ctlUpdate c.name (o.ctlUpdate cm.rm.tr c.name))) := ⟨[_], rfl⟩
      split
      · exact h1.trans (ih _ _ _)
      · exact h1.trans (ih _ _ _)
      · exact h1.trans (ih _ _ _)
    · exact ih _ _ _

theorem Fwd.updateLoop (o : Oracle) (T) (due : Name → Bool) (l : List Ctl) : ∀ (cm : CM) (d : List Name) (r : Ret),
    (∀ c ∈ l, cm.find c.name = some c) → Fwd o T cm (CM.updateLoop o due l cm d r).1 := by
  induction l with
  | nil => intro cm d r _; exact .refl _ _ _
  | cons c t ih =>
    intro cm d r hl
    unfold CM.updateLoop
    split
    · rename_i hr
      simp only
      have hact : c.lc = .active := by
        unfold CM.runs at hr; simp at hr; exact hr.1.1.1.2
      have h1 : Fwd o T cm (cm.push (.ctlUpdate c.name (o.ctlUpdate cm.rm.tr c.name))) := by
        refine ⟨.single (.update (c := c.core) _ ?_ hact), rfl, rfl, rfl, rfl, rfl, rfl⟩
        rw [abs_k, hl c (by simp)]; rfl
      have h2 : ∀ x ∈ t, (cm.push (.ctlUpdate c.name (o.ctlUpdate cm.rm.tr c.name))).find x.name = some x :=
        fun x hx => hl x (by simp [hx])
      split
      · exact h1.trans (ih _ _ _ h2)
      · exact h1.trans (ih _ _ _ h2)
      · exact h1.trans (ih _ _ _ h2)
    · exact ih _ _ _ (fun x hx => hl x (by simp [hx]))

/-- Controllers touched by the reaction to failed updates. -/
def failTouched (cm : CM) (failed : List Name) (n : Name) : Prop :=
  n ∈ addItems failed (cm.fallbackPlan failed).2 ∨ n ∈ (cm.fallbackPlan failed).1

theorem Fwd.handleFailed (o : Oracle) (cm : CM) (failed : List Name) (I : cm.abs.Inv) :
    Fwd o (fun n => failed ≠ [] ∧ cm.failTouched failed n) cm (cm.handleFailed o failed) := by
  unfold CM.handleFailed
  split
  · exact .refl _ _ _
  · rename_i hne
    simp only
    have f1 := Fwd.modeChange o (fun n => failed ≠ [] ∧ cm.failTouched failed n) cm (cm.fallbackPlan failed).1
      (addItems failed (cm.fallbackPlan failed).2) I
    have f2 := f1.trans (Fwd.deactivateAll o _ _ (fun n hn => ⟨hne, .inl hn⟩) (f1.inv I))
    split
    · exact f2
    · exact f2.trans (Fwd.activateAll o _ _ .strict (fun n hn => ⟨hne, .inr hn⟩) (f2.inv I))

theorem Fwd.rtUpdate (o : Oracle) (due : Name → Bool) (lock : Bool) (cm : CM) (I : Inv cm) :
    Fwd o Anybody cm (cm.rtUpdate o due lock).1 := by
  unfold CM.rtUpdate
  extract_lets r cm1 _ cm2
  have f1 : Fwd o Anybody cm r.1 := Fwd.updateLoop o _ due _ _ _ _
    (fun c hc => (find_iff I.topo.names).2 ⟨hc, rfl⟩)
  have f2 : Fwd o Anybody cm cm1 := f1.trans (Fwd.handleFailed o _ _ (f1.inv I.sys)).any
  clear_value cm1
  simp only [cm2]
  split
  · split
    · split
      · exact f2.trans (Fwd.manageSwitch o _ (f2.inv I.sys)).any
      · exact f2
    · exact f2.trans (Fwd.sw' o _ _ _)
  · exact f2

theorem Fwd.setHw (o : Oracle) (T) (cm : CM) (h : Name) (target : LState) (I : cm.abs.Inv) :
    Fwd o T cm (cm.setHw o h target).1 := by
  unfold CM.setHw
  split
  · exact .refl _ _ _
  · exact Fwd.rm cm (RM.rmStep_setComponentState o I.claims.rm h target)

theorem Fwd.shutdownAll (o : Oracle) (cm : CM) : Fwd o Anybody cm (cm.shutdownAll o).1 := by
  unfold CM.shutdownAll
  simp only
  have : ∀ (l : List Name) (cm : CM), Fwd o Anybody cm (l.foldl (shutdownOne o) cm) := by
    intro l
    induction l with
    | nil => intro cm; exact .refl _ _ _
    | cons n t ih =>
      intro cm
      refine Fwd.trans ?_ (ih _)
      unfold shutdownOne
      extract_lets cm1
      have f1 : Fwd o Anybody cm cm1 := by
        simp only [cm1]; split
        · exact Fwd.deact o cm n trivial
        · exact .refl _ _ _
      split
      · exact f1.trans (Fwd.trigger o _ n _ trivial (.inr (.inr rfl)))
      · exact f1
  exact this _ _

theorem Fwd.cleanupExports (o : Oracle) {T : Name → Prop} (cm : CM) (n : Name) (hT : T n) :
    Fwd o T cm (cm.cleanupExports n) := by
  unfold CM.cleanupExports
  split
  · exact .refl _ _ _
  · rename_i c hc
    split
    · rename_i h
      refine ⟨.single ?_, rfl, rfl, rfl, rfl, rfl, rfl⟩
      exact Sys.AStep.dropExports (s := cm.abs) (c := c.core) hT (by rw [abs_k, hc]; rfl) h.1
    · exact .refl _ _ _

theorem Fwd.cleanupSpec (o : Oracle) {T : Name → Prop} (cm : CM) (n : Name) (hT : T n) :
    Fwd o T cm (cm.cleanupSpec o n).1 :=
  (Fwd.cleanupExports o cm n hT).trans (Fwd.trigger o _ n _ hT (.inr (.inl rfl)))

theorem Fwd.cleanup (o : Oracle) (cm : CM) (n : Name) : Fwd o (· = n) cm (cm.cleanup o n).1 := by
  unfold CM.cleanup
  split
  · exact .refl _ _ _
  split
  · exact .refl _ _ _
  · split
    · exact .refl _ _ _
    · exact .refl _ _ _
    · exact .refl _ _ _
    · exact Fwd.cleanupSpec o cm n rfl

/-! ## Loading -/

theorem find_append {cm : CM} {c : Ctl} {n : Name} (k : CM) (h : k.ctls = cm.ctls ++ [c]) :
    k.find n = (cm.find n).or (if c.name = n then some c else none) := by
  unfold find
  rw [h, List.find?_append]
  simp only [List.find?_cons, List.find?_nil]
  split <;> simp_all

theorem load_ok (o : Oracle) (cm : CM) (n : Name) (chainable async : Bool) (cfg : CtlCfg) (fb : List Name) (I : Inv cm) :
    Sys.Steps o (· = n) cm.abs (cm.load o n chainable async cfg fb).1.abs ∧
    Topo (cm.load o n chainable async cfg fb).1 := by
  unfold load
  split
  · exact ⟨.refl, I.topo⟩
  split
  · exact ⟨.refl, I.topo⟩
  split
  · exact ⟨.refl, I.topo⟩
  rename_i hf
  have hk : cm.abs.k n = none := by rw [abs_k, hf]; rfl
  extract_lets a cm1
  split
  swap
  · rename_i ha
    exact ⟨.single (Sys.AStep.loadFail (T := (· = n)) (s := cm.abs) rfl hk a ha), I.topo.same (Same.rm cm _)⟩
  rename_i ha
  have hnl : n ∉ cm.ctls.map (·.name) := find_none.1 hf
  have hnk : n ∉ cm.chainKeys := fun h => hnl ((I.topo.loaded n).1 h)
  constructor
  · refine .single ?_
    have st := Sys.AStep.load (o := o) (T := (· = n)) (s := cm.abs) rfl hk chainable async fb cfg.cmd
    refine cast ?_ st
    congr 1
    unfold Sys.push Sys.set abs
    simp only [cm1, CM.push, ha]
    congr 1
    funext m
    simp only [upd_apply]
    have hap := fun (k : CM) (hk : k.ctls = cm.ctls ++ [Ctl.mk n chainable async cfg fb .unconfigured [] false [] [] false]) =>
      find_append (cm := cm) (n := m) k hk
    refine Eq.trans ?_ (congrArg (Option.map Ctl.core) (hap _ rfl).symm)
    split
    · rename_i e; subst e; rw [hf]; simp [Ctl.core]
    · rename_i e
      have : ¬ n = m := fun x => e x.symm
      simp [this]
  · refine ⟨?_, ?_, ?_, ?_, ?_, ?_, ?_⟩
    · simp only [List.map_append, List.map_cons, List.map_nil]
      rw [List.nodup_append]
      refine ⟨I.topo.names, by simp, ?_⟩
      intro x hx y hy
      simp at hy; subst hy
      intro e; subst e; exact hnl hx
    · exact nodup_addItem I.topo.keys
    · intro m
      simp only [mem_addItem, List.map_append, List.mem_append, List.map_cons, List.map_nil, List.mem_singleton]
      rw [show cm1.chainKeys = cm.chainKeys from rfl, show cm1.ctls = cm.ctls from rfl, I.topo.loaded m]
    · intro x y
      simp only [upd_apply]
      rw [show cm1.foll = cm.foll from rfl, show cm1.prec = cm.prec from rfl]
      have h1 := I.topo.sym x y
      split <;> split
      · simp
      · rename_i e1 e2
        simp only [List.not_mem_nil, false_iff]
        intro hx
        exact hnk ((I.topo.sub x y (h1.2 hx)).1 |> (e1 ▸ ·))
      · rename_i e1 e2
        simp only [List.not_mem_nil, iff_false]
        intro hx
        exact hnk ((I.topo.sub x y hx).2 |> (e2 ▸ ·))
      · exact h1
    · intro x y hy
      simp only [upd_apply] at hy
      split at hy
      · simp at hy
      · obtain ⟨h1, h2⟩ := I.topo.sub x y hy
        simp only [mem_addItem]
        exact ⟨.inl h1, .inl h2⟩
    · intro x; simp only [upd_apply]; split
      · simp
      · exact I.topo.nodF x
    · intro x; simp only [upd_apply]; split
      · simp
      · exact I.topo.nodP x

/-! ## Unloading -/

theorem find_filter (cm : CM) (n m : Name) :
    ({ cm with ctls := cm.ctls.filter (fun c => c.name ≠ n) } : CM).find m = if m = n then none else cm.find m := by
  unfold find
  simp only
  induction cm.ctls with
  | nil => simp
  | cons c t ih =>
    simp only [List.filter_cons]
    by_cases hc : c.name = n
    · simp only [hc, ne_eq, not_true_eq_false, decide_false, Bool.false_eq_true, if_false]
      rw [ih]
      split
      · rfl
      · rename_i hm
        have : ¬ n = m := fun e => hm e.symm
        simp [hc, this]
    · simp only [hc, ne_eq, not_false_eq_true, decide_true, if_true]
      simp only [List.find?_cons]
      split
      · rename_i h1
        have : c.name = m := by simpa using h1
        have : ¬ m = n := fun e => hc (this.trans e)
        simp [this]
      · exact ih

theorem unload_ok (o : Oracle) (cm : CM) (n : Name) (I : Inv cm) :
    Sys.Steps o (· = n) cm.abs (cm.unload o n).1.abs ∧ Topo (cm.unload o n).1 := by
  unfold unload
  split
  · exact ⟨.refl, I.topo⟩
  rename_i hp0
  have hp : cm.pending = false := by simpa using hp0
  split
  · exact ⟨.refl, I.topo⟩
  rename_i c hc
  split
  · exact ⟨.refl, I.topo⟩
  extract_lets r cm1 cm2
  have fr : Fwd o (· = n) cm r.1 := Fwd.cleanup o cm n
  have Ir := fr.cmInv I
  split
  · exact ⟨fr.steps, Ir.topo⟩
  have hn : n ∈ cm.ctls.map (·.name) := by
    have := find_some hc
    rw [← this.2]; exact List.mem_map_of_mem this.1
  have hnr : n ∈ r.1.ctls.map (·.name) := by rw [names_of_stat fr.stat]; exact hn
  obtain ⟨k1, k2, k3, k4, k5⟩ := chainCleanup_spec Ir.topo hnr
  have ea : (r.1.chainCleanup n).abs = r.1.abs := rfl
  have f1 : Fwd o (· = n) (r.1.chainCleanup n) cm1 := Fwd.trigger o _ n _ rfl (.inr (.inr rfl))
  have s1 : Sys.Steps o (· = n) cm.abs cm1.abs := Relation.ReflTransGen.trans fr.steps (ea ▸ f1.steps)
  have I1 : cm1.abs.Inv := s1.inv I.sys
  have sm : Same (r.1.chainCleanup n) cm2 := f1.same.trans (Same.release _ n)
  constructor
  · -- the controller still exists; release its loans and erase it
    have hex : ∃ d, cm1.find n = some d := by
      cases hf : cm1.find n with
      | none =>
        exact absurd (by rw [names_of_stat f1.stat]; exact hnr) (find_none.1 hf)
      | some d => exact ⟨d, rfl⟩
    obtain ⟨d, hd⟩ := hex
    -- after shutdown the controller holds nothing, so release is a no-op on the abstract state
    have hheld : d.held = [] := by
      by_cases hx : d.lc = .active
      · -- shutdown is legal in every state a cleaned-up controller can be in
        exfalso
        have hk : r.1.abs.k n = some (c.core) ∨ True := .inr trivial
        have hlc : ∀ e, r.1.find n = some e → e.lc = .unconfigured := by
          intro e he
          have hok : r.2 = .ok := by
            by_contra hne
            rename_i h; exact h hne
          have : (cm.cleanup o n).2 = .ok := hok
          unfold CM.cleanup at this
          simp only [hp, Bool.false_eq_true, if_false, hc] at this
          have her : (cm.cleanup o n).1.find n = some e := he
          unfold CM.cleanup at her
          simp only [hp, Bool.false_eq_true, if_false, hc] at her
          cases hl : c.lc <;> simp only [hl] at this her
          · split at this
            · rename_i h2
              unfold cleanupSpec at h2 her
              simp only [decide_eq_true_eq] at h2
              unfold lcOf at h2
              rw [her] at h2; simpa using h2
            · simp at this
          · rw [hc] at her; simp at her; subst her; exact hl
          · split at this
            · rename_i h2
              unfold cleanupSpec at h2 her
              simp only [decide_eq_true_eq] at h2
              unfold lcOf at h2
              rw [her] at h2; simpa using h2
            · simp at this
          · simp at this
          · simp at this
        obtain ⟨e, he⟩ : ∃ e, r.1.find n = some e := by
          cases hf : r.1.find n with
          | none => exact absurd hnr (find_none.1 hf)
          | some e => exact ⟨e, rfl⟩
        have hek := hlc e he
        have ht : cm1.abs = r.1.abs.trigger o n .shutdown := by
          rw [← ea]; exact abs_trigger o _ n .shutdown
        have hke : r.1.abs.k n = some e.core := by rw [abs_k, he]; rfl
        obtain ⟨es, lc', hev, ⟨hs, _, _⟩ | he2⟩ := Sys.trigger_spec o .shutdown hke
          (by change CtlCb.shutdown.legal e.lc = true; rw [hek]; rfl)
        · exact hs rfl
        · rw [he2] at ht
          have : cm1.abs.k n = some { e.core with lc := lc', held := [] } := by rw [ht]; simp [Sys.set]
          rw [abs_k, hd] at this
          simp only [Option.map_some, Option.some.injEq] at this
          have h2 := congrArg Core.lc this
          simp only [Ctl.core] at h2
          rw [hx] at h2
          cases hev with
          | success => simp [CtlCb.onSuccess] at h2
          | failure => simp [CtlCb.onFailure] at h2
          | error a e ha => split at h2 <;> simp at h2
      · exact I1.claims.idle n d.core (by rw [abs_k, hd]; rfl) (by simp [Sys.NoEx]) hx
    have hrel : cm2.abs = cm1.abs := by
      simp only [cm2]
      rw [abs_releaseItfs, Sys.release_some (c := d.core) (by rw [abs_k, hd]; rfl)]
      have : d.core.held = [] := hheld
      rw [this]
      simp only [List.foldl_nil, Sys.set]
      have : upd cm1.abs.k n (some { d.core with held := [] }) = cm1.abs.k := by
        funext m
        simp only [upd_apply]
        split
        · rename_i e; subst e
          rw [abs_k, hd]
          simp only [Option.map_some, Option.some.injEq]
          cases hdc : d.core
          have := hheld
          simp [Ctl.core] at hdc
          simp_all
        · rfl
      rw [this]
    refine Relation.ReflTransGen.tail s1 ?_
    have st := Sys.AStep.erase (o := o) (T := (· = n)) (s := cm1.abs) (c := d.core) rfl (by rw [abs_k, hd]; rfl) hheld
    refine cast ?_ st
    congr 1
    rw [← hrel]
    unfold abs
    congr 1
    funext m
    simp only [upd_apply]
    have := find_filter cm2 n m
    simp only [ne_eq] at this
    simp only [ne_eq]
    rw [this]
    split <;> rfl
  · have hnames := names_of_stat sm.stat
    have hcn : (r.1.chainCleanup n).ctls = r.1.ctls := rfl
    have hfil : (cm2.ctls.filter (fun c => c.name ≠ n)).map (·.name) = (r.1.ctls.map (·.name)).filter (· ≠ n) := by
      rw [← hcn, ← hnames, List.filter_map]; rfl
    refine ⟨?_, ?_, ?_, ?_, ?_, ?_, ?_⟩
    · simp only [hfil]; exact Ir.topo.names.filter _
    · simp only [sm.keys, k1]; exact Ir.topo.keys.filter _
    · intro m
      simp only [hfil, sm.keys, k1, List.mem_filter]
      rw [Ir.topo.loaded m]
    · intro x y
      simp only [sm.foll, sm.prec, k2, k3]
      rw [Ir.topo.sym x y]; tauto
    · intro x y
      simp only [sm.foll, sm.keys, k1, k2, List.mem_filter]
      rintro ⟨h1, h2, h3⟩
      obtain ⟨h4, h5⟩ := Ir.topo.sub x y h1
      exact ⟨⟨h4, by simpa using h2⟩, ⟨h5, by simpa using h3⟩⟩
    · simp only [sm.foll]; exact k4
    · simp only [sm.prec]; exact k5

/-! ## Configuring -/

theorem modify_topo {cm : CM} (h : Topo cm) (n : Name) (f : Ctl → Ctl) (hf : ∀ c, (f c).name = c.name) :
    Topo (cm.modify n f) := by
  have e := modify_names cm n f hf
  exact ⟨by rw [e]; exact h.names, h.keys, by rw [e]; exact h.loaded, h.sym, h.sub, h.nodF, h.nodP⟩

end CM
end Verif
