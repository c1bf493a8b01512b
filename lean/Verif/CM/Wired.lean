import Verif.CM.SwFrame
import Verif.CM.TopoMem
/-!
# The record of who uses whose interfaces stays complete

`controller_chained_*_interfaces_cache_` is only computed at the end of a successful `configure_controller`.
-/
namespace Verif
namespace CM

/-- Every configured controller that asks for an individual interface named after another configured controller is on
record as a user of it. -/
def Wired (cm : CM) : Prop :=
  ∀ p c f, cm.find p = some c → cm.Ready p → cm.Ready f →
    (∀ l, c.cfg.cmd = .individual l → ∀ i ∈ l, i.pre = f → p ∈ cm.refCache f) ∧
    (∀ l, c.cfg.state = .individual l → ∀ i ∈ l, i.pre = f → p ∈ cm.stateCache f)

/-- Configured controllers of `b` were configured in `a`, with the same configuration, and their records did not shrink. -/
structure Down (a b : CM) : Prop where
  ctl : ∀ p d, b.find p = some d → b.Ready p → a.Ready p ∧ ∃ c, a.find p = some c ∧ c.cfg = d.cfg ∧ c.group = d.group
  refC : ∀ f, b.Ready f → a.refCache f ⊆ b.refCache f
  stC : ∀ f, b.Ready f → a.stateCache f ⊆ b.stateCache f

theorem Wired.down {a b : CM} (h : Wired a) (k : Down a b) : Wired b := by
  intro p d f hd hp hf
  obtain ⟨k1, c, hc, e, _⟩ := k.ctl p d hd hp
  have hfa : a.Ready f := by
    have : ∃ x, b.find f = some x := by
      cases hx : b.find f with
      | none => simp [Ready, lcOf, hx] at hf
      | some x => exact ⟨x, rfl⟩
    obtain ⟨x, hx⟩ := this
    exact (k.ctl f x hx hf).1
  obtain ⟨h1, h2⟩ := h p c f hc k1 hfa
  rw [e] at h1 h2
  exact ⟨fun l hl i hi hif => k.refC f hf (h1 l hl i hi hif), fun l hl i hi hif => k.stC f hf (h2 l hl i hi hif)⟩

theorem cfg_of_stat {c d : Ctl} (h : c.stat = d.stat) : c.cfg = d.cfg := by
  have : c.stat.cfg = d.stat.cfg := by rw [h]
  exact this

theorem group_of_stat {c d : Ctl} (h : c.stat = d.stat) : c.group = d.group := by
  have : c.stat.group = d.stat.group := by rw [h]
  exact this

theorem find_stat {a b : CM} (h : b.ctls.map Ctl.stat = a.ctls.map Ctl.stat) {n : Name} {d : Ctl} (hd : b.find n = some d) :
    ∃ c, a.find n = some c ∧ c.stat = d.stat := by
  have e : ((fun c : Ctl => decide (c.name = n)) ∘ Ctl.stat) = (fun c : Ctl => decide (c.name = n)) := by
    funext c; rfl
  have hd' : (b.ctls.map Ctl.stat).find? (fun c => c.name = n) = some d.stat := by
    rw [List.find?_map, e]
    unfold CM.find at hd
    rw [hd]; rfl
  rw [h, List.find?_map, e] at hd'
  unfold CM.find
  cases hx : a.ctls.find? (fun c => c.name = n) with
  | none => rw [hx] at hd'; simp at hd'
  | some c => rw [hx] at hd'; simp at hd'; exact ⟨c, rfl, hd'⟩

theorem Fwd.down {o T} {a b : CM} (h : Fwd o T a b) (k : ∀ n, b.Ready n → a.Ready n) : Down a b where
  ctl p d hd hp := by
    obtain ⟨c, hc, e⟩ := find_stat h.stat hd
    exact ⟨k p hp, c, hc, cfg_of_stat e, group_of_stat e⟩
  refC f _ := by rw [h.refC]; exact List.Subset.refl _
  stC f _ := by rw [h.stC]; exact List.Subset.refl _

theorem Began.lcOf {a b : CM} (h : Began a b) (n : Name) : b.lcOf n = a.lcOf n := by
  have e : ((fun c : Ctl => decide (c.name = n)) ∘ Ctl.noSkip) = (fun c : Ctl => decide (c.name = n)) := by
    funext c; rfl
  have key : ∀ x : CM, x.lcOf n = ((x.ctls.map Ctl.noSkip).find? (fun c => c.name = n)).map (·.lc) := by
    intro x
    rw [List.find?_map, e]
    unfold CM.lcOf CM.find
    cases x.ctls.find? (fun c => c.name = n) <;> rfl
  rw [key, key, h.ctls]

theorem cleanup_ready (o : Oracle) (cm : CM) (n : Name) : ∀ m, (cm.cleanup o n).1.Ready m → cm.Ready m := by
  have k : ∀ m, (cm.cleanupSpec o n).1.Ready m → cm.Ready m := by
    intro m hm
    have h1 := (Keeps.trigger o (cm.cleanupExports n) n .cleanup (by decide)).2.2 m hm
    unfold cleanupExports at h1
    split at h1
    · exact h1
    · split at h1 <;> exact h1
  intro m hm
  unfold CM.cleanup at hm
  split at hm
  · exact hm
  split at hm
  · exact hm
  split at hm
  · exact hm
  · exact hm
  · exact hm
  · exact k m hm

/-- No operation other than `configure_controller` makes a controller configured, or changes the configuration of one, or
shrinks the record. -/
theorem step_down (o : Oracle) {cm : CM} (I : Inv cm) (op : Op) (h : ∀ n cfg ord r, op ≠ .configure n cfg ord r) :
    Down cm (cm.step o op) := by
  cases op <;> simp only [step]
  · rename_i n ch as cfg fb
    have r : Down cm cm := (Fwd.refl o Anybody cm).down (fun _ h => h)
    unfold load
    split
    · exact r
    split
    · exact r
    split
    · exact r
    rename_i hn
    extract_lets a cm1
    split
    swap
    · exact (show Down cm cm1 from ⟨r.ctl, r.refC, r.stC⟩)
    have fnd : ∀ (x : CM) (c0 : Ctl), x.ctls = cm.ctls ++ [c0] → c0.name = n → c0.lc = .unconfigured → 
        ∀ p, x.Ready p → p ≠ n ∧ x.find p = cm.find p := by
      intro x c0 hx h1 h2 p hp
      have hf : x.find p = (cm.find p).or (if c0.name = p then some c0 else none) := by
        unfold CM.find; rw [hx, List.find?_append]; simp [List.find?_cons]
        split <;> simp_all
      by_cases e : p = n
      · subst e
        rw [hn] at hf
        rw [if_pos h1] at hf
        simp [Ready, lcOf, hf, h2] at hp
      · refine ⟨e, ?_⟩
        rw [hf, if_neg (by rw [h1]; exact fun x => e x.symm)]
        cases cm.find p <;> rfl
    have F := fnd { cm1 with
            ctls := cm1.ctls ++ [{ name := n, chainable := ch, async := as, cfg, fallbacks := fb, lc := .unconfigured,
                                   held := [], chained := false, claimedInfo := [], group := [],
                                   skipAsync := false }]
            chainKeys := addItem cm1.chainKeys n
            foll := upd cm1.foll n []
            prec := upd cm1.prec n []
            refCache := upd cm1.refCache n []
            stateCache := upd cm1.stateCache n [] } _ rfl rfl rfl
    refine ⟨?_, ?_, ?_⟩
    · intro p d hd hp
      obtain ⟨_, h2⟩ := F p hp
      rw [h2] at hd
      refine ⟨?_, d, hd, rfl, rfl⟩
      unfold Ready CM.lcOf at hp ⊢
      rw [h2] at hp; exact hp
    · intro f hf
      have := (F f hf).1
      simp [upd, this, cm1, CM.push]
    · intro f hf
      have := (F f hf).1
      simp [upd, this, cm1, CM.push]
  · exact absurd rfl (h _ _ _ _)
  · exact (Fwd.cleanup o cm _).down (cleanup_ready o cm _)
  · rename_i n
    have r : Down cm cm := (Fwd.refl o Anybody cm).down (fun _ h => h)
    unfold unload
    split
    · exact r
    split
    · exact r
    split
    · exact r
    extract_lets r cm1 cm2
    have d0 : Down cm r.1 := (Fwd.cleanup o cm n).down (cleanup_ready o cm n)
    split
    · exact d0
    have e1 : Fwd o (· = n) (r.1.chainCleanup n) cm1 := Fwd.trigger o _ n _ rfl (.inr (.inr rfl))
    have k1 : ∀ m, cm1.Ready m → r.1.Ready m := (Keeps.trigger o (r.1.chainCleanup n) n .shutdown (by decide)).2.2
    have s2 : Same (r.1.chainCleanup n) cm2 := e1.same.trans (Same.release _ n)
    have k2 : ∀ m, cm2.Ready m → r.1.Ready m := fun m hm => k1 m ((Keeps.release cm1 n).2.2 m hm)
    have ff : ∀ p d, ({ cm2 with ctls := cm2.ctls.filter (fun c => c.name ≠ n) } : CM).find p = some d → cm2.find p = some d := by
      intro p d hd
      by_cases hp : p = n
      · subst hp
        unfold CM.find at hd
        have := List.find?_some hd
        have hm := List.mem_of_find?_eq_some hd
        simp at this hm
        exact absurd this hm.2
      · have : ({ cm2 with ctls := cm2.ctls.filter (fun c => c.name ≠ n) } : CM).find p = cm2.find p := by
          refine find_of_others (n := n) ?_ hp
          unfold others; simp
        rw [← this]; exact hd
    have rd : ∀ p, ({ cm2 with ctls := cm2.ctls.filter (fun c => c.name ≠ n) } : CM).Ready p → cm2.Ready p := by
      intro p hp
      unfold Ready CM.lcOf at hp ⊢
      cases hx : ({ cm2 with ctls := cm2.ctls.filter (fun c => c.name ≠ n) } : CM).find p with
      | none => rw [hx] at hp; simp at hp
      | some d => rw [hx] at hp; rw [ff p d hx]; exact hp
    refine ⟨?_, ?_, ?_⟩
    · intro p d hd hp
      have h1 := rd p hp
      obtain ⟨c, hc, e⟩ := find_stat s2.stat (ff p d hd)
      obtain ⟨h2, c', hc', e', g'⟩ := d0.ctl p c hc (k2 p h1)
      exact ⟨h2, c', hc', e'.trans (cfg_of_stat e), g'.trans (group_of_stat e)⟩
    · intro f hf
      change cm.refCache f ⊆ cm2.refCache f
      rw [s2.refC]
      exact d0.refC f (k2 f (rd f hf))
    · intro f hf
      change cm.stateCache f ⊆ cm2.stateCache f
      rw [s2.stC]
      exact d0.stC f (k2 f (rd f hf))
  · split
    · exact (Fwd.refl o Anybody cm).down (fun _ h => h)
    · refine (Fwd.switchBegin o cm _ _ _ _ I.sys).down (fun n hn => ?_)
      unfold Ready at hn ⊢
      rw [(switchBegin_began o cm _ _ _ _).lcOf] at hn; exact hn
  · refine (Fwd.switchWake o cm I).down (fun n hn => ?_)
    have fin : ∀ x : CM, x.switchFinish.1.Ready n → x.Ready n := by
      intro x hx
      have : x.switchFinish.1.lcOf n = x.lcOf n := by
        unfold switchFinish clear CM.lcOf CM.find
        simp only [List.find?_map]
        have e : ((fun c : Ctl => decide (c.name = n)) ∘ x.evalOne) = (fun c : Ctl => decide (c.name = n)) := by
          funext c; rfl
        rw [e]
        cases x.ctls.find? (fun c => c.name = n) <;> rfl
      unfold Ready at hx ⊢
      rw [this] at hx; exact hx
    unfold CM.switchWake at hn
    split at hn
    · exact hn
    split at hn
    · split at hn
      · exact hn
      · exact fin _ hn
    · split at hn
      · exact (manageSwitch_keeps o cm).2.2 n (fin _ hn)
      · exact hn
  · refine (Fwd.switchTimeout o Anybody cm).down (fun n hn => ?_)
    unfold CM.switchTimeout at hn
    split at hn <;> exact hn
  · exact (Fwd.rtRead o _ cm I.sys).down (Keeps.rtRead o _ cm).2.2
  · rename_i due lock
    obtain ⟨d, r, _, _, _, h4⟩ := rtUpdate_sw o due lock cm
    exact (Fwd.rtUpdate o due lock cm I).down h4
  · exact (Fwd.rtWrite o _ cm I.sys).down (Keeps.rtWrite o _ cm).2.2
  · refine (Fwd.setHw o Anybody cm _ _ I.sys).down (fun n hn => ?_)
    unfold CM.setHw at hn
    split at hn <;> exact hn
  · exact (Fwd.shutdownAll o cm).down (Keeps.shutdownAll o cm).2.2

/-- A call of `configure_controller` that did not fail half-way: it returned OK, or the controller is not left
configured. -/
def CleanOp (o : Oracle) (cm : CM) : Op → Prop
  | .configure n cfg ord r => (cm.configure o n cfg ord r).2 = .ok ∨ ¬ (cm.configure o n cfg ord r).1.Ready n
  | _ => True

/-- No `configure_controller` of the history returned ERROR and still left the controller INACTIVE. -/
def CleanRun (o : Oracle) : CM → List Op → Prop
  | _, [] => True
  | cm, op :: t => CleanOp o cm op ∧ CleanRun o (cm.step o op) t

theorem Wired.configure {o : Oracle} {cm : CM} (I : Inv cm) (W : Wired cm) (n : Name) (cfg : CtlCfg) (ord : List Name) (r : Bool)
    (h : CleanOp o cm (.configure n cfg ord r)) : Wired (cm.configure o n cfg ord r).1 := by
  rcases configure_spec o cm n cfg ord r I with ⟨e, K⟩ | ⟨y, d, e, K, _⟩
  · have hn : ¬ (cm.configure o n cfg ord r).1.Ready n := by
      rcases h with h | h
      · rw [e] at h; simp at h
      · exact h
    generalize (cm.configure o n cfg ord r).1 = x at K hn
    refine W.down ⟨?_, fun f _ => by rw [K.refC]; exact List.Subset.refl _, fun f _ => by rw [K.stC]; exact List.Subset.refl _⟩
    intro p d hd hp
    have hpn : p ≠ n := fun e => hn (e ▸ hp)
    have := find_of_others K.others hpn
    refine ⟨?_, d, by rw [← this]; exact hd, rfl, rfl⟩
    unfold Ready CM.lcOf at hp ⊢
    rw [← this]; exact hp
  · rw [e]
    have T := K.topo
    have TT := T.topology
    simp only
    intro p c f hc hp hf
    have rr : (y.topology.reorder ord).refCache = y.topology.refCache := rfl
    have rs : (y.topology.reorder ord).stateCache = y.topology.stateCache := rfl
    rw [rr, rs, topology_ref, topology_st]
    have hy : ∀ m x, (y.topology.reorder ord).find m = some x → ∃ x0, y.find m = some x0 ∧ x0.lc = x.lc ∧ x0.cfg = x.cfg := by
      intro m x hx
      rw [reorder_find TT, (topology_tab y).find_eq] at hx
      cases hm : y.find m with
      | none => rw [hm] at hx; simp at hx
      | some x0 => rw [hm] at hx; simp at hx; exact ⟨x0, rfl, by rw [← hx], by rw [← hx]⟩
    have lf : y.Loaded f := by
      cases hx : (y.topology.reorder ord).find f with
      | none => simp [Ready, lcOf, hx] at hf
      | some x =>
        obtain ⟨x0, h0, _⟩ := hy f x hx
        exact ⟨x0, (find_some h0).1, (find_some h0).2⟩
    obtain ⟨c0, hc0, el, ec⟩ := hy p c hc
    have hl : c0.lc ≠ .unconfigured := by
      rw [el]
      unfold Ready CM.lcOf at hp
      rw [hc] at hp
      simp at hp
      rcases hp with h | h <;> rw [h] <;> decide
    refine ⟨?_, ?_⟩
    · intro l hcl i hi hif
      refine ⟨⟨c0, (find_some hc0).1, (find_some hc0).2, hl, i, ?_, hif⟩, lf⟩
      unfold CM.cmdItfs; rw [ec, hcl]; exact hi
    · intro l hcl i hi hif
      refine ⟨⟨c0, (find_some hc0).1, (find_some hc0).2, hl, i, ?_, hif⟩, lf⟩
      unfold CM.stateItfs; rw [ec, hcl]; exact hi

/-- Every configured controller is in its own chain group. -/
def Grouped (cm : CM) : Prop := ∀ p c, cm.find p = some c → cm.Ready p → p ∈ c.group

theorem Grouped.down {a b : CM} (h : Grouped a) (k : Down a b) : Grouped b := by
  intro p d hd hp
  obtain ⟨k1, c, hc, _, e⟩ := k.ctl p d hd hp
  exact e ▸ h p c hc k1

theorem Grouped.configure {o : Oracle} {cm : CM} (I : Inv cm) (W : Grouped cm) (n : Name) (cfg : CtlCfg) (ord : List Name) (r : Bool)
    (h : CleanOp o cm (.configure n cfg ord r)) : Grouped (cm.configure o n cfg ord r).1 := by
  rcases configure_spec o cm n cfg ord r I with ⟨e, K⟩ | ⟨y, d, e, K, _⟩
  · have hn : ¬ (cm.configure o n cfg ord r).1.Ready n := by
      rcases h with h | h
      · rw [e] at h; simp at h
      · exact h
    generalize (cm.configure o n cfg ord r).1 = x at K hn
    intro p d hd hp
    have hpn : p ≠ n := fun e => hn (e ▸ hp)
    have := find_of_others K.others hpn
    refine W p d (by rw [← this]; exact hd) ?_
    unfold Ready CM.lcOf at hp ⊢
    rw [← this]; exact hp
  · rw [e]
    have TT := K.topo.topology
    simp only
    intro p c hc _
    rw [reorder_find TT] at hc
    cases hm : y.topology.find p with
    | none => rw [hm] at hc; simp at hc
    | some x0 =>
      rw [hm] at hc; simp at hc
      rw [← hc]
      have hp0 := (find_some hm).2
      simp only [hp0]
      have hk1 : ∀ x, ∀ z ∈ y.topology.foll x, z ∈ y.topology.keyOrder ord := fun x z hz => (mem_keyOrder _ _ _).2 (TT.sub x z hz).2
      have hk2 : ∀ x, ∀ z ∈ y.topology.prec x, z ∈ y.topology.keyOrder ord :=
        fun x z hz => (mem_keyOrder _ _ _).2 (TT.sub z x ((TT.sym z x).2 hz)).1
      have hcn : p ∈ y.topology.keyOrder ord := (mem_keyOrder _ _ _).2 ((TT.loaded _).2 (hp0 ▸ List.mem_map_of_mem (find_some hm).1))
      exact (Chain.mem_group hk1 hk2 hcn p).2 .refl

theorem Wired.step {o : Oracle} {cm : CM} (I : Inv cm) (W : Wired cm) (op : Op) (h : CleanOp o cm op) :
    Wired (cm.step o op) := by
  cases op
  case configure n cfg ord r => exact W.configure I n cfg ord r h
  all_goals exact W.down (step_down o I _ (by intros; simp))

theorem Wired.run {o : Oracle} (ops : List Op) : ∀ {cm : CM}, Inv cm → Wired cm → CleanRun o cm ops → Wired (CM.run o cm ops) := by
  induction ops with
  | nil => intro cm _ W _; exact W
  | cons op t ih =>
    intro cm I W h
    exact ih (inv_step o I op) (W.step I op h.1) h.2

theorem Grouped.step {o : Oracle} {cm : CM} (I : Inv cm) (W : Grouped cm) (op : Op) (h : CleanOp o cm op) :
    Grouped (cm.step o op) := by
  cases op
  case configure n cfg ord r => exact W.configure I n cfg ord r h
  all_goals exact W.down (step_down o I _ (by intros; simp))

theorem Grouped.run {o : Oracle} (ops : List Op) : ∀ {cm : CM}, Inv cm → Grouped cm → CleanRun o cm ops → Grouped (CM.run o cm ops) := by
  induction ops with
  | nil => intro cm _ W _; exact W
  | cons op t ih =>
    intro cm I W h
    exact ih (inv_step o I op) (W.step I op h.1) h.2

theorem grouped_start (o : Oracle) (a b : Bool) (specs : List RM.HwSpec) : Grouped (start o a b specs) := by
  intro p c hc
  simp [start, init, find] at hc

theorem wired_start (o : Oracle) (a b : Bool) (specs : List RM.HwSpec) : Wired (start o a b specs) := by
  intro p c f hc
  simp [start, init, find] at hc

end CM
end Verif
