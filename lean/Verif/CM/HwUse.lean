import Verif.CM.Stop
import Verif.CM.Wired
/-!
# Every running controller is recorded as a user of the hardware it uses
-/
namespace Verif
namespace CM

theorem switchFinish_lc (x : CM) (n : Name) : x.switchFinish.1.lcOf n = x.lcOf n := by
  unfold switchFinish clear CM.lcOf CM.find
  simp only [List.find?_map]
  have e : ((fun c : Ctl => decide (c.name = n)) ∘ x.evalOne) = (fun c : Ctl => decide (c.name = n)) := by
    funext c; rfl
  rw [e]
  cases x.ctls.find? (fun c => c.name = n) <;> rfl

/-- A controller becomes active only because the pending switch request asks for it, or as somebody's fallback. -/
theorem step_rise (o : Oracle) {cm : CM} (I : Inv cm) (op : Op) :
    Rise (fun n => n ∈ cm.sw.act ∨ cm.IsFallback n) cm (cm.step o op) := by
  cases op <;> simp only [step]
  · rename_i n ch as cfg fb
    intro k hk
    left
    unfold CM.load at hk
    split at hk
    · exact hk
    split at hk
    · exact hk
    split at hk
    · exact hk
    rename_i hn
    extract_lets a cm1 at hk
    split at hk
    swap
    · exact hk
    unfold CM.lcOf CM.find at hk ⊢
    simp only [List.find?_append, cm1, CM.push] at hk
    cases hx : cm.ctls.find? (fun c => c.name = k) with
    | some d => rw [hx] at hk; exact hk
    | none =>
      rw [hx] at hk
      simp [List.find?_cons] at hk
      by_cases e : n = k <;> simp [e] at hk
  · exact Falls.rise (fun k => Falls.configure o k cm _ _ _ _)
  · exact Falls.rise (fun k => Falls.cleanup o k cm _)
  · exact Falls.rise (fun k => Falls.unload o k cm _)
  · split
    · exact .refl _ _
    · intro n hn
      rw [(switchBegin_began o cm _ _ _ _).lcOf] at hn; exact .inl hn
  · intro n hn
    unfold CM.switchWake at hn
    split at hn
    · exact .inl hn
    split at hn
    · split at hn
      · exact .inl hn
      · simp only [switchFinish_lc] at hn; exact .inl hn
    · split at hn
      · simp only [switchFinish_lc] at hn
        exact (Rise.manageSwitch o cm I.sys n hn).imp id .inl
      · exact .inl hn
  · intro n hn
    unfold CM.switchTimeout at hn
    split at hn <;> exact .inl hn
  · refine Falls.rise (fun n => ?_)
    unfold CM.rtRead
    simp only
    have f := RM.rmStep_read o ‹_› I.sys.claims.rm
    split
    · exact (Falls.hw cm f).trans ((Falls.modeChange o n _ _ _ f.inv).trans (Falls.deactivateAll o n _ _))
    · exact Falls.hw cm f
  · exact Rise.rtUpdate o _ _ cm I
  · refine Falls.rise (fun n => ?_)
    unfold CM.rtWrite
    simp only
    have f := RM.rmStep_write o ‹_› I.sys.claims.rm
    split
    · exact Falls.hw cm f
    · exact (Falls.hw cm f).trans ((Falls.modeChange o n _ _ _ f.inv).trans (Falls.deactivateAll o n _ _))
    · exact (Falls.hw cm f).trans ((Falls.modeChange o n _ _ _ f.inv).trans (Falls.deactivateAll o n _ _))
  · intro n hn
    unfold CM.setHw at hn
    split at hn <;> exact .inl hn
  · exact Falls.rise (fun n => Falls.shutdownAll o n cm)

/-- Fallback lists are given at loading time. -/
theorem step_fb (o : Oracle) {cm : CM} (I : Inv cm) (op : Op) : ∀ c ∈ (cm.step o op).ctls,
    (∃ d ∈ cm.ctls, d.fallbacks = c.fallbacks) ∨ ∃ n ch as cfg, op = .load n ch as cfg c.fallbacks := by
  have self : ∀ c ∈ cm.ctls, (∃ d ∈ cm.ctls, d.fallbacks = c.fallbacks) := fun c hc => ⟨c, hc, rfl⟩
  cases op <;> simp only [step] <;> intro c hc
  · rename_i n ch as cfg fb
    unfold CM.load at hc
    split at hc
    · exact .inl (self c hc)
    split at hc
    · exact .inl (self c hc)
    split at hc
    · exact .inl (self c hc)
    extract_lets a cm1 at hc
    split at hc
    swap
    · exact .inl (self c hc)
    simp only [List.mem_append, List.mem_singleton] at hc
    rcases hc with hc | hc
    · exact .inl (self c hc)
    · subst hc; exact .inr ⟨n, ch, as, cfg, rfl⟩
  · exact .inl ((Falls.configure o 0 cm _ _ _ _).2 c hc)
  · exact .inl ((Falls.cleanup o 0 cm _).2 c hc)
  · exact .inl ((Falls.unload o 0 cm _).2 c hc)
  · split at hc
    · exact .inl (self c hc)
    · exact .inl (fb_of_stat (Fwd.switchBegin o cm _ _ _ _ I.sys).stat c hc)
  · exact .inl (fb_of_stat (Fwd.switchWake o cm I).stat c hc)
  · exact .inl (fb_of_stat (Fwd.switchTimeout o Anybody cm).stat c hc)
  · exact .inl (fb_of_stat (Fwd.rtRead o _ cm I.sys).stat c hc)
  · exact .inl (fb_of_stat (Fwd.rtUpdate o _ _ cm I).stat c hc)
  · exact .inl (fb_of_stat (Fwd.rtWrite o _ cm I.sys).stat c hc)
  · exact .inl (fb_of_stat (Fwd.setHw o Anybody cm _ _ I.sys).stat c hc)
  · exact .inl ((Falls.shutdownAll o 0 cm).2 c hc)

/-! ## Recording -/

/-- The component found for the interface `i` (the first one that has it as command or state interface). -/
def _root_.Verif.RM.owner (rm : RM) (i : Itf) : Option Name :=
  (rm.comps.find? (fun h => decide (i ∈ h.cmdItfs) || decide (i ∈ h.stateItfs))).map (·.name)

/-- `n` is recorded as a user of the component that has the interface `i`. -/
def Recorded (rm : RM) (n : Name) (i : Itf) : Prop := ∀ h, rm.owner i = some h → n ∈ rm.usedBy h

theorem owner_static {a b : RM} (h : b.comps.map Hw.static = a.comps.map Hw.static) (i : Itf) : b.owner i = a.owner i := by
  have key : ∀ r : RM, r.owner i = ((r.comps.map Hw.static).find? (fun h => decide (i ∈ h.cmdItfs) || decide (i ∈ h.stateItfs))).map (·.name) := by
    intro r
    unfold RM.owner
    rw [List.find?_map]
    have e : ((fun h : Hw => decide (i ∈ h.cmdItfs) || decide (i ∈ h.stateItfs)) ∘ Hw.static) =
        (fun h => decide (i ∈ h.cmdItfs) || decide (i ∈ h.stateItfs)) := by funext h; rfl
    rw [e]
    cases r.comps.find? (fun h => decide (i ∈ h.cmdItfs) || decide (i ∈ h.stateItfs)) <;> rfl
  rw [key, key, h]

theorem Recorded.used {a b : Sys} (u : Sys.Used a b) {n : Name} {i : Itf} (h : Recorded a.rm n i) : Recorded b.rm n i := by
  intro x hx
  rw [owner_static u.2] at hx
  exact u.1 x (h x hx)

theorem recorded_cacheOne (rm : RM) (n : Name) (i : Itf) : Recorded (rm.cacheOne n i) n i := by
  intro x hx
  unfold RM.cacheOne RM.owner at *
  split
  · rename_i e; rw [e] at hx; simp only [e] at hx; simp at hx
  · rename_i h e
    rw [e] at hx
    simp only [e] at hx
    simp at hx
    simp [hx, mem_addItem]

theorem recorded_cache (n : Name) (l : List Itf) : ∀ (rm : RM), ∀ i ∈ l, Recorded (rm.cacheController n l) n i := by
  induction l with
  | nil => intro rm i h; simp at h
  | cons j t ih =>
    intro rm i hi
    have e : rm.cacheController n (j :: t) = (RM.cacheOne n rm j).cacheController n t := rfl
    rw [e]
    by_cases ht : i ∈ t
    · exact ih _ i ht
    · have : i = j := by simpa [ht] using hi
      subst this
      have h := recorded_cacheOne rm n i
      obtain ⟨u, e2⟩ := RM.cacheController_eq (RM.cacheOne n rm i) n t
      have hu := RM.cacheController_used (RM.cacheOne n rm i) n t
      intro x hx
      refine hu x (h x ?_)
      rw [e2] at hx
      exact hx

/-- `c` lists the interface `i` by name in its configuration. -/
def _root_.Verif.Ctl.lists (c : Ctl) (i : Itf) : Prop :=
  (∃ l, c.cfg.cmd = .individual l ∧ i ∈ l) ∨ ∃ l, c.cfg.state = .individual l ∧ i ∈ l

theorem lists_mem {c : Ctl} {i : Itf} (h : c.lists i) (cm : CM) : i ∈ cm.cmdItfs c ++ cm.stateItfs c := by
  rcases h with ⟨l, e, hi⟩ | ⟨l, e, hi⟩
  · exact List.mem_append_left _ (by unfold CM.cmdItfs; rw [e]; exact hi)
  · exact List.mem_append_right _ (by unfold CM.stateItfs; rw [e]; exact hi)

theorem conflictOne_inactive {s : Strictness} {cm cm' : CM} {c : Ctl} (h : cm.conflictOne s c = some cm') (hl : c.lc = .inactive)
    (hn : c.name ∈ cm'.sw.act) : ∀ i ∈ cm.cmdItfs c ++ cm.stateItfs c, Recorded cm'.rm c.name i := by
  unfold CM.conflictOne at h
  extract_lets n0 restart deact1 act1 inDeact inAct doubleStop deact2 inDeact2 dblAct act2 inAct2 illegal act3 inAct3 at h
  have hr : restart = false := by simp [restart, hl]
  have hd : dblAct = false := by simp [dblAct, hl]
  have hi : illegal = false := by simp [illegal, hl]
  split at h
  · simp at h
  split at h
  · simp at h
  split at h
  · simp at h
  simp only [Option.some.injEq] at h
  have ha : cm'.sw.act = cm.sw.act := by rw [← h]; simp [act3, act2, act1, hi, hd, hr]
  rw [ha] at hn
  have h3 : inAct3 = true := by
    simp only [inAct3, inAct2, inAct, hi, hd, act1, hr]
    simpa [n0] using hn
  have hrm : cm'.rm = cm.rm.cacheController c.name (cm.cmdItfs c ++ cm.stateItfs c) := by
    rw [← h]; simp only [h3, if_true, n0]
  rw [hrm]
  exact recorded_cache _ _ _

theorem conflictOne_act_other {s : Strictness} {cm cm' : CM} {c : Ctl} (h : cm.conflictOne s c = some cm') {n : Name} (hne : n ≠ c.name)
    (hn : n ∈ cm'.sw.act) : n ∈ cm.sw.act := by
  unfold CM.conflictOne at h
  extract_lets n0 restart deact1 act1 inDeact inAct doubleStop deact2 inDeact2 dblAct act2 inAct2 illegal act3 inAct3 at h
  split at h
  · simp at h
  split at h
  · simp at h
  split at h
  · simp at h
  simp only [Option.some.injEq] at h
  have ha : cm'.sw.act = act3 := by rw [← h]
  rw [ha] at hn
  have h3 : n ∈ act2 := by
    simp only [act3] at hn; split at hn
    · exact mem_of_mem_removeItem hn
    · exact hn
  have h2 : n ∈ act1 := by
    simp only [act2] at h3; split at h3
    · exact mem_of_mem_removeItem h3
    · exact h3
  simp only [act1] at h2; split at h2
  · simp only [List.mem_append, List.mem_singleton] at h2
    rcases h2 with h2 | h2
    · exact h2
    · exact absurd h2 hne
  · exact h2

theorem Quiet.usedStep {a b : CM} (h : Quiet a b) : Sys.Used a.abs b.abs := by
  obtain ⟨_, _, _, _, _, rfl, _, _, u⟩ := h
  exact ⟨u, rfl⟩

theorem Quiet.ctls {a b : CM} (h : Quiet a b) : b.ctls = a.ctls := by
  obtain ⟨_, _, _, _, _, rfl, _⟩ := h; rfl

/-- After the loop over the controllers every inactive controller left in the activation request is recorded. -/
theorem conflictLoop_recorded (s : Strictness) (l : List Ctl) : ∀ cm : CM, (conflictLoop s l cm).2 = true → (l.map (·.name)).Nodup →
    ∀ c ∈ l, c.lc = .inactive → c.name ∈ (conflictLoop s l cm).1.sw.act → ∀ i, c.lists i → Recorded (conflictLoop s l cm).1.rm c.name i := by
  induction l with
  | nil => intro cm _ _ c hc; simp at hc
  | cons d t ih =>
    intro cm hr hnd c hc hl hn i hi
    unfold conflictLoop at hr hn ⊢
    split
    · rename_i e; rw [e] at hr; simp at hr
    rename_i cm' e
    simp only [e] at hr hn
    simp only [List.map_cons, List.nodup_cons] at hnd
    rcases List.mem_cons.1 hc with hc | hc
    · subst hc
      have other : ∀ (l : List Ctl) (x : CM), (conflictLoop s l x).2 = true → c.name ∉ l.map (·.name) → c.name ∈ (conflictLoop s l x).1.sw.act → c.name ∈ x.sw.act := by
        intro l
        induction l with
        | nil => intro x _ _ h; exact h
        | cons y u ihu =>
          intro x h1 h2 h3
          unfold conflictLoop at h1 h3
          split at h1
          · simp at h1
          rename_i x' ex
          simp only [ex] at h3
          simp only [List.map_cons, List.mem_cons, not_or] at h2
          exact conflictOne_act_other ex h2.1 (ihu x' h1 h2.2 h3)
      have h1 := other t cm' hr hnd.1 hn
      exact (conflictOne_inactive e hl h1 i (lists_mem hi cm)).used (a := cm'.abs) (Quiet.conflictLoop s t cm').usedStep
    · exact ih cm' hr hnd.2 c hc hl hn i hi

/-- An accepted request: every inactive controller to be activated is recorded. -/
theorem switchBegin_recorded (o : Oracle) (cm : CM) (act deact : List Name) (s : Strictness) (asap : Bool)
    (hw : (cm.switchBegin o act deact s asap).2 = .wait) (hnd : (cm.ctls.map (·.name)).Nodup) (c : Ctl) (hc : c ∈ cm.ctls)
    (hl : c.lc = .inactive) (hn : c.name ∈ (cm.switchBegin o act deact s asap).1.sw.act) (i : Itf) (hi : c.lists i) :
    Recorded (cm.switchBegin o act deact s asap).1.rm c.name i := by
  unfold CM.switchBegin at hw hn ⊢
  extract_lets _ sw0 at hw hn ⊢
  split
  · rename_i e; rw [e] at hw; simp at hw
  rename_i d hd
  simp only [hd] at hw hn
  split
  · rename_i e; rw [e] at hw; simp at hw
  rename_i a ha
  simp only [ha] at hw hn
  generalize hx : ({ cm with sw := { sw0 with deact := d, act := a } } : CM) = x at hw hn
  have hxc : x.ctls = cm.ctls := by rw [← hx]
  rcases (validate_cases o x s asap).2 with ⟨e, _⟩ | ⟨_, _, ⟨e, _⟩ | ⟨h3, ⟨e, _⟩ | W⟩⟩
  · rw [e] at hw; simp at hw
  · rw [e] at hw; simp at hw
  · rw [e] at hw; simp at hw
  · have q1 : Quiet x (x.vDeact s).1 := ((Quiet.propagate x x.ctls).trans (Quiet.actLoop s _ [] _)).trans (Quiet.deactLoop s _ [] _)
    have hcl : (x.vDeact s).1.ctls = cm.ctls := q1.ctls.trans hxc
    rw [W.sw] at hn
    have hrec := conflictLoop_recorded s (x.vDeact s).1.ctls (x.vDeact s).1 h3 (by rw [hcl]; exact hnd) c (by rw [hcl]; exact hc) hl hn i hi
    obtain ⟨es, e⟩ := W.rm
    intro h hh
    rw [e] at hh ⊢
    exact hrec h hh

/-- Only `switch_controller` starts to wait for the real-time loop. -/
theorem step_starts (o : Oracle) {cm : CM} {op : Op} (hp : cm.pending = false) (h : (cm.step o op).pending = true) :
    ∃ act deact s asap, op = .switchBegin act deact s asap ∧ (cm.switchBegin o act deact s asap).2 = .wait := by
  cases op <;> simp only [step] at h
  · rw [(SwSame.load o cm _ _ _ _ _).2, hp] at h; simp at h
  · rw [(SwSame.configure o cm _ _ _ _).2, hp] at h; simp at h
  · rw [(SwSame.cleanup o cm _).2, hp] at h; simp at h
  · rw [(SwSame.unload o cm _).2, hp] at h; simp at h
  · rename_i act deact s asap
    refine ⟨act, deact, s, asap, rfl, ?_⟩
    simp only [hp, Bool.false_eq_true, if_false] at h
    cases hout : (cm.switchBegin o act deact s asap).2 with
    | wait => rfl
    | done r => rw [(switchBegin_done hout).2, hp] at h; simp at h
  · unfold CM.switchWake at h; rw [if_pos hp] at h; rw [hp] at h; simp at h
  · unfold CM.switchTimeout at h; rw [hp] at h; simp [hp] at h
  · rw [(Keeps.rtRead o _ cm).2.1, hp] at h; simp at h
  · rename_i due lock
    obtain ⟨d, r, _, h2, _⟩ := rtUpdate_sw o due lock cm
    rw [h2, hp] at h; simp at h
  · rw [(Keeps.rtWrite o _ cm).2.1, hp] at h; simp at h
  · unfold CM.setHw at h; simp [hp] at h
  · rw [(Keeps.shutdownAll o cm).2.1, hp] at h; simp at h

/-- The invariant: whoever runs, or is about to be started by the pending request, is recorded for every
interface it lists. -/
def UsersKnown (n : Name) (cm : CM) : Prop :=
  ∀ c, cm.find n = some c → (c.lc = .active ∨ (cm.pending = true ∧ n ∈ cm.sw.act ∧ c.lc = .inactive)) → ∀ i, c.lists i → Recorded cm.rm n i

theorem UsersKnown.step {o : Oracle} {cm : CM} (I : Inv cm) (D : Idle cm) {n : Name} (h : UsersKnown n cm) (hf : ¬ cm.IsFallback n) (op : Op) :
    UsersKnown n (cm.step o op) := by
  have hu := step_used o I op
  -- ready before with the same configuration
  have main : ∀ d, (cm.step o op).find n = some d → ((∃ c, cm.find n = some c ∧ c.cfg = d.cfg) ∨ ∃ cfg ord r, op = .configure n cfg ord r) →
      (cm.lcOf n = some .active ∨ (cm.pending = true ∧ n ∈ cm.sw.act ∧ cm.lcOf n = some .inactive)) → 
      (∀ cfg ord r, op ≠ .configure n cfg ord r ∨ cm.pending = true ∨ cm.lcOf n = some .active) → ∀ i, d.lists i → Recorded (cm.step o op).rm n i := by
    intro d hd hcfg hact hop i hi
    have hcfg : ∃ c, cm.find n = some c ∧ c.cfg = d.cfg := by
      rcases hcfg with h | ⟨cfg, ord, r, e⟩
      · exact h
      · subst e
        have same : cm.step o (.configure n cfg ord r) = cm := by
          simp only [CM.step]
          unfold CM.configure
          rcases hop cfg ord r with h | h | h
          · simp at h
          · rw [if_pos h]
          · unfold CM.lcOf at h
            split
            · rfl
            · split
              · rfl
              · rename_i c hc
                rw [hc] at h; simp at h
                rw [if_pos (.inl h)]
        rw [same] at hd
        exact ⟨d, hd, rfl⟩
    obtain ⟨c, hc, e⟩ := hcfg
    have hi' : c.lists i := by unfold Ctl.lists at hi ⊢; rw [e]; exact hi
    have : Recorded cm.rm n i := by
      refine h c hc ?_ i hi'
      unfold CM.lcOf at hact
      rw [hc] at hact
      simpa using hact
    exact this.used hu
  intro d hd hcase
  have hcfg : (cm.step o op).Ready n → ((∃ c, cm.find n = some c ∧ c.cfg = d.cfg) ∨ ∃ cfg ord r, op = .configure n cfg ord r) := by
    intro hr
    by_cases hop : ∃ m cfg ord r, op = .configure m cfg ord r
    · obtain ⟨m, cfg, ord, r, rfl⟩ := hop
      by_cases hm : n = m
      · subst hm; exact .inr ⟨cfg, ord, r, rfl⟩
      · left
        simp only [CM.step] at hd
        rcases configure_spec o cm m cfg ord r I with ⟨_, K⟩ | ⟨y, z, e, K, _⟩
        · rw [find_of_others K.others hm] at hd; exact ⟨d, hd, rfl⟩
        · rw [e] at hd
          have hy : y.find n = cm.find n := find_of_others K.others hm
          have ht := K.topo
          obtain ⟨c, hc, ec⟩ : ∃ c, y.find n = some c ∧ c.cfg = d.cfg := by
            have hm : d ∈ (y.topology.reorder ord).ctls := by unfold CM.find at hd; exact List.mem_of_find?_eq_some hd
            have hnm : d.name = n := by unfold CM.find at hd; simpa using List.find?_some hd
            unfold CM.reorder at hm
            simp only [List.mem_map, List.mem_filterMap] at hm
            obtain ⟨c, ⟨k, _, hc⟩, ec⟩ := hm
            have hk : c.name = k := by unfold CM.find at hc; simpa using List.find?_some hc
            have hcn : c.name = n := by
              rw [← hnm]; split at ec <;> (subst ec; rfl)
            have hc2 : y.topology.find n = some c := by rw [← hcn, hk]; exact hc
            refine ⟨c, ?_, by split at ec <;> (subst ec; rfl)⟩
            rw [(topology_tab y).find] at hc2; exact hc2
          exact ⟨c, hy ▸ hc, ec⟩
    · left
      obtain ⟨_, c, hc, e⟩ := (step_down o I op (fun m cfg ord r e => hop ⟨m, cfg, ord, r, e⟩)).ctl n d hd hr
      exact ⟨c, hc, e.1⟩
  rcases hcase with hl | ⟨hp, ha, hl⟩
  · have hlc : (cm.step o op).lcOf n = some .active := by unfold CM.lcOf; rw [hd]; simp [hl]
    have hr : (cm.step o op).Ready n := .inr hlc
    rcases step_rise o I op n hlc with h1 | h1 | h1
    · exact main d hd (hcfg hr) (.inl h1) (fun _ _ _ => .inr (.inr h1))
    · have hp : cm.pending = true := by
        by_contra hx
        have := (D (by simpa using hx)).act
        rw [this] at h1; simp at h1
      have hready : cm.Ready n := by
        by_cases hop : ∃ m cfg ord r, op = .configure m cfg ord r
        · obtain ⟨m, cfg, ord, r, rfl⟩ := hop
          have : cm.step o (.configure m cfg ord r) = cm := by simp only [CM.step]; unfold CM.configure; rw [if_pos hp]
          rw [this] at hr; exact hr
        · exact ((step_down o I op (fun m cfg ord r e => hop ⟨m, cfg, ord, r, e⟩)).ctl n d hd hr).1
      refine main d hd (hcfg hr) ?_ (fun _ _ _ => .inr (.inl hp))
      rcases hready with h2 | h2
      · exact .inr ⟨hp, h1, h2⟩
      · exact .inl h2
    · exact absurd h1 hf
  · have hlc : (cm.step o op).lcOf n = some .inactive := by unfold CM.lcOf; rw [hd]; simp [hl]
    have hr : (cm.step o op).Ready n := .inl hlc
    cases hpc : cm.pending with
    | true =>
      obtain ⟨⟨x, y, hsw, _⟩, _⟩ := step_pending o I op hpc hp
      rw [hsw] at ha
      have hready : cm.Ready n := by
        by_cases hop : ∃ m cfg ord r, op = .configure m cfg ord r
        · obtain ⟨m, cfg, ord, r, rfl⟩ := hop
          have : cm.step o (.configure m cfg ord r) = cm := by simp only [CM.step]; unfold CM.configure; rw [if_pos hpc]
          rw [this] at hr; exact hr
        · exact ((step_down o I op (fun m cfg ord r e => hop ⟨m, cfg, ord, r, e⟩)).ctl n d hd hr).1
      refine main d hd (hcfg hr) ?_ (fun _ _ _ => .inr (.inl hpc))
      rcases hready with h2 | h2
      · exact .inr ⟨hpc, ha, h2⟩
      · exact .inl h2
    | false =>
      -- only `switch_controller` starts waiting
      obtain ⟨act, deact, s, asap, rfl, hw⟩ := step_starts o hpc hp
      simp only [CM.step, hpc] at ha hd ⊢
      simp only [Bool.false_eq_true, if_false] at ha hd ⊢
      have hlc0 : cm.lcOf n = some .inactive := by
        rw [← (switchBegin_began o cm act deact s asap).lcOf]; unfold CM.lcOf; rw [hd]; simp [hl]
      obtain ⟨c, hc, ec⟩ := find_stat (Fwd.switchBegin o cm act deact s asap I.sys).stat hd
      have hcm : c ∈ cm.ctls := by unfold CM.find at hc; exact List.mem_of_find?_eq_some hc
      have hcn : c.name = n := by unfold CM.find at hc; simpa using List.find?_some hc
      have hcl : c.lc = .inactive := by unfold CM.lcOf at hlc0; rw [hc] at hlc0; simpa using hlc0
      intro i hi
      have hi' : c.lists i := by unfold Ctl.lists at hi ⊢; rw [cfg_of_stat ec]; exact hi
      rw [← hcn] at ha ⊢
      exact switchBegin_recorded o cm act deact s asap hw I.topo.names c hcm hcl ha i hi'

end CM
end Verif
