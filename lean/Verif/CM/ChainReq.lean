import Verif.CM.Idle
/-!
# The chained-mode requests of an accepted STRICT switch
-/
namespace Verif

/-- Whatever interfaces are available: could the controller ask for an interface named after `f`? -/
def Ctl.mayUse (c : Ctl) (f : Name) : Prop :=
  ∃ aC aS : List Itf, ∃ i ∈ c.cfg.cmd.resolve aC ++ c.cfg.state.resolve aS, i.pre = f

namespace CM

/-- Validation did not put `f` into the "to" list nor take it out of the "from" list. -/
def Left (f : Name) (a b : CM) : Prop := (f ∈ b.sw.toCh → f ∈ a.sw.toCh) ∧ (f ∈ a.sw.fromCh → f ∈ b.sw.fromCh)

theorem Left.refl (f : Name) (a : CM) : Left f a a := ⟨id, id⟩
theorem Left.trans {f : Name} {a b c : CM} (h : Left f a b) (k : Left f b c) : Left f a c :=
  ⟨fun x => h.1 (k.1 x), fun x => k.2 (h.2 x)⟩

/-- `check_following_controllers_for_activate` does not touch a controller that nobody visited uses. -/
theorem checkFollowing_left (f : Name) (cm0 : CM)
    (hno : ∀ d, cm0.find d.name = some d → (d.name ∉ cm0.sw.deact ∨ d.lc ≠ .active) → ¬ d.mayUse f) :
    ∀ (fuel : Nat) (cm : CM) (c : Ctl), Mild cm0 cm → cm0.find c.name = some c → (c.name ∉ cm0.sw.deact ∨ c.lc ≠ .active) →
      Left f cm (cm.checkFollowing fuel c).1 := by
  intro fuel
  induction fuel with
  | zero => intro cm c _ _ _; exact .refl _ _
  | succ fuel ih =>
    intro cm c hm hc hd
    unfold checkFollowing
    dsimp only
    have key : ∀ (l : List Itf) (acc : CM × Bool), (∀ i ∈ l, i.pre ≠ f) → Mild cm0 acc.1 →
        ∀ F : CM × Bool → Itf → CM × Bool,
        (∀ acc i, Mild cm0 acc.1 → i.pre ≠ f → Left f acc.1 (F acc i).1 ∧ Mild cm0 (F acc i).1) →
        Left f acc.1 (l.foldl F acc).1 := by
      intro l
      induction l with
      | nil => intro acc _ _ F _; exact .refl _ _
      | cons i t iht =>
        intro acc hi hM F hF
        obtain ⟨h1, h2⟩ := hF acc i hM (hi i (by simp))
        exact h1.trans (iht _ (fun j hj => hi j (by simp [hj])) h2 F hF)
    refine key _ (cm, true) ?_ hm _ ?_
    · intro i hi e
      exact hno c hc hd ⟨_, _, i, hi, e⟩
    · intro acc i hM hi
      have mild : ∀ b : CM × Bool, Mild acc.1 b.1 → Mild cm0 b.1 := fun b h => hM.trans h
      split
      · exact ⟨.refl _ _, hM⟩
      split
      · exact ⟨.refl _ _, hM⟩
      rename_i g hg
      have hgn : g.name = i.pre := (find_some hg).2
      have hg0 : cm0.find g.name = some g := by
        rw [hgn]; unfold chainedTo at hg; rw [hM.find] at hg; exact hg
      have hgf : g.name ≠ f := by rw [hgn]; exact hi
      split
      · exact ⟨.refl _ _, hM⟩
      split
      · split <;> exact ⟨.refl _ _, hM⟩
      rename_i hnd
      split
      · exact ⟨.refl _ _, hM⟩
      have hvis : g.name ∉ cm0.sw.deact ∨ g.lc ≠ .active := by
        by_cases h : g.lc = .active
        · left; intro h'; exact hnd ⟨h, by rw [hM.deact]; exact h'⟩
        · exact .inr h
      have hr := ih acc.1 g hM hg0 hvis
      have hMr : Mild cm0 (acc.1.checkFollowing fuel g).1 := hM.trans (Mild.checkFollowing fuel acc.1 g)
      split
      · exact ⟨hr, hMr⟩
      split
      · split
        · exact ⟨hr, hMr⟩
        · split
          · refine ⟨hr.trans ⟨?_, id⟩, ?_⟩
            · intro h
              rcases List.mem_append.1 h with h | h
              · exact h
              · simp only [List.mem_singleton] at h
                exact absurd h.symm hgf
            · exact hMr.trans ((Mild.expS _ _).trans ((Mild.expR { (acc.1.checkFollowing fuel g).1 with
                rm := (acc.1.checkFollowing fuel g).1.rm.exportedStateAvailable g.name } _).trans (Mild.lists _ _ _)))
          · exact ⟨hr, hMr.trans (Mild.expS _ _)⟩
      · refine ⟨hr.trans ⟨id, ?_⟩, hMr.trans (Mild.lists _ _ _)⟩
        intro h
        exact (mem_removeItem_of_ne (Ne.symm hgf)).2 h

/-- Every controller requested to go to chained mode is running and not requested to stop, or requested to start. -/
def ToOk (cm0 cm : CM) : Prop := ∀ n ∈ cm.sw.toCh, ∃ c, cm0.find n = some c ∧
  ((c.lc = .active ∧ n ∉ cm0.sw.deact) ∨ (c.lc ≠ .active ∧ n ∈ cm0.sw.act))

theorem checkFollowing_toOk (cm0 : CM) : ∀ (fuel : Nat) (cm : CM) (c : Ctl), Mild cm0 cm → ToOk cm0 cm →
    ToOk cm0 (cm.checkFollowing fuel c).1 := by
  intro fuel
  induction fuel with
  | zero => intro cm c _ h; exact h
  | succ fuel ih =>
    intro cm c hm h
    unfold checkFollowing
    dsimp only
    have key : ∀ (l : List Itf) (acc : CM × Bool), Mild cm0 acc.1 → ToOk cm0 acc.1 →
        ∀ F : CM × Bool → Itf → CM × Bool,
        (∀ acc i, Mild cm0 acc.1 → ToOk cm0 acc.1 → Mild cm0 (F acc i).1 ∧ ToOk cm0 (F acc i).1) →
        ToOk cm0 (l.foldl F acc).1 := by
      intro l
      induction l with
      | nil => intro acc _ h F _; exact h
      | cons i t iht =>
        intro acc hM hT F hF
        obtain ⟨h1, h2⟩ := hF acc i hM hT
        exact iht _ h1 h2 F hF
    refine key _ (cm, true) hm h _ ?_
    intro acc i hM hT
    split
    · exact ⟨hM, hT⟩
    split
    · exact ⟨hM, hT⟩
    rename_i g hg
    have hgn : g.name = i.pre := (find_some hg).2
    have hg0 : cm0.find g.name = some g := by
      rw [hgn]; unfold chainedTo at hg; rw [hM.find] at hg; exact hg
    split
    · exact ⟨hM, hT⟩
    split
    · split <;> exact ⟨hM, hT⟩
    rename_i hnd
    split
    · exact ⟨hM, hT⟩
    rename_i hna
    have hr := ih acc.1 g hM hT
    have hMr : Mild cm0 (acc.1.checkFollowing fuel g).1 := hM.trans (Mild.checkFollowing fuel acc.1 g)
    split
    · exact ⟨hMr, hr⟩
    split
    · split
      · exact ⟨hMr, hr⟩
      · split
        · refine ⟨hMr.trans ((Mild.expS _ _).trans ((Mild.expR { (acc.1.checkFollowing fuel g).1 with
              rm := (acc.1.checkFollowing fuel g).1.rm.exportedStateAvailable g.name } _).trans (Mild.lists _ _ _))), ?_⟩
          intro n hn
          rcases List.mem_append.1 hn with hn | hn
          · exact hr n hn
          · simp only [List.mem_singleton] at hn
            subst hn
            refine ⟨g, hg0, ?_⟩
            by_cases hl : g.lc = .active
            · exact .inl ⟨hl, fun h' => hnd ⟨hl, by rw [hM.deact]; exact h'⟩⟩
            · refine .inr ⟨hl, ?_⟩
              by_contra h'
              exact hna ⟨hl, by rw [hM.act]; exact h'⟩
        · exact ⟨hMr.trans (Mild.expS _ _), hr⟩
    · exact ⟨hMr.trans (Mild.lists _ _ _), hr⟩

theorem checkActivate_toOk (cm0 : CM) {cm : CM} (n : Name) (hm : Mild cm0 cm) (h : ToOk cm0 cm) :
    ToOk cm0 (cm.checkActivate n).1 := by
  unfold checkActivate
  split
  · exact h
  rename_i c hc
  extract_lets r
  have hr : ToOk cm0 r.1 := by
    simp only [r]; split
    · exact h
    · exact h
    · exact checkFollowing_toOk cm0 _ _ _ hm h
    · exact h
  clear_value r
  split
  · unfold checkFallback
    split
    · exact hr
    · exact hr
    · exact hr
  · exact hr

theorem actLoop_toOk (cm0 : CM) (l : List Name) : ∀ (kept : List Name) (cm : CM), Mild cm0 cm → ToOk cm0 cm →
    (CM.actLoop .strict l kept cm).2 = true → ToOk cm0 (CM.actLoop .strict l kept cm).1 := by
  induction l with
  | nil => intro kept cm _ h _; exact h
  | cons n t ih =>
    intro kept cm hm h hok
    unfold CM.actLoop at hok ⊢
    simp only at hok ⊢
    split
    · rename_i h1
      rw [if_pos h1] at hok
      exact ih _ _ (hm.trans (Mild.checkActivate cm n)) (checkActivate_toOk cm0 n hm h) hok
    · exact checkActivate_toOk cm0 n hm h

theorem checkActivate_left (f : Name) (cm0 : CM)
    (hno : ∀ d, cm0.find d.name = some d → (d.name ∉ cm0.sw.deact ∨ d.lc ≠ .active) → ¬ d.mayUse f)
    {cm : CM} (n : Name) (hm : Mild cm0 cm) : Left f cm (cm.checkActivate n).1 := by
  unfold checkActivate
  split
  · exact .refl _ _
  rename_i c hc
  have hcn := (find_some hc).2
  extract_lets r
  have hr : Left f cm r.1 := by
    simp only [r]; split
    · exact .refl _ _
    · exact .refl _ _
    · rename_i hl
      refine checkFollowing_left f cm0 hno _ _ _ hm ?_ (.inr (by rw [hl]; simp))
      rw [hcn, ← hm.find]; exact hc
    · exact .refl _ _
  clear_value r
  split
  · unfold checkFallback
    split
    · exact hr
    · exact hr
    · exact hr
  · exact hr

theorem actLoop_left (f : Name) (cm0 : CM)
    (hno : ∀ d, cm0.find d.name = some d → (d.name ∉ cm0.sw.deact ∨ d.lc ≠ .active) → ¬ d.mayUse f)
    (l : List Name) : ∀ (kept : List Name) (cm : CM), Mild cm0 cm → Left f cm (CM.actLoop .strict l kept cm).1 := by
  induction l with
  | nil => intro kept cm _; exact .refl _ _
  | cons n t ih =>
    intro kept cm hm
    unfold CM.actLoop
    simp only
    split
    · exact (checkActivate_left f cm0 hno n hm).trans (ih _ _ (hm.trans (Mild.checkActivate cm n)))
    · exact checkActivate_left f cm0 hno n hm

theorem addFromChained_mem (cm : CM) (c : Ctl) (n : Name) :
    (n ∈ cm.sw.fromCh → n ∈ (cm.addFromChained c).sw.fromCh) ∧
    (∀ i ∈ cm.cmdItfs c ++ cm.stateItfs c, ∀ f, cm.find i.pre = some f → f.name = n → n ∈ (cm.addFromChained c).sw.fromCh) := by
  unfold addFromChained
  dsimp only
  generalize cm.cmdItfs c ++ cm.stateItfs c = l
  generalize cm.sw.fromCh = acc
  induction l generalizing acc with
  | nil => exact ⟨id, by simp⟩
  | cons i t ih =>
    simp only [List.foldl_cons]
    obtain ⟨h1, h2⟩ := ih (match cm.chainedTo i with | some f => addItem acc f.name | none => acc)
    refine ⟨fun h => h1 ?_, ?_⟩
    · split
      · exact mem_addItem.2 (.inl h)
      · exact h
    · intro j hj f hf hn
      rcases List.mem_cons.1 hj with rfl | hj
      · apply h1
        unfold chainedTo
        rw [hf]
        exact mem_addItem.2 (.inr hn.symm)
      · exact h2 j hj f hf hn

theorem addFromChained_same (cm : CM) (c : Ctl) : ∃ l, cm.addFromChained c = { cm with sw := { cm.sw with fromCh := l } } :=
  ⟨_, rfl⟩

theorem propagate_toCh (l : List Ctl) : ∀ cm : CM, (cm.propagate l).sw.toCh = cm.sw.toCh := by
  induction l with
  | nil => intro cm; rfl
  | cons c t ih =>
    intro cm
    unfold propagate
    split
    · split
      · rfl
      · rw [ih]; rfl
    · exact ih cm

/-- `propagate_deactivation_of_chained_mode` when all controllers to deactivate are active. -/
theorem propagate_mem {n : Name} {f p : Ctl} {i : Itf} (hfn : f.name = n) (l : List Ctl) : ∀ cm : CM,
    (∀ c ∈ l, c.name ∈ cm.sw.deact → c.lc = .active) → cm.find i.pre = some f → i ∈ cm.cmdItfs p ++ cm.stateItfs p →
    p.name ∈ cm.sw.deact → (n ∈ cm.sw.fromCh ∨ p ∈ l) → n ∈ (cm.propagate l).sw.fromCh := by
  induction l with
  | nil =>
    intro cm _ _ _ _ h
    rcases h with h | h
    · exact h
    · simp at h
  | cons c t ih =>
    intro cm hact hf hi hp h
    unfold propagate
    split
    · rename_i hd
      rw [if_neg (by simp [hact c (by simp) hd])]
      refine ih (cm.addFromChained c) (fun x hx hxd => hact x (by simp [hx]) hxd) hf hi hp ?_
      rcases h with h | h
      · exact .inl ((addFromChained_mem cm c n).1 h)
      · rcases List.mem_cons.1 h with rfl | h
        · exact .inl ((addFromChained_mem cm p n).2 i hi f hf hfn)
        · exact .inr h
    · rename_i hd
      refine ih cm (fun x hx hxd => hact x (by simp [hx]) hxd) hf hi hp ?_
      rcases h with h | h
      · exact .inl h
      · rcases List.mem_cons.1 h with rfl | h
        · exact absurd hp hd
        · exact .inr h

/-- The chained-mode requests of an accepted STRICT request. -/
theorem switchBegin_chain {o : Oracle} {cm : CM} {act deact : List Name} {asap : Bool} (hn : (cm.ctls.map (·.name)).Nodup)
    (hi : cm.sw.toCh = []) (hw : (cm.switchBegin o act deact .strict asap).2 = .wait) :
    (∀ n ∈ (cm.switchBegin o act deact .strict asap).1.sw.toCh, ∃ c, cm.find n = some c ∧
      ((c.lc = .active ∧ n ∉ deact) ∨ (c.lc ≠ .active ∧ n ∈ act))) ∧
    (∀ p f : Ctl, p ∈ cm.ctls → p.name ∈ deact → f ∈ cm.ctls → f.lc = .active →
      (∃ i ∈ cm.cmdItfs p ++ cm.stateItfs p, i.pre = f.name) →
      (∀ d ∈ cm.ctls, d.name ∉ deact → ¬ d.mayUse f.name) →
      f.name ∈ (cm.switchBegin o act deact .strict asap).1.sw.fromCh ∧
      f.name ∉ (cm.switchBegin o act deact .strict asap).1.sw.toCh ∧
      f.name ∈ (cm.switchBegin o act deact .strict asap).1.sw.deact) := by
  unfold CM.switchBegin at hw ⊢
  extract_lets _ sw0 at hw ⊢
  cases hd : cm.listControllers .strict deact with
  | none => simp [hd] at hw
  | some d =>
  cases ha : cm.listControllers .strict act with
  | none => simp [hd, ha] at hw
  | some a =>
  simp only [hd, ha] at hw ⊢
  obtain ⟨rfl, hdl⟩ := listControllers_strict hd
  obtain ⟨rfl, hal⟩ := listControllers_strict ha
  generalize hx : ({ cm with sw := { sw0 with deact := d, act := a } } : CM) = x0 at hw ⊢
  have x0c : x0.ctls = cm.ctls := by rw [← hx]
  have x0f : ∀ n, x0.find n = cm.find n := by intro n; unfold CM.find; rw [x0c]
  have x0rm : x0.rm = cm.rm := by rw [← hx]
  have x0a : x0.sw.act = a := by rw [← hx]
  have x0d : x0.sw.deact = d := by rw [← hx]
  have x0t : x0.sw.toCh = [] := by rw [← hx]; exact hi
  obtain ⟨_, hc⟩ := validate_cases o x0 .strict asap
  rcases hc with hc | ⟨h1, h2, hc⟩
  · rw [hw] at hc; simp at hc
  rcases hc with ⟨k1, _⟩ | ⟨h3, hc⟩
  · rw [hw] at k1; simp at k1
  rcases hc with ⟨k1, _⟩ | W
  · rw [hw] at k1; simp at k1
  have m0 := propagate_mild x0 x0.ctls
  obtain ⟨m1, _⟩ := actLoop_strict _ _ _ h1
  change Mild (x0.propagate x0.ctls) (x0.vAct .strict).1 at m1
  have m1 : Mild x0 (x0.vAct .strict).1 := m0.trans m1
  obtain ⟨e2, hdeact⟩ := deactLoop_strict _ _ _ h2
  change (x0.vDeact .strict).1 = (x0.vAct .strict).1 at e2
  rw [m1.deact, x0d] at hdeact
  obtain ⟨R, C⟩ := conflictLoop_strict _ _ h3
  change Conflict _ (x0.vDeact .strict).1 (x0.vConf .strict).1 R at C
  have dact : ∀ c ∈ x0.ctls, c.name ∈ x0.sw.deact → c.lc = .active := by
    intro c hc hcd
    rw [x0d] at hcd
    obtain ⟨c', hc1, hc2, _⟩ := hdeact c.name hcd
    rw [m1.find, x0f] at hc1
    rw [x0c] at hc
    have := (find_iff hn).2 ⟨hc, rfl⟩
    rw [hc1] at this; simp at this; subst this
    exact hc2
  have tq : ToOk x0 (x0.vAct .strict).1 := by
    refine actLoop_toOk x0 _ _ _ m0 ?_ h1
    intro n hn
    rw [propagate_toCh, x0t] at hn; simp at hn
  have eT : (x0.validate o .strict asap).1.sw.toCh = (x0.vAct .strict).1.sw.toCh := by
    rw [W.sw]; show (x0.vConf .strict).1.sw.toCh = _; rw [C.toCh, e2]
  have eF : (x0.validate o .strict asap).1.sw.fromCh = (x0.vAct .strict).1.sw.fromCh := by
    rw [W.sw]; show (x0.vConf .strict).1.sw.fromCh = _; rw [C.fromCh, e2]
  refine ⟨?_, ?_⟩
  · intro n hn
    rw [eT] at hn
    obtain ⟨c, hc1, hc2⟩ := tq n hn
    rw [x0f] at hc1
    rw [x0d, x0a] at hc2
    exact ⟨c, hc1, hc2⟩
  · intro p f hp hpd hf hfl ⟨i, hi1, hi2⟩ hno
    have hff : cm.find f.name = some f := (find_iff hn).2 ⟨hf, rfl⟩
    have hno' : ∀ d, x0.find d.name = some d → (d.name ∉ x0.sw.deact ∨ d.lc ≠ .active) → ¬ d.mayUse f.name := by
      intro e he hed
      have hem := (find_some he).1
      refine hno e (x0c ▸ hem) ?_
      rw [← x0d]
      intro hmem
      rcases hed with h | h
      · exact h hmem
      · exact h (dact e hem hmem)
    have L := actLoop_left f.name x0 hno' (x0.propagate x0.ctls).sw.act [] _ m0
    change Left f.name (x0.propagate x0.ctls) (x0.vAct .strict).1 at L
    have hfr : f.name ∈ (x0.propagate x0.ctls).sw.fromCh := by
      refine propagate_mem (p := p) (i := i) (f := f) rfl _ _ dact ?_ ?_ ?_ (.inr (x0c ▸ hp))
      · rw [x0f, hi2]; exact hff
      · unfold CM.cmdItfs CM.stateItfs; rw [x0rm]; exact hi1
      · rw [x0d]; exact hpd
    have hfr' := L.2 hfr
    refine ⟨by rw [eF]; exact hfr', ?_, ?_⟩
    · rw [eT]
      intro h
      have := L.1 h
      rw [propagate_toCh, x0t] at this; simp at this
    · rw [W.sw]
      show f.name ∈ (x0.vConf .strict).1.sw.deact
      refine C.all f ?_ hfl (.inr ?_)
      · rw [e2, m1.ctls, x0c]; exact hf
      · rw [e2]; exact hfr'

end CM
end Verif
