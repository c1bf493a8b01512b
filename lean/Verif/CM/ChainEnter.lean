import Verif.CM.ChainReq
import Verif.CM.Chained
/-!
# Entering chained mode: the other half of `Verif/CM/ChainReq.lean`
-/
namespace Verif
namespace CM

/-! ## Validation -/

/-- Validation of the activate request only adds to the "to" list and only takes away from the "from" list. -/
def Mono (a b : CM) : Prop := (∀ n ∈ a.sw.toCh, n ∈ b.sw.toCh) ∧ (∀ n ∈ b.sw.fromCh, n ∈ a.sw.fromCh)

theorem Mono.refl (a : CM) : Mono a a := ⟨fun _ h => h, fun _ h => h⟩
theorem Mono.trans {a b c : CM} (h : Mono a b) (k : Mono b c) : Mono a c :=
  ⟨fun n x => k.1 n (h.1 n x), fun n x => h.2 n (k.2 n x)⟩

theorem mem_of_mem_removeItem {l : List Name} {a b : Name} (h : a ∈ removeItem l b) : a ∈ l :=
  List.mem_of_mem_erase h

theorem exportedStateAvailable_sw (cm : CM) (n : Name) :
    ({ cm with rm := cm.rm.exportedStateAvailable n } : CM).sw = cm.sw := rfl

theorem mono_foldl {α : Type} (f : CM × Bool → α → CM × Bool) (l : List α) (b : CM × Bool)
    (h : ∀ b a, a ∈ l → Mono b.1 (f b a).1) : Mono b.1 (l.foldl f b).1 := by
  induction l generalizing b with
  | nil => exact .refl _
  | cons a t ih =>
    simp only [List.foldl_cons]
    exact (h b a (by simp)).trans (ih _ (fun b c hc => h b c (by simp [hc])))

/-- One interface of `check_following_controllers_for_activate`: the body of the loop. -/
def followOne (fuel : Nat) (c : Ctl) (cmd st : List Itf) (acc : CM × Bool) (i : Itf) : CM × Bool :=
  if acc.2 = false then acc
  else
    let cm := acc.1
    match cm.chainedTo i with
    | none => acc
    | some f =>
      if f.chainable = false then (cm, false)
      else if f.lc = .active ∧ f.name ∈ cm.sw.deact then
        if (i ∈ st ∧ c.cfg.state.isAll = true) ∨ (i ∈ cmd ∧ c.cfg.cmd.isAll = true) then acc
        else (cm, false)
      else if f.lc ≠ .active ∧ f.name ∉ cm.sw.act then (cm, false)
      else
        let r := cm.checkFollowing fuel f
        if r.2 = false then r
        else
          let cm := r.1
          if f.chained = false then
            if f.name ∈ cm.sw.toCh then (cm, true)
            else
              let rm1 := cm.rm.exportedStateAvailable f.name
              if i ∈ cmd then
                ({ cm with rm := rm1.referenceAvailable f.name
                           sw := { cm.sw with toCh := cm.sw.toCh ++ [f.name] } }, true)
              else ({ cm with rm := rm1 }, true)
          else ({ cm with sw := { cm.sw with fromCh := removeItem cm.sw.fromCh f.name } }, true)

theorem checkFollowing_succ (cm : CM) (fuel : Nat) (c : Ctl) :
    cm.checkFollowing (fuel + 1) c =
      (cm.cmdItfs c ++ cm.stateItfs c).foldl (followOne fuel c (cm.cmdItfs c) (cm.stateItfs c)) (cm, true) := rfl

theorem followOne_mono (fuel : Nat) (ih : ∀ (cm : CM) (c : Ctl), Mono cm (cm.checkFollowing fuel c).1)
    (c : Ctl) (cmd st : List Itf) (acc : CM × Bool) (i : Itf) : Mono acc.1 (followOne fuel c cmd st acc i).1 := by
  unfold followOne
  split
  · exact .refl _
  simp only
  split
  · exact .refl _
  rename_i g hg
  split
  · exact .refl _
  split
  · split <;> exact .refl _
  split
  · exact .refl _
  have h := ih acc.1 g
  split
  · exact h
  split
  · split
    · exact h
    · split
      · exact h.trans ⟨fun n hn => List.mem_append.2 (.inl hn), fun n hn => hn⟩
      · exact h.trans ⟨fun n hn => hn, fun n hn => hn⟩
  · exact h.trans ⟨fun n hn => hn, fun n hn => mem_of_mem_removeItem hn⟩

theorem Mono.checkFollowing (fuel : Nat) : ∀ (cm : CM) (c : Ctl), Mono cm (cm.checkFollowing fuel c).1 := by
  induction fuel with
  | zero => intro cm c; exact ⟨fun _ h => h, fun _ h => h⟩
  | succ fuel ih =>
    intro cm c
    rw [checkFollowing_succ]
    exact mono_foldl _ _ (cm, true) (fun b a _ => followOne_mono fuel ih _ _ _ b a)

theorem Mono.checkActivate (cm : CM) (n : Name) : Mono cm (cm.checkActivate n).1 := by
  unfold CM.checkActivate
  split
  · exact .refl _
  rename_i c _
  have hf : ∀ x : CM, Mono x (x.checkFallback c).1 := by
    intro x; unfold CM.checkFallback; split <;> exact ⟨fun _ h => h, fun _ h => h⟩
  extract_lets r
  have hr : Mono cm r.1 := by
    simp only [r]; split
    · exact .refl _
    · exact .refl _
    · exact Mono.checkFollowing _ _ _
    · exact .refl _
  clear_value r
  split
  · exact hr.trans (hf _)
  · exact hr

/-- What the search for following controllers found out about the following controller `f` of a controller that names
its interfaces individually. -/
structure Entered (cm0 : CM) (f : Ctl) (b : CM) : Prop where
  chainable : f.chainable = true
  notStopped : f.lc = .active → f.name ∉ cm0.sw.deact
  started : f.lc ≠ .active → f.name ∈ cm0.sw.act
  enter : f.chained = false → f.name ∈ b.sw.toCh

theorem Entered.mono {cm0 : CM} {f : Ctl} {a b : CM} (h : Entered cm0 f a) (k : Mono a b) : Entered cm0 f b :=
  ⟨h.chainable, h.notStopped, h.started, fun x => k.1 _ (h.enter x)⟩

theorem followOne_enter {cm0 : CM} {fuel : Nat} {c : Ctl} {cmd st : List Itf} {acc : CM × Bool} {i : Itf} {f : Ctl}
    (hm : Mild cm0 acc.1) (hf : cm0.find i.pre = some f) (hi : i ∈ cmd) (h1 : c.cfg.cmd.isAll = false)
    (h2 : c.cfg.state.isAll = false) (hok : (followOne fuel c cmd st acc i).2 = true) :
    Entered cm0 f (followOne fuel c cmd st acc i).1 := by
  have hff : acc.1.chainedTo i = some f := by unfold chainedTo; rw [hm.find]; exact hf
  unfold followOne at hok ⊢
  split
  · rename_i h; rw [if_pos h] at hok; rw [h] at hok; simp at hok
  rename_i h; rw [if_neg h] at hok
  simp only [hff] at hok ⊢
  split
  · rename_i g; rw [if_pos g] at hok; simp at hok
  rename_i g1; rw [if_neg g1] at hok
  split
  · rename_i g
    rw [if_pos g, if_neg (by simp [h1, h2])] at hok; simp at hok
  rename_i g2; rw [if_neg g2] at hok
  split
  · rename_i g; rw [if_pos g] at hok; simp at hok
  rename_i g3; rw [if_neg g3] at hok
  split
  · rename_i g; rw [if_pos g] at hok; rw [hok] at g; simp at g
  rename_i g4
  have base : ∀ b : CM, (f.chained = false → f.name ∈ b.sw.toCh) → Entered cm0 f b := by
    intro b hb
    refine ⟨by simpa using g1, ?_, ?_, hb⟩
    · intro hl hd; exact g2 ⟨hl, by rw [hm.deact]; exact hd⟩
    · intro hl
      by_contra hn
      exact g3 ⟨hl, by rw [hm.act]; exact hn⟩
  split
  · split
    · rename_i g6; exact base _ (fun _ => g6)
    · exact base _ (fun _ => by simp)
  · rename_i g5; exact base _ (fun h => absurd h g5)

theorem followOne_mild (fuel : Nat) (c : Ctl) (cmd st : List Itf) (acc : CM × Bool) (i : Itf) :
    Mild acc.1 (followOne fuel c cmd st acc i).1 := by
  unfold followOne
  split
  · exact .refl _
  simp only
  split
  · exact .refl _
  rename_i g hg
  split
  · exact .refl _
  split
  · split <;> exact .refl _
  split
  · exact .refl _
  have h := Mild.checkFollowing fuel acc.1 g
  split
  · exact h
  split
  · split
    · exact h
    · split
      · exact h.trans ((Mild.expS _ _).trans ((Mild.expR { (acc.1.checkFollowing fuel g).1 with
            rm := (acc.1.checkFollowing fuel g).1.rm.exportedStateAvailable g.name } _).trans (Mild.lists _ _ _)))
      · exact h.trans (Mild.expS _ _)
  · exact h.trans (Mild.lists _ _ _)

theorem followOne_sticky (fuel : Nat) (c : Ctl) (cmd st : List Itf) (l : List Itf) (acc : CM × Bool)
    (h : (l.foldl (followOne fuel c cmd st) acc).2 = true) : acc.2 = true := by
  induction l generalizing acc with
  | nil => exact h
  | cons i t ih =>
    have := ih _ h
    by_contra hn
    have hn : acc.2 = false := by simpa using hn
    unfold followOne at this
    rw [if_pos hn, hn] at this
    simp at this

theorem checkFollowing_enter {cm0 cm : CM} (hm : Mild cm0 cm) {fuel : Nat} {c f : Ctl} {i : Itf}
    (hi : i ∈ cm.cmdItfs c) (hf : cm0.find i.pre = some f) (h1 : c.cfg.cmd.isAll = false)
    (h2 : c.cfg.state.isAll = false) (hok : (cm.checkFollowing fuel c).2 = true) :
    Entered cm0 f (cm.checkFollowing fuel c).1 := by
  cases fuel with
  | zero => simp [CM.checkFollowing] at hok
  | succ fuel =>
    rw [checkFollowing_succ] at hok ⊢
    have key : ∀ (l : List Itf) (acc : CM × Bool), i ∈ l → Mild cm0 acc.1 →
        (l.foldl (followOne fuel c (cm.cmdItfs c) (cm.stateItfs c)) acc).2 = true →
        Entered cm0 f (l.foldl (followOne fuel c (cm.cmdItfs c) (cm.stateItfs c)) acc).1 := by
      intro l
      induction l with
      | nil => intro acc h; simp at h
      | cons j t ih =>
        intro acc hj hM hok
        simp only [List.foldl_cons] at hok ⊢
        rcases List.mem_cons.1 hj with rfl | hj
        · have s := followOne_sticky _ _ _ _ _ _ hok
          exact (followOne_enter hM hf hi h1 h2 s).mono
            (mono_foldl _ _ _ (fun b a _ => followOne_mono fuel (Mono.checkFollowing fuel) _ _ _ b a))
        · exact ih _ hj (hM.trans (followOne_mild _ _ _ _ _ _)) hok
    exact key _ (cm, true) (List.mem_append.2 (.inl hi)) hm hok

theorem actLoop_mono (l : List Name) : ∀ (kept : List Name) (cm : CM), Mono cm (CM.actLoop .strict l kept cm).1 := by
  induction l with
  | nil => intro kept cm; exact .refl _
  | cons n t ih =>
    intro kept cm
    unfold CM.actLoop
    simp only
    split
    · exact (Mono.checkActivate cm n).trans (ih _ _)
    · exact Mono.checkActivate cm n

theorem actLoop_enter {cm0 : CM} {p f : Ctl} {i : Itf} (hp : cm0.find p.name = some p) (hl : p.lc = .inactive)
    (hi : ∀ cm, Mild cm0 cm → i ∈ cm.cmdItfs p) (hf : cm0.find i.pre = some f) (h1 : p.cfg.cmd.isAll = false)
    (h2 : p.cfg.state.isAll = false) (l : List Name) : ∀ (kept : List Name) (cm : CM), Mild cm0 cm → p.name ∈ l →
    (CM.actLoop .strict l kept cm).2 = true → Entered cm0 f (CM.actLoop .strict l kept cm).1 := by
  induction l with
  | nil => intro _ _ _ h; simp at h
  | cons n t ih =>
    intro kept cm hm hn hok
    unfold CM.actLoop at hok ⊢
    simp only at hok ⊢
    split at hok
    swap
    · simp at hok
    rename_i hr
    rw [if_pos hr]
    rcases List.mem_cons.1 hn with e | hn
    · subst e
      refine Entered.mono ?_ (actLoop_mono t _ _)
      have hpc : cm.find p.name = some p := by rw [hm.find]; exact hp
      unfold CM.checkActivate at hr ⊢
      simp only [hpc, hl] at hr ⊢
      have hb : ∀ x : CM, Mono x (x.checkFallback p).1 := by
        intro x; unfold CM.checkFallback; split <;> exact ⟨fun _ h => h, fun _ h => h⟩
      split at hr
      · rename_i g
        rw [if_pos g]
        exact (checkFollowing_enter hm (hi cm hm) hf h1 h2 g).mono (hb _)
      · rename_i g; rw [hr] at g; simp at g
    · exact ih _ _ (hm.trans (Mild.checkActivate cm n)) hn hok

/-- Only controllers that are not in chained mode are asked to enter it. -/
def ToUn (cm0 cm : CM) : Prop := ∀ n ∈ cm.sw.toCh, ∀ c, cm0.find n = some c → c.chained = false

theorem ToUn.checkFollowing (cm0 : CM) (fuel : Nat) : ∀ (cm : CM) (c : Ctl), Mild cm0 cm → ToUn cm0 cm →
    ToUn cm0 (cm.checkFollowing fuel c).1 := by
  induction fuel with
  | zero => intro cm c _ h; exact h
  | succ fuel ih =>
    intro cm c hm h
    rw [checkFollowing_succ]
    have key : ∀ (l : List Itf) (cmd st : List Itf) (acc : CM × Bool), Mild cm0 acc.1 → ToUn cm0 acc.1 →
        ToUn cm0 (l.foldl (followOne fuel c cmd st) acc).1 := by
      intro l cmd st
      induction l with
      | nil => intro acc _ h; exact h
      | cons i t iht =>
        intro acc hM hT
        refine iht _ (hM.trans (followOne_mild _ _ _ _ _ _)) ?_
        unfold followOne
        split
        · exact hT
        simp only
        split
        · exact hT
        rename_i g hg
        have hgn : g.name = i.pre := (find_some hg).2
        have hg0 : cm0.find g.name = some g := by
          rw [hgn]; unfold chainedTo at hg; rw [hM.find] at hg; exact hg
        split
        · exact hT
        split
        · split <;> exact hT
        split
        · exact hT
        have hr := ih acc.1 g hM hT
        split
        · exact hr
        split
        · rename_i gc
          split
          · exact hr
          · split
            · intro n hn d hd
              rcases List.mem_append.1 hn with hn | hn
              · exact hr n hn d hd
              · simp only [List.mem_singleton] at hn
                subst hn
                rw [hg0] at hd; simp at hd; subst hd; exact gc
            · exact hr
        · exact hr
    exact key _ _ _ (cm, true) hm h

theorem ToUn.checkActivate (cm0 : CM) {cm : CM} (n : Name) (hm : Mild cm0 cm) (h : ToUn cm0 cm) :
    ToUn cm0 (cm.checkActivate n).1 := by
  unfold CM.checkActivate
  split
  · exact h
  rename_i c hc
  extract_lets r
  have hr : ToUn cm0 r.1 := by
    simp only [r]; split
    · exact h
    · exact h
    · exact ToUn.checkFollowing cm0 _ _ _ hm h
    · exact h
  clear_value r
  split
  · unfold CM.checkFallback
    split <;> exact hr
  · exact hr

theorem ToUn.actLoop (cm0 : CM) (l : List Name) : ∀ (kept : List Name) (cm : CM), Mild cm0 cm → ToUn cm0 cm →
    ToUn cm0 (CM.actLoop .strict l kept cm).1 := by
  induction l with
  | nil => intro kept cm _ h; exact h
  | cons n t ih =>
    intro kept cm hm h
    unfold CM.actLoop
    simp only
    split
    · exact ih _ _ (hm.trans (Mild.checkActivate cm n)) (ToUn.checkActivate cm0 n hm h)
    · exact ToUn.checkActivate cm0 n hm h

theorem addFromChained_not (cm : CM) (c : Ctl) (n : Name) (h : n ∉ cm.sw.fromCh) (hu : ¬ c.mayUse n) :
    n ∉ (cm.addFromChained c).sw.fromCh := by
  unfold addFromChained
  dsimp only
  have hno : ∀ i ∈ cm.cmdItfs c ++ cm.stateItfs c, i.pre ≠ n := fun i hi e => hu ⟨_, _, i, hi, e⟩
  generalize cm.cmdItfs c ++ cm.stateItfs c = l at hno
  generalize cm.sw.fromCh = acc at h
  induction l generalizing acc with
  | nil => exact h
  | cons i t ih =>
    simp only [List.foldl_cons]
    refine ih (fun j hj => hno j (by simp [hj])) _ ?_
    split
    · rename_i g hg
      intro hm
      rcases mem_addItem.1 hm with hm | hm
      · exact h hm
      · exact hno i (by simp) (by rw [hm]; exact ((find_some hg).2).symm)
    · exact h

theorem propagate_not (n : Name) (l : List Ctl) : ∀ cm : CM, n ∉ cm.sw.fromCh →
    (∀ c ∈ l, c.name ∈ cm.sw.deact → ¬ c.mayUse n) → n ∉ (cm.propagate l).sw.fromCh := by
  induction l with
  | nil => intro cm h _; exact h
  | cons c t ih =>
    intro cm h hu
    unfold propagate
    split
    · rename_i hd
      split
      · exact h
      · exact ih (cm.addFromChained c) (addFromChained_not cm c n h (hu c (by simp) hd))
          (fun x hx hxd => hu x (by simp [hx]) hxd)
    · exact ih cm h (fun x hx hxd => hu x (by simp [hx]) hxd)

/-- The chained-mode requests of an accepted STRICT request that starts `p`, which names a command interface of `f`. -/
theorem switchBegin_enter {o : Oracle} {cm : CM} {act deact : List Name} {asap : Bool}
    (hi : cm.sw.toCh = [] ∧ cm.sw.fromCh = []) (hw : (cm.switchBegin o act deact .strict asap).2 = .wait)
    {p f : Ctl} {i : Itf} {lc ls : List Itf} (hp : cm.find p.name = some p) (hpa : p.name ∈ act) (hpl : p.lc = .inactive)
    (hcc : p.cfg.cmd = .individual lc) (hcs : p.cfg.state = .individual ls) (hil : i ∈ lc)
    (hf : cm.find i.pre = some f) (hno : ∀ d ∈ cm.ctls, d.name ∈ deact → ¬ d.mayUse f.name) :
    f.chainable = true ∧ f.name ∉ (cm.switchBegin o act deact .strict asap).1.sw.fromCh ∧
    (f.chained = false → f.name ∈ (cm.switchBegin o act deact .strict asap).1.sw.toCh ∧
      (f.lc = .active → f.name ∈ (cm.switchBegin o act deact .strict asap).1.sw.deact)) ∧
    (f.chained = true → f.name ∉ (cm.switchBegin o act deact .strict asap).1.sw.deact) := by
  unfold CM.switchBegin at hw ⊢
  extract_lets _ sw0 at hw ⊢
  cases hd : cm.listControllers .strict deact with
  | none => simp [hd] at hw
  | some d =>
  cases ha : cm.listControllers .strict act with
  | none => simp [hd, ha] at hw
  | some a =>
  simp only [hd, ha] at hw ⊢
  obtain ⟨rfl, hdl⟩ := listControllers_strict hd
  obtain ⟨rfl, hal⟩ := listControllers_strict ha
  generalize hx : ({ cm with sw := { sw0 with deact := d, act := a } } : CM) = x0 at hw ⊢
  have x0c : x0.ctls = cm.ctls := by rw [← hx]
  have x0f : ∀ n, x0.find n = cm.find n := by intro n; unfold CM.find; rw [x0c]
  have x0a : x0.sw.act = a := by rw [← hx]
  have x0d : x0.sw.deact = d := by rw [← hx]
  have x0t : x0.sw.fromCh = [] := by rw [← hx]; exact hi.2
  obtain ⟨_, hc⟩ := validate_cases o x0 .strict asap
  rcases hc with hc | ⟨h1, h2, hc⟩
  · rw [hw] at hc; simp at hc
  rcases hc with ⟨k1, _⟩ | ⟨h3, hc⟩
  · rw [hw] at k1; simp at k1
  rcases hc with ⟨k1, _⟩ | W
  · rw [hw] at k1; simp at k1
  have m0 := propagate_mild x0 x0.ctls
  obtain ⟨m1, _⟩ := actLoop_strict _ _ _ h1
  change Mild (x0.propagate x0.ctls) (x0.vAct .strict).1 at m1
  have m1 : Mild x0 (x0.vAct .strict).1 := m0.trans m1
  obtain ⟨e2, hdeact⟩ := deactLoop_strict _ _ _ h2
  change (x0.vDeact .strict).1 = (x0.vAct .strict).1 at e2
  rw [m1.deact, x0d] at hdeact
  obtain ⟨R, C⟩ := conflictLoop_strict _ _ h3
  change Conflict _ (x0.vDeact .strict).1 (x0.vConf .strict).1 R at C
  have fn : f.name = i.pre := (find_some hf).2
  have ent : Entered x0 f (x0.vAct .strict).1 := by
    refine actLoop_enter (i := i) (cm0 := x0) (p := p) ?_ hpl ?_ ?_ ?_ ?_ (x0.propagate x0.ctls).sw.act [] _ m0 ?_ h1
    · rw [x0f]; exact hp
    · intro y _; unfold CM.cmdItfs; rw [hcc]; exact hil
    · rw [x0f]; exact hf
    · rw [hcc]; rfl
    · rw [hcs]; rfl
    · rw [m0.act, x0a]; exact hpa
  have mono : Mono (x0.propagate x0.ctls) (x0.vAct .strict).1 := actLoop_mono _ _ _
  have nf : f.name ∉ (x0.vAct .strict).1.sw.fromCh := by
    intro h
    refine propagate_not f.name x0.ctls x0 (by rw [x0t]; simp) ?_ (mono.2 _ h)
    intro c hc hcd
    rw [x0c] at hc; rw [x0d] at hcd
    exact hno c hc hcd
  rw [W.sw]
  refine ⟨ent.chainable, ?_, ?_, ?_⟩
  · show f.name ∉ (x0.vConf .strict).1.sw.fromCh
    rw [C.fromCh, e2]; exact nf
  · intro hch
    refine ⟨?_, ?_⟩
    · show f.name ∈ (x0.vConf .strict).1.sw.toCh
      rw [C.toCh, e2]; exact ent.enter hch
    · intro hl
      show f.name ∈ (x0.vConf .strict).1.sw.deact
      refine C.all f ?_ hl (.inl ?_)
      · rw [e2, m1.ctls, x0c]; exact (find_some hf).1
      · rw [e2]; exact ent.enter hch
  · intro hch
    show f.name ∉ (x0.vConf .strict).1.sw.deact
    rw [C.deact, e2, m1.deact, x0d]
    intro hm
    have ff : cm.find f.name = some f := by rw [fn]; exact hf
    rcases List.mem_append.1 hm with hm | hm
    · obtain ⟨c, hc1, hc2, _⟩ := hdeact f.name hm
      rw [m1.find, x0f, ff] at hc1
      simp at hc1; subst hc1
      exact ent.notStopped hc2 (by rw [x0d]; exact hm)
    · obtain ⟨_, h, _⟩ := C.restart _ hm
      rw [e2] at h
      rcases h with h | h
      · have := ToUn.actLoop x0 (x0.propagate x0.ctls).sw.act [] _ m0 (fun n hn => by
          rw [propagate_toCh, ← hx] at hn
          rw [show ({ cm with sw := { sw0 with deact := d, act := a } } : CM).sw.toCh = [] from hi.1] at hn
          simp at hn) f.name h f (by rw [x0f]; exact ff)
        rw [this] at hch; simp at hch
      · exact nf h

/-! ## The switch itself -/

/-- The controller `n`, if loaded, is in chained mode. -/
def InChained (cm : CM) (n : Name) : Prop := ∀ c, cm.find n = some c → c.chained = true

/-- The controller `n`, if it is active, is in chained mode. -/
def ActInChained (cm : CM) (n : Name) : Prop := ∀ c, cm.find n = some c → c.lc = .active → c.chained = true

/-- The controller `n`, if loaded, is not active. -/
def NotAct (cm : CM) (n : Name) : Prop := ∀ c, cm.find n = some c → c.lc ≠ .active

/-- Steps that leave the mode of `n` alone. -/
def Keep (n : Name) (a b : CM) : Prop := ∀ c, b.find n = some c → ∃ d, a.find n = some d ∧ c.chained = d.chained ∧
  c.chainable = d.chainable

theorem Keep.refl (n : Name) (a : CM) : Keep n a a := fun c h => ⟨c, h, rfl, rfl⟩
theorem Keep.trans {n : Name} {a b c : CM} (h : Keep n a b) (k : Keep n b c) : Keep n a c := by
  intro x hx
  obtain ⟨y, hy, e1, e2⟩ := k x hx
  obtain ⟨z, hz, f1, f2⟩ := h y hy
  exact ⟨z, hz, e1.trans f1, e2.trans f2⟩
theorem Keep.ofFind {n : Name} {a b : CM} (h : b.find n = a.find n) : Keep n a b := fun c hc => ⟨c, h ▸ hc, rfl, rfl⟩
theorem Keep.ofMap {n : Name} {a b : CM} (f : Ctl → Ctl) (h : b.find n = (a.find n).map f)
    (h2 : ∀ c, (f c).chained = c.chained) (h3 : ∀ c, (f c).chainable = c.chainable) : Keep n a b := by
  intro c hc
  rw [h] at hc
  cases hd : a.find n with
  | none => simp [hd] at hc
  | some d => simp [hd] at hc; subst hc; exact ⟨d, rfl, h2 d, h3 d⟩
theorem Keep.foldl {n : Name} {α β : Type} (g : β → CM) (f : β → α → β) (l : List α) (b : β)
    (h : ∀ b, ∀ a ∈ l, Keep n (g b) (g (f b a))) : Keep n (g b) (g (l.foldl f b)) := by
  induction l generalizing b with
  | nil => exact .refl _ _
  | cons a t ih => exact (h b a (by simp)).trans (ih _ (fun b a ha => h b a (by simp [ha])))
theorem Keep.inChained {n : Name} {a b : CM} (h : Keep n a b) (k : a.InChained n) : b.InChained n := by
  intro c hc; obtain ⟨d, hd, e, _⟩ := h c hc; rw [e]; exact k d hd
theorem Keep.chbl {n : Name} {a b : CM} (h : Keep n a b) (k : a.Chbl n) : b.Chbl n := by
  intro c hc; obtain ⟨d, hd, _, e⟩ := h c hc; rw [e]; exact k d hd

theorem Keep.release (n : Name) (cm : CM) (m : Name) : Keep n cm (cm.releaseItfs m) := by
  refine Keep.ofMap _ (find_release cm m n) ?_ ?_ <;> intro c <;> split <;> rfl

theorem Keep.trigger (o : Oracle) (n : Name) (cm : CM) (m : Name) (cb : CtlCb) : Keep n cm (cm.trigger o m cb) := by
  by_cases e : n = m
  · subst e
    obtain ⟨g, hg, h1, h2, _⟩ := find_trigger o cm n cb
    exact Keep.ofMap g hg h1 h2
  · exact Keep.ofFind (find_of_others (others_trigger o cm m cb) e)

theorem Keep.exportsTry (n : Name) (cm : CM) (m : Name) : Keep n cm (cm.exportsUnavailableTry m) := by
  unfold exportsUnavailableTry
  split
  · exact .refl _ _
  · simp only; split <;> exact .ofFind rfl

theorem Keep.setChained_ne (o : Oracle) {n m : Name} (cm : CM) (v : Bool) (e : n ≠ m) : Keep n cm (cm.setChained o m v) :=
  Keep.ofFind (find_of_others (others_setChained o cm m v) e)

theorem deactivateOne_ne (o : Oracle) (cm : CM) {n m : Name} (e : n ≠ m) : (cm.deactivateOne o m).find n = cm.find n := by
  unfold CM.deactivateOne
  split
  · rfl
  split
  · simp only
    have h1 : ((cm.trigger o m .deactivate).releaseItfs m).find n = cm.find n := by
      rw [find_releaseItfs_ne _ e]; exact find_of_others (others_trigger o cm m _) e
    split
    · have h2 : ((((cm.trigger o m .deactivate).releaseItfs m).setChained o m false).exportsUnavailableTry m).find n =
          (((cm.trigger o m .deactivate).releaseItfs m).setChained o m false).find n := by
        unfold exportsUnavailableTry
        split
        · rfl
        · simp only; split <;> rfl
      rw [h2, find_of_others (others_setChained o _ m false) e, h1]
    · exact h1
  · rfl

theorem deactivateAll_ne (o : Oracle) {n : Name} (l : List Name) (cm : CM) (h : n ∉ l) :
    (cm.deactivateAll o l).find n = cm.find n := by
  unfold CM.deactivateAll
  induction l generalizing cm with
  | nil => rfl
  | cons m t ih =>
    simp only [List.mem_cons, not_or] at h
    simp only [List.foldl_cons]
    rw [ih _ h.2, deactivateOne_ne o cm h.1]

theorem setChained_lc (o : Oracle) (cm : CM) (m n : Name) (v : Bool) : (cm.setChained o m v).lcOf n = cm.lcOf n := by
  by_cases e : n = m
  · subst e
    unfold CM.setChained
    split
    · rfl
    split
    · extract_lets a cm1
      split
      · unfold CM.lcOf
        rw [find_modify _ _ _ _ (by intro _; rfl), if_pos rfl]
        show ((cm.find n).map _).map _ = _
        cases cm.find n <;> rfl
      · rfl
    · rfl
  · unfold CM.lcOf; rw [find_of_others (others_setChained o cm m v) e]

theorem notAct_iff {cm : CM} {n : Name} : cm.NotAct n ↔ cm.lcOf n ≠ some .active := by
  unfold NotAct CM.lcOf
  cases cm.find n <;> simp

theorem exportsTry_find (cm : CM) (m n : Name) : (cm.exportsUnavailableTry m).find n = cm.find n := by
  unfold exportsUnavailableTry
  split
  · rfl
  · simp only; split <;> rfl

/-- `deactivateOne` stops a controller whose `on_deactivate` does not answer FAILURE. -/
theorem deactivateOne_halts (o : Oracle) (n : Name) (hstop : ∀ t, o.ctlCb t n .deactivate ≠ .failure) (cm : CM) :
    (cm.deactivateOne o n).NotAct n := by
  unfold CM.deactivateOne
  split
  · rename_i h; intro c hc; rw [h] at hc; simp at hc
  rename_i c hc
  split
  swap
  · rename_i hl; intro d hd; rw [hc] at hd; simp at hd; subst hd; exact hl
  rename_i hl
  have key : ((cm.trigger o n .deactivate).releaseItfs n).lcOf n ≠ some .active := by
    have hrel : ∀ x : CM, (x.releaseItfs n).lcOf n = x.lcOf n := by
      intro x; unfold CM.lcOf; rw [find_release]; cases x.find n <;> simp
    rw [hrel, lcOf_trigger o hc .deactivate (by rw [hl]; rfl)]
    have := hstop cm.rm.tr
    cases h : o.ctlCb cm.rm.tr n .deactivate
    · simp [CtlCb.onSuccess]
    · exact absurd h this
    · simp only; split <;> simp
    · simp only; split <;> simp
  split
  · rw [notAct_iff]
    unfold CM.lcOf at key ⊢
    rw [exportsTry_find]
    have := setChained_lc o ((cm.trigger o n .deactivate).releaseItfs n) n n false
    unfold CM.lcOf at this
    rw [this]; exact key
  · exact notAct_iff.2 key

theorem NotAct.deactivateOne (o : Oracle) (n m : Name) {cm : CM} (h : cm.NotAct n) : (cm.deactivateOne o m).NotAct n := by
  by_cases e : n = m
  · subst e
    unfold CM.deactivateOne
    split
    · exact h
    rename_i c hc
    rw [if_neg (h c hc)]; exact h
  · intro c hc; rw [deactivateOne_ne o cm e] at hc; exact h c hc

theorem deactivateAll_halts (o : Oracle) (n : Name) (hstop : ∀ t, o.ctlCb t n .deactivate ≠ .failure) (l : List Name) :
    ∀ cm : CM, (n ∈ l ∨ cm.NotAct n) → (cm.deactivateAll o l).NotAct n := by
  unfold CM.deactivateAll
  induction l with
  | nil => intro cm h; simpa using h
  | cons m t ih =>
    intro cm h
    simp only [List.foldl_cons]
    apply ih
    rcases h with h | h
    · rcases List.mem_cons.1 h with rfl | h
      · exact .inr (deactivateOne_halts o n hstop cm)
      · exact .inl h
    · exact .inr (h.deactivateOne o n m)

theorem Keep.deactivateOne_chbl (o : Oracle) (n m : Name) {cm : CM} (h : cm.Chbl n) : (cm.deactivateOne o m).Chbl n := by
  by_cases e : n = m
  · subst e
    unfold CM.deactivateOne
    split
    · exact h
    rename_i c hc
    split
    · simp only
      have k : ((cm.trigger o n .deactivate).releaseItfs n).Chbl n :=
        ((Keep.trigger o n cm n .deactivate).trans (Keep.release n _ n)).chbl h
      split
      · exact (Keep.exportsTry n _ n).chbl ((Unch.setChained o n _ n false (fun _ => rfl)).chbl k)
      · exact k
    · exact h
  · intro c hc; rw [deactivateOne_ne o cm e] at hc; exact h c hc

theorem deactivateAll_chbl (o : Oracle) (n : Name) (l : List Name) : ∀ cm : CM, cm.Chbl n → (cm.deactivateAll o l).Chbl n := by
  unfold CM.deactivateAll
  induction l with
  | nil => intro cm h; exact h
  | cons m t ih => intro cm h; exact ih _ (Keep.deactivateOne_chbl o n m h)

/-- Deactivating (in the STRICT roll-back) does not leave `n` running outside chained mode. -/
theorem ActInChained.deactivateOne (o : Oracle) (n m : Name) {cm : CM} (h : cm.ActInChained n) :
    (cm.deactivateOne o m).ActInChained n := by
  by_cases e : n = m
  swap
  · intro c hc; rw [deactivateOne_ne o cm e] at hc; exact h c hc
  subst e
  unfold CM.deactivateOne
  split
  · exact h
  rename_i c hc
  split
  swap
  · exact h
  rename_i hl
  have hch := h c hc hl
  simp only
  have k := (Keep.trigger o n cm n .deactivate).trans (Keep.release n _ n)
  have k1 : ((cm.trigger o n .deactivate).releaseItfs n).InChained n := by
    refine k.inChained ?_
    intro d hd; rw [hc] at hd; simp at hd; subst hd; exact hch
  split
  · intro d hd hdl
    rw [exportsTry_find] at hd
    by_cases ha : ((cm.trigger o n .deactivate).releaseItfs n).NotAct n
    · exfalso
      have hx := setChained_lc o ((cm.trigger o n .deactivate).releaseItfs n) n n false
      unfold CM.lcOf at hx
      rw [hd] at hx
      rw [notAct_iff] at ha
      unfold CM.lcOf at ha
      rw [← hx] at ha
      simp [hdl] at ha
    · have hs : ((cm.trigger o n .deactivate).releaseItfs n).setChained o n false = (cm.trigger o n .deactivate).releaseItfs n := by
        unfold CM.setChained
        split
        · rfl
        · rename_i d' hd'
          rw [if_neg]
          rintro ⟨_, h2⟩
          apply ha
          intro y hy; rw [hd'] at hy; simp at hy; subst hy; exact h2
      rw [hs] at hd
      exact k1 d hd
  · intro d hd _; exact k1 d hd

theorem ActInChained.deactivateAll (o : Oracle) (n : Name) (l : List Name) : ∀ {cm : CM}, cm.ActInChained n →
    (cm.deactivateAll o l).ActInChained n := by
  unfold CM.deactivateAll
  induction l with
  | nil => intro cm h; exact h
  | cons m t ih => intro cm h; exact ih (h.deactivateOne o n m)

theorem switchChained_not (o : Oracle) (n : Name) (l : List Name) (v : Bool) (cm : CM) (h : n ∉ l) :
    Keep n cm (cm.switchChained o l v) := by
  refine Keep.foldl id _ l cm (fun b a ha => ?_)
  simp only [id]
  split
  · exact .refl _ _
  · split
    · exact Keep.setChained_ne o _ _ (by rintro rfl; exact h ha)
    · exact .refl _ _

theorem setChained_in (o : Oracle) (cm : CM) (n : Name) (hacc : ∀ t, o.ctlChained t n true = true)
    (hch : cm.Chbl n) (hl : cm.NotAct n) : (cm.setChained o n true).InChained n := by
  intro c hc
  unfold CM.setChained at hc
  cases hd : cm.find n with
  | none => simp [hd] at hc
  | some d =>
    have h1 : d.chainable = true := hch d hd
    have h2 : d.lc ≠ .active := hl d hd
    rw [hd] at hc
    simp only [h1, h2, ne_eq, not_false_eq_true, and_self, if_true, hacc] at hc
    rw [find_modify _ _ _ _ (by intro _; rfl), if_pos rfl, find_push, hd] at hc
    simp at hc
    rw [← hc]

theorem setChained_chbl (o : Oracle) (cm : CM) (n m : Name) (v : Bool) (h : cm.Chbl n) : (cm.setChained o m v).Chbl n := by
  by_cases e : n = m
  · subst e
    unfold CM.setChained
    split
    · exact h
    split
    · extract_lets a cm1
      split
      · intro d hd
        rw [find_modify _ _ _ _ (by intro _; rfl), if_pos rfl] at hd
        change (cm.find n).map _ = _ at hd
        cases hx : cm.find n with
        | none => simp [hx] at hd
        | some y => simp [hx] at hd; rw [← hd]; exact h y hx
      · exact h
    · exact h
  · exact (Keep.setChained_ne o cm v e).chbl h

theorem setChained_true_keep (o : Oracle) (cm : CM) (n m : Name) (h : cm.InChained n) : (cm.setChained o m true).InChained n := by
  by_cases e : n = m
  · subst e
    unfold CM.setChained
    split
    · exact h
    split
    · extract_lets a cm1
      split
      · intro d hd
        rw [find_modify _ _ _ _ (by intro _; rfl), if_pos rfl] at hd
        change (cm.find n).map _ = _ at hd
        cases hx : cm.find n with
        | none => simp [hx] at hd
        | some y => simp [hx] at hd; rw [← hd]
      · exact h
    · exact h
  · exact (Keep.setChained_ne o cm true e).inChained h

/-- A stopped controller of the "to" list that accepts is in chained mode afterwards. -/
theorem switchChained_in (o : Oracle) (n : Name) (hacc : ∀ t, o.ctlChained t n true = true) (l : List Name) :
    ∀ cm : CM, cm.Chbl n → cm.NotAct n → (n ∈ l ∨ cm.InChained n) → (cm.switchChained o l true).InChained n := by
  unfold CM.switchChained
  induction l with
  | nil => intro cm _ _ h; simpa using h
  | cons m t ih =>
    intro cm hch hl h
    simp only [List.foldl_cons]
    split
    · rename_i hm
      refine ih cm hch hl ?_
      rcases h with h | h
      · rcases List.mem_cons.1 h with rfl | h
        · exact .inr (fun c hc => by rw [hm] at hc; simp at hc)
        · exact .inl h
      · exact .inr h
    · rename_i c hc
      split
      · refine ih _ (setChained_chbl o cm n m true hch) ?_ ?_
        · rw [notAct_iff, setChained_lc]; exact notAct_iff.1 hl
        · rcases h with h | h
          · rcases List.mem_cons.1 h with rfl | h
            · exact .inr (setChained_in o cm n hacc hch hl)
            · exact .inl h
          · exact .inr (setChained_true_keep o cm n m h)
      · rename_i g
        refine ih cm hch hl ?_
        rcases h with h | h
        · rcases List.mem_cons.1 h with rfl | h
          · exact absurd (hl c hc) g
          · exact .inl h
        · exact .inr h

theorem switchChained_true_keep (o : Oracle) (n : Name) (l : List Name) : ∀ cm : CM, cm.InChained n →
    (cm.switchChained o l true).InChained n := by
  unfold CM.switchChained
  induction l with
  | nil => intro cm h; exact h
  | cons m t ih =>
    intro cm h
    simp only [List.foldl_cons]
    split
    · exact ih cm h
    · split
      · exact ih _ (setChained_true_keep o cm n m h)
      · exact ih cm h

theorem Keep.activateOne (o : Oracle) (n : Name) (s : CM × Bool × List Itf) (m : Name) :
    Keep n s.1 (CM.activateOne o s m).1 := by
  unfold CM.activateOne
  split
  · exact .refl _ _
  simp only
  split
  · exact .ofFind rfl
  rename_i c _ rm1 loans _
  split
  · have hm : ∀ x : CM, Keep n x (x.modify m (fun c => { c with held := loans })) := by
      intro x
      by_cases e : n = m
      · subst e
        refine Keep.ofMap (fun c => { c with held := loans }) ?_ (fun _ => rfl) (fun _ => rfl)
        rw [find_modify _ _ _ _ (by intro _; rfl), if_pos rfl]
      · refine Keep.ofFind ?_
        rw [find_modify _ _ _ _ (by intro _; rfl), if_neg e]
    have h0 : Keep n s.1 ({ s.1 with rm := rm1 } : CM) := .ofFind rfl
    have h1 : Keep n s.1 ((({ s.1 with rm := rm1 } : CM).releaseItfs m).modify m (fun c => { c with held := loans })) :=
      (h0.trans (Keep.release _ _ _)).trans (hm _)
    have h2 := h1.trans (Keep.trigger o n _ m .activate)
    split
    · split
      · exact h2.trans (.ofFind rfl)
      · exact h2
    · split
      · exact (h2.trans (Keep.release _ _ _)).trans (.ofFind rfl)
      · exact h2.trans (Keep.release _ _ _)
  · exact .ofFind rfl

theorem activateAll_in (o : Oracle) (n : Name) (cm : CM) (l : List Name) (s : Strictness) (h : cm.InChained n) :
    (cm.activateAll o l s).ActInChained n := by
  unfold CM.activateAll
  have h0 : Keep n cm (cm.preAvailable l) := by
    refine Keep.foldl id _ l cm (fun b a _ => ?_)
    simp only [id]
    split
    · exact .refl _ _
    · split
      · exact .ofFind rfl
      · exact .refl _ _
  have f := h0.trans (Keep.foldl (n := n) (fun b : CM × Bool × List Itf => b.1) (CM.activateOne o) l
    (cm.preAvailable l, true, []) (fun b a _ => Keep.activateOne o n b a))
  have hp : ∀ (x : CM) (a b : List Itf), (x.prepareAndPerform o a b).find n = x.find n := by
    intro x a b; unfold CM.prepareAndPerform; split <;> rfl
  have g : ∀ x : CM, x.InChained n → x.ActInChained n := fun x k c hc _ => k c hc
  simp only
  split
  · intro c hc
    rw [hp] at hc
    exact (g _ (f.inChained h)).deactivateAll o n l c hc
  · split
    · intro c hc; rw [hp] at hc; exact g _ (f.inChained h) c hc
    · exact g _ (f.inChained h)

/-- What `manage_switch` does to a following controller with the requests of `switchBegin_enter`. -/
theorem manageSwitch_enter (o : Oracle) (n : Name) (hacc : ∀ t, o.ctlChained t n true = true)
    (hstop : ∀ t, o.ctlCb t n .deactivate ≠ .failure) (cm : CM) (hch : cm.Chbl n) (hnf : n ∉ cm.sw.fromCh)
    (h : (n ∈ cm.sw.toCh ∧ (n ∈ cm.sw.deact ∨ cm.NotAct n)) ∨ (cm.InChained n ∧ n ∉ cm.sw.deact)) :
    (∃ rm1, cm.manageSwitch o = { cm with rm := rm1, sw := { cm.sw with doSwitch := false } }) ∨
    (cm.manageSwitch o).ActInChained n := by
  unfold CM.manageSwitch
  split
  · exact .inl ⟨_, rfl⟩
  rename_i rm1 _
  refine .inr ?_
  have base : ((({ cm with rm := rm1 } : CM).deactivateAll o cm.sw.deact).switchChained o cm.sw.toCh true).InChained n := by
    rcases h with ⟨h1, h2⟩ | ⟨h1, h2⟩
    · exact switchChained_in o n hacc _ _ (deactivateAll_chbl o n _ _ hch)
        (deactivateAll_halts o n hstop _ _ (h2.imp id (fun x => x))) (.inl h1)
    · refine switchChained_true_keep o n _ _ ?_
      intro c hc
      rw [deactivateAll_ne o _ _ h2] at hc
      exact h1 c hc
  exact activateAll_in o n _ _ _ ((switchChained_not o n _ false _ hnf).inChained base)

end CM
end Verif
