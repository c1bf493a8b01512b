import Verif.CM.Ops
/-!
# What an accepted STRICT switch request has been checked for
-/
namespace Verif

theorem ItfCfg.resolve_mono (cfg : ItfCfg) {a b : List Itf} (h : a ⊆ b) : cfg.resolve a ⊆ cfg.resolve b := by
  intro i hi
  cases cfg with
  | all => exact h hi
  | individual l => exact hi
  | bestEffort l =>
    simp only [ItfCfg.resolve, List.mem_filter, decide_eq_true_eq] at hi ⊢
    exact ⟨hi.1, h hi.2⟩
  | regex p =>
    simp only [ItfCfg.resolve, List.mem_flatMap, List.mem_filter] at hi ⊢
    obtain ⟨q, hq, hi, hqi⟩ := hi
    exact ⟨q, hq, h hi, hqi⟩
  | none => exact hi

namespace CM

/-- Checks of one activate request: more exported interfaces become available, the lists of chained mode
switches change; nothing else (but perhaps the fault flag). -/
def Mild (a b : CM) : Prop :=
  ∃ aS aC f tc fc, b = { a with rm := { a.rm with availS := aS, availC := aC, fault := f },
                                sw := { a.sw with toCh := tc, fromCh := fc } } ∧
    a.rm.availS ⊆ aS ∧ a.rm.availC ⊆ aC ∧ (a.rm.fault = true → f = true) ∧
    (∀ i ∈ aC, i ∈ a.rm.availC ∨ ∃ n l, a.rm.expR n = some l ∧ i ∈ l) ∧
    (∀ i ∈ aS, i ∈ a.rm.availS ∨ ∃ n l, a.rm.expS n = some l ∧ i ∈ l)

theorem Mild.refl (a : CM) : Mild a a :=
  ⟨_, _, _, _, _, rfl, List.Subset.refl _, List.Subset.refl _, id, fun _ h => .inl h, fun _ h => .inl h⟩

theorem Mild.trans {a b c : CM} (h : Mild a b) (k : Mild b c) : Mild a c := by
  obtain ⟨_, _, _, _, _, rfl, h1, h2, h3, h4, h5⟩ := h
  obtain ⟨_, _, _, _, _, rfl, k1, k2, k3, k4, k5⟩ := k
  refine ⟨_, _, _, _, _, rfl, h1.trans k1, h2.trans k2, fun x => k3 (h3 x), ?_, ?_⟩
  · intro i hi
    rcases k4 i hi with hi | hi
    · exact h4 i hi
    · exact .inr hi
  · intro i hi
    rcases k5 i hi with hi | hi
    · exact h5 i hi
    · exact .inr hi

theorem Mild.faulted (a : CM) : Mild a a.faulted :=
  ⟨_, _, _, _, _, rfl, List.Subset.refl _, List.Subset.refl _, fun _ => rfl, fun _ h => .inl h, fun _ h => .inl h⟩

theorem Mild.lists (a : CM) (tc fc : List Name) : Mild a { a with sw := { a.sw with toCh := tc, fromCh := fc } } :=
  ⟨_, _, _, _, _, rfl, List.Subset.refl _, List.Subset.refl _, id, fun _ h => .inl h, fun _ h => .inl h⟩

theorem Mild.expS (a : CM) (n : Name) : Mild a { a with rm := a.rm.exportedStateAvailable n } := by
  unfold RM.exportedStateAvailable
  split
  · rename_i l hl
    exact ⟨_, _, _, _, _, rfl, fun i hi => by simp [hi], List.Subset.refl _, id, fun _ h => .inl h, fun i hi => by
      rcases mem_addItems.1 hi with h | h
      · exact .inl h
      · exact .inr ⟨n, l, hl, h⟩⟩
  · exact ⟨_, _, _, _, _, rfl, List.Subset.refl _, List.Subset.refl _, fun _ => rfl, fun _ h => .inl h, fun _ h => .inl h⟩

theorem Mild.expR (a : CM) (n : Name) : Mild a { a with rm := a.rm.referenceAvailable n } := by
  unfold RM.referenceAvailable
  split
  · rename_i l hl
    exact ⟨_, _, _, _, _, rfl, List.Subset.refl _, fun i hi => by simp [hi], id, fun i hi => by
      rcases mem_addItems.1 hi with h | h
      · exact .inl h
      · exact .inr ⟨n, l, hl, h⟩, fun _ h => .inl h⟩
  · exact ⟨_, _, _, _, _, rfl, List.Subset.refl _, List.Subset.refl _, fun _ => rfl, fun _ h => .inl h, fun _ h => .inl h⟩

theorem Mild.ctls {a b : CM} (h : Mild a b) : b.ctls = a.ctls := by
  obtain ⟨_, _, _, _, _, rfl, _⟩ := h; rfl
theorem Mild.find {a b : CM} (h : Mild a b) (n : Name) : b.find n = a.find n := by
  obtain ⟨_, _, _, _, _, rfl, _⟩ := h; rfl
theorem Mild.act {a b : CM} (h : Mild a b) : b.sw.act = a.sw.act := by
  obtain ⟨_, _, _, _, _, rfl, _⟩ := h; rfl
theorem Mild.deact {a b : CM} (h : Mild a b) : b.sw.deact = a.sw.deact := by
  obtain ⟨_, _, _, _, _, rfl, _⟩ := h; rfl
theorem Mild.actItf {a b : CM} (h : Mild a b) : b.sw.actItf = a.sw.actItf := by
  obtain ⟨_, _, _, _, _, rfl, _⟩ := h; rfl
theorem Mild.deactItf {a b : CM} (h : Mild a b) : b.sw.deactItf = a.sw.deactItf := by
  obtain ⟨_, _, _, _, _, rfl, _⟩ := h; rfl
theorem Mild.refC {a b : CM} (h : Mild a b) : b.refCache = a.refCache := by
  obtain ⟨_, _, _, _, _, rfl, _⟩ := h; rfl
theorem Mild.stC {a b : CM} (h : Mild a b) : b.stateCache = a.stateCache := by
  obtain ⟨_, _, _, _, _, rfl, _⟩ := h; rfl
theorem Mild.claimed {a b : CM} (h : Mild a b) : b.rm.claimed = a.rm.claimed := by
  obtain ⟨_, _, _, _, _, rfl, _⟩ := h; rfl
theorem Mild.availC {a b : CM} (h : Mild a b) : a.rm.availC ⊆ b.rm.availC := by
  obtain ⟨_, _, _, _, _, rfl, _, h, _⟩ := h; exact h
theorem Mild.availS {a b : CM} (h : Mild a b) : a.rm.availS ⊆ b.rm.availS := by
  obtain ⟨_, _, _, _, _, rfl, h, _⟩ := h; exact h
theorem Mild.growC {a b : CM} (h : Mild a b) : ∀ i ∈ b.rm.availC, i ∈ a.rm.availC ∨ ∃ n l, a.rm.expR n = some l ∧ i ∈ l := by
  obtain ⟨_, _, _, _, _, rfl, _, _, _, h, _⟩ := h; exact h
theorem Mild.growS {a b : CM} (h : Mild a b) : ∀ i ∈ b.rm.availS, i ∈ a.rm.availS ∨ ∃ n l, a.rm.expS n = some l ∧ i ∈ l := by
  obtain ⟨_, _, _, _, _, rfl, _, _, _, _, h⟩ := h; exact h
theorem Mild.cmdItfs {a b : CM} (h : Mild a b) (c : Ctl) : a.cmdItfs c ⊆ b.cmdItfs c :=
  ItfCfg.resolve_mono _ h.availC
theorem Mild.stateItfs {a b : CM} (h : Mild a b) (c : Ctl) : a.stateItfs c ⊆ b.stateItfs c :=
  ItfCfg.resolve_mono _ h.availS

theorem mild_foldl {α : Type} (f : CM × Bool → α → CM × Bool) (l : List α) (b : CM × Bool)
    (h : ∀ b a, a ∈ l → Mild b.1 (f b a).1) : Mild b.1 (l.foldl f b).1 := by
  induction l generalizing b with
  | nil => exact .refl _
  | cons a t ih =>
    simp only [List.foldl_cons]
    exact (h b a (by simp)).trans (ih _ (fun b c hc => h b c (by simp [hc])))

theorem Mild.checkFollowing (fuel : Nat) : ∀ (cm : CM) (c : Ctl), Mild cm (cm.checkFollowing fuel c).1 := by
  induction fuel with
  | zero => intro cm c; exact Mild.faulted cm
  | succ fuel ih =>
    intro cm c
    unfold CM.checkFollowing
    apply mild_foldl (b := (cm, true))
    intro acc i _
    simp only
    split
    · exact .refl _
    split
    · exact .refl _
    rename_i f _
    split
    · exact .refl _
    split
    · split <;> exact .refl _
    split
    · exact .refl _
    have hr := ih acc.1 f
    split
    · exact hr
    split
    · split
      · exact hr
      · split
        · exact hr.trans ((Mild.expS _ _).trans ((Mild.expR { (acc.1.checkFollowing fuel f).1 with
            rm := (acc.1.checkFollowing fuel f).1.rm.exportedStateAvailable f.name } _).trans (Mild.lists _ _ _)))
        · exact hr.trans (Mild.expS _ _)
    · exact hr.trans (Mild.lists _ _ _)

theorem Mild.checkFallback (cm : CM) (c : Ctl) : Mild cm (cm.checkFallback c).1 := by
  unfold CM.checkFallback
  split
  · exact .refl _
  · exact .refl _
  · exact .faulted _

theorem Mild.checkActivate (cm : CM) (n : Name) : Mild cm (cm.checkActivate n).1 := by
  unfold CM.checkActivate
  split
  · exact .refl _
  · rename_i c _
    cases c.lc <;> simp only <;> try exact .refl _
    · split
      · exact (Mild.checkFollowing _ cm c).trans (Mild.checkFallback _ c)
      · exact Mild.checkFollowing _ cm c
    · split
      · exact Mild.checkFallback _ c
      · exact .refl _

theorem propagate_mild (cm : CM) (l : List Ctl) : Mild cm (cm.propagate l) := by
  induction l generalizing cm with
  | nil => exact .refl cm
  | cons c t ih =>
    unfold CM.propagate
    split
    · split
      · exact .refl cm
      · exact (Mild.lists cm _ _).trans (ih _)
    · exact ih _

/-- STRICT: the loop over the activate request succeeds only if every check does. -/
theorem actLoop_strict (l : List Name) : ∀ (kept : List Name) (cm : CM), (CM.actLoop .strict l kept cm).2 = true →
    Mild cm (CM.actLoop .strict l kept cm).1 ∧
    ∀ n ∈ l, ∃ x, Mild cm x ∧ (x.checkActivate n).2 = true ∧
      Mild (x.checkActivate n).1 (CM.actLoop .strict l kept cm).1 := by
  induction l with
  | nil => intro kept cm _; exact ⟨.refl cm, by simp⟩
  | cons n t ih =>
    intro kept cm h
    unfold CM.actLoop at h ⊢
    simp only at h ⊢
    split at h
    · rename_i hr
      rw [if_pos hr]
      obtain ⟨h1, h2⟩ := ih _ _ h
      refine ⟨(Mild.checkActivate cm n).trans h1, ?_⟩
      intro m hm
      rcases List.mem_cons.1 hm with rfl | hm
      · exact ⟨cm, .refl cm, hr, h1⟩
      · obtain ⟨x, hx, hx'⟩ := h2 m hm
        exact ⟨x, (Mild.checkActivate cm n).trans hx, hx'⟩
    · simp at h

/-- STRICT: the loop over the deactivate request changes nothing and succeeds only if every check does. -/
theorem deactLoop_strict (l : List Name) : ∀ (kept : List Name) (cm : CM), (CM.deactLoop .strict l kept cm).2 = true →
    (CM.deactLoop .strict l kept cm).1 = cm ∧
    ∀ n ∈ l, ∃ c, cm.find n = some c ∧ c.lc = .active ∧ cm.checkPreceding c = true := by
  induction l with
  | nil => intro kept cm _; exact ⟨rfl, by simp⟩
  | cons n t ih =>
    intro kept cm h
    unfold CM.deactLoop at h ⊢
    cases hc : cm.find n with
    | none => simp [hc] at h
    | some c =>
      simp only [hc] at h ⊢
      split at h
      · rename_i hr
        rw [if_pos hr]
        obtain ⟨h1, h2⟩ := ih _ _ h
        refine ⟨h1, ?_⟩
        intro m hm
        rcases List.mem_cons.1 hm with rfl | hm
        · simp only [Bool.and_eq_true, decide_eq_true_eq] at hr
          exact ⟨c, hc, hr.1, hr.2⟩
        · exact h2 m hm
      · simp at h

/-- What the checks of one activate request say. -/
theorem checkActivate_ok {cm : CM} {n : Name} (h : (cm.checkActivate n).2 = true) :
    ∃ c, cm.find n = some c ∧
      ((c.lc = .inactive ∧ (cm.checkFollowing (cm.ctls.length + 1) c).2 = true) ∨
       (c.lc = .active ∧ n ∈ cm.sw.deact)) ∧
      ∃ x, Mild cm x ∧ (x.checkFallback c).2 = true ∧ Mild x (cm.checkActivate n).1 := by
  unfold CM.checkActivate at h ⊢
  cases hc : cm.find n with
  | none => simp [hc] at h
  | some c =>
    simp only [hc] at h ⊢
    refine ⟨c, rfl, ?_⟩
    cases hl : c.lc <;> simp only [hl] at h ⊢
    · simp at h
    · simp at h
    · split at h
      · rename_i h1
        rw [if_pos h1]
        exact ⟨.inl ⟨trivial, h1⟩, _, Mild.checkFollowing _ cm c, h, Mild.checkFallback _ c⟩
      · rename_i h1; exact absurd h h1
    · split at h
      · rename_i h1
        rw [if_pos h1]
        exact ⟨.inr ⟨trivial, by simpa using h1⟩, cm, .refl cm, h, Mild.checkFallback _ c⟩
      · rename_i h1; exact absurd h h1
    · simp at h

/-- `c` commands or reads an interface named after the loaded controller `f`; not counted when `c` asks for ALL
interfaces and `f` is active but requested to stop. -/
def Needs (cm : CM) (deact : List Name) (c f : Ctl) : Prop :=
  (∃ i ∈ cm.cmdItfs c ++ cm.stateItfs c, cm.find i.pre = some f) ∧
  ¬ (f.lc = .active ∧ f.name ∈ deact ∧ (c.cfg.cmd.isAll = true ∨ c.cfg.state.isAll = true))

/-- A fold that stops at the first failure succeeds only if no element failed. -/
theorem foldl_stop {α : Type} (f : CM × Bool → α → CM × Bool) (hs : ∀ b a, b.2 = false → f b a = b)
    (hm : ∀ b a, Mild b.1 (f b a).1) (l : List α) : ∀ b : CM × Bool, (l.foldl f b).2 = true →
    ∀ a ∈ l, ∃ x : CM × Bool, x.2 = true ∧ Mild b.1 x.1 ∧ (f x a).2 = true := by
  have keep : ∀ (l : List α) (b : CM × Bool), b.2 = false → l.foldl f b = b := by
    intro l
    induction l with
    | nil => intro b _; rfl
    | cons a t ih => intro b hb; simp only [List.foldl_cons, hs b a hb]; exact ih b hb
  induction l with
  | nil => intro b _ a ha; simp at ha
  | cons a t ih =>
    intro b hb x hx
    simp only [List.foldl_cons] at hb
    have h1 : (f b a).2 = true := by
      cases h : (f b a).2 with
      | true => rfl
      | false => rw [keep t _ h, h] at hb; simp at hb
    have h0 : b.2 = true := by
      cases h : b.2 with
      | true => rfl
      | false => rw [hs b a h, h] at h1; simp at h1
    rcases List.mem_cons.1 hx with rfl | hx
    · exact ⟨b, h0, .refl _, h1⟩
    · obtain ⟨y, hy, hm', hy'⟩ := ih _ hb x hx
      exact ⟨y, hy, (hm b a).trans hm', hy'⟩

/-- One level of `check_following_controllers_for_activate`. -/
theorem checkFollowing_level {cm0 : CM} (fuel : Nat) (cm : CM) (hm : Mild cm0 cm) (c : Ctl)
    (h : (cm.checkFollowing (fuel + 1) c).2 = true) (f : Ctl) (hf : cm0.Needs cm0.sw.deact c f) :
    f.chainable = true ∧ ((f.lc = .active ∧ f.name ∉ cm0.sw.deact) ∨ (f.lc ≠ .active ∧ f.name ∈ cm0.sw.act)) ∧
    ∃ x, Mild cm0 x ∧ (x.checkFollowing fuel f).2 = true := by
  obtain ⟨⟨i, hi, hif⟩, hex⟩ := hf
  have hi' : i ∈ cm.cmdItfs c ++ cm.stateItfs c := by
    rcases List.mem_append.1 hi with h | h
    · exact List.mem_append_left _ (hm.cmdItfs c h)
    · exact List.mem_append_right _ (hm.stateItfs c h)
  unfold CM.checkFollowing at h
  have := foldl_stop _ (by intro b a hb; simp [hb]) (by
    intro acc i
    simp only
    split
    · exact .refl _
    split
    · exact .refl _
    rename_i f _
    split
    · exact .refl _
    split
    · split <;> exact .refl _
    split
    · exact .refl _
    have hr := Mild.checkFollowing fuel acc.1 f
    split
    · exact hr
    split
    · split
      · exact hr
      · split
        · exact hr.trans ((Mild.expS _ _).trans ((Mild.expR { (acc.1.checkFollowing fuel f).1 with
            rm := (acc.1.checkFollowing fuel f).1.rm.exportedStateAvailable f.name } _).trans (Mild.lists _ _ _)))
        · exact hr.trans (Mild.expS _ _)
    · exact hr.trans (Mild.lists _ _ _)) _ _ h i hi'
  obtain ⟨x, hx, hmx, hfx⟩ := this
  have hM : Mild cm0 x.1 := hm.trans hmx
  have hif' : x.1.chainedTo i = some f := by unfold CM.chainedTo; rw [hM.find]; exact hif
  simp only [hx, hif', hM.act, hM.deact, Bool.true_eq_false, if_false] at hfx
  split at hfx
  · simp at hfx
  rename_i hch
  split at hfx
  · rename_i hd
    split at hfx
    · rename_i hall
      exact absurd ⟨hd.1, hd.2, hall.elim (fun h => .inr h.2) (fun h => .inl h.2)⟩ hex
    · simp at hfx
  rename_i hd
  split at hfx
  · simp at hfx
  rename_i hna
  refine ⟨by simpa using hch, ?_, x.1, hM, ?_⟩
  · by_cases hl : f.lc = .active
    · exact .inl ⟨hl, fun h => hd ⟨hl, h⟩⟩
    · refine .inr ⟨hl, ?_⟩
      by_contra h
      exact hna ⟨hl, h⟩
  · split at hfx
    · exact hfx
    · rename_i h; simpa using h

/-- `check_following_controllers_for_activate`, all levels. -/
theorem checkFollowing_all {cm0 : CM} : ∀ (fuel : Nat) (cm : CM), Mild cm0 cm → ∀ c : Ctl,
    (cm.checkFollowing fuel c).2 = true → ∀ f, Relation.TransGen (cm0.Needs cm0.sw.deact) c f →
    f.chainable = true ∧ ((f.lc = .active ∧ f.name ∉ cm0.sw.deact) ∨ (f.lc ≠ .active ∧ f.name ∈ cm0.sw.act)) := by
  intro fuel
  induction fuel with
  | zero => intro cm _ c h; simp [CM.checkFollowing] at h
  | succ fuel ih =>
    intro cm hm c h f hf
    rcases Relation.TransGen.head'_iff.1 hf with ⟨g, hcg, hgf⟩
    obtain ⟨h1, h2, x, hx, hxg⟩ := checkFollowing_level fuel cm hm c h g hcg
    rcases Relation.reflTransGen_iff_eq_or_transGen.1 hgf with rfl | hgf
    · exact ⟨h1, h2⟩
    · exact ih x hx g hxg f hgf

/-! ## The conflict loop -/

/-- STRICT: what one controller of the conflict loop adds. -/
theorem conflictOne_strict {cm cm' : CM} {c : Ctl} (h : cm.conflictOne .strict c = some cm') :
    ∃ R : List Name, cm'.sw.act = cm.sw.act ++ R ∧ cm'.sw.deact = cm.sw.deact ++ R ∧
      (R = [] ∨ (R = [c.name] ∧ c.lc = .active ∧ c.name ∉ cm.sw.deact ∧ (c.name ∈ cm.sw.toCh ∨ c.name ∈ cm.sw.fromCh))) ∧
      (c.name ∈ cm'.sw.act → c.lc = .inactive ∨ (c.lc = .active ∧ c.name ∈ cm'.sw.deact)) ∧
      (c.name ∈ cm'.sw.deact → c.lc = .active) ∧
      (c.name ∉ cm'.sw.act → c.name ∈ cm.sw.toCh ∨ c.name ∈ cm.sw.fromCh → c.lc = .active → c.name ∈ cm'.sw.deact) ∧
      cm'.sw.toCh = cm.sw.toCh ∧ cm'.sw.fromCh = cm.sw.fromCh ∧
      cm'.sw.actItf = cm.sw.actItf ++ (if c.name ∈ cm'.sw.act then cm.extract c else []) ∧
      cm'.sw.deactItf = cm.sw.deactItf ++ (if c.name ∈ cm'.sw.deact then cm.extract c else []) ∧
      ∃ u, cm'.rm = { cm.rm with usedBy := u } ∧ cm' = { cm with rm := cm'.rm, sw := cm'.sw } := by
  unfold CM.conflictOne at h
  extract_lets n restart deact1 act1 inDeact inAct doubleStop deact2 inDeact2 dblAct act2 inAct2 illegal act3 inAct3 at h
  split at h
  · simp at h
  rename_i k1
  split at h
  · simp at h
  rename_i k2
  split at h
  · simp at h
  rename_i k3
  simp only [and_true] at k1 k2 k3
  have e1 : doubleStop = false := by simpa using k1
  have e2 : dblAct = false := by simpa using k2
  have e3 : illegal = false := by simpa using k3
  have d2 : deact2 = deact1 := by simp [deact2, e1]
  have a3 : act3 = act1 := by simp [act3, act2, e2, e3]
  have i2 : inDeact2 = inDeact := by simp [inDeact2, e1]
  have i3 : inAct3 = inAct := by simp [inAct3, inAct2, e2, e3]
  injection h with h
  subst h
  refine ⟨if restart then [n] else [], ?_, ?_, ?_, ?_, ?_, ?_, rfl, rfl, ?_, ?_, ?_⟩
  · simp only [a3, act1]; split <;> simp
  · simp only [d2, deact1]; split <;> simp
  · by_cases hr : restart = true
    · right
      rw [if_pos hr]
      simp only [restart, Bool.and_eq_true, decide_eq_true_eq, Bool.not_eq_true', decide_eq_false_iff_not] at hr
      exact ⟨rfl, hr.1.2, hr.2, hr.1.1⟩
    · left; simp [hr]
  · simp only [a3, d2]
    intro hin
    by_cases hl : c.lc = .active
    · right
      refine ⟨hl, ?_⟩
      by_contra hd
      have : inDeact2 = false := by rw [i2]; simpa [inDeact, n] using hd
      simp [dblAct, hl, this, inAct, n, hin] at e2
    · left
      by_contra hli
      have : inDeact2 = false := by
        rw [i2]
        cases hx : inDeact with
        | false => rfl
        | true => simp [doubleStop, hl, hx] at e1
      simp [illegal, hli, this, inAct2, e2, inAct, n, hin] at e3
  · simp only [d2]
    intro hin
    by_contra hl
    simp [doubleStop, hl, inDeact, n, hin] at e1
  · simp only [d2]
    intro _ hch hl
    simp only [deact1]
    split
    · simp [n]
    · rename_i hr
      by_contra hd
      exact hr (by simp [restart, n, hch, hl, hd])
  · simp only [i3, inAct, decide_eq_true_eq, a3, n]
    split <;> simp
  · simp only [i2, inDeact, decide_eq_true_eq, d2, n]
    split <;> simp
  · simp only
    split
    · obtain ⟨u, hu⟩ := RM.cacheController_eq cm.rm n (cm.cmdItfs c ++ cm.stateItfs c)
      exact ⟨u, hu, trivial⟩
    · exact ⟨_, rfl, trivial⟩

/-- What the whole conflict loop adds under STRICT. -/
structure Conflict (l : List Ctl) (cm cm' : CM) (R : List Name) : Prop where
  act : cm'.sw.act = cm.sw.act ++ R
  deact : cm'.sw.deact = cm.sw.deact ++ R
  /-- only running controllers whose chained mode changes are restarted -/
  restart : ∀ n ∈ R, n ∉ cm.sw.deact ∧ (n ∈ cm.sw.toCh ∨ n ∈ cm.sw.fromCh) ∧ ∃ c ∈ l, c.name = n ∧ c.lc = .active
  /-- and all of them -/
  all : ∀ c ∈ l, c.lc = .active → (c.name ∈ cm.sw.toCh ∨ c.name ∈ cm.sw.fromCh) → c.name ∈ cm'.sw.deact
  toCh : cm'.sw.toCh = cm.sw.toCh
  fromCh : cm'.sw.fromCh = cm.sw.fromCh
  only : ∃ u, cm' = { cm with rm := { cm.rm with usedBy := u }, sw := cm'.sw }

theorem conflictLoop_strict (l : List Ctl) : ∀ cm : CM, (conflictLoop .strict l cm).2 = true →
    ∃ R, Conflict l cm (conflictLoop .strict l cm).1 R := by
  induction l with
  | nil => intro cm _; exact ⟨[], by simp [conflictLoop], by simp [conflictLoop], by simp, by simp, rfl, rfl, cm.rm.usedBy, rfl⟩
  | cons c t ih =>
    intro cm h
    unfold conflictLoop at h ⊢
    cases hc : cm.conflictOne .strict c with
    | none => simp [hc] at h
    | some cm1 =>
      simp only [hc] at h ⊢
      obtain ⟨R1, a1, d1, r1, _, _, n1, t1, f1, _, _, u1, e1, e1'⟩ := conflictOne_strict hc
      obtain ⟨R, C⟩ := ih cm1 h
      refine ⟨R1 ++ R, ?_, ?_, ?_, ?_, C.toCh.trans t1, C.fromCh.trans f1, ?_⟩
      · rw [C.act, a1, List.append_assoc]
      · rw [C.deact, d1, List.append_assoc]
      · intro n hn
        rcases List.mem_append.1 hn with hn | hn
        · rcases r1 with r1 | ⟨r1, ra, rd, rc⟩
          · rw [r1] at hn; simp at hn
          · rw [r1] at hn
            simp only [List.mem_singleton] at hn
            subst hn
            exact ⟨rd, rc, c, by simp, rfl, ra⟩
        · obtain ⟨k1, k2, c', k3, k4⟩ := C.restart n hn
          rw [t1, f1] at k2
          refine ⟨fun hd => k1 (by rw [d1]; exact List.mem_append_left _ hd), k2, c', by simp [k3], k4⟩
      · intro x hx hxl hxc
        rcases List.mem_cons.1 hx with rfl | hx
        · rw [C.deact]
          apply List.mem_append_left
          by_cases hin : x.name ∈ cm1.sw.act
          · rename_i k4 _ _ _
            rcases k4 hin with h | h
            · rw [hxl] at h; simp at h
            · exact h.2
          · exact n1 hin hxc hxl
        · exact C.all x hx hxl (by rw [t1, f1]; exact hxc)
      · obtain ⟨u2, e2⟩ := C.only
        refine ⟨u2, ?_⟩
        rw [e2, e1', e1]

/-! ## `list_controllers` -/

theorem listStep_aborted (cm : CM) (s : Strictness) (t : List Name) (x : Bool × Bool × List Name) (hx : x.1 = true) :
    t.foldl (cm.listStep s) x = x := by
  induction t with
  | nil => rfl
  | cons m t ih =>
    have : cm.listStep s x m = x := by simp [listStep, hx]
    simp only [List.foldl_cons, this]; exact ih

theorem listControllers_strict {cm : CM} {l r : List Name} (h : cm.listControllers .strict l = some r) :
    r = l ∧ ∀ n ∈ l, ∃ c, cm.find n = some c := by
  have key : ∀ (l : List Name) (acc : List Name),
      (l.foldl (cm.listStep .strict) (false, true, acc)).2.1 = true →
      (l.foldl (cm.listStep .strict) (false, true, acc)).2.2 = acc ++ l ∧ ∀ n ∈ l, ∃ c, cm.find n = some c := by
    intro l
    induction l with
    | nil => intro acc _; simp
    | cons n t ih =>
      intro acc
      simp only [List.foldl_cons]
      cases hf : cm.find n with
      | none =>
        have : cm.listStep .strict (false, true, acc) n = (true, false, acc) := by simp [listStep, hf]
        rw [this]
        intro h
        rw [listStep_aborted _ _ _ _ rfl] at h
        simp at h
      | some c =>
        have : cm.listStep .strict (false, true, acc) n = (false, true, acc ++ [n]) := by simp [listStep, hf]
        rw [this]
        intro h
        obtain ⟨h1, h2⟩ := ih (acc ++ [n]) h
        refine ⟨by simpa using h1, ?_⟩
        intro m hm
        rcases List.mem_cons.1 hm with rfl | hm
        · exact ⟨c, hf⟩
        · exact h2 m hm
  unfold listControllers at h
  dsimp only at h
  split at h
  · rename_i hk
    obtain ⟨k1, k2⟩ := key l [] hk
    injection h with h
    exact ⟨by rw [← h]; simpa using k1, k2⟩
  · simp at h

/-! ## Fallback controllers -/

theorem Chk.all_ok {α : Type} {f : α → Chk} {l : List α} (h : Chk.all f l = .ok) : ∀ a ∈ l, f a = .ok := by
  induction l with
  | nil => simp
  | cons a t ih =>
    unfold Chk.all at h
    intro x hx
    split at h
    · rename_i h1
      rcases List.mem_cons.1 hx with rfl | hx
      · exact h1
      · exact ih h x hx
    · rename_i h1; exact absurd h h1

/-- Interface `i` can be used by a fallback controller of `c`: it is available, or it belongs to a loaded
controller that is not inactive, or to an inactive one that exports it and is itself a fallback of `c`. -/
def FallbackItf (cm : CM) (avail : List Itf) (exp : Name → Option (List Itf)) (c : Ctl) (i : Itf) : Prop :=
  i ∈ avail ∨ ∃ f, cm.find i.pre = some f ∧
    (f.lc ≠ .inactive ∨ (f.name ∈ c.fallbacks ∧ ∃ l, exp f.name = some l ∧ i ∈ l))

/-- The fallback controllers of `c` are loaded, configured, and their interfaces can be used, when `aC` and `aS`
are the available interfaces. -/
def FallbacksOk (cm : CM) (aC aS : List Itf) (c : Ctl) : Prop :=
  ∀ n ∈ c.fallbacks, ∃ d, cm.find n = some d ∧ (d.lc = .inactive ∨ d.lc = .active) ∧
    (∀ i ∈ d.cfg.cmd.resolve aC, cm.FallbackItf aC cm.rm.expR c i) ∧
    (∀ i ∈ d.cfg.state.resolve aS, cm.FallbackItf aS cm.rm.expS c i)

theorem fallbackItf_ok {cm : CM} {c : Ctl} {avail : List Itf} {exp : Name → Option (List Itf)} {i : Itf}
    (h : cm.fallbackItf c avail exp i = .ok) : cm.FallbackItf avail exp c i := by
  unfold CM.fallbackItf at h
  split at h
  · rename_i h1; exact .inl h1
  · split at h
    · simp at h
    · rename_i f hf
      refine .inr ⟨f, hf, ?_⟩
      split at h
      · split at h
        · rename_i hfb
          split at h
          · rename_i l hl
            split at h
            · rename_i hi; exact .inr ⟨hfb, l, hl, hi⟩
            · simp at h
          · simp at h
        · simp at h
      · rename_i hl; exact .inl hl

theorem checkFallback_ok {cm : CM} {c : Ctl} (h : (cm.checkFallback c).2 = true) :
    cm.FallbacksOk cm.rm.availC cm.rm.availS c := by
  unfold CM.checkFallback at h
  split at h
  · rename_i hk
    intro n hn
    have h1 := Chk.all_ok hk n hn
    unfold CM.fallbackOne at h1
    split at h1
    · simp at h1
    · rename_i d hd
      split at h1
      · rename_i hl
        split at h1
        · rename_i hcmd
          exact ⟨d, hd, hl, fun i hi => fallbackItf_ok (Chk.all_ok hcmd i hi), fun i hi => fallbackItf_ok (Chk.all_ok h1 i hi)⟩
        · rename_i hne; exact absurd h1 hne
      · simp at h1
  · simp at h
  · simp at h

theorem Mild.fallbacksOk {a b : CM} (h : Mild a b) {c : Ctl} {aC aS : List Itf} (k : b.FallbacksOk aC aS c) :
    a.FallbacksOk aC aS c := by
  obtain ⟨_, _, _, _, _, rfl, _⟩ := h; exact k

/-! ## The whole validation -/

/-- Everything a STRICT request that is not answered with ERROR at once has been checked for, in terms of the state
at the call. -/
structure StrictOk (cm cm' : CM) (act deact : List Name) : Prop where
  actOk : ∀ n ∈ act, ∃ c, cm.find n = some c ∧ ((c.lc = .inactive ∧
      ∀ f, Relation.TransGen (cm.Needs deact) c f →
        f.chainable = true ∧ ((f.lc = .active ∧ f.name ∉ deact) ∨ (f.lc ≠ .active ∧ f.name ∈ act))) ∨
    (c.lc = .active ∧ n ∈ deact)) ∧
    ∃ aC aS, cm.rm.availC ⊆ aC ∧ cm.rm.availS ⊆ aS ∧ aC ⊆ cm'.rm.availC ∧ aS ⊆ cm'.rm.availS ∧ cm.FallbacksOk aC aS c
  deactOk : ∀ n ∈ deact, ∃ c, cm.find n = some c ∧ c.lc = .active ∧
    (c.chainable = true → ∀ p ∈ cm.stateCache n ++ cm.refCache n, ∀ pc, cm.find p = some pc →
      ¬ (pc.lc = .inactive ∧ p ∈ act) ∧ ¬ (pc.lc = .active ∧ p ∉ deact))

theorem FallbacksOk.of_eq {a b : CM} (hc : b.ctls = a.ctls) (hR : b.rm.expR = a.rm.expR) (hS : b.rm.expS = a.rm.expS)
    {c : Ctl} {aC aS : List Itf} (k : b.FallbacksOk aC aS c) : a.FallbacksOk aC aS c := by
  have hf : ∀ n, b.find n = a.find n := by intro n; unfold CM.find; rw [hc]
  intro n hn
  obtain ⟨d, hd, h1, h2, h3⟩ := k n hn
  refine ⟨d, by rw [← hf]; exact hd, h1, ?_, ?_⟩
  · intro i hi
    rcases h2 i hi with h | ⟨f, h, h'⟩
    · exact .inl h
    · exact .inr ⟨f, by rw [← hf]; exact h, by rw [← hR]; exact h'⟩
  · intro i hi
    rcases h3 i hi with h | ⟨f, h, h'⟩
    · exact .inl h
    · exact .inr ⟨f, by rw [← hf]; exact h, by rw [← hS]; exact h'⟩

/-- A controller without the flag `skip_async_triggers_`. -/
def _root_.Verif.Ctl.noSkip (c : Ctl) : Ctl := { c with skipAsync := false }

/-- Nothing but the request, the available lists, the hardware usage cache, the history, the flags
`skip_async_triggers_`, the fault flag, and whether a call is waiting changes. -/
structure Began (a b : CM) : Prop where
  ctls : b.ctls.map Ctl.noSkip = a.ctls.map Ctl.noSkip
  comps : b.rm.comps = a.rm.comps
  claimed : b.rm.claimed = a.rm.claimed
  expR : b.rm.expR = a.rm.expR
  expS : b.rm.expS = a.rm.expS
  keysC : b.rm.cmdKeys = a.rm.cmdKeys
  keysS : b.rm.stateKeys = a.rm.stateKeys
  foll : b.foll = a.foll
  prec : b.prec = a.prec
  refC : b.refCache = a.refCache
  stC : b.stateCache = a.stateCache
  dropped : b.dropped = a.dropped

theorem Began.refl (a : CM) : Began a a := ⟨rfl, rfl, rfl, rfl, rfl, rfl, rfl, rfl, rfl, rfl, rfl, rfl⟩
theorem Began.trans {a b c : CM} (h : Began a b) (k : Began b c) : Began a c :=
  ⟨k.ctls.trans h.ctls, k.comps.trans h.comps, k.claimed.trans h.claimed, k.expR.trans h.expR, k.expS.trans h.expS,
   k.keysC.trans h.keysC, k.keysS.trans h.keysS, k.foll.trans h.foll, k.prec.trans h.prec, k.refC.trans h.refC,
   k.stC.trans h.stC, k.dropped.trans h.dropped⟩

theorem Quiet.began {a b : CM} (h : Quiet a b) : Began a b := by
  obtain ⟨_, _, _, _, _, rfl, _⟩ := h
  exact ⟨rfl, rfl, rfl, rfl, rfl, rfl, rfl, rfl, rfl, rfl, rfl, rfl⟩

theorem prepareDeact_began (cm : CM) (l : List Name) : Began cm (cm.prepareDeact l) ∧ (cm.prepareDeact l).rm = cm.rm ∧
    (cm.prepareDeact l).sw = cm.sw := by
  unfold CM.prepareDeact
  induction l generalizing cm with
  | nil => exact ⟨.refl _, rfl, rfl⟩
  | cons n t ih =>
    simp only [List.foldl_cons]
    obtain ⟨h1, h2, h3⟩ := ih (cm.modify n (fun c => { c with skipAsync := true }))
    refine ⟨Began.trans ?_ h1, h2, h3⟩
    refine ⟨?_, rfl, rfl, rfl, rfl, rfl, rfl, rfl, rfl, rfl, rfl, rfl⟩
    simp only [CM.modify, List.map_map]
    apply List.map_congr_left
    intro c _
    simp only [Function.comp_apply]
    split <;> rfl

theorem prepareSwitch_only (o : Oracle) (rm : RM) (a b : List Itf) : ∃ es, (rm.prepareSwitch o a b).1 = { rm with tr := es ++ rm.tr } := by
  unfold RM.prepareSwitch
  split
  · exact ⟨[], rfl⟩
  split
  · exact ⟨[], rfl⟩
  split
  · exact ⟨[], rfl⟩
  · obtain ⟨es, e, _⟩ := RM.modeSwitch_ext o true rm a b
    exact ⟨es, e⟩

theorem Began.rmTr {a : CM} (es : List Ev) : Began a { a with rm := { a.rm with tr := es ++ a.rm.tr } } :=
  ⟨rfl, rfl, rfl, rfl, rfl, rfl, rfl, rfl, rfl, rfl, rfl, rfl⟩

theorem Began.sw {a : CM} (s : Sw) (p : Bool) : Began a { a with sw := s, pending := p } :=
  ⟨rfl, rfl, rfl, rfl, rfl, rfl, rfl, rfl, rfl, rfl, rfl, rfl⟩

/-- The three loops of the validation. -/
def vAct (s : Strictness) (cm : CM) : CM × Bool := actLoop s (cm.propagate cm.ctls).sw.act [] (cm.propagate cm.ctls)
def vDeact (s : Strictness) (cm : CM) : CM × Bool := deactLoop s (cm.vAct s).1.sw.deact [] (cm.vAct s).1
def vConf (s : Strictness) (cm : CM) : CM × Bool := conflictLoop s (cm.vDeact s).1.ctls (cm.vDeact s).1

/-- The request waits for the real-time loop; `x` is the state after the conflict loop. -/
structure Waits (s : Strictness) (asap : Bool) (x : CM) (r : CM × SwOut) : Prop where
  out : r.2 = .wait
  avail : x.checkAvailability.1 = true
  sw : r.1.sw = { x.sw with strict := s, asap := asap, ready := false, doSwitch := true }
  pending : r.1.pending = true
  rm : ∃ es, r.1.rm = { x.rm with tr := es ++ x.rm.tr }

/-- The outcomes of the validation. -/
theorem validate_cases (o : Oracle) (cm : CM) (s : Strictness) (asap : Bool) :
    Began cm (cm.validate o s asap).1 ∧ 
    (((cm.validate o s asap).2 = .done .error ∧ (cm.validate o s asap).1.pending = cm.pending) ∨
     ((cm.vAct s).2 = true ∧ (cm.vDeact s).2 = true ∧
      (((cm.validate o s asap).2 = .done .ok ∧ (cm.validate o s asap).1.pending = cm.pending ∧
          (cm.vDeact s).1.sw.act = [] ∧ (cm.vDeact s).1.sw.deact = []) ∨
       ((cm.vConf s).2 = true ∧
        (((cm.validate o s asap).2 = .done .ok ∧ (cm.validate o s asap).1.pending = cm.pending ∧
          (cm.vConf s).1.sw.act = [] ∧ (cm.vConf s).1.sw.deact = []) ∨
         Waits s asap (cm.vConf s).1 (cm.validate o s asap)))))) := by
  have e : cm.validate o s asap =
      if (cm.vAct s).2 = false then ((cm.vAct s).1.clear, .done .error)
      else if (cm.vDeact s).2 = false then ((cm.vDeact s).1.clear, .done .error)
      else if (cm.vDeact s).1.sw.act = [] ∧ (cm.vDeact s).1.sw.deact = [] then ((cm.vDeact s).1.clear, .done .ok)
      else if (cm.vConf s).2 = false then ((cm.vConf s).1, .done .error)
      else if (cm.vConf s).1.sw.act = [] ∧ (cm.vConf s).1.sw.deact = [] then ((cm.vConf s).1.clear, .done .ok)
      else match (cm.vConf s).1.checkAvailability with
        | (false, false) => ((cm.vConf s).1.clear, .done .error)
        | (false, true) => ((cm.vConf s).1.clear.faulted, .done .error)
        | (true, _) =>
          let cm4 := (cm.vConf s).1.prepareDeact (cm.vConf s).1.sw.deact
          let p : RM × Bool :=
            if cm4.sw.actItf = [] ∧ cm4.sw.deactItf = [] then (cm4.rm, true)
            else cm4.rm.prepareSwitch o cm4.sw.actItf cm4.sw.deactItf
          let cm5 : CM := { cm4 with rm := p.1 }
          if p.2 = false then (cm5.clear, .done .error)
          else
            ({ cm5 with sw := { cm5.sw with strict := s, asap := asap, ready := false, doSwitch := true },
                        pending := true }, .wait) := rfl
  rw [e]
  clear e
  have q2 : Quiet cm (cm.vAct s).1 := (Quiet.propagate cm _).trans (Quiet.actLoop s _ _ _)
  have q3 : Quiet cm (cm.vDeact s).1 := q2.trans (Quiet.deactLoop s _ _ _)
  have q4 : Quiet cm (cm.vConf s).1 := q3.trans (Quiet.conflictLoop s _ _)
  have pq : ∀ {x : CM}, Quiet cm x → x.pending = cm.pending := by
    rintro x ⟨_, _, _, _, _, rfl, _⟩; rfl
  have hd := prepareDeact_began (cm.vConf s).1 (cm.vConf s).1.sw.deact
  have hdp : ((cm.vConf s).1.prepareDeact (cm.vConf s).1.sw.deact).pending = cm.pending := by
    rw [← pq q4]
    unfold CM.prepareDeact
    exact foldl_inv (fun c : CM => c.pending = (cm.vConf s).1.pending) _ _ _ rfl (fun c n _ h => h)
  generalize cm.vAct s = r1 at *
  generalize cm.vDeact s = r2 at *
  generalize cm.vConf s = r3 at *
  by_cases g1 : r1.2 = false
  · rw [if_pos g1]; exact ⟨(q2.trans (Quiet.clear _)).began, .inl ⟨rfl, pq (x := r1.1) q2⟩⟩
  rw [if_neg g1]
  by_cases g2 : r2.2 = false
  · rw [if_pos g2]; exact ⟨(q3.trans (Quiet.clear _)).began, .inl ⟨rfl, pq (x := r2.1) q3⟩⟩
  rw [if_neg g2]
  by_cases g3 : r2.1.sw.act = [] ∧ r2.1.sw.deact = []
  · rw [if_pos g3]
    exact ⟨(q3.trans (Quiet.clear _)).began, .inr ⟨by simpa using g1, by simpa using g2, .inl ⟨rfl, pq (x := r2.1) q3, g3⟩⟩⟩
  rw [if_neg g3]
  by_cases g4 : r3.2 = false
  · rw [if_pos g4]; exact ⟨q4.began, .inl ⟨rfl, pq (x := r3.1) q4⟩⟩
  rw [if_neg g4]
  by_cases g5 : r3.1.sw.act = [] ∧ r3.1.sw.deact = []
  · rw [if_pos g5]
    exact ⟨(q4.trans (Quiet.clear _)).began,
      .inr ⟨by simpa using g1, by simpa using g2, .inr ⟨by simpa using g4, .inl ⟨rfl, pq (x := r3.1) q4, g5⟩⟩⟩⟩
  rw [if_neg g5]
  split
  · exact ⟨(q4.trans (Quiet.clear _)).began, .inl ⟨rfl, pq (x := r3.1) q4⟩⟩
  · exact ⟨(q4.trans ((Quiet.clear _).trans (Quiet.faulted _))).began, .inl ⟨rfl, pq (x := r3.1) q4⟩⟩
  · rename_i z hz
    extract_lets cm4 p cm5
    have hp : ∃ es, p.1 = { cm4.rm with tr := es ++ cm4.rm.tr } := by
      simp only [p]
      split
      · exact ⟨[], rfl⟩
      · exact prepareSwitch_only o _ _ _
    obtain ⟨es, hp⟩ := hp
    have e4 : cm4.rm = r3.1.rm := hd.2.1
    have e4' : cm4.sw = r3.1.sw := hd.2.2
    have b5 : Began cm cm5 := q4.began.trans (hd.1.trans (by
      simp only [cm5]; rw [hp]; exact Began.rmTr (a := cm4) es))
    split
    · exact ⟨b5.trans (Quiet.clear _).began, .inl ⟨rfl, hdp⟩⟩
    · refine ⟨b5.trans (Began.sw _ _), .inr ⟨by simpa using g1, by simpa using g2, .inr ⟨by simpa using g4, .inr ?_⟩⟩⟩
      refine ⟨rfl, by rw [hz], ?_, rfl, es, ?_⟩
      · rw [← e4']
      · simp only [cm5, hp, e4]

theorem switchBegin_began (o : Oracle) (cm : CM) (act deact : List Name) (s : Strictness) (asap : Bool) :
    Began cm (cm.switchBegin o act deact s asap).1 := by
  unfold CM.switchBegin
  extract_lets _ sw0
  split
  · exact (Quiet.sw cm _).began
  · split
    · exact (Quiet.sw cm _).began
    · rename_i d _ _ a _
      exact (Quiet.sw cm { sw0 with deact := d, act := a }).began.trans (validate_cases o { cm with sw := { sw0 with deact := d, act := a } } s asap).1

/-- What has been established when the request waits for the real-time loop. -/
structure Accepted (cm cm' : CM) (act deact R : List Name) : Prop where
  strictOk : StrictOk cm cm' act deact
  actL : cm'.sw.act = act ++ R
  deactL : cm'.sw.deact = deact ++ R
  /-- restarted: running controllers that are not to be stopped but change their chained mode -/
  restart : ∀ n ∈ R, n ∉ deact ∧ (n ∈ cm'.sw.toCh ∨ n ∈ cm'.sw.fromCh) ∧ ∃ c ∈ cm.ctls, c.name = n ∧ c.lc = .active

theorem switchBegin_strict (o : Oracle) (cm : CM) (act deact : List Name) (asap : Bool)
    (h : (cm.switchBegin o act deact .strict asap).2 ≠ .done .error) :
    (act = [] ∧ deact = [] ∧ (cm.switchBegin o act deact .strict asap).2 = .done .ok) ∨
    ((cm.switchBegin o act deact .strict asap).2 = .wait ∧
      ∃ R, Accepted cm (cm.switchBegin o act deact .strict asap).1 act deact R) := by
  unfold CM.switchBegin at h ⊢
  extract_lets _ sw0 at h ⊢
  cases hd : cm.listControllers .strict deact with
  | none => simp [hd] at h
  | some d =>
  cases ha : cm.listControllers .strict act with
  | none => simp [hd, ha] at h
  | some a =>
  simp only [hd, ha] at h ⊢
  obtain ⟨rfl, hdl⟩ := listControllers_strict hd
  obtain ⟨rfl, hal⟩ := listControllers_strict ha
  generalize hx : ({ cm with sw := { sw0 with deact := d, act := a } } : CM) = x0 at h ⊢
  have x0c : x0.ctls = cm.ctls := by rw [← hx]
  have x0f : ∀ n, x0.find n = cm.find n := by intro n; unfold CM.find; rw [x0c]
  have x0rm : x0.rm = cm.rm := by rw [← hx]
  have x0a : x0.sw.act = a := by rw [← hx]
  have x0d : x0.sw.deact = d := by rw [← hx]
  have x0r : x0.refCache = cm.refCache := by rw [← hx]
  have x0s : x0.stateCache = cm.stateCache := by rw [← hx]
  have hneeds : ∀ D c f, x0.Needs D c f ↔ cm.Needs D c f := by
    intro D c f
    unfold Needs CM.cmdItfs CM.stateItfs
    simp only [x0f, x0rm]
  obtain ⟨_, hc⟩ := validate_cases o x0 .strict asap
  rcases hc with hc | ⟨h1, h2, hc⟩
  · exact absurd hc.1 h
  have m0 := propagate_mild x0 x0.ctls
  obtain ⟨m1, hact⟩ := actLoop_strict _ _ _ h1
  change Mild (x0.propagate x0.ctls) (x0.vAct .strict).1 at m1
  have m1 : Mild x0 (x0.vAct .strict).1 := m0.trans m1
  obtain ⟨e2, hdeact⟩ := deactLoop_strict _ _ _ h2
  change (x0.vDeact .strict).1 = (x0.vAct .strict).1 at e2
  have m2 : Mild x0 (x0.vDeact .strict).1 := by rw [e2]; exact m1
  rw [m1.deact, x0d] at hdeact
  rcases hc with ⟨k1, _, k2, k3⟩ | ⟨h3, hc⟩
  · left
    rw [m2.act, x0a] at k2
    rw [m2.deact, x0d] at k3
    exact ⟨k2, k3, k1⟩
  obtain ⟨R, C⟩ := conflictLoop_strict _ _ h3
  change Conflict _ (x0.vDeact .strict).1 (x0.vConf .strict).1 R at C
  have ca := C.act
  have cd := C.deact
  rw [m2.act, x0a] at ca
  rw [m2.deact, x0d] at cd
  rcases hc with ⟨k1, _, k2, k3⟩ | W
  · left
    rw [ca] at k2
    rw [cd] at k3
    simp only [List.append_eq_nil_iff] at k2 k3
    exact ⟨k2.1, k3.1, k1⟩
  right
  refine ⟨W.out, R, ⟨?_, ?_⟩, ?_, ?_, ?_⟩
  · intro n hn
    obtain ⟨x, hx1, hx2, hx3⟩ := hact n (by rw [m0.act, x0a]; exact hn)
    have mx : Mild x0 x := m0.trans hx1
    obtain ⟨c, hc1, hc2, y, hy1, hy2, hy3⟩ := checkActivate_ok hx2
    rw [mx.find, x0f] at hc1
    refine ⟨c, hc1, ?_, ?_⟩
    · rcases hc2 with ⟨hl, hf⟩ | ⟨hl, hf⟩
      · refine .inl ⟨hl, ?_⟩
        intro f hf'
        have := checkFollowing_all (cm0 := x0) _ x mx c hf f
        rw [x0d, x0a] at this
        have e : x0.Needs d = cm.Needs d := by funext c f; exact propext (hneeds d c f)
        rw [e] at this
        exact this hf'
      · rw [mx.deact, x0d] at hf
        exact .inr ⟨hl, hf⟩
    · have my : Mild x0 y := mx.trans hy1
      have mz : Mild y (x0.vDeact .strict).1 := by rw [e2]; exact hy3.trans hx3
      obtain ⟨u, hu⟩ := C.only
      obtain ⟨es, hes⟩ := W.rm
      have eC : (x0.validate o .strict asap).1.rm.availC = (x0.vDeact .strict).1.rm.availC := by rw [hes, hu]
      have eS : (x0.validate o .strict asap).1.rm.availS = (x0.vDeact .strict).1.rm.availS := by rw [hes, hu]
      refine ⟨y.rm.availC, y.rm.availS, ?_, ?_, ?_, ?_, ?_⟩
      · rw [← x0rm]; exact my.availC
      · rw [← x0rm]; exact my.availS
      · rw [eC]; exact mz.availC
      · rw [eS]; exact mz.availS
      · exact FallbacksOk.of_eq x0c (by rw [x0rm]) (by rw [x0rm]) (my.fallbacksOk (checkFallback_ok hy2))
  · intro n hn
    obtain ⟨c, hc1, hc2, hc3⟩ := hdeact n hn
    rw [m1.find, x0f] at hc1
    refine ⟨c, hc1, hc2, ?_⟩
    intro hch p hp pc hpc
    have hcn := (find_some hc1).2
    unfold CM.checkPreceding at hc3
    rw [if_neg (by simp [hch])] at hc3
    rw [m1.stC, m1.refC, x0r, x0s, hcn] at hc3
    have := List.all_eq_true.1 hc3 p hp
    rw [m1.find, x0f, hpc] at this
    simp only [m1.act, m1.deact, x0a, x0d, Bool.and_eq_true, Bool.not_eq_true', decide_eq_false_iff_not] at this
    exact this
  · rw [W.sw]; exact ca
  · rw [W.sw]; exact cd
  · intro n hn
    obtain ⟨r1, r2, c, hc1, hc2, hc3⟩ := C.restart n hn
    rw [m2.deact, x0d] at r1
    rw [m2.ctls, x0c] at hc1
    refine ⟨r1, ?_, ?_⟩
    · rw [W.sw]
      simp only
      rw [C.toCh, C.fromCh]
      exact r2
    · exact ⟨c, hc1, hc2, hc3⟩

end CM
end Verif
