import Verif.CM.Local
/-!
# What `build_controllers_topology_info` computes
-/
namespace Verif
namespace CM

/-- `n` is the name of a loaded controller. -/
def Loaded (cm : CM) (n : Name) : Prop := ∃ c ∈ cm.ctls, c.name = n

/-- The loaded, configured controller `a` commands an interface named after `b`. -/
def Commands (cm : CM) (a b : Name) : Prop :=
  ∃ c ∈ cm.ctls, c.name = a ∧ c.lc ≠ .unconfigured ∧ ∃ i ∈ cm.cmdItfs c, i.pre = b

/-- The loaded, configured controller `a` reads an interface named after `b`. -/
def Reads (cm : CM) (a b : Name) : Prop :=
  ∃ c ∈ cm.ctls, c.name = a ∧ c.lc ≠ .unconfigured ∧ ∃ i ∈ cm.stateItfs c, i.pre = b

theorem find_loaded {cm : CM} {n : Name} : (∃ c, cm.find n = some c) ↔ cm.Loaded n := by
  constructor
  · rintro ⟨c, hc⟩; exact ⟨c, (find_some hc).1, (find_some hc).2⟩
  · rintro ⟨c, hc, e⟩
    cases hf : cm.find n with
    | none => exact absurd (List.mem_map.2 ⟨c, hc, e⟩) (find_none.1 hf)
    | some d => exact ⟨d, rfl⟩

/-- Membership in a set accumulated by a loop. -/
theorem foldl_acc {α β : Type} (f : β → α → β) (P G : β → Prop) (E : α → Prop) (l : List α)
    (hP : ∀ b x, P b → P (f b x)) (hG : ∀ b x, x ∈ l → P b → (G (f b x) ↔ G b ∨ E x)) :
    ∀ b, P b → (G (l.foldl f b) ↔ G b ∨ ∃ x ∈ l, E x) := by
  induction l with
  | nil => intro b _; simp
  | cons a t ih =>
    intro b hb
    simp only [List.foldl_cons]
    rw [ih (fun b x hx => hG b x (by simp [hx])) (f b a) (hP b a hb), hG b a (by simp) hb]
    simp [or_assoc]

variable {cm : CM}

theorem TabOnly.find_eq {a b : CM} (h : TabOnly a b) (n : Name) : b.find n = a.find n := by
  obtain ⟨f, p, r, s, rfl⟩ := h; rfl
theorem TabOnly.cmdItfs_eq {a b : CM} (h : TabOnly a b) (c : Ctl) : b.cmdItfs c = a.cmdItfs c := by
  obtain ⟨f, p, r, s, rfl⟩ := h; rfl
theorem TabOnly.stateItfs_eq {a b : CM} (h : TabOnly a b) (c : Ctl) : b.stateItfs c = a.stateItfs c := by
  obtain ⟨f, p, r, s, rfl⟩ := h; rfl

section
variable (cm0 : CM)

theorem topoCmd_foll (c : Name) (cm : CM) (h : TabOnly cm0 cm) (i : Itf) (a b : Name) :
    b ∈ (topoCmd c cm i).foll a ↔ b ∈ cm.foll a ∨ (c = a ∧ i.pre = b ∧ cm0.Loaded b) := by
  unfold topoCmd chainedTo
  rw [h.find_eq]
  cases hf : cm0.find i.pre with
  | none =>
    simp only [iff_self_or]
    rintro ⟨_, e, hl⟩
    obtain ⟨d, hd⟩ := find_loaded.2 hl
    rw [← e, hf] at hd; simp at hd
  | some f =>
    obtain ⟨h1, h2⟩ := find_some hf
    simp only [upd_apply]
    split
    · rename_i e; subst e
      rw [mem_addItem]
      constructor
      · rintro (hb | hb)
        · exact .inl hb
        · refine .inr ⟨rfl, by rw [hb, h2], ⟨f, h1, hb.symm⟩⟩
      · rintro (hb | ⟨_, e, _⟩)
        · exact .inl hb
        · exact .inr (by rw [h2, e])
    · rename_i e
      simp only [iff_self_or]
      rintro ⟨e', _⟩; exact absurd e'.symm e

theorem topoState_foll (c : Name) (cm : CM) (h : TabOnly cm0 cm) (i : Itf) (a b : Name) :
    b ∈ (topoState c cm i).foll a ↔ b ∈ cm.foll a ∨ (c = b ∧ i.pre = a ∧ cm0.Loaded a) := by
  unfold topoState chainedTo
  rw [h.find_eq]
  cases hf : cm0.find i.pre with
  | none =>
    simp only [iff_self_or]
    rintro ⟨_, e, hl⟩
    obtain ⟨d, hd⟩ := find_loaded.2 hl
    rw [← e, hf] at hd; simp at hd
  | some f =>
    obtain ⟨h1, h2⟩ := find_some hf
    simp only [upd_apply]
    split
    · rename_i e; subst e
      rw [mem_addItem]
      constructor
      · rintro (hb | hb)
        · exact .inl hb
        · exact .inr ⟨hb.symm, h2.symm, ⟨f, h1, rfl⟩⟩
      · rintro (hb | ⟨e, _, _⟩)
        · exact .inl hb
        · exact .inr e.symm
    · rename_i e
      simp only [iff_self_or]
      rintro ⟨_, e', _⟩; exact absurd (by rw [h2, e']) e

theorem topoCmd_ref (c : Name) (cm : CM) (h : TabOnly cm0 cm) (i : Itf) (a b : Name) :
    b ∈ (topoCmd c cm i).refCache a ↔ b ∈ cm.refCache a ∨ (c = b ∧ i.pre = a ∧ cm0.Loaded a) := by
  unfold topoCmd chainedTo
  rw [h.find_eq]
  cases hf : cm0.find i.pre with
  | none =>
    simp only [iff_self_or]
    rintro ⟨_, e, hl⟩
    obtain ⟨d, hd⟩ := find_loaded.2 hl
    rw [← e, hf] at hd; simp at hd
  | some f =>
    obtain ⟨h1, h2⟩ := find_some hf
    simp only [upd_apply]
    split
    · rename_i e; subst e
      rw [mem_addItem]
      constructor
      · rintro (hb | hb)
        · exact .inl hb
        · exact .inr ⟨hb.symm, h2.symm, ⟨f, h1, rfl⟩⟩
      · rintro (hb | ⟨e, _, _⟩)
        · exact .inl hb
        · exact .inr e.symm
    · rename_i e
      simp only [iff_self_or]
      rintro ⟨_, e', _⟩; exact absurd (by rw [h2, e']) e

theorem topoState_st (c : Name) (cm : CM) (h : TabOnly cm0 cm) (i : Itf) (a b : Name) :
    b ∈ (topoState c cm i).stateCache a ↔ b ∈ cm.stateCache a ∨ (c = b ∧ i.pre = a ∧ cm0.Loaded a) := by
  unfold topoState chainedTo
  rw [h.find_eq]
  cases hf : cm0.find i.pre with
  | none =>
    simp only [iff_self_or]
    rintro ⟨_, e, hl⟩
    obtain ⟨d, hd⟩ := find_loaded.2 hl
    rw [← e, hf] at hd; simp at hd
  | some f =>
    obtain ⟨h1, h2⟩ := find_some hf
    simp only [upd_apply]
    split
    · rename_i e; subst e
      rw [mem_addItem]
      constructor
      · rintro (hb | hb)
        · exact .inl hb
        · exact .inr ⟨hb.symm, h2.symm, ⟨f, h1, rfl⟩⟩
      · rintro (hb | ⟨e, _, _⟩)
        · exact .inl hb
        · exact .inr e.symm
    · rename_i e
      simp only [iff_self_or]
      rintro ⟨_, e', _⟩; exact absurd (by rw [h2, e']) e

theorem topoState_ref (c : Name) (cm : CM) (i : Itf) : (topoState c cm i).refCache = cm.refCache := by
  unfold topoState; split <;> rfl

theorem topoCmd_st (c : Name) (cm : CM) (i : Itf) : (topoCmd c cm i).stateCache = cm.stateCache := by
  unfold topoCmd; split <;> rfl

theorem topoOne_foll (c : Ctl) (cm : CM) (h : TabOnly cm0 cm) (a b : Name) :
    b ∈ (topoOne cm c).foll a ↔ b ∈ cm.foll a ∨
      (c.lc ≠ .unconfigured ∧ ((c.name = a ∧ (∃ i ∈ cm0.cmdItfs c, i.pre = b) ∧ cm0.Loaded b) ∨
        (c.name = b ∧ (∃ i ∈ cm0.stateItfs c, i.pre = a) ∧ cm0.Loaded a))) := by
  unfold topoOne
  split
  · rename_i hl; simp [hl]
  · rename_i hl
    have h1 : TabOnly cm0 ((cm.cmdItfs c).foldl (topoCmd c.name) cm) := h.trans (tab_foldl _ _ _ (topoCmd_tab c.name))
    rw [foldl_acc (topoState c.name) (TabOnly cm0) (fun x => b ∈ x.foll a)
        (fun i => c.name = b ∧ i.pre = a ∧ cm0.Loaded a) _ (fun x i hx => hx.trans (topoState_tab _ _ _))
        (fun x i _ hx => topoState_foll cm0 c.name x hx i a b) _ h1,
      foldl_acc (topoCmd c.name) (TabOnly cm0) (fun x => b ∈ x.foll a)
        (fun i => c.name = a ∧ i.pre = b ∧ cm0.Loaded b) _ (fun x i hx => hx.trans (topoCmd_tab _ _ _))
        (fun x i _ hx => topoCmd_foll cm0 c.name x hx i a b) _ h]
    rw [h.cmdItfs_eq, h.stateItfs_eq]
    constructor
    · rintro ((h | ⟨i, hi, h1, h2, h3⟩) | ⟨i, hi, h1, h2, h3⟩)
      · exact .inl h
      · exact .inr ⟨hl, .inl ⟨h1, ⟨i, hi, h2⟩, h3⟩⟩
      · exact .inr ⟨hl, .inr ⟨h1, ⟨i, hi, h2⟩, h3⟩⟩
    · rintro (h | ⟨_, ⟨h1, ⟨i, hi, h2⟩, h3⟩ | ⟨h1, ⟨i, hi, h2⟩, h3⟩⟩)
      · exact .inl (.inl h)
      · exact .inl (.inr ⟨i, hi, h1, h2, h3⟩)
      · exact .inr ⟨i, hi, h1, h2, h3⟩

theorem topoOne_ref (c : Ctl) (cm : CM) (h : TabOnly cm0 cm) (a b : Name) :
    b ∈ (topoOne cm c).refCache a ↔ b ∈ cm.refCache a ∨
      (c.lc ≠ .unconfigured ∧ c.name = b ∧ (∃ i ∈ cm0.cmdItfs c, i.pre = a) ∧ cm0.Loaded a) := by
  unfold topoOne
  split
  · rename_i hl; simp [hl]
  · rename_i hl
    have e : ∀ (l : List Itf) (x : CM), (l.foldl (topoState c.name) x).refCache = x.refCache := by
      intro l
      induction l with
      | nil => intro x; rfl
      | cons i t ih => intro x; simp only [List.foldl_cons]; rw [ih, topoState_ref]
    rw [e, foldl_acc (topoCmd c.name) (TabOnly cm0) (fun x => b ∈ x.refCache a)
        (fun i => c.name = b ∧ i.pre = a ∧ cm0.Loaded a) _ (fun x i hx => hx.trans (topoCmd_tab _ _ _))
        (fun x i _ hx => topoCmd_ref cm0 c.name x hx i a b) _ h]
    rw [h.cmdItfs_eq]
    constructor
    · rintro (h | ⟨i, hi, h1, h2, h3⟩)
      · exact .inl h
      · exact .inr ⟨hl, h1, ⟨i, hi, h2⟩, h3⟩
    · rintro (h | ⟨_, h1, ⟨i, hi, h2⟩, h3⟩)
      · exact .inl h
      · exact .inr ⟨i, hi, h1, h2, h3⟩

theorem topoOne_st (c : Ctl) (cm : CM) (h : TabOnly cm0 cm) (a b : Name) :
    b ∈ (topoOne cm c).stateCache a ↔ b ∈ cm.stateCache a ∨
      (c.lc ≠ .unconfigured ∧ c.name = b ∧ (∃ i ∈ cm0.stateItfs c, i.pre = a) ∧ cm0.Loaded a) := by
  unfold topoOne
  split
  · rename_i hl; simp [hl]
  · rename_i hl
    have e : ∀ (l : List Itf) (x : CM), (l.foldl (topoCmd c.name) x).stateCache = x.stateCache := by
      intro l
      induction l with
      | nil => intro x; rfl
      | cons i t ih => intro x; simp only [List.foldl_cons]; rw [ih, topoCmd_st]
    have h1 : TabOnly cm0 ((cm.cmdItfs c).foldl (topoCmd c.name) cm) := h.trans (tab_foldl _ _ _ (topoCmd_tab c.name))
    rw [foldl_acc (topoState c.name) (TabOnly cm0) (fun x => b ∈ x.stateCache a)
        (fun i => c.name = b ∧ i.pre = a ∧ cm0.Loaded a) _ (fun x i hx => hx.trans (topoState_tab _ _ _))
        (fun x i _ hx => topoState_st cm0 c.name x hx i a b) _ h1, e]
    rw [h.stateItfs_eq]
    constructor
    · rintro (h | ⟨i, hi, h1, h2, h3⟩)
      · exact .inl h
      · exact .inr ⟨hl, h1, ⟨i, hi, h2⟩, h3⟩
    · rintro (h | ⟨_, h1, ⟨i, hi, h2⟩, h3⟩)
      · exact .inl h
      · exact .inr ⟨i, hi, h1, h2, h3⟩
end

/-- The `following` table after `build_controllers_topology_info`. -/
theorem topology_foll (cm : CM) (a b : Name) :
    b ∈ cm.topology.foll a ↔ (cm.Commands a b ∧ cm.Loaded b) ∨ (cm.Reads b a ∧ cm.Loaded a) := by
  unfold topology
  rw [foldl_acc topoOne (TabOnly cm) (fun x => b ∈ x.foll a)
    (fun c => c.lc ≠ .unconfigured ∧ ((c.name = a ∧ (∃ i ∈ cm.cmdItfs c, i.pre = b) ∧ cm.Loaded b) ∨
        (c.name = b ∧ (∃ i ∈ cm.stateItfs c, i.pre = a) ∧ cm.Loaded a))) _
    (fun x c hx => hx.trans (topoOne_tab _ _)) (fun x c _ hx => topoOne_foll cm c x hx a b) _ ⟨_, _, _, _, rfl⟩]
  simp only [List.not_mem_nil, false_or]
  unfold Commands Reads
  constructor
  · rintro ⟨c, hc, hl, ⟨h1, h2, h3⟩ | ⟨h1, h2, h3⟩⟩
    · exact .inl ⟨⟨c, hc, h1, hl, h2⟩, h3⟩
    · exact .inr ⟨⟨c, hc, h1, hl, h2⟩, h3⟩
  · rintro (⟨⟨c, hc, h1, hl, h2⟩, h3⟩ | ⟨⟨c, hc, h1, hl, h2⟩, h3⟩)
    · exact ⟨c, hc, hl, .inl ⟨h1, h2, h3⟩⟩
    · exact ⟨c, hc, hl, .inr ⟨h1, h2, h3⟩⟩

/-- Who commands interfaces of `a`. -/
theorem topology_ref (cm : CM) (a b : Name) :
    b ∈ cm.topology.refCache a ↔ cm.Commands b a ∧ cm.Loaded a := by
  unfold topology
  rw [foldl_acc topoOne (TabOnly cm) (fun x => b ∈ x.refCache a)
    (fun c => c.lc ≠ .unconfigured ∧ c.name = b ∧ (∃ i ∈ cm.cmdItfs c, i.pre = a) ∧ cm.Loaded a) _
    (fun x c hx => hx.trans (topoOne_tab _ _)) (fun x c _ hx => topoOne_ref cm c x hx a b) _ ⟨_, _, _, _, rfl⟩]
  simp only [List.not_mem_nil, false_or]
  unfold Commands
  constructor
  · rintro ⟨c, hc, hl, h1, h2, h3⟩; exact ⟨⟨c, hc, h1, hl, h2⟩, h3⟩
  · rintro ⟨⟨c, hc, h1, hl, h2⟩, h3⟩; exact ⟨c, hc, hl, h1, h2, h3⟩

/-- Who reads interfaces of `a`. -/
theorem topology_st (cm : CM) (a b : Name) :
    b ∈ cm.topology.stateCache a ↔ cm.Reads b a ∧ cm.Loaded a := by
  unfold topology
  rw [foldl_acc topoOne (TabOnly cm) (fun x => b ∈ x.stateCache a)
    (fun c => c.lc ≠ .unconfigured ∧ c.name = b ∧ (∃ i ∈ cm.stateItfs c, i.pre = a) ∧ cm.Loaded a) _
    (fun x c hx => hx.trans (topoOne_tab _ _)) (fun x c _ hx => topoOne_st cm c x hx a b) _ ⟨_, _, _, _, rfl⟩]
  simp only [List.not_mem_nil, false_or]
  unfold Reads
  constructor
  · rintro ⟨c, hc, hl, h1, h2, h3⟩; exact ⟨⟨c, hc, h1, hl, h2⟩, h3⟩
  · rintro ⟨⟨c, hc, h1, hl, h2⟩, h3⟩; exact ⟨c, hc, hl, h1, h2, h3⟩

/-- Reordering changes neither interfaces nor states. -/
theorem reorder_mem {cm : CM} (h : Topo cm) (ord : List Name) (d : Ctl) :
    d ∈ (cm.reorder ord).ctls ↔ ∃ c ∈ cm.ctls, d = { c with group := Chain.group cm.foll cm.prec (cm.keyOrder ord) c.name } := by
  have hr := (h.reorder ord).names
  constructor
  · intro hd
    have h1 := (find_iff hr).2 ⟨hd, rfl⟩
    rw [reorder_find h] at h1
    cases hf : cm.find d.name with
    | none => rw [hf] at h1; simp at h1
    | some c =>
      rw [hf] at h1
      simp only [Option.map_some, Option.some.injEq] at h1
      exact ⟨c, (find_some hf).1, h1.symm⟩
  · rintro ⟨c, hc, rfl⟩
    have hf := (find_iff h.names).2 ⟨hc, rfl⟩
    have h1 := reorder_find h ord c.name
    rw [hf] at h1
    exact (find_some h1).1

theorem reorder_loaded {cm : CM} (h : Topo cm) (ord : List Name) (n : Name) : (cm.reorder ord).Loaded n ↔ cm.Loaded n := by
  unfold Loaded
  constructor
  · rintro ⟨d, hd, e⟩
    obtain ⟨c, hc, rfl⟩ := (reorder_mem h ord d).1 hd
    exact ⟨c, hc, e⟩
  · rintro ⟨c, hc, e⟩
    exact ⟨_, (reorder_mem h ord _).2 ⟨c, hc, rfl⟩, e⟩

theorem reorder_commands {cm : CM} (h : Topo cm) (ord : List Name) (a b : Name) :
    (cm.reorder ord).Commands a b ↔ cm.Commands a b := by
  unfold Commands
  constructor
  · rintro ⟨d, hd, e1, e2, e3⟩
    obtain ⟨c, hc, rfl⟩ := (reorder_mem h ord d).1 hd
    exact ⟨c, hc, e1, e2, e3⟩
  · rintro ⟨c, hc, e⟩
    exact ⟨_, (reorder_mem h ord _).2 ⟨c, hc, rfl⟩, e⟩

theorem reorder_reads {cm : CM} (h : Topo cm) (ord : List Name) (a b : Name) :
    (cm.reorder ord).Reads a b ↔ cm.Reads a b := by
  unfold Reads
  constructor
  · rintro ⟨d, hd, e1, e2, e3⟩
    obtain ⟨c, hc, rfl⟩ := (reorder_mem h ord d).1 hd
    exact ⟨c, hc, e1, e2, e3⟩
  · rintro ⟨c, hc, e⟩
    exact ⟨_, (reorder_mem h ord _).2 ⟨c, hc, rfl⟩, e⟩

theorem TabOnly.loaded_iff {a b : CM} (h : TabOnly a b) (n : Name) : b.Loaded n ↔ a.Loaded n := by
  obtain ⟨f, p, r, s, rfl⟩ := h; exact Iff.rfl
theorem TabOnly.commands_iff {a b : CM} (h : TabOnly a b) (n m : Name) : b.Commands n m ↔ a.Commands n m := by
  obtain ⟨f, p, r, s, rfl⟩ := h; exact Iff.rfl
theorem TabOnly.reads_iff {a b : CM} (h : TabOnly a b) (n m : Name) : b.Reads n m ↔ a.Reads n m := by
  obtain ⟨f, p, r, s, rfl⟩ := h; exact Iff.rfl

end CM
end Verif
