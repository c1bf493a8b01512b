import Verif.CM.Decomp
import Verif.CM.OrderLemmas
/-!
# The controller list and the chain tables
-/
namespace Verif
namespace CM

/-- The controller list has unique names, the chain tables speak about loaded controllers only and are
symmetric. -/
structure Topo (cm : CM) : Prop where
  names : (cm.ctls.map (·.name)).Nodup
  keys : cm.chainKeys.Nodup
  loaded : ∀ n, n ∈ cm.chainKeys ↔ n ∈ cm.ctls.map (·.name)
  sym : ∀ a b, b ∈ cm.foll a ↔ a ∈ cm.prec b
  sub : ∀ a b, b ∈ cm.foll a → a ∈ cm.chainKeys ∧ b ∈ cm.chainKeys
  nodF : ∀ a, (cm.foll a).Nodup
  nodP : ∀ a, (cm.prec a).Nodup

theorem stat_name (c : Ctl) : c.stat.name = c.name := rfl

theorem names_of_stat {a b : CM} (h : b.ctls.map Ctl.stat = a.ctls.map Ctl.stat) :
    b.ctls.map (·.name) = a.ctls.map (·.name) := by
  have := congrArg (List.map (fun c : Ctl => c.name)) h
  simpa [List.map_map, Function.comp_def, stat_name] using this

theorem Topo.same {a b : CM} (h : Topo a) (e : Same a b) : Topo b := by
  have hn := names_of_stat e.stat
  exact ⟨by rw [hn]; exact h.names, by rw [e.keys]; exact h.keys, by rw [e.keys, hn]; exact h.loaded,
    by rw [e.foll, e.prec]; exact h.sym, by rw [e.foll, e.keys]; exact h.sub, by rw [e.foll]; exact h.nodF,
    by rw [e.prec]; exact h.nodP⟩

theorem Fwd.same {o T} {a b : CM} (h : Fwd o T a b) : Same a b :=
  ⟨h.stat, h.keys, h.foll, h.prec, h.refC, h.stC⟩

theorem find_iff {cm : CM} (h : (cm.ctls.map (·.name)).Nodup) {n : Name} {c : Ctl} :
    cm.find n = some c ↔ c ∈ cm.ctls ∧ c.name = n := by
  constructor
  · exact find_some
  · rintro ⟨h1, rfl⟩
    cases hf : cm.find c.name with
    | none => exact absurd (List.mem_map_of_mem h1) (find_none.1 hf)
    | some d =>
      obtain ⟨h2, h3⟩ := find_some hf
      rw [List.inj_on_of_nodup_map h h2 h1 h3]

/-! ## Building the tables -/

/-- Invariant of the construction: everything but `loaded` and the key list is local to the tables. -/
structure TabOk (K : Name → Prop) (cm : CM) : Prop where
  sym : ∀ a b, b ∈ cm.foll a ↔ a ∈ cm.prec b
  sub : ∀ a b, b ∈ cm.foll a → K a ∧ K b
  nodF : ∀ a, (cm.foll a).Nodup
  nodP : ∀ a, (cm.prec a).Nodup

/-- Only the tables change. -/
def TabOnly (cm cm' : CM) : Prop :=
  ∃ f p r s, cm' = { cm with foll := f, prec := p, refCache := r, stateCache := s }

theorem TabOnly.refl (cm : CM) : TabOnly cm cm := ⟨_, _, _, _, rfl⟩

theorem TabOnly.trans {a b c : CM} (h : TabOnly a b) (k : TabOnly b c) : TabOnly a c := by
  obtain ⟨f, p, r, s, rfl⟩ := h
  obtain ⟨f', p', r', s', rfl⟩ := k
  exact ⟨_, _, _, _, rfl⟩

theorem TabOk.add {K : Name → Prop} {cm : CM} (h : TabOk K cm) {a b : Name} (ha : K a) (hb : K b)
    {cm' : CM} (hf : cm'.foll = upd cm.foll a (addItem (cm.foll a) b))
    (hp : cm'.prec = upd cm.prec b (addItem (cm.prec b) a)) : TabOk K cm' := by
  refine ⟨?_, ?_, ?_, ?_⟩
  · intro x y
    rw [hf, hp]
    simp only [upd_apply]
    have := h.sym x y
    split <;> split
    · rename_i e1 e2; subst e1 e2; simp [h.sym]
    · rename_i e1 e2; subst e1; simp [h.sym, e2]
    · rename_i e1 e2; subst e2; simp [h.sym, e1]
    · exact this
  · intro x y hy
    rw [hf] at hy
    simp only [upd_apply] at hy
    split at hy
    · rename_i e; subst e
      simp only [mem_addItem] at hy
      rcases hy with hy | rfl
      · exact h.sub _ _ hy
      · exact ⟨ha, hb⟩
    · exact h.sub _ _ hy
  · intro x
    rw [hf]; simp only [upd_apply]; split
    · exact nodup_addItem (h.nodF _)
    · exact h.nodF x
  · intro x
    rw [hp]; simp only [upd_apply]; split
    · exact nodup_addItem (h.nodP _)
    · exact h.nodP x

theorem topoCmd_tab (c : Name) (cm : CM) (i : Itf) : TabOnly cm (topoCmd c cm i) := by
  unfold topoCmd; split
  · exact .refl _
  · exact ⟨_, _, _, _, rfl⟩

theorem topoState_tab (c : Name) (cm : CM) (i : Itf) : TabOnly cm (topoState c cm i) := by
  unfold topoState; split
  · exact .refl _
  · exact ⟨_, _, _, _, rfl⟩

theorem tab_foldl {α : Type} (f : CM → α → CM) (l : List α) (cm : CM) (h : ∀ cm a, TabOnly cm (f cm a)) :
    TabOnly cm (l.foldl f cm) := by
  induction l generalizing cm with
  | nil => exact .refl _
  | cons a t ih => exact (h cm a).trans (ih _)

theorem topoOne_tab (cm : CM) (c : Ctl) : TabOnly cm (topoOne cm c) := by
  unfold topoOne; split
  · exact .refl _
  · exact (tab_foldl _ _ _ (topoCmd_tab c.name)).trans (tab_foldl _ _ _ (topoState_tab c.name))

theorem topology_tab (cm : CM) : TabOnly cm cm.topology := by
  unfold topology
  exact TabOnly.trans ⟨_, _, _, _, rfl⟩ (tab_foldl _ _ _ topoOne_tab)

theorem TabOnly.find {cm cm' : CM} (h : TabOnly cm cm') (n : Name) : cm'.find n = cm.find n := by
  obtain ⟨f, p, r, s, rfl⟩ := h; rfl

theorem TabOnly.abs {cm cm' : CM} (h : TabOnly cm cm') : cm'.abs = cm.abs := by
  obtain ⟨f, p, r, s, rfl⟩ := h; rfl

theorem topoCmd_ok {K : Name → Prop} {c : Name} {cm : CM} (h : TabOk K cm) (hc : K c)
    (hK : ∀ n d, cm.find n = some d → K d.name) (i : Itf) : TabOk K (topoCmd c cm i) := by
  unfold topoCmd; split
  · exact h
  · rename_i f hf
    exact h.add hc (hK _ f hf) rfl rfl

theorem topoState_ok {K : Name → Prop} {c : Name} {cm : CM} (h : TabOk K cm) (hc : K c)
    (hK : ∀ n d, cm.find n = some d → K d.name) (i : Itf) : TabOk K (topoState c cm i) := by
  unfold topoState; split
  · exact h
  · rename_i f hf
    exact h.add (hK _ f hf) hc rfl rfl

theorem topology_ok (cm : CM) : TabOk (fun n => n ∈ cm.ctls.map (·.name)) cm.topology := by
  have hK0 : ∀ n d, cm.find n = some d → d.name ∈ cm.ctls.map (·.name) :=
    fun n d hd => List.mem_map_of_mem (find_some hd).1
  let P : CM → Prop := fun c => TabOk (fun n => n ∈ cm.ctls.map (·.name)) c ∧ TabOnly cm c
  have : P cm.topology := by
    unfold topology
    refine foldl_inv P _ _ _ ⟨⟨by simp, by simp, by simp, by simp⟩, ⟨_, _, _, _, rfl⟩⟩ ?_
    intro b c hc hb
    refine ⟨?_, hb.2.trans (topoOne_tab b c)⟩
    have hcn : c.name ∈ cm.ctls.map (·.name) := List.mem_map_of_mem hc
    unfold topoOne
    split
    · exact hb.1
    · have h1 : P ((b.cmdItfs c).foldl (topoCmd c.name) b) :=
        foldl_inv P _ _ _ hb (fun x i _ hx =>
          ⟨topoCmd_ok hx.1 hcn (fun n d hd => hK0 n d (by rw [← hx.2.find n]; exact hd)) i,
           hx.2.trans (topoCmd_tab _ _ _)⟩)
      exact (foldl_inv P _ _ _ h1 (fun x i _ hx =>
          ⟨topoState_ok hx.1 hcn (fun n d hd => hK0 n d (by rw [← hx.2.find n]; exact hd)) i,
           hx.2.trans (topoState_tab _ _ _)⟩)).1
  exact this.1

theorem Topo.topology {cm : CM} (h : Topo cm) : Topo cm.topology := by
  have ok := topology_ok cm
  obtain ⟨f, p, r, s, e⟩ := topology_tab cm
  rw [e] at ok ⊢
  exact ⟨h.names, h.keys, h.loaded, ok.sym, fun a b hab => by
    obtain ⟨h1, h2⟩ := ok.sub a b hab
    exact ⟨(h.loaded a).2 h1, (h.loaded b).2 h2⟩, ok.nodF, ok.nodP⟩

/-! ## Reordering -/

theorem keyOrder_nodup (cm : CM) (ord : List Name) : (cm.keyOrder ord).Nodup := nodup_addItems (by simp)

theorem mem_keyOrder (cm : CM) (ord : List Name) (n : Name) : n ∈ cm.keyOrder ord ↔ n ∈ cm.chainKeys := by
  unfold keyOrder; simp

theorem filterMap_find_names {cm : CM} (l : List Name) (h : ∀ n ∈ l, n ∈ cm.ctls.map (·.name)) :
    (l.filterMap cm.find).map (·.name) = l := by
  induction l with
  | nil => rfl
  | cons n t ih =>
    have hn : ∃ c, cm.find n = some c := by
      cases hf : cm.find n with
      | none => exact absurd (h n (by simp)) (find_none.1 hf)
      | some c => exact ⟨c, rfl⟩
    obtain ⟨c, hc⟩ := hn
    rw [List.filterMap_cons_some hc, List.map_cons, ih (fun m hm => h m (by simp [hm])), (find_some hc).2]

/-- The order in which the names end up. -/
theorem reorder_names {cm : CM} (h : Topo cm) (ord : List Name) :
    (cm.reorder ord).ctls.map (·.name) =
      Chain.orderAll cm.foll cm.prec ((cm.keyOrder ord).length + 1) (cm.keyOrder ord) := by
  have hs : ∀ n ∈ Chain.orderAll cm.foll cm.prec ((cm.keyOrder ord).length + 1) (cm.keyOrder ord),
      n ∈ cm.ctls.map (·.name) := by
    intro n hn
    have := (Chain.orderAll_ok cm.foll cm.prec (cm.keyOrder ord) ((cm.keyOrder ord).length + 1) (by omega)
      (fun a b hb => (mem_keyOrder _ _ _).2 (h.sub a b hb).2)
      (fun a b hb => (mem_keyOrder _ _ _).2 (h.sub b a ((h.sym b a).2 hb)).1)).2 n
    exact (h.loaded n).1 ((mem_keyOrder _ _ _).1 (this.1 hn))
  unfold reorder
  simp only [List.map_map]
  conv_rhs => rw [← filterMap_find_names _ hs]
  apply List.map_congr_left
  intro c _
  simp only [Function.comp]
  split <;> rfl

theorem reorder_perm {cm : CM} (h : Topo cm) (ord : List Name) :
    ((cm.reorder ord).ctls.map (·.name)).Perm (cm.ctls.map (·.name)) := by
  rw [reorder_names h]
  have ok := Chain.orderAll_ok cm.foll cm.prec (cm.keyOrder ord) ((cm.keyOrder ord).length + 1) (by omega)
      (fun a b hb => (mem_keyOrder _ _ _).2 (h.sub a b hb).2)
      (fun a b hb => (mem_keyOrder _ _ _).2 (h.sub b a ((h.sym b a).2 hb)).1)
  rw [List.perm_ext_iff_of_nodup ok.1 h.names]
  intro n
  rw [ok.2 n, mem_keyOrder, h.loaded]

theorem reorder_find {cm : CM} (h : Topo cm) (ord : List Name) (n : Name) :
    (cm.reorder ord).find n = (cm.find n).map (fun c =>
      { c with group := Chain.group cm.foll cm.prec (cm.keyOrder ord) c.name }) := by
  have hp := reorder_perm h ord
  have hnd : ((cm.reorder ord).ctls.map (·.name)).Nodup := hp.nodup_iff.2 h.names
  cases hf : cm.find n with
  | none =>
    have : n ∉ (cm.reorder ord).ctls.map (·.name) := by
      rw [hp.mem_iff]; exact find_none.1 hf
    simp [find_none.2 this]
  | some c =>
    obtain ⟨h1, h2⟩ := find_some hf
    simp only [Option.map_some]
    rw [find_iff hnd]
    refine ⟨?_, h2⟩
    have hm : n ∈ Chain.orderAll cm.foll cm.prec ((cm.keyOrder ord).length + 1) (cm.keyOrder ord) := by
      rw [← reorder_names h ord, hp.mem_iff]; rw [← h2]; exact List.mem_map_of_mem h1
    unfold reorder
    simp only [List.mem_map, List.mem_filterMap]
    refine ⟨c, ⟨n, hm, hf⟩, ?_⟩
    have : c.name ∈ cm.keyOrder ord := by
      rw [mem_keyOrder, h.loaded]; exact List.mem_map_of_mem h1
    simp [this]

theorem Topo.reorder {cm : CM} (h : Topo cm) (ord : List Name) : Topo (cm.reorder ord) := by
  have hp := reorder_perm h ord
  exact ⟨hp.nodup_iff.2 h.names, h.keys, fun n => by rw [hp.mem_iff]; exact h.loaded n, h.sym, h.sub, h.nodF, h.nodP⟩

theorem reorder_abs {cm : CM} (h : Topo cm) (ord : List Name) : (cm.reorder ord).abs = cm.abs := by
  unfold abs
  congr 1
  funext n
  rw [reorder_find h]
  cases cm.find n <;> rfl

/-! ## Loading and unloading -/

/-- Removing one name from a table, for a list of keys. -/
theorem foldl_upd_remove (ps : List Name) (n : Name) (t : Name → List Name) (hn : ∀ a, (t a).Nodup) (a b : Name) :
    b ∈ (ps.foldl (fun (p : Name → List Name) f => upd p f (removeItem (p f) n)) t) a ↔
      b ∈ t a ∧ (a ∈ ps → b ≠ n) := by
  induction ps generalizing t with
  | nil => simp
  | cons x ps ih =>
    simp only [List.foldl_cons]
    have hn' : ∀ a, ((upd t x (removeItem (t x) n)) a).Nodup := by
      intro a; simp only [upd_apply]; split
      · exact nodup_removeItem (hn _)
      · exact hn a
    rw [ih _ hn']
    simp only [upd_apply, List.mem_cons]
    split
    · rename_i e; subst e
      rw [mem_removeItem (hn _)]
      tauto
    · rename_i e; simp [e]

theorem foldl_upd_nodup (ps : List Name) (n : Name) (t : Name → List Name) (hn : ∀ a, (t a).Nodup) (a : Name) :
    ((ps.foldl (fun (p : Name → List Name) f => upd p f (removeItem (p f) n)) t) a).Nodup := by
  induction ps generalizing t with
  | nil => exact hn a
  | cons x ps ih =>
    simp only [List.foldl_cons]
    apply ih
    intro a; simp only [upd_apply]; split
    · exact nodup_removeItem (hn _)
    · exact hn a

theorem addItem_mem {α : Type} [DecidableEq α] {l : List α} {a : α} (h : a ∈ l) : addItem l a = l := by
  simp [addItem, h]

theorem addItems_mem {α : Type} [DecidableEq α] {l : List α} {items : List α} (h : ∀ a ∈ items, a ∈ l) : addItems l items = l := by
  unfold addItems
  induction items with
  | nil => rfl
  | cons a t ih =>
    simp only [List.foldl_cons]
    rw [addItem_mem (h a (by simp))]
    exact ih (fun b hb => h b (by simp [hb]))

/-- The tables after `controller_chain_spec_cleanup` of a loaded controller. -/
theorem chainCleanup_spec {cm : CM} (h : Topo cm) {n : Name} (hn : n ∈ cm.ctls.map (·.name)) :
    (cm.chainCleanup n).chainKeys = cm.chainKeys.filter (· ≠ n) ∧
    (∀ a b, b ∈ (cm.chainCleanup n).foll a ↔ b ∈ cm.foll a ∧ a ≠ n ∧ b ≠ n) ∧
    (∀ a b, b ∈ (cm.chainCleanup n).prec a ↔ b ∈ cm.prec a ∧ a ≠ n ∧ b ≠ n) ∧
    (∀ a, ((cm.chainCleanup n).foll a).Nodup) ∧ (∀ a, ((cm.chainCleanup n).prec a).Nodup) := by
  have hnk : n ∈ cm.chainKeys := (h.loaded n).2 hn
  unfold chainCleanup
  simp only
  refine ⟨?_, ?_, ?_, ?_, ?_⟩
  · rw [addItem_mem hnk, addItems_mem]
    intro a ha
    rcases List.mem_append.1 ha with ha | ha
    · exact (h.sub n a ha).2
    · exact (h.sub a n ((h.sym a n).2 ha)).1
  · intro a b
    simp only [upd_apply]
    split
    · rename_i e; simp [e]
    · rename_i e
      rw [foldl_upd_remove _ _ _ h.nodF]
      constructor
      · rintro ⟨h1, h2⟩
        refine ⟨h1, e, ?_⟩
        rintro rfl
        exact h2 ((h.sym a b).1 h1) rfl
      · rintro ⟨h1, _, h3⟩; exact ⟨h1, fun _ => h3⟩
  · intro a b
    simp only [upd_apply]
    split
    · rename_i e; simp [e]
    · rename_i e
      rw [foldl_upd_remove _ _ _ h.nodP]
      constructor
      · rintro ⟨h1, h2⟩
        refine ⟨h1, e, ?_⟩
        rintro rfl
        exact h2 ((h.sym b a).2 h1) rfl
      · rintro ⟨h1, _, h3⟩; exact ⟨h1, fun _ => h3⟩
  · intro a; simp only [upd_apply]; split
    · simp
    · exact foldl_upd_nodup _ _ _ h.nodF a
  · intro a; simp only [upd_apply]; split
    · simp
    · exact foldl_upd_nodup _ _ _ h.nodP a

end CM
end Verif
