import Mathlib.Data.List.Nodup
import Verif.Hw.ExportSpec
/-!
# Lemmas for C54
-/
namespace Verif.Exp

section maps
variable {α β : Type}

theorem lookup_nil (n : Str) : lookup ([] : List (Str × α)) n = none := rfl

theorem lookup_cons (k : Str) (a : α) (m : List (Str × α)) (n : Str) :
    lookup ((k, a) :: m) n = if k = n then some a else lookup m n := by
  unfold lookup
  by_cases h : k = n
  · simp [h]
  · simp [h]

theorem lookup_append (a b : List (Str × α)) (n : Str) : lookup (a ++ b) n = (lookup a n).or (lookup b n) := by
  induction a with
  | nil => simp [lookup_nil]
  | cons x t ih =>
    obtain ⟨k, v⟩ := x
    rw [List.cons_append, lookup_cons, lookup_cons, ih]
    split <;> simp

theorem lookup_none {m : List (Str × α)} {n : Str} : lookup m n = none ↔ n ∉ m.map (·.1) := by
  induction m with
  | nil => simp [lookup_nil]
  | cons x t ih =>
    obtain ⟨k, v⟩ := x
    rw [lookup_cons]
    by_cases h : k = n
    · simp [h]
    · simp only [h, if_false, ih, List.map_cons, List.mem_cons, not_or]
      exact ⟨fun g => ⟨fun e => h e.symm, g⟩, fun g => g.2⟩

theorem lookup_isSome {m : List (Str × α)} {n : Str} : (∃ a, lookup m n = some a) ↔ n ∈ m.map (·.1) := by
  by_cases h : n ∈ m.map (·.1)
  · refine ⟨fun _ => h, fun _ => ?_⟩
    cases e : lookup m n with
    | none => exact absurd h (lookup_none.1 e)
    | some a => exact ⟨a, rfl⟩
  · refine ⟨?_, fun g => absurd g h⟩
    rintro ⟨a, e⟩
    rw [lookup_none.2 h] at e
    simp at e

theorem lookup_mem {m : List (Str × α)} {n : Str} {a : α} (h : lookup m n = some a) : (n, a) ∈ m := by
  induction m with
  | nil => simp [lookup_nil] at h
  | cons x t ih =>
    obtain ⟨k, v⟩ := x
    rw [lookup_cons] at h
    split at h
    · rename_i e; simp at h; subst e; subst h; simp
    · exact List.mem_cons_of_mem _ (ih h)

theorem mem_lookup {m : List (Str × α)} (hn : (m.map (·.1)).Nodup) {n : Str} {a : α} (h : (n, a) ∈ m) : lookup m n = some a := by
  induction m with
  | nil => simp at h
  | cons x t ih =>
    obtain ⟨k, v⟩ := x
    rw [lookup_cons]
    simp only [List.map_cons, List.nodup_cons] at hn
    rcases List.mem_cons.1 h with h | h
    · simp only [Prod.mk.injEq] at h; simp [h]
    · rw [if_neg]
      · exact ih hn.2 h
      · rintro rfl; exact hn.1 (List.mem_map.2 ⟨_, h, rfl⟩)

theorem lookup_perm {a b : List (Str × α)} (hn : (b.map (·.1)).Nodup) (h : a.Perm b) (n : Str) : lookup a n = lookup b n := by
  have hk : (a.map (·.1)).Perm (b.map (·.1)) := h.map _
  have hna : (a.map (·.1)).Nodup := hk.symm.nodup hn
  cases e : lookup b n with
  | none =>
    rw [lookup_none] at e ⊢
    exact fun g => e (hk.subset g)
  | some x => exact mem_lookup hna (h.symm.subset (lookup_mem e))

theorem lookup_map (f : α → β) (m : List (Str × α)) (n : Str) :
    lookup (m.map (fun p => (p.1, f p.2))) n = (lookup m n).map f := by
  induction m with
  | nil => rfl
  | cons x t ih =>
    obtain ⟨k, v⟩ := x
    rw [List.map_cons, lookup_cons, lookup_cons, ih]
    split <;> rfl

theorem lookup_insertNew (m : List (Str × α)) (k : Str) (v : α) (n : Str) :
    lookup (insertNew m k v) n = (lookup m n).or (lookup [(k, v)] n) := by
  unfold insertNew
  split
  · rename_i h
    rw [lookup_cons, lookup_nil]
    by_cases e : k = n
    · subst e
      obtain ⟨a, ha⟩ := lookup_isSome.2 h
      simp [ha]
    · simp [e]
  · exact lookup_append _ _ _

theorem nodup_insertNew {m : List (Str × α)} (h : (m.map (·.1)).Nodup) (k : Str) (v : α) : ((insertNew m k v).map (·.1)).Nodup := by
  unfold insertNew
  split
  · exact h
  · rename_i g
    rw [List.map_append, List.nodup_append]
    refine ⟨h, by simp, ?_⟩
    intro a ha b hb e
    simp at hb
    subst hb; subst e
    exact g ha

theorem insertAll (l : List (Str × α)) : ∀ m : List (Str × α), (m.map (·.1)).Nodup →
    ((l.foldl (fun m p => insertNew m p.1 p.2) m).map (·.1)).Nodup ∧
    ∀ n, lookup (l.foldl (fun m p => insertNew m p.1 p.2) m) n = (lookup m n).or (lookup l n) := by
  induction l with
  | nil => intro m h; exact ⟨h, fun n => by simp [lookup_nil]⟩
  | cons x t ih =>
    intro m h
    obtain ⟨k, v⟩ := x
    simp only [List.foldl_cons]
    obtain ⟨h1, h2⟩ := ih _ (nodup_insertNew h k v)
    refine ⟨h1, fun n => ?_⟩
    rw [h2, lookup_insertNew, Option.or_assoc]
    congr 1
    rw [lookup_cons, lookup_cons, lookup_nil]
    split <;> simp

end maps

variable {V : Type}

theorem lookup_ownMap (l : List (Str × Nat)) (n : Str) : lookup (ownMap l) n = lookup l n := by
  have := (insertAll l [] (by simp)).2 n
  rw [lookup_nil] at this
  unfold ownMap
  rw [this]; simp

/-- All descriptions of one map, in URDF order. -/
def flatS (ps : List (Part V)) : List (Str × Desc V) :=
  ps.flatMap (fun p => p.states.map (fun d => let x : Desc V := ⟨p.name, d.itf, d.init⟩; (x.key, x)))

def flatC (ps : List (Part V)) : List (Str × Desc V) :=
  ps.flatMap (fun p => p.cmds.map (fun d => let x : Desc V := ⟨p.name, d.itf, d.init⟩; (x.key, x)))

theorem parseS_eq (ps : List (Part V)) : parseS ps = (flatS ps).foldl (fun m p => insertNew m p.1 p.2) [] := by
  unfold parseS flatS
  generalize ([] : List (Str × Desc V)) = m
  induction ps generalizing m with
  | nil => rfl
  | cons p t ih =>
    rw [List.foldl_cons, List.flatMap_cons, List.foldl_append, ih, List.foldl_map]

theorem parseC_eq (ps : List (Part V)) : parseC ps = (flatC ps).foldl (fun m p => insertNew m p.1 p.2) [] := by
  unfold parseC flatC
  generalize ([] : List (Str × Desc V)) = m
  induction ps generalizing m with
  | nil => rfl
  | cons p t ih =>
    rw [List.foldl_cons, List.flatMap_cons, List.foldl_append, ih, List.foldl_map]

theorem lookup_order (h : HashOrder V) (m : List (Str × Desc V)) (hm : (m.map (·.1)).Nodup) (n : Str) :
    lookup (h.it m) n = lookup m n := lookup_perm hm (h.perm m) n

theorem parseS_nodup (ps : List (Part V)) : ((parseS ps).map (·.1)).Nodup := by
  rw [parseS_eq]; exact (insertAll _ [] (by simp)).1
theorem parseC_nodup (ps : List (Part V)) : ((parseC ps).map (·.1)).Nodup := by
  rw [parseC_eq]; exact (insertAll _ [] (by simp)).1
theorem lookup_parseS (ps : List (Part V)) (n : Str) : lookup (parseS ps) n = lookup (flatS ps) n := by
  rw [parseS_eq, (insertAll _ [] (by simp)).2, lookup_nil]; simp
theorem lookup_parseC (ps : List (Part V)) (n : Str) : lookup (parseC ps) n = lookup (flatC ps) n := by
  rw [parseC_eq, (insertAll _ [] (by simp)).2, lookup_nil]; simp

theorem flatS_listed (ps : List (Part V)) (n : Str) :
    (lookup (flatS ps) n).map (·.init) = lookup (ps.flatMap (Part.listed false)) n := by
  rw [← lookup_map]
  congr 1
  unfold flatS
  rw [List.map_flatMap]
  congr 1
  funext p
  simp [Part.listed, Desc.key]

theorem flatC_listed (ps : List (Part V)) (n : Str) :
    (lookup (flatC ps) n).map (·.init) = lookup (ps.flatMap (Part.listed true)) n := by
  rw [← lookup_map]
  congr 1
  unfold flatC
  rw [List.map_flatMap]
  congr 1
  funext p
  simp [Part.listed, Desc.key]

theorem lookup_descs (l : List (Desc V)) (n : Str) :
    (lookup (l.map (fun d => (d.key, d))) n).map (·.init) = lookup (l.map (fun d => (d.pre ++ '/' :: d.itf, d.init))) n := by
  rw [← lookup_map]
  congr 1
  simp [Desc.key]

/-- What the code makes handles for is what is declared, whatever the iteration orders. -/
theorem lookup_descsS (c : Comp V) (n : Str) : (lookup c.descsS n).map (·.init) = c.initial false n := by
  show _ = lookup (c.declared false) n
  unfold Comp.descsS Comp.declared
  by_cases hl : c.legacyS = []
  swap
  · simp [hl, lookup_descs]
  have h0 := lookup_order c.ordJS _ (parseS_nodup c.joints) n
  cases hk : c.kind with
  | actuator =>
    have h1 := lookup_order c.ordSS [] (by simp) n
    have h2 := lookup_order c.ordGS [] (by simp) n
    simp [hl, hk, Comp.fwS, Comp.mapsS, lookup_append, h0, h1, h2, lookup_nil, Option.map_or, lookup_parseS, flatS_listed,
      lookup_descs]
  | sensor =>
    have h1 := lookup_order c.ordSS _ (parseS_nodup c.sensors) n
    have h2 := lookup_order c.ordGS [] (by simp) n
    simp [hl, hk, Comp.fwS, Comp.mapsS, lookup_append, h0, h1, h2, lookup_nil, Option.map_or, lookup_parseS, flatS_listed,
      lookup_descs]
  | system =>
    have h1 := lookup_order c.ordSS _ (parseS_nodup c.sensors) n
    have h2 := lookup_order c.ordGS _ (parseS_nodup c.gpios) n
    simp [hl, hk, Comp.fwS, Comp.mapsS, lookup_append, h0, h1, h2, Option.map_or, lookup_parseS, flatS_listed,
      lookup_descs]

theorem lookup_descsC (c : Comp V) (n : Str) : (lookup c.descsC n).map (·.init) = c.initial true n := by
  show _ = lookup (c.declared true) n
  unfold Comp.descsC Comp.declared
  by_cases hk : c.kind = .sensor
  · simp [hk, lookup_nil]
  by_cases hl : c.legacyC = []
  swap
  · simp [hl, hk, lookup_descs]
  have h1 := lookup_order c.ordJC _ (parseC_nodup c.joints) n
  cases hc : c.kind with
  | actuator =>
    have h2 := lookup_order c.ordGC [] (by simp) n
    simp [hl, hc, Comp.fwC, Comp.mapsC, lookup_append, h1, h2, lookup_nil, Option.map_or, lookup_parseC, flatC_listed,
      lookup_descs]
  | sensor => exact absurd hc hk
  | system =>
    have h2 := lookup_order c.ordGC _ (parseC_nodup c.gpios) n
    simp [hl, hc, Comp.fwC, Comp.mapsC, lookup_append, h1, h2, Option.map_or, lookup_parseC, flatC_listed,
      lookup_descs]

theorem keys_of_lookup {α β : Type} {a : List (Str × α)} {b : List (Str × β)} {f : α → β}
    (h : ∀ n, (lookup a n).map f = lookup b n) (n : Str) : n ∈ a.map (·.1) ↔ n ∈ b.map (·.1) := by
  rw [← lookup_isSome, ← lookup_isSome]
  constructor
  · rintro ⟨x, e⟩; exact ⟨f x, by rw [← h, e]; rfl⟩
  · rintro ⟨y, e⟩
    rw [← h] at e
    cases g : lookup a n with
    | none => simp [g] at e
    | some x => exact ⟨x, rfl⟩

theorem descsS_keys (c : Comp V) (n : Str) : n ∈ c.descsS.map (·.1) ↔ c.declares false n :=
  keys_of_lookup (f := fun d : Desc V => d.init) (b := c.declared false) (lookup_descsS c) n
theorem descsC_keys (c : Comp V) (n : Str) : n ∈ c.descsC.map (·.1) ↔ c.declares true n :=
  keys_of_lookup (f := fun d : Desc V => d.init) (b := c.declared true) (lookup_descsC c) n

/-! ## Handles -/

theorem number_keys (l : List (Str × Desc V)) : ∀ b, (number b l).map (·.1) = l.map (·.1) := by
  induction l with
  | nil => intro b; rfl
  | cons x t ih => intro b; obtain ⟨k, d⟩ := x; simp [number, ih]

theorem mem_number (l : List (Str × Desc V)) : ∀ b n c, (n, c) ∈ number b l → ∃ i d, c = b + i ∧ l[i]? = some (n, d) := by
  induction l with
  | nil => intro b n c h; simp [number] at h
  | cons x t ih =>
    obtain ⟨k, d⟩ := x
    intro b n c h
    simp only [number, List.mem_cons, Prod.mk.injEq] at h
    rcases h with ⟨rfl, rfl⟩ | h
    · exact ⟨0, d, rfl, rfl⟩
    · obtain ⟨i, e, rfl, h1⟩ := ih _ _ _ h
      exact ⟨i + 1, e, by omega, by simpa using h1⟩

theorem lookup_number (l : List (Str × Desc V)) : ∀ b n c, lookup (number b l) n = some c →
    ∃ i d, c = b + i ∧ l[i]? = some (n, d) ∧ lookup l n = some d := by
  induction l with
  | nil => intro b n c h; simp [number, lookup_nil] at h
  | cons x t ih =>
    obtain ⟨k, d⟩ := x
    intro b n c h
    simp only [number] at h
    rw [lookup_cons] at h ⊢
    split at h
    · rename_i e
      simp at h; subst e; subst h
      exact ⟨0, d, rfl, rfl, by simp⟩
    · rename_i e
      obtain ⟨i, y, rfl, h1, h2⟩ := ih _ _ _ h
      exact ⟨i + 1, y, by omega, by simpa using h1, by simp [e, h2]⟩

theorem addStates_spec (l : List (Str × Nat)) : ∀ m : List (Str × Nat),
    (∀ n, lookup (addStates m l).1 n = (lookup m n).or (lookup l n)) ∧
    (∀ n, n ∈ (addStates m l).2 ↔ n ∈ l.map (·.1) ∧ n ∉ m.map (·.1)) ∧ (addStates m l).2.Nodup := by
  induction l with
  | nil => intro m; exact ⟨fun n => by simp [addStates, lookup_nil], fun n => by simp [addStates], by simp [addStates]⟩
  | cons x t ih =>
    obtain ⟨k, c⟩ := x
    intro m
    unfold addStates
    split
    · rename_i hk
      obtain ⟨h1, h2, h3⟩ := ih m
      refine ⟨fun n => ?_, fun n => ?_, h3⟩
      · rw [h1, lookup_cons]
        split
        · rename_i e; subst e
          obtain ⟨a, ha⟩ := lookup_isSome.2 hk
          simp [ha]
        · rfl
      · rw [h2]
        simp only [List.map_cons, List.mem_cons]
        constructor
        · rintro ⟨a, b⟩; exact ⟨.inr a, b⟩
        · rintro ⟨rfl | a, b⟩
          · exact absurd hk b
          · exact ⟨a, b⟩
    · rename_i hk
      obtain ⟨h1, h2, h3⟩ := ih (m ++ [(k, c)])
      refine ⟨fun n => ?_, fun n => ?_, ?_⟩
      · simp only
        rw [h1, lookup_append, Option.or_assoc]
        congr 1
        rw [lookup_cons, lookup_cons, lookup_nil]
        split <;> simp
      · simp only [List.mem_cons, h2, List.map_append, List.map_cons, List.map_nil, List.mem_append, List.not_mem_nil, or_false]
        constructor
        · rintro (rfl | ⟨a, b⟩)
          · exact ⟨.inl rfl, hk⟩
          · exact ⟨.inr a, fun g => b (.inl g)⟩
        · rintro ⟨rfl | a, b⟩
          · exact .inl rfl
          · by_cases e : n = k
            · exact .inl e
            · exact .inr ⟨a, by rintro (g | g); exacts [b g, e g]⟩
      · simp only [List.nodup_cons]
        exact ⟨fun g => ((h2 k).1 g).2 (by simp), h3⟩

theorem addCmds_spec (l : List (Str × Nat)) : ∀ m : List (Str × Nat),
    (∀ n c, (lookup m n = some c → lookup (addCmds m l).1 n = some c) ∧
      (lookup (addCmds m l).1 n = some c → lookup m n = some c ∨ (n, c) ∈ l)) ∧
    (∀ r, (addCmds m l).2 = some r → r = l.map (·.1) ∧ (∀ n, lookup (addCmds m l).1 n = (lookup m n).or (lookup l n)) ∧
      r.Nodup ∧ ∀ n ∈ r, n ∉ m.map (·.1)) ∧
    ((l.map (·.1)).Nodup → (∀ n ∈ l.map (·.1), n ∉ m.map (·.1)) → (addCmds m l).2 ≠ none) := by
  induction l with
  | nil => intro m; exact ⟨fun n c => ⟨id, .inl⟩, fun r h => by simp [addCmds] at h; subst h; simp [addCmds, lookup_nil], by simp [addCmds]⟩
  | cons x t ih =>
    obtain ⟨k, c⟩ := x
    intro m
    unfold addCmds
    split
    · rename_i hk
      refine ⟨fun n c => ⟨id, .inl⟩, fun r h => by simp at h, fun _ h2 => absurd hk (h2 k (by simp))⟩
    · rename_i hk
      obtain ⟨h1, h2, h3⟩ := ih (m ++ [(k, c)])
      refine ⟨fun n d => ⟨fun h => ?_, fun h => ?_⟩, fun r h => ?_, fun a b => ?_⟩
      · exact (h1 n d).1 (by rw [lookup_append, h]; rfl)
      · rcases (h1 n d).2 h with h | h
        · rw [lookup_append] at h
          cases g : lookup m n with
          | some y => simp [g] at h; subst h; exact .inl rfl
          | none =>
            simp [g] at h
            have := lookup_mem h
            simp at this
            right; simp [this]
        · exact .inr (List.mem_cons_of_mem _ h)
      · simp only [Option.map_eq_some_iff] at h
        obtain ⟨r', hr, rfl⟩ := h
        obtain ⟨e, g1, g2, g3⟩ := h2 r' hr
        refine ⟨by simp [e], fun n => ?_, ?_, ?_⟩
        · simp only
          rw [g1, lookup_append, Option.or_assoc]
          congr 1
          rw [lookup_cons, lookup_cons, lookup_nil]
          split <;> simp
        · simp only [List.nodup_cons]
          exact ⟨fun g => g3 k g (by simp), g2⟩
        · intro n hn
          rcases List.mem_cons.1 hn with rfl | hn
          · exact hk
          · exact fun g => g3 n hn (by rw [List.map_append]; exact List.mem_append_left _ g)
      · simp only [List.map_cons, List.nodup_cons] at a
        have := h3 a.2 (fun n hn g => by
          rw [List.map_append] at g
          rcases List.mem_append.1 g with g | g
          · exact b n (by simp only [List.map_cons, List.mem_cons]; exact .inr hn) g
          · simp at g; subst g; exact a.1 hn)
        simpa using this

/-! ## The invariant of loading -/

/-- `T` says for every cell whether it is a command handle, the component it was made by, and its name. -/
structure Good (cs : List (Comp V)) (s : Sys V) (T : List (Bool × Nat × Str)) : Prop where
  len : T.length = s.cells.length
  num : s.comps.length = cs.length
  shared : ∀ cmd n c, s.shared cmd n = some c → ∃ k, T[c]? = some (cmd, k, n)
  own : ∀ cmd k n c, s.own cmd k n = some c → T[c]? = some (cmd, k, n)
  listed : ∀ cmd k n, n ∈ s.listed cmd k → ∃ c d, cs[k]? = some d ∧ s.shared cmd n = some c ∧
    (d.framework cmd → s.own cmd k n = some c) ∧ s.cells[c]? = d.initial cmd n

theorem Good.empty : Good ([] : List (Comp V)) Sys.empty [] where
  len := rfl
  num := rfl
  shared := by intro cmd n c h; cases cmd <;> simp [Sys.shared, Sys.empty, lookup_nil] at h
  own := by intro cmd k n c h; simp [Sys.own, Sys.empty] at h
  listed := by intro cmd k n h; simp [Sys.listed, Sys.empty] at h

theorem load_comps (s : Sys V) (c : Comp V) (k : Nat) (hk : k < s.comps.length) : (s.load c).comps[k]? = s.comps[k]? := by
  unfold Sys.load
  simp only
  rw [List.getElem?_append_left hk]

theorem load_new (s : Sys V) (c : Comp V) (k : Nat) (x : Loaded) (h : (s.load c).comps[k]? = some x) :
    k < s.comps.length ∨ (k = s.comps.length ∧
      x.ownS = (if c.legacyS.isEmpty then ownMap (number s.cells.length c.descsS) else []) ∧
      x.ownC = (if c.legacyC.isEmpty then
        ownMap (number (s.cells ++ c.descsS.map (·.2.init)).length c.descsC) else []) ∧
      x.infoS = (addStates s.stMap (number s.cells.length c.descsS)).2 ∧
      x.infoC = (addCmds s.cmMap (number (s.cells ++ c.descsS.map (·.2.init)).length c.descsC)).2.getD []) := by
  by_cases hk : k < s.comps.length
  · exact .inl hk
  · right
    unfold Sys.load at h
    simp only at h
    rw [List.getElem?_append_right (by omega)] at h
    have : k - s.comps.length = 0 := by
      by_contra g
      rw [List.getElem?_eq_none (by simp; omega)] at h
      simp at h
    rw [this] at h
    simp only [List.getElem?_cons_zero, Option.some.injEq] at h
    subst h
    exact ⟨by omega, rfl, rfl, rfl, rfl⟩

theorem load_shared (s : Sys V) (c : Comp V) {cmd : Bool} {n : Str} {a : Nat} (h : s.shared cmd n = some a) :
    (s.load c).shared cmd n = some a := by
  unfold Sys.shared at h ⊢
  unfold Sys.load
  cases cmd with
  | false =>
    simp only [Bool.false_eq_true, if_false] at h ⊢
    rw [(addStates_spec _ _).1, h]; rfl
  | true =>
    simp only [if_true] at h ⊢
    exact ((addCmds_spec _ _).1 n a).1 h

theorem load_cells (s : Sys V) (c : Comp V) : (s.load c).cells = s.cells ++ c.descsS.map (·.2.init) ++ c.descsC.map (·.2.init) := rfl

theorem Good.load {cs : List (Comp V)} {s : Sys V} {T : List (Bool × Nat × Str)} (g : Good cs s T) (c : Comp V) :
    Good (cs ++ [c]) (s.load c)
      (T ++ c.descsS.map (fun p => (false, s.comps.length, p.1)) ++ c.descsC.map (fun p => (true, s.comps.length, p.1))) := by
  -- the tags of the new handles
  have tagS : ∀ n a, (n, a) ∈ number s.cells.length c.descsS →
      (T ++ c.descsS.map (fun p => (false, s.comps.length, p.1)) ++ c.descsC.map (fun p => (true, s.comps.length, p.1)))[a]? =
        some (false, s.comps.length, n) := by
    intro n a h
    obtain ⟨i, d, rfl, hi⟩ := mem_number _ _ _ _ h
    have hl : i < c.descsS.length := (List.getElem?_eq_some_iff.1 hi).1
    rw [List.append_assoc, List.getElem?_append_right (by rw [g.len]; omega), List.getElem?_append_left (by simp [g.len]; omega)]
    rw [g.len, Nat.add_sub_cancel_left, List.getElem?_map, hi]; rfl
  have tagC : ∀ n a, (n, a) ∈ number (s.cells ++ c.descsS.map (·.2.init)).length c.descsC →
      (T ++ c.descsS.map (fun p => (false, s.comps.length, p.1)) ++ c.descsC.map (fun p => (true, s.comps.length, p.1)))[a]? =
        some (true, s.comps.length, n) := by
    intro n a h
    obtain ⟨i, d, rfl, hi⟩ := mem_number _ _ _ _ h
    have e : (s.cells ++ c.descsS.map (·.2.init)).length = (T ++ c.descsS.map (fun p => (false, s.comps.length, p.1))).length := by
      simp [g.len]
    rw [e, List.getElem?_append_right (by omega), Nat.add_sub_cancel_left, List.getElem?_map, hi]; rfl
  have old : ∀ (a : Nat) (x : Bool × Nat × Str), T[a]? = some x →
      (T ++ c.descsS.map (fun p => (false, s.comps.length, p.1)) ++ c.descsC.map (fun p => (true, s.comps.length, p.1)))[a]? = some x := by
    intro a x h
    have := (List.getElem?_eq_some_iff.1 h).1
    rw [List.append_assoc, List.getElem?_append_left this, h]
  -- the contents of the new handles
  have valS : ∀ n a, lookup (number s.cells.length c.descsS) n = some a → (s.load c).cells[a]? = c.initial false n := by
    intro n a h
    obtain ⟨i, d, rfl, hi, hl⟩ := lookup_number _ _ _ _ h
    have hi' : i < c.descsS.length := (List.getElem?_eq_some_iff.1 hi).1
    rw [load_cells, List.append_assoc, List.getElem?_append_right (by omega), List.getElem?_append_left (by simp; omega),
      Nat.add_sub_cancel_left, List.getElem?_map, hi, ← lookup_descsS, hl]; rfl
  have valC : ∀ n a, lookup (number (s.cells ++ c.descsS.map (·.2.init)).length c.descsC) n = some a →
      (s.load c).cells[a]? = c.initial true n := by
    intro n a h
    obtain ⟨i, d, rfl, hi, hl⟩ := lookup_number _ _ _ _ h
    rw [load_cells, List.getElem?_append_right (by omega),
      Nat.add_sub_cancel_left, List.getElem?_map, hi, ← lookup_descsC, hl]; rfl
  have ownOld : ∀ cmd k n, k < s.comps.length → (s.load c).own cmd k n = s.own cmd k n := by
    intro cmd k n hk; unfold Sys.own; rw [load_comps s c k hk]
  refine ⟨?_, ?_, ?_, ?_, ?_⟩
  · simp [load_cells, g.len]
  · simp [Sys.load, g.num]
  · intro cmd n a h
    unfold Sys.shared Sys.load at h
    cases cmd with
    | false =>
      simp only [Bool.false_eq_true, if_false] at h
      rw [(addStates_spec _ _).1] at h
      cases h0 : lookup s.stMap n with
      | some b =>
        rw [h0] at h; simp at h; subst h
        obtain ⟨k, hk⟩ := g.shared false n b (by unfold Sys.shared; simpa using h0)
        exact ⟨k, old _ _ hk⟩
      | none =>
        rw [h0] at h; simp at h
        exact ⟨_, tagS n a (lookup_mem h)⟩
    | true =>
      simp only [if_true] at h
      rcases ((addCmds_spec _ _).1 n a).2 h with h | h
      · obtain ⟨k, hk⟩ := g.shared true n a (by unfold Sys.shared; simpa using h)
        exact ⟨k, old _ _ hk⟩
      · exact ⟨_, tagC n a h⟩
  · intro cmd k n a h
    have h' := h
    unfold Sys.own at h
    cases hx : (s.load c).comps[k]? with
    | none => rw [hx] at h; simp at h
    | some x =>
      rw [hx] at h
      simp only [Option.bind_some] at h
      rcases load_new s c k x hx with hk | ⟨rfl, e1, e2, _, _⟩
      · rw [ownOld cmd k n hk] at h'
        exact old _ _ (g.own cmd k n a h')
      · cases cmd with
        | false =>
          simp only [Bool.false_eq_true, if_false, e1] at h
          split at h
          · rw [lookup_ownMap] at h; exact tagS n a (lookup_mem h)
          · simp [lookup_nil] at h
        | true =>
          simp only [if_true, e2] at h
          split at h
          · rw [lookup_ownMap] at h; exact tagC n a (lookup_mem h)
          · simp [lookup_nil] at h
  · intro cmd k n h
    unfold Sys.listed at h
    cases hx : (s.load c).comps[k]? with
    | none => rw [hx] at h; simp at h
    | some x =>
      rw [hx] at h
      simp only at h
      rcases load_new s c k x hx with hk | ⟨rfl, e1, e2, e3, e4⟩
      · have hx' : s.comps[k]? = some x := by rw [← load_comps s c k hk]; exact hx
        obtain ⟨a, d, hd, hs, ho, hv⟩ := g.listed cmd k n (by unfold Sys.listed; rw [hx']; exact h)
        refine ⟨a, d, ?_, load_shared s c hs, ?_, ?_⟩
        · rw [List.getElem?_append_left (by rw [← g.num]; exact hk)]; exact hd
        · intro hf; rw [ownOld cmd k n hk]; exact ho hf
        · obtain ⟨k', hk'⟩ := g.shared cmd n a hs
          have ha : a < s.cells.length := by rw [← g.len]; exact (List.getElem?_eq_some_iff.1 hk').1
          rw [load_cells, List.append_assoc, List.getElem?_append_left ha]; exact hv
      · have hc : (cs ++ [c])[s.comps.length]? = some c := by rw [g.num]; simp
        cases cmd with
        | false =>
          simp only [Bool.false_eq_true, if_false, e3] at h
          obtain ⟨h1, h2⟩ := ((addStates_spec _ _).2.1 n).1 h
          obtain ⟨a, ha⟩ := lookup_isSome.2 h1
          refine ⟨a, c, hc, ?_, ?_, valS n a ha⟩
          · unfold Sys.shared Sys.load
            simp only [Bool.false_eq_true, if_false]
            rw [(addStates_spec _ _).1, lookup_none.2 h2, ha]; rfl
          · intro hf
            unfold Sys.own
            have hf' : c.legacyS = [] := hf
            rw [hx]
            simp [e1, hf', lookup_ownMap, ha]
        | true =>
          simp only [if_true, e4] at h
          cases hr : (addCmds s.cmMap (number (s.cells ++ c.descsS.map (·.2.init)).length c.descsC)).2 with
          | none => rw [hr] at h; simp at h
          | some r =>
            rw [hr] at h
            simp only [Option.getD_some] at h
            obtain ⟨r1, r2, r3, r4⟩ := (addCmds_spec _ _).2.1 r hr
            have h2 := r4 n h
            rw [r1] at h
            obtain ⟨a, ha⟩ := lookup_isSome.2 h
            refine ⟨a, c, hc, ?_, ?_, valC n a ha⟩
            · unfold Sys.shared Sys.load
              simp only [if_true]
              rw [r2, lookup_none.2 h2, ha]; rfl
            · intro hf
              unfold Sys.own
              have hf' : c.legacyC = [] := hf
              rw [hx]
              simp only [Option.bind_some, if_true, e2, hf', List.isEmpty_nil]
              rw [lookup_ownMap]; exact ha

theorem loadAll_snoc (cs : List (Comp V)) (c : Comp V) : loadAll (cs ++ [c]) = (loadAll cs).load c := by
  unfold loadAll; rw [List.foldl_append]; rfl

theorem snoc_induction {α : Type} {P : List α → Prop} (h0 : P []) (h1 : ∀ l a, P l → P (l ++ [a])) (l : List α) : P l := by
  have : ∀ l : List α, P l.reverse := by
    intro l
    induction l with
    | nil => exact h0
    | cons a t ih => rw [List.reverse_cons]; exact h1 _ _ ih
  rw [← List.reverse_reverse l]; exact this _

theorem good_loadAll (cs : List (Comp V)) : ∃ T, Good cs (loadAll cs) T := by
  induction cs using snoc_induction with
  | h0 => exact ⟨[], Good.empty⟩
  | h1 l a ih => obtain ⟨T, g⟩ := ih; exact ⟨_, loadAll_snoc l a ▸ g.load a⟩

/-! ## What is listed -/

theorem shared_keys (cs : List (Comp V)) (n : Str) : n ∈ (loadAll cs).stMap.map (·.1) ↔ ∃ c ∈ cs, c.declares false n := by
  induction cs using snoc_induction with
  | h0 => simp [loadAll, Sys.empty]
  | h1 l a ih =>
    rw [loadAll_snoc, ← lookup_isSome]
    show (∃ x, lookup (addStates (loadAll l).stMap (number (loadAll l).cells.length a.descsS)).1 n = some x) ↔ _
    rw [(addStates_spec _ _).1]
    have h1 : (∃ x, lookup (loadAll l).stMap n = some x) ↔ ∃ c ∈ l, c.declares false n := by rw [lookup_isSome]; exact ih
    have h2 : (∃ x, lookup (number (loadAll l).cells.length a.descsS) n = some x) ↔ a.declares false n := by
      rw [lookup_isSome, number_keys]; exact descsS_keys a n
    constructor
    · rintro ⟨x, hx⟩
      cases h0 : lookup (loadAll l).stMap n with
      | some b => obtain ⟨c, hc, hd⟩ := h1.1 ⟨b, h0⟩; exact ⟨c, by simp [hc], hd⟩
      | none =>
        rw [h0] at hx; simp at hx
        exact ⟨a, by simp, h2.1 ⟨x, hx⟩⟩
    · rintro ⟨c, hc, hd⟩
      cases h0 : lookup (loadAll l).stMap n with
      | some b => exact ⟨b, by simp⟩
      | none =>
        rcases List.mem_append.1 hc with hc | hc
        · obtain ⟨x, hx⟩ := h1.2 ⟨c, hc, hd⟩
          rw [h0] at hx; simp at hx
        · simp at hc; subst hc
          obtain ⟨x, hx⟩ := h2.2 hd
          exact ⟨x, by rw [hx]; rfl⟩

theorem cmd_keys (cs : List (Comp V)) (n : Str) (h : n ∈ (loadAll cs).cmMap.map (·.1)) : ∃ c ∈ cs, c.declares true n := by
  induction cs using snoc_induction with
  | h0 => simp [loadAll, Sys.empty] at h
  | h1 l a ih =>
    rw [loadAll_snoc, ← lookup_isSome] at h
    obtain ⟨x, h⟩ := h
    rcases ((addCmds_spec _ _).1 n x).2 h with h | h
    · obtain ⟨c, hc, hd⟩ := ih (lookup_isSome.1 ⟨x, h⟩)
      exact ⟨c, by simp [hc], hd⟩
    · refine ⟨a, by simp, (descsC_keys a n).1 ?_⟩
      rw [← number_keys a.descsC]
      exact List.mem_map.2 ⟨_, h, rfl⟩

theorem loadAll_listed_old (l : List (Comp V)) (a : Comp V) (cmd : Bool) (k : Nat) (hk : k < l.length) :
    (loadAll (l ++ [a])).listed cmd k = (loadAll l).listed cmd k := by
  obtain ⟨T, g⟩ := good_loadAll l
  rw [loadAll_snoc]
  unfold Sys.listed
  rw [load_comps _ _ _ (by rw [g.num]; exact hk)]

theorem listed_new (s : Sys V) (c : Comp V) :
    (s.load c).listed false s.comps.length = (addStates s.stMap (number s.cells.length c.descsS)).2 ∧
    (s.load c).listed true s.comps.length =
      (addCmds s.cmMap (number (s.cells ++ c.descsS.map (·.2.init)).length c.descsC)).2.getD [] := by
  unfold Sys.listed Sys.load
  simp

end Verif.Exp
