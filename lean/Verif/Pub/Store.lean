import Verif.Core.Lemmas
/-!
# The published values of the interfaces

The resource manager keeps the handles of all interfaces. For each it registers, with the registry of the topic
`~/introspection_data`, a function that reads the handle through a raw pointer; for a command interface also its flag `is_limited`.
-/
namespace Verif
namespace Pub

/-- An interface: state or command, and its name. -/
structure IKey where
  cmd : Bool
  name : Name
  deriving DecidableEq, Repr

/-- A stored handle: which object it is, and whether it can be published (`is_valid` and a value that is a number, handle.hpp:651-660,
739-748). -/
structure Stored where
  obj : Nat
  pub : Bool
  deriving DecidableEq, Repr

/-- The name of a published variable: `state_interface.<name>`, `command_interface.<name>` or, with `lim`,
`command_interface.<name>.is_limited`. That no interface has a name ending in `.is_limited` is assumed. -/
structure Var where
  itf : IKey
  lim : Bool
  deriving DecidableEq, Repr

/-- A registration. -/
structure Reg where
  var : Var
  obj : Nat
  deriving DecidableEq, Repr

/-- handle.hpp:673 (state), 761-763 (command). -/
def regsOf (k : IKey) (obj : Nat) : List Reg :=
  if k.cmd then [⟨⟨k, false⟩, obj⟩, ⟨⟨k, true⟩, obj⟩] else [⟨⟨k, false⟩, obj⟩]

/-- The library's removal by name: all variables of the name, or only the oldest (the library is not in this repository). -/
def dropVar (all : Bool) (v : Var) (l : List Reg) : List Reg :=
  if all then l.filter (fun e => e.var ≠ v) else l.eraseP (fun e => e.var = v)

/-- handle.hpp:677-683 (state), 767-775 (command). -/
def unregs (all : Bool) (k : IKey) (l : List Reg) : List Reg :=
  if k.cmd then dropVar all ⟨k, true⟩ (dropVar all ⟨k, false⟩ l) else dropVar all ⟨k, false⟩ l

/-- The storage of the resource manager and the registry. `exp`: the names of the interfaces exported by each controller
(resource_manager.cpp, `controllers_exported_state_interfaces_map_`, `controllers_reference_interfaces_map_`; `none` without entry).
`crashed`: a missing interface was dereferenced. -/
structure Store where
  at_ : IKey → Option Stored
  regs : List Reg
  next : Nat
  exp : Bool → Name → Option (List Name)
  crashed : Bool

/-- At the beginning. -/
def Store.empty : Store := ⟨fun _ => none, [], 0, fun _ _ => none, false⟩

/-- resource_manager.cpp:717-731 `insert_command_interface`, 951-965 `add_state_interface`: a new handle; refused (an exception) if the key
exists. The refused handle dies or stays with its owner. -/
def add (s : Store) (k : IKey) (pub : Bool) : Store × Bool :=
  if (s.at_ k).isSome then ({ s with next := s.next + 1 }, false)
  else ({ s with at_ := upd s.at_ k (some ⟨s.next, pub⟩)
                 regs := if pub then s.regs ++ regsOf k s.next else s.regs
                 next := s.next + 1 }, true)

/-- resource_manager.cpp:977-999 `add_state_interfaces`: refused ones are skipped. Returns the names of the others. -/
def addStates : Store → List (Name × Bool) → Store × List Name
  | s, [] => (s, [])
  | s, x :: t =>
    let r := add s ⟨false, x.1⟩ x.2
    let q := addStates r.1 t
    (q.1, if r.2 then x.1 :: q.2 else q.2)

/-- resource_manager.cpp:1045-1062 `add_command_interfaces`: the first refused one ends it with an exception (`none`). -/
def addCmds : Store → List (Name × Bool) → Store × Option (List Name)
  | s, [] => (s, some [])
  | s, x :: t =>
    let r := add s ⟨true, x.1⟩ x.2
    if r.2 then let q := addCmds r.1 t; (q.1, q.2.map (x.1 :: ·)) else (r.1, none)

/-- resource_manager.cpp:1012-1013, 1181-1182: one interface; a missing one is a null pointer. -/
def drop (all : Bool) (s : Store) (k : IKey) : Store :=
  match s.at_ k with
  | none => { s with crashed := true }
  | some h => { s with at_ := upd s.at_ k none, regs := if h.pub then unregs all k s.regs else s.regs }

/-- resource_manager.cpp:1008-1015 `remove_state_interfaces`, 1177-1185 `remove_command_interfaces`. -/
def dropAll (all : Bool) (cmd : Bool) (s : Store) (l : List Name) : Store := l.foldl (fun s n => drop all s ⟨cmd, n⟩) s

/-- What can happen to the storage. An interface to be added: its name and whether it can be published. -/
inductive StoreOp
  /-- `load_and_initialize_components`: the interfaces of each component, and whether everything succeeded (resource_manager.cpp:1529-1622) -/
  | load (comps : List (List (Name × Bool) × List (Name × Bool))) (ok : Bool)
  /-- `import_controller_exported_state_interfaces` -/
  | importStates (c : Name) (l : List (Name × Bool))
  /-- `import_controller_reference_interfaces` -/
  | importRefs (c : Name) (l : List (Name × Bool))
  /-- `remove_controller_exported_state_interfaces` -/
  | removeStates (c : Name)
  /-- `remove_controller_reference_interfaces` -/
  | removeRefs (c : Name)

/-- resource_manager.cpp:685-715, 754-800 (the two imports of a component; an exception of the second is caught). -/
def importComp (s : Store) (c : List (Name × Bool) × List (Name × Bool)) : Store := (addCmds (addStates s c.1).1 c.2).1

/-- resource_manager.cpp:1331-1345 `clear`: the maps are emptied, the registry is not told. -/
def clear (s : Store) : Store := { s with at_ := fun _ => none }

/-- resource_manager.cpp:1739-1754, 1806-1820. -/
def removeExp (all : Bool) (cmd : Bool) (s : Store) (c : Name) : Store :=
  match s.exp cmd c with
  | none => s
  | some l => dropAll all cmd { s with exp := upd s.exp cmd (upd (s.exp cmd) c none) } l

/-- resource_manager.cpp:1529-1622 (load), 1691-1697, 1757-1764 (imports), 1739-1754, 1806-1820 (removals). -/
def storeStep (all : Bool) (s : Store) (op : StoreOp) : Store :=
  if s.crashed then s
  else match op with
  | .load cs ok => if ok then cs.foldl importComp s else clear (cs.foldl importComp s)
  | .importStates c l => let r := addStates s l; { r.1 with exp := upd r.1.exp false (upd (r.1.exp false) c (some r.2)) }
  | .importRefs c l =>
    let r := addCmds s l
    match r.2 with
    | none => r.1
    | some names => { r.1 with exp := upd r.1.exp true (upd (r.1.exp true) c (some names)) }
  | .removeStates c => removeExp all false s c
  | .removeRefs c => removeExp all true s c

/-- A history of the storage. -/
def storeRun (all : Bool) (l : List StoreOp) : Store := l.foldl (storeStep all) Store.empty

/-! ## What is registered under a name -/

/-- The registrations under a name. -/
def regsAt (v : Var) (l : List Reg) : List Reg := l.filter (fun e => e.var = v)

/-- The variables a published interface has. -/
def IKey.has (k : IKey) (v : Var) : Prop := v.itf = k ∧ (v.lim = true → k.cmd = true)

instance (k : IKey) (v : Var) : Decidable (k.has v) := inferInstanceAs (Decidable (_ ∧ _))

theorem mem_regsAt {e : Reg} {l : List Reg} : e ∈ l ↔ e ∈ regsAt e.var l := by simp [regsAt]

theorem regsAt_regsOf (k : IKey) (obj : Nat) (v : Var) : regsAt v (regsOf k obj) = if k.has v then [⟨v, obj⟩] else [] := by
  obtain ⟨⟨c, n⟩, l⟩ := v
  obtain ⟨c', m⟩ := k
  unfold regsAt regsOf IKey.has
  by_cases h : n = m
  · subst h
    cases c <;> cases c' <;> cases l <;> simp
  · have : ¬ m = n := fun e => h e.symm
    cases c' <;> simp [h, this]

theorem regsAt_drop (all : Bool) (v v' : Var) (l : List Reg) :
    regsAt v' (dropVar all v l) = if v' = v then (if all then [] else (regsAt v' l).tail) else regsAt v' l := by
  unfold regsAt dropVar
  cases all
  · simp only [Bool.false_eq_true, if_false]
    induction l with
    | nil => simp
    | cons e t ih =>
      rw [List.eraseP_cons]
      by_cases h : e.var = v
      · by_cases hk : v' = v
        · subst hk; simp [h]
        · have : ¬ v = v' := fun e => hk e.symm
          simp [h, hk, this]
      · by_cases hk : v' = v
        · subst hk
          simp only [h, decide_false, cond_false, List.filter_cons, Bool.false_eq_true, if_false, if_true]
          simpa using ih
        · simp only [h, decide_false, cond_false, List.filter_cons]
          simp only [hk, if_false] at ih ⊢
          rw [ih]
  · simp only [if_true]
    by_cases hk : v' = v
    · subst hk; simp [List.filter_filter]
    · rw [if_neg hk, List.filter_filter]
      apply List.filter_congr
      intro e _
      by_cases h : e.var = v'
      · simp [h, hk]
      · simp [h]

theorem regsAt_unregs (all : Bool) (k : IKey) (l : List Reg) (v : Var) :
    regsAt v (unregs all k l) = if k.has v then (if all then [] else (regsAt v l).tail) else regsAt v l := by
  obtain ⟨⟨c, n⟩, b⟩ := v
  obtain ⟨c', m⟩ := k
  unfold unregs IKey.has
  cases c' with
  | true =>
    simp only [if_true, regsAt_drop]
    by_cases h : n = m
    · subst h; cases c <;> cases b <;> simp
    · simp [h]
  | false =>
    simp only [Bool.false_eq_true, if_false, regsAt_drop]
    by_cases h : n = m
    · subst h; cases c <;> cases b <;> simp
    · simp [h]

theorem mem_append_regsOf {k : IKey} {obj : Nat} {l : List Reg} {e : Reg} :
    e ∈ l ++ regsOf k obj ↔ e ∈ l ∨ (k.has e.var ∧ e.obj = obj) := by
  rw [List.mem_append]
  refine or_congr Iff.rfl ?_
  rw [mem_regsAt, regsAt_regsOf]
  split
  · rename_i h
    obtain ⟨v, i⟩ := e
    simp [h]
  · rename_i h; simp [h]

theorem mem_unregs_other {all : Bool} {k : IKey} {l : List Reg} {e : Reg} (h : ¬ k.has e.var) : e ∈ unregs all k l ↔ e ∈ l := by
  rw [mem_regsAt, regsAt_unregs, if_neg h, ← mem_regsAt]

theorem mem_of_unregs {all : Bool} {k : IKey} {l : List Reg} {e : Reg} (h : e ∈ unregs all k l) : e ∈ l := by
  rw [mem_regsAt, regsAt_unregs] at h
  rw [mem_regsAt]
  split at h
  · split at h
    · cases h
    · exact List.mem_of_mem_tail h
  · exact h

end Pub
end Verif
