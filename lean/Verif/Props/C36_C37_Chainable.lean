import Verif.Chain.Chainable
import Mathlib.Data.List.Induction
/-!
# C36, C37: chainable controllers
-/
namespace Verif
open Chain

/-! ## C36 -/

/-- The mode after a history: what was asked in the last call of `set_chained_mode` that was accepted. -/
def Chain.mode : List Op → Bool
  | [] => false
  | .setMode false true m :: _ => m
  | _ :: before => mode before

theorem Chain.run_append (cur : Bool) (a b : List Op) :
    run cur (a ++ b) = run cur a ++ run (a.foldl (fun c op => (step c op).1) cur) b := by
  induction a generalizing cur with
  | nil => rfl
  | cons op a ih => simp only [List.cons_append, run, ih, List.foldl_cons]

theorem Chain.step_mode (before : List Op) (op : Op) : (step (mode before) op).1 = mode (op :: before) := by
  cases op with
  | setMode active agrees m => cases active <;> cases agrees <;> cases m <;> rfl
  | update s w => rfl

theorem Chain.mode_eq (a : List Op) : a.foldl (fun c op => (step c op).1) false = mode a.reverse := by
  induction a using List.reverseRecOn with
  | nil => rfl
  | append_singleton a op ih =>
    rw [List.foldl_append, ih, List.reverse_append]
    exact step_mode a.reverse op

/-- **C36.** In every history of a chainable controller and for every answer of its methods, an update
calls `update_reference_from_subscribers` exactly if the last accepted `set_chained_mode` was not `true`; it calls
`update_and_write_commands` exactly if it did not call the subscribers' method or that one returned OK, and after it; the
result is that of the last method called. -/
theorem update_selects_input (before later : List Op) (subs write : Chain.Ret) :
    ∃ calls, (run false (before ++ .update subs write :: later))[before.length]? =
      some (.updated (if mode before.reverse = true ∨ subs = .ok then write else subs), calls) ∧
    (Event.fromSubscribers ∈ calls ↔ mode before.reverse = false) ∧
    (Event.writeCommands ∈ calls ↔ mode before.reverse = true ∨ subs = .ok) ∧
    (∀ m, Event.onSetChained m ∉ calls) ∧
    (calls = [.fromSubscribers] ∨ calls = [.writeCommands] ∨ calls = [.fromSubscribers, .writeCommands]) := by
  have hlen : ∀ (c : Bool) (l : List Op), (run c l).length = l.length := by
    intro c l
    induction l generalizing c with
    | nil => rfl
    | cons op l ih => simp [run, ih]
  refine ⟨(update (mode before.reverse) subs write).2, ?_, ?_⟩
  · rw [run_append, List.getElem?_append_right (Nat.le_of_eq (hlen _ _)), hlen, Nat.sub_self, mode_eq]
    simp only [run, step, List.getElem?_cons_zero, Option.some.injEq, Prod.mk.injEq, and_true]
    cases mode before.reverse <;> cases subs <;> rfl
  · cases mode before.reverse <;> cases subs <;> simp [update]

/-- **C36, the mode changes only outside of the active state** and only if the plugin agrees; the answer tells so. -/
theorem mode_change (before later : List Op) (active agrees m : Bool) :
    ∃ calls, (run false (before ++ .setMode active agrees m :: later))[before.length]? =
      some (.mode (!active && agrees), calls) ∧
    mode (.setMode active agrees m :: before.reverse) = (if !active && agrees then m else mode before.reverse) ∧
    (calls = if active then [] else [.onSetChained m]) := by
  have hlen : ∀ (c : Bool) (l : List Op), (run c l).length = l.length := by
    intro c l
    induction l generalizing c with
    | nil => rfl
    | cons op l ih => simp [run, ih]
  refine ⟨(setChained active agrees m (mode before.reverse)).2.2, ?_, ?_, ?_⟩
  · rw [run_append, List.getElem?_append_right (Nat.le_of_eq (hlen _ _)), hlen, Nat.sub_self, mode_eq]
    simp only [run, step, List.getElem?_cons_zero]
    cases active <;> cases agrees <;> rfl
  · cases active <;> cases agrees <;> cases m <;> rfl
  · cases active <;> rfl

/-- A history: chained while inactive, refused while active, updates in both modes. -/
example : run false [.update .ok .ok, .update .error .ok, .setMode false true true, .update .error .ok, .setMode true true false,
    .update .error .error, .setMode false false false, .update .error .ok] =
    [(.updated .ok, [.fromSubscribers, .writeCommands]), (.updated .error, [.fromSubscribers]), (.mode true, [.onSetChained true]),
     (.updated .ok, [.writeCommands]), (.mode false, []), (.updated .error, [.writeCommands]),
     (.mode false, [.onSetChained false]), (.updated .ok, [.writeCommands])] := by decide

/-! ## C37 -/

theorem Chain.insertAll_ok (ctl : Str) (l : List Chain.Itf) (s : Store) (hk : s.keys.Nodup) :
    ((insertAll ctl l s).2 = none ↔
      (∀ i ∈ l, ctl <+: i.pre) ∧ (l.map Chain.Itf.name).Nodup ∧ ∀ i ∈ l, i.name ∉ s.keys) ∧
    ((insertAll ctl l s).2 = none → (insertAll ctl l s).1 =
      { s with names := s.names ++ l.map Chain.Itf.name, keys := s.keys ++ l.map Chain.Itf.name }) := by
  induction l generalizing s with
  | nil => simp [insertAll]
  | cons i is ih =>
    unfold insertAll
    by_cases h1 : ctl <+: i.pre
    · have h1' : ctl.isPrefixOf i.pre = true := List.isPrefixOf_iff_prefix.2 h1
      simp only [h1', Bool.not_true, Bool.false_eq_true, if_false]
      by_cases h2 : i.name ∈ s.keys
      · have h2' : s.keys.contains i.name = true := by simpa using h2
        simp only [h2', if_true]
        refine ⟨⟨fun h => (by cases h), fun h => absurd h2 (h.2.2 i List.mem_cons_self)⟩, fun h => by cases h⟩
      · have h2' : s.keys.contains i.name = false := by simpa using h2
        simp only [h2', Bool.false_eq_true, if_false]
        have hk' : ({ s with names := s.names ++ [i.name], keys := s.keys ++ [i.name] } : Store).keys.Nodup := by
          dsimp only
          rw [List.nodup_append]
          refine ⟨hk, by simp, ?_⟩
          rintro a ha b hb rfl
          simp only [List.mem_singleton] at hb
          exact h2 (hb ▸ ha)
        obtain ⟨ih1, ih2⟩ := ih _ hk'
        constructor
        · rw [ih1]
          constructor
          · rintro ⟨a, b, c⟩
            refine ⟨?_, ?_, ?_⟩
            · intro j hj
              rcases List.mem_cons.1 hj with rfl | hj
              · exact h1
              · exact a j hj
            · rw [List.map_cons, List.nodup_cons]
              refine ⟨?_, b⟩
              intro hm
              obtain ⟨j, hj, he⟩ := List.mem_map.1 hm
              exact c j hj (by simp [he])
            · intro j hj
              rcases List.mem_cons.1 hj with rfl | hj
              · exact h2
              · intro hm; exact c j hj (by simp [hm])
          · rintro ⟨a, b, c⟩
            rw [List.map_cons, List.nodup_cons] at b
            refine ⟨fun j hj => a j (by simp [hj]), b.2, ?_⟩
            intro j hj hm
            simp only [List.mem_append, List.mem_singleton] at hm
            rcases hm with hm | hm
            · exact c j (by simp [hj]) hm
            · exact b.1 (List.mem_map.2 ⟨j, hj, hm⟩)
        · intro h
          rw [ih2 h]
          simp
    · have h1' : ctl.isPrefixOf i.pre = false := by
        rw [Bool.eq_false_iff]
        intro h
        exact h1 (List.isPrefixOf_iff_prefix.1 h)
      simp only [h1', Bool.not_false, if_true]
      exact ⟨⟨fun h => (by cases h), fun h => absurd (h.1 i List.mem_cons_self) h1⟩, fun h => by cases h⟩

/-- What an export may contain: every prefix begins with the controller's name, and no name occurs twice. -/
def Chain.Proper (ctl : Str) (l : List Chain.Itf) : Prop := (∀ i ∈ l, ctl <+: i.pre) ∧ (l.map Chain.Itf.name).Nodup

/-- **C37, state interfaces.** For every controller, whatever it exported before: an export succeeds exactly if it is proper,
and then yields exactly the exported names, in order, and remembers these and nothing else. -/
theorem export_states_iff (ctl : Str) (s : Store) (old new : List Chain.Itf) (n : Nat) :
    (∀ l, (exportStates ctl s (some (old, n)) new).2 = .ok l ↔ Proper ctl (old ++ new) ∧ l = (old ++ new).map Chain.Itf.name) ∧
    (Proper ctl (old ++ new) → (exportStates ctl s (some (old, n)) new).1.names = (old ++ new).map Chain.Itf.name ∧
      (exportStates ctl s (some (old, n)) new).1.keys = (old ++ new).map Chain.Itf.name) := by
  obtain ⟨h1, h2⟩ := insertAll_ok ctl (old ++ new) { s with names := [], keys := [], values := n } (by simp)
  have hP : (insertAll ctl (old ++ new) { s with names := [], keys := [], values := n }).2 = none ↔ Proper ctl (old ++ new) := by
    rw [h1]; unfold Proper; simp
  unfold exportStates deprecated
  dsimp only
  cases hq : insertAll ctl (old ++ new) { s with names := [], keys := [], values := n } with
  | mk s' f =>
    rw [hq] at hP h2
    cases f with
    | some f =>
      have hN : ¬ Proper ctl (old ++ new) := fun h => by cases hP.2 h
      constructor
      · intro l
        cases f <;> exact ⟨fun h => (by cases h), fun h => absurd h.1 hN⟩
      · intro h; exact absurd h hN
    | none =>
      have hs := h2 rfl
      dsimp only at hs
      subst hs
      simp only [List.nil_append, List.length_map, List.length_append, ne_eq, not_true_eq_false, if_false, Except.ok.injEq]
      exact ⟨fun l => ⟨fun h => ⟨hP.1 rfl, h.symm⟩, fun h => h.2.symm⟩, fun _ => ⟨trivial, trivial⟩⟩

/-- **C37, reference interfaces.** Likewise; in addition the number of values must be that of the interfaces of the deprecated list. -/
theorem export_refs_iff (ctl : Str) (s : Store) (old new : List Chain.Itf) (n : Nat) :
    (∀ l, (exportRefs ctl s (some (old, n)) new).2 = .ok l ↔
      n = old.length ∧ Proper ctl (old ++ new) ∧ l = (old ++ new).map Chain.Itf.name) ∧
    (n = old.length → Proper ctl (old ++ new) → (exportRefs ctl s (some (old, n)) new).1.names = (old ++ new).map Chain.Itf.name ∧
      (exportRefs ctl s (some (old, n)) new).1.keys = (old ++ new).map Chain.Itf.name) := by
  obtain ⟨h1, h2⟩ := insertAll_ok ctl (old ++ new) { s with names := [], keys := [], values := n } (by simp)
  have hP : (insertAll ctl (old ++ new) { s with names := [], keys := [], values := n }).2 = none ↔ Proper ctl (old ++ new) := by
    rw [h1]; unfold Proper; simp
  unfold exportRefs deprecated
  dsimp only
  by_cases hn : n = old.length
  · rw [if_neg (by simpa using hn)]
    cases hq : insertAll ctl (old ++ new) { s with names := [], keys := [], values := n } with
    | mk s' f =>
      rw [hq] at hP h2
      cases f with
      | some f =>
        have hN : ¬ Proper ctl (old ++ new) := fun h => by cases hP.2 h
        constructor
        · intro l
          cases f <;> exact ⟨fun h => (by cases h), fun h => absurd h.2.1 hN⟩
        · intro _ h; exact absurd h hN
      | none =>
        have hs := h2 rfl
        dsimp only at hs
        subst hs
        simp only [List.nil_append, List.length_map, List.length_append, ne_eq, not_true_eq_false, if_false, Except.ok.injEq]
        exact ⟨fun l => ⟨fun h => ⟨hn, hP.1 rfl, h.symm⟩, fun h => h.2.2.symm⟩, fun _ _ => ⟨trivial, trivial⟩⟩
  · rw [if_pos (by simpa using hn)]
    exact ⟨fun l => ⟨fun h => (by cases h), fun h => absurd h.1 hn⟩, fun h => absurd h hn⟩

/-- **C37, nothing is registered otherwise.** Configuring a chainable controller registers its interfaces with the resource
manager exactly if both exports are proper and not both empty; it then registers exactly the exported names. -/
theorem export_all_or_nothing (ctl : Str) (ss rs : Store) (os ns or nr : List Chain.Itf) (n m : Nat) (q : List Str × List Str) :
    exported ctl ss rs { oldStates := some (os, n), newStates := ns, oldRefs := some (or, m), newRefs := nr } = some q ↔
      Proper ctl (os ++ ns) ∧ Proper ctl (or ++ nr) ∧ m = or.length ∧ (or ++ nr ≠ [] ∨ os ++ ns ≠ []) ∧
      q = ((or ++ nr).map Chain.Itf.name, (os ++ ns).map Chain.Itf.name) := by
  unfold exported
  have h1 := (export_states_iff ctl ss os ns n).1
  have h2 := (export_refs_iff ctl rs or nr m).1
  cases he : (exportStates ctl ss (some (os, n)) ns).2 with
  | error f =>
    rw [he] at h1
    constructor
    · intro h; cases h
    · rintro ⟨a, -⟩; have := (h1 _).2 ⟨a, rfl⟩; cases this
  | ok l =>
    rw [he] at h1
    obtain ⟨hp, rfl⟩ := (h1 l).1 rfl
    dsimp only
    cases hr : (exportRefs ctl rs (some (or, m)) nr).2 with
    | error f =>
      rw [hr] at h2
      constructor
      · intro h; cases h
      · rintro ⟨-, a, b, -⟩; have := (h2 _).2 ⟨b, a, rfl⟩; cases this
    | ok l =>
      rw [hr] at h2
      obtain ⟨hm, hp', rfl⟩ := (h2 l).1 rfl
      dsimp only
      simp only [List.map_eq_nil_iff]
      by_cases hne : or ++ nr = [] ∧ os ++ ns = []
      · rw [if_pos hne]
        constructor
        · intro h; cases h
        · rintro ⟨-, -, -, h, -⟩
          rcases h with h | h
          · exact absurd hne.1 h
          · exact absurd hne.2 h
      · rw [if_neg hne, Option.some.injEq]
        constructor
        · rintro rfl
          refine ⟨hp, hp', hm, ?_, rfl⟩
          by_cases h : or ++ nr = []
          · exact .inr fun h' => hne ⟨h, h'⟩
          · exact .inl h
        · rintro ⟨-, -, -, -, rfl⟩; rfl

/-- A controller `pid` with a reference and a state interface. -/
def Chain.pid : Plugin :=
  { oldStates := some ([], 0), newStates := [⟨"pid".toList, "error".toList⟩],
    oldRefs := some ([⟨"pid/left".toList, "velocity".toList⟩], 1), newRefs := [⟨"pid/right".toList, "velocity".toList⟩] }

example : exported "pid".toList {} {} pid = some (["pid/left/velocity".toList, "pid/right/velocity".toList], ["pid/error".toList]) ∧
    exported "pid".toList {} {} { pid with newRefs := [⟨"pid".toList, "left/velocity".toList⟩] } = none ∧
    exported "pid".toList {} {} { pid with newStates := [⟨"pod".toList, "error".toList⟩] } = none := by decide

/-- **The names a subclass prepares are never exported.** The default methods make one interface for each name in
`exported_reference_interface_names_` (and `..state..`), but both lists are emptied just before: a controller relying on them
exports nothing and is refused, whatever names it has set. -/
theorem default_export_is_empty (ctl : Str) (ss rs : Store) :
    (exportRefs ctl rs none []).2 = .ok [] ∧ (exportStates ctl ss none []).2 = .ok [] ∧ exported ctl ss rs {} = none := by
  refine ⟨rfl, rfl, rfl⟩

/-- A plugin that does not override the deprecated methods exports exactly as one whose deprecated methods return nothing: so the
theorems above cover it too. -/
theorem default_is_empty_override (ctl : Str) (ss rs : Store) (new : List Chain.Itf) :
    exportStates ctl ss none new = exportStates ctl ss (some ([], 0)) new ∧
    exportRefs ctl rs none new = exportRefs ctl rs (some ([], 0)) new := ⟨rfl, rfl⟩

/-- **The prefix may be the name of another controller**: `arm` may export an interface of `arm_left`. -/
theorem foreign_prefix_accepted :
    exported "arm".toList {} {} { oldRefs := some ([], 0), newRefs := [⟨"arm_left".toList, "position".toList⟩] } =
      some (["arm_left/position".toList], []) := by decide

end Verif
