import Verif.Pub.Model
/-!
# The registry: what is registered under a name
-/
namespace Verif
namespace Pub

/-- The registrations under a name. -/
def under (k : Key) (l : List Entry) : List Entry := l.filter (fun e => e.key = k)

theorem mem_iff_under {e : Entry} {l : List Entry} : e ∈ l ↔ e ∈ under e.key l := by simp [under]

theorem under_register (n : Name) (obj : Nat) (l : List Entry) (k : Key) :
    under k (register n obj l) = under k l ++ if k.ctl = n then [⟨k, obj⟩] else [] := by
  obtain ⟨m, c, f⟩ := k
  simp only [under, register, registerCurrent, registerStatistic, List.filter_append, List.filter_cons, List.filter_nil]
  by_cases h : m = n
  · subst h
    cases c <;> cases f <;> simp
  · have : ¬ n = m := fun e => h e.symm
    simp [h, this]

theorem under_remove (all : Bool) (k k' : Key) (l : List Entry) :
    under k' (remove all k l) = if k' = k then (if all then [] else (under k' l).tail) else under k' l := by
  unfold under remove
  cases all
  · simp only [Bool.false_eq_true, if_false]
    induction l with
    | nil => simp
    | cons e t ih =>
      rw [List.eraseP_cons]
      by_cases h : e.key = k
      · by_cases hk : k' = k
        · subst hk; simp [h]
        · have : ¬ k = k' := fun e => hk e.symm
          simp [h, hk, this]
      · by_cases hk : k' = k
        · subst hk
          simp only [h, decide_false, cond_false, List.filter_cons, Bool.false_eq_true, if_false, if_true]
          simpa using ih
        · simp only [h, decide_false, cond_false, List.filter_cons]
          simp only [hk, if_false] at ih ⊢
          rw [ih]
  · simp only [if_true]
    by_cases hk : k' = k
    · subst hk; simp [List.filter_filter]
    · rw [if_neg hk, List.filter_filter]
      apply List.filter_congr
      intro e _
      by_cases h : e.key = k'
      · simp [h, hk]
      · simp [h]

theorem under_unregister (all : Bool) (n : Name) (l : List Entry) (k : Key) :
    under k (unregister all n l) = if k.ctl = n then (if all then [] else (under k l).tail) else under k l := by
  obtain ⟨m, c, f⟩ := k
  simp only [unregister, unregisterStatistic, under_remove]
  by_cases h : m = n
  · subst h
    cases c <;> cases f <;> simp
  · simp [h]

theorem mem_register {n : Name} {obj : Nat} {l : List Entry} {e : Entry} :
    e ∈ register n obj l ↔ e ∈ l ∨ (e.key.ctl = n ∧ e.obj = obj) := by
  rw [mem_iff_under, under_register, List.mem_append, ← mem_iff_under]
  split
  · rename_i h
    obtain ⟨k, i⟩ := e
    simp only [List.mem_singleton, Entry.mk.injEq, true_and]
    exact or_congr Iff.rfl (by simp_all)
  · rename_i h
    simp [h]

theorem mem_unregister_other {all : Bool} {n : Name} {l : List Entry} {e : Entry} (h : e.key.ctl ≠ n) :
    e ∈ unregister all n l ↔ e ∈ l := by
  rw [mem_iff_under, under_unregister, if_neg h, ← mem_iff_under]

theorem mem_of_unregister {all : Bool} {n : Name} {l : List Entry} {e : Entry} (h : e ∈ unregister all n l) : e ∈ l := by
  rw [mem_iff_under, under_unregister] at h
  rw [mem_iff_under]
  split at h
  · split at h
    · cases h
    · exact List.mem_of_mem_tail h
  · exact h

end Pub
end Verif
