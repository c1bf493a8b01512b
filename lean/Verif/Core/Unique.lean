import Mathlib.Data.List.Sort
/-!
# `is_unique`

Justifies the use of `Nodup` in the model of `configure_controller` (controller_manager.cpp:1736-1765).
-/
namespace Verif

/-- `std::adjacent_find(...) == end` (helpers.hpp:190). -/
def noAdjacent {α : Type} [DecidableEq α] : List α → Bool
  | a :: b :: t => decide (a ≠ b) && noAdjacent (b :: t)
  | _ => true

/-- hardware_interface/include/hardware_interface/helpers.hpp:186-191 `is_unique`: sort, then look for equal neighbours. -/
def isUnique {α : Type} [LinearOrder α] (l : List α) : Bool := noAdjacent (l.insertionSort (· ≤ ·))

theorem noAdjacent_iff {α : Type} [LinearOrder α] (l : List α) (h : l.Pairwise (· ≤ ·)) : noAdjacent l = true ↔ l.Nodup := by
  induction l with
  | nil => simp [noAdjacent]
  | cons a t ih =>
    cases t with
    | nil => simp [noAdjacent]
    | cons b u =>
      have h' := List.pairwise_cons.1 h
      simp only [noAdjacent, Bool.and_eq_true, decide_eq_true_eq, ih h'.2]
      rw [List.nodup_cons (a := a)]
      refine and_congr_left (fun _ => ⟨fun hab hm => ?_, fun hm e => hm (by simp [e])⟩)
      rcases List.mem_cons.1 hm with e | hm
      · exact hab e
      · have h1 := h'.1 b (by simp)
        have h2 := (List.pairwise_cons.1 h'.2).1 a hm
        exact hab (le_antisymm h1 h2)

/-- `is_unique` answers whether no element occurs twice. -/
theorem isUnique_iff {α : Type} [LinearOrder α] (l : List α) : isUnique l = true ↔ l.Nodup := by
  unfold isUnique
  rw [noAdjacent_iff _ (List.pairwise_insertionSort _ _)]
  exact (List.perm_insertionSort _ l).nodup_iff

example : isUnique [3, 1, 2] = true ∧ isUnique [3, 1, 3] = false := by decide

end Verif
