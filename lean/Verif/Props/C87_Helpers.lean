import Verif.Util.Model
import Verif.Text.Parse
import Mathlib.Data.List.Nodup
/-!
# C87: the helper functions for containers and texts

Specification in terms of membership, order, repetitions; `strip` in terms of the text between blanks.
-/
namespace Verif
namespace Util

variable {T : Type} [DecidableEq T]

theorem find_le (v : List T) (x : T) : find v x ≤ v.length := by
  induction v with
  | nil => exact Nat.le_refl _
  | cons a t ih => unfold find; split <;> simp; omega

theorem find_ne (v : List T) (x : T) : find v x ≠ v.length ↔ x ∈ v := by
  induction v with
  | nil => simp [find]
  | cons a t ih =>
    unfold find
    by_cases h : a = x
    · rw [if_pos h]; simp [h]
    · rw [if_neg h]
      have h' : x ≠ a := fun e => h e.symm
      simp only [List.length_cons, ne_eq, Nat.add_right_cancel_iff, List.mem_cons, h', false_or]
      exact ih

/-- `has_item`, `has_any_item`, `has_all_items`. -/
theorem C87_has (v items : List T) (x : T) : (hasItem v x = true ↔ x ∈ v) ∧ (hasAny v items = true ↔ ∃ i ∈ items, i ∈ v) ∧
    (hasAll v items = true ↔ ∀ i ∈ items, i ∈ v) := by
  have h : ∀ x, hasItem v x = true ↔ x ∈ v := by
    intro x
    unfold hasItem
    rw [decide_eq_true_eq]
    exact find_ne v x
  exact ⟨h x, by simp [hasAny, List.any_eq_true, h], by simp [hasAll, List.all_eq_true, h]⟩

/-- `remove_item` removes the first occurrence and nothing else, and tells whether there was one. -/
theorem C87_remove (v : List T) (x : T) : removeItem v x = (v.erase x, decide (x ∈ v)) := by
  unfold removeItem
  by_cases h : x ∈ v
  · rw [if_pos ((find_ne v x).mpr h), decide_eq_true h]
    congr 1
    induction v with
    | nil => cases h
    | cons a t ih =>
      unfold find
      by_cases ha : a = x
      · rw [if_pos ha, ha]; simp
      · rw [if_neg ha, List.eraseIdx_cons_succ, List.erase_cons_tail (by simpa using ha)]
        rcases List.mem_cons.mp h with h | h
        · exact absurd h.symm ha
        · rw [ih h]
  · rw [if_neg (fun hh => h ((find_ne v x).mp hh)), decide_eq_false h, List.erase_of_not_mem h]

theorem addItem_eq (v : List T) (x : T) : addItem v x = if x ∈ v then v else v ++ [x] := by
  unfold addItem
  by_cases h : x ∈ v
  · rw [if_pos h, if_pos ((C87_has v [] x).1.mpr h)]
  · rw [if_neg h, if_neg (fun hh => h ((C87_has v [] x).1.mp hh))]

/-- `add_items` (and `add_item`, with one item): what was there stays, in front; behind it come, in their order and once each, the items that were
not there. -/
theorem C87_add (v items : List T) : ∃ r, addItems v items = v ++ r ∧ r.Nodup ∧ r.Sublist items ∧ (∀ x ∈ r, x ∉ v) ∧
    ∀ x, x ∈ addItems v items ↔ x ∈ v ∨ x ∈ items := by
  induction items generalizing v with
  | nil => exact ⟨[], by simp [addItems], List.nodup_nil, List.Sublist.refl _, by simp, by simp [addItems]⟩
  | cons a t ih =>
    have hf : addItems v (a :: t) = addItems (addItem v a) t := rfl
    rw [hf, addItem_eq]
    by_cases h : a ∈ v
    · rw [if_pos h]
      obtain ⟨r, h1, h2, h3, h4, h5⟩ := ih v
      refine ⟨r, h1, h2, h3.trans (List.sublist_cons_self _ _), h4, ?_⟩
      intro x
      rw [h5, List.mem_cons]
      constructor
      · rintro (h | h)
        · exact Or.inl h
        · exact Or.inr (Or.inr h)
      · rintro (h' | h' | h')
        · exact Or.inl h'
        · rw [h']; exact Or.inl h
        · exact Or.inr h'
    · rw [if_neg h]
      obtain ⟨r, h1, h2, h3, h4, h5⟩ := ih (v ++ [a])
      refine ⟨a :: r, by rw [h1]; simp, ?_, h3.cons_cons a, ?_, ?_⟩
      · refine List.nodup_cons.mpr ⟨fun ha => h4 a ha (by simp), h2⟩
      · intro x hx
        rcases List.mem_cons.mp hx with rfl | hx
        · exact h
        · exact fun hv => h4 x hx (by simp [hv])
      · intro x
        rw [h5]
        simp only [List.mem_append, List.mem_cons, List.not_mem_nil, or_false, or_assoc]

/-- So a container without repetitions stays one. -/
theorem C87_add_nodup (v items : List T) (h : v.Nodup) : (addItems v items).Nodup := by
  obtain ⟨r, h1, h2, _, h4, _⟩ := C87_add v items
  rw [h1]
  exact List.nodup_append.mpr ⟨h, h2, fun a ha b hb e => h4 b hb (e ▸ ha)⟩

theorem noAdjacent_sorted (le : T → T → Prop) (anti : ∀ a b, le a b → le b a → a = b) (l : List T) (h : l.Pairwise le) :
    noAdjacent l = true ↔ l.Nodup := by
  induction l with
  | nil => simp [noAdjacent]
  | cons a t ih =>
    cases t with
    | nil => simp [noAdjacent]
    | cons b t =>
      obtain ⟨h1, h2⟩ := List.pairwise_cons.mp h
      unfold noAdjacent
      by_cases hab : a = b
      · rw [if_pos hab]
        simp [hab]
      · rw [if_neg hab, ih h2, List.nodup_cons (a := a)]
        constructor
        · intro hn
          refine ⟨?_, hn⟩
          intro hm
          rcases List.mem_cons.mp hm with hm | hm
          · exact hab hm
          · exact hab (anti a b (h1 b (by simp)) ((List.pairwise_cons.mp h2).1 a hm))
        · exact fun hn => hn.2

/-- `is_unique`: for every sort (a permutation of the elements in an antisymmetric order), exactly if no element occurs twice. -/
theorem C87_unique (le : T → T → Prop) (anti : ∀ a b, le a b → le b a → a = b) (sorted : List T → List T) (v : List T)
    (hp : (sorted v).Perm v) (hs : (sorted v).Pairwise le) : isUnique sorted v = true ↔ v.Nodup :=
  (noAdjacent_sorted le anti _ hs).trans hp.nodup_iff

/-! ## `strip` -/

theorem firstNot_none (s : List Char) (i : Nat) : firstNot s i = none ↔ s.all isWs = true := by
  induction s generalizing i with
  | nil => simp [firstNot]
  | cons c t ih =>
    unfold firstNot
    by_cases h : isWs c = true
    · rw [if_pos h, ih]; simp [h]
    · rw [if_neg h]; simp [h]

theorem firstNot_append (a b : List Char) (c : Char) (ha : a.all isWs = true) (hc : isWs c = false) (i : Nat) :
    firstNot (a ++ c :: b) i = some (i + a.length) := by
  induction a generalizing i with
  | nil => simp [firstNot, hc]
  | cons x t ih =>
    rw [List.all_cons, Bool.and_eq_true] at ha
    rw [List.cons_append, firstNot, if_pos ha.1, ih ha.2, List.length_cons]
    congr 1
    omega

theorem lastNot_ws (b : List Char) (hb : b.all isWs = true) (i best : Nat) : lastNot b i best = best := by
  induction b generalizing i with
  | nil => rfl
  | cons x t ih =>
    rw [List.all_cons, Bool.and_eq_true] at hb
    rw [lastNot, if_pos hb.1, ih hb.2]

theorem lastNot_append (a b : List Char) (c : Char) (hb : b.all isWs = true) (hc : isWs c = false) (i best : Nat) :
    lastNot (a ++ c :: b) i best = i + a.length := by
  induction a generalizing i best with
  | nil => rw [List.nil_append, lastNot, if_neg (by simp [hc]), lastNot_ws b hb]; simp
  | cons x t ih =>
    rw [List.cons_append, lastNot]
    split <;> rw [ih, List.length_cons] <;> omega

/-- A text is all blanks, or blanks, a text that neither begins nor ends with one, and blanks. -/
theorem trimmed (s : List Char) : s.all isWs = true ∨ ∃ a m b, s = a ++ m ++ b ∧ a.all isWs = true ∧ b.all isWs = true ∧
    (∃ c t, m = c :: t ∧ isWs c = false) ∧ ∃ c t, m = t ++ [c] ∧ isWs c = false := by
  by_cases h : s.all isWs = true
  · exact Or.inl h
  · right
    have front : ∀ l : List Char, l.all isWs = false → ∃ a c t, l = a ++ c :: t ∧ a.all isWs = true ∧ isWs c = false := by
      intro l
      induction l with
      | nil => intro h; simp at h
      | cons x t ih =>
        intro h
        by_cases hx : isWs x = true
        · rw [List.all_cons, hx, Bool.true_and] at h
          obtain ⟨a, c, t', h1, h2, h3⟩ := ih h
          exact ⟨x :: a, c, t', by rw [h1]; rfl, by simp [hx, h2], h3⟩
        · exact ⟨[], x, t, rfl, rfl, by simpa using hx⟩
    obtain ⟨a, c, t, h1, h2, h3⟩ := front s (by simpa using h)
    have hrev : ((c :: t).reverse).all isWs = false := by
      rw [List.all_reverse, List.all_cons, h3, Bool.false_and]
    obtain ⟨b, d, r, g1, g2, g3⟩ := front _ hrev
    have hm : c :: t = r.reverse ++ [d] ++ b.reverse := by
      have := congrArg List.reverse g1
      rw [List.reverse_reverse] at this
      rw [this]; simp
    refine ⟨a, r.reverse ++ [d], b.reverse, by rw [h1, hm]; simp, h2, by rw [List.all_reverse]; exact g2, ?_, d, r.reverse, rfl, g3⟩
    cases hr : r.reverse with
    | nil =>
      exact ⟨d, [], by simp, g3⟩
    | cons x y =>
      rw [hr] at hm
      simp only [List.cons_append, List.append_assoc, List.cons.injEq] at hm
      exact ⟨x, y ++ [d], rfl, hm.1 ▸ h3⟩

theorem strip_trimmed (a m b : List Char) (ha : a.all isWs = true) (hb : b.all isWs = true) (hf : ∃ c t, m = c :: t ∧ isWs c = false)
    (hl : ∃ c t, m = t ++ [c] ∧ isWs c = false) : strip (a ++ m ++ b) = m := by
  obtain ⟨c, t, hm, hc⟩ := hf
  obtain ⟨d, r, hm', hd⟩ := hl
  have e1 : firstNot (a ++ m ++ b) 0 = some a.length := by
    rw [hm, List.append_assoc, List.cons_append, firstNot_append a (t ++ b) c ha hc]; simp
  have e2 : lastNot (a ++ m ++ b) 0 0 = a.length + r.length := by
    have : a ++ m ++ b = (a ++ r) ++ d :: b := by rw [hm']; simp
    rw [this, lastNot_append (a ++ r) b d hb hd]; simp
  unfold strip
  rw [e1]
  simp only
  rw [e2, List.append_assoc, List.drop_left]
  have : a.length + r.length - a.length + 1 = m.length := by rw [hm', List.length_append, List.length_singleton]; omega
  rw [this, List.take_left]

theorem strip_ws (s : List Char) (h : s.all isWs = true) : strip s = [] := by
  unfold strip
  rw [(firstNot_none s 0).mpr h]

/-- `strip` removes the blanks at both ends and nothing else; what is left neither begins nor ends with one; doing it again changes nothing. -/
theorem C87_strip (s : List Char) : (∃ a b, s = a ++ strip s ++ b ∧ a.all isWs = true ∧ b.all isWs = true) ∧
    (∀ c, (strip s).head? = some c → isWs c = false) ∧ (∀ c, (strip s).getLast? = some c → isWs c = false) ∧ strip (strip s) = strip s := by
  rcases trimmed s with h | ⟨a, m, b, rfl, ha, hb, hf, hl⟩
  · rw [strip_ws s h]
    exact ⟨⟨s, [], by simp, h, rfl⟩, by simp, by simp, rfl⟩
  · rw [strip_trimmed a m b ha hb hf hl]
    refine ⟨⟨a, b, rfl, ha, hb⟩, ?_, ?_, ?_⟩
    · obtain ⟨c, t, hm, hc⟩ := hf
      intro x hx
      rw [hm] at hx
      cases hx
      exact hc
    · obtain ⟨c, t, hm, hc⟩ := hl
      intro x hx
      rw [hm, List.getLast?_concat] at hx
      cases hx
      exact hc
    · have := strip_trimmed [] m [] rfl rfl hf hl
      simpa using this

theorem isBlank_eq : Text.isBlank = isWs := by
  funext c
  have e1 : Char.ofNat 12 = '\x0c' := by decide
  have e2 : Char.ofNat 11 = '\x0b' := by decide
  simp only [Text.isBlank, isWs, e1, e2, Bool.beq_eq_decide_eq]

/-- It is the `strip` of the model of the parser of robot descriptions (C58) and of the conversions (C47 to C49). -/
theorem C87_strip_same (s : List Char) : Text.strip s = strip s := by
  unfold Text.strip
  rw [isBlank_eq]
  have drop : ∀ (a : List Char) (c : Char) (t : List Char), a.all isWs = true → isWs c = false → (a ++ c :: t).dropWhile isWs = c :: t := by
    intro a
    induction a with
    | nil => intro c t _ hc; simp [hc]
    | cons x a ih =>
      intro c t ha hc
      rw [List.all_cons, Bool.and_eq_true] at ha
      rw [List.cons_append, List.dropWhile_cons_of_pos ha.1, ih c t ha.2 hc]
  rcases trimmed s with h | ⟨a, m, b, rfl, ha, hb, hf, hl⟩
  · rw [strip_ws s h]
    have : ∀ l : List Char, l.all isWs = true → l.dropWhile isWs = [] := by
      intro l
      induction l with
      | nil => intro _; rfl
      | cons x l ih =>
        intro h
        rw [List.all_cons, Bool.and_eq_true] at h
        rw [List.dropWhile_cons_of_pos h.1, ih h.2]
    rw [this s h]; rfl
  · rw [strip_trimmed a m b ha hb hf hl]
    obtain ⟨c, t, hm, hc⟩ := hf
    obtain ⟨d, r, hm', hd⟩ := hl
    have e1 : (a ++ m ++ b).dropWhile isWs = m ++ b := by
      rw [hm, List.append_assoc, List.cons_append, drop a c (t ++ b) ha hc]
    rw [e1]
    have e2 : (m ++ b).reverse.dropWhile isWs = m.reverse := by
      have : (m ++ b).reverse = b.reverse ++ d :: r.reverse := by rw [hm']; simp
      rw [this, drop b.reverse d r.reverse (by rw [List.all_reverse]; exact hb) hd, hm']
      simp
    rw [e2, List.reverse_reverse]

/-- Not vacuous. -/
example : addItems [3, 1] [2, 3, 2, 4] = [3, 1, 2, 4] ∧ removeItem [3, 1, 3] 3 = ([1, 3], true) ∧ removeItem [1] 2 = ([1], false) ∧
    strip " a b\n".toList = "a b".toList := by decide +kernel

example (v : List Nat) : isUnique (fun l => l.mergeSort (fun a b => decide (a ≤ b))) v = true ↔ v.Nodup :=
  C87_unique (fun a b => decide (a ≤ b) = true) (fun a b h1 h2 => Nat.le_antisymm (of_decide_eq_true h1) (of_decide_eq_true h2)) _ v
    (List.mergeSort_perm _ _) (List.pairwise_mergeSort (fun a b c h1 h2 => by simp at *; omega) (fun a b => by simp; omega) v)

end Util
end Verif
