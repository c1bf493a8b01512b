import Verif.Check.Model
import Mathlib.Data.List.Nodup
import Mathlib.Data.List.Perm.Subperm
/-!
# C86: the helpers for tests mean what they say

Specification. `check_controllers_running(node, names, ns, state)` passes if all the named controllers run in the state, and fails
otherwise; `check_node_running` if there is such a node; `check_if_js_published` if the message has exactly the named joints.
-/
namespace Verif
namespace Check

theorem poll_sub {O : Type} (see : O → Str → Bool) (want : List Str) : ∀ (os : List O) (found : List Str), ∀ c ∈ poll see want os found,
    c ∈ found ∨ c ∈ want ∧ ∃ o ∈ os, see o c = true := by
  intro os
  induction os with
  | nil => intro found c hc; exact Or.inl hc
  | cons o os ih =>
    intro found c hc
    unfold poll at hc
    split at hc
    · exact Or.inl hc
    · rcases ih _ c hc with h | ⟨h1, o', h2, h3⟩
      · rcases List.mem_append.mp h with h | h
        · exact Or.inl h
        · obtain ⟨h1, h2⟩ := List.mem_filter.mp h
          exact Or.inr ⟨h1, o, by simp, h2⟩
      · exact Or.inr ⟨h1, o', by simp [h2], h3⟩

theorem poll_sup {O : Type} (see : O → Str → Bool) (want : List Str) : ∀ (os : List O) (found : List Str) (c : Str), c ∈ want →
    (c ∈ found ∨ ∃ o ∈ os, see o c = true) → c ∈ poll see want os found := by
  intro os
  induction os with
  | nil =>
    intro found c _ h
    rcases h with h | ⟨o, ho, _⟩
    · exact h
    · cases ho
  | cons o os ih =>
    intro found c hw h
    unfold poll
    by_cases hall : want.all (fun c => decide (c ∈ found)) = true
    · rw [if_pos hall]
      exact of_decide_eq_true (List.all_eq_true.mp hall c hw)
    · rw [if_neg hall]
      refine ih _ c hw ?_
      rcases h with h | ⟨o', ho, hs⟩
      · exact Or.inl (List.mem_append.mpr (Or.inl h))
      · rcases List.mem_cons.mp ho with rfl | ho
        · exact Or.inl (List.mem_append.mpr (Or.inr (List.mem_filter.mpr ⟨hw, hs⟩)))
        · exact Or.inr ⟨o', ho, hs⟩

theorem poll_iff {O : Type} (see : O → Str → Bool) (want : List Str) (os : List O) :
    want.all (fun c => decide (c ∈ poll see want os [])) = true ↔ ∀ c ∈ want, ∃ o ∈ os, see o c = true := by
  rw [List.all_eq_true]
  constructor
  · intro h c hc
    rcases poll_sub see want os [] c (of_decide_eq_true (h c hc)) with h1 | h1
    · cases h1
    · exact h1.2
  · intro h c hc
    exact decide_eq_true (poll_sup see want os [] c hc (Or.inr (h c hc)))

/-- **`check_node_running`** passes exactly if one of the answers shows the node. -/
theorem C86_node (obs : List (List Str)) (name : Str) : nodeRunning obs name = true ↔ ∃ o ∈ obs, name ∈ o := by
  have h := poll_iff (fun (o : List Str) c => decide (c ∈ o)) [name] obs
  simp only [List.all_cons, List.all_nil, Bool.and_true, List.mem_singleton, forall_eq, decide_eq_true_eq] at h
  unfold nodeRunning
  rw [decide_eq_true_eq]
  exact h

/-- The answers of the controller manager up to the one after which nothing is missing. -/
theorem pollLists_some (state : Str) (want : List Str) : ∀ (ls : List (Option (List (Str × Str)))) (found r : List Str),
    pollLists state want ls found = some r → (∀ c ∈ want, c ∈ r) →
    ∃ k, (∀ l ∈ ls.take k, ∃ cs, l = some cs ∧ cs ≠ []) ∧ (∀ c ∈ want, c ∈ found ∨ ∃ cs, some cs ∈ ls.take k ∧ (c, state) ∈ cs) ∧
      k ≤ ls.length := by
  intro ls
  induction ls with
  | nil =>
    intro found r h hr
    unfold pollLists at h
    cases h
    exact ⟨0, fun l hl => (nomatch hl), fun c hc => Or.inl (hr c hc), Nat.le_refl _⟩
  | cons l ls ih =>
    intro found r h hr
    unfold pollLists at h
    by_cases hall : want.all (fun c => decide (c ∈ found)) = true
    · exact ⟨0, fun l hl => (nomatch hl), fun c hc => Or.inl (of_decide_eq_true (List.all_eq_true.mp hall c hc)), Nat.zero_le _⟩
    · rw [if_neg hall] at h
      cases l with
      | none => cases h
      | some cs =>
        cases cs with
        | nil => cases h
        | cons a cs =>
          obtain ⟨k, h1, h2, h3⟩ := ih _ r h hr
          refine ⟨k + 1, ?_, ?_, by simp; omega⟩
          · intro l hl
            rw [List.take_succ_cons] at hl
            rcases List.mem_cons.mp hl with rfl | hl
            · exact ⟨_, rfl, by simp⟩
            · exact h1 l hl
          · intro c hc
            rw [List.take_succ_cons]
            rcases h2 c hc with h | ⟨cs', h, h'⟩
            · rcases List.mem_append.mp h with h | h
              · exact Or.inl h
              · obtain ⟨x, hx, hxc⟩ := List.mem_map.mp h
                obtain ⟨hx1, hx2⟩ := List.mem_filter.mp hx
                have hx2 := of_decide_eq_true hx2
                refine Or.inr ⟨a :: cs, by simp, ?_⟩
                rw [← hxc, ← hx2.2]
                exact hx1
            · exact Or.inr ⟨cs', List.mem_cons_of_mem _ h, h'⟩

theorem pollLists_of (state : Str) (want : List Str) : ∀ (k : Nat) (ls : List (Option (List (Str × Str)))) (found : List Str),
    (∀ l ∈ ls.take k, ∃ cs, l = some cs ∧ cs ≠ []) → (∀ c ∈ want, c ∈ found ∨ ∃ cs, some cs ∈ ls.take k ∧ (c, state) ∈ cs) →
    ∃ r, pollLists state want ls found = some r ∧ ∀ c ∈ want, c ∈ r := by
  intro k
  induction k with
  | zero =>
    intro ls found _ h2
    have hf : ∀ c ∈ want, c ∈ found := by
      intro c hc
      rcases h2 c hc with h | ⟨cs, h, _⟩
      · exact h
      · simp at h
    refine ⟨found, ?_, hf⟩
    cases ls with
    | nil => rfl
    | cons l ls =>
      unfold pollLists
      rw [if_pos (List.all_eq_true.mpr fun c hc => decide_eq_true (hf c hc))]
  | succ k ih =>
    intro ls found h1 h2
    cases ls with
    | nil =>
      refine ⟨found, rfl, ?_⟩
      intro c hc
      rcases h2 c hc with h | ⟨cs, h, _⟩
      · exact h
      · simp at h
    | cons l ls =>
      unfold pollLists
      by_cases hall : want.all (fun c => decide (c ∈ found)) = true
      · rw [if_pos hall]
        exact ⟨found, rfl, fun c hc => of_decide_eq_true (List.all_eq_true.mp hall c hc)⟩
      · rw [if_neg hall]
        rw [List.take_succ_cons] at h1 h2
        obtain ⟨cs, rfl, hne⟩ := h1 l (by simp)
        cases cs with
        | nil => exact absurd rfl hne
        | cons a cs =>
          refine ih ls _ (fun l hl => h1 l (List.mem_cons_of_mem _ hl)) ?_
          intro c hc
          rcases h2 c hc with h | ⟨cs', h, h'⟩
          · exact Or.inl (List.mem_append.mpr (Or.inl h))
          · rcases List.mem_cons.mp h with h | h
            · cases h
              refine Or.inl (List.mem_append.mpr (Or.inr (List.mem_map.mpr ⟨(c, state), List.mem_filter.mpr ⟨h', ?_⟩, rfl⟩)))
              exact decide_eq_true ⟨hc, rfl⟩
            · exact Or.inr ⟨cs', h, h'⟩

/-- **`check_controllers_running`** passes exactly if every named controller has a node in the namespace in one of the answers, and there is a
number of answers of the controller manager, all of them with controllers, among which each named controller is listed in the state at least
once. -/
theorem C86_running (nodes : List (List (Str × Str))) (lists : List (Option (List (Str × Str)))) (want : List Str) (ns state : Str) :
    controllersRunning nodes lists want ns state = true ↔
      (∀ c ∈ want, ∃ o ∈ nodes, (c, nsApi ns) ∈ o) ∧
      ∃ k ≤ lists.length, (∀ l ∈ lists.take k, ∃ cs, l = some cs ∧ cs ≠ []) ∧
        ∀ c ∈ want, ∃ cs, some cs ∈ lists.take k ∧ (c, state) ∈ cs := by
  have hp := poll_iff (fun (o : List (Str × Str)) c => o.any (fun n => decide (n.1 = c ∧ n.2 = nsApi ns))) want nodes
  have hsee : ∀ (o : List (Str × Str)) (c : Str), o.any (fun n => decide (n.1 = c ∧ n.2 = nsApi ns)) = true ↔ (c, nsApi ns) ∈ o := by
    intro o c
    rw [List.any_eq_true]
    constructor
    · rintro ⟨n, hn, h⟩
      have h := of_decide_eq_true h
      rw [← h.1, ← h.2]
      exact hn
    · intro h
      exact ⟨_, h, decide_eq_true ⟨rfl, rfl⟩⟩
  simp only [hsee] at hp
  unfold controllersRunning
  constructor
  · intro h
    split at h
    · rename_i hn
      refine ⟨hp.mp hn, ?_⟩
      split at h
      · cases h
      · rename_i r hr
        obtain ⟨k, h1, h2, h3⟩ := pollLists_some state want lists [] r hr (fun c hc => of_decide_eq_true (List.all_eq_true.mp h c hc))
        refine ⟨k, h3, h1, ?_⟩
        intro c hc
        rcases h2 c hc with h | h
        · cases h
        · exact h
    · cases h
  · rintro ⟨hn, k, _, h1, h2⟩
    rw [if_pos (hp.mpr hn)]
    obtain ⟨r, hr, hall⟩ := pollLists_of state want k lists [] h1 (fun c hc => Or.inr (h2 c hc))
    rw [hr]
    exact List.all_eq_true.mpr fun c hc => decide_eq_true (hall c hc)

/-- The claim: if the check passes, there was a moment at which all the controllers were in the state. -/
def TogetherClaim : Prop :=
  ∀ (nodes : List (List (Str × Str))) (lists : List (Option (List (Str × Str)))) (want : List Str) (ns state : Str), want ≠ [] →
    controllersRunning nodes lists want ns state = true → ∃ cs, some cs ∈ lists ∧ ∀ c ∈ want, (c, state) ∈ cs

/-- It is proved if a controller, once in the state, stays in it for as long as the check asks. -/
theorem C86_together_partial (nodes : List (List (Str × Str))) (lists : List (Option (List (Str × Str)))) (want : List Str) (ns state : Str)
    (hne : want ≠ []) (hstay : lists.Pairwise (fun l l' => ∀ c cs, l = some cs → (c, state) ∈ cs → ∀ cs', l' = some cs' → (c, state) ∈ cs'))
    (h : controllersRunning nodes lists want ns state = true) : ∃ cs, some cs ∈ lists ∧ ∀ c ∈ want, (c, state) ∈ cs := by
  obtain ⟨_, k, hk, h1, h2⟩ := (C86_running nodes lists want ns state).mp h
  obtain ⟨c0, hc0⟩ := List.exists_mem_of_ne_nil want hne
  obtain ⟨cs0, hcs0, _⟩ := h2 c0 hc0
  have hpos : lists.take k ≠ [] := by intro e; rw [e] at hcs0; cases hcs0
  obtain ⟨pre, last, hlast⟩ : ∃ pre last, lists.take k = pre ++ [last] :=
    ⟨(lists.take k).dropLast, (lists.take k).getLast hpos, (List.dropLast_append_getLast hpos).symm⟩
  obtain ⟨cs, rfl, _⟩ := h1 last (by rw [hlast]; simp)
  refine ⟨cs, List.mem_of_mem_take (by rw [hlast]; simp : some cs ∈ lists.take k), ?_⟩
  intro c hc
  obtain ⟨cs', hm, hmem⟩ := h2 c hc
  rw [hlast] at hm
  rcases List.mem_append.mp hm with hm | hm
  · have hpw : (pre ++ [some cs]).Pairwise (fun l l' => ∀ c cs, l = some cs → (c, state) ∈ cs → ∀ cs', l' = some cs' → (c, state) ∈ cs') := by
      rw [← hlast]
      exact hstay.sublist (List.take_sublist _ _)
    exact (List.pairwise_append.mp hpw).2.2 _ hm _ (by simp) c cs' rfl hmem cs rfl
  · cases List.mem_singleton.mp hm
    exact hmem

/-- It is false in general: two controllers of which one had stopped when the other one was started. -/
theorem C86_together_false : ¬ TogetherClaim := by
  intro h
  have := h [[(str "a", str "/"), (str "b", str "/")]]
    [some [(str "a", str "active"), (str "b", str "inactive")], some [(str "a", str "inactive"), (str "b", str "active")]]
    [str "a", str "b"] [] (str "active") (by decide) (by decide +kernel)
  obtain ⟨cs, hcs, hall⟩ := this
  simp only [List.mem_cons, List.not_mem_nil, or_false, Option.some.injEq] at hcs
  rcases hcs with rfl | rfl
  · exact absurd (hall (str "b") (by simp)) (by decide +kernel)
  · exact absurd (hall (str "a") (by simp)) (by decide +kernel)

/-- A namespace, written with or without slashes at its ends, is the same one; the controllers are looked for in it and its controller manager is
asked (a node in the root namespace makes of the relative name the absolute one). -/
theorem C86_namespace (c : Char) (t : Str) (h1 : c ≠ '/') (h2 : (c :: t).getLast? ≠ some '/') :
    nsApi (c :: t) = '/' :: c :: t ∧ nsApi (c :: t ++ ['/']) = '/' :: c :: t ∧ nsApi ('/' :: c :: t) = '/' :: c :: t ∧
      nsApi ('/' :: c :: t ++ ['/']) = '/' :: c :: t ∧
      cmOf (c :: t) = c :: t ++ '/' :: str "controller_manager" ∧ cmOf (c :: t ++ ['/']) = cmOf (c :: t) ∧
      cmOf ('/' :: c :: t) = '/' :: cmOf (c :: t) ∧ cmOf ('/' :: c :: t ++ ['/']) = '/' :: cmOf (c :: t) := by
  have hl : ('/' :: c :: t).getLast? ≠ some '/' := by
    rw [List.getLast?_cons_cons]; exact h2
  have e1 : (c :: t ++ ['/']).getLast? = some '/' := List.getLast?_concat
  have e2 : ('/' :: c :: t ++ ['/']).getLast? = some '/' := List.getLast?_concat
  refine ⟨?_, ?_, ?_, ?_, ?_, ?_, ?_, ?_⟩
  · unfold nsApi
    rw [if_neg (by simp)]
    simp only [if_neg h2, List.head?_cons, Option.some.injEq, if_neg h1]
  · unfold nsApi
    rw [if_neg (by simp)]
    simp only [if_pos e1]
    rw [if_neg (by simpa using h1)]
    rw [← List.cons_append, List.dropLast_concat]
  · unfold nsApi
    rw [if_neg (by simp)]
    simp only [if_neg hl, List.head?_cons, if_true]
  · unfold nsApi
    rw [if_neg (by simp)]
    simp only [if_pos e2]
    rw [if_pos (by simp), List.dropLast_concat]
  · unfold cmOf
    rw [if_neg (by simp), if_neg h2]
  · unfold cmOf
    rw [if_neg (by simp), if_pos e1, if_neg (by simp), if_neg h2]
    simp
  · unfold cmOf
    rw [if_neg (by simp), if_neg hl, if_neg (by simp), if_neg h2]
    simp
  · unfold cmOf
    rw [if_neg (by simp), if_pos e2, if_neg (by simp), if_neg h2]
    simp

/-- The root namespace must be given as the empty text: with "/" no node is ever found (the namespaces of nodes begin with a slash) and the check
fails whatever runs. -/
theorem C86_root (nodes : List (List (Str × Str))) (lists : List (Option (List (Str × Str)))) (want : List Str) (state : Str) (hne : want ≠ [])
    (hns : ∀ o ∈ nodes, ∀ n ∈ o, n.2.head? = some '/') : controllersRunning nodes lists want ['/'] state = false := by
  rw [Bool.eq_false_iff]
  intro h
  obtain ⟨h1, _⟩ := (C86_running _ _ _ _ _).mp h
  obtain ⟨c, hc⟩ := List.exists_mem_of_ne_nil want hne
  obtain ⟨o, ho, hm⟩ := h1 c hc
  have h2 : nsApi ['/'] = [] := by decide
  have h3 := hns o ho _ hm
  rw [h2] at h3
  cases h3

/-- **`check_if_js_published`** passes exactly if the first message has as many names as were given, and the same ones; so, if none was given
twice, exactly if they are these names in some order. -/
theorem C86_joints (msg : Option (List Str)) (names : List Str) :
    (jsPublished msg names = true ↔ ∃ m, msg = some m ∧ m.length = names.length ∧ ∀ n, n ∈ m ↔ n ∈ names) ∧
    (names.Nodup → (jsPublished msg names = true ↔ ∃ m, msg = some m ∧ m.Perm names)) := by
  have key : jsPublished msg names = true ↔ ∃ m, msg = some m ∧ m.length = names.length ∧ ∀ n, n ∈ m ↔ n ∈ names := by
    unfold jsPublished
    cases msg with
    | none => simp
    | some m =>
      simp only [Bool.and_eq_true, decide_eq_true_eq, List.all_eq_true, Option.some.injEq, exists_eq_left']
      constructor
      · rintro ⟨h1, h2, h3⟩
        exact ⟨h1, fun n => ⟨h2 n, h3 n⟩⟩
      · rintro ⟨h1, h2⟩
        exact ⟨h1, fun n hn => (h2 n).mp hn, fun n hn => (h2 n).mpr hn⟩
  refine ⟨key, fun hnd => key.trans ⟨?_, ?_⟩⟩
  · rintro ⟨m, rfl, hl, hm⟩
    refine ⟨m, rfl, ?_⟩
    have hs : names.Subperm m := List.subperm_of_subset hnd (fun n hn => (hm n).mpr hn)
    exact (hs.perm_of_length_le (by omega)).symm
  · rintro ⟨m, rfl, hp⟩
    exact ⟨m, rfl, hp.length_eq, fun n => hp.mem_iff⟩

/-- With a name given twice it can pass on a message that lacks one of the joints twice. -/
example : jsPublished (some [str "a", str "b", str "b"]) [str "a", str "a", str "b"] = true := by decide +kernel

/-- Not vacuous: two controllers, the second of which is started while the check runs. -/
example : controllersRunning [[(str "a", str "/ns")], [(str "a", str "/ns"), (str "b", str "/ns")]]
    [some [(str "a", str "active"), (str "b", str "inactive")], some [(str "a", str "active"), (str "b", str "active")]]
    [str "a", str "b"] (str "ns/") (str "active") = true ∧ nodeRunning [[], [str "a"]] (str "a") = true := by decide +kernel

end Check
end Verif
