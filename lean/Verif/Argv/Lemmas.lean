import Verif.Argv.Spec
/-! # Lemmas about the command line parsers -/
namespace Verif.Argv

variable {K : Type}

theorem posSpan_length (l : List (Str × Option (Cls K))) : (posSpan l).2.length ≤ l.length := by
  induction l with
  | nil => simp [posSpan]
  | cons a t ih =>
    obtain ⟨s, c⟩ := a
    cases c with
    | none => simp [posSpan]
    | some c => cases c <;> simp [posSpan] <;> omega

theorem run_fuel (P : Parser K) : ∀ n m (ts : List (Str × Option (Cls K))), ts.length ≤ n → ts.length ≤ m → run P n ts = run P m ts := by
  intro n
  induction n with
  | zero =>
    intro m ts h1 h2
    have : ts = [] := List.length_eq_zero_iff.mp (by omega)
    subst this
    cases m <;> simp [run]
  | succ n ih =>
    intro m ts h1 h2
    cases ts with
    | nil => cases m <;> simp [run]
    | cons a r =>
      cases m with
      | zero => simp at h2
      | succ m =>
        simp only [List.length_cons] at h1 h2
        have e := ih m r (by omega) (by omega)
        obtain ⟨s, c⟩ := a
        cases c with
        | none => simp [run, e]
        | some c =>
          cases c with
          | pos => simp [run, e]
          | unknown => simp [run, e]
          | ambiguous => simp [run]
          | opt k long att =>
            have hs := posSpan_length r
            simp only [run]
            generalize attached P k long att = x
            cases x with
            | none => rfl
            | some x =>
              obtain ⟨done, pending⟩ := x
              cases pending with
              | none => simp [e]
              | some k' =>
                simp only
                cases P.arity k' with
                | zero => simp [e]
                | many => simp [ih m _ (by omega : (posSpan r).2.length ≤ n) (by omega)]
                | one =>
                  cases r with
                  | nil => rfl
                  | cons b r' =>
                    obtain ⟨s', c'⟩ := b
                    simp only [List.length_cons] at h1 h2
                    cases c' with
                    | none => rfl
                    | some c' => cases c' <;> simp [ih m r' (by omega) (by omega)]

/-- The events of a command line, if no word is ambiguous. -/
def ev (P : Parser K) (args : List Str) : List (Ev K) := run P (tokens P args).length (tokens P args)

def sepW : Str := ['-', '-']

theorem tokens_cons (P : Parser K) (w : Str) (r : List Str) (h : w ≠ sepW) :
    tokens P (w :: r) = (w, some (classify P w)) :: tokens P r := by
  have : w ≠ ['-', '-'] := h
  simp [tokens, this]

theorem ev_pos (P : Parser K) (w : Str) (r : List Str) (h : w ≠ sepW) (c : classify P w = .pos) : ev P (w :: r) = .word w :: ev P r := by
  simp [ev, tokens_cons P w r h, c, run]

theorem ev_unknown (P : Parser K) (w : Str) (r : List Str) (h : w ≠ sepW) (c : classify P w = .unknown) : ev P (w :: r) = .extra w :: ev P r := by
  simp [ev, tokens_cons P w r h, c, run]

theorem ev_flag (P : Parser K) (w : Str) (r : List Str) (k : K) (b : Bool) (h : w ≠ sepW) (c : classify P w = .opt k b none)
    (a : P.arity k = .zero) : ev P (w :: r) = .took k [] :: ev P r := by
  simp [ev, tokens_cons P w r h, c, run, attached, a]

theorem ev_value (P : Parser K) (w v : Str) (r : List Str) (k : K) (b : Bool) (h : w ≠ sepW) (c : classify P w = .opt k b none)
    (a : P.arity k = .one) (hv : v ≠ sepW) (cv : classify P v = .pos) : ev P (w :: v :: r) = .took k [v] :: ev P r := by
  simp only [ev, tokens_cons P w _ h, tokens_cons P v r hv, c, cv, List.length_cons, run, attached, a, List.nil_append]
  rw [run_fuel P _ (tokens P r).length _ (by omega) (Nat.le_refl _)]

theorem ev_attached (P : Parser K) (w v : Str) (r : List Str) (k : K) (b e : Bool) (h : w ≠ sepW) (c : classify P w = .opt k b (some (e, v)))
    (a : P.arity k = .one) : ev P (w :: r) = .took k [v] :: ev P r := by
  simp [ev, tokens_cons P w r h, c, run, attached, expand, a]

/-- Free of `--` and of ambiguous words. -/
def Calm (P : Parser K) (args : List Str) : Prop := ∀ w ∈ args, w ≠ sepW ∧ classify P w ≠ .ambiguous

theorem parse_ev (P : Parser K) (args : List Str) (h : Calm P args) : parse P args = ev P args := by
  have : (tokens P args).any isAmbiguous = false := by
    induction args with
    | nil => rfl
    | cons w r ih =>
      have hw := h w (by simp)
      rw [tokens_cons P w r hw.1, List.any_cons, ih (fun x hx => h x (by simp [hx]))]
      have h2 := hw.2
      cases hc : classify P w with
      | ambiguous => exact absurd hc h2
      | _ => rfl
  simp only [parse, ev]
  rw [if_neg (by rw [this]; simp)]

/-! ## Classifying words -/

theorem partEq_append (a b : Str) (h : '=' ∉ a) : partEq (a ++ '=' :: b) = (a, some b) := by
  induction a with
  | nil => simp [partEq]
  | cons c t ih =>
    simp only [List.mem_cons, not_or] at h
    simp [partEq, ih h.2, Ne.symm h.1]

/-- The part before `=` contains all that is before the first `=`. -/
theorem partEq_mem (a b : Str) (c : Char) (h : '=' ∉ a) (hc : c ≠ '=') : c ∈ (partEq (a ++ c :: b)).1 := by
  induction a with
  | nil => simp [partEq, hc]
  | cons d t ih =>
    simp only [List.mem_cons, not_or] at h
    simp [partEq, Ne.symm h.1, ih h.2]

theorem lookup_none_of_mem {α : Type} (l : List (Str × α)) (w : Str) (c : Char) (hw : c ∈ w) (h : ∀ o ∈ l, c ∉ o.1) : l.lookup w = none := by
  induction l with
  | nil => rfl
  | cons o t ih =>
    have h1 := h o (by simp)
    have : (w == o.1) = false := by
      rw [beq_eq_false_iff_ne]
      rintro rfl
      exact h1 hw
    rw [List.lookup, this]
    exact ih (fun o ho => h o (by simp [ho]))

/-- No option string has an `=` or a blank. -/
def Tidy (P : Parser K) : Prop := ∀ o ∈ P.opts, '=' ∉ o.1 ∧ ' ' ∉ o.1

instance (P : Parser K) : Decidable (Tidy P) := inferInstanceAs (Decidable (∀ o ∈ P.opts, _))

theorem tidy_global : Tidy globalParser := by decide +kernel
theorem tidy_ctl : Tidy ctlParser := by decide +kernel
theorem tidy_native : Tidy nativeParser := by decide +kernel

theorem classify_eq (P : Parser K) (hP : Tidy P) (n v : Str) (k : K) (hn : '=' ∉ n) (hd : n.head? = some '-') (hl : n.length ≥ 2)
    (hk : P.opts.lookup n = some k) : classify P (n ++ '=' :: v) = .opt k (isLong n) (some (true, v)) := by
  obtain ⟨c, t, rfl⟩ : ∃ c t, n = c :: t := by cases n <;> simp at hd; exact ⟨_, _, rfl⟩
  have hc : c = '-' := by simpa using hd
  subst hc
  have h1 : P.opts.lookup ('-' :: (t ++ '=' :: v)) = none :=
    lookup_none_of_mem _ _ '=' (by simp) (fun o ho => (hP o ho).1)
  have h2 := partEq_append ('-' :: t) v hn
  simp only [List.cons_append] at h2 ⊢
  simp [classify, h1, h2, hk]

theorem classify_foreign (P : Parser K) (hP : Tidy P) (n v : Str) (hn : '=' ∉ n) (hd : isLong n = true)
    (hk : P.opts.lookup n = none) (ht : P.abbr = true → ∀ o ∈ P.opts, n.isPrefixOf o.1 = false) :
    classify P (n ++ '=' :: v) = .pos ∨ classify P (n ++ '=' :: v) = .unknown := by
  obtain ⟨t, rfl⟩ : ∃ t, n = '-' :: '-' :: t := by
    unfold isLong at hd
    split at hd
    · exact ⟨_, rfl⟩
    · simp at hd
  have h1 : P.opts.lookup ('-' :: '-' :: (t ++ '=' :: v)) = none :=
    lookup_none_of_mem _ _ '=' (by simp) (fun o ho => (hP o ho).1)
  have h2 := partEq_append ('-' :: '-' :: t) v hn
  simp only [List.cons_append] at h2 ⊢
  have h3 : tuples P ('-' :: '-' :: (t ++ '=' :: v)) = [] := by
    simp only [tuples, isLong, if_true, h2]
    split
    · rename_i ha
      have : P.opts.filter (fun o => ('-' :: '-' :: t).isPrefixOf o.1) = [] := by
        rw [List.filter_eq_nil_iff]
        intro o ho
        simp [ht ha o ho]
      rw [this]; rfl
    · rfl
  simp only [classify, h1, h2, hk, h3]
  simp only [ne_eq, not_true, if_false, reduceCtorEq]
  cases (negNum ('-' :: '-' :: (t ++ '=' :: v)) || List.contains ('-' :: '-' :: (t ++ '=' :: v)) ' ') <;> simp

/-- Short option strings are among the four. -/
def Shorts (P : Parser K) : Prop :=
  ∀ o ∈ P.opts, isLong o.1 = true ∨ o.1 ∈ [str "-p", str "-c", str "-u", str "-h"]

instance (P : Parser K) : Decidable (Shorts P) := inferInstanceAs (Decidable (∀ o ∈ P.opts, _))

theorem shorts_global : Shorts globalParser := by decide +kernel
theorem shorts_ctl : Shorts ctlParser := by decide +kernel
theorem shorts_native : Shorts nativeParser := by decide +kernel

theorem value_sep {v : Str} (h : Value v) : v ≠ sepW := by
  rintro rfl
  rcases h with h | ⟨⟨a, b, h, _⟩, _⟩
  · exact h rfl
  · have : ' ' ∈ sepW := by rw [h]; simp
    revert this; decide

theorem classify_value (P : Parser K) (hP : Tidy P) (hs : Shorts P) (v : Str) (h : Value v) : classify P v = .pos := by
  cases v with
  | nil => rfl
  | cons c t =>
    by_cases hc : c = '-'
    · subst hc
      rcases h with h | ⟨⟨a, b, h, ha⟩, h2⟩
      · exact absurd rfl h
      · have hb : ' ' ∈ ('-' :: t : Str) := by rw [h]; simp
        have h1 : P.opts.lookup ('-' :: t) = none := lookup_none_of_mem _ _ ' ' hb (fun o ho => (hP o ho).2)
        have hp : ' ' ∈ (partEq ('-' :: t)).1 := by rw [h]; exact partEq_mem a b ' ' ha (by decide)
        have h3 : P.opts.lookup (partEq ('-' :: t)).1 = none := lookup_none_of_mem _ _ ' ' hp (fun o ho => (hP o ho).2)
        have hpre : ∀ x : Str, ' ' ∈ x → ∀ o ∈ P.opts, x.isPrefixOf o.1 = false := by
          intro x hx o ho
          rw [Bool.eq_false_iff]
          intro hne
          rw [List.isPrefixOf_iff_prefix] at hne
          exact (hP o ho).2 (hne.subset hx)
        have h4 : tuples P ('-' :: t) = [] := by
          unfold tuples
          split
          · split
            · rw [List.map_eq_nil_iff, List.filter_eq_nil_iff]
              intro o ho
              simp [hpre _ hp o ho]
            · rfl
          · rename_i hl
            rw [List.filterMap_eq_nil_iff]
            intro o ho
            have e1 : o.1 ≠ ('-' :: t).take 2 := by
              intro e
              rcases hs o ho with hso | hso
              · rw [e] at hso
                apply hl
                cases t with
                | nil => simp [isLong] at hso
                | cons d t => 
                  simp only [List.take_succ_cons, List.take_zero] at hso
                  unfold isLong at hso ⊢
                  split at hso
                  · rename_i heq
                    simp at heq
                    simp [heq.1]
                  · simp at hso
              · rw [e] at hso; exact h2 hso
            rw [if_neg e1, if_neg (by simp [hpre _ hb o ho])]
        have ht : t ≠ [] := by rintro rfl; revert hb; decide
        have hcont : (('-' :: t : Str).contains ' ') = true := by simpa using hb
        simp only [classify, ne_eq, not_true, if_false, h1, ht, h3, h4, hcont, Bool.or_true, if_true]
        cases (partEq ('-' :: t)).2 <;> rfl
    · simp [classify, hc]

end Verif.Argv
