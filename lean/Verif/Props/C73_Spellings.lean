import Verif.Props.C73_CommandLine
import Mathlib.Data.List.TakeWhile
import Batteries.Lean.Except
/-!
# C73: other spellings of a command line

The help text does not say it, but people write `-cname`, `-uc name`, negative numbers and `--`. What these mean, in any context: `pre` and `post` are
arbitrary words, `pre` without the separator `--`.
-/
namespace Verif.Argv

variable {K : Type}

/-! ## Lemmas: a piece of a command line in its context -/

theorem tokens_append (P : Parser K) (a b : List Str) (h : sepW ∉ a) : tokens P (a ++ b) = tokens P a ++ tokens P b := by
  induction a with
  | nil => rfl
  | cons w r ih =>
    simp only [List.mem_cons, not_or] at h
    rw [List.cons_append, tokens_cons P w _ (Ne.symm h.1), tokens_cons P w _ (Ne.symm h.1), ih h.2, List.cons_append]

theorem posSpan_opt (r : List (Str × Option (Cls K))) (w : Str) (k : K) (l : Bool) (t : Option (Bool × Str)) (A : List (Str × Option (Cls K))) :
    posSpan (r ++ (w, some (.opt k l t)) :: A) = ((posSpan r).1, (posSpan r).2 ++ (w, some (.opt k l t)) :: A) := by
  induction r with
  | nil => rfl
  | cons a s ih =>
    obtain ⟨x, c⟩ := a
    cases c with
    | none => rfl
    | some c =>
      cases c with
      | pos => simp only [List.cons_append, posSpan, ih]
      | _ => rfl

/-- Two continuations that begin with an option and have the same effect have the same effect after any beginning. -/
theorem run_context (P : Parser K) (w w' : Str) (k k' : K) (l l' : Bool) (t t' : Option (Bool × Str)) (A B : List (Str × Option (Cls K)))
    (hAB : run P (A.length + 1) ((w, some (.opt k l t)) :: A) = run P (B.length + 1) ((w', some (.opt k' l' t')) :: B)) :
    ∀ n (pre : List (Str × Option (Cls K))), pre.length ≤ n →
      run P (pre.length + A.length + 1) (pre ++ (w, some (.opt k l t)) :: A) = run P (pre.length + B.length + 1) (pre ++ (w', some (.opt k' l' t')) :: B) := by
  intro n
  induction n with
  | zero =>
    intro pre h
    obtain rfl : pre = [] := List.length_eq_zero_iff.mp (by omega)
    simpa using hAB
  | succ n ih =>
    intro pre h
    cases pre with
    | nil => simpa using hAB
    | cons a r =>
      obtain ⟨s, c⟩ := a
      simp only [List.length_cons] at h
      have rec' : ∀ r', r'.length ≤ r.length →
          run P (r.length + A.length + 1) (r' ++ (w, some (.opt k l t)) :: A) = run P (r.length + B.length + 1) (r' ++ (w', some (.opt k' l' t')) :: B) := by
        intro r' hr
        rw [run_fuel P _ (r'.length + A.length + 1) _ (by simp; omega) (by simp; omega),
          run_fuel P (r.length + B.length + 1) (r'.length + B.length + 1) _ (by simp; omega) (by simp; omega)]
        exact ih r' (by omega)
      have e1 : r.length + 1 + A.length + 1 = (r.length + A.length + 1) + 1 := by omega
      have e2 : r.length + 1 + B.length + 1 = (r.length + B.length + 1) + 1 := by omega
      simp only [List.length_cons, List.cons_append, e1, e2]
      have rr := rec' r (Nat.le_refl _)
      cases c with
      | none => simp only [run, rr]
      | some c =>
        cases c with
        | pos => simp only [run, rr]
        | unknown => simp only [run, rr]
        | ambiguous => simp only [run]
        | opt j m u =>
          simp only [run]
          cases attached P j m u with
          | none => rfl
          | some x =>
            obtain ⟨es, pend⟩ := x
            simp only
            congr 1
            cases pend with
            | none => exact rr
            | some j' =>
              simp only
              cases P.arity j' with
              | zero => simp only [rr]
              | one =>
                simp only
                cases r with
                | nil => rfl
                | cons b r' =>
                  obtain ⟨s', c'⟩ := b
                  cases c' with
                  | none => rfl
                  | some c' =>
                    cases c' with
                    | pos => simp only [List.cons_append, rec' r' (by simp)]
                    | _ => rfl
              | many => simp only [posSpan_opt, rec' _ (posSpan_length r)]

/-- The words `a` can be replaced by `b` anywhere before the separator. -/
theorem parse_context (P : Parser K) (pre a b post : List Str) (hs : sepW ∉ pre) (ha : Calm P a) (hb : Calm P b)
    (wa wb : Str) (ra rb : List Str) (ea : a = wa :: ra) (eb : b = wb :: rb) (ka kb : K) (la lb : Bool) (ta tb : Option (Bool × Str))
    (ca : classify P wa = .opt ka la ta) (cb : classify P wb = .opt kb lb tb) (he : ev P (a ++ post) = ev P (b ++ post)) :
    parse P (pre ++ a ++ post) = parse P (pre ++ b ++ post) := by
  have hsa : sepW ∉ a := fun h => (ha _ h).1 rfl
  have hsb : sepW ∉ b := fun h => (hb _ h).1 rfl
  have calm : ∀ c : List Str, Calm P c → (tokens P c).any isAmbiguous = false := by
    intro c hc
    induction c with
    | nil => rfl
    | cons w r ih =>
      have hw := hc w (by simp)
      rw [tokens_cons P w r hw.1, List.any_cons, ih (fun x hx => hc x (by simp [hx]))]
      have h2 := hw.2
      cases hc : classify P w with
      | ambiguous => exact absurd hc h2
      | _ => rfl
  have tk : ∀ c, sepW ∉ c → tokens P (pre ++ c ++ post) = tokens P pre ++ (tokens P c ++ tokens P post) := by
    intro c hc
    rw [List.append_assoc, tokens_append P pre _ hs, tokens_append P c _ hc]
  have amb : (tokens P (pre ++ a ++ post)).any isAmbiguous = (tokens P (pre ++ b ++ post)).any isAmbiguous := by
    rw [tk a hsa, tk b hsb]
    simp only [List.any_append, calm a ha, calm b hb]
  unfold parse
  simp only [amb]
  split
  · rfl
  · rw [tk a hsa, tk b hsb]
    unfold ev at he
    rw [tokens_append P a _ hsa, tokens_append P b _ hsb] at he
    subst ea eb
    rw [tokens_cons P wa ra (ha wa (by simp)).1, tokens_cons P wb rb (hb wb (by simp)).1, ca, cb] at he ⊢
    simp only [List.cons_append, List.length_cons] at he
    have := run_context P wa wb ka kb la lb ta tb _ _ he _ (tokens P pre) (Nat.le_refl _)
    simpa [Nat.add_assoc] using this

theorem ev_of_run (P : Parser K) (w : Str) (r : List Str) (k : K) (b : Bool) (t : Option (Bool × Str)) (h : w ≠ sepW) (c : classify P w = .opt k b t) :
    ev P (w :: r) = run P ((tokens P r).length + 1) ((w, some (.opt k b t)) :: tokens P r) := by
  simp [ev, tokens_cons P w r h, c]

theorem filterMap_same {α β : Type} (l : List α) (f g : α → Option β) (h : ∀ x ∈ l, f x = g x) : l.filterMap f = l.filterMap g := by
  induction l with
  | nil => rfl
  | cons a t ih => simp only [List.filterMap_cons, h a (by simp), ih (fun x hx => h x (by simp [hx]))]

/-! ## Values joined to short options -/

theorem short_joined (k : Key) (c : Char) (hk : shortName k = some ['-', c]) (X : Str) (hX : X ≠ []) (he : X.head? ≠ some '=') :
    classify nativeParser ('-' :: c :: X) = .opt k false (some (false, X)) := by
  have hc : c = 'c' ∧ k = .cm ∨ c = 'u' ∧ k = .unload ∨ c = 'p' ∧ k = .paramFile := by
    cases k <;> simp [shortName, str] at hk <;> simp [← hk]
  obtain ⟨x, Y, rfl⟩ : ∃ x Y, X = x :: Y := by cases X with | nil => exact absurd rfl hX | cons x Y => exact ⟨x, Y, rfl⟩
  have hx : x ≠ '=' := by simpa using he
  have hcd : c ≠ '-' ∧ c ≠ '=' := by rcases hc with ⟨rfl, -⟩ | ⟨rfl, -⟩ | ⟨rfl, -⟩ <;> decide
  have hlong : isLong ('-' :: c :: x :: Y) = false := by
    unfold isLong; split
    · rename_i h; simp only [List.cons.injEq] at h; exact absurd h.2.1 hcd.1
    · rfl
  -- no option string of more than two characters begins with `-c`
  have opts : ∀ o ∈ nativeParser.opts, o.1.length ≤ 2 ∨ isLong o.1 = true := by decide +kernel
  have nolook : ∀ Z : Str, nativeParser.opts.lookup ('-' :: c :: x :: Z) = none := by
    intro Z
    rw [List.lookup_eq_none_iff]
    intro o ho
    rw [bne_iff_ne]
    intro e
    rcases opts o ho with h | h
    · rw [← e] at h; simp at h
    · rw [← e] at h
      have : isLong ('-' :: c :: x :: Z) = false := by
        unfold isLong; split
        · rename_i h; simp only [List.cons.injEq] at h; exact absurd h.2.1 hcd.1
        · rfl
      rw [this] at h; cases h
  have hp : ∃ Z, (partEq ('-' :: c :: x :: Y)).1 = '-' :: c :: x :: Z := by simp [partEq, hcd.2, hx]
  obtain ⟨Z, hZ⟩ := hp
  have htup : tuples nativeParser ('-' :: c :: x :: Y) = [.opt k false (some (false, x :: Y))] := by
    unfold tuples
    rw [if_neg (by rw [hlong]; simp)]
    have nopre : ∀ o ∈ nativeParser.opts, List.isPrefixOf ('-' :: c :: x :: Y) o.1 = false := by
      intro o ho
      rw [Bool.eq_false_iff]
      intro h
      rw [List.isPrefixOf_iff_prefix] at h
      rcases opts o ho with h' | h'
      · have := h.length_le; simp at this; omega
      · obtain ⟨z, hz⟩ := h
        rw [← hz] at h'
        unfold isLong at h'
        split at h'
        · rename_i h; simp only [List.cons_append, List.cons.injEq] at h; exact absurd h.2.1 hcd.1
        · cases h'
    have : nativeParser.opts.filterMap (fun o =>
        if o.1 = List.take 2 ('-' :: c :: x :: Y) then some (Cls.opt o.2 (isLong o.1) (some (false, List.drop 2 ('-' :: c :: x :: Y))))
        else if List.isPrefixOf ('-' :: c :: x :: Y) o.1 then some (.opt o.2 (isLong o.1) none) else none) =
        nativeParser.opts.filterMap (fun o => if o.1 = ['-', c] then some (Cls.opt o.2 (isLong o.1) (some (false, x :: Y))) else none) := by
      apply filterMap_same
      intro o ho
      simp only [nopre o ho, Bool.false_eq_true, if_false]
      rfl
    rw [this]
    rcases hc with ⟨rfl, rfl⟩ | ⟨rfl, rfl⟩ | ⟨rfl, rfl⟩ <;> simp [nativeParser, str, isLong]
  unfold classify
  simp only [ne_eq, not_true, if_false, nolook Y, reduceCtorEq, hZ, nolook Z, htup]
  cases (partEq ('-' :: c :: x :: Y)).2 <;> rfl

theorem shorts_cases (k : Key) (c : Char) (hk : shortName k = some ['-', c]) :
    c = 'c' ∧ k = .cm ∨ c = 'u' ∧ k = .unload ∨ c = 'p' ∧ k = .paramFile := by
  cases k <;> simp [shortName, str] at hk <;> simp [← hk]

theorem native_delim (fl : Str → Bool) (args : List Str) (h : str "--controller" ∉ args) : spawnerArgs fl args = native fl args := by
  have : delim ∉ args := h
  simp [spawnerArgs, this]

theorem not_delim_short (c : Char) (X : Str) (hc : c ≠ '-') : str "--controller" ≠ '-' :: c :: X := by
  have : str "--controller" = '-' :: '-' :: str "controller" := by decide +kernel
  rw [this]
  intro h
  simp only [List.cons.injEq] at h
  exact hc h.2.1.symm

theorem not_delim_eq (n X : Str) : str "--controller" ≠ n ++ '=' :: X := by
  intro h
  have : '=' ∈ str "--controller" := by rw [h]; simp
  revert this; decide +kernel

theorem eq_spelling (k : Key) (hk' : k ≠ .help ∧ k ≠ .controller) (X : Str) :
    classify nativeParser (longName k ++ '=' :: X) = .opt k true (some (true, X)) := by
  have hl := long_ne k
  rw [classify_eq nativeParser tidy_native _ _ _ hl.2.1 hl.2.2.2.1 hl.2.2.2.2 (good_native.look k hk'.1 hk'.2), hl.2.2.1]

/-- **C73, joined values.** `-cname` and `-pfile` mean `--controller-manager=name` and `--param-file=file`, wherever they are. -/
theorem C73_joined_value (fl : Str → Bool) (k : Key) (hv : takesValue k = true) (c : Char) (hk : shortName k = some ['-', c]) (X : Str) (hX : X ≠ [])
    (he : X.head? ≠ some '=') (pre post : List Str) (hs : sepW ∉ pre) (hd : str "--controller" ∉ pre ++ post) :
    spawnerArgs fl (pre ++ ['-' :: c :: X] ++ post) = spawnerArgs fl (pre ++ [longName k ++ '=' :: X] ++ post) := by
  have hc := shorts_cases k c hk
  have hcd : c ≠ '-' := by rcases hc with ⟨rfl, -⟩ | ⟨rfl, -⟩ | ⟨rfl, -⟩ <;> decide
  have hkk : k ≠ .help ∧ k ≠ .controller := by rcases hc with ⟨-, rfl⟩ | ⟨-, rfl⟩ | ⟨-, rfl⟩ <;> decide
  have ha : nativeParser.arity k = .one := by
    have := arity_takes k hkk.2
    rw [hv] at this
    exact this
  have c1 := short_joined k c hk X hX he
  have c2 := eq_spelling k hkk X
  have n1 : ('-' :: c :: X : Str) ≠ sepW := by
    intro h; simp only [sepW, List.cons.injEq] at h; exact hcd h.2.1
  have n2 : longName k ++ '=' :: X ≠ sepW := by
    intro e
    have : '=' ∈ sepW := by rw [← e]; simp
    revert this; decide
  simp only [List.mem_append, not_or] at hd
  rw [native_delim, native_delim]
  · unfold native
    rw [parse_context nativeParser pre _ _ post hs _ _ _ _ [] [] rfl rfl k k _ _ _ _ c1 c2]
    · rw [List.singleton_append, List.singleton_append, ev_attached _ _ X post k _ _ n1 c1 ha, ev_attached _ _ X post k _ _ n2 c2 ha]
    · intro w hw; simp only [List.mem_cons, List.not_mem_nil, or_false] at hw; subst hw; exact ⟨n1, by rw [c1]; simp⟩
    · intro w hw; simp only [List.mem_cons, List.not_mem_nil, or_false] at hw; subst hw; exact ⟨n2, by rw [c2]; simp⟩
  · simp only [List.mem_append, List.mem_cons, List.not_mem_nil, or_false, not_or]
    exact ⟨⟨hd.1, not_delim_eq _ _⟩, hd.2⟩
  · simp only [List.mem_append, List.mem_cons, List.not_mem_nil, or_false, not_or]
    exact ⟨⟨hd.1, not_delim_short _ _ hcd⟩, hd.2⟩

theorem flag_u : classify nativeParser (str "-u") = .opt .unload false none := by decide +kernel

/-- **C73, joined short options.** `-uc`, `-up` and `-uu` mean `-u` and then `-c`, `-p` or `-u`; with more joined to it, the rest is the value of `-c` or
`-p`. -/
theorem C73_joined_flags (fl : Str → Bool) (k : Key) (c : Char) (hk : shortName k = some ['-', c]) (X : Str) (hX : X.head? ≠ some '=')
    (hz : takesValue k = false → X = []) (pre post : List Str) (hs : sepW ∉ pre) (hd : str "--controller" ∉ pre ++ post) :
    spawnerArgs fl (pre ++ ['-' :: 'u' :: c :: X] ++ post) = spawnerArgs fl (pre ++ [str "-u", '-' :: c :: X] ++ post) := by
  have hc := shorts_cases k c hk
  have hcd : c ≠ '-' := by rcases hc with ⟨rfl, -⟩ | ⟨rfl, -⟩ | ⟨rfl, -⟩ <;> decide
  have hce : c ≠ '=' := by rcases hc with ⟨rfl, -⟩ | ⟨rfl, -⟩ | ⟨rfl, -⟩ <;> decide
  have hkk : k ≠ .help ∧ k ≠ .controller := by rcases hc with ⟨-, rfl⟩ | ⟨-, rfl⟩ | ⟨-, rfl⟩ <;> decide
  have ha : nativeParser.arity k = if takesValue k then .one else .zero := arity_takes k hkk.2
  have hu0 : nativeParser.arity .unload = .zero := rfl
  have c1 : classify nativeParser ('-' :: 'u' :: c :: X) = .opt .unload false (some (false, c :: X)) :=
    short_joined .unload 'u' (by decide +kernel) (c :: X) (by simp) (by simp [hce])
  have lk : nativeParser.opts.lookup ['-', c] = some k := by rcases hc with ⟨rfl, rfl⟩ | ⟨rfl, rfl⟩ | ⟨rfl, rfl⟩ <;> decide +kernel
  have c2 : classify nativeParser ('-' :: c :: X) = .opt k false (if X = [] then none else some (false, X)) := by
    by_cases hX0 : X = []
    · subst hX0
      have := good_native.short k _ hkk.1 hkk.2 hk
      simpa using this
    · rw [if_neg hX0]; exact short_joined k c hk X hX0 hX
  have n1 : ('-' :: 'u' :: c :: X : Str) ≠ sepW := by simp [sepW]
  have n2 : ('-' :: c :: X : Str) ≠ sepW := by
    intro h; simp only [sepW, List.cons.injEq] at h; exact hcd h.2.1
  have n3 : str "-u" ≠ sepW := by decide +kernel
  simp only [List.mem_append, not_or] at hd
  rw [native_delim, native_delim]
  · unfold native
    rw [parse_context nativeParser pre _ _ post hs _ _ _ _ [] ['-' :: c :: X] rfl rfl .unload .unload _ _ _ _ c1 flag_u]
    · rw [List.singleton_append, ev_of_run _ _ _ _ _ _ n1 c1]
      show _ = ev nativeParser (str "-u" :: (('-' :: c :: X) :: post))
      rw [ev_flag _ _ _ .unload _ n3 flag_u hu0, ev_of_run _ _ _ _ _ _ n2 c2]
      by_cases hX0 : X = []
      · subst hX0
        simp only [run, attached, expand, hu0, Bool.false_eq_true, false_or, hcd, if_false, lk, if_true, List.cons_append, List.nil_append]
      · have hv : takesValue k = true := by
          cases h : takesValue k with
          | true => rfl
          | false => exact absurd (hz h) hX0
        rw [hv, if_pos rfl] at ha
        obtain ⟨x, Y, rfl⟩ : ∃ x Y, X = x :: Y := by cases X with | nil => exact absurd rfl hX0 | cons x Y => exact ⟨x, Y, rfl⟩
        have hx : x ≠ '=' := by simpa using hX
        have ex : ∀ n, expand nativeParser (n + 1) k false false (x :: Y) = some ([.took k [x :: Y]], none) := by
          intro n; unfold expand; simp [ha]
        have ex' : ∀ n, expand nativeParser (n + 2) .unload false false (c :: x :: Y) = some ([.took .unload [], .took k [x :: Y]], none) := by
          intro n; unfold expand
          simp only [hu0, Bool.false_eq_true, if_false, false_or, hcd, lk]
          split
          · rename_i h; cases h
          · rename_i h; simp only [List.cons.injEq] at h; exact absurd h.1 hx
          · rw [ex]; rfl
        simp only [run, attached, List.length_cons, if_neg hX0, ex, ex', List.cons_append, List.nil_append]
    · intro w hw; simp only [List.mem_cons, List.not_mem_nil, or_false] at hw; subst hw; exact ⟨n1, by rw [c1]; simp⟩
    · intro w hw; simp only [List.mem_cons, List.not_mem_nil, or_false] at hw
      rcases hw with rfl | rfl
      · exact ⟨n3, by rw [flag_u]; simp⟩
      · exact ⟨n2, by rw [c2]; simp⟩
  · simp only [List.mem_append, List.mem_cons, List.not_mem_nil, or_false, not_or]
    exact ⟨⟨hd.1, by decide +kernel, not_delim_short _ _ hcd⟩, hd.2⟩
  · simp only [List.mem_append, List.mem_cons, List.not_mem_nil, or_false, not_or]
    exact ⟨⟨hd.1, not_delim_short _ _ (by decide)⟩, hd.2⟩

/-! ## Lines that are refused -/

/-- A mistake after any beginning is a mistake. -/
theorem run_bad (P : Parser K) (w : Str) (k : K) (l : Bool) (t : Option (Bool × Str)) (A : List (Str × Option (Cls K)))
    (hA : Ev.bad ∈ run P (A.length + 1) ((w, some (.opt k l t)) :: A)) :
    ∀ n (pre : List (Str × Option (Cls K))), pre.length ≤ n → Ev.bad ∈ run P (pre.length + A.length + 1) (pre ++ (w, some (.opt k l t)) :: A) := by
  intro n
  induction n with
  | zero =>
    intro pre h
    obtain rfl : pre = [] := List.length_eq_zero_iff.mp (by omega)
    simpa using hA
  | succ n ih =>
    intro pre h
    cases pre with
    | nil => simpa using hA
    | cons a r =>
      obtain ⟨s, c⟩ := a
      simp only [List.length_cons] at h
      have rec' : ∀ r', r'.length ≤ r.length → Ev.bad ∈ run P (r.length + A.length + 1) (r' ++ (w, some (.opt k l t)) :: A) := by
        intro r' hr
        rw [run_fuel P _ (r'.length + A.length + 1) _ (by simp; omega) (by simp; omega)]
        exact ih r' (by omega)
      have e1 : r.length + 1 + A.length + 1 = (r.length + A.length + 1) + 1 := by omega
      simp only [List.length_cons, List.cons_append, e1]
      have rr := rec' r (Nat.le_refl _)
      cases c with
      | none => simp only [run, List.mem_cons, rr, or_true]
      | some c =>
        cases c with
        | pos => simp only [run, List.mem_cons, rr, or_true]
        | unknown => simp only [run, List.mem_cons, rr, or_true]
        | ambiguous => simp [run]
        | opt j m u =>
          simp only [run]
          cases attached P j m u with
          | none => simp
          | some x =>
            obtain ⟨es, pend⟩ := x
            simp only [List.mem_append]
            right
            cases pend with
            | none => exact rr
            | some j' =>
              simp only
              cases P.arity j' with
              | zero => simp only [List.mem_cons, rr, or_true]
              | one =>
                simp only
                cases r with
                | nil => simp
                | cons b r' =>
                  obtain ⟨s', c'⟩ := b
                  cases c' with
                  | none => simp
                  | some c' =>
                    cases c' with
                    | pos => simp only [List.cons_append, List.mem_cons, rec' r' (by simp), or_true]
                    | _ => simp
              | many => simp only [posSpan_opt, List.mem_cons, rec' _ (posSpan_length r), or_true]

theorem strict_bad (fl : Str → Bool) : ∀ (es : List (Ev Key)) (s : Ns) (n : Names) (ex : Bool) (x : Ns × List Str), Ev.bad ∈ es → strict fl es s n ex ≠ .ok x := by
  intro es
  induction es with
  | nil => intro s n ex x h; simp at h
  | cons e t ih =>
    intro s n ex x h
    have h' : e ≠ .bad → Ev.bad ∈ t := fun he => by
      rcases List.mem_cons.mp h with h | h
      · exact absurd h.symm he
      · exact h
    cases e with
    | took k a =>
      simp only [strict]
      cases act fl true s k a with
      | error y => simp [Except.bind]
      | ok s' => simpa [Except.bind] using ih s' _ _ _ (h' (by simp))
    | word w => cases n <;> simpa [strict] using ih _ _ _ _ (h' (by simp))
    | sep => cases n <;> simpa [strict] using ih _ _ _ _ (h' (by simp))
    | extra w => simpa [strict] using ih _ _ _ _ (h' (by simp))
    | bad => simp [strict]

theorem native_bad (fl : Str → Bool) (pre post : List Str) (hs : sepW ∉ pre) (w : Str) (k : Key) (l : Bool) (t : Option (Bool × Str))
    (hn : w ≠ sepW) (hc : classify nativeParser w = .opt k l t)
    (hb : Ev.bad ∈ run nativeParser ((tokens nativeParser post).length + 1) ((w, some (.opt k l t)) :: tokens nativeParser post))
    (x : Global × List Entry) : native fl (pre ++ [w] ++ post) ≠ .ok x := by
  have : Ev.bad ∈ parse nativeParser (pre ++ [w] ++ post) := by
    unfold parse
    simp only
    split
    · simp
    · rw [List.append_assoc, tokens_append _ pre _ hs, List.singleton_append, tokens_cons _ w _ hn, hc]
      have := run_bad nativeParser w k l t _ hb _ (tokens nativeParser pre) (Nat.le_refl _)
      simpa [Nat.add_assoc] using this
  unfold native
  intro h
  cases hh : strict fl (parse nativeParser (pre ++ [w] ++ post)) {} .before false with
  | error e => rw [hh] at h; simp [Except.map] at h
  | ok y => exact strict_bad fl _ _ _ _ y this hh

/-- **C73, options without a value are refused with one.** `--inactive=no` and the like make the spawner end without doing anything, and so do `-u=no`
and `-u-p`, wherever they are. -/
theorem C73_flag_value_refused (fl : Str → Bool) (k : Key) (hv : takesValue k = false) (hk : k ≠ .help ∧ k ≠ .controller) (X : Str)
    (pre post : List Str) (hs : sepW ∉ pre) (hd : str "--controller" ∉ pre ++ post) (x : Global × List Entry) :
    spawnerArgs fl (pre ++ [longName k ++ '=' :: X] ++ post) ≠ .ok x ∧
    spawnerArgs fl (pre ++ ['-' :: 'u' :: '-' :: X] ++ post) ≠ .ok x ∧ spawnerArgs fl (pre ++ ['-' :: 'u' :: '=' :: X] ++ post) ≠ .ok x := by
  have ha : nativeParser.arity k = .zero := by
    have := arity_takes k hk.2
    rw [hv] at this
    exact this
  have n2 : longName k ++ '=' :: X ≠ sepW := by
    intro e
    have : '=' ∈ sepW := by rw [← e]; simp
    revert this; decide
  simp only [List.mem_append, not_or] at hd
  have hu0 : nativeParser.arity .unload = .zero := rfl
  refine ⟨?_, ?_, ?_⟩
  · rw [native_delim]
    · refine native_bad fl pre post hs _ k true _ n2 (eq_spelling k hk X) ?_ x
      simp [run, attached, expand, ha]
    · simp only [List.mem_append, List.mem_cons, List.not_mem_nil, or_false, not_or]
      exact ⟨⟨hd.1, not_delim_eq _ _⟩, hd.2⟩
  · rw [native_delim]
    · refine native_bad fl pre post hs _ .unload false (some (false, '-' :: X)) (by simp [sepW])
        (short_joined .unload 'u' (by decide +kernel) ('-' :: X) (by simp) (by simp)) ?_ x
      simp [run, attached, expand, hu0]
    · simp only [List.mem_append, List.mem_cons, List.not_mem_nil, or_false, not_or]
      exact ⟨⟨hd.1, not_delim_short _ _ (by decide)⟩, hd.2⟩
  · rw [native_delim]
    · have hc : classify nativeParser ('-' :: 'u' :: '=' :: X) = .opt .unload (isLong (str "-u")) (some (true, X)) :=
        classify_eq nativeParser tidy_native (str "-u") X .unload (by decide +kernel) (by decide +kernel) (by decide +kernel) (by decide +kernel)
      refine native_bad fl pre post hs _ .unload _ _ (by simp [sepW]) hc ?_ x
      have : isLong (str "-u") = false := by decide +kernel
      rw [this]
      cases X <;> simp [run, attached, expand, hu0]
    · simp only [List.mem_append, List.mem_cons, List.not_mem_nil, or_false, not_or]
      exact ⟨⟨hd.1, not_delim_short _ _ (by decide)⟩, hd.2⟩

/-- **C73, ambiguous abbreviations.** A word before `--` that is the beginning of two options and none itself is refused (exit code 2), even if the line
asks for the help text. -/
theorem C73_ambiguous (fl : Str → Bool) (w : Str) (he : '=' ∉ w) (k k' : Key) (hne : k ≠ k') (hw : w <+: longName k) (hw' : w <+: longName k')
    (hl : ∃ c t, w = '-' :: '-' :: c :: t) (hx : ∀ j, w ≠ longName j) (pre post : List Str) (hs : sepW ∉ pre)
    (hd : str "--controller" ∉ pre ++ post) : spawnerArgs fl (pre ++ [w] ++ post) = .error .error := by
  obtain ⟨c, t, rfl⟩ := hl
  have hc : classify nativeParser ('-' :: '-' :: c :: t) = .ambiguous := by
    have h1 : nativeParser.opts.lookup ('-' :: '-' :: c :: t) = none := by
      rw [List.lookup_eq_none_iff]
      intro o ho
      rw [bne_iff_ne]
      have : (∃ j, o.1 = longName j) ∨ isLong o.1 = false := by
        revert o; simp only [nativeParser, List.forall_mem_cons]
        refine ⟨Or.inr ?_, Or.inl ⟨.help, ?_⟩, Or.inr ?_, Or.inl ⟨.cm, ?_⟩, Or.inr ?_, Or.inl ⟨.paramFile, ?_⟩, Or.inl ⟨.loadOnly, ?_⟩, Or.inl ⟨.inactive, ?_⟩, Or.inr ?_,
          Or.inl ⟨.unload, ?_⟩, Or.inl ⟨.cmTimeout, ?_⟩, Or.inl ⟨.switchTimeout, ?_⟩, Or.inl ⟨.callTimeout, ?_⟩, Or.inl ⟨.group, ?_⟩, Or.inl ⟨.asap, ?_⟩,
          Or.inl ⟨.noAsap, ?_⟩, Or.inl ⟨.rosArgs, ?_⟩, Or.inl ⟨.controller, ?_⟩, by simp⟩ <;> decide +kernel
      intro e
      rcases this with ⟨j, hj⟩ | hj
      · exact hx j (e.trans hj)
      · rw [← e] at hj; simp [isLong] at hj
    have hp : partEq ('-' :: '-' :: c :: t) = ('-' :: '-' :: c :: t, none) := by
      have : ∀ a : Str, '=' ∉ a → partEq a = (a, none) := by
        intro a
        induction a with
        | nil => simp [partEq]
        | cons d u ih => intro h; simp only [List.mem_cons, not_or] at h; simp [partEq, ih h.2, Ne.symm h.1]
      exact this _ he
    have mem : ∀ j, (longName j, j) ∈ nativeParser.opts := by intro j; cases j <;> decide +kernel
    have ht : tuples nativeParser ('-' :: '-' :: c :: t) =
        (nativeParser.opts.filter (fun o => ('-' :: '-' :: c :: t).isPrefixOf o.1)).map (fun o => .opt o.2 (isLong o.1) none) := by
      have hab : nativeParser.abbr = true := rfl
      simp only [tuples, isLong, if_true, hab, hp, Option.map_none]
    have m1 : (longName k, k) ∈ nativeParser.opts.filter (fun o => ('-' :: '-' :: c :: t).isPrefixOf o.1) :=
      List.mem_filter.mpr ⟨mem k, List.isPrefixOf_iff_prefix.mpr hw⟩
    have m2 : (longName k', k') ∈ nativeParser.opts.filter (fun o => ('-' :: '-' :: c :: t).isPrefixOf o.1) :=
      List.mem_filter.mpr ⟨mem k', List.isPrefixOf_iff_prefix.mpr hw'⟩
    unfold classify
    simp only [ne_eq, not_true, if_false, h1, hp, reduceCtorEq, ht]
    cases hf : nativeParser.opts.filter (fun o => ('-' :: '-' :: c :: t).isPrefixOf o.1) with
    | nil => rw [hf] at m1; simp at m1
    | cons o r =>
      cases r with
      | nil =>
        rw [hf] at m1 m2
        simp only [List.mem_cons, List.not_mem_nil, or_false] at m1 m2
        exact absurd (by rw [← m2, Prod.mk.injEq] at m1; exact m1.2) hne
      | cons o' r' => rfl
  simp only [List.mem_append, not_or] at hd
  rw [native_delim]
  · have : parse nativeParser (pre ++ ['-' :: '-' :: c :: t] ++ post) = [.bad] := by
      unfold parse
      simp only
      rw [if_pos]
      rw [List.append_assoc, tokens_append _ pre _ hs, List.singleton_append, tokens_cons _ _ _ (by simp [sepW]), hc]
      simp [isAmbiguous]
    unfold native
    rw [this]
    rfl
  · simp only [List.mem_append, List.mem_cons, List.not_mem_nil, or_false, not_or]
    exact ⟨⟨hd.1, fun h => hx .controller (by rw [← h]; rfl)⟩, hd.2⟩

/-! ## The separator -/

theorem strict_pos (fl : Str → Bool) (ns : List Str) (s : Ns) (l : List Str) (h : l ++ ns ≠ []) :
    ∀ n, ns.length ≤ n → strict fl (run nativeParser n (ns.map (fun x => (x, some .pos)))) s (.during l) false = .ok (s, l ++ ns) := by
  induction ns generalizing l with
  | nil =>
    intro n _
    have : run nativeParser n [] = [] := by cases n <;> simp [run]
    rw [List.map_nil, this]
    simp only [List.append_nil] at h ⊢
    simp [strict, h]
  | cons a t ih =>
    intro n hn
    cases n with
    | zero => simp at hn
    | succ n =>
      simp only [List.map_cons, run, strict]
      rw [ih (l ++ [a]) (by simp) n (by simpa using hn)]
      simp

/-- **C73, the separator.** After `--` every word is the name of a controller, whatever it looks like, and gets the options before it. -/
theorem C73_separator (fl : Str → Bool) (pre : List Setting) (okp : ∀ x ∈ pre, x.Ok fl) (ns : List Str) (hne : ns ≠ [])
    (hd : str "--controller" ∉ ns) :
    spawnerArgs fl (wordsOf pre ++ str "--" :: ns) = .ok (globalSays pre, ns.map (fun n => entrySays n pre)) := by
  have hsep : str "--" = sepW := by decide +kernel
  have calm : Calm nativeParser (wordsOf pre) := by
    intro w hw
    obtain ⟨s, hs, hw⟩ := wordsOf_mem hw
    exact words_calm good_native s (okp s hs) w hw
  have hs : sepW ∉ wordsOf pre := fun h => (calm _ h).1 rfl
  have tsep : tokens nativeParser (str "--" :: ns) = (sepW, none) :: ns.map (fun x => (x, some .pos)) := by
    rw [hsep]; simp [tokens, sepW]
  have key : strict fl (ev nativeParser (wordsOf pre ++ str "--" :: ns)) {} .before false = .ok (said pre, ns) := by
    rw [strict_settings fl pre okp _ _ _ _ (Or.inl rfl), ← said_nil, fold_said]
    unfold ev
    rw [tsep]
    simp only [List.length_cons, run, Names.close, strict]
    rw [strict_pos fl ns _ [] (by simpa using hne) _ (by simp)]
    simp
  have amb : (tokens nativeParser (wordsOf pre ++ str "--" :: ns)).any isAmbiguous = false := by
    rw [tokens_append _ _ _ hs, tsep, List.any_append]
    have h1 : (tokens nativeParser (wordsOf pre)).any isAmbiguous = false := by
      revert calm
      generalize wordsOf pre = l
      intro calm
      induction l with
      | nil => rfl
      | cons w r ih =>
        have hw := calm w (by simp)
        rw [tokens_cons _ w r hw.1, List.any_cons, ih (fun x hx => calm x (by simp [hx]))]
        have h2 := hw.2
        cases hc : classify nativeParser w with
        | ambiguous => exact absurd hc h2
        | _ => rfl
    have h2 : ((sepW, none) :: ns.map (fun x => (x, some (.pos : Cls Key)))).any isAmbiguous = false := by
      simp [isAmbiguous]
    rw [h1, h2]; rfl
  rw [native_delim]
  · unfold native parse
    simp only
    rw [if_neg (by rw [amb]; simp)]
    have : strict fl (run nativeParser (tokens nativeParser (wordsOf pre ++ str "--" :: ns)).length (tokens nativeParser (wordsOf pre ++ str "--" :: ns)))
      {} .before false = _ := key
    rw [this]
    rfl
  · simp only [List.mem_append, List.mem_cons, not_or]
    exact ⟨words_not_delim fl pre okp, by decide +kernel, hd⟩

/-! ## Negative numbers -/

def Digits (d : Str) : Prop := ∀ c ∈ d, c.isDigit = true

/-- `-5`, `-0.5`, `-.5`. -/
def NegNumber (v : Str) : Prop :=
  (∃ d, v = '-' :: d ∧ d ≠ [] ∧ Digits d) ∨ ∃ d f, v = '-' :: (d ++ '.' :: f) ∧ Digits d ∧ f ≠ [] ∧ Digits f

theorem negNum_iff (v : Str) : negNum v = true ↔ NegNumber v := by
  have dot : Char.isDigit '.' = false := by decide +kernel
  have all : ∀ d : Str, Digits d → d.dropWhile Char.isDigit = [] ∧ d.takeWhile Char.isDigit = d := by
    intro d hd
    exact ⟨List.dropWhile_eq_nil_iff.mpr hd, List.takeWhile_eq_self_iff.mpr hd⟩
  constructor
  · intro h
    cases v with
    | nil => simp [negNum] at h
    | cons c t =>
      by_cases hc : c = '-'
      · subst hc
        simp only [negNum] at h
        have ht := List.takeWhile_append_dropWhile (p := Char.isDigit) (l := t)
        have hdig : Digits (t.takeWhile Char.isDigit) := fun x hx => List.mem_takeWhile_imp hx
        split at h
        · rename_i hw
          rw [hw, List.append_nil] at ht
          left
          refine ⟨t, rfl, ?_, by rw [← ht]; exact hdig⟩
          rintro rfl
          simp at h
        · rename_i f hw
          right
          refine ⟨t.takeWhile Char.isDigit, f, by rw [← hw, ht], hdig, ?_, ?_⟩
          · rintro rfl; simp at h
          · intro x hx
            simp only [Bool.and_eq_true, List.all_eq_true] at h
            exact h.2 x hx
        · simp at h
      · unfold negNum at h
        split at h
        · rename_i h'; simp only [List.cons.injEq] at h'; exact absurd h'.1 hc
        · simp at h
  · rintro (⟨d, rfl, hne, hd⟩ | ⟨d, f, rfl, hd, hne, hf⟩)
    · simp only [negNum, (all d hd).1, (all d hd).2]
      cases d with
      | nil => exact absurd rfl hne
      | cons x y => rfl
    · have h1 : (d ++ '.' :: f).dropWhile Char.isDigit = '.' :: f := by
        rw [List.dropWhile_append_of_pos hd, List.dropWhile_cons_of_neg (by simp [dot])]
      simp only [negNum, h1, Bool.and_eq_true, List.all_eq_true]
      exact ⟨by cases f with | nil => exact absurd rfl hne | cons x y => rfl, hf⟩

theorem classify_dashed (x : Char) (Y : Str) (hx : x.isDigit = true ∨ x = '.') (he : '=' ∉ ('-' :: x :: Y : Str)) :
    classify nativeParser ('-' :: x :: Y) = if negNum ('-' :: x :: Y) = true ∨ ' ' ∈ ('-' :: x :: Y : Str) then .pos else .unknown := by
  have hxo : x ≠ '-' ∧ x ≠ 'c' ∧ x ≠ 'p' ∧ x ≠ 'u' ∧ x ≠ 'h' := by
    rcases hx with h | rfl
    · refine ⟨?_, ?_, ?_, ?_, ?_⟩ <;> (rintro rfl; revert h; decide +kernel)
    · decide
  have second : ∀ o ∈ nativeParser.opts, ∃ c u, o.1 = '-' :: c :: u ∧ (c = '-' ∨ c = 'c' ∨ c = 'p' ∨ c = 'u' ∨ c = 'h') := by
    simp only [nativeParser, List.forall_mem_cons]
    simp [str]
  have ne : ∀ o ∈ nativeParser.opts, ∀ Z, o.1 ≠ '-' :: x :: Z := by
    intro o ho Z e
    obtain ⟨c, u, h1, h2⟩ := second o ho
    rw [h1] at e
    simp only [List.cons.injEq, true_and] at e
    rcases h2 with rfl | rfl | rfl | rfl | rfl
    · exact hxo.1 e.1.symm
    · exact hxo.2.1 e.1.symm
    · exact hxo.2.2.1 e.1.symm
    · exact hxo.2.2.2.1 e.1.symm
    · exact hxo.2.2.2.2 e.1.symm
  have h1 : nativeParser.opts.lookup ('-' :: x :: Y) = none := by
    rw [List.lookup_eq_none_iff]
    intro o ho
    rw [bne_iff_ne]
    exact fun e => ne o ho Y e.symm
  have hp : partEq ('-' :: x :: Y) = ('-' :: x :: Y, none) := by
    have : ∀ a : Str, '=' ∉ a → partEq a = (a, none) := by
      intro a
      induction a with
      | nil => simp [partEq]
      | cons d u ih => intro h; simp only [List.mem_cons, not_or] at h; simp [partEq, ih h.2, Ne.symm h.1]
    exact this _ he
  have h2 : tuples nativeParser ('-' :: x :: Y) = [] := by
    unfold tuples
    rw [if_neg]
    · rw [List.filterMap_eq_nil_iff]
      intro o ho
      have e1 : o.1 ≠ List.take 2 ('-' :: x :: Y) := ne o ho []
      have e2 : List.isPrefixOf ('-' :: x :: Y) o.1 = false := by
        rw [Bool.eq_false_iff]
        intro h
        rw [List.isPrefixOf_iff_prefix] at h
        obtain ⟨z, hz⟩ := h
        exact ne o ho (Y ++ z) (by rw [← hz]; rfl)
      simp only [e1, e2, if_false, Bool.false_eq_true]
    · unfold isLong
      split
      · rename_i h; simp only [List.cons.injEq] at h; exact absurd h.2.1 hxo.1
      · simp
  unfold classify
  simp only [ne_eq, not_true, if_false, h1, hp, h2, reduceCtorEq]
  by_cases hn : negNum ('-' :: x :: Y) = true <;> by_cases hb : ' ' ∈ ('-' :: x :: Y : Str) <;> simp_all

theorem negNumber_shape {v : Str} (h : NegNumber v) : ∃ x Y, v = '-' :: x :: Y ∧ (x.isDigit = true ∨ x = '.') ∧ '=' ∉ v := by
  have de : ∀ d, Digits d → '=' ∉ d := fun d hd h => by have := hd _ h; revert this; decide +kernel
  rcases h with ⟨d, rfl, hne, hd⟩ | ⟨d, f, rfl, hd, hne, hf⟩
  · cases d with
    | nil => exact absurd rfl hne
    | cons x Y => exact ⟨x, Y, rfl, .inl (hd x (by simp)), by have := de _ hd; simpa using this⟩
  · cases d with
    | nil => exact ⟨'.', f, rfl, .inr rfl, by have := de _ hf; simpa using this⟩
    | cons x Y => exact ⟨x, Y ++ '.' :: f, rfl, .inl (hd x (by simp)), by have h1 := de _ hd; have h2 := de _ hf; simp at h1 h2 ⊢; exact ⟨h1.1, h1.2, h2⟩⟩

/-- **C73, negative numbers.** After an option with a value, a word that begins with a dash and a digit or a point is its value if it is a number (or has a
blank in it); otherwise the line is refused. -/
theorem C73_negative (fl : Str → Bool) (k : Key) (hv : takesValue k = true) (x : Char) (Y : Str) (hx : x.isDigit = true ∨ x = '.')
    (he : '=' ∉ ('-' :: x :: Y : Str)) (pre post : List Str) (hs : sepW ∉ pre) (hd : str "--controller" ∉ pre ++ post) :
    (NegNumber ('-' :: x :: Y) ∨ ' ' ∈ ('-' :: x :: Y : Str) →
      spawnerArgs fl (pre ++ [longName k, '-' :: x :: Y] ++ post) = spawnerArgs fl (pre ++ [longName k ++ '=' :: '-' :: x :: Y] ++ post)) ∧
    (¬ (NegNumber ('-' :: x :: Y) ∨ ' ' ∈ ('-' :: x :: Y : Str)) → ∀ r, spawnerArgs fl (pre ++ [longName k, '-' :: x :: Y] ++ post) ≠ .ok r) := by
  have hkk : k ≠ .help ∧ k ≠ .controller := by constructor <;> (rintro rfl; simp [takesValue] at hv)
  have ha : nativeParser.arity k = .one := by
    have := arity_takes k hkk.2
    rw [hv] at this
    exact this
  have hxd : x ≠ '-' := by
    rcases hx with h | rfl
    · rintro rfl; revert h; decide +kernel
    · decide
  have nv : ('-' :: x :: Y : Str) ≠ sepW := by
    intro h; simp only [sepW, List.cons.injEq] at h; exact hxd h.2.1
  have nk := (long_ne k).1
  have ck : classify nativeParser (longName k) = .opt k true none := good_native.long k hkk.1 hkk.2
  have cv := classify_dashed x Y hx he
  have c2 := eq_spelling k hkk ('-' :: x :: Y)
  have n2 : longName k ++ '=' :: '-' :: x :: Y ≠ sepW := by
    intro e
    have : '=' ∈ sepW := by rw [← e]; simp
    revert this; decide
  simp only [List.mem_append, not_or] at hd
  have dl : str "--controller" ∉ pre ++ [longName k, '-' :: x :: Y] ++ post := by
    simp only [List.mem_append, List.mem_cons, List.not_mem_nil, or_false, not_or]
    refine ⟨⟨hd.1, ?_, not_delim_short _ _ hxd⟩, hd.2⟩
    cases k <;> first | (simp [takesValue] at hv; done) | decide +kernel
  rw [← negNum_iff]
  constructor
  · intro h
    rw [if_pos h] at cv
    rw [native_delim _ _ dl, native_delim]
    · unfold native
      rw [parse_context nativeParser pre _ _ post hs _ _ _ _ ['-' :: x :: Y] [] rfl rfl k k _ _ _ _ ck c2]
      · show ev nativeParser (longName k :: ('-' :: x :: Y) :: post) = _
        rw [List.singleton_append, ev_value _ _ _ _ k _ nk ck ha nv cv, ev_attached _ _ _ post k _ _ n2 c2 ha]
      · intro w hw; simp only [List.mem_cons, List.not_mem_nil, or_false] at hw
        rcases hw with rfl | rfl
        · exact ⟨nk, by rw [ck]; simp⟩
        · exact ⟨nv, by rw [cv]; simp⟩
      · intro w hw; simp only [List.mem_cons, List.not_mem_nil, or_false] at hw; subst hw; exact ⟨n2, by rw [c2]; simp⟩
    · simp only [List.mem_append, List.mem_cons, List.not_mem_nil, or_false, not_or]
      exact ⟨⟨hd.1, not_delim_eq _ _⟩, hd.2⟩
  · intro h r
    rw [if_neg h] at cv
    rw [native_delim _ _ dl]
    have e : pre ++ [longName k, '-' :: x :: Y] ++ post = pre ++ [longName k] ++ (('-' :: x :: Y) :: post) := by simp
    rw [e]
    refine native_bad fl pre _ hs _ k true none nk ck ?_ r
    rw [tokens_cons _ _ _ nv, cv]
    simp [run, attached, ha]

/-! ## Examples -/

example :
    let fl : Str → Bool := fun _ => true
    spawnerArgs fl [str "-ucleft", str "-pf", str "--", str "--inactive", str "-u"] =
      .ok ({ cm := str "left", unload := true }, [{ name := str "--inactive", files := [str "f"] }, { name := str "-u", files := [str "f"] }]) ∧
    spawnerArgs fl [str "a", str "--switch-timeout", str "-1.5"] = .ok ({ switchTimeout := some (str "-1.5") }, [{ name := str "a" }]) ∧
    spawnerArgs fl [str "a", str "--switch-timeout", str "-1."] = .error .error ∧
    spawnerArgs fl [str "a", str "--inactive=no"] = .error .error ∧
    spawnerArgs fl [str "--help", str "a", str "--controller-m", str "x"] = .error .error ∧
    spawnerArgs fl [str "--help", str "a"] = .error .help := by
  refine ⟨?_, ?_, ?_, ?_, ?_, ?_⟩ <;> decide +kernel

/-- The hypotheses of `C73_ambiguous` for `--controller-m`. -/
example : str "--controller-m" <+: longName .cm ∧ str "--controller-m" <+: longName .cmTimeout ∧ '=' ∉ str "--controller-m" ∧
    (∀ j, str "--controller-m" ≠ longName j) := by
  refine ⟨List.isPrefixOf_iff_prefix.mp (by decide +kernel), List.isPrefixOf_iff_prefix.mp (by decide +kernel), by decide +kernel, ?_⟩
  intro j; cases j <;> decide +kernel

example : NegNumber (str "-1.5") ∧ NegNumber (str "-.5") ∧ ¬ NegNumber (str "-1.") := by
  refine ⟨(negNum_iff _).mp (by decide +kernel), (negNum_iff _).mp (by decide +kernel), fun h => ?_⟩
  have := (negNum_iff _).mpr h
  revert this; decide +kernel

/-! ## Names in two places -/

/-- **C73, the names must be together.** Names before and after an option are refused (argparse takes the first ones only and finds the others
unrecognized), whatever follows. -/
theorem C73_together (fl : Str → Bool) (pre : List Setting) (ns : List Str) (mid : List Setting) (hne : ns ≠ []) (hmid : mid ≠ [])
    (hv : ∀ n ∈ ns, Value n) (okp : ∀ x ∈ pre, x.Ok fl) (okm : ∀ x ∈ mid, x.Ok fl) (n : Str) (hn : Value n) (rest : List Str)
    (hr : str "--controller" ∉ rest) (x : Global × List Entry) : spawnerArgs fl (lineAll pre ns mid ++ n :: rest) ≠ .ok x := by
  have hd : delim ∉ lineAll pre ns mid ++ n :: rest := by
    simp only [lineAll, List.mem_append, List.mem_cons, not_or]
    refine ⟨⟨⟨words_not_delim fl pre okp, ?_⟩, words_not_delim fl mid okm⟩, ?_, hr⟩
    · intro h
      exact name_not_delim (hv _ h) rfl
    · intro h; exact name_not_delim hn h.symm
  intro h
  simp only [spawnerArgs, hd, if_false, native] at h
  have key : ∃ s' n', strict fl (ev nativeParser (lineAll pre ns mid ++ n :: rest)) {} .before false = strict fl (ev nativeParser rest) s' n' true := by
    unfold lineAll
    rw [List.append_assoc, List.append_assoc, strict_settings fl pre okp _ _ _ _ (Or.inl rfl)]
    cases ns with
    | nil => exact absurd rfl hne
    | cons m t =>
      have hm := hv m (by simp)
      rw [List.cons_append, ev_pos _ _ _ (value_sep hm) (classify_value _ tidy_native shorts_native _ hm)]
      simp only [Names.close, strict]
      rw [strict_words fl t (fun n hn => hv n (by simp [hn])), strict_settings fl mid okm _ _ _ _ (Or.inr hmid),
        ev_pos _ _ _ (value_sep hn) (classify_value _ tidy_native shorts_native _ hn)]
      exact ⟨_, _, rfl⟩
  unfold parse at h
  simp only at h
  split at h
  · simp [strict, Except.map] at h
  · obtain ⟨s', n', e⟩ := key
    have e : strict fl (run nativeParser (tokens nativeParser (lineAll pre ns mid ++ n :: rest)).length
      (tokens nativeParser (lineAll pre ns mid ++ n :: rest))) {} .before false = _ := e
    rw [e] at h
    cases hx : strict fl (ev nativeParser rest) s' n' true with
    | error y => rw [hx] at h; simp [Except.map] at h
    | ok y => exact strict_doomed fl _ _ _ y hx

-- `spawner a --inactive b` is refused
example : ∀ fl, ∀ x, spawnerArgs fl (lineAll [] [str "a"] [⟨.inactive, .spaced, []⟩] ++ [str "b"]) ≠ .ok x := fun fl x =>
  C73_together fl [] [str "a"] [⟨.inactive, .spaced, []⟩] (by simp) (by simp)
    (by intro n hn; simp only [List.mem_cons, List.not_mem_nil, or_false] at hn; subst hn; exact Or.inl (by decide +kernel)) (by simp)
    (by intro x hx; simp only [List.mem_cons, List.not_mem_nil, or_false] at hx; subst hx
        exact ⟨by decide, by decide, fun h => by simp [takesValue] at h, fun h => by simp [isTime] at h⟩)
    (str "b") (Or.inl (by decide +kernel)) [] (by simp) x

end Verif.Argv
