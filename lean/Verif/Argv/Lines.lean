import Verif.Argv.Lemmas
/-! # Command lines made of settings -/
namespace Verif.Argv

def globalKey : Key → Bool
  | .cm | .cmTimeout | .switchTimeout | .callTimeout | .group | .asap | .noAsap | .unload => true
  | _ => false

def ctlKey : Key → Bool
  | .paramFile | .loadOnly | .inactive | .rosArgs => true
  | _ => false

/-- One of the two parsers of the advanced mode, or the native one, with the keys it knows. -/
structure Good (P : Parser Key) (mine : Key → Bool) : Prop where
  tidy : Tidy P
  shorts : Shorts P
  arity : P.arity = Key.arity
  long : ∀ k, k ≠ .help → k ≠ .controller →
    classify P (longName k) = if mine k then .opt k true none else .unknown
  short : ∀ k w, k ≠ .help → k ≠ .controller → shortName k = some w →
    classify P w = if mine k then .opt k false none else .unknown
  look : ∀ k, k ≠ .help → k ≠ .controller → P.opts.lookup (longName k) = if mine k then some k else none
  pre : ∀ k, k ≠ .help → k ≠ .controller → mine k = false → P.abbr = true → ∀ o ∈ P.opts, (longName k).isPrefixOf o.1 = false

theorem good_global : Good globalParser globalKey where
  tidy := tidy_global
  shorts := shorts_global
  arity := rfl
  long := by intro k h1 h2; cases k <;> first | exact absurd rfl h1 | exact absurd rfl h2 | decide +kernel
  short := by
    intro k w h1 h2 h3
    cases k <;> first | exact absurd rfl h1 | exact absurd rfl h2 | (simp [shortName] at h3; done) | (obtain rfl := Option.some.inj h3; decide +kernel)
  look := by intro k h1 h2; cases k <;> first | exact absurd rfl h1 | exact absurd rfl h2 | decide +kernel
  pre := by intro k _ _ _ h; simp [globalParser] at h

theorem good_ctl : Good ctlParser ctlKey where
  tidy := tidy_ctl
  shorts := shorts_ctl
  arity := rfl
  long := by intro k h1 h2; cases k <;> first | exact absurd rfl h1 | exact absurd rfl h2 | decide +kernel
  short := by
    intro k w h1 h2 h3
    cases k <;> first | exact absurd rfl h1 | exact absurd rfl h2 | (simp [shortName] at h3; done) | (obtain rfl := Option.some.inj h3; decide +kernel)
  look := by intro k h1 h2; cases k <;> first | exact absurd rfl h1 | exact absurd rfl h2 | decide +kernel
  pre := by intro k h1 h2 h3 _; cases k <;> first | exact absurd rfl h1 | exact absurd rfl h2 | (simp [ctlKey] at h3; done) | decide +kernel

theorem good_native : Good nativeParser (fun _ => true) where
  tidy := tidy_native
  shorts := shorts_native
  arity := rfl
  long := by intro k h1 h2; cases k <;> first | exact absurd rfl h1 | exact absurd rfl h2 | decide +kernel
  short := by
    intro k w h1 h2 h3
    cases k <;> first | exact absurd rfl h1 | exact absurd rfl h2 | (simp [shortName] at h3; done) | (obtain rfl := Option.some.inj h3; decide +kernel)
  look := by intro k h1 h2; cases k <;> first | exact absurd rfl h1 | exact absurd rfl h2 | decide +kernel
  pre := by intro k _ _ h; simp at h

theorem long_ne (k : Key) : longName k ≠ sepW ∧ '=' ∉ longName k ∧ isLong (longName k) = true ∧ (longName k).head? = some '-' ∧
    2 ≤ (longName k).length := by cases k <;> decide +kernel

theorem short_ne (k : Key) (w : Str) (h : shortName k = some w) : w ≠ sepW := by
  cases k <;> first | (simp [shortName] at h; done) | (obtain rfl := Option.some.inj h; decide +kernel)

theorem arity_takes (k : Key) (h1 : k ≠ .controller) : k.arity = if takesValue k then .one else .zero := by
  cases k <;> first | exact absurd rfl h1 | rfl

/-- What is not for this parser. -/
def Noise : List (Ev Key) → Prop := fun es => ∀ e ∈ es, (∃ w, e = .word w) ∨ (∃ w, e = .extra w)

/-- The word `w` names the option `k`. -/
theorem name_cases {P : Parser Key} {mine : Key → Bool} (g : Good P mine) (s : Setting) (h1 : s.key ≠ .help) (h2 : s.key ≠ .controller) (w : Str)
    (hw : w = longName s.key ∨ w = (shortName s.key).getD (longName s.key)) :
    w ≠ sepW ∧ ∃ b, classify P w = if mine s.key then .opt s.key b none else .unknown := by
  have hl : longName s.key ≠ sepW ∧ ∃ b, classify P (longName s.key) = if mine s.key then .opt s.key b none else .unknown :=
    ⟨(long_ne _).1, true, g.long _ h1 h2⟩
  rcases hw with rfl | rfl
  · exact hl
  · cases hs : shortName s.key with
    | none => simpa [hs] using hl
    | some x => exact ⟨short_ne _ _ hs, false, g.short _ _ h1 h2 hs⟩

/-- What a parser that knows the option sees of a setting. -/
theorem ev_mine {P : Parser Key} {mine : Key → Bool} (g : Good P mine) {fl : Str → Bool} (s : Setting) (ok : s.Ok fl) (hm : mine s.key = true)
    (r : List Str) :
    ev P (s.words ++ r) = .took s.key (if takesValue s.key then [s.value] else []) :: ev P r := by
  obtain ⟨h1, h2, h3, _⟩ := ok
  have ha : P.arity s.key = if takesValue s.key then .one else .zero := by rw [g.arity]; exact arity_takes _ h2
  unfold Setting.words
  by_cases ht : takesValue s.key = true
  · simp only [ht, if_true] at ha ⊢
    have two : ∀ w, (w = longName s.key ∨ w = (shortName s.key).getD (longName s.key)) → s.form ≠ .eq →
        ev P ([w, s.value] ++ r) = .took s.key [s.value] :: ev P r := by
      intro w hw hf
      obtain ⟨hn, b, hc⟩ := name_cases g s h1 h2 w hw
      simp only [hm, if_true] at hc
      exact ev_value P w s.value r s.key b hn hc ha (value_sep (h3 ht hf)) (classify_value P g.tidy g.shorts _ (h3 ht hf))
    cases hf : s.form with
    | spaced => exact two _ (Or.inl rfl) (by simp [hf])
    | short => exact two _ (Or.inr rfl) (by simp [hf])
    | eq =>
      have hl := long_ne s.key
      have hk : P.opts.lookup (longName s.key) = some s.key := by rw [g.look _ h1 h2, hm]; rfl
      refine ev_attached P _ s.value r s.key (isLong (longName s.key)) true ?_ (classify_eq P g.tidy _ _ _ hl.2.1 hl.2.2.2.1 hl.2.2.2.2 hk) ha
      intro e
      have : '=' ∈ sepW := by rw [← e]; simp
      revert this; decide
  · simp only [ht, Bool.false_eq_true, if_false] at ha ⊢
    have one : ∀ w, (w = longName s.key ∨ w = (shortName s.key).getD (longName s.key)) → ev P ([w] ++ r) = .took s.key [] :: ev P r := by
      intro w hw
      obtain ⟨hn, b, hc⟩ := name_cases g s h1 h2 w hw
      simp only [hm, if_true] at hc
      exact ev_flag P w r s.key b hn hc ha
    cases s.form with
    | short => exact one _ (Or.inr rfl)
    | spaced => exact one _ (Or.inl rfl)
    | eq => exact one _ (Or.inl rfl)

/-- What a parser that does not know the option sees of a setting. -/
theorem ev_foreign {P : Parser Key} {mine : Key → Bool} (g : Good P mine) {fl : Str → Bool} (s : Setting) (ok : s.Ok fl) (hm : mine s.key = false)
    (r : List Str) : ∃ es, Noise es ∧ ev P (s.words ++ r) = es ++ ev P r := by
  obtain ⟨h1, h2, h3, _⟩ := ok
  unfold Setting.words
  by_cases ht : takesValue s.key = true
  · simp only [ht, if_true]
    have two : ∀ w, (w = longName s.key ∨ w = (shortName s.key).getD (longName s.key)) → s.form ≠ .eq →
        ∃ es, Noise es ∧ ev P ([w, s.value] ++ r) = es ++ ev P r := by
      intro w hw hf
      obtain ⟨hn, b, hc⟩ := name_cases g s h1 h2 w hw
      simp only [hm, Bool.false_eq_true, if_false] at hc
      refine ⟨[.extra w, .word s.value], by simp [Noise], ?_⟩
      have e1 := ev_unknown P w (s.value :: r) hn hc
      have e2 := ev_pos P s.value r (value_sep (h3 ht hf)) (classify_value P g.tidy g.shorts _ (h3 ht hf))
      simp [e1, e2]
    cases hf : s.form with
    | spaced => exact two _ (Or.inl rfl) (by simp [hf])
    | short => exact two _ (Or.inr rfl) (by simp [hf])
    | eq =>
      have hl := long_ne s.key
      have hk : P.opts.lookup (longName s.key) = none := by rw [g.look _ h1 h2, hm]; rfl
      have hn : longName s.key ++ '=' :: s.value ≠ sepW := by
        intro e
        have : '=' ∈ sepW := by rw [← e]; simp
        revert this; decide
      rcases classify_foreign P g.tidy _ s.value hl.2.1 hl.2.2.1 hk (g.pre _ h1 h2 hm) with hc | hc
      · exact ⟨[.word _], by simp [Noise], ev_pos P _ r hn hc⟩
      · exact ⟨[.extra _], by simp [Noise], ev_unknown P _ r hn hc⟩
  · simp only [ht, Bool.false_eq_true, if_false]
    have one : ∀ w, (w = longName s.key ∨ w = (shortName s.key).getD (longName s.key)) → ∃ es, Noise es ∧ ev P ([w] ++ r) = es ++ ev P r := by
      intro w hw
      obtain ⟨hn, b, hc⟩ := name_cases g s h1 h2 w hw
      simp only [hm, Bool.false_eq_true, if_false] at hc
      exact ⟨[.extra w], by simp [Noise], ev_unknown P w r hn hc⟩
    cases s.form with
    | short => exact one _ (Or.inr rfl)
    | spaced => exact one _ (Or.inl rfl)
    | eq => exact one _ (Or.inl rfl)

/-- No word of a setting is ambiguous, the separator, `--controller` or a request for help. -/
theorem words_calm {P : Parser Key} {mine : Key → Bool} (g : Good P mine) {fl : Str → Bool} (s : Setting) (ok : s.Ok fl) : Calm P s.words := by
  obtain ⟨h1, h2, h3, _⟩ := ok
  have nm : ∀ w, (w = longName s.key ∨ w = (shortName s.key).getD (longName s.key)) → w ≠ sepW ∧ classify P w ≠ .ambiguous := by
    intro w hw
    obtain ⟨hn, b, hc⟩ := name_cases g s h1 h2 w hw
    refine ⟨hn, ?_⟩
    rw [hc]; split <;> simp
  have vl : takesValue s.key = true → s.form ≠ .eq → s.value ≠ sepW ∧ classify P s.value ≠ .ambiguous := fun ht hf =>
    ⟨value_sep (h3 ht hf), by rw [classify_value P g.tidy g.shorts _ (h3 ht hf)]; simp⟩
  intro w hw
  unfold Setting.words at hw
  by_cases ht : takesValue s.key = true
  · simp only [ht, if_true] at hw
    cases hf : s.form with
    | spaced =>
      simp [hf] at hw
      rcases hw with rfl | rfl
      · exact nm _ (Or.inl rfl)
      · exact vl ht (by simp [hf])
    | short =>
      simp [hf] at hw
      rcases hw with rfl | rfl
      · exact nm _ (Or.inr rfl)
      · exact vl ht (by simp [hf])
    | eq =>
      simp [hf] at hw
      subst hw
      have hl := long_ne s.key
      refine ⟨?_, ?_⟩
      · intro e
        have : '=' ∈ sepW := by rw [← e]; simp
        revert this; decide
      · cases hm : mine s.key with
        | true =>
          have hk : P.opts.lookup (longName s.key) = some s.key := by rw [g.look _ h1 h2, hm]; rfl
          rw [classify_eq P g.tidy _ _ _ hl.2.1 hl.2.2.2.1 hl.2.2.2.2 hk]; simp
        | false =>
          have hk : P.opts.lookup (longName s.key) = none := by rw [g.look _ h1 h2, hm]; rfl
          rcases classify_foreign P g.tidy _ s.value hl.2.1 hl.2.2.1 hk (g.pre _ h1 h2 hm) with hc | hc <;> rw [hc] <;> simp
  · simp only [ht, Bool.false_eq_true, if_false] at hw
    cases hf : s.form <;> simp [hf] at hw <;> subst hw
    · exact nm _ (Or.inl rfl)
    · exact nm _ (Or.inr rfl)
    · exact nm _ (Or.inl rfl)

/-! ## What the parsers make of settings -/

/-- One setting on the namespace. -/
def upd (s : Ns) (x : Setting) : Ns :=
  match x.key with
  | .cm => { s with cm := x.value }
  | .cmTimeout => { s with cmTimeout := some x.value }
  | .switchTimeout => { s with switchTimeout := some x.value }
  | .callTimeout => { s with callTimeout := some x.value }
  | .group => { s with group := true }
  | .asap => { s with asap := true }
  | .noAsap => { s with asap := false }
  | .unload => { s with unload := true }
  | .paramFile => { s with files := s.files ++ [x.value] }
  | .loadOnly => { s with loadOnly := true }
  | .inactive => { s with inactive := true }
  | .rosArgs => { s with ros := some (s.ros.getD [] ++ [x.value]) }
  | .help | .controller => s

theorem act_upd (fl : Str → Bool) (b : Bool) (s : Ns) (x : Setting) (ok : x.Ok fl) :
    act fl b s x.key (if takesValue x.key then [x.value] else []) = .ok (upd s x) := by
  obtain ⟨h1, h2, _, h4⟩ := ok
  unfold upd
  cases hk : x.key <;> simp [hk, takesValue, act, isTime] at h1 h2 h4 ⊢ <;> exact h4

theorem known_noise (fl : Str → Bool) (es r : List (Ev Key)) (h : Noise es) (s : Ns) : known fl (es ++ r) s = known fl r s := by
  induction es with
  | nil => rfl
  | cons e t ih =>
    have := ih (fun e he => h e (by simp [he]))
    rcases h e (by simp) with ⟨w, rfl⟩ | ⟨w, rfl⟩ <;> simpa [known] using this

theorem known_settings {P : Parser Key} {mine : Key → Bool} (g : Good P mine) (fl : Str → Bool) (l : List Setting) (ok : ∀ x ∈ l, x.Ok fl)
    (r : List Str) (s : Ns) :
    known fl (ev P (wordsOf l ++ r)) s = known fl (ev P r) ((l.filter (fun x => mine x.key)).foldl upd s) := by
  induction l generalizing s with
  | nil => rfl
  | cons x t ih =>
    have hx := ok x (by simp)
    have ih := ih (fun y hy => ok y (by simp [hy]))
    simp only [wordsOf, List.flatMap_cons, List.append_assoc]
    cases hm : mine x.key with
    | true =>
      rw [ev_mine g x hx hm, known, act_upd fl false s x hx]
      simp only [Except.bind, List.filter_cons, hm, if_true, List.foldl_cons]
      exact ih (upd s x)
    | false =>
      obtain ⟨es, hn, he⟩ := ev_foreign g x hx hm (List.flatMap Setting.words t ++ r)
      rw [he, known_noise fl _ _ hn]
      simp only [List.filter_cons, hm, Bool.false_eq_true, if_false]
      exact ih s

theorem strict_settings (fl : Str → Bool) (l : List Setting) (ok : ∀ x ∈ l, x.Ok fl) (r : List Str) (s : Ns) (n : Names) (ex : Bool)
    (hn : n.close = n ∨ l ≠ []) :
    strict fl (ev nativeParser (wordsOf l ++ r)) s n ex = strict fl (ev nativeParser r) (l.foldl upd s) n.close ex := by
  induction l generalizing s n with
  | nil =>
    rcases hn with h | h
    · rw [h]; rfl
    · exact absurd rfl h
  | cons x t ih =>
    have hx := ok x (by simp)
    simp only [wordsOf, List.flatMap_cons, List.append_assoc]
    rw [ev_mine good_native x hx rfl, strict, act_upd fl true s x hx]
    have hc : n.close.close = n.close := by cases n <;> rfl
    simp only [Except.bind, List.foldl_cons]
    rw [← hc]
    have := ih (fun y hy => ok y (by simp [hy])) (upd s x) n.close (Or.inl hc)
    rw [hc] at this ⊢
    exact this

/-! ## What the settings say -/

theorem given_append (k : Key) (a b : List Setting) : given k (a ++ b) = given k a ++ given k b := by simp [given]

theorem has_append (k : Key) (a b : List Setting) : has k (a ++ b) = (has k a || has k b) := by simp [has]

def said (l : List Setting) : Ns where
  cm := (globalSays l).cm
  cmTimeout := (globalSays l).cmTimeout
  switchTimeout := (globalSays l).switchTimeout
  callTimeout := (globalSays l).callTimeout
  group := (globalSays l).group
  asap := (globalSays l).asap
  unload := (globalSays l).unload
  files := (entrySays [] l).files
  loadOnly := (entrySays [] l).loadOnly
  inactive := (entrySays [] l).inactive
  ros := (entrySays [] l).ros

theorem said_snoc (l : List Setting) (x : Setting) : said (l ++ [x]) = upd (said l) x := by
  have g1 : ∀ k, given k [x] = if x.key = k then [x.value] else [] := by
    intro k; by_cases h : x.key = k <;> simp [given, h]
  have h1 : ∀ k, has k [x] = decide (x.key = k) := by intro k; simp [has]
  have ga : ∀ k, given k (l ++ [x]) = given k l ++ (if x.key = k then [x.value] else []) := by intro k; rw [given_append, g1]
  have ha : ∀ k, has k (l ++ [x]) = (has k l || decide (x.key = k)) := by intro k; rw [has_append, h1]
  simp only [said, globalSays, entrySays, ga, ha, upd]
  cases hk : x.key <;> simp [hk]
  · by_cases h : given .rosArgs l = [] <;> simp [h]

theorem fold_said (l : List Setting) (a : List Setting) : l.foldl upd (said a) = said (a ++ l) := by
  induction l generalizing a with
  | nil => simp
  | cons x t ih =>
    rw [List.foldl_cons, ← said_snoc, ih]
    simp

theorem said_nil : said [] = {} := rfl

theorem said_global (l : List Setting) : (said l).global = globalSays l := rfl

theorem said_entry (n : Str) (l : List Setting) : (said l).entry n = entrySays n l := rfl

theorem says_filter_global (l : List Setting) : globalSays (l.filter (fun x => globalKey x.key)) = globalSays l := by
  have gv : ∀ k, globalKey k = true → given k (l.filter (fun x => globalKey x.key)) = given k l := by
    intro k hk
    simp only [given, List.filter_filter]
    congr 1
    apply List.filter_congr
    intro x _
    by_cases h : x.key = k
    · simp [h, hk]
    · simp [h]
  have hs : ∀ k, globalKey k = true → has k (l.filter (fun x => globalKey x.key)) = has k l := by
    intro k hk
    simp only [has, List.any_filter]
    congr 1
    funext x
    by_cases h : x.key = k
    · simp [h, hk]
    · simp [h]
  have ha : (l.filter (fun x => globalKey x.key)).filter (fun s => s.key = .asap ∨ s.key = .noAsap) = l.filter (fun s => s.key = .asap ∨ s.key = .noAsap) := by
    simp only [List.filter_filter]
    apply List.filter_congr
    intro x _
    cases hk : x.key <;> simp [hk, globalKey]
  unfold globalSays
  rw [gv _ rfl, gv _ rfl, gv _ rfl, gv _ rfl, hs _ rfl, hs _ rfl, ha]

theorem says_filter_entry (n : Str) (l : List Setting) : entrySays n (l.filter (fun x => ctlKey x.key)) = entrySays n l := by
  have gv : ∀ k, ctlKey k = true → given k (l.filter (fun x => ctlKey x.key)) = given k l := by
    intro k hk
    simp only [given, List.filter_filter]
    congr 1
    apply List.filter_congr
    intro x _
    by_cases h : x.key = k
    · simp [h, hk]
    · simp [h]
  have hs : ∀ k, ctlKey k = true → has k (l.filter (fun x => ctlKey x.key)) = has k l := by
    intro k hk
    simp only [has, List.any_filter]
    congr 1
    funext x
    by_cases h : x.key = k
    · simp [h, hk]
    · simp [h]
  unfold entrySays
  rw [gv _ rfl, gv _ rfl, hs _ rfl, hs _ rfl]

end Verif.Argv
