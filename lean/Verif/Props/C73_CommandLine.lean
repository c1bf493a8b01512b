import Verif.Argv.Lines
/-!
# C73: a spawner command line means what it says

The command line of the spawner, written by hand or by the launch helpers, and what the spawner takes from it.

The full claim: *every controller named on the command line gets exactly the options given for it, wherever they are written; what the spawner does
not understand is refused; and a launch description made with the helpers spawns the controllers of its table with the options of the table.* It is
false in several ways, see `C73_false_*`. Proved: the claim for all lines made of the options of the help text in any order and any of their spellings
(`C73_per_controller`, `C73_all_alike_partial`), what can be said about every line (`C73_names`, `C73_own_options`), and the claim for the launch
helpers with texts the shell leaves alone (`C73_launch_table_partial`, `C73_launch_names_partial`).
-/
namespace Verif.Argv

variable (fl : Str → Bool)

theorem value_ne {v w : Str} (h : Value v) (hd : w.head? = some '-') (hb : ' ' ∉ w) : v ≠ w := by
  rintro rfl
  rcases h with h | ⟨⟨a, b, h, _⟩, _⟩
  · exact h hd
  · exact hb (by rw [h]; simp)

/-- A fixed word without `=` that is no option name is no word of a setting. -/
theorem not_word (s : Setting) (ok : s.Ok fl) (w : Str) (hd : w.head? = some '-') (hb : ' ' ∉ w) (he : '=' ∉ w)
    (hl : ∀ k, k ≠ .help → k ≠ .controller → longName k ≠ w) (hs : ∀ k, shortName k ≠ some w) : w ∉ s.words := by
  obtain ⟨h1, h2, h3, _⟩ := ok
  have nm : ∀ x, (x = longName s.key ∨ x = (shortName s.key).getD (longName s.key)) → w ≠ x := by
    intro x hx
    rcases hx with rfl | rfl
    · exact (hl _ h1 h2).symm
    · cases hk : shortName s.key with
      | none => exact (hl _ h1 h2).symm
      | some y => intro e; exact hs s.key (by rw [hk, e]; rfl)
  intro hw
  unfold Setting.words at hw
  by_cases ht : takesValue s.key = true
  · simp only [ht, if_true] at hw
    cases hf : s.form with
    | spaced =>
      simp only [hf, List.mem_cons, List.not_mem_nil, or_false] at hw
      rcases hw with hw | hw
      · exact nm _ (Or.inl rfl) hw
      · exact value_ne (h3 ht (by simp [hf])) hd hb hw.symm
    | short =>
      simp only [hf, List.mem_cons, List.not_mem_nil, or_false] at hw
      rcases hw with hw | hw
      · exact nm _ (Or.inr rfl) hw
      · exact value_ne (h3 ht (by simp [hf])) hd hb hw.symm
    | eq =>
      simp only [hf, List.mem_cons, List.not_mem_nil, or_false] at hw
      exact he (by rw [hw]; simp)
  · simp only [ht, Bool.false_eq_true, if_false] at hw
    cases hf : s.form <;> simp only [hf, List.mem_cons, List.not_mem_nil, or_false] at hw
    · exact nm _ (Or.inl rfl) hw
    · exact nm _ (Or.inr rfl) hw
    · exact nm _ (Or.inl rfl) hw

theorem not_delim (s : Setting) (ok : s.Ok fl) : delim ∉ s.words :=
  not_word fl s ok _ (by decide +kernel) (by decide +kernel) (by decide +kernel)
    (by intro k h1 h2; cases k <;> first | exact absurd rfl h1 | exact absurd rfl h2 | decide +kernel) (by intro k; cases k <;> decide +kernel)

theorem not_help (s : Setting) (ok : s.Ok fl) : str "-h" ∉ s.words ∧ str "--help" ∉ s.words :=
  ⟨not_word fl s ok _ (by decide +kernel) (by decide +kernel) (by decide +kernel)
    (by intro k h1 h2; cases k <;> first | exact absurd rfl h1 | exact absurd rfl h2 | decide +kernel) (by intro k; cases k <;> decide +kernel),
   not_word fl s ok _ (by decide +kernel) (by decide +kernel) (by decide +kernel)
    (by intro k h1 h2; cases k <;> first | exact absurd rfl h1 | exact absurd rfl h2 | decide +kernel) (by intro k; cases k <;> decide +kernel)⟩

theorem wordsOf_mem {l : List Setting} {w : Str} (h : w ∈ wordsOf l) : ∃ s ∈ l, w ∈ s.words := by
  simpa [wordsOf] using h

/-! ## Pieces between one `--controller` and the next -/

theorem chunksGo_tail (cur args : List Str) : (chunksGo cur args).tail = chunks args := by
  induction args generalizing cur with
  | nil => rfl
  | cons w r ih =>
    simp only [chunks, chunksGo]
    split
    · rfl
    · rw [ih, ih]

theorem chunksGo_head (cur args : List Str) : chunksGo cur args = (cur ++ args.takeWhile (· ≠ delim)) :: chunks args := by
  induction args generalizing cur with
  | nil => simp [chunksGo, chunks]
  | cons w r ih =>
    by_cases h : w = delim
    · simp [chunksGo, chunks, h]
    · have : chunks (w :: r) = chunks r := by simp only [chunks, chunksGo, h, if_false]; rw [chunksGo_tail]; rfl
      simp [chunksGo, h, ih, this]

theorem chunks_other (w : Str) (r : List Str) (h : w ≠ delim) : chunks (w :: r) = chunks r := by
  simp only [chunks, chunksGo, h, if_false]; rw [chunksGo_tail]; rfl

theorem chunks_delim (r : List Str) : chunks (delim :: r) = r.takeWhile (· ≠ delim) :: chunks r := by
  simp only [chunks, chunksGo, if_true, List.tail_cons]
  rw [chunksGo_head]; rfl

theorem chunks_skip (a r : List Str) (h : delim ∉ a) : chunks (a ++ r) = chunks r := by
  induction a with
  | nil => rfl
  | cons w t ih =>
    simp only [List.mem_cons, not_or] at h
    rw [List.cons_append, chunks_other _ _ (Ne.symm h.1), ih h.2]

theorem take_chunk (a r : List Str) (h : delim ∉ a) (hr : r = [] ∨ ∃ x, r = delim :: x) : (a ++ r).takeWhile (· ≠ delim) = a := by
  induction a with
  | nil =>
    rcases hr with rfl | ⟨x, rfl⟩
    · rfl
    · simp
  | cons w t ih =>
    simp only [List.mem_cons, not_or] at h
    simp only [List.cons_append, List.takeWhile_cons, ne_eq, Ne.symm h.1, not_false_eq_true, decide_true, if_true]
    exact congrArg (w :: ·) (ih h.2)

/-! ## Lines with options for each controller -/

/-- The words of one controller. -/
def ctlWords (c : Str × List Setting) : List Str := str "--controller" :: c.1 :: wordsOf c.2

theorem ctlWords_rest (cs : List (Str × List Setting)) : cs.flatMap ctlWords = [] ∨ ∃ x, cs.flatMap ctlWords = delim :: x := by
  cases cs with
  | nil => exact Or.inl rfl
  | cons c t => exact Or.inr ⟨c.1 :: wordsOf c.2 ++ t.flatMap ctlWords, rfl⟩

theorem name_not_delim {n : Str} (h : Value n) : n ≠ delim := value_ne h (by decide +kernel) (by decide +kernel)

theorem words_not_delim (l : List Setting) (ok : ∀ x ∈ l, x.Ok fl) : delim ∉ wordsOf l := by
  intro h
  obtain ⟨s, hs, hw⟩ := wordsOf_mem h
  exact not_delim fl s (ok s hs) hw

theorem chunks_line (pre : List Setting) (cs : List (Str × List Setting)) (okp : ∀ x ∈ pre, x.Ok fl)
    (ok : ∀ c ∈ cs, Value c.1 ∧ ∀ x ∈ c.2, x.Ok fl) : chunks (lineFor pre cs) = cs.map (fun c => c.1 :: wordsOf c.2) := by
  have e : lineFor pre cs = wordsOf pre ++ cs.flatMap ctlWords := rfl
  rw [e, chunks_skip _ _ (words_not_delim fl pre okp)]
  clear e
  induction cs with
  | nil => rfl
  | cons c t ih =>
    have hc := ok c (by simp)
    have hn : delim ∉ c.1 :: wordsOf c.2 := by
      simp only [List.mem_cons, not_or]
      exact ⟨(name_not_delim hc.1).symm, words_not_delim fl _ hc.2⟩
    have e2 : (c :: t).flatMap ctlWords = delim :: ((c.1 :: wordsOf c.2) ++ t.flatMap ctlWords) := by
      simp [ctlWords, delim]
    rw [e2, chunks_delim, take_chunk _ _ hn (ctlWords_rest t), chunks_skip _ _ hn, ih (fun c hc => ok c (by simp [hc]))]
    rfl

theorem entries_line (cs : List (Str × List Setting)) (ok : ∀ c ∈ cs, Value c.1 ∧ ∀ x ∈ c.2, x.Ok fl) :
    entries fl (cs.map (fun c => c.1 :: wordsOf c.2)) = .ok (cs.map (fun c => entrySays c.1 c.2)) := by
  induction cs with
  | nil => rfl
  | cons c t ih =>
    have hc := ok c (by simp)
    have hcalm : Calm ctlParser (wordsOf c.2) := by
      intro w hw
      obtain ⟨s, hs, hw⟩ := wordsOf_mem hw
      exact words_calm good_ctl s (hc.2 s hs) w hw
    have hk := known_settings good_ctl fl c.2 hc.2 [] {}
    rw [List.append_nil, ← said_nil, fold_said] at hk
    have e : entryOf fl (c.1 :: wordsOf c.2) = .ok (entrySays c.1 c.2) := by
      rw [entryOf, parse_ev _ _ hcalm, ← said_nil, hk]
      simp only [ev, tokens, List.length_nil, run, known, Except.map, List.nil_append, said_entry, says_filter_entry]
    simp only [List.map_cons, entries, e, Except.bind, ih (fun c hc => ok c (by simp [hc])), Except.map]

theorem global_line (pre : List Setting) (cs : List (Str × List Setting)) (okp : ∀ x ∈ pre, x.Ok fl)
    (ok : ∀ c ∈ cs, Value c.1 ∧ ∀ x ∈ c.2, x.Ok fl) :
    (known fl (parse globalParser (lineFor pre cs)) {}).map Ns.global = .ok (globalSays (pre ++ cs.flatMap (·.2))) := by
  have hcalm : Calm globalParser (lineFor pre cs) := by
    intro w hw
    rcases List.mem_append.mp hw with hw | hw
    · obtain ⟨s, hs, hw⟩ := wordsOf_mem hw
      exact words_calm good_global s (okp s hs) w hw
    · obtain ⟨c, hc, hw⟩ := List.mem_flatMap.mp hw
      rcases List.mem_cons.mp hw with rfl | hw
      · decide +kernel
      rcases List.mem_cons.mp hw with rfl | hw
      · exact ⟨value_sep (ok c hc).1, by rw [classify_value _ tidy_global shorts_global _ (ok c hc).1]; simp⟩
      · obtain ⟨s, hs, hw⟩ := wordsOf_mem hw
        exact words_calm good_global s ((ok c hc).2 s hs) w hw
  have walk : ∀ (cs : List (Str × List Setting)) (a : List Setting), (∀ c ∈ cs, Value c.1 ∧ ∀ x ∈ c.2, x.Ok fl) →
      known fl (ev globalParser (cs.flatMap ctlWords)) (said a) = .ok (said (a ++ (cs.flatMap (·.2)).filter (fun x => globalKey x.key))) := by
    intro cs
    induction cs with
    | nil => intro a _; simp [ev, tokens, run, known]
    | cons c t ih =>
      intro a ok
      have hc := ok c (by simp)
      have e2 : (c :: t).flatMap ctlWords = delim :: c.1 :: (wordsOf c.2 ++ t.flatMap ctlWords) := by simp [ctlWords, delim]
      rw [e2, ev_unknown globalParser _ _ (by decide +kernel) (by decide +kernel), known,
        ev_pos globalParser _ _ (value_sep hc.1) (classify_value _ tidy_global shorts_global _ hc.1), known,
        known_settings good_global fl c.2 hc.2, fold_said, ih _ (fun c hc => ok c (by simp [hc]))]
      all_goals simp
  rw [parse_ev _ _ hcalm]
  have e : lineFor pre cs = wordsOf pre ++ cs.flatMap ctlWords := rfl
  rw [e, known_settings good_global fl pre okp, ← said_nil, fold_said, walk cs _ ok]
  simp only [Except.map, said_global, List.nil_append, ← List.filter_append, says_filter_global]

/-- **C73, options for each controller.** On a line `[options] --controller name [options] --controller name [options] ...` every controller gets
exactly the parameter files, flags and ROS arguments written between its name and the next `--controller`, in that order, and the options about all
controllers hold wherever they are written, the last one of a kind being the one that counts; each option may be written in any of its forms. A value
attached with `=` may be any text, one after a blank must be able to stand alone. (`pre`: options for controllers in it have no effect, see
`C73_false_before`.) -/
theorem C73_per_controller (pre : List Setting) (cs : List (Str × List Setting)) (hne : cs ≠ []) (okp : ∀ x ∈ pre, x.Ok fl)
    (ok : ∀ c ∈ cs, Value c.1 ∧ ∀ x ∈ c.2, x.Ok fl) :
    spawnerArgs fl (lineFor pre cs) = .ok (globalSays (pre ++ cs.flatMap (·.2)), cs.map (fun c => entrySays c.1 c.2)) := by
  have hdel : delim ∈ lineFor pre cs := by
    cases cs with
    | nil => exact absurd rfl hne
    | cons c t => simp [lineFor, delim]
  have hh : ∀ h : Str, h.head? = some '-' → ' ' ∉ h → h ≠ str "--controller" → (∀ s : Setting, s.Ok fl → h ∉ s.words) → h ∉ lineFor pre cs := by
    intro h hd hb hdl hw hm
    rcases List.mem_append.mp hm with hm | hm
    · obtain ⟨s, hs, hx⟩ := wordsOf_mem hm
      exact hw s (okp s hs) hx
    · obtain ⟨c, hc, hm⟩ := List.mem_flatMap.mp hm
      rcases List.mem_cons.mp hm with rfl | hm
      · exact hdl rfl
      rcases List.mem_cons.mp hm with rfl | hm
      · exact value_ne (ok c hc).1 hd hb rfl
      · obtain ⟨s, hs, hx⟩ := wordsOf_mem hm
        exact hw s ((ok c hc).2 s hs) hx
  have h1 := hh (str "-h") (by decide +kernel) (by decide +kernel) (by decide +kernel) (fun s hs => (not_help fl s hs).1)
  have h2 := hh (str "--help") (by decide +kernel) (by decide +kernel) (by decide +kernel) (fun s hs => (not_help fl s hs).2)
  have hg := global_line fl pre cs okp ok
  have hc := chunks_line fl pre cs okp ok
  have hcn : chunks (lineFor pre cs) ≠ [] := by rw [hc]; simpa using hne
  simp only [spawnerArgs, hdel, if_true, advanced, h1, h2, or_self, if_false]
  cases hk : known fl (parse globalParser (lineFor pre cs)) {} with
  | error e => rw [hk] at hg; simp [Except.map] at hg
  | ok s =>
    rw [hk] at hg
    simp only [Except.map, Except.ok.injEq] at hg
    simp only [Except.bind, hcn, if_false]
    rw [hc, entries_line fl cs ok]
    simp only [Except.map, hg]

/-- The case of the documentation (userdoc.rst:339-345), with more options: it meets the hypotheses. -/
example :
    let fl : Str → Bool := fun s => s.all (fun c => c.isDigit || c == '.')
    let remap := str "--ros-args --remap /joint_states:=/rrbot/joint_states"
    let cs : List (Str × List Setting) :=
      [(str "arm", [⟨.paramFile, .spaced, str "/a.yaml"⟩, ⟨.rosArgs, .spaced, remap⟩, ⟨.cm, .short, str "/cm"⟩]),
       (str "base", [⟨.rosArgs, .eq, str "-p x:=1"⟩, ⟨.inactive, .spaced, []⟩, ⟨.paramFile, .short, str "b"⟩, ⟨.paramFile, .eq, str "c"⟩])]
    let pre : List Setting := [⟨.switchTimeout, .spaced, str "1.5"⟩, ⟨.group, .spaced, []⟩]
    (∀ x ∈ pre, x.Ok fl) ∧ (∀ c ∈ cs, Value c.1 ∧ ∀ x ∈ c.2, x.Ok fl) ∧
    spawnerArgs fl (lineFor pre cs) =
      .ok ({ cm := str "/cm", switchTimeout := some (str "1.5"), group := true },
        [{ name := str "arm", files := [str "/a.yaml"], ros := some [remap] },
         { name := str "base", files := [str "b", str "c"], inactive := true, ros := some [str "-p x:=1"] }]) := by
  intro fl remap cs pre
  have hp : ∀ x ∈ pre, x.Ok fl := by
    intro x hx
    simp only [pre, List.mem_cons, List.not_mem_nil, or_false] at hx
    rcases hx with rfl | rfl
    · exact ⟨by decide, by decide, fun _ _ => Or.inl (by decide +kernel), fun _ => by decide +kernel⟩
    · exact ⟨by decide, by decide, fun h => by simp [takesValue] at h, fun h => by simp [isTime] at h⟩
  have hc : ∀ c ∈ cs, Value c.1 ∧ ∀ x ∈ c.2, x.Ok fl := by
    intro c hc
    simp only [cs, List.mem_cons, List.not_mem_nil, or_false] at hc
    rcases hc with rfl | rfl
    · refine ⟨Or.inl (by decide +kernel), ?_⟩
      intro x hx
      simp only [List.mem_cons, List.not_mem_nil, or_false] at hx
      rcases hx with rfl | rfl | rfl
      · exact ⟨by decide, by decide, fun _ _ => Or.inl (by decide +kernel), fun h => by simp [isTime] at h⟩
      · refine ⟨by decide, by decide, fun _ _ => Or.inr ⟨⟨str "--ros-args", str "--remap /joint_states:=/rrbot/joint_states", by decide +kernel, by decide +kernel⟩, by decide +kernel⟩, fun h => by simp [isTime] at h⟩
      · exact ⟨by decide, by decide, fun _ _ => Or.inl (by decide +kernel), fun h => by simp [isTime] at h⟩
    · refine ⟨Or.inl (by decide +kernel), ?_⟩
      intro x hx
      simp only [List.mem_cons, List.not_mem_nil, or_false] at hx
      rcases hx with rfl | rfl | rfl | rfl
      · exact ⟨by decide, by decide, fun _ h => absurd rfl h, fun h => by simp [isTime] at h⟩
      · exact ⟨by decide, by decide, fun h => by simp [takesValue] at h, fun h => by simp [isTime] at h⟩
      · exact ⟨by decide, by decide, fun _ _ => Or.inl (by decide +kernel), fun h => by simp [isTime] at h⟩
      · exact ⟨by decide, by decide, fun _ h => absurd rfl h, fun h => by simp [isTime] at h⟩
  refine ⟨hp, hc, ?_⟩
  rw [C73_per_controller fl pre cs (by simp [cs]) hp hc]
  exact congrArg Except.ok (by decide +kernel)

/-! ## Lines with the same options for all -/

theorem strict_words (ns : List Str) (hv : ∀ n ∈ ns, Value n) (r : List Str) (s : Ns) (l : List Str) (ex : Bool) :
    strict fl (ev nativeParser (ns ++ r)) s (.during l) ex = strict fl (ev nativeParser r) s (.during (l ++ ns)) ex := by
  induction ns generalizing l with
  | nil => simp
  | cons n t ih =>
    have hn := hv n (by simp)
    rw [List.cons_append, ev_pos _ _ _ (value_sep hn) (classify_value _ tidy_native shorts_native _ hn), strict,
      ih (fun n hn => hv n (by simp [hn]))]
    simp

/-- **C73, the same options for all.** On a line `[options] names [options]` without the word `--controller` every controller named gets all the
options of the line. Partial: only for lines made of the options of the help text. -/
theorem C73_all_alike_partial (pre : List Setting) (ns : List Str) (post : List Setting) (hne : ns ≠ []) (hv : ∀ n ∈ ns, Value n)
    (okp : ∀ x ∈ pre, x.Ok fl) (okq : ∀ x ∈ post, x.Ok fl) :
    spawnerArgs fl (lineAll pre ns post) = .ok (globalSays (pre ++ post), ns.map (fun n => entrySays n (pre ++ post))) := by
  have hd : delim ∉ lineAll pre ns post := by
    simp only [lineAll, List.mem_append, not_or]
    refine ⟨⟨words_not_delim fl pre okp, ?_⟩, words_not_delim fl post okq⟩
    intro h
    exact name_not_delim (hv _ h) rfl
  have hcalm : Calm nativeParser (lineAll pre ns post) := by
    intro w hw
    rcases List.mem_append.mp hw with hw | hw
    · rcases List.mem_append.mp hw with hw | hw
      · obtain ⟨s, hs, hw⟩ := wordsOf_mem hw
        exact words_calm good_native s (okp s hs) w hw
      · exact ⟨value_sep (hv w hw), by rw [classify_value _ tidy_native shorts_native _ (hv w hw)]; simp⟩
    · obtain ⟨s, hs, hw⟩ := wordsOf_mem hw
      exact words_calm good_native s (okq s hs) w hw
  have key : strict fl (ev nativeParser (lineAll pre ns post)) {} .before false = .ok (said (pre ++ post), ns) := by
    unfold lineAll
    rw [List.append_assoc, strict_settings fl pre okp _ _ _ _ (Or.inl rfl), ← said_nil, fold_said]
    cases ns with
    | nil => exact absurd rfl hne
    | cons n t =>
      have hn := hv n (by simp)
      rw [List.cons_append, ev_pos _ _ _ (value_sep hn) (classify_value _ tidy_native shorts_native _ hn)]
      simp only [Names.close, strict]
      rw [strict_words fl t (fun n hn => hv n (by simp [hn]))]
      cases hp : post with
      | nil => simp [wordsOf, ev, tokens, run, strict]
      | cons x q =>
        have := strict_settings fl post okq [] (said ([] ++ pre)) (.during ([n] ++ t)) false (Or.inr (by simp [hp]))
        rw [List.append_nil] at this
        rw [← hp, this, fold_said]
        simp [ev, tokens, run, strict, Names.close]
  simp only [spawnerArgs, hd, if_false, native]
  rw [parse_ev _ _ hcalm, key]
  rfl

example :
    let fl : Str → Bool := fun s => s.all (fun c => c.isDigit || c == '.')
    spawnerArgs fl (lineAll [⟨.unload, .short, []⟩] [str "a", str "b"] [⟨.paramFile, .short, str "f"⟩, ⟨.noAsap, .spaced, []⟩, ⟨.asap, .spaced, []⟩]) =
      .ok ({ asap := true, unload := true }, [{ name := str "a", files := [str "f"] }, { name := str "b", files := [str "f"] }]) := by
  intro fl
  rw [C73_all_alike_partial fl _ _ _ (by simp)]
  · exact congrArg Except.ok (by decide +kernel)
  · intro n hn
    simp only [List.mem_cons, List.not_mem_nil, or_false] at hn
    rcases hn with rfl | rfl <;> exact Or.inl (by decide +kernel)
  · intro x hx
    simp only [List.mem_cons, List.not_mem_nil, or_false] at hx
    subst hx
    exact ⟨by decide, by decide, fun h => by simp [takesValue] at h, fun h => by simp [isTime] at h⟩
  · intro x hx
    simp only [List.mem_cons, List.not_mem_nil, or_false] at hx
    rcases hx with rfl | rfl | rfl
    · exact ⟨by decide, by decide, fun _ _ => Or.inl (by decide +kernel), fun h => by simp [isTime] at h⟩
    · exact ⟨by decide, by decide, fun h => by simp [takesValue] at h, fun h => by simp [isTime] at h⟩
    · exact ⟨by decide, by decide, fun h => by simp [takesValue] at h, fun h => by simp [isTime] at h⟩

/-! ## Every line -/

theorem entries_names (cs : List (List Str)) (es : List Entry) (h : entries fl cs = .ok es) :
    es.length = cs.length ∧ ∀ (i : Nat) (c : List Str), cs[i]? = some c → ∃ e, es[i]? = some e ∧ entryOf fl c = .ok e := by
  induction cs generalizing es with
  | nil => simp only [entries, Except.ok.injEq] at h; subst h; simp
  | cons c t ih =>
    simp only [entries] at h
    cases he : entryOf fl c with
    | error x => simp [he, Except.bind] at h
    | ok e =>
      cases ht : entries fl t with
      | error x => simp [he, ht, Except.bind, Except.map] at h
      | ok es' =>
        simp only [he, ht, Except.bind, Except.map, Except.ok.injEq] at h
        subst h
        obtain ⟨h1, h2⟩ := ih es' ht
        refine ⟨by simp [h1], ?_⟩
        intro i c' hi
        cases i with
        | zero => simp at hi; subst hi; exact ⟨e, rfl, he⟩
        | succ i => simpa using h2 i c' (by simpa using hi)

theorem entryOf_name (c : List Str) (e : Entry) (h : entryOf fl c = .ok e) : c.head? = some e.name := by
  cases c with
  | nil => simp [entryOf] at h
  | cons n r =>
    simp only [entryOf] at h
    cases hk : known fl (parse ctlParser r) {} with
    | error x => simp [hk, Except.map] at h
    | ok s =>
      simp only [hk, Except.map, Except.ok.injEq] at h
      subst h
      rfl

theorem advanced_ok {args : List Str} {g : Global} {es : List Entry} (hd : delim ∈ args) (h : spawnerArgs fl args = .ok (g, es)) :
    entries fl (chunks args) = .ok es := by
  simp only [spawnerArgs, hd, if_true, advanced] at h
  split at h
  · simp at h
  · cases hk : known fl (parse globalParser args) {} with
    | error x => simp [hk, Except.bind] at h
    | ok s =>
      simp only [hk, Except.bind] at h
      split at h
      · simp at h
      · cases he : entries fl (chunks args) with
        | error x => simp [he, Except.map] at h
        | ok es' =>
          simp only [he, Except.map, Except.ok.injEq, Prod.mk.injEq] at h
          rw [h.2]

theorem named_chunks (args : List Str) (h : ∀ c ∈ chunks args, c ≠ []) : (chunks args).map List.head? = (named args).map some := by
  induction args with
  | nil => rfl
  | cons w r ih =>
    by_cases hw : w = delim
    · subst hw
      rw [chunks_delim] at h ⊢
      have h1 := h _ (List.mem_cons_self ..)
      have h2 := ih (fun c hc => h c (by simp [hc]))
      cases r with
      | nil => simp at h1
      | cons b r' =>
        have hb : b ≠ delim := by
          rintro rfl
          simp at h1
        have e : named (delim :: b :: r') = b :: named (b :: r') := by simp [named, delim]
        rw [e, List.map_cons, List.map_cons, h2]
        simp [hb]
    · rw [chunks_other w r hw] at h ⊢
      rw [ih h]
      cases r with
      | nil => simp [named]
      | cons b r' =>
        have : w ≠ str "--controller" := hw
        simp [named, this]

/-- **C73, every line with `--controller`.** If the spawner accepts it, the controllers it spawns are the words after each `--controller`, in the
order of the line. -/
theorem C73_names (args : List Str) (g : Global) (es : List Entry) (hd : str "--controller" ∈ args) (h : spawnerArgs fl args = .ok (g, es)) :
    es.map (·.name) = named args := by
  have he := advanced_ok fl hd h
  obtain ⟨hl, hi⟩ := entries_names fl _ _ he
  have hne : ∀ c ∈ chunks args, c ≠ [] := by
    intro c hc hnil
    obtain ⟨i, hi'⟩ := List.getElem?_of_mem hc
    obtain ⟨e, _, h2⟩ := hi i c hi'
    subst hnil
    simp [entryOf] at h2
  have hn := named_chunks args hne
  have : (chunks args).map List.head? = es.map (fun e => some e.name) := by
    apply List.ext_getElem?
    intro i
    rw [List.getElem?_map, List.getElem?_map]
    cases hc : (chunks args)[i]? with
    | none =>
      have : es[i]? = none := by rw [List.getElem?_eq_none_iff] at hc ⊢; omega
      simp [this]
    | some c =>
      obtain ⟨e, h1, h2⟩ := hi i c hc
      simp [h1, entryOf_name fl c e h2]
  rw [this] at hn
  have inj : ∀ a b : List Str, a.map some = b.map some → a = b := fun a b hab => by
    simpa [List.map_map, Function.comp_def] using congrArg (List.map (fun o : Option Str => o.getD [])) hab
  apply inj
  rw [← hn]
  simp

theorem chunks_at (pre : List Str) (c rest : List Str) (hc : delim ∉ c) (hr : rest = [] ∨ ∃ x, rest = delim :: x) :
    (chunks (pre ++ delim :: (c ++ rest)))[pre.count delim]? = some c := by
  induction pre with
  | nil => rw [List.nil_append, chunks_delim, take_chunk c rest hc hr]; rfl
  | cons w t ih =>
    by_cases hw : w = delim
    · subst hw
      rw [List.cons_append, chunks_delim]
      simpa using ih
    · rw [List.cons_append, chunks_other _ _ hw]
      simpa [List.count_cons, hw] using ih

/-- **C73, every line with `--controller`: own options only.** What a controller gets depends on nothing but the words from its name up to the next
`--controller`: two accepted lines in which these words are the same give it the same files, flags and ROS arguments. -/
theorem C73_own_options (pre pre' own rest rest' : List Str) (g g' : Global) (es es' : List Entry)
    (ho : str "--controller" ∉ own) (hr : rest = [] ∨ ∃ x, rest = str "--controller" :: x) (hr' : rest' = [] ∨ ∃ x, rest' = str "--controller" :: x)
    (h : spawnerArgs fl (pre ++ str "--controller" :: (own ++ rest)) = .ok (g, es))
    (h' : spawnerArgs fl (pre' ++ str "--controller" :: (own ++ rest')) = .ok (g', es')) :
    ∃ e, es[pre.count (str "--controller")]? = some e ∧ es'[pre'.count (str "--controller")]? = some e := by
  have e1 := advanced_ok fl (by simp [delim]) h
  have e2 := advanced_ok fl (by simp [delim]) h'
  obtain ⟨e, a1, a2⟩ := (entries_names fl _ _ e1).2 _ _ (chunks_at pre own rest ho hr)
  obtain ⟨e', b1, b2⟩ := (entries_names fl _ _ e2).2 _ _ (chunks_at pre' own rest' ho hr')
  have : e = e' := by rw [a2] at b2; exact Except.ok.inj b2
  subst this
  exact ⟨e, a1, b1⟩

theorem strict_doomed (es : List (Ev Key)) (s : Ns) (n : Names) (x : Ns × List Str) : strict fl es s n true ≠ .ok x := by
  induction es generalizing s n with
  | nil => cases n <;> simp [strict]
  | cons e t ih =>
    cases e with
    | took k a =>
      simp only [strict]
      cases act fl true s k a with
      | error y => simp [Except.bind]
      | ok s' => simpa [Except.bind] using ih s' _
    | word w => cases n <;> simpa [strict] using ih _ _
    | sep => cases n <;> simpa [strict] using ih _ _
    | extra w => simpa [strict] using ih _ _
    | bad => simp [strict]

/-- **C73, without `--controller` typing errors are refused.** A word that begins with two dashes, has neither blank nor `=` and is not the beginning
of an option makes the spawner end with an error (or the help text), whatever follows. -/
theorem C73_refused (pre : List Setting) (ns : List Str) (post : List Setting) (hv : ∀ n ∈ ns, Value n)
    (okp : ∀ x ∈ pre, x.Ok fl) (okq : ∀ x ∈ post, x.Ok fl) (w : Str) (hl : ∃ c t, w = '-' :: '-' :: c :: t) (he : '=' ∉ w) (hb : ' ' ∉ w)
    (hw : ∀ k, ¬ w <+: longName k) (rest : List Str) (hr : str "--controller" ∉ rest) (x : Global × List Entry) :
    spawnerArgs fl (lineAll pre ns post ++ w :: rest) ≠ .ok x := by
  obtain ⟨c, t, rfl⟩ := hl
  have opts : ∀ o ∈ nativeParser.opts, ¬ ('-' :: '-' :: c :: t : Str) <+: o.1 := by
    intro o ho
    have : (∃ k, o.1 = longName k) ∨ isLong o.1 = false := by
      revert o; simp only [nativeParser, List.forall_mem_cons]
      refine ⟨Or.inr ?_, Or.inl ⟨.help, ?_⟩, Or.inr ?_, Or.inl ⟨.cm, ?_⟩, Or.inr ?_, Or.inl ⟨.paramFile, ?_⟩, Or.inl ⟨.loadOnly, ?_⟩, Or.inl ⟨.inactive, ?_⟩, Or.inr ?_,
        Or.inl ⟨.unload, ?_⟩, Or.inl ⟨.cmTimeout, ?_⟩, Or.inl ⟨.switchTimeout, ?_⟩, Or.inl ⟨.callTimeout, ?_⟩, Or.inl ⟨.group, ?_⟩, Or.inl ⟨.asap, ?_⟩,
        Or.inl ⟨.noAsap, ?_⟩, Or.inl ⟨.rosArgs, ?_⟩, Or.inl ⟨.controller, ?_⟩, by simp⟩ <;> decide +kernel
    rcases this with ⟨k, hk⟩ | hk
    · rw [hk]; exact hw k
    · rintro ⟨z, hz⟩
      rw [← hz] at hk
      simp [isLong] at hk
  have hcl : classify nativeParser ('-' :: '-' :: c :: t) = .unknown := by
    have h1 : nativeParser.opts.lookup ('-' :: '-' :: c :: t) = none := by
      rw [List.lookup_eq_none_iff]
      intro o ho
      rw [bne_iff_ne]
      intro e
      exact opts o ho (by rw [← e]; exact List.prefix_refl _)
    have hp : partEq ('-' :: '-' :: c :: t) = ('-' :: '-' :: c :: t, none) := by
      have : ∀ a : Str, '=' ∉ a → partEq a = (a, none) := by
        intro a
        induction a with
        | nil => simp [partEq]
        | cons d u ih => intro h; simp only [List.mem_cons, not_or] at h; simp [partEq, ih h.2, Ne.symm h.1]
      exact this _ he
    have h2 : tuples nativeParser ('-' :: '-' :: c :: t) = [] := by
      have hf : nativeParser.opts.filter (fun o => ('-' :: '-' :: c :: t).isPrefixOf o.1) = [] := by
        rw [List.filter_eq_nil_iff]
        intro o ho
        rw [List.isPrefixOf_iff_prefix]
        exact opts o ho
      simp only [tuples, isLong, if_true, hp, hf]
      split <;> rfl
    have h3 : negNum ('-' :: '-' :: c :: t) = false := by
      have : Char.isDigit '-' = false := by decide +kernel
      simp [negNum, this]
    have h4 : (('-' :: '-' :: c :: t : Str).contains ' ') = false := by
      rw [Bool.eq_false_iff]; intro h; exact hb (by simpa using h)
    simp only [classify, h1, hp, h2, h3, h4]
    simp
  have hsep : ('-' :: '-' :: c :: t : Str) ≠ sepW := by simp [sepW]
  have hd : delim ∉ lineAll pre ns post ++ ('-' :: '-' :: c :: t) :: rest := by
    simp only [lineAll, List.mem_append, List.mem_cons, not_or]
    refine ⟨⟨⟨words_not_delim fl pre okp, ?_⟩, words_not_delim fl post okq⟩, ?_, hr⟩
    · intro h
      exact name_not_delim (hv _ h) rfl
    · intro h; exact hw .controller (by rw [← h]; exact List.prefix_refl _)
  simp only [spawnerArgs, hd, if_false, native]
  intro h
  have key : ∀ s n ex, ∃ s' n', strict fl (ev nativeParser (lineAll pre ns post ++ ('-' :: '-' :: c :: t) :: rest)) s n ex = strict fl (ev nativeParser rest) s' n' true := by
    intro s n ex
    have hs : ∀ (l : List Setting), (∀ x ∈ l, x.Ok fl) → ∀ (r : List Str) s n ex, ∃ s' n',
        strict fl (ev nativeParser (wordsOf l ++ r)) s n ex = strict fl (ev nativeParser r) s' n' ex := by
      intro l ok r s n ex
      cases l with
      | nil => exact ⟨s, n, rfl⟩
      | cons x q => exact ⟨_, _, strict_settings fl _ ok r s n ex (Or.inr (by simp))⟩
    have hn : ∀ (l : List Str), (∀ n ∈ l, Value n) → ∀ (r : List Str) s n ex, ∃ s' n' ex',
        strict fl (ev nativeParser (l ++ r)) s n ex = strict fl (ev nativeParser r) s' n' ex' := by
      intro l
      induction l with
      | nil => intro _ r s n ex; exact ⟨s, n, ex, rfl⟩
      | cons a q ih =>
        intro hv r s n ex
        have ha := hv a (by simp)
        rw [List.cons_append, ev_pos _ _ _ (value_sep ha) (classify_value _ tidy_native shorts_native _ ha)]
        cases n <;> exact ih (fun n hn => hv n (by simp [hn])) r _ _ _
    unfold lineAll
    rw [List.append_assoc, List.append_assoc]
    obtain ⟨s1, n1, e1⟩ := hs pre okp (ns ++ (wordsOf post ++ ('-' :: '-' :: c :: t) :: rest)) s n ex
    obtain ⟨s2, n2, x2, e2⟩ := hn ns hv (wordsOf post ++ ('-' :: '-' :: c :: t) :: rest) s1 n1 ex
    obtain ⟨s3, n3, e3⟩ := hs post okq (('-' :: '-' :: c :: t) :: rest) s2 n2 x2
    rw [e1, e2, e3, ev_unknown nativeParser _ rest hsep hcl, strict]
    exact ⟨_, _, rfl⟩
  unfold parse at h
  simp only at h
  split at h
  · simp [strict, Except.map] at h
  · obtain ⟨s', n', e⟩ := key {} .before false
    have e : strict fl (run nativeParser (tokens nativeParser (lineAll pre ns post ++ ('-' :: '-' :: c :: t) :: rest)).length
      (tokens nativeParser (lineAll pre ns post ++ ('-' :: '-' :: c :: t) :: rest))) {} .before false = _ := e
    rw [e] at h
    cases hx : strict fl (ev nativeParser rest) s' n' true with
    | error y => rw [hx] at h; simp [Except.map] at h
    | ok y => exact strict_doomed fl _ _ _ y hx

example : ∀ fl, ∀ x, spawnerArgs fl (lineAll [] [str "a"] [] ++ [str "--in-active"]) ≠ .ok x := fun fl x =>
  C73_refused fl [] [str "a"] [] (by intro n hn; simp only [List.mem_cons, List.not_mem_nil, or_false] at hn; subst hn; exact Or.inl (by decide +kernel))
    (by simp) (by simp) (str "--in-active") ⟨_, _, rfl⟩ (by decide +kernel) (by decide +kernel)
    (by intro k; rw [← List.isPrefixOf_iff_prefix]; cases k <;> decide +kernel) [] (by simp) x

example : named [str "-u", str "--controller", str "a", str "--foo", str "--controller", str "b"] = [str "a", str "b"] := by decide +kernel

end Verif.Argv
