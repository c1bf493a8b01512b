import Verif.Props.C73_CommandLine
/-! # C73: the launch helpers -/
namespace Verif.Argv

/-! ## The launch helpers -/

/-- A word the shell leaves alone. -/
def Safe (w : Str) : Prop := w ≠ [] ∧ ∀ c ∈ w, c ≠ ' ' ∧ c ≠ '\t' ∧ c ≠ '\n' ∧ c ≠ '\'' ∧ c ≠ '"'

/-- The shell turns the argument `w` into the words `out`. -/
def Yields (w : Str) (out : List Str) : Prop :=
  shellGo none none w = out ∧ ∀ r, shellGo none none (w ++ ' ' :: r) = out ++ shellGo none none r

theorem shell_plain (w : Str) (h : ∀ c ∈ w, c ≠ ' ' ∧ c ≠ '\t' ∧ c ≠ '\n' ∧ c ≠ '\'' ∧ c ≠ '"') (a : Str) (r : Str) :
    shellGo (some a) none (w ++ r) = shellGo (some (a ++ w)) none r := by
  induction w generalizing a with
  | nil => simp
  | cons c t ih =>
    have hc := h c (by simp)
    rw [List.cons_append, shellGo]
    simp only [hc.1, hc.2.1, hc.2.2.1, hc.2.2.2.1, hc.2.2.2.2, or_self, if_false, Option.getD_some]
    rw [ih (fun c hc => h c (by simp [hc]))]
    simp

theorem yields_safe {w : Str} (h : Safe w) : Yields w [w] := by
  obtain ⟨hn, hs⟩ := h
  cases w with
  | nil => exact absurd rfl hn
  | cons c t =>
    have hc := hs c (by simp)
    have ht : ∀ c ∈ t, _ := fun c hc => hs c (by simp [hc])
    have first : ∀ r, shellGo none none (c :: t ++ r) = shellGo (some (c :: t)) none r := by
      intro r
      rw [List.cons_append, shellGo]
      simp only [hc.1, hc.2.1, hc.2.2.1, hc.2.2.2.1, hc.2.2.2.2, or_self, if_false, Option.getD_none, List.nil_append]
      rw [shell_plain t ht]; rfl
    refine ⟨?_, ?_⟩
    · have := first []
      rw [List.append_nil] at this
      rw [this]; rfl
    · intro r
      rw [first, shellGo]
      simp

theorem yields_empty : Yields [] [] := ⟨rfl, fun r => by simp [shellGo]⟩

theorem shell_quote (q : Char) (t : Str) (h : q ∉ t) (a r : Str) : shellGo (some a) (some q) (t ++ q :: r) = shellGo (some (a ++ t)) none r := by
  induction t generalizing a with
  | nil => simp [shellGo]
  | cons c u ih =>
    simp only [List.mem_cons, not_or] at h
    rw [List.cons_append, shellGo, if_neg (Ne.symm h.1), Option.getD_some, ih h.2]
    simp

/-- A text between single quotes. -/
def quoted (t : Str) : Str := '\'' :: (t ++ ['\''])

theorem yields_quoted {t : Str} (h : '\'' ∉ t) : Yields (quoted t) [t] := by
  have first : ∀ r, shellGo none none (quoted t ++ r) = shellGo (some t) none r := by
    intro r
    have e : quoted t ++ r = '\'' :: (t ++ '\'' :: r) := by simp [quoted]
    rw [e, shellGo]
    simp only [Char.reduceEq, or_self, if_false, true_or, if_true, Option.getD_none]
    rw [shell_quote '\'' t h]; rfl
  refine ⟨?_, ?_⟩
  · have := first []
    rw [List.append_nil] at this
    rw [this]; rfl
  · intro r
    rw [first, shellGo]
    simp

theorem shell_yields (l : List (Str × List Str)) (h : ∀ x ∈ l, Yields x.1 x.2) : shell (l.map (·.1)) = l.flatMap (·.2) := by
  unfold shell
  induction l with
  | nil => rfl
  | cons x t ih =>
    have hx := h x (by simp)
    have ih := ih (fun y hy => h y (by simp [hy]))
    cases t with
    | nil => simpa [join] using hx.1
    | cons y u =>
      have : join ((x :: y :: u).map (·.1)) = x.1 ++ ' ' :: join ((y :: u).map (·.1)) := rfl
      rw [this, hx.2, ih]
      rfl

/-- What an entry of a table says, read as in the description of the helper (lu 160-176). -/
def filesIn : Py → List Str
  | .str s => if s = [] then [] else [s]
  | .list l => l
  | _ => []

def flagIn : Option Py → Bool
  | some (.bool b) => b
  | _ => false

/-- An entry of a table whose texts are simple: the name and the files are words the shell leaves alone and that do not begin with a dash; ROS arguments
are such a word, or a text between single quotes that can stand alone as a value. `ros`: the text of the ROS arguments. -/
structure Simple (e : Str × Table) (ros : Option Str) : Prop where
  name : Safe e.1 ∧ e.1.head? ≠ some '-'
  files : ∀ f ∈ filesIn e.2.paramFile, Safe f ∧ f.head? ≠ some '-'
  rosArgs : (e.2.rosArgs = none ∧ ros = none) ∨
    (∃ r, ros = some r ∧ ((e.2.rosArgs = some (.str r) ∧ Safe r ∧ r.head? ≠ some '-') ∨ (e.2.rosArgs = some (.str (quoted r)) ∧ '\'' ∉ r ∧ Value r)))

def rosSettings : Option Str → List Setting
  | none => []
  | some r => [⟨.rosArgs, .spaced, r⟩]

/-- The settings of an entry. -/
def settingsIn (t : Table) (ros : Option Str) : List Setting :=
  (filesIn t.paramFile).map (fun f => ⟨.paramFile, .spaced, f⟩) ++ (if flagIn t.loadOnly then [⟨.loadOnly, .spaced, []⟩] else []) ++
    (if flagIn t.inactive then [⟨.inactive, .spaced, []⟩] else []) ++ rosSettings ros

theorem entry_settings (n : Str) (t : Table) (ros : Option Str) :
    entrySays n (settingsIn t ros) =
      { name := n, files := filesIn t.paramFile, loadOnly := flagIn t.loadOnly, inactive := flagIn t.inactive, ros := ros.map (fun r => [r]) } := by
  have gf : ∀ (k : Key) (l : List Str), given k (l.map (fun f => (⟨.paramFile, .spaced, f⟩ : Setting))) = if k = .paramFile then l else [] := by
    intro k l
    by_cases hk : k = .paramFile
    · subst hk; induction l <;> simp_all [given]
    · have : ∀ x ∈ l.map (fun f => (⟨.paramFile, .spaced, f⟩ : Setting)), ¬ x.key = k := by
        intro x hx; obtain ⟨f, _, rfl⟩ := List.mem_map.mp hx; exact Ne.symm hk
      simp only [given, hk, if_false, List.map_eq_nil_iff, List.filter_eq_nil_iff]
      intro x hx; simpa using this x hx
  have hf : ∀ (k : Key) (l : List Str), k ≠ .paramFile → has k (l.map (fun f => (⟨.paramFile, .spaced, f⟩ : Setting))) = false := by
    intro k l hk
    simp only [has, List.any_eq_false]
    intro x hx; obtain ⟨f, _, rfl⟩ := List.mem_map.mp hx; simpa using Ne.symm hk
  unfold settingsIn
  simp only [entrySays, given_append, has_append, gf, hf _ _ (by decide : Key.loadOnly ≠ .paramFile), hf _ _ (by decide : Key.inactive ≠ .paramFile)]
  cases flagIn t.loadOnly <;> cases flagIn t.inactive <;> cases ros <;> simp [given, has, rosSettings]

theorem settings_ok (fl : Str → Bool) (e : Str × Table) (ros : Option Str) (hs : Simple e ros) : ∀ x ∈ settingsIn e.2 ros, x.Ok fl := by
  intro x hx
  simp only [settingsIn, List.mem_append, List.mem_map] at hx
  rcases hx with ((⟨y, hy, rfl⟩ | hx) | hx) | hx
  · exact ⟨by simp, by simp, fun _ _ => Or.inl (hs.files y hy).2, fun h => by simp [isTime] at h⟩
  · split at hx <;> simp at hx
    subst hx; exact ⟨by decide, by decide, fun h => by simp [takesValue] at h, fun h => by simp [isTime] at h⟩
  · split at hx <;> simp at hx
    subst hx; exact ⟨by decide, by decide, fun h => by simp [takesValue] at h, fun h => by simp [isTime] at h⟩
  · rcases hs.rosArgs with ⟨h1, h2⟩ | ⟨t, h2, h1⟩
    · subst h2; simp [rosSettings] at hx
    · subst h2
      simp only [rosSettings, List.mem_cons, List.not_mem_nil, or_false] at hx
      subst hx
      refine ⟨by simp, by simp, fun _ _ => ?_, fun h => by simp [isTime] at h⟩
      rcases h1 with ⟨_, _, h3⟩ | ⟨_, _, h3⟩
      · exact Or.inl h3
      · exact h3

theorem single (x : List Str) : (x.map (fun y => (y, [y]))).flatMap (·.2) = x := by
  induction x with
  | nil => rfl
  | cons a t ih => simpa using ih

theorem file_words (p : Py) (f : List Str) (hf : fileWords p = some f) : f = (filesIn p).flatMap (fun x => [str "--param-file", x]) := by
  cases p with
  | none => simp [fileWords] at hf; subst hf; rfl
  | bool b => cases b <;> simp [fileWords] at hf; subst hf; rfl
  | str s =>
    simp only [fileWords, Option.some.injEq] at hf; subst hf
    by_cases hs : s = [] <;> simp [filesIn, hs]
  | list l => simp only [fileWords, Option.some.injEq] at hf; subst hf; rfl
  | other => simp [fileWords] at hf

theorem flag_words (o : Str) (p : Option Py) (x : List Str) (h : flagWords o p = some x) : x = if flagIn p then [o] else [] := by
  cases p with
  | none => simp [flagWords] at h; subst h; rfl
  | some p => cases p <;> simp [flagWords] at h; subst h; rfl

/-- The words of the entry with what the shell makes of them. -/
theorem entry_shell (e : Str × Table) (ros : Option Str) (hs : Simple e ros) (w : List Str) (h : entryWords e = some w) :
    ∃ l : List (Str × List Str), w = l.map (·.1) ∧ (∀ x ∈ l, Yields x.1 x.2) ∧ l.flatMap (·.2) = ctlWords (e.1, settingsIn e.2 ros) := by
  have ys : ∀ s : Str, Safe s → Yields s [s] := fun s h => yields_safe h
  have sf : ∀ s : String, s.toList ≠ [] ∧ (∀ c ∈ s.toList, c ≠ ' ' ∧ c ≠ '\t' ∧ c ≠ '\n' ∧ c ≠ '\'' ∧ c ≠ '"') → Safe (str s) := fun s h => h
  have o1 : Safe (str "--controller") := sf _ (by decide +kernel)
  have o2 : Safe (str "--param-file") := sf _ (by decide +kernel)
  have o3 : Safe (str "--load-only") := sf _ (by decide +kernel)
  have o4 : Safe (str "--inactive") := sf _ (by decide +kernel)
  have o5 : Safe (str "--controller-ros-args") := sf _ (by decide +kernel)
  simp only [entryWords, Option.bind_eq_bind, Option.bind_eq_some_iff, Option.pure_def, Option.some.injEq] at h
  obtain ⟨f, hf, l, hl, i, hi, r, hr, rfl⟩ := h
  -- files
  have F := file_words _ _ hf
  have L1 := flag_words _ _ _ hl
  have L2 := flag_words _ _ _ hi
  have R : ∃ lr : List (Str × List Str), r = lr.map (·.1) ∧ (∀ x ∈ lr, Yields x.1 x.2) ∧
      lr.flatMap (·.2) = wordsOf (rosSettings ros) := by
    rcases hs.rosArgs with ⟨h1, h2⟩ | ⟨t, h2, h1⟩
    · subst h2; rw [h1] at hr; simp [rosWords] at hr; subst hr; exact ⟨[], rfl, by simp, rfl⟩
    · subst h2
      rcases h1 with ⟨h1, h3, _⟩ | ⟨h1, h3, _⟩
      · rw [h1] at hr; simp only [rosWords, Option.some.injEq] at hr; subst hr
        refine ⟨[(_, [str "--controller-ros-args"]), (t, [t])], rfl, ?_, rfl⟩
        intro x hx
        simp only [List.mem_cons, List.not_mem_nil, or_false] at hx
        rcases hx with rfl | rfl
        · exact ys _ o5
        · exact ys _ h3
      · rw [h1] at hr; simp only [rosWords, Option.some.injEq] at hr; subst hr
        refine ⟨[(_, [str "--controller-ros-args"]), (quoted t, [t])], rfl, ?_, rfl⟩
        intro x hx
        simp only [List.mem_cons, List.not_mem_nil, or_false] at hx
        rcases hx with rfl | rfl
        · exact ys _ o5
        · exact yields_quoted h3
  obtain ⟨lr, r1, r2, r3⟩ := R
  refine ⟨[(str "--controller", [str "--controller"]), (e.1, [e.1])] ++ f.map (fun x => (x, [x])) ++ l.map (fun x => (x, [x])) ++
    i.map (fun x => (x, [x])) ++ lr, ?_, ?_, ?_⟩
  · simp [r1, List.map_map, Function.comp_def]
  · intro x hx
    simp only [List.mem_append, List.mem_cons, List.not_mem_nil, or_false, List.mem_map] at hx
    rcases hx with ((((rfl | rfl) | ⟨y, hy, rfl⟩) | ⟨y, hy, rfl⟩) | ⟨y, hy, rfl⟩) | hx
    · exact ys _ o1
    · exact ys _ hs.name.1
    · rw [F] at hy
      obtain ⟨z, hz, hy⟩ := List.mem_flatMap.mp hy
      simp only [List.mem_cons, List.not_mem_nil, or_false] at hy
      rcases hy with rfl | rfl
      · exact ys _ o2
      · exact ys _ (hs.files _ hz).1
    · rw [L1] at hy; split at hy <;> simp at hy; subst hy; exact ys _ o3
    · rw [L2] at hy; split at hy <;> simp at hy; subst hy; exact ys _ o4
    · exact r2 x hx
  · rw [List.flatMap_append, r3]
    simp only [List.flatMap_append, single, ctlWords, settingsIn, wordsOf]
    have W1 : (List.map (fun f => (⟨.paramFile, .spaced, f⟩ : Setting)) (filesIn e.2.paramFile)).flatMap Setting.words = f := by
      rw [F, List.flatMap_map]; rfl
    have W2 : (if flagIn e.2.loadOnly then [(⟨.loadOnly, .spaced, []⟩ : Setting)] else []).flatMap Setting.words = l := by
      rw [L1]; cases flagIn e.2.loadOnly <;> rfl
    have W3 : (if flagIn e.2.inactive then [(⟨.inactive, .spaced, []⟩ : Setting)] else []).flatMap Setting.words = i := by
      rw [L2]; cases flagIn e.2.inactive <;> rfl
    rw [W1, W2, W3]
    simp

/-- The types the description of the helper asks for (lu 160-173): a text, a list of texts or nothing (`False` counts as nothing) for the files, a truth value for each flag,
a text for the ROS arguments. -/
def Typed (t : Table) : Prop :=
  (t.paramFile = .none ∨ t.paramFile = .bool false ∨ (∃ s, t.paramFile = .str s) ∨ ∃ l, t.paramFile = .list l) ∧
    (∀ p, t.loadOnly = some p → ∃ b, p = .bool b) ∧ (∀ p, t.inactive = some p → ∃ b, p = .bool b) ∧ (∀ p, t.rosArgs = some p → ∃ s, p = .str s)

theorem typed_words (e : Str × Table) : (∃ w, entryWords e = some w) ↔ Typed e.2 := by
  obtain ⟨n, p, l, i, r⟩ := e
  simp only [entryWords, Option.bind_eq_bind, Option.pure_def, Typed]
  have hp : (∃ w, fileWords p = some w) ↔ (p = .none ∨ p = .bool false ∨ (∃ s, p = .str s) ∨ ∃ l, p = .list l) := by
    cases p with
    | bool b => cases b <;> simp [fileWords]
    | _ => simp [fileWords]
  have hfl : ∀ o x, (∃ w, flagWords o x = some w) ↔ ∀ p, x = some p → ∃ b, p = .bool b := by
    intro o x
    cases x with
    | none => simp [flagWords]
    | some x => cases x <;> simp [flagWords]
  have hr : (∃ w, rosWords r = some w) ↔ ∀ p, r = some p → ∃ s, p = .str s := by
    cases r with
    | none => simp [rosWords]
    | some x => cases x <;> simp [rosWords]
  rw [← hp, ← hfl (str "--load-only") l, ← hfl (str "--inactive") i, ← hr]
  cases fileWords p <;> cases flagWords (str "--load-only") l <;> cases flagWords (str "--inactive") i <;> cases rosWords r <;> simp

/-- **C73, types.** The helper raises an error exactly for the tables with a value of a wrong type. -/
theorem C73_launch_types (d : List (Str × Table)) (extra : List Str) : launchTable d extra = none ↔ ∃ e ∈ d, ¬ Typed e.2 := by
  induction d with
  | nil => simp [launchTable]
  | cons e t ih =>
    have hw := typed_words e
    have ex : (∃ x ∈ e :: t, ¬ Typed x.2) ↔ ¬ Typed e.2 ∨ ∃ x ∈ t, ¬ Typed x.2 := by simp only [List.mem_cons, exists_eq_or_imp]
    rw [ex, ← ih, ← hw]
    simp only [launchTable, Option.bind_eq_bind, Option.pure_def]
    cases entryWords e <;> cases launchTable t extra <;> simp

/-- What the table says about a controller; `ros`: the text of its ROS arguments. -/
def tableSays (e : Str × Table) (ros : Option Str) : Entry where
  name := e.1
  files := filesIn e.2.paramFile
  loadOnly := flagIn e.2.loadOnly
  inactive := flagIn e.2.inactive
  ros := ros.map (fun r => [r])

theorem table_shell (d : List ((Str × Table) × Option Str)) (hs : ∀ e ∈ d, Simple e.1 e.2) (extra args : List Str) (he : ∀ w ∈ extra, Safe w)
    (h : launchTable (d.map (·.1)) extra = some args) :
    ∃ l : List (Str × List Str), args = l.map (·.1) ∧ (∀ x ∈ l, Yields x.1 x.2) ∧
      l.flatMap (·.2) = d.flatMap (fun e => ctlWords (e.1.1, settingsIn e.1.2 e.2)) ++ extra := by
  induction d generalizing args with
  | nil =>
    simp only [List.map_nil, launchTable, Option.some.injEq] at h
    subst h
    refine ⟨extra.map (fun x => (x, [x])), by simp [Function.comp_def], ?_, by simp [single]⟩
    intro x hx
    obtain ⟨w, hw, rfl⟩ := List.mem_map.mp hx
    exact yields_safe (he w hw)
  | cons e t ih =>
    simp only [List.map_cons, launchTable, Option.bind_eq_bind, Option.bind_eq_some_iff, Option.pure_def, Option.some.injEq] at h
    obtain ⟨w, hw, t', ht, rfl⟩ := h
    obtain ⟨l1, a1, b1, c1⟩ := entry_shell e.1 e.2 (hs e (by simp)) w hw
    obtain ⟨l2, a2, b2, c2⟩ := ih (fun e he => hs e (by simp [he])) t' ht
    refine ⟨l1 ++ l2, by simp [a1, a2], ?_, by simp [c1, c2]⟩
    intro x hx
    rcases List.mem_append.mp hx with hx | hx
    · exact b1 x hx
    · exact b2 x hx

theorem entry_extra (n : Str) (a b : List Setting) (hb : ∀ x ∈ b, ctlKey x.key = false) : entrySays n (a ++ b) = entrySays n a := by
  rw [← says_filter_entry n (a ++ b), ← says_filter_entry n a, List.filter_append]
  have : b.filter (fun x => ctlKey x.key) = [] := by
    rw [List.filter_eq_nil_iff]; intro x hx; simp [hb x hx]
  rw [this, List.append_nil]

theorem settings_global (t : Table) (ros : Option Str) : (settingsIn t ros).filter (fun x => globalKey x.key) = [] := by
  rw [List.filter_eq_nil_iff]
  intro x hx
  simp only [settingsIn, List.mem_append, List.mem_map] at hx
  rcases hx with ((⟨y, hy, rfl⟩ | hx) | hx) | hx
  · simp [globalKey]
  · split at hx <;> simp at hx; subst hx; simp [globalKey]
  · split at hx <;> simp at hx; subst hx; simp [globalKey]
  · cases ros <;> simp [rosSettings] at hx; subst hx; simp [globalKey]

/-- An option about all controllers. -/
def aboutAll (k : Key) : Prop := k ≠ .paramFile ∧ k ≠ .loadOnly ∧ k ≠ .inactive ∧ k ≠ .rosArgs

/-- **C73, the helper with a table.** A launch description made from a table of the right types whose texts are simple spawns exactly the controllers of the
table, in its order, each with its own files (in order), flags and ROS arguments, and with the extra options about all controllers. (`_partial`: texts
the shell takes apart are not covered, see `C73_false_table`.) -/
theorem C73_launch_table_partial (fl : Str → Bool) (d : List ((Str × Table) × Option Str)) (hne : d ≠ []) (ht : ∀ e ∈ d, Typed e.1.2)
    (hs : ∀ e ∈ d, Simple e.1 e.2) (gs : List Setting) (hg : ∀ x ∈ gs, x.Ok fl ∧ aboutAll x.key ∧ ∀ w ∈ x.words, Safe w) :
    ∃ args, launchTable (d.map (·.1)) (wordsOf gs) = some args ∧
      spawnerArgs fl (shell args) = .ok (globalSays gs, d.map (fun e => tableSays e.1 e.2)) := by
  cases h : launchTable (d.map (·.1)) (wordsOf gs) with
  | none =>
    obtain ⟨e, he, hn⟩ := (C73_launch_types _ _).mp h
    obtain ⟨x, hx, rfl⟩ := List.mem_map.mp he
    exact absurd (ht x hx) hn
  | some args =>
    refine ⟨args, rfl, ?_⟩
    obtain ⟨l, rfl, hy, hl⟩ := table_shell d hs (wordsOf gs) args (by
      intro w hw
      obtain ⟨s, h1, h2⟩ := wordsOf_mem hw
      exact (hg s h1).2.2 w h2) h
    rw [shell_yields l hy, hl]
    obtain ⟨t, z, rfl⟩ : ∃ t z, d = t ++ [z] := ⟨d.dropLast, d.getLast hne, (List.dropLast_concat_getLast hne).symm⟩
    have hc : ∀ x ∈ gs, ctlKey x.key = false := by
      intro x hx
      obtain ⟨h1, h2, h3, h4⟩ := (hg x hx).2.1
      cases hk : x.key <;> simp_all [ctlKey]
    have key := C73_per_controller fl [] (t.map (fun e => (e.1.1, settingsIn e.1.2 e.2)) ++ [(z.1.1, settingsIn z.1.2 z.2 ++ gs)]) (by simp) (by simp) (by
      intro c hc
      rcases List.mem_append.mp hc with hc | hc
      · obtain ⟨e, he, rfl⟩ := List.mem_map.mp hc
        have := hs e (by simp [he])
        exact ⟨Or.inl this.name.2, settings_ok fl e.1 e.2 this⟩
      · simp only [List.mem_cons, List.not_mem_nil, or_false] at hc
        subst hc
        have := hs z (by simp)
        refine ⟨Or.inl this.name.2, ?_⟩
        intro x hx
        rcases List.mem_append.mp hx with hx | hx
        · exact settings_ok fl z.1 z.2 this x hx
        · exact (hg x hx).1)
    have e1 : lineFor [] (t.map (fun e => (e.1.1, settingsIn e.1.2 e.2)) ++ [(z.1.1, settingsIn z.1.2 z.2 ++ gs)]) =
        (t ++ [z]).flatMap (fun e => ctlWords (e.1.1, settingsIn e.1.2 e.2)) ++ wordsOf gs := by
      simp [lineFor, wordsOf, ctlWords, List.flatMap_map]
    rw [e1] at key
    rw [key]
    have e2 : globalSays ([] ++ List.flatMap (·.2) (t.map (fun e => (e.1.1, settingsIn e.1.2 e.2)) ++ [(z.1.1, settingsIn z.1.2 z.2 ++ gs)])) = globalSays gs := by
      rw [← says_filter_global, ← says_filter_global gs]
      congr 1
      simp only [List.nil_append, List.flatMap_append, List.filter_append, List.flatMap_cons, List.flatMap_nil, List.append_nil, settings_global]
      have : List.filter (fun x => globalKey x.key) (List.flatMap (·.2) (t.map (fun e => (e.1.1, settingsIn e.1.2 e.2)))) = [] := by
        rw [List.filter_eq_nil_iff]
        intro x hx
        obtain ⟨c, hc, hx⟩ := List.mem_flatMap.mp hx
        obtain ⟨e, he, rfl⟩ := List.mem_map.mp hc
        exact (List.filter_eq_nil_iff.mp (settings_global e.1.2 e.2)) x hx
      rw [this]; rfl
    rw [e2]
    simp only [List.map_append, List.map_map, List.map_cons, List.map_nil, entry_extra _ _ _ hc]
    simp only [Function.comp_def, entry_settings]
    rfl

theorem item_shell (a : LaunchArgs) (l : List Item) (f : Item → List Str) (h : ∀ i ∈ l, Yields (i.eval a) (f i)) :
    shell (l.map (Item.eval a)) = l.flatMap f := by
  have := shell_yields (l.map (fun i => (i.eval a, f i))) (by
    intro x hx
    obtain ⟨i, hi, rfl⟩ := List.mem_map.mp hx
    exact h i hi)
  simpa [List.map_map, Function.comp_def, List.flatMap_map] using this

/-- **C73, the helper with a list of names.** The launch description spawns the controllers of the list, all of them with all the files in their order
and the extra options, at the controller manager named by the launch argument, and unloads them when it is stopped exactly if the launch argument
`unload_on_kill` is the text `true`. (`_partial`: texts the shell takes apart are not covered; and see `C73_false_twice`.) -/
theorem C73_launch_names_partial (fl : Str → Bool) (a : LaunchArgs) (ns files : List Str) (extra : List Setting) (hne : ns ≠ [])
    (hn : ∀ n ∈ ns, Safe n ∧ n.head? ≠ some '-') (hm : Safe a.manager ∧ a.manager.head? ≠ some '-')
    (hf : ∀ f ∈ files, f = [] ∨ Safe f ∧ f.head? ≠ some '-') (hx : ∀ x ∈ extra, x.Ok fl ∧ ∀ w ∈ x.words, Safe w) :
    spawnerArgs fl (shell ((launchNames (ns.map .text) files ((wordsOf extra).map .text)).map (Item.eval a))) =
      .ok ({ globalSays extra with cm := ((given .cm extra).getLast?).getD a.manager, unload := a.unload = str "true" ∨ has .unload extra },
        ns.map (fun n => { entrySays n extra with files := files.filter (· ≠ []) ++ given .paramFile extra })) := by
  let S : List Setting := [⟨.cm, .spaced, a.manager⟩] ++ (files.filter (· ≠ [])).map (fun f => ⟨.paramFile, .spaced, f⟩) ++
    (if a.unload = str "true" then [⟨.unload, .spaced, []⟩] else []) ++ extra
  let f : Item → List Str := fun i => if i = .unloadFlag ∧ a.unload ≠ str "true" then [] else [i.eval a]
  have sf : ∀ s : String, s.toList ≠ [] ∧ (∀ c ∈ s.toList, c ≠ ' ' ∧ c ≠ '\t' ∧ c ≠ '\n' ∧ c ≠ '\'' ∧ c ≠ '"') → Safe (str s) := fun s h => h
  have ft : ∀ s, f (.text s) = [s] := fun s => by simp [f, Item.eval]
  have fm : f .managerName = [a.manager] := by simp [f, Item.eval]
  have ff : f .unloadFlag = if a.unload = str "true" then [str "--unload-on-kill"] else [] := by
    by_cases h : a.unload = str "true" <;> simp [f, Item.eval, h]
  have st : ∀ l : List Str, (l.map Item.text).flatMap f = l := by
    intro l; induction l with
    | nil => rfl
    | cons x t ih => simp [ft, ih]
  have sfl : ∀ l : List Str, (l.flatMap (fun x => [Item.text (str "--param-file"), Item.text x])).flatMap f =
      wordsOf (l.map (fun x => ⟨.paramFile, .spaced, x⟩)) := by
    intro l; induction l with
    | nil => rfl
    | cons x t ih =>
      simp only [List.flatMap_cons, List.flatMap_append, ih, ft, List.flatMap_nil, List.append_nil, wordsOf, List.map_cons]
      rfl
  have hsh : shell ((launchNames (ns.map .text) files ((wordsOf extra).map .text)).map (Item.eval a)) = lineAll [] ns S := by
    rw [item_shell a _ f]
    · simp only [launchNames, List.flatMap_append, List.flatMap_cons, List.flatMap_nil, st, ft, fm, ff, sfl, List.append_nil]
      have : wordsOf S = [str "--controller-manager", a.manager] ++ wordsOf ((files.filter (· ≠ [])).map (fun f => ⟨.paramFile, .spaced, f⟩)) ++
          (if a.unload = str "true" then [str "--unload-on-kill"] else []) ++ wordsOf extra := by
        simp only [S, wordsOf, List.flatMap_append]
        by_cases h : a.unload = str "true" <;> simp only [h, if_true, if_false] <;> rfl
      rw [lineAll, this]
      simp [wordsOf]
    · intro i hi
      simp only [launchNames, List.mem_append, List.mem_map, List.mem_cons, List.not_mem_nil, or_false, List.mem_flatMap] at hi
      rcases hi with (((⟨n, h, rfl⟩ | rfl | rfl) | ⟨z, h, rfl | rfl⟩) | rfl) | ⟨w, h, rfl⟩
      · rw [ft]; exact yields_safe (hn n h).1
      · rw [ft]; exact yields_safe (sf _ (by decide +kernel))
      · rw [fm]; exact yields_safe hm.1
      · rw [ft]; exact yields_safe (sf _ (by decide +kernel))
      · rw [ft]
        have h := List.mem_filter.mp h
        rcases hf z h.1 with e | e
        · simp [e] at h
        · exact yields_safe e.1
      · rw [ff]
        by_cases h : a.unload = str "true"
        · simp only [Item.eval, h, if_true]; exact yields_safe (sf _ (by decide +kernel))
        · simp only [Item.eval, h, if_false]; exact yields_empty
      · rw [ft]
        obtain ⟨s, h1, h2⟩ := wordsOf_mem h
        exact yields_safe ((hx s h1).2 w h2)
  rw [hsh, C73_all_alike_partial fl [] ns S hne (fun n h => Or.inl (hn n h).2) (by simp)]
  · have gf : ∀ (k : Key) (l : List Str), given k (l.map (fun f => (⟨.paramFile, .spaced, f⟩ : Setting))) = if k = .paramFile then l else [] := by
      intro k l
      by_cases hk : k = .paramFile
      · subst hk; induction l <;> simp_all [given]
      · have : ∀ x ∈ l.map (fun f => (⟨.paramFile, .spaced, f⟩ : Setting)), ¬ x.key = k := by
          intro x hx; obtain ⟨f, _, rfl⟩ := List.mem_map.mp hx; exact Ne.symm hk
        simp only [given, hk, if_false, List.map_eq_nil_iff, List.filter_eq_nil_iff]
        intro x hx; simpa using this x hx
    have hfm : ∀ (k : Key) (l : List Str), k ≠ .paramFile → has k (l.map (fun f => (⟨.paramFile, .spaced, f⟩ : Setting))) = false := by
      intro k l hk
      simp only [has, List.any_eq_false]
      intro x hx; obtain ⟨f, _, rfl⟩ := List.mem_map.mp hx; simpa using Ne.symm hk
    have gu : ∀ k, given k (if a.unload = str "true" then [(⟨.unload, .spaced, []⟩ : Setting)] else []) = if k = .unload ∧ a.unload = str "true" then [[]] else [] := by
      intro k
      by_cases h : a.unload = str "true" <;> cases k <;> simp [given, h]
    have hu : ∀ k, has k (if a.unload = str "true" then [(⟨.unload, .spaced, []⟩ : Setting)] else []) = decide (k = .unload ∧ a.unload = str "true") := by
      intro k
      by_cases h : a.unload = str "true" <;> cases k <;> simp [has, h]
    have g1 : ∀ k, given k [(⟨.cm, .spaced, a.manager⟩ : Setting)] = if k = .cm then [a.manager] else [] := by
      intro k; cases k <;> simp [given]
    have h1 : ∀ k, has k [(⟨.cm, .spaced, a.manager⟩ : Setting)] = decide (k = .cm) := by
      intro k; cases k <;> simp [has]
    have fa : S.filter (fun s => s.key = .asap ∨ s.key = .noAsap) = extra.filter (fun s => s.key = .asap ∨ s.key = .noAsap) := by
      simp only [S, List.filter_append]
      have q1 : ((files.filter (· ≠ [])).map (fun f => (⟨.paramFile, .spaced, f⟩ : Setting))).filter (fun s => s.key = .asap ∨ s.key = .noAsap) = [] := by
        rw [List.filter_eq_nil_iff]; intro x hx; obtain ⟨f, _, rfl⟩ := List.mem_map.mp hx; simp
      have q2 : (if a.unload = str "true" then [(⟨.unload, .spaced, []⟩ : Setting)] else []).filter (fun s => s.key = .asap ∨ s.key = .noAsap) = [] := by
        by_cases h : a.unload = str "true" <;> simp [h]
      rw [q1, q2]; simp
    have G : ∀ k, given k S = (if k = .cm then [a.manager] else []) ++ (if k = .paramFile then files.filter (· ≠ []) else []) ++
        (if k = .unload ∧ a.unload = str "true" then [[]] else []) ++ given k extra := by
      intro k; simp only [S, given_append, g1, gf, gu]
    have H : ∀ k, k ≠ .paramFile → has k S = (decide (k = .cm) || decide (k = .unload ∧ a.unload = str "true") || has k extra) := by
      intro k hk; simp only [S, has_append, h1, hfm k _ hk, hu, Bool.or_false]
    have E : ∀ n, entrySays n S = { entrySays n extra with files := files.filter (· ≠ []) ++ given .paramFile extra } := by
      intro n
      simp [entrySays, G, H]
    have M : globalSays S = { globalSays extra with cm := ((given .cm extra).getLast?).getD a.manager, unload := a.unload = str "true" ∨ has .unload extra } := by
      simp only [globalSays, fa, G, H _ (by decide : Key.group ≠ .paramFile), H _ (by decide : Key.unload ≠ .paramFile)]
      congr 1
      · simp only [reduceCtorEq, if_true, if_false, List.append_nil, false_and, List.getLast?_append]
        cases (given .cm extra).getLast? <;> simp
      · simp
    simp only [List.nil_append, E, M]
  · intro x h
    simp only [S, List.mem_append, List.mem_cons, List.not_mem_nil, or_false, List.mem_map] at h
    rcases h with ((rfl | ⟨z, h, rfl⟩) | h) | h
    · exact ⟨by simp, by simp, fun _ _ => Or.inl hm.2, fun h => by simp [isTime] at h⟩
    · have h := List.mem_filter.mp h
      rcases hf z h.1 with e | e
      · simp [e] at h
      · exact ⟨by simp, by simp, fun _ _ => Or.inl e.2, fun h => by simp [isTime] at h⟩
    · split at h <;> simp at h
      subst h; exact ⟨by decide, by decide, fun h => by simp [takesValue] at h, fun h => by simp [isTime] at h⟩
    · exact (hx x h).1

/-- A table of two controllers, one with two files and quoted ROS arguments, the other inactive; the extra options are about all: the hypotheses are met. -/
example :
    let fl : Str → Bool := fun s => s.all Char.isDigit
    let d : List (Str × Table) := [(str "a", { paramFile := .list [str "f", str "g"], rosArgs := some (.str (str "'-r x:=y'")) }),
      (str "b", { inactive := some (.bool true), loadOnly := some (.bool false) })]
    ∃ args, launchTable d [str "--switch-timeout", str "7"] = some args ∧
      spawnerArgs fl (shell args) =
        .ok ({ switchTimeout := some (str "7") },
          [{ name := str "a", files := [str "f", str "g"], ros := some [str "-r x:=y"] }, { name := str "b", inactive := true }]) := by
  intro fl d
  have safe : ∀ s : String, s.toList ≠ [] ∧ (∀ c ∈ s.toList, c ≠ ' ' ∧ c ≠ '\t' ∧ c ≠ '\n' ∧ c ≠ '\'' ∧ c ≠ '"') → Safe (str s) := fun s h => h
  have key := C73_launch_table_partial fl
    [((str "a", { paramFile := .list [str "f", str "g"], rosArgs := some (.str (str "'-r x:=y'")) }), some (str "-r x:=y")),
      ((str "b", { inactive := some (.bool true), loadOnly := some (.bool false) }), none)] (by simp)
    (by
      intro e he
      simp only [List.mem_cons, List.not_mem_nil, or_false] at he
      rcases he with rfl | rfl <;> simp [Typed])
    (by
      intro e he
      simp only [List.mem_cons, List.not_mem_nil, or_false] at he
      rcases he with rfl | rfl
      · refine ⟨⟨safe _ (by decide +kernel), by decide +kernel⟩, ?_, Or.inr ⟨_, rfl, Or.inr ⟨by decide +kernel, by decide +kernel, Or.inr ⟨⟨str "-r", str "x:=y", by decide +kernel, by decide +kernel⟩, by decide +kernel⟩⟩⟩⟩
        intro f hf
        simp only [filesIn, List.mem_cons, List.not_mem_nil, or_false] at hf
        rcases hf with rfl | rfl <;> exact ⟨safe _ (by decide +kernel), by decide +kernel⟩
      · exact ⟨⟨safe _ (by decide +kernel), by decide +kernel⟩, by simp [filesIn], Or.inl ⟨rfl, rfl⟩⟩)
    [⟨.switchTimeout, .spaced, str "7"⟩]
    (by
      intro x hx
      simp only [List.mem_cons, List.not_mem_nil, or_false] at hx
      subst hx
      refine ⟨⟨by decide, by decide, fun _ _ => Or.inl (by decide +kernel), fun _ => by decide +kernel⟩, by simp [aboutAll], ?_⟩
      intro w hw
      have : w = str "--switch-timeout" ∨ w = str "7" := by simpa [Setting.words, takesValue, longName] using hw
      rcases this with rfl | rfl <;> exact safe _ (by decide +kernel))
  obtain ⟨args, h1, h2⟩ := key
  exact ⟨args, h1, h2.trans (congrArg Except.ok (by decide +kernel))⟩

/-- Two controllers with one file, `unload_on_kill:=true` and an extra option. -/
example :
    spawnerArgs (fun _ => true) (shell ((launchNames ([str "a", str "b"].map .text) [str "f", []] ([str "--load-only"].map .text)).map
      (Item.eval { manager := str "/cm", unload := str "true" }))) =
      .ok ({ cm := str "/cm", unload := true }, [{ name := str "a", files := [str "f"], loadOnly := true }, { name := str "b", files := [str "f"], loadOnly := true }]) := by
  have safe : ∀ s : String, s.toList ≠ [] ∧ (∀ c ∈ s.toList, c ≠ ' ' ∧ c ≠ '\t' ∧ c ≠ '\n' ∧ c ≠ '\'' ∧ c ≠ '"') → Safe (str s) := fun s h => h
  have key := C73_launch_names_partial (fun _ => true) { manager := str "/cm", unload := str "true" } [str "a", str "b"] [str "f", []]
    [⟨.loadOnly, .spaced, []⟩] (by simp)
    (by
      intro n hn
      simp only [List.mem_cons, List.not_mem_nil, or_false] at hn
      rcases hn with rfl | rfl <;> exact ⟨safe _ (by decide +kernel), by decide +kernel⟩)
    ⟨safe _ (by decide +kernel), by decide +kernel⟩
    (by
      intro n hn
      simp only [List.mem_cons, List.not_mem_nil, or_false] at hn
      rcases hn with rfl | rfl
      · exact Or.inr ⟨safe _ (by decide +kernel), by decide +kernel⟩
      · exact Or.inl rfl)
    (by
      intro x hx
      simp only [List.mem_cons, List.not_mem_nil, or_false] at hx
      subst hx
      refine ⟨⟨by decide, by decide, fun h => by simp [takesValue] at h, fun h => by simp [isTime] at h⟩, ?_⟩
      intro w hw
      have : w = str "--load-only" := by simpa [Setting.words, takesValue, longName] using hw
      subst this; exact safe _ (by decide +kernel))
  exact key.trans (congrArg Except.ok (by decide +kernel))

/-- **C73, the helper with a dictionary of files.** The names are the keys, in order; the files are all files of all entries, in order: every controller is
given the files of the others too. -/
theorem C73_launch_dict (d : List (Str × Py)) (ns fs : List Str) (h : launchDict d = some (ns, fs)) :
    ns = d.map (·.1) ∧ fs = d.flatMap (fun e => filesIn e.2) := by
  induction d generalizing ns fs with
  | nil => simp only [launchDict, Option.some.injEq, Prod.mk.injEq] at h; simp [h.1.symm, h.2.symm]
  | cons e t ih =>
    obtain ⟨n, v⟩ := e
    simp only [launchDict, Option.bind_eq_bind, Option.bind_eq_some_iff, Option.pure_def, Option.some.injEq] at h
    obtain ⟨⟨ns', fs'⟩, h1, f, h2, h3⟩ := h
    obtain ⟨rfl, rfl⟩ := ih _ _ h1
    simp only [Prod.mk.injEq] at h3
    obtain ⟨rfl, rfl⟩ := h3
    refine ⟨rfl, ?_⟩
    rw [List.flatMap_cons]
    congr 1
    cases v with
    | bool b => cases b <;> simp_all [filesIn]
    | other => simp at h2
    | str s => simp only [Option.some.injEq] at h2; rw [← h2]; rfl
    | _ => simp_all [filesIn]

example : launchDict [(str "a", .str (str "f")), (str "b", .none), (str "c", .list [str "g", str "f"])] =
    some ([str "a", str "b", str "c"], [str "f", str "g", str "f"]) := by decide +kernel

/-! ## What is false -/

/-- On a line with `--controller` what the spawner does not understand is dropped: with a typing error in `--inactive` the controller is activated. -/
theorem C73_false_typo (fl : Str → Bool) :
    spawnerArgs fl [str "--controller", str "a", str "--in-active"] = .ok ({}, [{ name := str "a", inactive := false }]) :=
  congrArg Except.ok (by decide +kernel : (({}, [{ name := str "a" }]) : Global × List Entry) = _)

/-- ... and the options for controllers before the first `--controller` are dropped. -/
theorem C73_false_before (fl : Str → Bool) :
    spawnerArgs fl [str "--inactive", str "-p", str "f", str "--controller", str "a"] = .ok ({}, [{ name := str "a" }]) :=
  congrArg Except.ok (by decide +kernel : (({}, [{ name := str "a" }]) : Global × List Entry) = _)

/-- ... and names before the first `--controller`, too: `spawner a --controller b` never spawns `a`. -/
theorem C73_false_name (fl : Str → Bool) : spawnerArgs fl [str "a", str "--controller", str "b"] = .ok ({}, [{ name := str "b" }]) :=
  congrArg Except.ok (by decide +kernel : (({}, [{ name := str "b" }]) : Global × List Entry) = _)

/-- `--controller=b` after `--controller a` is taken for an abbreviation of `--controller-ros-args`: `b` is not spawned, it becomes a ROS argument of `a`. -/
theorem C73_false_equals (fl : Str → Bool) :
    spawnerArgs fl [str "--controller", str "a", str "--controller=b"] = .ok ({}, [{ name := str "a", ros := some [str "b"] }]) :=
  congrArg Except.ok (by decide +kernel : (({}, [{ name := str "a", ros := some [str "b"] }]) : Global × List Entry) = _)

/-- Quoted ROS arguments that begin with one of the spawner's short options are refused. -/
theorem C73_false_short (fl : Str → Bool) : spawnerArgs fl [str "a", str "--controller-ros-args", str "-p x:=1"] = .error .error := rfl

/-- The unquoted ROS arguments of the migration notes (doc/migration.rst:114-124) are refused. -/
theorem C73_false_documented (fl : Str → Bool) :
    spawnerArgs fl [str "a", str "--controller-ros-args", str "--remap", str "/cmd:=/other"] = .error .error := rfl

/-- A table with ROS arguments as its description asks for (a text) ends with an error: the shell takes the text apart. -/
theorem C73_false_table (fl : Str → Bool) : ∃ args,
    launchTable [(str "a", { rosArgs := some (.str (str "-r x:=y")) })] [] = some args ∧ spawnerArgs fl (shell args) = .error .error :=
  ⟨_, rfl, rfl⟩

/-- A caller that uses one list of names for two launch descriptions gets the files of the first one in the second one, too: the helper appends to the
list of the caller. -/
theorem C73_false_twice (fl : Str → Bool) :
    let names := launchNames [.text (str "a")] [str "f"] []
    spawnerArgs fl (shell ((launchNames names [str "g"] []).map (Item.eval {}))) = .ok ({}, [{ name := str "a", files := [str "f", str "g"] }]) :=
  congrArg Except.ok (by decide +kernel : (({}, [{ name := str "a", files := [str "f", str "g"] }]) : Global × List Entry) = _)

end Verif.Argv
