import Verif.Params.Lemmas

/-!
# C70 A spawned controller gets the parameter files meant for it

Full property: of the files on the command line the controller's node gets exactly those with a section for the controller, each once, in the order
given (so that a later file overrides an earlier one); its type and its fallback controllers are what these files say, under the same rule; and
nothing else: what an earlier spawner left behind does not matter.

The theorems below prove the parts that hold; the parts that do not hold of the code are stated (`Forwards`, `Overrides`, `OwnFiles`, `Arrives`) and
refuted by concrete runs.
-/
namespace Verif.Params

/-! ## Which files are forwarded -/

/-- The intended rule: of the files given, those with a section for the controller, each once, in the order of the command line. -/
def Chosen (fs : Files) (name ns : String) (files l : List String) : Prop :=
  (∀ f, f ∈ l ↔ f ∈ files ∧ ∃ p, fs f = some p ∧ Addresses name ns p) ∧ l.Pairwise (fun f g => files.idxOf f < files.idxOf g)

/-- The full statement: it holds for all files whose documents are mappings. -/
def Forwards : Prop := ∀ fs name ns files, (∀ f ∈ files, ∃ p, fs f = some p ∧ Mapping p) →
  ∃ l, filesFor fs name ns files = .ok l ∧ Chosen fs name ns files l

/-- **C70 (which files).** The files forwarded are exactly those with a section for the controller, each once, in the order given, if no file has a
section under the bare name of a controller that lives in a namespace. Missing: that case (`C70_bare`, `C70_forwards_false`). -/
theorem C70_files_partial (fs : Files) (name ns : String) (files : List String)
    (h : ∀ f ∈ files, ∃ p, fs f = some p ∧ Mapping p ∧ ¬ Bare name ns p) :
    ∃ l, filesFor fs name ns files = .ok l ∧ Chosen fs name ns files l := by
  refine filesLoop_spec fs name ns (fun f => ∃ p, fs f = some p ∧ Addresses name ns p) files files [] [] rfl (fun f hf => ?_) (by simp)
    List.Pairwise.nil
  obtain ⟨p, hp, hm, hb⟩ := h f hf
  obtain ⟨b, h1, h2⟩ := uses_addresses hm name ns hb
  refine ⟨p, b, hp, h1, h2.trans ⟨fun h => ⟨p, hp, h⟩, ?_⟩⟩
  rintro ⟨p', hp', h'⟩
  rw [hp] at hp'; cases hp'; exact h'

/-- **C70 (a bare name hides the whole file).** In a namespace a file with a section under the bare name of the controller is not forwarded, whatever
else is in it — also if it has a section under the full name. -/
theorem C70_bare (fs : Files) (name ns : String) (files : List String) (h : ∀ f ∈ files, ∃ p, fs f = some p ∧ Mapping p) :
    ∃ l, filesFor fs name ns files = .ok l ∧ ∀ f ∈ l, ∃ p, fs f = some p ∧ ¬ Bare name ns p ∧ Addresses name ns p := by
  obtain ⟨l, h1, h2, -⟩ := filesLoop_spec fs name ns (fun f => ∃ p, fs f = some p ∧ ¬ Bare name ns p ∧ Addresses name ns p) files files [] [] rfl
    (fun f hf => by
      obtain ⟨p, hp, hm⟩ := h f hf
      by_cases hb : Bare name ns p
      · refine ⟨p, false, hp, uses_bare hm name ns hb, by simp, ?_⟩
        rintro ⟨p', hp', h', -⟩
        rw [hp] at hp'; cases hp'; exact absurd hb h'
      · obtain ⟨b, h1, h2⟩ := uses_addresses hm name ns hb
        refine ⟨p, b, hp, h1, h2.trans ⟨fun h => ⟨p, hp, hb, h⟩, ?_⟩⟩
        rintro ⟨p', hp', -, h'⟩
        rw [hp] at hp'; cases hp'; exact h') (by simp) List.Pairwise.nil
  exact ⟨l, h1, fun f hf => ((h2 f).1 hf).2⟩

/-! ## Which value -/

/-- A document the lookup can rely on. -/
def Good (name ns : String) (p : Y) : Prop := Valid name ns p ∧ ¬ Bare name ns p ∧ Plain name ns p

/-- The intended rule for a parameter: the last file that says something about it decides. -/
def Overrides : Prop := ∀ fs name ns q pre f p v post, (∀ g ∈ pre ++ f :: post, ∃ d, fs g = some d ∧ Good name ns d) → fs f = some p →
  (∀ w, Says name ns q p w ↔ w = v) → (∀ g ∈ post, ∀ d, fs g = some d → ∀ w, ¬ Says name ns q d w) →
  paramFrom fs name ns q (pre ++ f :: post) = .ok (some v)

theorem paramFrom_cons {fs : Files} {f : String} {p : Y} (hf : fs f = some p) {name ns q : String} {r : Option Y} (hr : findIn name ns q p = .ok r)
    (t : List String) : paramFrom fs name ns q (f :: t) = (r.elim (paramFrom fs name ns q t) (fun v => .ok (some v))) := by
  have hl : load fs f = .ok p := by unfold load; rw [hf]
  rw [paramFrom, hl]
  simp only [bind, Except.bind]
  rw [hr]
  cases r <;> rfl

/-- **C70 (the first file decides).** The value of `type` or `fallback_controllers` handed to the controller manager is one that the first file with
such a value gives; the files after it do not matter. -/
theorem C70_first_file (fs : Files) (name ns q : String) (pre : List String) (f : String) (p : Y) (post : List String) (v : Y)
    (hpre : ∀ g ∈ pre, ∃ d, fs g = some d ∧ Good name ns d ∧ ∀ w, ¬ Says name ns q d w) (hf : fs f = some p) (hg : Good name ns p)
    (hs : Says name ns q p v) : ∃ w, paramFrom fs name ns q (pre ++ f :: post) = .ok (some w) ∧ Says name ns q p w := by
  induction pre with
  | nil =>
    obtain ⟨r, h1, h2, h3⟩ := findIn_spec hg.1 hg.2.1 q
    rw [List.nil_append, paramFrom_cons hf h1]
    cases r with
    | none =>
      obtain ⟨k, hk, s, hs1, hs2⟩ := says_sel hg.2.2 hs
      have := h3 rfl k hk s hs1
      rw [Silent, hs2] at this; cases this
    | some w =>
      refine ⟨w, rfl, ?_⟩
      obtain ⟨k, hk, s, hs1, hs2⟩ := h2 w rfl
      exact sel_says hg.2.1 hk hs1 hs2
  | cons g pre ih =>
    obtain ⟨w, h1, h2⟩ := ih (fun x hx => hpre x (by simp [hx]))
    refine ⟨w, ?_, h2⟩
    obtain ⟨d, hd, hgd, hsd⟩ := hpre g (by simp)
    obtain ⟨r, k1, k2, -⟩ := findIn_spec hgd.1 hgd.2.1 q
    have hr : r = none := by
      cases r with
      | none => rfl
      | some x =>
        obtain ⟨k, hk, s, hs1, hs2⟩ := k2 x rfl
        exact absurd (sel_says hgd.2.1 hk hs1 hs2) (hsd x)
    subst hr
    rw [List.cons_append, paramFrom_cons hd k1]
    exact h1

/-- **C70 (the value).** If all sections for the controller that say something about the parameter, in all the files, say the same, then that is the
value. Missing: the rule for files that differ (`C70_overrides_false`). -/
theorem C70_value_partial (fs : Files) (name ns q : String) (files : List String) (v : Y)
    (h : ∀ f ∈ files, ∃ p, fs f = some p ∧ Good name ns p ∧ ∀ w, Says name ns q p w → w = v)
    (hs : ∃ f ∈ files, ∃ p, fs f = some p ∧ Says name ns q p v) : paramFrom fs name ns q files = .ok (some v) := by
  classical
  obtain ⟨f, hf, p, hp, hv⟩ := hs
  obtain ⟨pre, g, post, e, hpre, hg⟩ : ∃ pre g post, files = pre ++ g :: post ∧ (∀ x ∈ pre, ∀ d, fs x = some d → ∀ w, ¬ Says name ns q d w) ∧
      ∃ d w, fs g = some d ∧ Says name ns q d w := by
    clear h
    induction files with
    | nil => cases hf
    | cons a t ih =>
      by_cases ha : ∃ d w, fs a = some d ∧ Says name ns q d w
      · exact ⟨[], a, t, rfl, by simp, ha⟩
      · have hft : f ∈ t := by
          rcases List.mem_cons.1 hf with rfl | hf
          · exact absurd ⟨p, v, hp, hv⟩ ha
          · exact hf
        obtain ⟨pre, g, post, e, h1, h2⟩ := ih hft
        refine ⟨a :: pre, g, post, by rw [e]; rfl, fun x hx d hd w hw => ?_, h2⟩
        rcases List.mem_cons.1 hx with rfl | hx
        · exact ha ⟨d, w, hd, hw⟩
        · exact h1 x hx d hd w hw
  obtain ⟨d, w, hd, hw⟩ := hg
  obtain ⟨d', hd', hgood, huniq⟩ := h g (by rw [e]; simp)
  rw [hd] at hd'; cases hd'
  obtain ⟨x, h1, h2⟩ := C70_first_file fs name ns q pre g d post w (fun y hy => by
    obtain ⟨dy, k1, k2, -⟩ := h y (by rw [e]; simp [hy])
    exact ⟨dy, k1, k2, hpre y hy dy k1⟩) hd hgood hw
  rw [e, h1, huniq x h2]

/-- **C70 (nothing invented).** If no section says anything about the parameter none is found. -/
theorem C70_value_none (fs : Files) (name ns q : String) (files : List String)
    (h : ∀ f ∈ files, ∃ p, fs f = some p ∧ Valid name ns p ∧ (¬ Bare name ns p → ∀ w, ¬ Says name ns q p w)) :
    paramFrom fs name ns q files = .ok none := by
  induction files with
  | nil => rfl
  | cons f t ih =>
    obtain ⟨p, hp, hv, hn⟩ := h f (by simp)
    have hfind : findIn name ns q p = .ok none := by
      by_cases hb : Bare name ns p
      · exact findIn_bare hv.1 hb q
      · obtain ⟨r, k1, k2, -⟩ := findIn_spec hv hb q
        cases r with
        | none => exact k1
        | some x =>
          obtain ⟨k, hk, s, hs1, hs2⟩ := k2 x rfl
          exact absurd (sel_says hb hk hs1 hs2) (hn hb x)
    rw [paramFrom_cons hp hfind]
    exact ih (fun g hg => h g (by simp [hg]))

/-! ## The arguments of the node -/

/-- The full statement: what the node reads is its own arguments, then the files, then `use_sim_time`, then the arguments of the spawner. -/
def Arrives (custom : List String) (g : Given) (sim : Bool) : Prop :=
  ∃ m, (m = .plain ∨ m = .ros) ∧ (readArgs .plain (nodeArgs custom g sim)).2 =
    (readArgs .plain custom).2 ++ g.files.map .file ++ (if sim then [.param "use_sim_time:=true"] else []) ++ (readArgs m g.rosArgs).2 ∧
    ("--ros-args" ∉ g.rosArgs ∨ g.files ≠ [] ∨ sim = true → m = .ros)

/-- **C70 (the node's arguments).** A node that reads its arguments as ROS nodes do gets the files in order, after its own custom arguments and before
`use_sim_time` and the arguments of the spawner, provided the custom arguments do not end outside of ROS arguments after `--ros-args`. Missing: that
case (`C70_custom_closed`). -/
theorem C70_node_args_partial (custom : List String) (g : Given) (sim : Bool) (hc : Open custom) : Arrives custom g sim := by
  obtain ⟨h1, h2, h3⟩ := addFiles_mode g.files custom hc
  have hb : ∃ b, Open b ∧ (readArgs .plain b).2 = (readArgs .plain custom).2 ++ g.files.map .file ++ (if sim then [.param "use_sim_time:=true"] else []) ∧
      (g.files ≠ [] ∨ sim = true → (readArgs .plain b).1 = .ros) ∧
      nodeArgs custom g sim = (if !g.rosArgs.isEmpty && !("--ros-args" ∈ g.rosArgs : Bool) then b ++ ["--ros-args"] else b) ++ g.rosArgs := by
    cases sim with
    | false => exact ⟨_, h1, by rw [h2]; simp, by simpa using h3, rfl⟩
    | true =>
      obtain ⟨k1, k2⟩ := withRos_mode _ h1
      have e : readArgs .plain (withRos (g.files.foldl (fun l f => withRos l ++ ["--params-file", f]) custom) ++ ["-p", "use_sim_time:=true"]) =
          (.ros, (readArgs .plain custom).2 ++ g.files.map .file ++ [.param "use_sim_time:=true"]) := by
        rw [readArgs_append, k2, h2]; rfl
      exact ⟨withRos (g.files.foldl (fun l f => withRos l ++ ["--params-file", f]) custom) ++ ["-p", "use_sim_time:=true"],
        fun _ => by rw [e], by rw [e]; rfl, fun _ => by rw [e], rfl⟩
  obtain ⟨b, ho, hi, hm, he⟩ := hb
  have hmode : (readArgs .plain b).1 = .plain ∨ (readArgs .plain b).1 = .ros := by
    by_cases hr : "--ros-args" ∈ b
    · exact .inr (ho hr)
    · exact .inl (by rw [plain_stays b hr])
  rw [Arrives, he]
  split
  · rename_i hx
    have hros : readArgs .plain (b ++ ["--ros-args"]) = (.ros, (readArgs .plain b).2) := by
      rw [readArgs_append]
      rcases hmode with hmode | hmode <;> rw [hmode] <;> simp [readArgs, readArg]
    exact ⟨.ros, .inr rfl, by rw [readArgs_append, hros, hi], fun _ => rfl⟩
  · rename_i hx
    by_cases hempty : g.rosArgs = []
    · refine ⟨.ros, .inr rfl, ?_, fun _ => rfl⟩
      rw [readArgs_append, hempty, hi]; simp [readArgs]
    · refine ⟨_, hmode, by rw [readArgs_append, hi], ?_⟩
      rintro (h | h)
      · exfalso; apply hx; simp [hempty, h]
      · exact hm h

/-! ## What is stored on the controller manager -/

theorem setFromFiles_files (fs : Files) (acc : Nat → Bool) (name ns : String) (files : List String) (s : Stored) :
    (setFromFiles fs acc name ns files s).1.files =
      (match filesFor fs name ns files with
        | .ok l => if l ≠ [] ∧ acc 1 = true then some l else s.files
        | .error _ => s.files) := by
  unfold setFromFiles
  cases filesFor fs name ns files with
  | error e => rfl
  | ok l =>
    dsimp only
    cases l with
    | nil => simp
    | cons a t =>
      simp only [List.isEmpty_cons, Bool.false_eq_true, if_false, ne_eq, reduceCtorEq, not_false_eq_true, true_and]
      cases paramFrom fs name ns "type" (a :: t) with
      | error e => dsimp only; split <;> rfl
      | ok x =>
        dsimp only
        have h2 : (if (wanted x).isSome = true then { (if acc 1 = true then { s with files := some (a :: t) } else s) with type := wanted x }
            else (if acc 1 = true then { s with files := some (a :: t) } else s)).files = if acc 1 = true then some (a :: t) else s.files := by
          cases acc 1 <;> split <;> rfl
        split
        · dsimp only; split <;> rfl
        · cases paramFrom fs name ns "fallback_controllers" (a :: t) with
          | error e => exact h2
          | ok y =>
            dsimp only
            split
            · exact h2
            · dsimp only
              split
              · exact h2
              · exact h2

theorem setFromFiles_rosArgs (fs : Files) (acc : Nat → Bool) (name ns : String) (files : List String) (s : Stored) :
    (setFromFiles fs acc name ns files s).1.rosArgs = s.rosArgs := by
  unfold setFromFiles
  cases filesFor fs name ns files with
  | error e => rfl
  | ok l =>
    dsimp only
    split
    · rfl
    have h1 : (if acc 1 = true then { s with files := some l } else s).rosArgs = s.rosArgs := by split <;> rfl
    generalize (if acc 1 = true then { s with files := some l } else s) = s1 at *
    cases paramFrom fs name ns "type" l with
    | error e => exact h1
    | ok x =>
      dsimp only
      split
      · exact h1
      have h2 : (if (wanted x).isSome = true then { s1 with type := wanted x } else s1).rosArgs = s.rosArgs := by split <;> exact h1
      generalize (if (wanted x).isSome = true then { s1 with type := wanted x } else s1) = s2 at *
      cases paramFrom fs name ns "fallback_controllers" l with
      | error e => exact h2
      | ok y =>
        dsimp only
        split
        · exact h2
        · dsimp only; split <;> exact h2

theorem given_ok {fs : Files} {c : Cmd} {l : List String} (h : given fs c = .ok l) :
    ∃ r, rosFiles c.argv = .ok r ∧ l = appendUnique c.files r ∧ ∀ f ∈ l, (fs f).isSome = true := by
  unfold given at h
  cases hr : rosFiles c.argv with
  | error e => rw [hr] at h; cases h
  | ok r =>
    rw [hr] at h
    change (if (appendUnique c.files r).all (fun f => (fs f).isSome) = true then Except.ok (appendUnique c.files r) else _) = _ at h
    split at h
    · rename_i ha
      cases h
      exact ⟨r, rfl, rfl, by simpa using ha⟩
    · cases h

theorem prepare_files (fs : Files) (acc : Nat → Bool) (ns : String) (c : Cmd) (s : Stored) (l : List String) (hl : given fs c = .ok l)
    (h0 : c.rosArgs = [] ∨ acc 0 = true) :
    (prepare fs acc ns c s).1.files =
      (match filesFor fs c.name ns l with
        | .ok l => if l ≠ [] ∧ acc 1 = true then some l else s.files
        | .error _ => s.files) ∧
    (prepare fs acc ns c s).1.rosArgs = (if c.rosArgs = [] then s.rosArgs else some c.rosArgs) := by
  unfold prepare
  rw [hl]
  dsimp only
  have hx : (!c.rosArgs.isEmpty && !acc 0) = false := by
    rcases h0 with h | h <;> simp [h]
  rw [hx]
  simp only [Bool.false_eq_true, if_false]
  have e : ∀ s' : Stored, s' = (if c.rosArgs.isEmpty = true then s else { s with rosArgs := some c.rosArgs }) →
      s'.files = s.files ∧ s'.rosArgs = (if c.rosArgs = [] then s.rosArgs else some c.rosArgs) := by
    rintro s' rfl
    cases c.rosArgs <;> simp
  have e := e _ rfl
  generalize (if c.rosArgs.isEmpty = true then s else { s with rosArgs := some c.rosArgs }) = s1 at *
  cases l with
  | nil => exact ⟨e.1, e.2⟩
  | cons a t =>
    simp only [List.isEmpty_cons, Bool.false_eq_true, if_false]
    refine ⟨?_, by rw [setFromFiles_rosArgs]; exact e.2⟩
    rw [setFromFiles_files, e.1]

/-- The full statement: what the controller is loaded with are the files of this command line. -/
def OwnFiles : Prop := ∀ fs acc ns c s s' l k g, given fs c = .ok l → filesFor fs c.name ns l = .ok k → prepare fs acc ns c s = (s', .load) →
  loadWith s' = some g → g.files = k

/-- **C70 (from the command line to the node).** If the spawner goes on to load the controller, the controller manager accepted `params_file` and some
file has a section for the controller, then the controller's node reads exactly the files with a section for the controller, each once, in the order
`-p` files first, then the `--params-file` files of the spawner. Missing: no file has a section (`C70_stale`), `params_file` refused (`C70_refused`),
a bare name in a namespace (`C70_bare`). -/
theorem C70_spawned_partial (fs : Files) (acc : Nat → Bool) (ns : String) (c : Cmd) (s s' : Stored) (g : Given) (l : List String) (sim : Bool)
    (hl : given fs c = .ok l) (hd : ∀ f ∈ l, ∃ p, fs f = some p ∧ Mapping p ∧ ¬ Bare c.name ns p)
    (hp : prepare fs acc ns c s = (s', .load)) (hacc : acc 1 = true) (hsome : ∃ f ∈ l, ∃ p, fs f = some p ∧ Addresses c.name ns p)
    (hg : loadWith s' = some g) :
    c.files <+: l ∧ Chosen fs c.name ns l g.files ∧
      ((readArgs .plain (nodeArgs [] g sim)).2.take g.files.length = g.files.map .file) := by
  obtain ⟨r, -, hr, -⟩ := given_ok hl
  refine ⟨by rw [hr]; exact appendUnique_prefix _ _, ?_⟩
  have h0 : c.rosArgs = [] ∨ acc 0 = true := by
    by_contra hc
    rw [not_or] at hc
    unfold prepare at hp
    rw [hl] at hp
    simp [hc.1, hc.2] at hp
  obtain ⟨k, hk, hch⟩ := C70_files_partial fs c.name ns l hd
  have hf := (prepare_files fs acc ns c s l hl h0).1
  rw [hk, hp] at hf
  dsimp only at hf
  have hne : k ≠ [] := by
    obtain ⟨f, hf, hx⟩ := hsome
    have := (hch.1 f).2 ⟨hf, hx⟩
    intro e; rw [e] at this; cases this
  rw [if_pos ⟨hne, hacc⟩] at hf
  have hgf : g.files = k := by
    unfold loadWith at hg
    cases ht : s'.type with
    | none => rw [ht] at hg; cases hg
    | some t => rw [ht] at hg; cases hg; simp [hf]
  rw [hgf]
  refine ⟨hch, ?_⟩
  obtain ⟨m, -, hm, -⟩ := C70_node_args_partial [] g sim (fun h => by cases h)
  rw [hm, hgf]
  simp [readArgs]

/-! ## Type and fallback controllers: stored as the files say, or the controller is not loaded -/

theorem setFromFiles_load {fs : Files} {acc : Nat → Bool} {name ns : String} {files : List String} {s s' : Stored}
    (h : setFromFiles fs acc name ns files s = (s', .load)) :
    ∃ k, filesFor fs name ns files = .ok k ∧
      ((k = [] ∧ s' = s) ∨ (k ≠ [] ∧ ∃ t b, paramFrom fs name ns "type" k = .ok t ∧ paramFrom fs name ns "fallback_controllers" k = .ok b ∧
        s'.type = (if (wanted t).isSome then wanted t else s.type) ∧ ((wanted t).isSome → acc 2 = true) ∧
        s'.fallbacks = (if (wanted b).isSome then wanted b else s.fallbacks) ∧ ((wanted b).isSome → acc 3 = true))) := by
  unfold setFromFiles at h
  cases hk : filesFor fs name ns files with
  | error e => rw [hk] at h; simp at h
  | ok k =>
    rw [hk] at h
    refine ⟨k, rfl, ?_⟩
    dsimp only at h
    cases k with
    | nil => left; simp at h; exact ⟨rfl, h.symm⟩
    | cons a r =>
      right
      refine ⟨by simp, ?_⟩
      simp only [List.isEmpty_cons, Bool.false_eq_true, if_false] at h
      cases ht : paramFrom fs name ns "type" (a :: r) with
      | error e => rw [ht] at h; simp at h
      | ok t =>
        rw [ht] at h
        dsimp only at h
        cases hb : paramFrom fs name ns "fallback_controllers" (a :: r) with
        | error e => rw [hb] at h; dsimp only at h; split at h <;> simp at h
        | ok b =>
          rw [hb] at h
          dsimp only at h
          refine ⟨t, b, rfl, rfl, ?_⟩
          split at h
          · simp at h
          split at h
          · simp at h
          rename_i h2 h3
          have h := (Prod.mk.injEq _ _ _ _).mp h |>.1
          subst h
          simp only [Bool.and_eq_true, Bool.not_eq_true', not_and, Bool.not_eq_false] at h2 h3
          refine ⟨?_, h2, ?_, h3⟩
          · cases acc 1 <;> cases (wanted t).isSome <;> cases (wanted b).isSome <;> rfl
          · cases acc 1 <;> cases (wanted t).isSome <;> cases (wanted b).isSome <;> rfl

theorem prepare_load {fs : Files} {acc : Nat → Bool} {ns : String} {c : Cmd} {s s' : Stored} {l : List String} (hl : given fs c = .ok l) (hne : l ≠ [])
    (h : prepare fs acc ns c s = (s', .load)) :
    (c.rosArgs = [] ∨ acc 0 = true) ∧ setFromFiles fs acc c.name ns l (if c.rosArgs.isEmpty then s else { s with rosArgs := some c.rosArgs }) = (s', .load) := by
  unfold prepare at h
  rw [hl] at h
  dsimp only at h
  split at h
  · simp at h
  rename_i h0
  cases l with
  | nil => exact absurd rfl hne
  | cons a t =>
    simp only [List.isEmpty_cons, Bool.false_eq_true, if_false] at h
    refine ⟨?_, h⟩
    by_cases hr : c.rosArgs = []
    · exact .inl hr
    · right; simpa [hr] using h0

theorem says_addresses {name ns q : String} {p v : Y} (h : Says name ns q p v) : Addresses name ns p := by
  have two : ∀ a b l, p.at (a :: b :: l) = some v → (p.at [a, b]).isSome := by
    intro a b l h
    rw [at_cons] at h ⊢
    cases ha : p.at [a] with
    | none => rw [ha] at h; cases h
    | some x =>
      rw [ha] at h
      simp only [Option.bind_some] at h ⊢
      rw [at_cons] at h
      cases hb : x.at [b] with
      | none => rw [hb] at h; cases h
      | some y => rfl
  rcases h with ⟨k, hk, h⟩ | ⟨k, hk, h⟩ | h
  · left
    refine ⟨k, hk, ?_⟩
    rw [at_cons] at h
    cases ha : p.at [k] with
    | none => rw [ha] at h; cases h
    | some x => rfl
  · exact .inr (.inl ⟨k, hk, two _ _ _ h⟩)
  · exact .inr (.inr (two _ _ _ h))

/-- The files of the command line agree that the parameter has this value: their documents can be relied on, none says anything else, and one says it. -/
def Agreed (fs : Files) (name ns q : String) (l : List String) (v : Y) : Prop :=
  (∀ f ∈ l, ∃ p, fs f = some p ∧ Good name ns p ∧ ∀ w, Says name ns q p w → w = v) ∧ ∃ f ∈ l, ∃ p, fs f = some p ∧ Says name ns q p v

theorem agreed_forwarded {fs : Files} {name ns q : String} {l : List String} {v : Y} (h : Agreed fs name ns q l v) {k : List String}
    (hk : filesFor fs name ns l = .ok k) : k ≠ [] ∧ paramFrom fs name ns q k = .ok (some v) := by
  obtain ⟨h1, f, hf, p, hp, hs⟩ := h
  obtain ⟨k', hk', hch⟩ := C70_files_partial fs name ns l (fun f hf => by
    obtain ⟨p, hp, hg, -⟩ := h1 f hf
    exact ⟨p, hp, hg.1.1, hg.2.1⟩)
  rw [hk] at hk'; cases hk'
  have hfk : f ∈ k := (hch.1 f).2 ⟨hf, p, hp, says_addresses hs⟩
  exact ⟨List.ne_nil_of_mem hfk, C70_value_partial fs name ns q k v (fun g hg => h1 g ((hch.1 g).1 hg).1) ⟨f, hfk, p, hp, hs⟩⟩

/-- **C70 (the type arrives).** If the files of the command line agree on the type of the controller, then the spawner goes on to load the controller
only after the controller manager accepted that type, and the controller is loaded with exactly that type — whatever was stored before, and whatever
the controller manager did with the other parameters. Missing: files that disagree (`C70_first_file`, `C70_overrides_false`); `Good` documents. -/
theorem C70_type_partial (fs : Files) (acc : Nat → Bool) (ns : String) (c : Cmd) (s s' : Stored) (l : List String) (v : Y)
    (hl : given fs c = .ok l) (ha : Agreed fs c.name ns "type" l v) (hv : v.truthy = true) (hp : prepare fs acc ns c s = (s', .load)) :
    acc 2 = true ∧ ∃ g, loadWith s' = some g ∧ g.type = v := by
  have hne : l ≠ [] := by obtain ⟨-, f, hf, -⟩ := ha; exact List.ne_nil_of_mem hf
  obtain ⟨k, hk, h⟩ := setFromFiles_load (prepare_load hl hne hp).2
  obtain ⟨hkne, hpk⟩ := agreed_forwarded ha hk
  rcases h with ⟨h, -⟩ | ⟨-, t, b, h1, -, h2, h3, -⟩
  · exact absurd h hkne
  · rw [hpk] at h1; cases h1
    have hw : wanted (some v) = some v := by simp [wanted, hv]
    rw [hw] at h2 h3
    exact ⟨h3 rfl, by simp [loadWith, h2]⟩

/-- **C70 (the fallback controllers arrive).** The same for the fallback controllers, under their own name. -/
theorem C70_fallbacks_partial (fs : Files) (acc : Nat → Bool) (ns : String) (c : Cmd) (s s' : Stored) (l : List String) (v : Y)
    (hl : given fs c = .ok l) (ha : Agreed fs c.name ns "fallback_controllers" l v) (hv : v.truthy = true)
    (hp : prepare fs acc ns c s = (s', .load)) :
    acc 3 = true ∧ s'.fallbacks = some v ∧ ∀ g, loadWith s' = some g → g.fallbacks = some v := by
  have hne : l ≠ [] := by obtain ⟨-, f, hf, -⟩ := ha; exact List.ne_nil_of_mem hf
  obtain ⟨k, hk, h⟩ := setFromFiles_load (prepare_load hl hne hp).2
  obtain ⟨hkne, hpk⟩ := agreed_forwarded ha hk
  rcases h with ⟨h, -⟩ | ⟨-, t, b, -, h1, -, -, h2, h3⟩
  · exact absurd h hkne
  · rw [hpk] at h1; cases h1
    have hw : wanted (some v) = some v := by simp [wanted, hv]
    rw [hw] at h2 h3
    refine ⟨h3 rfl, h2, fun g hg => ?_⟩
    unfold loadWith at hg
    cases ht : s'.type with
    | none => rw [ht] at hg; cases hg
    | some t => rw [ht] at hg; cases hg; exact h2

/-- **C70 (empty values do not count).** If the files agree on an empty type (an empty text, list or map, zero or nothing), the spawner goes on as if
they said nothing: the controller keeps the type that was stored, and the controller manager is not asked. The same for fallback controllers. -/
theorem C70_empty_value (fs : Files) (acc : Nat → Bool) (ns : String) (c : Cmd) (s s' : Stored) (l : List String) (v : Y)
    (hl : given fs c = .ok l) (hv : v.truthy = false) (hp : prepare fs acc ns c s = (s', .load)) :
    (Agreed fs c.name ns "type" l v → s'.type = s.type) ∧
    (Agreed fs c.name ns "fallback_controllers" l v → s'.fallbacks = s.fallbacks) := by
  constructor
  all_goals
    intro ha
    have hne : l ≠ [] := by obtain ⟨-, f, hf, -⟩ := ha; exact List.ne_nil_of_mem hf
    obtain ⟨k, hk, h⟩ := setFromFiles_load (prepare_load hl hne hp).2
    obtain ⟨hkne, hpk⟩ := agreed_forwarded ha hk
    have hw : wanted (some v) = none := by simp [wanted, hv]
  · rcases h with ⟨h, -⟩ | ⟨-, t, b, h1, -, h2, h3, -⟩
    · exact absurd h hkne
    · rw [hpk] at h1; cases h1
      rw [hw] at h2
      rw [h2]; simp; split <;> rfl
  · rcases h with ⟨h, -⟩ | ⟨-, t, b, -, h1, -, -, h2, h3⟩
    · exact absurd h hkne
    · rw [hpk] at h1; cases h1
      rw [hw] at h2
      rw [h2]; simp; split <;> rfl

/-- **C70 (nothing else is touched).** If the spawner goes on to load and no forwarded file says anything about the type (fallback controllers), the
stored type (fallback controllers) stays what it was; node arguments are the ones given, accepted, or the ones that were there. -/
theorem C70_untouched (fs : Files) (acc : Nat → Bool) (ns : String) (c : Cmd) (s s' : Stored) (l : List String) (q : String)
    (hl : given fs c = .ok l) (hd : ∀ f ∈ l, ∃ p, fs f = some p ∧ Valid c.name ns p ∧ ¬ Bare c.name ns p ∧ ∀ w, ¬ Says c.name ns q p w)
    (hp : prepare fs acc ns c s = (s', .load)) :
    (q = "type" → s'.type = s.type) ∧ (q = "fallback_controllers" → s'.fallbacks = s.fallbacks) ∧
      (c.rosArgs = [] ∧ s'.rosArgs = s.rosArgs ∨ acc 0 = true ∧ s'.rosArgs = some c.rosArgs) := by
  by_cases hne : l = []
  · subst hne
    unfold prepare at hp
    rw [hl] at hp
    dsimp only at hp
    split at hp
    · simp at hp
    rename_i h0
    simp only [List.isEmpty_nil, if_true, Prod.mk.injEq, and_true] at hp
    subst hp
    by_cases hr : c.rosArgs = []
    · simp [hr]
    · simp [hr] at h0 ⊢; exact h0
  · obtain ⟨h0, hs⟩ := prepare_load hl hne hp
    have hros := setFromFiles_rosArgs fs acc c.name ns l (if c.rosArgs.isEmpty then s else { s with rosArgs := some c.rosArgs })
    rw [hs] at hros
    obtain ⟨k, hk, h⟩ := setFromFiles_load hs
    have hsub : paramFrom fs c.name ns q k = .ok none := by
      obtain ⟨k', hk', hch⟩ := C70_files_partial fs c.name ns l (fun f hf => by
        obtain ⟨p, hp, hg, hb, -⟩ := hd f hf
        exact ⟨p, hp, hg.1, hb⟩)
      rw [hk] at hk'; cases hk'
      refine C70_value_none fs c.name ns q k (fun f hf => ?_)
      obtain ⟨p, hp, hg, -, hw⟩ := hd f ((hch.1 f).1 hf).1
      exact ⟨p, hp, hg, fun _ => hw⟩
    refine ⟨?_, ?_, ?_⟩
    · rintro rfl
      rcases h with ⟨-, h⟩ | ⟨-, t, b, h1, -, h2, -⟩
      · rw [h]; split <;> rfl
      · rw [hsub] at h1; cases h1
        rw [h2]; simp [wanted]; split <;> rfl
    · rintro rfl
      rcases h with ⟨-, h⟩ | ⟨-, t, b, -, h1, -, -, h2, -⟩
      · rw [h]; split <;> rfl
      · rw [hsub] at h1; cases h1
        rw [h2]; simp [wanted]; split <;> rfl
    · by_cases hr : c.rosArgs = []
      · left; refine ⟨hr, ?_⟩; simpa [hr] using hros
      · right; refine ⟨h0.resolve_left hr, ?_⟩; simpa [hr] using hros

/-- **C70 (a missing file).** If one of the files does not exist the controller is not loaded and nothing is stored: the run ends in an exception. So
does the part of it that reads the files, should the file disappear after the check. -/
theorem C70_missing (fs : Files) (acc : Nat → Bool) (ns : String) (c : Cmd) (s : Stored) :
    (∀ r, rosFiles c.argv = .ok r → (∃ f, (f ∈ c.files ∨ f ∈ r) ∧ fs f = none) → prepare fs acc ns c s = (s, .raised .notFound)) ∧
    (∀ l, (∃ f ∈ l, fs f = none) → ∃ e, setFromFiles fs acc c.name ns l s = (s, .raised e)) := by
  constructor
  · rintro r hr ⟨f, hf, hn⟩
    have : given fs c = .error .notFound := by
      unfold given
      rw [hr]
      show (if (appendUnique c.files r).all (fun f => (fs f).isSome) = true then Except.ok (appendUnique c.files r) else Except.error Err.notFound) = _
      rw [if_neg]
      intro ha
      rw [List.all_eq_true] at ha
      have := ha f ((appendUnique_mem _ _ f).2 hf)
      rw [hn] at this; cases this
    unfold prepare; rw [this]
  · rintro l ⟨f, hf, hn⟩
    have key : ∀ l acc, (∀ g ∈ acc, (fs g).isSome = true) → f ∈ l → ∃ e, filesLoop fs c.name ns l acc = .error e := by
      intro l
      induction l with
      | nil => intro _ _ h; cases h
      | cons a t ih =>
        intro acc hacc h
        rw [filesLoop]
        split
        · rename_i ha
          rcases List.mem_cons.1 h with rfl | h
          · have := hacc f ha; rw [hn] at this; cases this
          · exact ih acc hacc h
        · rcases List.mem_cons.1 h with rfl | h
          · exact ⟨.notFound, by simp [load, hn]; rfl⟩
          · unfold load
            cases hfa : fs a with
            | none => exact ⟨_, rfl⟩
            | some p =>
              simp only [bind, Except.bind]
              cases usesLoop c.name ns p (keys c.name ns) with
              | error e => exact ⟨e, rfl⟩
              | ok b =>
                cases b with
                | false => exact ih acc hacc h
                | true =>
                  refine ih _ (fun g hg => ?_) h
                  rcases List.mem_append.1 hg with hg | hg
                  · exact hacc g hg
                  · rw [List.mem_singleton] at hg; rw [hg, hfa]; rfl
    obtain ⟨e, he⟩ := key l [] (by simp) hf
    exact ⟨e, by unfold setFromFiles filesFor; rw [he]⟩

/-- A run of the spawner for a controller. -/
structure Session where
  fs : Files
  acc : Nat → Bool
  ns : String
  cmd : Cmd

/-- The parameters on the controller manager after some runs of spawners (the controller is unloaded in between: nothing removes the parameters,
cm.cpp:1415-1482). -/
def after (s : Stored) : List Session → Stored
  | [] => s
  | x :: t => after (prepare x.fs x.acc x.ns x.cmd s).1 t

/-- **C70 (parameters of earlier spawners).** Runs of the spawner in which no file has a section for the controller leave the list of files as it is:
however often the controller is unloaded and spawned without files, it gets the files of the earlier spawner. -/
theorem C70_stale (s : Stored) (hist : List Session)
    (h : ∀ x ∈ hist, ∀ l, given x.fs x.cmd = .ok l → ∀ k, filesFor x.fs x.cmd.name x.ns l = .ok k → k = []) :
    (after s hist).files = s.files := by
  induction hist generalizing s with
  | nil => rfl
  | cons x t ih =>
    rw [after, ih _ (fun y hy => h y (by simp [hy]))]
    cases hl : given x.fs x.cmd with
    | error e => simp [prepare, hl]
    | ok l =>
      by_cases h0 : x.cmd.rosArgs = [] ∨ x.acc 0 = true
      · rw [(prepare_files x.fs x.acc x.ns x.cmd s l hl h0).1]
        cases hk : filesFor x.fs x.cmd.name x.ns l with
        | error e => rfl
        | ok k => simp [h x (by simp) l hl k hk]
      · rw [not_or] at h0
        simp [prepare, hl, h0.1, h0.2]

/-- **C70 (the last spawner decides).** After any history, a run in which some file has a section for the controller, and the parameter is accepted,
leaves exactly its own files. -/
theorem C70_last (s : Stored) (hist : List Session) (x : Session) (l k : List String) (hl : given x.fs x.cmd = .ok l)
    (h0 : x.cmd.rosArgs = [] ∨ x.acc 0 = true) (hk : filesFor x.fs x.cmd.name x.ns l = .ok k) (hne : k ≠ []) (h1 : x.acc 1 = true) :
    (after s (hist ++ [x])).files = some k := by
  induction hist generalizing s with
  | nil =>
    show (prepare x.fs x.acc x.ns x.cmd s).1.files = _
    rw [(prepare_files x.fs x.acc x.ns x.cmd s l hl h0).1, hk]
    simp [hne, h1]
  | cons y t ih => exact ih _

/-! ## The spawner's own `--params-file` -/

/-- A command line with `--params-file f` pairs and other words. -/
def render : List (String ⊕ String) → List String
  | [] => []
  | .inl f :: t => "--params-file" :: f :: render t
  | .inr a :: t => a :: render t

/-- **C70 (collecting).** All files of the `--params-file` pairs are collected, in order, and nothing else. -/
theorem C70_collect (ws : List (String ⊕ String)) (h : ∀ a, .inr a ∈ ws → a ≠ "--params-file") :
    rosFiles (render ws) = .ok (ws.filterMap (fun w => match w with | .inl f => some f | .inr _ => none)) := by
  induction ws with
  | nil => simp [render, rosFiles]
  | cons w t ih =>
    have ih := ih (fun a ha => h a (by simp [ha]))
    cases w with
    | inl f =>
      rw [render, rosFiles.eq_def]
      simp only [if_true, List.filterMap_cons]
      rw [ih]; rfl
    | inr a =>
      rw [render, rosFiles.eq_def]; dsimp only; rw [if_neg (h a (by simp)), ih]
      rfl

/-- **C70 (merging).** What the spawner looks at: the `-p` files as given, then the files of `--params-file` that are not among them. -/
theorem C70_given (fs : Files) (c : Cmd) (l : List String) (h : given fs c = .ok l) :
    ∃ r, rosFiles c.argv = .ok r ∧ c.files <+: l ∧ (∀ f, f ∈ l ↔ f ∈ c.files ∨ f ∈ r) ∧ (∀ f ∈ l, (fs f).isSome = true) := by
  obtain ⟨r, h1, h2, h3⟩ := given_ok h
  exact ⟨r, h1, by rw [h2]; exact appendUnique_prefix _ _, fun f => by rw [h2]; exact appendUnique_mem _ _ f, h3⟩

/-! ## Concrete files -/

/-- A section with some parameters. -/
def sec (ps : List (String × Y)) : Y := .map [("ros__parameters", .map ps)]

/-- A robot with three files: defaults for every node, a section for the controller `arm`, and one for another controller. -/
def demoFs : Files := fun f =>
  if f = "defaults.yaml" then some (.map [("/**", sec [("type", .str "jtc/JTC")])])
  else if f = "arm.yaml" then some (.map [("arm", sec [("joints", .seq [.str "j1", .str "j2"]), ("fallback_controllers", .seq [.str "hold"])])])
  else if f = "other.yaml" then some (.map [("gripper", sec [("type", .str "g/G")])])
  else if f = "override.yaml" then some (.map [("arm", sec [("type", .str "new/JTC")])])
  else if f = "ns.yaml" then some (.map [("arm", sec [("a", .num 1)]), ("/left/arm", sec [("type", .str "jtc/JTC")])])
  else if f = "abs.yaml" then some (.map [("/**", sec [("type", .str "generic/G")]), ("/arm", sec [("type", .str "special/S")])])
  else if f = "empty.yaml" then some .null
  else if f = "typo.yaml" then some (.map [("arm", .map [("ros_parameters", .map [("type", .str "jtc/JTC")])])])
  else none

/-- What became of the files: the list or the exception. -/
def outcome (x : Except Err (List String)) : List String ⊕ Err := match x with | .ok l => .inl l | .error e => .inr e

/-- The string found. -/
def foundStr (x : Except Err (Option Y)) : Option String ⊕ Err :=
  match x with
  | .ok (some (.str s)) => .inl (some s)
  | .ok _ => .inl none
  | .error e => .inr e

/-- Duplicates and files without a section are left out, the order stays. -/
example : outcome (filesFor demoFs "arm" "/" ["arm.yaml", "other.yaml", "defaults.yaml", "arm.yaml"]) = .inl ["arm.yaml", "defaults.yaml"] := by
  decide +kernel

/-- The hypotheses of `C70_files_partial` hold of these files. -/
example : ∀ f ∈ ["arm.yaml", "other.yaml", "defaults.yaml", "arm.yaml"], ∃ p, demoFs f = some p ∧ Mapping p ∧ ¬ Bare "arm" "/" p := by
  intro f hf
  simp only [List.mem_cons, List.not_mem_nil, or_false] at hf
  rcases hf with rfl | rfl | rfl | rfl
  · exact ⟨_, rfl, ⟨⟨_, rfl⟩, fun w hw => by simp [Y.at] at hw⟩, by simp [Bare]⟩
  · exact ⟨_, rfl, ⟨⟨_, rfl⟩, fun w hw => by simp [Y.at] at hw⟩, by simp [Bare]⟩
  · exact ⟨_, rfl, ⟨⟨_, rfl⟩, fun w hw => by simp [Y.at, sec] at hw; exact ⟨_, hw.symm⟩⟩, by simp [Bare]⟩
  · exact ⟨_, rfl, ⟨⟨_, rfl⟩, fun w hw => by simp [Y.at] at hw⟩, by simp [Bare]⟩

/-- The type comes from the defaults, the fallback controllers from the section: the whole way from the command line to the node. -/
example : let c : Cmd := { name := "arm", files := ["arm.yaml", "other.yaml"], argv := ["arm", "--ros-args", "--params-file", "defaults.yaml"] }
    let r := prepare demoFs (fun _ => true) "/" c {}
    r.2 = .load ∧ (loadWith r.1).map (fun g => nodeArgs [] g true) =
      some ["--ros-args", "--params-file", "arm.yaml", "--params-file", "defaults.yaml", "-p", "use_sim_time:=true"] ∧
    foundStr (.ok r.1.type) = .inl (some "jtc/JTC") ∧ r.1.fallbacks.isSome = true := by decide +kernel

/-- A missing file, an empty file and a file with a misspelled `ros__parameters` end in an exception: the controller is not loaded. -/
example : (prepare demoFs (fun _ => true) "/" { name := "arm", files := ["none.yaml"] } {}).2 = .raised .notFound ∧
    (prepare demoFs (fun _ => true) "/" { name := "arm", files := ["empty.yaml"] } {}).2 = .raised .type ∧
    (prepare demoFs (fun _ => true) "/" { name := "arm", files := ["typo.yaml"] } {}).2 = .raised .invalid ∧
    (prepare demoFs (fun _ => true) "/" { name := "arm", argv := ["--params-file"] } {}).2 = .raised .value := by decide +kernel

theorem good_single (name k : String) (ps : List (String × Y)) (hk : k = name) (hn : name ≠ "/**") : Good name "/" (.map [(k, sec ps)]) := by
  subst hk
  have hw : ∀ l, (Y.map [(k, sec ps)]).at ("/**" :: l) = none := by intro l; simp [Y.at, hn]
  refine ⟨⟨⟨⟨_, rfl⟩, fun w hw' => ?_⟩, fun x s hx hs => ?_, fun x s hx hs => ?_, fun w s hw' _ => ?_⟩, by simp [Bare], fun x hx h => ?_, ?_⟩
  · rw [hw] at hw'; cases hw'
  · by_cases hkx : k = x
    · simp [Y.at, hkx] at hs; subst hs; exact .inr ⟨ps, by simp [sec, Y.at]⟩
    · simp [Y.at, hkx] at hs
  · rw [hw] at hs; cases hs
  · rw [hw] at hw'; cases hw'
  · rw [hw] at h; simp at h
  · refine ⟨"/**/" ++ k, .inr (.inr (.inr (.inl rfl))), ?_, hw _⟩
    have : k ≠ "/**/" ++ k := fun e => by
      have := congrArg String.length e
      rw [String.length_append] at this
      have h4 : "/**/".length = 4 := by decide
      omega
    simp [Y.at, this]

/-- The hypotheses of `C70_type_partial` and `C70_fallbacks_partial` hold of a file; accepted, the controller has the type and the fallback controllers
of the file instead of the old ones; refused, it is not loaded. -/
example : let fs : Files := fun f => if f = "a" then some (.map [("arm", sec [("type", .str "A"), ("fallback_controllers", .seq [.str "hold"])])]) else none
    Agreed fs "arm" "/" "type" ["a"] (.str "A") ∧
    (prepare fs (fun _ => true) "/" { name := "arm", files := ["a"] } { type := some (.str "old") }).2 = .load ∧
    foundStr (.ok (prepare fs (fun _ => true) "/" { name := "arm", files := ["a"] } { type := some (.str "old") }).1.type) = .inl (some "A") ∧
    (prepare fs (fun i => i != 2) "/" { name := "arm", files := ["a"] } { type := some (.str "old") }).2 = .giveUp ∧
    (prepare fs (fun i => i != 3) "/" { name := "arm", files := ["a"] } { type := some (.str "old") }).2 = .giveUp ∧
    (prepare fs (fun i => i != 0) "/" { name := "arm", files := ["a"], rosArgs := ["-p", "x:=1"] } {}).2 = .giveUp := by
  refine ⟨⟨?_, "a", by simp, _, rfl, .inl ⟨"arm", .inl ⟨rfl, rfl⟩, by simp [Y.at, sec]⟩⟩, by decide +kernel, by decide +kernel, by decide +kernel,
    by decide +kernel, by decide +kernel⟩
  intro f hf
  rw [List.mem_singleton] at hf; subst hf
  refine ⟨_, rfl, good_single "arm" "arm" _ rfl (by decide), ?_⟩
  rintro w (⟨k, -, hk⟩ | ⟨k, -, hk⟩ | hk)
  · by_cases e : "arm" = k
    · subst e; simp [Y.at, sec] at hk; exact hk.symm
    · simp [Y.at, e] at hk
  · simp [Y.at] at hk
  · simp [Y.at] at hk

/-- The hypotheses of `C70_empty_value` hold of a file with an empty type: the old type stays. -/
example : let fs : Files := fun f => if f = "a" then some (.map [("arm", sec [("type", .str "")])]) else none
    Agreed fs "arm" "/" "type" ["a"] (.str "") ∧
    (prepare fs (fun i => i != 2) "/" { name := "arm", files := ["a"] } { type := some (.str "old") }).2 = .load ∧
    foundStr (.ok (prepare fs (fun i => i != 2) "/" { name := "arm", files := ["a"] } { type := some (.str "old") }).1.type) = .inl (some "old") := by
  refine ⟨⟨?_, "a", by simp, _, rfl, .inl ⟨"arm", .inl ⟨rfl, rfl⟩, by simp [Y.at, sec]⟩⟩, by decide +kernel, by decide +kernel⟩
  intro f hf
  rw [List.mem_singleton] at hf; subst hf
  refine ⟨_, rfl, good_single "arm" "arm" _ rfl (by decide), ?_⟩
  rintro w (⟨k, -, hk⟩ | ⟨k, -, hk⟩ | hk)
  · by_cases e : "arm" = k
    · subst e; simp [Y.at, sec] at hk; exact hk.symm
    · simp [Y.at, e] at hk
  · simp [Y.at] at hk
  · simp [Y.at] at hk

/-- **C70 (a later file does not override the type).** The full rule `Overrides` is false: `arm.yaml` style files given as `-p first -p second`, both with
a type: the type of the first is used, although the controller's node, which gets both files, takes every other parameter from the second. -/
theorem C70_overrides_false : ¬ Overrides := by
  intro h
  let fs : Files := fun f => if f = "a" then some (.map [("arm", sec [("type", .str "A")])]) else if f = "b" then some (.map [("arm", sec [("type", .str "B")])]) else none
  have hg : ∀ v, Good "arm" "/" (.map [("arm", sec [("type", .str v)])]) := fun v => good_single "arm" "arm" _ rfl (by decide)
  have hr := h fs "arm" "/" "type" ["a"] "b" (.map [("arm", sec [("type", .str "B")])]) (.str "B") [] (by
    intro g hgm
    simp only [List.cons_append, List.nil_append, List.mem_cons, List.not_mem_nil, or_false] at hgm
    rcases hgm with rfl | rfl
    · exact ⟨_, rfl, hg _⟩
    · exact ⟨_, rfl, hg _⟩) rfl (by
    intro w
    constructor
    · rintro (⟨k, -, hk⟩ | ⟨k, -, hk⟩ | hk)
      · by_cases e : "arm" = k
        · subst e; simp [Y.at, sec] at hk; exact hk.symm
        · simp [Y.at, e] at hk
      · simp [Y.at] at hk
      · simp [Y.at] at hk
    · rintro rfl
      exact .inl ⟨"arm", .inl ⟨rfl, rfl⟩, by simp [Y.at, sec]⟩) (by simp)
  have hx : foundStr (paramFrom fs "arm" "/" "type" ["a", "b"]) = .inl (some "A") := by decide +kernel
  rw [show ["a"] ++ "b" :: [] = ["a", "b"] from rfl] at hr
  rw [hr] at hx
  revert hx
  decide +kernel

/-- **C70 (a file is ignored).** The full rule `Forwards` is false: `ns.yaml` has a section `/left/arm` for the controller, and is not forwarded
because there is a section `arm` as well. -/
theorem C70_forwards_false : ¬ Forwards := by
  intro h
  obtain ⟨l, h1, h2, -⟩ := h demoFs "arm" "/left" ["ns.yaml"] (by
    intro f hf
    rw [List.mem_singleton] at hf; subst hf
    exact ⟨_, rfl, ⟨_, rfl⟩, fun w hw => by simp [Y.at] at hw⟩)
  have hx : outcome (filesFor demoFs "arm" "/left" ["ns.yaml"]) = .inl [] := by decide +kernel
  rw [h1] at hx
  have hl : l = [] := by injection hx
  have := (h2 "ns.yaml").2 ⟨by simp, _, rfl, .inl ⟨"/left/arm", .inr (.inr (.inl ⟨by decide, by decide +kernel⟩)), by decide +kernel⟩⟩
  rw [hl] at this
  cases this

/-- **C70 (the wildcard beats the full name).** In one file with a value for all nodes and another for the controller under its full name `/arm`, the
value for all nodes is used; with the bare name `arm` it is the controller's own. -/
theorem C70_wildcard_wins :
    foundStr (paramFrom demoFs "arm" "/" "type" ["abs.yaml"]) = .inl (some "generic/G") ∧
    foundStr (paramFrom (fun _ => some (.map [("/**", sec [("type", .str "generic/G")]), ("arm", sec [("type", .str "special/S")])])) "arm" "/" "type"
      ["f"]) = .inl (some "special/S") := by decide +kernel

/-- **C70 (files of an earlier spawner).** The full rule `OwnFiles` is false: spawn with `arm.yaml` and `defaults.yaml`, unload, spawn without any file:
the controller is loaded with the old files. -/
theorem C70_own_files_false : ¬ OwnFiles := by
  intro h
  let s := (prepare demoFs (fun _ => true) "/" { name := "arm", files := ["arm.yaml", "defaults.yaml"] } {}).1
  have hs : s.files = some ["arm.yaml", "defaults.yaml"] := by decide +kernel
  have ht : s.type.isSome = true := by decide +kernel
  obtain ⟨t, ht⟩ := Option.isSome_iff_exists.1 ht
  have := h demoFs (fun _ => true) "/" { name := "arm" } s s [] [] { type := t, files := s.files.getD [], fallbacks := s.fallbacks, rosArgs := s.rosArgs.getD [] }
    (by simp [given, rosFiles, appendUnique]; rfl) rfl (by simp [prepare, given, rosFiles, appendUnique]; rfl) (by unfold loadWith; rw [ht])
  rw [hs] at this
  cases this

/-- **C70 (`params_file` refused).** The answer of the controller manager to `params_file` is not looked at: the controller is loaded without its
parameter files. -/
theorem C70_refused :
    let r := prepare demoFs (fun i => i != 1) "/" { name := "arm", files := ["arm.yaml", "defaults.yaml"] } {}
    r.2 = .load ∧ (loadWith r.1).map (·.files) = some [] := by decide +kernel

/-- **C70 (custom node options).** A controller whose `define_custom_node_options` closes its ROS arguments with `--` never reads its parameter
files. -/
theorem C70_custom_closed : ∃ custom g sim, ¬ Arrives custom g sim :=
  ⟨["--ros-args", "-r", "a:=b", "--", "x"], { type := .null, files := ["arm.yaml"], fallbacks := none, rosArgs := [] }, false, by
    rintro ⟨m, -, h, -⟩
    have hx : (readArgs .plain (nodeArgs ["--ros-args", "-r", "a:=b", "--", "x"] { type := .null, files := ["arm.yaml"], fallbacks := none, rosArgs := [] }
      false)).2 = [] := by decide +kernel
    rw [hx] at h
    simp [readArgs] at h⟩

/-- Two histories: the files of the last spawner that has some; and spawners without files do not change them. -/
example : (after {} [⟨demoFs, fun _ => true, "/", { name := "arm", files := ["arm.yaml", "defaults.yaml"] }⟩,
      ⟨demoFs, fun _ => true, "/", { name := "arm", files := ["other.yaml"] }⟩]).files = some ["arm.yaml", "defaults.yaml"] ∧
    (after {} [⟨demoFs, fun _ => true, "/", { name := "arm", files := ["arm.yaml", "defaults.yaml"] }⟩,
      ⟨demoFs, fun _ => true, "/", { name := "arm", files := ["override.yaml"] }⟩]).files = some ["override.yaml"] := by decide +kernel

end Verif.Params
