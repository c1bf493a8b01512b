import Verif.Views.Lists
import Verif.Props.C60_Listings
import Verif.Props.CMDemo
/-!
# C78: what the listing verbs print can be read back
-/
namespace Verif
namespace Lists

/-! ## Specification -/

/-- A scan that leaves out escape sequences; the flag tells that we are inside of one. -/
def scan : Bool → Text → Text
  | _, [] => []
  | false, c :: t => if c = esc then scan true t else c :: scan false t
  | true, c :: t => if c = 'm' then scan false t else scan true t

/-- Specification: a text without colours. -/
def plain (t : Text) : Text := scan false t

/-- Specification: a blank between words. -/
def isGap (c : Char) : Bool := c == ' ' || c == '\t'

/-- The words of a text, with the word being read. -/
def wordsFrom (cur : Text) : Text → List Text
  | [] => if cur = [] then [] else [cur]
  | c :: t => if isGap c then (if cur = [] then wordsFrom [] t else cur :: wordsFrom [] t) else wordsFrom (cur ++ [c]) t

/-- Specification: the words of a line as one sees it: without colours, separated by blanks. -/
def words (t : Text) : List Text := wordsFrom [] (plain t)

/-- Specification: a name: not empty, no blanks and no escape characters. -/
def Name (t : Text) : Prop := t ≠ [] ∧ ∀ c ∈ t, isGap c = false ∧ c ≠ esc

/-- Reading an indented text from its end: what was found so far. -/
structure Reader where
  items : List Text := []
  subs : List (Text × List Text) := []
  nodes : List (Text × List (Text × List Text)) := []

/-- One line more, in front of the others. -/
def readLine (t : Text) (s : Reader) : Reader :=
  match t with
  | '\t' :: '\t' :: u => { s with items := u :: s.items }
  | '\t' :: u => { s with subs := (u, s.items) :: s.subs, items := [] }
  | u => { nodes := (u, s.subs) :: s.nodes }

/-- Specification: the outline of an indented text: lines, below them lines with one tab, below these lines with two. -/
def outline (ls : List Text) : List (Text × List (Text × List Text)) := (ls.foldr readLine {}).nodes

/-- Specification: a part with a heading, if it is wanted. -/
def part (b : Bool) (head : String) (l : List Text) : List (Text × List (List Text)) := if b then [(head.toList, l.map fun t => [t])] else []

/-- Specification: what is to be seen below the line of a controller. -/
def wanted (f : Flags) (c : Ctl) : List (Text × List (List Text)) :=
  part f.verbose ("update_rate: " ++ String.ofList c.rate ++ " Hz") [] ++ part f.verbose ("is_async: " ++ String.ofList c.isAsync) [] ++
  part (f.claimed || f.verbose) "claimed interfaces:" c.claimed ++ part (f.reqCmd || f.verbose) "required command interfaces:" c.reqCmd ++
  part (f.reqState || f.verbose) "required state interfaces:" c.reqState ++ part (f.chained || f.verbose) "chained to interfaces:" c.conns.flatten ++
  part (f.exported || f.verbose) "exported reference interfaces:" c.refs ++ part (f.exported || f.verbose) "exported state interfaces:" c.states

/-- Specification: a controller as messages describe them: names are names. -/
structure Ctl.Fine (c : Ctl) : Prop where
  name : Name c.name
  type : Name c.type
  state : Name c.state
  claimed : ∀ t ∈ c.claimed, Name t
  reqCmd : ∀ t ∈ c.reqCmd, Name t
  reqState : ∀ t ∈ c.reqState, Name t
  conns : ∀ t ∈ c.conns.flatten, Name t
  refs : ∀ t ∈ c.refs, Name t
  states : ∀ t ∈ c.states, Name t

/-! ## Proofs -/

theorem plain_append (a b : Text) (h : ∀ c ∈ a, c ≠ esc) : plain (a ++ b) = a ++ plain b := by
  unfold plain
  induction a with
  | nil => rfl
  | cons c t ih =>
    have h1 := h c (by simp)
    simp only [List.cons_append, scan, h1, if_false]
    rw [ih fun d hd => h d (by simp [hd])]

theorem plain_self (a : Text) (h : ∀ c ∈ a, c ≠ esc) : plain a = a := by
  have := plain_append a [] h
  simpa [plain, scan] using this

theorem plain_cons (c : Char) (b : Text) (h : c ≠ esc) : plain (c :: b) = c :: plain b := plain_append [c] b (by simpa using h)

theorem scan_code (n b : Text) (h : ∀ c ∈ n, c ≠ 'm') : scan true (n ++ 'm' :: b) = scan false b := by
  induction n with
  | nil => simp [scan]
  | cons c t ih =>
    simp only [List.cons_append, scan, h c (by simp), if_false]
    exact ih fun d hd => h d (by simp [hd])

theorem plain_code (on : Bool) (n b : Text) (h : ∀ c ∈ n, c ≠ 'm') : plain (code on n ++ b) = plain b := by
  unfold code
  cases on
  · rfl
  · simp only [if_true, List.cons_append, List.append_assoc, plain, scan]
    rw [if_neg (by decide)]
    exact scan_code n b h

theorem plain_stateColor (on : Bool) (st b : Text) : plain (stateColor on st ++ b) = plain b := by
  unfold stateColor green cyan warning
  split
  · exact plain_code _ _ _ (by decide)
  · split
    · exact plain_code _ _ _ (by decide)
    · split
      · exact plain_code _ _ _ (by decide)
      · rfl

theorem plain_endc (on : Bool) (b : Text) : plain (endc on ++ b) = plain b := plain_code _ _ _ (by decide)

theorem Name.noEsc {t : Text} (h : Name t) : ∀ c ∈ t, c ≠ esc := fun c hc => (h.2 c hc).2

theorem pad_noEsc {w : Nat} {t : Text} (h : ∀ c ∈ t, c ≠ esc) : ∀ c ∈ pad w t, c ≠ esc := by
  intro c hc
  rcases List.mem_append.1 hc with hc | hc
  · exact h c hc
  · rw [(List.mem_replicate.1 hc).2]; decide

theorem wordsFrom_append (cur a b : Text) (h : ∀ c ∈ a, isGap c = false) : wordsFrom cur (a ++ b) = wordsFrom (cur ++ a) b := by
  induction a generalizing cur with
  | nil => simp
  | cons c t ih =>
    simp only [List.cons_append, wordsFrom, h c (by simp)]
    rw [if_neg (by simp), ih _ fun d hd => h d (by simp [hd])]
    simp

theorem wordsFrom_gaps (n : Nat) (b : Text) : wordsFrom [] (List.replicate n ' ' ++ b) = wordsFrom [] b := by
  induction n with
  | zero => rfl
  | succ n ih => simpa [List.replicate_succ, wordsFrom, isGap] using ih

theorem wordsFrom_end (cur : Text) (n : Nat) (h : cur ≠ []) : wordsFrom cur (List.replicate n ' ') = [cur] := by
  cases n with
  | zero => simp [wordsFrom, h]
  | succ n =>
    have := wordsFrom_gaps n []
    simp only [List.append_nil] at this
    simp [List.replicate_succ, wordsFrom, isGap, h, this]

theorem wordsFrom_gap (cur b : Text) (h : cur ≠ []) : wordsFrom cur (' ' :: b) = cur :: wordsFrom [] b := by simp [wordsFrom, isGap, h]

theorem wordsFrom_pad (w : Nat) (t b : Text) (h : Name t) : wordsFrom [] (pad w t ++ ' ' :: b) = t :: wordsFrom [] b := by
  unfold pad
  rw [List.append_assoc, wordsFrom_append _ _ _ fun c hc => (h.2 c hc).1, List.nil_append]
  cases w - t.length with
  | zero => exact wordsFrom_gap t b h.1
  | succ n =>
    rw [List.replicate_succ, List.cons_append, wordsFrom_gap _ _ h.1, wordsFrom_gaps]
    simp [wordsFrom, isGap]

theorem words_pad (w : Nat) (t : Text) (h : Name t) : words (pad w t) = [t] := by
  unfold words
  rw [plain_self _ (pad_noEsc h.noEsc)]
  unfold pad
  rw [wordsFrom_append _ _ _ fun c hc => (h.2 c hc).1]
  exact wordsFrom_end _ _ h.1

theorem words_name (t : Text) (h : Name t) : words t = [t] := by
  have := words_pad 0 t h
  simpa [pad] using this

theorem plain_row (on : Bool) (wn wt ws : Nat) (c : Ctl) (h : c.Fine) :
    plain (row on wn wt ws c) = pad wn c.name ++ ' ' :: (pad wt c.type ++ ' ' :: ' ' :: pad ws c.state) := by
  have e : row on wn wt ws c = stateColor on c.state ++ (pad wn c.name ++ (endc on ++ (' ' :: (pad wt c.type ++ (' ' :: ' ' ::
      (stateColor on c.state ++ (pad ws c.state ++ (endc on ++ [])))))))) := by simp [row]
  rw [e, plain_stateColor, plain_append _ _ (pad_noEsc h.name.noEsc), plain_endc, plain_cons _ _ (by decide), plain_append _ _ (pad_noEsc h.type.noEsc),
    plain_cons _ _ (by decide), plain_cons _ _ (by decide), plain_stateColor, plain_append _ _ (pad_noEsc h.state.noEsc), plain_endc]
  simp [plain, scan]

theorem words_row (on : Bool) (wn wt ws : Nat) (c : Ctl) (h : c.Fine) : words (row on wn wt ws c) = [c.name, c.type, c.state] := by
  unfold words
  rw [plain_row on wn wt ws c h, wordsFrom_pad _ _ _ h.name, wordsFrom_pad _ _ _ h.type]
  have : wordsFrom [] (' ' :: pad ws c.state) = wordsFrom [] (pad ws c.state) := by simp [wordsFrom, isGap]
  rw [this]
  have := words_pad ws c.state h.state
  unfold words at this
  rw [plain_self _ (pad_noEsc h.state.noEsc)] at this
  rw [this]

/-! ### The outline -/

theorem readLine_sub (u : Text) (s : Reader) (h : u.head? ≠ some '\t') : readLine ('\t' :: u) s = { s with subs := (u, s.items) :: s.subs, items := [] } := by
  unfold readLine
  split
  · rename_i e
    simp only [List.cons.injEq] at e
    rw [e.2] at h
    exact absurd rfl h
  · rename_i e
    simp only [List.cons.injEq, true_and] at e
    rw [e]
  · rename_i h1 h2
    exact absurd rfl (h2 _)

theorem readLine_node (u : Text) (s : Reader) (h : u.head? ≠ some '\t') : readLine u s = { nodes := (u, s.subs) :: s.nodes } := by
  unfold readLine
  split
  · exact absurd rfl h
  · exact absurd rfl h
  · rfl

theorem foldr_items (l : List Text) (s : Reader) : (l.map fun t => '\t' :: '\t' :: t).foldr readLine s = { s with items := l ++ s.items } := by
  induction l with
  | nil => rfl
  | cons t l ih => simp only [List.map_cons, List.foldr_cons, ih]; rfl

theorem foldr_block (head : String) (l : List Text) (s : Reader) (hh : head.toList.head? ≠ some '\t') (hs : s.items = []) :
    (block head l).foldr readLine s = { s with subs := (head.toList, l) :: s.subs } := by
  unfold block
  rw [List.foldr_cons, foldr_items, readLine_sub _ _ hh]
  simp [hs]

/-- What a part looks like before it is split into words. -/
def rawPart (b : Bool) (head : String) (l : List Text) : List (Text × List Text) := if b then [(head.toList, l)] else []

theorem foldr_part (b : Bool) (head : String) (l : List Text) (s : Reader) (hh : head.toList.head? ≠ some '\t') (hs : s.items = []) :
    (if b then block head l else []).foldr readLine s = { s with subs := rawPart b head l ++ s.subs } := by
  cases b
  · rfl
  · exact foldr_block head l s hh hs

/-- What is below the line of a controller, before it is split into words. -/
def rawWanted (f : Flags) (c : Ctl) : List (Text × List Text) :=
  rawPart f.verbose ("update_rate: " ++ String.ofList c.rate ++ " Hz") [] ++ rawPart f.verbose ("is_async: " ++ String.ofList c.isAsync) [] ++
  rawPart (f.claimed || f.verbose) "claimed interfaces:" c.claimed ++ rawPart (f.reqCmd || f.verbose) "required command interfaces:" c.reqCmd ++
  rawPart (f.reqState || f.verbose) "required state interfaces:" c.reqState ++
  rawPart (f.chained || f.verbose) "chained to interfaces:" (c.conns.flatten.map (pad 20)) ++
  rawPart (f.exported || f.verbose) "exported reference interfaces:" c.refs ++ rawPart (f.exported || f.verbose) "exported state interfaces:" c.states

theorem row_head (on : Bool) (wn wt ws : Nat) (c : Ctl) (h : c.Fine) : (row on wn wt ws c).head? ≠ some '\t' := by
  have key : ∀ b : Text, (pad wn c.name ++ b).head? ≠ some '\t' := by
    intro b
    obtain ⟨h1, h2⟩ := h.name
    cases hn : c.name with
    | nil => exact absurd hn h1
    | cons x t =>
      intro e
      simp only [pad, List.cons_append, List.head?_cons, Option.some.injEq] at e
      have := (h2 x (by simp [hn])).1
      rw [e] at this
      exact absurd this (by decide)
  have cd : ∀ n b : Text, b.head? ≠ some '\t' → (code on n ++ b).head? ≠ some '\t' := by
    intro n b hb
    cases on
    · exact hb
    · simp [code, esc]
  unfold row
  simp only [List.append_assoc]
  unfold stateColor
  split
  · exact cd _ _ (key _)
  · split
    · exact cd _ _ (key _)
    · split
      · exact cd _ _ (key _)
      · exact key _

theorem head_u (t : Text) : (("update_rate: ".toList ++ t : Text)).head? ≠ some '\t' := by
  have e : "update_rate: ".toList = 'u' :: "pdate_rate: ".toList := by decide
  rw [e, List.cons_append, List.head?_cons]
  decide

theorem head_i (t : Text) : (("is_async: ".toList ++ t : Text)).head? ≠ some '\t' := by
  have e : "is_async: ".toList = 'i' :: "s_async: ".toList := by decide
  rw [e, List.cons_append, List.head?_cons]
  decide

theorem foldr_verbose (b : Bool) (r a : Text) (x : Reader) (hx : x.items = []) :
    (if b then [('\t' :: "update_rate: ".toList) ++ r ++ " Hz".toList, ('\t' :: "is_async: ".toList) ++ a] else []).foldr readLine x =
      { x with subs := rawPart b ("update_rate: " ++ String.ofList r ++ " Hz") [] ++ rawPart b ("is_async: " ++ String.ofList a) [] ++ x.subs } := by
  cases b
  · rfl
  · have h1 : readLine ('\t' :: ("is_async: ".toList ++ a)) x = { x with subs := ("is_async: ".toList ++ a, []) :: x.subs } := by
      rw [readLine_sub _ _ (head_i a), hx]
    have h2 : ∀ y : Reader, y.items = [] → readLine ('\t' :: ("update_rate: ".toList ++ (r ++ " Hz".toList))) y =
        { y with subs := ("update_rate: ".toList ++ (r ++ " Hz".toList), []) :: y.subs } := by
      intro y hy
      rw [readLine_sub _ _ (head_u _), hy]
    have hof : ∀ t : Text, (String.ofList t).toList = t := fun _ => String.toList_ofList
    have e1 : (String.toList ("update_rate: " ++ String.ofList r ++ " Hz")) = "update_rate: ".toList ++ (r ++ " Hz".toList) := by
      rw [String.toList_append, String.toList_append, hof r, List.append_assoc]
    have e2 : (String.toList ("is_async: " ++ String.ofList a)) = "is_async: ".toList ++ a := by
      rw [String.toList_append, hof a]
    rw [if_pos rfl, List.foldr_cons, List.foldr_cons, List.foldr_nil, List.cons_append, List.cons_append, List.cons_append, List.append_assoc, h1, h2 _ (by exact hx)]
    rw [rawPart, rawPart, if_pos rfl, if_pos rfl, e1, e2]
    rfl

theorem foldr_printOne (on : Bool) (f : Flags) (wn wt ws : Nat) (c : Ctl) (h : c.Fine) (s : Reader) (hi : s.items = []) (hs : s.subs = []) :
    (printOne on f wn wt ws c).foldr readLine s = { nodes := (row on wn wt ws c, rawWanted f c) :: s.nodes } := by
  unfold printOne
  simp only [List.foldr_append]
  rw [foldr_part (f.exported || f.verbose) "exported state interfaces:" _ s (by decide) hi,
    foldr_part (f.exported || f.verbose) "exported reference interfaces:" _ _ (by decide) (by exact hi),
    foldr_part (f.chained || f.verbose) "chained to interfaces:" _ _ (by decide) (by exact hi),
    foldr_part (f.reqState || f.verbose) "required state interfaces:" _ _ (by decide) (by exact hi),
    foldr_part (f.reqCmd || f.verbose) "required command interfaces:" _ _ (by decide) (by exact hi),
    foldr_part (f.claimed || f.verbose) "claimed interfaces:" _ _ (by decide) (by exact hi),
    foldr_verbose _ _ _ _ (by exact hi), List.foldr_cons, List.foldr_nil, readLine_node _ _ (row_head on wn wt ws c h)]
  simp only [rawWanted, hs, List.append_nil, List.append_assoc]

theorem width_le (l : List Text) (t : Text) (h : t ∈ l) : t.length ≤ width l := by
  have key : ∀ (l : List Text) (m : Nat), m ≤ l.foldl (fun m t => max m t.length) m ∧ ∀ t ∈ l, t.length ≤ l.foldl (fun m t => max m t.length) m := by
    intro l
    induction l with
    | nil => simp
    | cons x l ih =>
      intro m
      obtain ⟨h1, h2⟩ := ih (max m x.length)
      refine ⟨(Nat.le_max_left _ _).trans h1, fun t ht => ?_⟩
      rcases List.mem_cons.1 ht with rfl | ht
      · exact (Nat.le_max_right _ _).trans h1
      · exact h2 t ht
  exact (key l 0).2 t h

theorem foldr_all (on : Bool) (f : Flags) (wn wt ws : Nat) (l : List Ctl) (h : ∀ c ∈ l, c.Fine) :
    (l.flatMap (printOne on f wn wt ws)).foldr readLine {} = { nodes := l.map fun c => (row on wn wt ws c, rawWanted f c) } := by
  induction l with
  | nil => rfl
  | cons c l ih =>
    rw [List.flatMap_cons, List.foldr_append, ih fun d hd => h d (by simp [hd]), foldr_printOne on f wn wt ws c (h c (by simp)) _ rfl rfl]
    rfl

theorem words_part (b : Bool) (head : String) (l : List Text) (h : ∀ t ∈ l, Name t) (w : Nat) :
    (rawPart b head (l.map (pad w))).map (fun s => (s.1, s.2.map words)) = part b head l := by
  cases b
  · rfl
  · simp only [rawPart, part, if_true, List.map_cons, List.map_nil, List.map_map]
    congr 2
    exact List.map_congr_left fun t ht => words_pad w t (h t ht)

theorem pad_zero (l : List Text) : l.map (pad 0) = l := by
  have : pad 0 = id := by funext t; simp [pad]
  rw [this, List.map_id]

theorem words_wanted (f : Flags) (c : Ctl) (h : c.Fine) : (rawWanted f c).map (fun s => (s.1, s.2.map words)) = wanted f c := by
  have z : ∀ (b : Bool) (head : String) (l : List Text), (∀ t ∈ l, Name t) → (rawPart b head l).map (fun s => (s.1, s.2.map words)) = part b head l := by
    intro b head l hl
    have := words_part b head l hl 0
    rwa [pad_zero] at this
  unfold rawWanted wanted
  simp only [List.map_append]
  rw [z _ _ _ (by simp), z _ _ _ (by simp), z _ _ _ h.claimed, z _ _ _ h.reqCmd, z _ _ _ h.reqState, words_part _ _ _ h.conns, z _ _ _ h.refs, z _ _ _ h.states]

/-- **C78 (controllers).** For every answer, colours or not, and all options: read as an indented text, the output of `list_controllers` has one line for
each controller, in the order of the answer, whose words are its name, type and state, and below it exactly the parts asked for with exactly
its interfaces. -/
theorem C78_controllers (on : Bool) (f : Flags) (l : List Ctl) (hl : l ≠ []) (h : ∀ c ∈ l, c.Fine) :
    (outline (listControllers on f l)).map (fun n => (words n.1, n.2.map fun s => (s.1, s.2.map words))) =
      l.map fun c => ([c.name, c.type, c.state], wanted f c) := by
  unfold outline listControllers
  rw [if_neg (by simpa using hl), foldr_all _ _ _ _ _ l h, List.map_map]
  exact List.map_congr_left fun c hc => by simp only [Function.comp_apply, words_row _ _ _ _ c (h c hc), words_wanted f c (h c hc)]

/-- **C78 (columns).** The lines of the controllers are all of the same length, and name, type and state begin at the same places. -/
theorem C78_columns (on : Bool) (l : List Ctl) (h : ∀ c ∈ l, c.Fine) :
    ∃ wn wt ws, ∀ f, l ≠ [] → (outline (listControllers on f l)).map (fun n => plain n.1) =
        l.map (fun c => pad wn c.name ++ ' ' :: (pad wt c.type ++ ' ' :: ' ' :: pad ws c.state)) ∧
      ∀ c ∈ l, (pad wn c.name).length = wn ∧ (pad wt c.type).length = wt ∧ (pad ws c.state).length = ws := by
  refine ⟨width (l.map (·.name)), width (l.map (·.type)), width (l.map (·.state)), fun f hl => ⟨?_, fun c hc => ?_⟩⟩
  · unfold outline listControllers
    rw [if_neg (by simpa using hl), foldr_all _ _ _ _ _ l h, List.map_map]
    exact List.map_congr_left fun c hc => plain_row _ _ _ _ c (h c hc)
  · have h1 := width_le (l.map (·.name)) c.name (List.mem_map.2 ⟨c, hc, rfl⟩)
    have h2 := width_le (l.map (·.type)) c.type (List.mem_map.2 ⟨c, hc, rfl⟩)
    have h3 := width_le (l.map (·.state)) c.state (List.mem_map.2 ⟨c, hc, rfl⟩)
    simp only [pad, List.length_append, List.length_replicate]
    omega

/-- **C78 (none).** The line without controllers is printed exactly if there are none: it is no row. -/
theorem C78_none (on : Bool) (f : Flags) (l : List Ctl) :
    (l = [] → listControllers on f l = ["No controllers are currently loaded!".toList]) ∧
    ((∀ c ∈ l, c.Fine) → (outline (listControllers on f l)).map (fun n => words n.1) = [["No", "controllers", "are", "currently", "loaded!"].map String.toList] → l = []) := by
  constructor
  · rintro rfl; rfl
  · intro h e
    by_contra hl
    have := C78_controllers on f l hl h
    have h2 := congrArg (List.map fun p : List Text × List (Text × List (List Text)) => p.1) this
    rw [List.map_map, List.map_map] at h2
    have h3 : (outline (listControllers on f l)).map (fun n => words n.1) = l.map fun c => [c.name, c.type, c.state] := h2
    rw [e] at h3
    have h4 := congrArg (List.map List.length) h3
    rw [List.map_map] at h4
    obtain ⟨c, t, rfl⟩ := List.exists_cons_of_ne_nil hl
    simp at h4

/-! ### Types -/

/-- **C78 (types).** Each line has the name of a type and its base class, in the order of the answer. -/
theorem C78_types (types bases : List Text) (hl : types.length = bases.length) (ht : ∀ t ∈ types, Name t) (hb : ∀ t ∈ bases, Name t) :
    (listTypes types bases).length = types.length ∧ (listTypes types bases).map words = (types.zip bases).map fun p => [p.1, p.2] := by
  refine ⟨by simp [listTypes, hl], ?_⟩
  unfold listTypes
  rw [List.map_map]
  refine List.map_congr_left fun p hp => ?_
  have h1 := ht p.1 (List.of_mem_zip hp).1
  have h2 := hb p.2 (List.of_mem_zip hp).2
  simp only [Function.comp_apply, words]
  rw [plain_append _ _ (pad_noEsc h1.noEsc), plain_cons _ _ (by decide), wordsFrom_pad _ _ _ h1]
  exact congrArg _ (words_name p.2 h2)

/-! ### Interfaces -/

/-- Specification: what a line about an interface has to say. -/
def Port.says (p : Port) (verbose : Bool) (marks : List String) : List Text :=
  [p.name] ++ (if verbose then [('[' :: p.type) ++ [']']] else []) ++ marks.map String.toList

/-- Specification: the marks of a command interface. -/
def Port.marks (p : Port) : List String :=
  [if p.available then "[available]" else "[unavailable]", if p.claimed then "[claimed]" else "[unclaimed]"]

/-- Specification: names and types are names. -/
def Port.Fine (p : Port) : Prop := Name p.name ∧ Name p.type

theorem typeStr_noEsc {v : Bool} {p : Port} (h : p.Fine) : ∀ c ∈ typeStr v p, c ≠ esc := by
  unfold typeStr
  split
  · intro c hc
    simp only [List.mem_append, List.mem_singleton] at hc
    rcases hc with (hc | hc) | rfl
    · revert c; decide
    · exact h.2.noEsc c hc
    · decide
  · simp

theorem wordsFrom_typeStr (v : Bool) (p : Port) (h : p.Fine) (b : Text) (cur : Text) (hc : cur ≠ []) :
    wordsFrom cur (typeStr v p ++ ' ' :: b) = cur :: ((if v then [('[' :: p.type) ++ [']']] else []) ++ wordsFrom [] b) := by
  cases v
  · simp [typeStr, wordsFrom_gap _ _ hc]
  · have e : (typeStr true p ++ ' ' :: b : Text) = ' ' :: ((('[' :: p.type) ++ [']']) ++ (' ' :: b)) := by
      have : " [".toList = [' ', '['] := by decide
      simp [typeStr, this]
    rw [e, wordsFrom_gap _ _ hc, wordsFrom_append [] _ _ ?_, List.nil_append, wordsFrom_gap _ _ (by simp)]
    · rfl
    · intro c hc
      simp only [List.cons_append, List.mem_cons, List.mem_append, List.not_mem_nil, or_false] at hc
      rcases hc with rfl | hc | rfl
      · decide
      · exact (h.2.2 c hc).1
      · decide

theorem wordsFrom_typeEnd (v : Bool) (p : Port) (h : p.Fine) (cur : Text) (hc : cur ≠ []) :
    wordsFrom cur (typeStr v p) = cur :: (if v then [('[' :: p.type) ++ [']']] else []) := by
  cases v
  · simp [typeStr, wordsFrom, hc]
  · have e : typeStr true p = ' ' :: (('[' :: p.type) ++ [']']) := by
      have : " [".toList = [' ', '['] := by decide
      simp [typeStr, this]
    rw [e, wordsFrom_gap _ _ hc]
    have := wordsFrom_append [] (('[' :: p.type) ++ [']']) [] ?_
    · rw [List.append_nil, List.nil_append] at this
      rw [this]
      simp [wordsFrom]
    · intro c hc
      simp only [List.cons_append, List.mem_cons, List.mem_append, List.not_mem_nil, or_false] at hc
      rcases hc with rfl | hc | rfl
      · decide
      · exact (h.2.2 c hc).1
      · decide

/-- One line: a colour, a name, a type, marks. -/
theorem words_marked (on v : Bool) (n : Text) (hn : ∀ c ∈ n, c ≠ 'm') (p : Port) (h : p.Fine) (m : Text) (hm : ∀ c ∈ m, c ≠ esc) :
    words ('\t' :: (code on n ++ (p.name ++ (typeStr v p ++ (' ' :: m ++ endc on))))) =
      [p.name] ++ (if v then [('[' :: p.type) ++ [']']] else []) ++ wordsFrom [] m := by
  unfold words
  have hm' : ∀ c ∈ ' ' :: m, c ≠ esc := by
    intro c hc
    rcases List.mem_cons.1 hc with rfl | hc
    · decide
    · exact hm c hc
  rw [plain_cons _ _ (by decide), plain_code _ _ _ hn, plain_append _ _ h.1.noEsc, plain_append _ _ (typeStr_noEsc h), plain_append _ _ hm']
  have : plain (endc on) = [] := by
    have := plain_endc on []
    simpa [plain, scan] using this
  rw [this, List.append_nil]
  have h0 : wordsFrom [] ('\t' :: (p.name ++ (typeStr v p ++ ' ' :: m))) = wordsFrom [] (p.name ++ (typeStr v p ++ ' ' :: m)) := by
    simp [wordsFrom, isGap]
  rw [h0, wordsFrom_append _ _ _ fun c hc => (h.1.2 c hc).1, List.nil_append, wordsFrom_typeStr v p h _ _ h.1.1]
  simp

theorem words_cmdLine (on v : Bool) (p : Port) (h : p.Fine) (hc : p.claimed = true → p.available = true) :
    words (cmdLine on v p) = p.says v p.marks := by
  have key : ∀ (n : Text) (_ : ∀ c ∈ n, c ≠ 'm') (m : String) (_ : ∀ c ∈ m.toList, c ≠ esc) (ms : List String)
      (_ : wordsFrom [] m.toList = ms.map String.toList),
      words ('\t' :: code on n ++ p.name ++ typeStr v p ++ (' ' :: m.toList) ++ endc on) = p.says v ms := by
    intro n hn m hm ms hw
    have := words_marked on v n hn p h m.toList hm
    rw [hw] at this
    rw [Port.says, ← this]
    simp
  unfold cmdLine Port.marks
  cases ha : p.available
  · have hcl : p.claimed = false := by
      cases hx : p.claimed
      · rfl
      · rw [hc hx] at ha; cases ha
    rw [hcl]
    exact key "93".toList (by decide) "[unavailable] [unclaimed]" (by decide) ["[unavailable]", "[unclaimed]"] (by decide)
  · cases p.claimed
    · exact key "96".toList (by decide) "[available] [unclaimed]" (by decide) ["[available]", "[unclaimed]"] (by decide)
    · exact key "94".toList (by decide) "[available] [claimed]" (by decide) ["[available]", "[claimed]"] (by decide)

theorem byName_perm (l : List Port) : (byName l).Perm l := List.mergeSort_perm _ _

theorem byName_sorted (l : List Port) : (byName l).Pairwise fun a b => a.name ≤ b.name := by
  have := List.pairwise_mergeSort (le := fun a b : Port => decide (a.name ≤ b.name))
    (fun a b c h1 h2 => decide_eq_true (List.le_trans (of_decide_eq_true h1) (of_decide_eq_true h2)))
    (fun a b => by simpa using List.le_total a.name b.name) l
  exact this.imp fun h => by simpa using h

/-- **C78 (interfaces).** The output of `list_hardware_interfaces` is the heading, one line for each command interface with its availability and whether it
is claimed, another heading and one line for each state interface; both sorted by name, none missing, none twice. (For interfaces that are not
claimed while unavailable, which is so in every answer, `C78_answer`.) -/
theorem C78_interfaces (on v : Bool) (cmd states : List Port) (hc : ∀ p ∈ cmd, p.Fine ∧ (p.claimed = true → p.available = true)) (hs : ∀ p ∈ states, p.Fine) :
    ∃ cs ss : List Port, cs.Perm cmd ∧ ss.Perm states ∧ (cs.Pairwise fun a b => a.name ≤ b.name) ∧ (ss.Pairwise fun a b => a.name ≤ b.name) ∧
      (listInterfaces on v cmd states).map words =
        [["command".toList, "interfaces".toList]] ++ cs.map (fun p => p.says v p.marks) ++ [["state".toList, "interfaces".toList]] ++
          ss.map (fun p => p.says v []) := by
  refine ⟨byName cmd, byName states, byName_perm _, byName_perm _, byName_sorted _, byName_sorted _, ?_⟩
  unfold listInterfaces
  simp only [List.map_append, List.map_map]
  have h1 : (byName cmd).map (words ∘ cmdLine on v) = (byName cmd).map fun p => p.says v p.marks :=
    List.map_congr_left fun p hp => by
      have := hc p ((byName_perm cmd).mem_iff.1 hp)
      exact words_cmdLine on v p this.1 this.2
  have h2 : ((byName states).map (words ∘ fun p => '\t' :: p.name ++ typeStr v p)) = (byName states).map fun p => p.says v [] :=
    List.map_congr_left fun p hp => by
      have h := hs p ((byName_perm states).mem_iff.1 hp)
      simp only [Function.comp_apply, words, List.cons_append]
      rw [plain_cons _ _ (by decide), plain_append _ _ h.1.noEsc, plain_self _ (typeStr_noEsc h)]
      have h0 : wordsFrom [] ('\t' :: (p.name ++ typeStr v p)) = wordsFrom [] (p.name ++ typeStr v p) := by simp [wordsFrom, isGap]
      rw [h0, wordsFrom_append _ _ _ fun c hc => (h.1.2 c hc).1, List.nil_append, wordsFrom_typeEnd v p h _ h.1.1]
      simp [Port.says]
  rw [h1, h2]
  rfl

/-- The entry of an answer of the controller manager, with the texts of names and types. -/
def ofEntry (nm ty : Itf → Text) (e : ItfEntry) : Port := { name := nm e.name, type := ty e.name, available := e.available, claimed := e.claimed }

/-- **C78 (answers).** In every answer of the controller manager no interface is claimed that is not available. -/
theorem C78_answer (cm : CM) (ss cs : List ItfEntry) (h : cm.listItfSrv = some (ss, cs)) (nm ty : Itf → Text) :
    ∀ e ∈ cs, (ofEntry nm ty e).claimed = true → (ofEntry nm ty e).available = true := by
  intro e he hcl
  unfold CM.listItfSrv at h
  split at h
  · cases h
  · split at h
    · cases h
    · rename_i x hx
      simp only [Option.some.injEq, Prod.mk.injEq] at h
      obtain ⟨-, rfl⟩ := h
      obtain ⟨i, -, hi⟩ := (CM.listAll_some hx).2 e he
      obtain ⟨h1, h2, h3⟩ := CM.listCmdItf_spec hi
      exact h2.2 (h3.1 hcl).1

/-- Full statement of the help of the verb: "the list of available command and state interfaces": a state interface that is printed is available. -/
def AvailableStatement : Prop :=
  ∀ (o : Oracle) (cm : CM), CM.Reach o cm → ∀ ss cs, cm.listItfSrv = some (ss, cs) → ∀ (nm ty : Itf → Text) (e : ItfEntry), e ∈ ss →
    ('\t' :: nm e.name) ∈ listInterfaces false false (cs.map (ofEntry nm ty)) (ss.map (ofEntry nm ty)) → e.available = true

/-- **C78, negation.** State interfaces of a component that is not configured are not available, but listed like all others: the output does not
tell. -/
theorem C78_states_available_false : ¬ AvailableStatement := by
  intro h
  obtain ⟨⟨ss, cs⟩, hl⟩ := (C60_hardware_answers goodOracle _ (demo_reach goodOracle [.setHw 2 .unconfigured])).2
  have hex : ∃ e ∈ ss, e.available = false := by
    have : ((demo goodOracle [.setHw 2 .unconfigured]).listItfSrv.any fun p => p.1.any fun e => !e.available) = true := by decide +kernel
    rw [hl] at this
    simpa using this
  obtain ⟨e, he, ha⟩ := hex
  have := h goodOracle _ (demo_reach goodOracle [.setHw 2 .unconfigured]) ss cs hl (fun _ => ['x']) (fun _ => ['y']) e he (by
    unfold listInterfaces
    refine List.mem_append_right _ (List.mem_map.2 ⟨ofEntry _ _ e, (byName_perm _).mem_iff.2 (List.mem_map.2 ⟨e, he, rfl⟩), ?_⟩)
    simp [ofEntry, typeStr])
  rw [ha] at this
  cases this

/-! ### Components -/

/-- Specification: a component whose texts are names. -/
structure Comp.Fine (c : Comp) : Prop where
  name : Name c.name
  label : Name c.label
  id : Name c.id
  cmd : ∀ p ∈ c.cmd, p.Fine
  states : ∀ p ∈ c.states, p.Fine

/-- The mark for availability, without colours. -/
def availWord (b : Bool) : Text := if b then "[available]".toList else "[unavailable]".toList

/-- The mark for claims, without colours. -/
def claimWord (b : Bool) : Text := if b then "[claimed]".toList else "[unclaimed]".toList

theorem plain_avail (on b : Bool) (t : Text) : plain (availStr on b ++ t) = availWord b ++ plain t := by
  cases b
  · rw [show availStr on false = warning on ++ "[unavailable]".toList ++ endc on from rfl, List.append_assoc, List.append_assoc, warning,
      plain_code _ _ _ (by decide), plain_append _ _ (by decide), plain_endc]; rfl
  · rw [show availStr on true = blue on ++ "[available]".toList ++ endc on from rfl, List.append_assoc, List.append_assoc, blue,
      plain_code _ _ _ (by decide), plain_append _ _ (by decide), plain_endc]; rfl

theorem plain_claim (on b : Bool) (t : Text) : plain (claimStr on b ++ t) = claimWord b ++ plain t := by
  cases b
  · rw [show claimStr on false = "[unclaimed]".toList from rfl, plain_append _ _ (by decide)]; rfl
  · rw [show claimStr on true = blue on ++ "[claimed]".toList ++ endc on from rfl, List.append_assoc, List.append_assoc, blue,
      plain_code _ _ _ (by decide), plain_append _ _ (by decide), plain_endc]; rfl

theorem words_stateItem (on : Bool) (p : Port) (h : p.Fine) :
    words (p.name ++ typeStr true p ++ ' ' :: availStr on p.available) = p.says true [if p.available then "[available]" else "[unavailable]"] := by
  unfold words
  rw [List.append_assoc, plain_append _ _ h.1.noEsc, plain_append _ _ (typeStr_noEsc h), plain_cons _ _ (by decide)]
  have := plain_avail on p.available []
  rw [List.append_nil] at this
  rw [this, show plain ([] : Text) = [] from rfl, List.append_nil, wordsFrom_append _ _ _ fun c hc => (h.1.2 c hc).1, List.nil_append,
    wordsFrom_typeStr true p h _ _ h.1.1]
  cases p.available
  · exact congrArg _ (congrArg _ (by decide))
  · exact congrArg _ (congrArg _ (by decide))

theorem words_cmdItem (on v : Bool) (p : Port) (h : p.Fine) :
    words (p.name ++ typeStr v p ++ ' ' :: availStr on p.available ++ ' ' :: claimStr on p.claimed) = p.says v p.marks := by
  have e : (p.name ++ typeStr v p ++ ' ' :: availStr on p.available ++ ' ' :: claimStr on p.claimed : Text) =
      p.name ++ (typeStr v p ++ (' ' :: (availStr on p.available ++ (' ' :: (claimStr on p.claimed ++ []))))) := by simp
  unfold words
  rw [e, plain_append _ _ h.1.noEsc, plain_append _ _ (typeStr_noEsc h), plain_cons _ _ (by decide), plain_avail, plain_cons _ _ (by decide), plain_claim,
    show plain ([] : Text) = [] from rfl, List.append_nil, wordsFrom_append _ _ _ fun c hc => (h.1.2 c hc).1, List.nil_append,
    wordsFrom_typeStr v p h _ _ h.1.1]
  have : ∀ a b : Bool, wordsFrom [] (availWord a ++ ' ' :: claimWord b) =
      List.map String.toList [if a then "[available]" else "[unavailable]", if b then "[claimed]" else "[unclaimed]"] := by decide
  rw [this]
  simp [Port.says, Port.marks]

/-- Specification: what is to be seen below the line of a component. -/
def Comp.wanted (v : Bool) (c : Comp) : List (List Text × List (List Text)) :=
  [(["name:".toList, c.name], []), (words ("type: ".toList ++ c.type), []), (words ("plugin name: ".toList ++ c.plugin), []),
   (["state:".toList, "id=".toList ++ c.id, "label=".toList ++ c.label], []), (words ("read/write rate: ".toList ++ c.rate ++ " Hz".toList), []),
   (words ("is_async: ".toList ++ c.isAsync), []),
   (["command".toList, "interfaces".toList], c.cmd.map fun p => p.says v p.marks)] ++
  (if v then [(["state".toList, "interfaces".toList], c.states.map fun p =>
    p.says true [if p.available then "[available]" else "[unavailable]"])] else [])

theorem plain_compColor (on : Bool) (i b : Text) : plain (compColor on i ++ b) = plain b := by
  unfold compColor green magenta warning fail
  split
  · exact plain_code _ _ _ (by decide)
  · split
    · exact plain_code _ _ _ (by decide)
    · split
      · exact plain_code _ _ _ (by decide)
      · exact plain_code _ _ _ (by decide)

theorem words_nameLine (on : Bool) (i n : Text) (h : Name n) : words ("name: ".toList ++ compColor on i ++ n ++ endc on) = ["name:".toList, n] := by
  have e : ("name: ".toList ++ compColor on i ++ n ++ endc on : Text) = "name: ".toList ++ (compColor on i ++ (n ++ (endc on ++ []))) := by simp
  unfold words
  rw [e, plain_append _ _ (by decide), plain_compColor, plain_append _ _ h.noEsc, plain_endc, show plain ([] : Text) = [] from rfl, List.append_nil]
  have h2 := words_name n h
  unfold words at h2
  rw [plain_self _ h.noEsc] at h2
  rw [show "name: ".toList = "name:".toList ++ [' '] by decide, List.append_assoc, wordsFrom_append _ _ _ (by decide), List.nil_append, List.cons_append,
    wordsFrom_gap _ _ (by decide), List.nil_append, h2]

theorem words_stateLine (on : Bool) (i n : Text) (hi : Name i) (h : Name n) :
    words ("state: id=".toList ++ i ++ " label=".toList ++ compColor on i ++ n ++ endc on) = ["state:".toList, "id=".toList ++ i, "label=".toList ++ n] := by
  have e : ("state: id=".toList ++ i ++ " label=".toList ++ compColor on i ++ n ++ endc on : Text) =
      "state: id=".toList ++ (i ++ (" label=".toList ++ (compColor on i ++ (n ++ (endc on ++ []))))) := by simp
  unfold words
  rw [e, plain_append _ _ (by decide), plain_append _ _ hi.noEsc, plain_append _ _ (by decide), plain_compColor, plain_append _ _ h.noEsc, plain_endc,
    show plain ([] : Text) = [] from rfl, List.append_nil]
  rw [show "state: id=".toList = "state:".toList ++ (' ' :: "id=".toList) by decide, show " label=".toList = ' ' :: "label=".toList by decide]
  simp only [List.append_assoc, List.cons_append]
  rw [wordsFrom_append _ _ _ (by decide), List.nil_append, wordsFrom_gap _ _ (by decide), wordsFrom_append _ _ _ (by decide), List.nil_append,
    wordsFrom_append _ _ _ fun c hc => (hi.2 c hc).1, wordsFrom_gap _ _ (by simp), wordsFrom_append _ _ _ (by decide), List.nil_append]
  have := wordsFrom_append ("label=".toList) n [] fun c hc => (h.2 c hc).1
  rw [List.append_nil] at this
  rw [this]
  simp [wordsFrom]

theorem head_lit (l : Text) (t : Text) (h : l ≠ [] ∧ l.head? ≠ some '\t') : (l ++ t).head? ≠ some '\t' := by
  cases l with
  | nil => exact absurd rfl h.1
  | cons c l => exact h.2

/-- What is below the line of a component, before it is split into words. -/
def Comp.raw (on v : Bool) (c : Comp) : List (Text × List Text) :=
  [("name: ".toList ++ compColor on c.id ++ c.name ++ endc on, []), ("type: ".toList ++ c.type, []), ("plugin name: ".toList ++ c.plugin, []),
   ("state: id=".toList ++ c.id ++ " label=".toList ++ compColor on c.id ++ c.label ++ endc on, []),
   ("read/write rate: ".toList ++ c.rate ++ " Hz".toList, []), ("is_async: ".toList ++ c.isAsync, []),
   ("command interfaces".toList, c.cmd.map fun p => p.name ++ typeStr v p ++ ' ' :: availStr on p.available ++ ' ' :: claimStr on p.claimed)] ++
  (if v then [("state interfaces".toList, c.states.map fun p => p.name ++ typeStr true p ++ ' ' :: availStr on p.available)] else [])

theorem sub_of (l t : Text) (s : Reader) (h : l ≠ [] ∧ l.head? ≠ some '\t') (hs : s.items = []) :
    readLine ('\t' :: (l ++ t)) s = { s with subs := (l ++ t, []) :: s.subs } := by
  rw [readLine_sub _ _ (head_lit l t h), hs]

theorem foldr_compLines (on v : Bool) (i : Text) (c : Comp) (s : Reader) (hi : s.items = []) (hs : s.subs = []) :
    (compLines on v i c).foldr readLine s = { nodes := ("Hardware Component ".toList ++ i, c.raw on v) :: s.nodes } := by
  unfold compLines
  simp only [List.foldr_append]
  have hb : ∀ x : Reader, x.items = [] → (if v then block "state interfaces" (c.states.map fun p => p.name ++ typeStr true p ++ ' ' :: availStr on p.available) else []).foldr readLine x =
      { x with subs := rawPart v "state interfaces" (c.states.map fun p => p.name ++ typeStr true p ++ ' ' :: availStr on p.available) ++ x.subs } := by
    intro x hx
    exact foldr_part v "state interfaces" _ x (by decide) hx
  rw [hb s hi, foldr_block "command interfaces" _ _ (by decide) (by exact hi)]
  simp only [List.foldr_cons, List.foldr_nil, List.cons_append, List.append_assoc]
  rw [sub_of "is_async: ".toList _ _ (by decide) (by exact hi), sub_of "read/write rate: ".toList _ _ (by decide) (by exact hi),
    sub_of "state: id=".toList _ _ (by decide) (by exact hi), sub_of "plugin name: ".toList _ _ (by decide) (by exact hi),
    sub_of "type: ".toList _ _ (by decide) (by exact hi), sub_of "name: ".toList _ _ (by decide) (by exact hi),
    readLine_node _ _ (head_lit "Hardware Component ".toList i (by decide))]
  simp only [Comp.raw, rawPart, hs, List.append_nil, List.append_assoc, List.cons_append, List.nil_append]

theorem words_raw (on v : Bool) (c : Comp) (h : c.Fine) : (c.raw on v).map (fun s => (words s.1, s.2.map words)) = c.wanted v := by
  unfold Comp.raw Comp.wanted
  rw [List.map_append]
  congr 1
  · simp only [List.map_cons, List.map_nil, List.map_map]
    rw [words_nameLine on c.id c.name h.name, words_stateLine on c.id c.label h.id h.label,
      show words "command interfaces".toList = ["command".toList, "interfaces".toList] by decide]
    congr 6
    congr 2
    exact List.map_congr_left fun p hp => words_cmdItem on v p (h.cmd p hp)
  · cases v
    · rfl
    · simp only [if_true, List.map_cons, List.map_nil, List.map_map]
      rw [show words "state interfaces".toList = ["state".toList, "interfaces".toList] by decide]
      congr 2
      exact List.map_congr_left fun p hp => words_stateItem on p (h.states p hp)

theorem foldr_comps (on v : Bool) (f : Comp × Nat → Text) (l : List (Comp × Nat)) :
    (l.flatMap fun p => compLines on v (f p) p.1).foldr readLine {} = { nodes := l.map fun p => ("Hardware Component ".toList ++ f p, p.1.raw on v) } := by
  induction l with
  | nil => rfl
  | cons c l ih => rw [List.flatMap_cons, List.foldr_append, ih, foldr_compLines on v _ c.1 _ rfl rfl]; rfl

/-- **C78 (components).** Read as an indented text, the output of `list_hardware_components` has one line for each component, numbered from 1 in the order of
the answer, and below it its name, type, plugin, state, rate and its command interfaces with their availability and whether they are claimed;
with `-v` the types of the interfaces and the state interfaces with their availability as well. -/
theorem C78_components (on v : Bool) (num : Nat → Text) (l : List Comp) (h : ∀ c ∈ l, c.Fine) :
    (outline (listComponents on v num l)).map (fun n => (n.1, n.2.map fun s => (words s.1, s.2.map words))) =
      l.zipIdx.map fun p => ("Hardware Component ".toList ++ num (p.2 + 1), p.1.wanted v) := by
  unfold outline listComponents
  rw [foldr_comps on v (fun p => num (p.2 + 1)), List.map_map]
  refine List.map_congr_left fun p hp => ?_
  have hm : p.1 ∈ l := by
    obtain ⟨_, _, e⟩ := List.mem_zipIdx hp
    rw [e]; exact List.getElem_mem _
  simp only [Function.comp_apply]
  rw [words_raw on v p.1 (h p.1 hm)]

/-! ### Completion -/

/-- **C78 (completion).** Offered for controllers not loaded yet is exactly every name whose type is a parameter of the controller manager; offered
for loaded ones is exactly every name of a listed controller in one of the states asked for. -/
theorem C78_complete (ps : List Text) (valid : List Text) (l : List Ctl) (n : Text) :
    (n ∈ completeNames ps ↔ n ++ ".type".toList ∈ ps) ∧ (n ∈ completeLoaded valid l ↔ ∃ c ∈ l, c.name = n ∧ c.state ∈ valid) := by
  constructor
  · unfold completeNames
    simp only [List.mem_map, List.mem_filter, List.isSuffixOf_iff_suffix]
    constructor
    · rintro ⟨m, ⟨hm, k, rfl⟩, rfl⟩
      rw [List.length_append, Nat.add_sub_cancel, List.take_left]
      exact hm
    · intro h
      exact ⟨_, ⟨h, ⟨n, rfl⟩⟩, by rw [List.length_append, Nat.add_sub_cancel, List.take_left]⟩
  · unfold completeLoaded
    simp only [List.mem_map, List.mem_filter, List.contains_iff_mem]
    constructor
    · rintro ⟨c, ⟨h1, h2⟩, h3⟩
      exact ⟨c, h1, h3, h2⟩
    · rintro ⟨c, h1, h3, h2⟩
      exact ⟨c, ⟨h1, h2⟩, h3⟩

/-! ## The hypotheses are met -/

/-- Two controllers, one with everything there is to print. -/
def ctls : List Ctl :=
  [{ name := "jsb".toList, type := "joint_state_broadcaster/JointStateBroadcaster".toList, state := "active".toList, rate := "100".toList,
     isAsync := "False".toList, claimed := [], reqCmd := [], reqState := ["j1/position".toList], conns := [], refs := [], states := [] },
   { name := "pid".toList, type := "p/P".toList, state := "inactive".toList, rate := "50".toList, isAsync := "True".toList,
     claimed := ["j1/effort".toList], reqCmd := ["j1/effort".toList, "j2/effort".toList], reqState := [], conns := [["a/b".toList], ["c/d".toList]],
     refs := ["pid/j1".toList], states := ["pid/e".toList] }]

/-- Two components. -/
def comps : List Comp :=
  [{ name := "arm".toList, type := "system".toList, plugin := "mock_components/GenericSystem".toList, id := "3".toList, label := "active".toList,
     rate := "100".toList, isAsync := "False".toList, cmd := [⟨"j1/position".toList, "double".toList, true, true⟩],
     states := [⟨"j1/position".toList, "double".toList, true, false⟩] },
   { name := "cam".toList, type := "sensor".toList, plugin := "p/Cam".toList, id := "1".toList, label := "unconfigured".toList,
     rate := "10".toList, isAsync := "True".toList, cmd := [], states := [⟨"cam/on".toList, "bool".toList, false, false⟩] }]

instance (t : Text) : Decidable (Name t) := inferInstanceAs (Decidable (_ ∧ _))

theorem ctls_fine : ∀ c ∈ ctls, c.Fine := by
  intro c hc
  simp only [ctls, List.mem_cons, List.not_mem_nil, or_false] at hc
  rcases hc with rfl | rfl <;> exact ⟨by decide, by decide, by decide, by decide, by decide, by decide, by decide, by decide, by decide⟩

theorem comps_fine : ∀ c ∈ comps, c.Fine := by
  intro c hc
  simp only [comps, List.mem_cons, List.not_mem_nil, or_false] at hc
  rcases hc with rfl | rfl <;> exact ⟨by decide, by decide, by decide, by simp only [Port.Fine]; decide, by simp only [Port.Fine]; decide⟩

example : (outline (listControllers true { chained := true } ctls)).map (fun n => (words n.1, n.2.map fun s => (s.1, s.2.map words))) =
    ctls.map fun c => ([c.name, c.type, c.state], wanted { chained := true } c) := C78_controllers true _ ctls (by decide) ctls_fine

example : (listControllers false { chained := true } ctls).map String.ofList =
    ["jsb joint_state_broadcaster/JointStateBroadcaster  active  ", "\tchained to interfaces:",
     "pid p/P                                            inactive", "\tchained to interfaces:", "\t\ta/b                 ", "\t\tc/d                 "] := by
  decide +kernel

example : (outline (listComponents true true (fun n => (toString n).toList) comps)).length = 2 := by
  have := congrArg List.length (C78_components true true (fun n => (toString n).toList) comps comps_fine)
  simpa [comps] using this

example : (comps.map fun c => c.wanted true) ≠ (comps.map fun c => c.wanted false) := by decide +kernel

example : completeNames ["a.type".toList, "update_rate".toList, "b.type".toList] = ["a".toList, "b".toList] := by decide +kernel

example : ∃ p : Port, p.Fine ∧ (p.claimed = true → p.available = true) := ⟨⟨"j1/position".toList, "double".toList, true, true⟩, by simp only [Port.Fine]; decide, fun _ => rfl⟩

end Lists
end Verif
