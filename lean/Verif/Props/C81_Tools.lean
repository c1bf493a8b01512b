import Verif.Argv.Tools
import Verif.Props.C59_Spawner
import Mathlib.Data.List.Infix
/-!
# C81: the command lines of the hardware spawner and the unspawner

Specification: a line written by a person who follows the help text, and what it says.
-/
namespace Verif.Argv

/-! ## Specification -/

/-- An option of the help text, how it is written, and its value. -/
structure TSetting where
  key : TKey
  form : Form := .spaced
  value : Str := []
deriving DecidableEq, Repr

def tlong : TKey → Str
  | .cm => str "--controller-manager"
  | .cmTimeout => str "--controller-manager-timeout"
  | .switchTimeout => str "--switch-timeout"
  | .activate => str "--activate"
  | .configure => str "--configure"
  | .help => str "--help"

def tshort : TKey → Option Str
  | .cm => some (str "-c")
  | _ => none

def ttakes : TKey → Bool
  | .cm | .cmTimeout | .switchTimeout => true
  | _ => false

def TSetting.words (s : TSetting) : List Str :=
  if ttakes s.key then
    match s.form with
    | .spaced => [tlong s.key, s.value]
    | .short => [(tshort s.key).getD (tlong s.key), s.value]
    | .eq => [tlong s.key ++ '=' :: s.value]
  else [tlong s.key]

/-- The options of the hardware spawner's and of the unspawner's help text. -/
def hwKey : TKey → Bool
  | .cm | .cmTimeout | .activate | .configure => true
  | _ => false

def unKey : TKey → Bool
  | .cm | .switchTimeout => true
  | _ => false

/-- Written properly: a value after a blank can stand alone, and times are numbers. -/
def TSetting.Ok (mine : TKey → Bool) (fl : Str → Bool) (s : TSetting) : Prop :=
  mine s.key = true ∧ (ttakes s.key = true → s.form ≠ .eq → Value s.value) ∧ (s.key = .cmTimeout ∨ s.key = .switchTimeout → fl s.value = true)

def tgiven (k : TKey) (l : List TSetting) : List Str := (l.filter (fun s => s.key = k)).map (·.value)

def thas (k : TKey) (l : List TSetting) : Bool := l.any (fun s => s.key = k)

def twords (l : List TSetting) : List Str := l.flatMap TSetting.words

/-- Options, names, options. -/
def tline (pre : List TSetting) (ns : List Str) (post : List TSetting) : List Str := twords pre ++ ns ++ twords post

/-! ## Lemmas: lines made of settings -/

structure TGood (P : Parser TKey) (mine : TKey → Bool) : Prop where
  tidy : Tidy P
  shorts : Shorts P
  arity : P.arity = TKey.arity
  nohelp : mine .help = false
  long : ∀ k, mine k = true → classify P (tlong k) = .opt k true none
  short : ∀ k w, mine k = true → tshort k = some w → classify P w = .opt k false none
  look : ∀ k, mine k = true → P.opts.lookup (tlong k) = some k

theorem good_hw : TGood hwParser hwKey where
  tidy := by decide +kernel
  shorts := by decide +kernel
  arity := rfl
  nohelp := rfl
  long := by intro k h; cases k <;> first | (simp [hwKey] at h; done) | decide +kernel
  short := by
    intro k w h h3
    cases k <;> first | (simp [tshort] at h3; done) | (obtain rfl := Option.some.inj h3; decide +kernel)
  look := by intro k h; cases k <;> first | (simp [hwKey] at h; done) | decide +kernel

theorem good_un : TGood unParser unKey where
  tidy := by decide +kernel
  shorts := by decide +kernel
  arity := rfl
  nohelp := rfl
  long := by intro k h; cases k <;> first | (simp [unKey] at h; done) | decide +kernel
  short := by
    intro k w h h3
    cases k <;> first | (simp [tshort] at h3; done) | (obtain rfl := Option.some.inj h3; decide +kernel)
  look := by intro k h; cases k <;> first | (simp [unKey] at h; done) | decide +kernel

theorem tlong_ne (k : TKey) : tlong k ≠ sepW ∧ '=' ∉ tlong k ∧ isLong (tlong k) = true ∧ (tlong k).head? = some '-' ∧
    2 ≤ (tlong k).length := by cases k <;> decide +kernel

theorem tshort_ne (k : TKey) (w : Str) (h : tshort k = some w) : w ≠ sepW := by
  cases k <;> first | (simp [tshort] at h; done) | (obtain rfl := Option.some.inj h; decide +kernel)

theorem tarity (k : TKey) : k.arity = if ttakes k then .one else .zero := by cases k <;> rfl

theorem eq_ne_sep (n v : Str) : n ++ '=' :: v ≠ sepW := by
  intro e
  have : '=' ∈ sepW := by rw [← e]; simp
  revert this; decide

variable {P : Parser TKey} {mine : TKey → Bool} {fl : Str → Bool}

theorem tname (g : TGood P mine) (k : TKey) (hm : mine k = true) (w : Str) (hw : w = tlong k ∨ w = (tshort k).getD (tlong k)) :
    w ≠ sepW ∧ ∃ b, classify P w = .opt k b none := by
  have hl : tlong k ≠ sepW ∧ ∃ b, classify P (tlong k) = .opt k b none := ⟨(tlong_ne _).1, true, g.long _ hm⟩
  rcases hw with rfl | rfl
  · exact hl
  · cases hs : tshort k with
    | none => simpa [hs] using hl
    | some x => exact ⟨tshort_ne _ _ hs, false, g.short _ _ hm hs⟩

theorem tev (g : TGood P mine) (s : TSetting) (ok : s.Ok mine fl) (r : List Str) :
    ev P (s.words ++ r) = .took s.key (if ttakes s.key then [s.value] else []) :: ev P r := by
  obtain ⟨hm, h3, _⟩ := ok
  have ha : P.arity s.key = if ttakes s.key then .one else .zero := by rw [g.arity]; exact tarity _
  unfold TSetting.words
  by_cases ht : ttakes s.key = true
  · simp only [ht, if_true] at ha ⊢
    have two : ∀ w, (w = tlong s.key ∨ w = (tshort s.key).getD (tlong s.key)) → s.form ≠ .eq →
        ev P ([w, s.value] ++ r) = .took s.key [s.value] :: ev P r := by
      intro w hw hf
      obtain ⟨hn, b, hc⟩ := tname g s.key hm w hw
      exact ev_value P w s.value r s.key b hn hc ha (value_sep (h3 ht hf)) (classify_value P g.tidy g.shorts _ (h3 ht hf))
    cases hf : s.form with
    | spaced => exact two _ (Or.inl rfl) (by simp [hf])
    | short => exact two _ (Or.inr rfl) (by simp [hf])
    | eq =>
      have hl := tlong_ne s.key
      exact ev_attached P _ s.value r s.key (isLong (tlong s.key)) true (eq_ne_sep _ _)
        (classify_eq P g.tidy _ _ _ hl.2.1 hl.2.2.2.1 hl.2.2.2.2 (g.look _ hm)) ha
  · simp only [ht, Bool.false_eq_true, if_false] at ha ⊢
    obtain ⟨hn, b, hc⟩ := tname g s.key hm _ (Or.inl rfl)
    exact ev_flag P _ r s.key b hn hc ha

theorem tcalm (g : TGood P mine) (s : TSetting) (ok : s.Ok mine fl) : Calm P s.words := by
  obtain ⟨hm, h3, _⟩ := ok
  have nm : ∀ w, (w = tlong s.key ∨ w = (tshort s.key).getD (tlong s.key)) → w ≠ sepW ∧ classify P w ≠ .ambiguous := by
    intro w hw
    obtain ⟨hn, b, hc⟩ := tname g s.key hm w hw
    exact ⟨hn, by rw [hc]; simp⟩
  have vl : ttakes s.key = true → s.form ≠ .eq → s.value ≠ sepW ∧ classify P s.value ≠ .ambiguous := fun ht hf =>
    ⟨value_sep (h3 ht hf), by rw [classify_value P g.tidy g.shorts _ (h3 ht hf)]; simp⟩
  intro w hw
  unfold TSetting.words at hw
  by_cases ht : ttakes s.key = true
  · simp only [ht, if_true] at hw
    cases hf : s.form with
    | spaced =>
      simp [hf] at hw
      rcases hw with rfl | rfl
      · exact nm _ (Or.inl rfl)
      · exact vl ht (by simp [hf])
    | short =>
      simp [hf] at hw
      rcases hw with rfl | rfl
      · exact nm _ (Or.inr rfl)
      · exact vl ht (by simp [hf])
    | eq =>
      simp [hf] at hw
      subst hw
      have hl := tlong_ne s.key
      exact ⟨eq_ne_sep _ _, by rw [classify_eq P g.tidy _ _ _ hl.2.1 hl.2.2.2.1 hl.2.2.2.2 (g.look _ hm)]; simp⟩
  · simp only [ht, Bool.false_eq_true, if_false, List.mem_cons, List.not_mem_nil, or_false] at hw
    subst hw
    exact nm _ (Or.inl rfl)

/-- One setting. -/
def tupd (fl : Str → Bool) (s : TNs) (x : TSetting) : Except Stop TNs := tact fl s x.key (if ttakes x.key then [x.value] else [])

/-- All settings in turn. -/
def tfold (fl : Str → Bool) : List TSetting → TNs → Except Stop TNs
  | [], s => .ok s
  | x :: t, s => (tupd fl s x).bind (tfold fl t)

theorem tfold_append (a b : List TSetting) (s : TNs) : tfold fl (a ++ b) s = (tfold fl a s).bind (tfold fl b) := by
  induction a generalizing s with
  | nil => rfl
  | cons x t ih =>
    simp only [List.cons_append, tfold]
    cases tupd fl s x with
    | error e => rfl
    | ok s' => exact ih s'

theorem tstrict_settings (g : TGood P mine) (l : List TSetting) (ok : ∀ x ∈ l, x.Ok mine fl) (r : List Str) (s : TNs) (n : Names) (ex : Bool)
    (hn : n.close = n ∨ l ≠ []) :
    tstrict fl (ev P (twords l ++ r)) s n ex = (tfold fl l s).bind (fun s' => tstrict fl (ev P r) s' n.close ex) := by
  induction l generalizing s n with
  | nil =>
    rcases hn with h | h
    · rw [h]; rfl
    · exact absurd rfl h
  | cons x t ih =>
    have hx := ok x (by simp)
    simp only [twords, List.flatMap_cons, List.append_assoc]
    rw [tev g x hx, tstrict]
    have hc : n.close.close = n.close := by cases n <;> rfl
    simp only [tfold, tupd]
    cases tact fl s x.key (if ttakes x.key = true then [x.value] else []) with
    | error e => rfl
    | ok s' =>
      simp only [Except.bind]
      have := ih (fun y hy => ok y (by simp [hy])) s' n.close (Or.inl hc)
      rw [hc] at this
      exact this

theorem tstrict_words (g : TGood P mine) (ns : List Str) (hv : ∀ n ∈ ns, Value n) (r : List Str) (s : TNs) (l : List Str) (ex : Bool) :
    tstrict fl (ev P (ns ++ r)) s (.during l) ex = tstrict fl (ev P r) s (.during (l ++ ns)) ex := by
  induction ns generalizing l with
  | nil => simp
  | cons n t ih =>
    have hn := hv n (by simp)
    rw [List.cons_append, ev_pos _ _ _ (value_sep hn) (classify_value _ g.tidy g.shorts _ hn), tstrict,
      ih (fun n hn => hv n (by simp [hn]))]
    simp

/-- What settings say. -/
def tsaid (l : List TSetting) : TNs where
  cm := (tgiven .cm l).getLast?
  cmTimeout := (tgiven .cmTimeout l).getLast?
  switchTimeout := (tgiven .switchTimeout l).getLast?
  activate := thas .activate l
  configure := thas .configure l

theorem tgiven_append (k : TKey) (a b : List TSetting) : tgiven k (a ++ b) = tgiven k a ++ tgiven k b := by simp [tgiven]

theorem thas_append (k : TKey) (a b : List TSetting) : thas k (a ++ b) = (thas k a || thas k b) := by simp [thas]

theorem tfold_said (g : TGood P mine) (l : List TSetting) (ok : ∀ x ∈ l, x.Ok mine fl) :
    tfold fl l {} = if thas .activate l = true ∧ thas .configure l = true then .error .error else .ok (tsaid l) := by
  induction l using List.reverseRecOn with
  | nil => rfl
  | append_singleton a x ih =>
    rw [tfold_append, ih (fun y hy => ok y (by simp [hy]))]
    obtain ⟨hm, -, h4⟩ := ok x (by simp)
    have hh : x.key ≠ .help := by intro e; rw [e, g.nohelp] at hm; cases hm
    simp only [tsaid, tgiven_append, thas_append]
    cases hka : thas .activate a <;> cases hkc : thas .configure a <;> cases hk : x.key <;>
      first
      | exact absurd hk hh
      | (simp only [hk, or_true, forall_const, reduceCtorEq, or_false] at h4
         simp [tfold, tupd, tact, ttakes, Except.bind, hk, tgiven, thas, h4])

theorem twords_mem {l : List TSetting} {w : Str} (h : w ∈ twords l) : ∃ s ∈ l, w ∈ s.words := by
  simpa [twords, List.mem_flatMap] using h

theorem tline_parsed (g : TGood P mine) (pre : List TSetting) (ns : List Str) (post : List TSetting) (hne : ns ≠ []) (hv : ∀ n ∈ ns, Value n)
    (okp : ∀ x ∈ pre, x.Ok mine fl) (okq : ∀ x ∈ post, x.Ok mine fl) :
    tstrict fl (parse P (tline pre ns post)) {} .before false =
      if thas .activate (pre ++ post) = true ∧ thas .configure (pre ++ post) = true then .error .error else .ok (tsaid (pre ++ post), ns) := by
  have hcalm : Calm P (tline pre ns post) := by
    intro w hw
    rcases List.mem_append.mp hw with hw | hw
    · rcases List.mem_append.mp hw with hw | hw
      · obtain ⟨s, hs, hw⟩ := twords_mem hw
        exact tcalm g s (okp s hs) w hw
      · exact ⟨value_sep (hv w hw), by rw [classify_value _ g.tidy g.shorts _ (hv w hw)]; simp⟩
    · obtain ⟨s, hs, hw⟩ := twords_mem hw
      exact tcalm g s (okq s hs) w hw
  have hall := tfold_said g (pre ++ post) (fun x hx => (List.mem_append.mp hx).elim (okp x) (okq x))
  have key : tstrict fl (ev P (tline pre ns post)) {} .before false = (tfold fl (pre ++ post) {}).bind (fun s => .ok (s, ns)) := by
    unfold tline
    rw [List.append_assoc, tstrict_settings g pre okp _ _ _ _ (Or.inl rfl), tfold_append]
    cases tfold fl pre {} with
    | error e => rfl
    | ok s =>
      simp only [Except.bind]
      cases ns with
      | nil => exact absurd rfl hne
      | cons n t =>
        have hn := hv n (by simp)
        rw [List.cons_append, ev_pos _ _ _ (value_sep hn) (classify_value _ g.tidy g.shorts _ hn)]
        simp only [Names.close, tstrict]
        rw [tstrict_words g t (fun n hn => hv n (by simp [hn]))]
        cases hp : post with
        | nil => simp [twords, ev, tokens, run, tstrict, tfold]
        | cons x q =>
          have := tstrict_settings g post okq [] s (.during ([n] ++ t)) false (Or.inr (by simp [hp]))
          rw [List.append_nil] at this
          rw [← hp, this]
          simp [ev, tokens, run, tstrict, Names.close, Except.bind]
  rw [parse_ev _ _ hcalm, key, hall]
  split <;> rfl

/-! ## Lines that follow the help text -/

/-- **C81, the hardware spawner.** On a line `[options] names [options]` the components are the names, in their order; of several controller managers
and times the last counts; with one of the two flags (any number of times) it is what is done with all of them, with none or with both the program
ends with exit code 2 before it has asked for anything. -/
theorem C81_hw (pre : List TSetting) (ns : List Str) (post : List TSetting) (hne : ns ≠ []) (hv : ∀ n ∈ ns, Value n)
    (okp : ∀ x ∈ pre, x.Ok hwKey fl) (okq : ∀ x ∈ post, x.Ok hwKey fl) :
    hwArgs fl (tline pre ns post) =
      if thas .activate (pre ++ post) = thas .configure (pre ++ post) then .error .error
      else .ok { comps := ns, cm := (tgiven .cm (pre ++ post)).getLast?.getD (str "controller_manager"),
                 cmTimeout := (tgiven .cmTimeout (pre ++ post)).getLast?, activate := thas .activate (pre ++ post) } := by
  unfold hwArgs
  rw [tline_parsed good_hw pre ns post hne hv okp okq]
  cases ha : thas .activate (pre ++ post) <;> cases hc : thas .configure (pre ++ post) <;> simp [Except.bind, tsaid, ha, hc]

/-- **C81, the unspawner.** On a line `[options] names [options]` the controllers are the names, in their order; of several controller managers
and times the last counts. -/
theorem C81_un (pre : List TSetting) (ns : List Str) (post : List TSetting) (hne : ns ≠ []) (hv : ∀ n ∈ ns, Value n)
    (okp : ∀ x ∈ pre, x.Ok unKey fl) (okq : ∀ x ∈ post, x.Ok unKey fl) :
    unArgs fl (tline pre ns post) =
      .ok { ctrls := ns, cm := (tgiven .cm (pre ++ post)).getLast?.getD (str "/controller_manager"),
            switchTimeout := (tgiven .switchTimeout (pre ++ post)).getLast? } := by
  unfold unArgs
  have no : ∀ k, unKey k = false → thas k (pre ++ post) = false := by
    intro k hk
    rw [Bool.eq_false_iff]
    intro h
    simp only [thas, List.any_eq_true, decide_eq_true_eq] at h
    obtain ⟨x, hx, rfl⟩ := h
    have : unKey x.key = true := ((List.mem_append.mp hx).elim (okp x) (okq x)).1
    rw [hk] at this; cases this
  rw [tline_parsed good_un pre ns post hne hv okp okq, no .activate rfl]
  simp [Except.map, tsaid]

/-! ## All lines -/

/-- The free words among the events. -/
def wordsIn (es : List (Ev TKey)) : List Str := es.filterMap (fun e => match e with | .word w => some w | _ => none)

theorem wordsIn_append (a b : List (Ev TKey)) : wordsIn (a ++ b) = wordsIn a ++ wordsIn b := by simp [wordsIn]

theorem expand_words (P : Parser TKey) : ∀ n k long eq arg es pend, expand P n k long eq arg = some (es, pend) → wordsIn es = [] := by
  intro n
  induction n with
  | zero => intro k long eq arg es pend h; simp [expand] at h
  | succ n ih =>
    intro k long eq arg es pend h
    unfold expand at h
    cases ha : P.arity k with
    | zero =>
      simp only [ha] at h
      split at h
      · simp at h
      · cases arg with
        | nil => simp at h
        | cons c t =>
          simp only at h
          split at h
          · simp at h
          · cases hl : P.opts.lookup ['-', c] with
            | none => simp only [hl, Option.some.injEq, Prod.mk.injEq] at h; rw [← h.1]; rfl
            | some k' =>
              simp only [hl] at h
              split at h
              · simp only [Option.some.injEq, Prod.mk.injEq] at h; rw [← h.1]; rfl
              · simp only [Option.map_eq_some_iff, Prod.mk.injEq] at h
                obtain ⟨r, hr, h1, -⟩ := h
                rw [← h1]; exact ih _ _ _ _ r.1 r.2 hr
              · simp only [Option.map_eq_some_iff, Prod.mk.injEq] at h
                obtain ⟨r, hr, h1, -⟩ := h
                rw [← h1]; exact ih _ _ _ _ r.1 r.2 hr
    | one => simp only [ha, Option.some.injEq, Prod.mk.injEq] at h; rw [← h.1]; rfl
    | many => simp only [ha, Option.some.injEq, Prod.mk.injEq] at h; rw [← h.1]; rfl

theorem attached_words (P : Parser TKey) (k : TKey) (long : Bool) (att : Option (Bool × Str)) (es : List (Ev TKey)) (pend : Option TKey)
    (h : attached P k long att = some (es, pend)) : wordsIn es = [] := by
  cases att with
  | none => simp only [attached, Option.some.injEq, Prod.mk.injEq] at h; rw [← h.1]; rfl
  | some a => exact expand_words P _ _ _ _ _ _ _ h

theorem posSpan_suffix (l : List (Str × Option (Cls TKey))) : ((posSpan l).2.map Prod.fst).Sublist (l.map Prod.fst) := by
  induction l with
  | nil => exact List.Sublist.refl _
  | cons a t ih =>
    obtain ⟨s, c⟩ := a
    cases c with
    | none => exact List.Sublist.refl _
    | some c => cases c <;> first | exact List.Sublist.refl _ | exact ih.trans (List.sublist_cons_self _ _)

theorem run_words (P : Parser TKey) : ∀ n ts, (wordsIn (run P n ts)).Sublist (ts.map Prod.fst) := by
  intro n
  induction n with
  | zero => intro ts; rw [run]; exact List.nil_sublist _
  | succ n ih =>
    intro ts
    cases ts with
    | nil => rw [run]; exact List.nil_sublist _; simp
    | cons a r =>
      obtain ⟨s, c⟩ := a
      have up : ∀ l : List Str, l.Sublist (r.map Prod.fst) → l.Sublist (((s, c) :: r).map Prod.fst) := fun l h => h.trans (List.sublist_cons_self _ _)
      cases c with
      | none => rw [run]; exact up _ (ih r)
      | some c =>
        cases c with
        | pos => rw [run]; exact (ih r).cons_cons s
        | unknown => rw [run]; exact up _ (ih r)
        | ambiguous => rw [run]; exact List.nil_sublist _
        | opt k long att =>
          rw [run]
          cases hat : attached P k long att with
          | none => exact List.nil_sublist _
          | some x =>
            obtain ⟨es, pend⟩ := x
            have he := attached_words P k long att es pend hat
            simp only [wordsIn_append, he, List.nil_append]
            cases pend with
            | none => exact up _ (ih r)
            | some k' =>
              simp only
              cases P.arity k' with
              | zero => exact up _ (ih r)
              | one =>
                simp only
                cases r with
                | nil => exact List.nil_sublist _
                | cons b r' =>
                  obtain ⟨s', c'⟩ := b
                  cases c' with
                  | none => exact List.nil_sublist _
                  | some c' =>
                    cases c' <;> first | exact List.nil_sublist _ | exact up _ ((ih r').trans (List.sublist_cons_self _ _))
              | many => exact up _ ((ih _).trans (posSpan_suffix r))

theorem tokens_fst (P : Parser TKey) (args : List Str) : (tokens P args).map Prod.fst = args := by
  induction args with
  | nil => rfl
  | cons w r ih =>
    rw [tokens]
    split
    · simp [Function.comp_def]
    · simp [ih]

theorem parse_words (P : Parser TKey) (args : List Str) : (wordsIn (parse P args)).Sublist args := by
  unfold parse
  simp only
  split
  · exact List.nil_sublist _
  · have := run_words P (tokens P args).length (tokens P args)
    rwa [tokens_fst] at this

/-- The names so far. -/
def Names.got : Names → List Str
  | .before => []
  | .during l => l
  | .after l => l

theorem tstrict_inv : ∀ (es : List (Ev TKey)) (s : TNs) (n : Names) (ex : Bool) (r : TNs × List Str), tstrict fl es s n ex = .ok r →
    (∃ more, r.2 = n.got ++ more ∧ more.Sublist (wordsIn es)) ∧ r.2 ≠ [] ∧
    (¬ (s.activate = true ∧ s.configure = true) → ¬ (r.1.activate = true ∧ r.1.configure = true)) ∧
    (r.1.activate = true → s.activate = true ∨ ∃ a, Ev.took .activate a ∈ es) ∧
    (r.1.configure = true → s.configure = true ∨ ∃ a, Ev.took .configure a ∈ es) := by
  intro es
  induction es with
  | nil =>
    intro s n ex r h
    cases n with
    | before => simp [tstrict] at h
    | during l =>
      simp only [tstrict] at h
      split at h
      · simp at h
      · rename_i hl
        simp only [Except.ok.injEq] at h
        subst h
        exact ⟨⟨[], by simp [Names.got], List.nil_sublist _⟩, fun e => hl (.inl e), id, .inl, .inl⟩
    | after l =>
      simp only [tstrict] at h
      split at h
      · simp at h
      · rename_i hl
        simp only [Except.ok.injEq] at h
        subst h
        exact ⟨⟨[], by simp [Names.got], List.nil_sublist _⟩, fun e => hl (.inl e), id, .inl, .inl⟩
  | cons e t ih =>
    intro s n ex r h
    have lift : ∀ n' ex', n'.got = n.got → wordsIn (e :: t) = wordsIn t → tstrict fl t s n' ex' = .ok r →
        (∃ more, r.2 = n.got ++ more ∧ more.Sublist (wordsIn (e :: t))) ∧ r.2 ≠ [] ∧
        (¬ (s.activate = true ∧ s.configure = true) → ¬ (r.1.activate = true ∧ r.1.configure = true)) ∧
        (r.1.activate = true → s.activate = true ∨ ∃ a, Ev.took .activate a ∈ e :: t) ∧
        (r.1.configure = true → s.configure = true ∨ ∃ a, Ev.took .configure a ∈ e :: t) := by
      intro n' ex' hn hw h'
      obtain ⟨⟨m, m1, m2⟩, h2, h3, h4, h5⟩ := ih s n' ex' r h'
      exact ⟨⟨m, by rw [← hn]; exact m1, by rw [hw]; exact m2⟩, h2, h3, fun x => (h4 x).imp_right (fun ⟨a, ha⟩ => ⟨a, List.mem_cons_of_mem _ ha⟩),
        fun x => (h5 x).imp_right (fun ⟨a, ha⟩ => ⟨a, List.mem_cons_of_mem _ ha⟩)⟩
    cases e with
    | bad => simp [tstrict] at h
    | extra w =>
      simp only [tstrict] at h
      exact lift n.close true (by cases n <;> rfl) rfl h
    | sep =>
      cases n with
      | before => simp only [tstrict] at h; exact lift (.during []) ex rfl rfl h
      | during l => simp only [tstrict] at h; exact lift (.during l) ex rfl rfl h
      | after l => simp only [tstrict] at h; exact lift (.after l) true rfl rfl h
    | word w =>
      cases n with
      | after l => simp only [tstrict] at h; exact (by
          obtain ⟨⟨m, m1, m2⟩, h2, h3, h4, h5⟩ := ih s _ _ r h
          exact ⟨⟨m, m1, m2.trans (List.sublist_cons_self _ _)⟩, h2, h3, fun x => (h4 x).imp_right (fun ⟨a, ha⟩ => ⟨a, List.mem_cons_of_mem _ ha⟩),
            fun x => (h5 x).imp_right (fun ⟨a, ha⟩ => ⟨a, List.mem_cons_of_mem _ ha⟩)⟩)
      | before =>
        simp only [tstrict] at h
        obtain ⟨⟨m, m1, m2⟩, h2, h3, h4, h5⟩ := ih s _ _ r h
        exact ⟨⟨w :: m, m1, m2.cons_cons w⟩, h2, h3, fun x => (h4 x).imp_right (fun ⟨a, ha⟩ => ⟨a, List.mem_cons_of_mem _ ha⟩),
          fun x => (h5 x).imp_right (fun ⟨a, ha⟩ => ⟨a, List.mem_cons_of_mem _ ha⟩)⟩
      | during l =>
        simp only [tstrict] at h
        obtain ⟨⟨m, m1, m2⟩, h2, h3, h4, h5⟩ := ih s _ _ r h
        exact ⟨⟨w :: m, by simpa [Names.got] using m1, m2.cons_cons w⟩, h2, h3, fun x => (h4 x).imp_right (fun ⟨a, ha⟩ => ⟨a, List.mem_cons_of_mem _ ha⟩),
          fun x => (h5 x).imp_right (fun ⟨a, ha⟩ => ⟨a, List.mem_cons_of_mem _ ha⟩)⟩
    | took k a =>
      simp only [tstrict] at h
      cases hs : tact fl s k a with
      | error e => rw [hs] at h; simp [Except.bind] at h
      | ok s' =>
        rw [hs] at h
        obtain ⟨⟨m, m1, m2⟩, h2, h3, h4, h5⟩ := ih s' _ _ r h
        have hn : n.close.got = n.got := by cases n <;> rfl
        have step : (¬ (s.activate = true ∧ s.configure = true) → ¬ (s'.activate = true ∧ s'.configure = true)) ∧
            (s'.activate = true → s.activate = true ∨ k = .activate) ∧ (s'.configure = true → s.configure = true ∨ k = .configure) := by
          unfold tact at hs
          split at hs <;> (try split at hs) <;> simp only [Except.ok.injEq, reduceCtorEq] at hs <;> subst hs <;> simp_all
        refine ⟨⟨m, by rw [← hn]; exact m1, m2⟩, h2, fun x => h3 (step.1 x), fun x => ?_, fun x => ?_⟩
        · rcases h4 x with h4 | ⟨b, hb⟩
          · rcases step.2.1 h4 with h4 | rfl
            · exact .inl h4
            · exact .inr ⟨a, by simp⟩
          · exact .inr ⟨b, List.mem_cons_of_mem _ hb⟩
        · rcases h5 x with h4 | ⟨b, hb⟩
          · rcases step.2.2 h4 with h4 | rfl
            · exact .inl h4
            · exact .inr ⟨a, by simp⟩
          · exact .inr ⟨b, List.mem_cons_of_mem _ hb⟩

/-- An option that takes effect was named by a word, or by a letter after a short option. -/
theorem expand_took (P : Parser TKey) (j : TKey) (hj : ∀ c, P.opts.lookup ['-', c] ≠ some j) :
    ∀ n k long eq arg es pend, k ≠ j → expand P n k long eq arg = some (es, pend) → (∀ a, Ev.took j a ∉ es) ∧ pend ≠ some j := by
  intro n
  induction n with
  | zero => intro k long eq arg es pend _ h; simp [expand] at h
  | succ n ih =>
    intro k long eq arg es pend hk h
    unfold expand at h
    have one : ∀ x, (∀ a, Ev.took j a ∉ [Ev.took k x]) := by intro x a; simp [Ne.symm hk]
    cases ha : P.arity k with
    | zero =>
      simp only [ha] at h
      split at h
      · simp at h
      · cases arg with
        | nil => simp at h
        | cons c t =>
          simp only at h
          split at h
          · simp at h
          · cases hl : P.opts.lookup ['-', c] with
            | none =>
              simp only [hl, Option.some.injEq, Prod.mk.injEq] at h
              rw [← h.1, ← h.2]
              exact ⟨by intro a; simp [Ne.symm hk], by simp⟩
            | some k' =>
              have hk' : k' ≠ j := by rintro rfl; exact hj c hl
              simp only [hl] at h
              split at h
              · simp only [Option.some.injEq, Prod.mk.injEq] at h
                rw [← h.1, ← h.2]
                exact ⟨one _, by simp [hk']⟩
              · simp only [Option.map_eq_some_iff, Prod.mk.injEq] at h
                obtain ⟨r, hr, h1, h2⟩ := h
                obtain ⟨i1, i2⟩ := ih _ _ _ _ _ _ hk' hr
                rw [← h1, ← h2]
                exact ⟨by intro a; simp [Ne.symm hk, i1 a], i2⟩
              · simp only [Option.map_eq_some_iff, Prod.mk.injEq] at h
                obtain ⟨r, hr, h1, h2⟩ := h
                obtain ⟨i1, i2⟩ := ih _ _ _ _ _ _ hk' hr
                rw [← h1, ← h2]
                exact ⟨by intro a; simp [Ne.symm hk, i1 a], i2⟩
    | one =>
      simp only [ha, Option.some.injEq, Prod.mk.injEq] at h
      rw [← h.1, ← h.2]; exact ⟨one _, by simp⟩
    | many =>
      simp only [ha, Option.some.injEq, Prod.mk.injEq] at h
      rw [← h.1, ← h.2]; exact ⟨one _, by simp⟩

theorem posSpan_mem (l : List (Str × Option (Cls TKey))) : ∀ x ∈ (posSpan l).2, x ∈ l := by
  induction l with
  | nil => intro x h; exact h
  | cons a t ih =>
    obtain ⟨s, c⟩ := a
    intro x h
    cases c with
    | none => exact h
    | some c => cases c <;> first | exact h | exact List.mem_cons_of_mem _ (ih x h)

theorem run_took (P : Parser TKey) (j : TKey) (hj : ∀ c, P.opts.lookup ['-', c] ≠ some j) :
    ∀ n ts a, Ev.took j a ∈ run P n ts → ∃ w long att, (w, some (.opt j long att)) ∈ ts ∧ attached P j long att ≠ none := by
  intro n
  induction n with
  | zero => intro ts a h; rw [run] at h; simp at h
  | succ n ih =>
    intro ts a h
    cases ts with
    | nil => simp [run] at h
    | cons b r =>
      obtain ⟨s, c⟩ := b
      have up : ∀ r' a, (∀ x ∈ r', x ∈ (s, c) :: r) → Ev.took j a ∈ run P n r' →
          ∃ w long att, (w, some (.opt j long att)) ∈ (s, c) :: r ∧ attached P j long att ≠ none := by
        intro r' a hr h
        obtain ⟨w, l, t, h1, h2⟩ := ih r' a h
        exact ⟨w, l, t, hr _ h1, h2⟩
      cases c with
      | none => rw [run] at h; exact up r a (fun x hx => by simp [hx]) (by simpa using h)
      | some c =>
        cases c with
        | pos => rw [run] at h; exact up r a (fun x hx => by simp [hx]) (by simpa using h)
        | unknown => rw [run] at h; exact up r a (fun x hx => by simp [hx]) (by simpa using h)
        | ambiguous => rw [run] at h; simp at h
        | opt k long att =>
          rw [run] at h
          cases hat : attached P k long att with
          | none => rw [hat] at h; simp at h
          | some x =>
            obtain ⟨es, pend⟩ := x
            by_cases hk : k = j
            · subst hk
              exact ⟨s, long, att, by simp, by rw [hat]; simp⟩
            · have hep : (∀ a, Ev.took j a ∉ es) ∧ pend ≠ some j := by
                cases att with
                | none => simp only [attached, Option.some.injEq, Prod.mk.injEq] at hat; rw [← hat.1, ← hat.2]; exact ⟨by simp, by simp [hk]⟩
                | some y => exact expand_took P j hj _ _ _ _ _ _ _ hk hat
              rw [hat] at h
              simp only [List.mem_append] at h
              rcases h with h | h
              · exact absurd h (hep.1 a)
              · cases pend with
                | none => exact up r a (fun x hx => by simp [hx]) h
                | some k' =>
                  have hk' : j ≠ k' := fun e => hep.2 (by rw [e])
                  simp only at h
                  cases har : P.arity k' with
                  | zero => rw [har] at h; exact up r a (fun x hx => by simp [hx]) (by simpa [hk'] using h)
                  | one =>
                    rw [har] at h
                    simp only at h
                    split at h
                    · rename_i s' r'
                      exact up r' a (fun x hx => by simp [hx]) (by simpa [hk'] using h)
                    · simp at h
                  | many =>
                    rw [har] at h
                    exact up (posSpan r).2 a (fun x hx => List.mem_cons_of_mem _ (posSpan_mem r x hx)) (by simpa [hk'] using h)

theorem tokens_opt (P : Parser TKey) (args : List Str) (w : Str) (k : TKey) (long : Bool) (att : Option (Bool × Str))
    (h : (w, some (Cls.opt k long att)) ∈ tokens P args) : w ∈ args ∧ classify P w = .opt k long att ∧ w ≠ sepW := by
  induction args with
  | nil => simp [tokens] at h
  | cons x r ih =>
    rw [tokens] at h
    split at h
    · simp at h
    · rename_i hx
      rcases List.mem_cons.mp h with h | h
      · simp only [Prod.mk.injEq, Option.some.injEq] at h
        obtain ⟨rfl, h2⟩ := h
        exact ⟨by simp, h2.symm, hx⟩
      · exact ⟨List.mem_cons_of_mem _ (ih h).1, (ih h).2⟩

/-- A word that stands for a flag of the hardware spawner is the flag or its beginning. -/
theorem flag_word (k : TKey) (hk : k = .activate ∨ k = .configure) (w : Str) (long : Bool) (att : Option (Bool × Str))
    (hc : classify hwParser w = .opt k long att) (ha : attached hwParser k long att ≠ none) : w <+: tlong k := by
  have hlk : ∀ u, hwParser.opts.lookup u = some k → u = tlong k := by
    intro u hu
    have := List.lookup_eq_some_iff.mp hu
    obtain ⟨l1, l2, he, -⟩ := this
    have hm : (u, k) ∈ hwParser.opts := by rw [he]; simp
    rcases hk with rfl | rfl <;> (simp [hwParser] at hm; exact hm)
  have hz : k.arity = .zero := by rcases hk with rfl | rfl <;> rfl
  have hno : ∀ e x, attached hwParser k true (some (e, x)) = none := by
    intro e x
    simp only [attached]
    unfold expand
    have : hwParser.arity k = .zero := hz
    simp [this]
  have tl : ∀ l a, (Cls.opt k l a) ∈ tuples hwParser w → w <+: tlong k ∨ (l = true ∧ a ≠ none) := by
    intro l a h
    unfold tuples at h
    split at h
    · have hab : hwParser.abbr = true := rfl
      rw [if_pos hab] at h
      simp only [List.mem_map, List.mem_filter, Cls.opt.injEq] at h
      obtain ⟨o, ⟨ho, hp⟩, h1, h2, h3⟩ := h
      have hot : o.1 = tlong k := by
        have : (o.1, k) ∈ hwParser.opts := by rw [← h1]; exact ho
        rcases hk with rfl | rfl <;> (simp [hwParser] at this; exact this)
      cases hq : (partEq w).2 with
      | some y =>
        right
        rw [hq] at h3
        refine ⟨by rw [← h2, hot]; exact (tlong_ne k).2.2.1, by rw [← h3]; simp⟩
      | none =>
        left
        have : ∀ u : Str, (partEq u).2 = none → (partEq u).1 = u := by
          intro u
          induction u with
          | nil => intro _; rfl
          | cons c t ih =>
            intro hu
            simp only [partEq] at hu ⊢
            split at hu
            · simp at hu
            · rename_i hc; simp [hc, ih hu]
        rw [this w hq, List.isPrefixOf_iff_prefix, hot] at hp
        exact hp
    · simp only [List.mem_filterMap] at h
      obtain ⟨o, ho, h⟩ := h
      split at h
      · rename_i ht
        simp only [Option.some.injEq, Cls.opt.injEq] at h
        have hm : (o.1, k) ∈ hwParser.opts := by rw [← h.1]; exact ho
        have hot : o.1 = tlong k := by rcases hk with rfl | rfl <;> (simp [hwParser] at hm; exact hm)
        have : (tlong k).length ≤ 2 := by rw [← hot, ht, List.length_take]; exact Nat.min_le_left _ _
        exfalso
        rcases hk with rfl | rfl <;> exact absurd this (by decide +kernel)
      · split at h
        · rename_i hp
          simp only [Option.some.injEq, Cls.opt.injEq] at h
          have hm : (o.1, k) ∈ hwParser.opts := by rw [← h.1]; exact ho
          have hot : o.1 = tlong k := by rcases hk with rfl | rfl <;> (simp [hwParser] at hm; exact hm)
          left
          rw [List.isPrefixOf_iff_prefix, hot] at hp
          exact hp
        · simp at h
  unfold classify at hc
  cases w with
  | nil => simp at hc
  | cons c t =>
    simp only at hc
    split at hc
    · simp at hc
    · cases h1 : hwParser.opts.lookup (c :: t) with
      | some k' =>
        rw [h1] at hc
        simp only [Cls.opt.injEq] at hc
        rw [hc.1] at h1
        rw [hlk _ h1]
      | none =>
        rw [h1] at hc
        simp only at hc
        split at hc
        · simp at hc
        · split at hc
          · rename_i a k' h2 h3
            simp only [Cls.opt.injEq] at hc
            obtain ⟨rfl, hl, ht⟩ := hc
            rw [← ht, ← hl, hlk _ h3, (tlong_ne _).2.2.1] at ha
            exact absurd (hno _ _) ha
          · split at hc
            · simp at hc
            · rename_i x hx
              have : (Cls.opt k long att) ∈ tuples hwParser (c :: t) := by rw [hx, hc]; simp
              rcases tl _ _ this with h | ⟨rfl, h⟩
              · exact h
              · cases att with
                | none => exact absurd rfl h
                | some y => exact absurd (hno _ _) ha
            · split at hc <;> simp at hc

/-- The option a word stands for. -/
def keyIn : Cls TKey → Option TKey
  | .opt k _ _ => some k
  | _ => none

/-- **C81, every command line.** Whatever is written: if the hardware spawner does anything, then it does it for components whose names are words of
the line, in the order of the line, at least one, and it activates (configures) them only if `--activate` (`--configure`), or a beginning of it that
is a beginning of no other option, is a word of the line. -/
theorem C81_hw_any (args : List Str) (r : HwArgs) (h : hwArgs fl args = .ok r) :
    r.comps.Sublist args ∧ r.comps ≠ [] ∧
    (r.activate = true → ∃ w ∈ args, str "--a" <+: w ∧ w <+: str "--activate") ∧
    (r.activate = false → ∃ w ∈ args, str "--conf" <+: w ∧ w <+: str "--configure") := by
  unfold hwArgs at h
  cases hp : tstrict fl (parse hwParser args) {} .before false with
  | error e => rw [hp] at h; simp [Except.bind] at h
  | ok x =>
    rw [hp] at h
    simp only [Except.bind] at h
    split at h
    · rename_i hac
      simp only [Except.ok.injEq] at h
      subst h
      obtain ⟨⟨m, m1, m2⟩, hne, hex, h4, h5⟩ := tstrict_inv _ _ _ _ _ hp
      simp only [Names.got, List.nil_append] at m1
      have took : ∀ k, (k = .activate ∨ k = .configure) → ∀ a, Ev.took k a ∈ parse hwParser args →
          ∃ w ∈ args, w <+: tlong k ∧ (∃ l t, classify hwParser w = .opt k l t) ∧ w ≠ sepW := by
        intro k hk a ha
        unfold parse at ha
        simp only at ha
        split at ha
        · simp at ha
        · obtain ⟨w, l, t, h1, h2⟩ := run_took hwParser k (by
            intro c hc
            obtain ⟨l1, l2, he, -⟩ := List.lookup_eq_some_iff.mp hc
            have hm : (['-', c], k) ∈ hwParser.opts := by rw [he]; simp
            rcases hk with rfl | rfl <;> (simp [hwParser, str] at hm)) _ _ a ha
          obtain ⟨h3, h4, h6⟩ := tokens_opt _ _ _ _ _ _ h1
          exact ⟨w, h3, flag_word k hk w l t h4 h2, ⟨l, t, h4⟩, h6⟩
      have fin : ∀ (k : TKey) (q : Str) (w : Str), w <+: tlong k → (∃ l t, classify hwParser w = .opt k l t) →
          (∀ u ∈ (tlong k).inits, keyIn (classify hwParser u) = some k → q.isPrefixOf u = true) → q <+: w := by
        intro k q w hw ⟨l, t, hc⟩ hall
        exact List.isPrefixOf_iff_prefix.mp (hall w ((List.mem_inits _ _).mpr hw) (by rw [hc]; rfl))
      refine ⟨by simp only; rw [m1]; exact m2.trans (parse_words _ _), hne, fun ha => ?_, fun ha => ?_⟩
      · rcases h4 ha with h | ⟨a, h⟩
        · simp at h
        · obtain ⟨w, w1, w2, w3, -⟩ := took .activate (.inl rfl) a h
          exact ⟨w, w1, fin .activate _ w w2 w3 (by decide +kernel), w2⟩
      · have ha : x.1.activate = false := ha
        rcases h5 (by rcases hac with h | h; exact absurd h (by simp [ha]); exact h) with h | ⟨a, h⟩
        · simp at h
        · obtain ⟨w, w1, w2, w3, -⟩ := took .configure (.inr rfl) a h
          exact ⟨w, w1, fin .configure _ w w2 w3 (by decide +kernel), w2⟩
    · simp at h

/-- **C81, every command line of the unspawner.** Whatever is written: the controllers it stops and unloads are words of the line, in the order of the
line, at least one. -/
theorem C81_un_any (args : List Str) (r : UnArgs) (h : unArgs fl args = .ok r) : r.ctrls.Sublist args ∧ r.ctrls ≠ [] := by
  unfold unArgs at h
  cases hp : tstrict fl (parse unParser args) {} .before false with
  | error e => rw [hp] at h; simp [Except.map] at h
  | ok x =>
    rw [hp] at h
    simp only [Except.map, Except.ok.injEq] at h
    subst h
    obtain ⟨⟨m, m1, m2⟩, hne, -⟩ := tstrict_inv _ _ _ _ _ hp
    simp only [Names.got, List.nil_append] at m1
    exact ⟨by simp only; rw [m1]; exact m2.trans (parse_words _ _), hne⟩

/-! ## What the programs ask for -/

/-- hs 101-178: the program for a command line; `nm` are the names the controller manager knows. -/
def hwProgram (nm : Str → Name) (fl : Str → Bool) (args : List Str) : Except Stop Spawn.Client :=
  (hwArgs fl args).map (fun r => Spawn.hwSpawner r.activate (r.comps.map nm))

/-- un 29-85 -/
def unProgram (nm : Str → Name) (fl : Str → Bool) (args : List Str) : Except Stop Spawn.Client :=
  (unArgs fl args).map (fun r => Spawn.unspawner (r.ctrls.map nm))

/-- **C81, from the command line to the requests.** Whatever the command line and whatever happens while the program runs: a request of the hardware
spawner to change the state of a component is for a component whose name is a word of the line; if the state is `active`, `--activate` or an unambiguous
beginning of it is a word of the line, else the state is `inactive` and that holds for `--configure`. -/
theorem C81_hw_requests (nm : Str → Name) (args : List Str) (c : Spawn.Client) (hc : hwProgram nm fl args = .ok c)
    (o : Oracle) (cm : CM) (hr : CM.Reach o cm) (s : List Spawn.Ev) (h : Name) (t : LState) (before : List Spawn.Wire)
    (hs : Spawn.SentAfter (Spawn.run c o (Spawn.boot c cm) s) (.setHw h t) before) :
    (∃ w ∈ args, nm w = h) ∧
    ((t = .active ∧ ∃ w ∈ args, str "--a" <+: w ∧ w <+: str "--activate") ∨
      (t = .inactive ∧ ∃ w ∈ args, str "--conf" <+: w ∧ w <+: str "--configure")) := by
  unfold hwProgram at hc
  cases hp : hwArgs fl args with
  | error e => rw [hp] at hc; simp [Except.map] at hc
  | ok r =>
    rw [hp] at hc
    simp only [Except.map, Except.ok.injEq] at hc
    subst hc
    obtain ⟨h1, -, h3, h4⟩ := C81_hw_any args r hp
    obtain ⟨hm, ht, -⟩ := (Spawn.C59_hw o cm hr r.activate (r.comps.map nm) s).1 _ _ hs
    obtain ⟨w, hw, hn⟩ := List.mem_map.mp hm
    refine ⟨⟨w, h1.subset hw, hn⟩, ?_⟩
    cases ha : r.activate with
    | true => left; exact ⟨by rw [ht, ha]; rfl, h3 ha⟩
    | false => right; exact ⟨by rw [ht, ha]; rfl, h4 ha⟩

/-- **C81, from the command line to the requests (unspawner).** It asks to unload, and to deactivate, only controllers whose names are words of the
line. -/
theorem C81_un_requests (nm : Str → Name) (args : List Str) (c : Spawn.Client) (hc : unProgram nm fl args = .ok c)
    (o : Oracle) (cm : CM) (hr : CM.Reach o cm) (s : List Spawn.Ev) (before : List Spawn.Wire) :
    (∀ n, Spawn.SentAfter (Spawn.run c o (Spawn.boot c cm) s) (.unload n) before → ∃ w ∈ args, nm w = n) ∧
    (∀ off on asap, Spawn.SentAfter (Spawn.run c o (Spawn.boot c cm) s) (.switch off on asap) before → on = [] ∧ ∀ n ∈ off, ∃ w ∈ args, nm w = n) := by
  unfold unProgram at hc
  cases hp : unArgs fl args with
  | error e => rw [hp] at hc; simp [Except.map] at hc
  | ok r =>
    rw [hp] at hc
    simp only [Except.map, Except.ok.injEq] at hc
    subst hc
    obtain ⟨h1, -⟩ := C81_un_any args r hp
    have mem : ∀ n ∈ r.ctrls.map nm, ∃ w ∈ args, nm w = n := by
      intro n hn
      obtain ⟨w, hw, e⟩ := List.mem_map.mp hn
      exact ⟨w, h1.subset hw, e⟩
    refine ⟨fun n hs => ?_, fun off on asap hs => ?_⟩
    · exact mem n (Spawn.C59_unspawn_requests o cm hr _ s _ _ hs).1
    · have := Spawn.C59_unspawn_requests o cm hr _ s _ _ hs
      obtain ⟨rfl, rfl, -⟩ := this
      exact ⟨rfl, mem⟩

/-! ## Which controller manager -/

/-- **C81, which controller manager.** With an explicit `-c` both programs address the same controller manager. Without one they do so only outside of
any namespace: in a namespace the hardware spawner asks the controller manager of that namespace, the unspawner the one outside. -/
theorem C81_manager_partial (names : List Str) (hne : names ≠ []) (hv : ∀ n ∈ names, Value n) (ns : Str) (hns : ns.head? = some '/') :
    (∀ x, Value x → ∃ r u, hwArgs fl (names ++ [str "-c", x, str "--activate"]) = .ok r ∧ unArgs fl (names ++ [str "-c", x]) = .ok u ∧
      cmName ns r.cm = cmName ns u.cm) ∧
    ∃ r u, hwArgs fl (names ++ [str "--activate"]) = .ok r ∧ unArgs fl names = .ok u ∧ (cmName ns r.cm = cmName ns u.cm ↔ ns = str "/") := by
  refine ⟨fun x hx => ?_, ?_⟩
  · have h1 := C81_hw (fl := fl) [] names [⟨.cm, .short, x⟩, ⟨.activate, .spaced, []⟩] hne hv (by simp) (by
      intro y hy
      simp only [List.mem_cons, List.not_mem_nil, or_false] at hy
      rcases hy with rfl | rfl
      · exact ⟨rfl, fun _ _ => hx, by simp⟩
      · exact ⟨rfl, by simp [ttakes], by simp⟩)
    have h2 := C81_un (fl := fl) [] names [⟨.cm, .short, x⟩] hne hv (by simp) (by
      intro y hy
      simp only [List.mem_cons, List.not_mem_nil, or_false] at hy
      subst hy
      exact ⟨rfl, fun _ _ => hx, by simp⟩)
    simp [tline, twords, TSetting.words, ttakes, tshort, tlong, thas, tgiven] at h1 h2
    exact ⟨_, _, h1, h2, rfl⟩
  · have h1 := C81_hw (fl := fl) [] names [⟨.activate, .spaced, []⟩] hne hv (by simp) (by
      intro y hy
      simp only [List.mem_cons, List.not_mem_nil, or_false] at hy
      subst hy
      exact ⟨rfl, by simp [ttakes], by simp⟩)
    have h2 := C81_un (fl := fl) [] names [] hne hv (by simp) (by simp)
    simp [tline, twords, TSetting.words, ttakes, tlong, thas, tgiven] at h1 h2
    refine ⟨_, _, h1, h2, ?_⟩
    have e1 : (str "controller_manager").head? ≠ some '/' := by decide +kernel
    have e2 : (str "/controller_manager").head? = some '/' := by decide +kernel
    simp only [cmName]
    rw [if_neg e1, if_pos e2]
    by_cases h : ns = str "/"
    · rw [if_neg (not_not.mpr h)]
      exact ⟨fun _ => h, fun _ => by decide +kernel⟩
    · rw [if_pos h]
      refine ⟨fun e => ?_, fun e => absurd e h⟩
      have : (ns ++ '/' :: str "controller_manager").length = (str "/controller_manager").length := by rw [e]
      have l1 : (str "/controller_manager").length = (str "controller_manager").length + 1 := by decide +kernel
      rw [l1] at this
      simp only [List.length_append, List.length_cons] at this
      have : ns = [] := List.length_eq_zero_iff.mp (by omega)
      rw [this] at hns; simp at hns

/-! ## Examples -/

/-- Two components, a controller manager given twice, a flag written twice. -/
example :
    hwArgs (fun _ => true) (tline [⟨.cm, .short, str "a"⟩, ⟨.activate, .spaced, []⟩] [str "arm", str "gripper"]
      [⟨.cm, .eq, str "-b"⟩, ⟨.cmTimeout, .spaced, str "5"⟩, ⟨.activate, .spaced, []⟩]) =
    .ok { comps := [str "arm", str "gripper"], cm := str "-b", cmTimeout := some (str "5"), activate := true } := by
  rw [C81_hw]
  · exact (if_neg (by decide +kernel)).trans (congrArg Except.ok (by decide +kernel))
  · simp
  · intro n hn
    simp only [List.mem_cons, List.not_mem_nil, or_false] at hn
    rcases hn with rfl | rfl <;> exact .inl (by decide +kernel)
  · intro x hx
    simp only [List.mem_cons, List.not_mem_nil, or_false] at hx
    rcases hx with rfl | rfl
    · exact ⟨rfl, fun _ _ => .inl (by decide +kernel), fun _ => rfl⟩
    · exact ⟨rfl, fun h => by simp [ttakes] at h, fun _ => rfl⟩
  · intro x hx
    simp only [List.mem_cons, List.not_mem_nil, or_false] at hx
    rcases hx with rfl | rfl | rfl
    · exact ⟨rfl, fun _ h => absurd rfl h, fun _ => rfl⟩
    · exact ⟨rfl, fun _ _ => .inl (by decide +kernel), fun _ => rfl⟩
    · exact ⟨rfl, fun h => by simp [ttakes] at h, fun _ => rfl⟩

/-- Lines that do not follow the help text: abbreviations and `--` are understood; both flags, an ambiguous word, options between names and attached
values of flags are refused; the help text ends the program. -/
example :
    hwArgs (fun _ => true) [str "--act", str "--", str "arm", str "--conf"] = .ok { comps := [str "arm", str "--conf"], activate := true } ∧
    hwArgs (fun _ => true) [str "arm", str "--activate", str "--configure"] = .error .error ∧
    hwArgs (fun _ => true) [str "arm", str "--activate", str "--co"] = .error .error ∧
    hwArgs (fun _ => true) [str "arm", str "--activate", str "gripper"] = .error .error ∧
    hwArgs (fun _ => true) [str "arm", str "--activate=yes"] = .error .error ∧
    hwArgs (fun _ => true) [str "arm"] = .error .error ∧
    hwArgs (fun _ => true) [str "--activate"] = .error .error ∧
    hwArgs (fun _ => true) [str "arm", str "-ccm", str "--activate"] = .ok { comps := [str "arm"], cm := str "cm", activate := true } ∧
    hwArgs (fun _ => true) [str "-h"] = .error .help ∧
    hwArgs (fun _ => false) [str "arm", str "--activate", str "--controller-manager-timeout", str "x"] = .error .error ∧
    unArgs (fun _ => true) [str "-c", str "cm", str "a", str "b", str "--switch", str "3"] =
      .ok { ctrls := [str "a", str "b"], cm := str "cm", switchTimeout := some (str "3") } ∧
    unArgs (fun _ => true) [str "a", str "--activate"] = .error .error := by
  refine ⟨?_, ?_, ?_, ?_, ?_, ?_, ?_, ?_, ?_, ?_, ?_, ?_⟩ <;> decide +kernel

/-- A run of the program for `ghost arm --activate` in which a request to change a state is sent (`C59_hw_witness` runs it to its end). -/
example :
    let nm : Str → Name := fun w => if w = str "arm" then 1 else 9
    let o := goodOracle
    let cm := CM.run o (CM.start o false false demoSpecs) []
    let c := Spawn.hwSpawner true [9, 1]
    hwProgram nm (fun _ => true) [str "ghost", str "arm", str "--activate"] = .ok c ∧
    Spawn.Wire.sent 2 (.setHw 1 .active) ∈ (Spawn.run c o (Spawn.boot c cm)
      (Spawn.Demo.ask 0 .listHw Spawn.Demo.x300 ⟨true, [1, 2], none⟩ ++ Spawn.Demo.ask 1 .listHw Spawn.Demo.x300 ⟨true, [1, 2], none⟩ ++ [Spawn.Ev.send])).wire := by
  intro nm o cm c
  refine ⟨?_, by decide +kernel⟩
  have : hwArgs (fun _ => true) [str "ghost", str "arm", str "--activate"] = .ok { comps := [str "ghost", str "arm"], activate := true } := by
    decide +kernel
  unfold hwProgram
  rw [this]
  have : [str "ghost", str "arm"].map nm = [9, 1] := by decide +kernel
  simp only [Except.map, this]
  rfl

/-- In the namespace `/left` the two programs address different controller managers. -/
example : cmName (str "/left") (str "controller_manager") = str "/left/controller_manager" ∧
    cmName (str "/left") (str "/controller_manager") = str "/controller_manager" ∧
    cmName (str "/") (str "controller_manager") = str "/controller_manager" := by decide +kernel

end Verif.Argv
