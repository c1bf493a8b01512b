import Verif.Argv.Verbs
import Verif.Cli.Model
import Mathlib.Data.List.Induction
/-!
# C85: the command line of `ros2 control switch_controllers`

Specification: a line written by a person who follows the help text, and what it says.
-/
namespace Verif.Argv

/-! ## Specification -/

/-- An option of the help text, how it is written, and what follows it. -/
structure VSetting where
  key : VKey
  form : Form := .spaced
  args : List Str := []
deriving DecidableEq, Repr

/-- The long names of the options. -/
def vlong : VKey → Str
  | .deactivate => str "--deactivate"
  | .activate => str "--activate"
  | .strict => str "--strict"
  | .bestEffort => str "--best-effort"
  | .asap => str "--activate-asap"
  | .switchTimeout => str "--switch-timeout"
  | .cm => str "--controller-manager"
  | .hidden => str "--include-hidden-nodes"
  | .spinTime => str "--spin-time"
  | .simTime => str "--use-sim-time"
  | .help => str "--help"

/-- The short names. -/
def vshort : VKey → Option Str
  | .cm => some (str "-c")
  | .simTime => some (str "-s")
  | _ => none

/-- The words of an option: its name and what follows, or `--name=value`. -/
def VSetting.words (s : VSetting) : List Str :=
  match s.form with
  | .spaced => vlong s.key :: s.args
  | .short => (vshort s.key).getD (vlong s.key) :: s.args
  | .eq => [vlong s.key ++ '=' :: s.args.headD []]

/-- Does the option take names of controllers, one value, or nothing? -/
def VSetting.Counts (s : VSetting) : Prop :=
  match s.key with
  | .deactivate | .activate => True
  | .switchTimeout | .cm | .spinTime => s.args.length = 1
  | .help => False
  | _ => s.args = []

/-- Written properly: the number of values is the one the option takes (not `--help`); after a blank a value does not begin with a dash; after `=`
there is exactly one; ros2cli's time is a number. -/
structure VSetting.Ok (fl : Str → Bool) (s : VSetting) : Prop where
  counts : s.Counts
  plain : s.form ≠ .eq → ∀ v ∈ s.args, v.head? ≠ some '-'
  one : s.form = .eq → s.args.length = 1
  time : s.key = .spinTime → ∀ v ∈ s.args, fl v = true

/-- A line. -/
def vline (l : List VSetting) : List Str := l.flatMap VSetting.words

/-- What was given with an option, each time it was given. -/
def vgiven (k : VKey) (l : List VSetting) : List (List Str) := (l.filter (fun s => s.key = k)).map (·.args)

/-- Was the option given? -/
def vhas (k : VKey) (l : List VSetting) : Bool := l.any (fun s => s.key = k)

/-- What a line says: of the lists of names, the times and the controller managers the last counts. -/
def vsaid (l : List VSetting) : VNs where
  deact := (vgiven .deactivate l).getLast?.getD []
  act := (vgiven .activate l).getLast?.getD []
  strict := vhas .strict l
  bestEffort := vhas .bestEffort l
  asap := vhas .asap l
  timeout := (vgiven .switchTimeout l).getLast?.map (·.headD [])
  cm := ((vgiven .cm l).getLast?.map (·.headD [])).getD (str "controller_manager")

/-! ## Lemmas -/

variable {fl : Str → Bool}

theorem v_classify_plain {K : Type} (P : Parser K) (v : Str) (h : v.head? ≠ some '-') : classify P v = .pos ∧ v ≠ sepW := by
  cases v with
  | nil => exact ⟨rfl, by decide⟩
  | cons c t =>
    have hc : c ≠ '-' := by intro e; exact h (by rw [e]; rfl)
    refine ⟨by simp [classify, hc], ?_⟩
    intro e
    have : c = '-' := by
      have := congrArg List.head? e
      simpa [sepW] using this
    exact hc this

theorem vclassify_long (k : VKey) : classify verbParser (vlong k) = .opt k true none ∧ vlong k ≠ sepW ∧ '=' ∉ vlong k ∧
    (vlong k).head? = some '-' ∧ 2 ≤ (vlong k).length ∧ verbParser.opts.lookup (vlong k) = some k ∧ isLong (vlong k) = true := by
  cases k <;> decide +kernel

theorem vclassify_short (k : VKey) (w : Str) (h : vshort k = some w) : classify verbParser w = .opt k false none ∧ w ≠ sepW := by
  cases k <;> first | (simp [vshort] at h; done) | (obtain rfl := Option.some.inj h; decide +kernel)

theorem tidy_verb : Tidy verbParser := by decide +kernel

/-- The rest of a line: nothing, or an option. -/
def Starts (r : List Str) : Prop := ∀ w t, r = w :: t → w ≠ sepW ∧ classify verbParser w ≠ .pos

theorem v_posSpan_names (vs r : List Str) (hv : ∀ v ∈ vs, v.head? ≠ some '-') (hr : Starts r) :
    posSpan (tokens verbParser (vs ++ r)) = (vs, tokens verbParser r) := by
  induction vs with
  | nil =>
    cases r with
    | nil => rfl
    | cons w t =>
      obtain ⟨h1, h2⟩ := hr w t rfl
      rw [List.nil_append, tokens_cons _ _ _ h1]
      unfold posSpan
      split
      · rename_i heq
        simp only [List.cons.injEq, Prod.mk.injEq, Option.some.injEq] at heq
        exact absurd heq.1.2 h2
      · rfl
  | cons v t ih =>
    obtain ⟨h1, h2⟩ := v_classify_plain verbParser v (hv v (by simp))
    rw [List.cons_append, tokens_cons _ _ _ h2, h1]
    simp only [posSpan]
    rw [ih (fun x hx => hv x (by simp [hx]))]

theorem v_ev_many (w : Str) (vs r : List Str) (k : VKey) (b : Bool) (h : w ≠ sepW) (c : classify verbParser w = .opt k b none)
    (a : verbParser.arity k = .many) (hv : ∀ v ∈ vs, v.head? ≠ some '-') (hr : Starts r) :
    ev verbParser (w :: (vs ++ r)) = .took k vs :: ev verbParser r := by
  have hp := v_posSpan_names vs r hv hr
  simp only [ev, tokens_cons verbParser w _ h, c, List.length_cons, run, attached, a, List.nil_append]
  rw [hp]
  have hlen : (tokens verbParser r).length ≤ (tokens verbParser (vs ++ r)).length := by
    have := posSpan_length (tokens verbParser (vs ++ r))
    rw [hp] at this
    exact this
  rw [run_fuel verbParser _ (tokens verbParser r).length _ hlen (Nat.le_refl _)]

theorem v_ev_attached_many (w v : Str) (r : List Str) (k : VKey) (b e : Bool) (h : w ≠ sepW)
    (c : classify verbParser w = .opt k b (some (e, v))) (a : verbParser.arity k ≠ .zero) :
    ev verbParser (w :: r) = .took k [v] :: ev verbParser r := by
  cases ha : verbParser.arity k with
  | zero => exact absurd ha a
  | one => simp [ev, tokens_cons verbParser w r h, c, run, attached, expand, ha]
  | many => simp [ev, tokens_cons verbParser w r h, c, run, attached, expand, ha]

theorem vname (k : VKey) (w : Str) (hw : w = vlong k ∨ w = (vshort k).getD (vlong k)) :
    w ≠ sepW ∧ ∃ b, classify verbParser w = .opt k b none := by
  have hl := vclassify_long k
  rcases hw with rfl | rfl
  · exact ⟨hl.2.1, true, hl.1⟩
  · cases hs : vshort k with
    | none => exact ⟨hl.2.1, true, hl.1⟩
    | some x =>
      obtain ⟨h1, h2⟩ := vclassify_short k x hs
      exact ⟨h2, false, h1⟩

/-- The first word of a setting is an option. -/
theorem v_words_head (s : VSetting) : ∃ w t, s.words = w :: t ∧ w ≠ sepW ∧ classify verbParser w ≠ .pos ∧
    classify verbParser w ≠ .ambiguous := by
  have two : ∀ w, (w = vlong s.key ∨ w = (vshort s.key).getD (vlong s.key)) →
      w ≠ sepW ∧ classify verbParser w ≠ .pos ∧ classify verbParser w ≠ .ambiguous := by
    intro w hw
    obtain ⟨h1, b, h2⟩ := vname s.key w hw
    exact ⟨h1, by rw [h2]; simp, by rw [h2]; simp⟩
  unfold VSetting.words
  cases hf : s.form with
  | spaced => exact ⟨_, _, rfl, two _ (Or.inl rfl)⟩
  | short => exact ⟨_, _, rfl, two _ (Or.inr rfl)⟩
  | eq =>
    have hl := vclassify_long s.key
    have hc := classify_eq verbParser tidy_verb (vlong s.key) (s.args.headD []) s.key hl.2.2.1 hl.2.2.2.1 hl.2.2.2.2.1 hl.2.2.2.2.2.1
    refine ⟨_, _, rfl, ?_, by rw [hc]; simp, by rw [hc]; simp⟩
    intro e
    have : '=' ∈ sepW := by rw [← e]; simp
    revert this; decide

theorem starts_line (l : List VSetting) : Starts (vline l) := by
  intro w t h
  cases l with
  | nil => simp [vline] at h
  | cons s l =>
    obtain ⟨w', t', h1, h2, h3, _⟩ := v_words_head s
    simp only [vline, List.flatMap_cons, h1, List.cons_append, List.cons.injEq] at h
    rw [← h.1]
    exact ⟨h2, h3⟩

theorem vev (s : VSetting) (ok : s.Ok fl) (r : List Str) (hr : Starts r) :
    ev verbParser (s.words ++ r) = .took s.key s.args :: ev verbParser r := by
  have nm : ∀ w, (w = vlong s.key ∨ w = (vshort s.key).getD (vlong s.key)) → s.form ≠ .eq →
      ev verbParser ((w :: s.args) ++ r) = .took s.key s.args :: ev verbParser r := by
    intro w hw hf
    obtain ⟨h1, b, h2⟩ := vname s.key w hw
    have hc := ok.counts
    have hp := ok.plain hf
    cases ha : verbParser.arity s.key with
    | many => exact v_ev_many w s.args r s.key b h1 h2 ha hp hr
    | one =>
      have hlen : s.args.length = 1 := by
        revert hc ha; unfold VSetting.Counts
        cases s.key <;> simp [verbParser, VKey.arity]
      obtain ⟨v, hv⟩ := List.length_eq_one_iff.mp hlen
      obtain ⟨c1, c2⟩ := v_classify_plain verbParser v (hp v (by rw [hv]; simp))
      rw [hv]
      exact ev_value verbParser w v r s.key b h1 h2 ha c2 c1
    | zero =>
      have hnil : s.args = [] := by
        revert hc ha; unfold VSetting.Counts
        cases s.key <;> simp [verbParser, VKey.arity]
      rw [hnil]
      exact ev_flag verbParser w r s.key b h1 h2 ha
  unfold VSetting.words
  cases hf : s.form with
  | spaced => exact nm _ (Or.inl rfl) (by simp [hf])
  | short => exact nm _ (Or.inr rfl) (by simp [hf])
  | eq =>
    have hl := vclassify_long s.key
    obtain ⟨v, hv⟩ := List.length_eq_one_iff.mp (ok.one hf)
    have hz : verbParser.arity s.key ≠ .zero := by
      have hc := ok.counts
      revert hc; unfold VSetting.Counts
      rw [hv]
      cases s.key <;> simp [verbParser, VKey.arity]
    rw [hv]
    simp only [List.headD_cons, List.cons_append, List.nil_append]
    refine v_ev_attached_many _ v r s.key (isLong (vlong s.key)) true ?_
      (classify_eq verbParser tidy_verb _ _ _ hl.2.2.1 hl.2.2.2.1 hl.2.2.2.2.1 hl.2.2.2.2.2.1) hz
    intro e
    have : '=' ∈ sepW := by rw [← e]; simp
    revert this; decide

theorem vcalm (l : List VSetting) (ok : ∀ s ∈ l, s.Ok fl) : Calm verbParser (vline l) := by
  intro w hw
  obtain ⟨s, hs, hw⟩ := List.mem_flatMap.mp hw
  have hok := ok s hs
  obtain ⟨w', t', h1, h2, _, h4⟩ := v_words_head s
  rw [h1] at hw
  rcases List.mem_cons.mp hw with rfl | hw
  · exact ⟨h2, h4⟩
  · have ht : t' = if s.form = .eq then [] else s.args := by
      unfold VSetting.words at h1
      cases hf : s.form <;> simp [hf] at h1 <;> simp [h1.2]
    rw [ht] at hw
    by_cases hf : s.form = .eq
    · rw [if_pos hf] at hw; cases hw
    · rw [if_neg hf] at hw
      obtain ⟨c1, c2⟩ := v_classify_plain verbParser w (hok.plain hf w hw)
      exact ⟨c2, by rw [c1]; simp⟩

/-- All settings in turn. -/
def vfold (fl : Str → Bool) : List VSetting → VNs → Except Stop VNs
  | [], s => .ok s
  | x :: t, s => (vact fl s x.key x.args).bind (vfold fl t)

theorem vfold_append (a b : List VSetting) (s : VNs) : vfold fl (a ++ b) s = (vfold fl a s).bind (vfold fl b) := by
  induction a generalizing s with
  | nil => rfl
  | cons x t ih =>
    simp only [List.cons_append, vfold]
    cases vact fl s x.key x.args with
    | error e => rfl
    | ok s' => exact ih s'

theorem vstrict_line (l : List VSetting) (ok : ∀ x ∈ l, x.Ok fl) (s : VNs) :
    vstrict fl (ev verbParser (vline l)) s false = vfold fl l s := by
  induction l generalizing s with
  | nil => rfl
  | cons x t ih =>
    have ht : ∀ y ∈ t, y.Ok fl := fun y hy => ok y (by simp [hy])
    have : vline (x :: t) = x.words ++ vline t := by simp [vline]
    rw [this, vev x (ok x (by simp)) _ (starts_line t), vstrict, vfold]
    cases vact fl s x.key x.args with
    | error e => rfl
    | ok s' => exact ih ht s'

theorem vgiven_append (k : VKey) (a b : List VSetting) : vgiven k (a ++ b) = vgiven k a ++ vgiven k b := by simp [vgiven]

theorem vhas_append (k : VKey) (a b : List VSetting) : vhas k (a ++ b) = (vhas k a || vhas k b) := by simp [vhas]

theorem vfold_said (l : List VSetting) (ok : ∀ x ∈ l, x.Ok fl) :
    vfold fl l {} = if vhas .strict l = true ∧ vhas .bestEffort l = true then .error .error else .ok (vsaid l) := by
  induction l using List.reverseRecOn with
  | nil => rfl
  | append_singleton a x ih =>
    have hx := ok x (by simp)
    rw [vfold_append, ih (fun y hy => ok y (by simp [hy]))]
    have hc := hx.counts
    have ht := hx.time
    obtain ⟨k, f, args⟩ := x
    simp only [VSetting.Counts] at hc ht
    simp only [vsaid, vgiven_append, vhas_append]
    cases hs : vhas .strict a <;> cases hb : vhas .bestEffort a <;> cases k <;>
      simp only at hc <;>
      first
      | exact absurd hc id
      | (simp [vfold, vact, Except.bind, vgiven, vhas, hc]; done)
      | (obtain ⟨v, rfl⟩ := List.length_eq_one_iff.mp hc; simp [vfold, vact, Except.bind, vgiven, vhas, ht]; done)

/-! ## The property -/

/-- **C85.** On every line made of options of the help text, in any of their spellings, any number of them in any order: with both `--strict` and
`--best-effort` the verb ends with exit code 2 before it has asked for anything; otherwise it takes from the line what the line says: the names after
`--deactivate` and those after `--activate`, in their order and none else; of an option given several times the last counts. -/
theorem C85_line (l : List VSetting) (ok : ∀ x ∈ l, x.Ok fl) :
    verbArgs fl (vline l) = if vhas .strict l = true ∧ vhas .bestEffort l = true then .error .error else .ok (vsaid l) := by
  unfold verbArgs
  rw [parse_ev _ _ (vcalm l ok), vstrict_line l ok, vfold_said l ok]

/-- The strictness a line asks for: the one it names, otherwise the default of the controller manager. -/
def strictnessOf (l : List VSetting) (dflt : Bool) : Strictness :=
  if vhas .strict l then .strict else if vhas .bestEffort l then .bestEffort else if dflt then .strict else .bestEffort

/-- So on such a line the verb is the client of C68 that asks to switch these controllers, with this strictness. -/
theorem C85_request (l : List VSetting) (ok : ∀ x ∈ l, x.Ok fl) (hb : ¬ (vhas .strict l = true ∧ vhas .bestEffort l = true))
    (num : Str → Name) (dflt : Bool) :
    verbProg fl num dflt (vline l) = .ok (Cli.switchCtls (((vgiven .deactivate l).getLast?.getD []).map num)
      (((vgiven .activate l).getLast?.getD []).map num) (vhas .asap l) (strictnessOf l dflt)) := by
  unfold verbProg
  rw [C85_line l ok, if_neg hb]
  rfl

/-! ## All lines -/

theorem v_expand_took (P : Parser VKey) : ∀ n k long eq arg es pend, expand P n k long eq arg = some (es, pend) →
    ∀ k' a, Ev.took k' a ∈ es → ∀ v ∈ a, v <:+ arg := by
  intro n
  induction n with
  | zero => intro k long eq arg es pend h; simp [expand] at h
  | succ n ih =>
    intro k long eq arg es pend h k' a hm v hv
    unfold expand at h
    cases ha : P.arity k with
    | zero =>
      simp only [ha] at h
      split at h
      · simp at h
      · cases arg with
        | nil => simp at h
        | cons c t =>
          simp only at h
          split at h
          · simp at h
          · cases hl : P.opts.lookup ['-', c] with
            | none =>
              simp only [hl, Option.some.injEq, Prod.mk.injEq] at h
              rw [← h.1] at hm
              simp only [List.mem_cons, Ev.took.injEq, reduceCtorEq, List.not_mem_nil, or_false] at hm
              rw [hm.2] at hv; cases hv
            | some k2 =>
              simp only [hl] at h
              split at h
              · simp only [Option.some.injEq, Prod.mk.injEq] at h
                rw [← h.1] at hm
                simp only [List.mem_cons, Ev.took.injEq, List.not_mem_nil, or_false] at hm
                rw [hm.2] at hv; cases hv
              · simp only [Option.map_eq_some_iff, Prod.mk.injEq] at h
                obtain ⟨r, hr, h1, -⟩ := h
                rw [← h1] at hm
                rcases List.mem_cons.mp hm with hm | hm
                · cases hm; cases hv
                · exact ((ih _ _ _ _ r.1 r.2 hr k' a hm v hv).trans (List.suffix_cons _ _)).trans (List.suffix_cons _ _)
              · simp only [Option.map_eq_some_iff, Prod.mk.injEq] at h
                obtain ⟨r, hr, h1, -⟩ := h
                rw [← h1] at hm
                rcases List.mem_cons.mp hm with hm | hm
                · cases hm; cases hv
                · exact (ih _ _ _ _ r.1 r.2 hr k' a hm v hv).trans (List.suffix_cons _ _)
    | one =>
      simp only [ha, Option.some.injEq, Prod.mk.injEq] at h
      rw [← h.1] at hm
      simp only [List.mem_cons, Ev.took.injEq, List.not_mem_nil, or_false] at hm
      rw [hm.2] at hv
      rw [List.mem_singleton.mp hv]
      exact List.suffix_refl _
    | many =>
      simp only [ha, Option.some.injEq, Prod.mk.injEq] at h
      rw [← h.1] at hm
      simp only [List.mem_cons, Ev.took.injEq, List.not_mem_nil, or_false] at hm
      rw [hm.2] at hv
      rw [List.mem_singleton.mp hv]
      exact List.suffix_refl _

theorem v_partEq_suffix (w a : Str) (h : (partEq w).2 = some a) : a <:+ w := by
  induction w with
  | nil => simp [partEq] at h
  | cons c t ih =>
    unfold partEq at h
    split at h
    · cases h; exact List.suffix_cons _ _
    · exact (ih h).trans (List.suffix_cons _ _)

theorem v_tuples_suffix (P : Parser VKey) (w : Str) (k : VKey) (b e : Bool) (v : Str) (h : Cls.opt k b (some (e, v)) ∈ tuples P w) :
    v <:+ w := by
  unfold tuples at h
  split at h
  · split at h
    · obtain ⟨o, _, ho⟩ := List.mem_map.mp h
      simp only [Cls.opt.injEq] at ho
      obtain ⟨_, _, ho⟩ := ho
      obtain ⟨a, ha, hav⟩ := Option.map_eq_some_iff.mp ho
      cases hav
      exact v_partEq_suffix w v ha
    · cases h
  · obtain ⟨o, _, ho⟩ := List.mem_filterMap.mp h
    split at ho
    · simp only [Option.some.injEq, Cls.opt.injEq, Prod.mk.injEq] at ho
      rw [← ho.2.2.2]
      exact List.drop_suffix _ _
    · split at ho
      · simp at ho
      · cases ho

theorem v_classify_suffix (P : Parser VKey) (w : Str) (k : VKey) (b e : Bool) (v : Str) (h : classify P w = .opt k b (some (e, v))) :
    v <:+ w := by
  unfold classify at h
  split at h
  · cases h
  · rename_i c t
    split at h
    · cases h
    · split at h
      · cases h
      · split at h
        · cases h
        · split at h
          · rename_i a k' h1 _
            simp only [Cls.opt.injEq, Option.some.injEq, Prod.mk.injEq] at h
            rw [← h.2.2.2]
            exact v_partEq_suffix _ _ h1
          · split at h
            · cases h
            · rename_i x hx
              subst h
              exact v_tuples_suffix P _ k b e v (by rw [hx]; simp)
            · split at h <;> cases h

theorem v_posSpan_mem (l : List (Str × Option (Cls VKey))) : (∀ v ∈ (posSpan l).1, ∃ x ∈ l, x.1 = v) ∧ ∀ x ∈ (posSpan l).2, x ∈ l := by
  induction l with
  | nil => exact ⟨fun v hv => (nomatch hv), fun x hx => (nomatch hx)⟩
  | cons a t ih =>
    obtain ⟨s, c⟩ := a
    unfold posSpan
    split
    · rename_i s' r heq
      simp only [List.cons.injEq] at heq
      obtain ⟨h1, h2⟩ := heq
      rw [← h2]
      refine ⟨?_, fun x hx => List.mem_cons_of_mem _ (ih.2 x hx)⟩
      intro v hv
      rcases List.mem_cons.mp hv with hv | hv
      · exact ⟨_, List.mem_cons_self, by rw [h1, hv]⟩
      · obtain ⟨x, hx, hxv⟩ := ih.1 v hv
        exact ⟨x, List.mem_cons_of_mem _ hx, hxv⟩
    · exact ⟨fun v hv => (nomatch hv), fun x hx => hx⟩

/-- A token that comes from a word. -/
def v_FromWord (P : Parser VKey) (x : Str × Option (Cls VKey)) : Prop :=
  x.2 = none ∨ x.2 = some .pos ∨ x.2 = some (classify P x.1)

theorem v_tokens_from (P : Parser VKey) (args : List Str) : ∀ x ∈ tokens P args, v_FromWord P x ∧ x.1 ∈ args := by
  induction args with
  | nil => intro x hx; cases hx
  | cons w r ih =>
    intro x hx
    unfold tokens at hx
    split at hx
    · rcases List.mem_cons.mp hx with rfl | hx
      · exact ⟨Or.inl rfl, by simp⟩
      · obtain ⟨y, hy, rfl⟩ := List.mem_map.mp hx
        exact ⟨Or.inr (Or.inl rfl), by simp [hy]⟩
    · rcases List.mem_cons.mp hx with rfl | hx
      · exact ⟨Or.inr (Or.inr rfl), by simp⟩
      · obtain ⟨h1, h2⟩ := ih x hx
        exact ⟨h1, List.mem_cons_of_mem _ h2⟩

theorem v_run_took (P : Parser VKey) : ∀ n ts, (∀ x ∈ ts, v_FromWord P x) → ∀ k a, Ev.took k a ∈ run P n ts → ∀ v ∈ a, ∃ x ∈ ts, v <:+ x.1 := by
  intro n
  induction n with
  | zero => intro ts _ k a h; rw [run] at h; cases h
  | succ n ih =>
    intro ts hts k a h v hv
    cases ts with
    | nil => rw [run] at h; cases h; simp
    | cons y r =>
      obtain ⟨s, c⟩ := y
      have hr : ∀ x ∈ r, v_FromWord P x := fun x hx => hts x (List.mem_cons_of_mem _ hx)
      have up : (∃ x ∈ r, v <:+ x.1) → ∃ x ∈ (s, c) :: r, v <:+ x.1 := fun ⟨x, hx, h⟩ => ⟨x, List.mem_cons_of_mem _ hx, h⟩
      cases c with
      | none =>
        rw [run] at h
        rcases List.mem_cons.mp h with h | h
        · cases h
        · exact up (ih r hr k a h v hv)
      | some c =>
        cases c with
        | pos =>
          rw [run] at h
          rcases List.mem_cons.mp h with h | h
          · cases h
          · exact up (ih r hr k a h v hv)
        | unknown =>
          rw [run] at h
          rcases List.mem_cons.mp h with h | h
          · cases h
          · exact up (ih r hr k a h v hv)
        | ambiguous =>
          rw [run] at h
          rcases List.mem_cons.mp h with h | h
          · cases h
          · cases h
        | opt k0 long att =>
          have hw : classify P s = .opt k0 long att := by
            rcases hts _ List.mem_cons_self with h1 | h1 | h1
            · cases h1
            · cases h1
            · exact (Option.some.inj h1).symm
          rw [run] at h
          cases hatt : attached P k0 long att with
          | none =>
            rw [hatt] at h
            rcases List.mem_cons.mp h with h | h
            · cases h
            · cases h
          | some q =>
            obtain ⟨done, pend⟩ := q
            rw [hatt] at h
            simp only at h
            rcases List.mem_append.mp h with h | h
            · cases att with
              | none => simp only [attached, Option.some.injEq, Prod.mk.injEq] at hatt; rw [← hatt.1] at h; cases h
              | some ea =>
                obtain ⟨e, av⟩ := ea
                have h1 := v_expand_took P _ _ _ _ _ _ _ hatt k a h v hv
                exact ⟨_, List.mem_cons_self, h1.trans (v_classify_suffix P s k0 long e av hw)⟩
            · cases pend with
              | none => exact up (ih r hr k a h v hv)
              | some k' =>
                simp only at h
                cases har : P.arity k' with
                | zero =>
                  simp only [har] at h
                  rcases List.mem_cons.mp h with h | h
                  · cases h; cases hv
                  · exact up (ih r hr k a h v hv)
                | one =>
                  simp only [har] at h
                  split at h
                  · rename_i s' r' _
                    rcases List.mem_cons.mp h with h | h
                    · cases h
                      have hvs := List.mem_singleton.mp hv
                      exact up ⟨_, List.mem_cons_self, by rw [hvs]; exact List.suffix_refl _⟩
                    · obtain ⟨x, hx, hxv⟩ := ih r' (fun x hx => hr x (List.mem_cons_of_mem _ hx)) k a h v hv
                      exact up ⟨x, List.mem_cons_of_mem _ hx, hxv⟩
                  · rcases List.mem_cons.mp h with h | h
                    · cases h
                    · cases h
                | many =>
                  simp only [har] at h
                  obtain ⟨p1, p2⟩ := v_posSpan_mem r
                  rcases List.mem_cons.mp h with h | h
                  · cases h
                    obtain ⟨x, hx, hxv⟩ := p1 v hv
                    exact up ⟨x, hx, by rw [hxv]; exact List.suffix_refl _⟩
                  · obtain ⟨x, hx, hxv⟩ := ih (posSpan r).2 (fun x hx => hr x (p2 x hx)) k a h v hv
                    exact up ⟨x, p2 x hx, hxv⟩

theorem v_parse_took (args : List Str) (k : VKey) (a : List Str) (h : Ev.took k a ∈ parse verbParser args) :
    ∀ v ∈ a, ∃ w ∈ args, v <:+ w := by
  intro v hv
  unfold parse at h
  simp only at h
  split at h
  · rcases List.mem_cons.mp h with h | h
    · cases h
    · cases h
  · obtain ⟨x, hx, hxv⟩ := v_run_took verbParser _ _ (fun x hx => (v_tokens_from verbParser args x hx).1) k a h v hv
    exact ⟨x.1, (v_tokens_from verbParser args x hx).2, hxv⟩

theorem vstrict_from : ∀ (es : List (Ev VKey)) (s r : VNs) (ex : Bool), vstrict fl es s ex = .ok r →
    ex = false ∧ (∀ e ∈ es, ∃ k a, e = Ev.took k a) ∧
    (r.act = s.act ∨ Ev.took .activate r.act ∈ es) ∧ (r.deact = s.deact ∨ Ev.took .deactivate r.deact ∈ es) := by
  intro es
  induction es with
  | nil =>
    intro s r ex h
    unfold vstrict at h
    split at h
    · cases h
    · rename_i hex
      cases h
      exact ⟨by simpa using hex, fun _ he => (nomatch he), Or.inl rfl, Or.inl rfl⟩
  | cons e es ih =>
    intro s r ex h
    cases e with
    | took k a =>
      unfold vstrict at h
      cases hv : vact fl s k a with
      | error e => rw [hv] at h; cases h
      | ok s' =>
        rw [hv] at h
        obtain ⟨h1, h2, h3, h4⟩ := ih s' r ex h
        refine ⟨h1, ?_, ?_, ?_⟩
        · intro e he
          rcases List.mem_cons.mp he with rfl | he
          · exact ⟨k, a, rfl⟩
          · exact h2 e he
        · rcases h3 with h3 | h3
          · by_cases hk : k = .activate
            · subst hk
              cases hv
              exact Or.inr (by rw [h3]; exact List.mem_cons_self)
            · refine Or.inl (h3.trans ?_)
              unfold vact at hv
              split at hv <;> first | (cases hv; rfl) | exact absurd rfl hk | (split at hv <;> cases hv <;> rfl) | cases hv
          · exact Or.inr (List.mem_cons_of_mem _ h3)
        · rcases h4 with h4 | h4
          · by_cases hk : k = .deactivate
            · subst hk
              cases hv
              exact Or.inr (by rw [h4]; exact List.mem_cons_self)
            · refine Or.inl (h4.trans ?_)
              unfold vact at hv
              split at hv <;> first | (cases hv; rfl) | exact absurd rfl hk | (split at hv <;> cases hv <;> rfl) | cases hv
          · exact Or.inr (List.mem_cons_of_mem _ h4)
    | word w => unfold vstrict at h; exact absurd (ih _ _ _ h).1 (by simp)
    | sep => unfold vstrict at h; exact absurd (ih _ _ _ h).1 (by simp)
    | extra w => unfold vstrict at h; exact absurd (ih _ _ _ h).1 (by simp)
    | bad => unfold vstrict at h; cases h

/-- Whatever the line is: a controller the verb asks to activate or to deactivate is named by a word of the line (all of it, or what comes after
`=`), and a line with a word that belongs to no option is refused. -/
theorem C85_any {args : List Str} {r : VNs} (h : verbArgs fl args = .ok r) :
    (∀ n ∈ r.act ++ r.deact, ∃ w ∈ args, n <:+ w) ∧ ∀ e ∈ parse verbParser args, ∃ k a, e = Ev.took k a := by
  obtain ⟨_, h2, h3, h4⟩ := vstrict_from _ _ _ _ h
  refine ⟨?_, h2⟩
  intro n hn
  rcases List.mem_append.mp hn with hn | hn
  · rcases h3 with h3 | h3
    · rw [h3] at hn; cases hn
    · exact v_parse_took args _ _ h3 n hn
  · rcases h4 with h4 | h4
    · rw [h4] at hn; cases hn
    · exact v_parse_took args _ _ h4 n hn

/-- Not vacuous: the line `--activate a b --strict -c cm --deactivate=c --activate-asap`. -/
example : let l : List VSetting := [⟨.activate, .spaced, [str "a", str "b"]⟩, ⟨.strict, .spaced, []⟩, ⟨.cm, .short, [str "cm"]⟩,
      ⟨.deactivate, .eq, [str "c"]⟩, ⟨.asap, .spaced, []⟩]
    vline l = [str "--activate", str "a", str "b", str "--strict", str "-c", str "cm", str "--deactivate=c", str "--activate-asap"] ∧
    (∀ x ∈ l, x.Ok (fun _ => true)) ∧
    verbArgs (fun _ => true) (vline l) = .ok { act := [str "a", str "b"], deact := [str "c"], strict := true, asap := true, cm := str "cm" } := by
  have ok : ∀ x ∈ [(⟨.activate, .spaced, [str "a", str "b"]⟩ : VSetting), ⟨.strict, .spaced, []⟩, ⟨.cm, .short, [str "cm"]⟩,
      ⟨.deactivate, .eq, [str "c"]⟩, ⟨.asap, .spaced, []⟩], x.Ok (fun _ => true) := by
    intro x hx
    simp only [List.mem_cons, List.not_mem_nil, or_false] at hx
    rcases hx with rfl | rfl | rfl | rfl | rfl <;>
      exact ⟨by simp [VSetting.Counts], by decide +kernel, by decide +kernel, fun h => by cases h⟩
  exact ⟨by decide +kernel, ok, by rw [C85_line _ ok]; rfl⟩

/-- Of two lists of controllers to activate only the last is asked for, and nothing is said about the other. -/
example : verbArgs (fun _ => true) [str "--activate", str "a", str "--activate", str "b"] = .ok { act := [str "b"] } := by decide +kernel

/-- Names before the options, or after an option that takes none, are refused. -/
example : verbArgs (fun _ => true) [str "a", str "--strict"] = .error .error ∧
    verbArgs (fun _ => true) [str "--activate", str "a", str "--strict", str "b"] = .error .error := by decide +kernel

end Verif.Argv
