import Verif.Xml.Lemmas
import Mathlib.Data.List.Induction
/-!
# The parser reads what is written, and accepts whatever describes something
-/
namespace Verif.Xml
open Verif.Text (Blanks Digits decimalValue Spelled trueWord falseWord ListText IntText SignText Out strip parseBool stod scanInt
  parseIntArray toLowerCase Re isDigit isBlank blanks_iff blanks_one)
open Verif.Desc (MimicAttr)

/-! ## Last ones -/

theorem last_snoc (l : List Elem) (P : Elem → Prop) (x y : Elem) :
    Last (l ++ [x]) P y ↔ (P x ∧ y = x) ∨ (¬ P x ∧ Last l P y) := by
  constructor
  · rintro ⟨a, b, he, hy, hb⟩
    rcases List.eq_nil_or_concat b with rfl | ⟨b', z, rfl⟩
    · have := List.append_inj' he rfl
      cases this.2
      exact .inl ⟨hy, rfl⟩
    · simp only [List.concat_eq_append] at he hb
      rw [← List.cons_append, ← List.append_assoc] at he
      have := List.append_inj' he rfl
      cases this.2
      refine .inr ⟨hb x (by simp), a, b', this.1, hy, fun z hz => hb z (by simp [hz])⟩
  · rintro (⟨hx, rfl⟩ | ⟨hx, a, b, rfl, hy, hb⟩)
    · exact ⟨l, [], rfl, hx, by simp⟩
    · refine ⟨a, b ++ [x], by simp, hy, fun z hz => ?_⟩
      rcases List.mem_append.1 hz with h | h
      · exact hb z h
      · rw [List.mem_singleton.1 h]; exact hx

theorem last_unique {l : List Elem} {P : Elem → Prop} {x y : Elem} (hx : Last l P x) (hy : Last l P y) : x = y := by
  induction l using List.reverseRecOn with
  | nil => obtain ⟨a, b, he, -⟩ := hx; simp at he
  | append_singleton l z ih =>
    rw [last_snoc] at hx hy
    rcases hx with ⟨h1, rfl⟩ | ⟨h1, h2⟩
    · rcases hy with ⟨_, rfl⟩ | ⟨h3, _⟩
      · rfl
      · exact absurd h1 h3
    · rcases hy with ⟨h3, _⟩ | ⟨_, h4⟩
      · exact absurd h3 h1
      · exact ih h2 h4

theorem last_exists {l : List Elem} {P : Elem → Prop} {x : Elem} (hx : x ∈ l) (hp : P x) : ∃ y, Last l P y := by
  induction l using List.reverseRecOn with
  | nil => simp at hx
  | append_singleton l z ih =>
    by_cases hz : P z
    · exact ⟨z, (last_snoc ..).2 (.inl ⟨hz, rfl⟩)⟩
    · rcases List.mem_append.1 hx with h | h
      · obtain ⟨y, hy⟩ := ih h
        exact ⟨y, (last_snoc ..).2 (.inr ⟨hz, hy⟩)⟩
      · rw [List.mem_singleton.1 h] at hp; exact absurd hp hz

theorem lastValue_nil {α : Type} (P : Elem → Prop) (V : Elem → α → Prop) (d : α) : LastValue [] P V d d :=
  .inr ⟨by simp, rfl⟩

theorem lastValue_snoc {α : Type} {l : List Elem} {P : Elem → Prop} {V : Elem → α → Prop} {d v v' : α} {x : Elem}
    (h : LastValue l P V d v) (h1 : P x → V x v') (h2 : ¬ P x → v' = v) : LastValue (l ++ [x]) P V d v' := by
  by_cases hx : P x
  · exact .inl ⟨x, (last_snoc ..).2 (.inl ⟨hx, rfl⟩), h1 hx⟩
  · rw [h2 hx]
    rcases h with ⟨y, hy, hv⟩ | ⟨hn, hv⟩
    · exact .inl ⟨y, (last_snoc ..).2 (.inr ⟨hx, hy⟩), hv⟩
    · refine .inr ⟨fun z hz => ?_, hv⟩
      rcases List.mem_append.1 hz with h | h
      · exact hn z h
      · rw [List.mem_singleton.1 h]; exact hx

/-! ## Parameters -/

theorem assign_keys (m : List (Str × Str)) (k v : Str) :
    ((assign m k v).map (·.1)) = if k ∈ m.map (·.1) then m.map (·.1) else m.map (·.1) ++ [k] := by
  induction m with
  | nil => simp [assign]
  | cons p t ih =>
    unfold assign
    by_cases h : p.1 = k
    · simp [h]
    · rw [if_neg h, List.map_cons, ih]
      have hk : k ≠ p.1 := fun e => h e.symm
      by_cases hm : k ∈ t.map (·.1)
      · simp only [List.map_cons, List.mem_cons, hm, or_true, if_true]
      · simp only [List.map_cons, List.mem_cons, hm, hk, or_self, if_false, List.cons_append]

theorem assign_nodup {m : List (Str × Str)} (h : (m.map (·.1)).Nodup) (k v : Str) : ((assign m k v).map (·.1)).Nodup := by
  rw [assign_keys]
  split
  · exact h
  · rename_i hk
    rw [List.nodup_append]
    exact ⟨h, by simp, fun a ha b hb => by rw [List.mem_singleton.1 hb]; rintro rfl; exact hk ha⟩

theorem mem_assign {m : List (Str × Str)} (h : (m.map (·.1)).Nodup) (k v a b : Str) :
    (a, b) ∈ assign m k v ↔ (a = k ∧ b = v) ∨ (a ≠ k ∧ (a, b) ∈ m) := by
  induction m with
  | nil => simp [assign]
  | cons p t ih =>
    obtain ⟨p1, p2⟩ := p
    rw [List.map_cons, List.nodup_cons] at h
    unfold assign
    by_cases hk : p1 = k
    · subst hk
      simp only [if_true, List.mem_cons, Prod.mk.injEq]
      have : (a, b) ∈ t → a ≠ p1 := by
        intro hm e; subst e
        exact h.1 (List.mem_map.2 ⟨_, hm, rfl⟩)
      constructor
      · rintro (⟨rfl, rfl⟩ | hm)
        · exact .inl ⟨rfl, rfl⟩
        · exact .inr ⟨this hm, .inr hm⟩
      · rintro (⟨rfl, rfl⟩ | ⟨hne, ⟨rfl, -⟩ | hm⟩)
        · exact .inl ⟨rfl, rfl⟩
        · exact absurd rfl hne
        · exact .inr hm
    · simp only [hk, if_false, List.mem_cons, ih h.2, Prod.mk.injEq]
      constructor
      · rintro (⟨rfl, rfl⟩ | ⟨rfl, rfl⟩ | ⟨h1, h2⟩)
        · exact .inr ⟨hk, .inl ⟨rfl, rfl⟩⟩
        · exact .inl ⟨rfl, rfl⟩
        · exact .inr ⟨h1, .inr h2⟩
      · rintro (⟨rfl, rfl⟩ | ⟨h1, ⟨rfl, rfl⟩ | h2⟩)
        · exact .inr (.inl ⟨rfl, rfl⟩)
        · exact .inl ⟨rfl, rfl⟩
        · exact .inr (.inr ⟨h1, h2⟩)

theorem get_mem {m : List (Str × Str)} (h : (m.map (·.1)).Nodup) (k v : Str) : get m k = some v ↔ (k, v) ∈ m := by
  unfold get
  induction m with
  | nil => simp
  | cons p t ih =>
    obtain ⟨p1, p2⟩ := p
    rw [List.map_cons, List.nodup_cons] at h
    by_cases hk : p1 = k
    · subst hk
      simp only [List.find?_cons, decide_true, Option.map_some, Option.some.injEq, List.mem_cons, Prod.mk.injEq, true_and]
      constructor
      · intro e; exact .inl e.symm
      · rintro (e | hm)
        · exact e.symm
        · exact absurd (List.mem_map.2 ⟨_, hm, rfl⟩) h.1
    · have hk' : k ≠ p1 := fun e => hk e.symm
      simp only [List.find?_cons, hk, decide_false, List.mem_cons, Prod.mk.injEq, hk', false_and, false_or]
      exact ih h.2

theorem paramsAre_nil : ParamsAre [] [] := by
  refine ⟨by simp, by simp, ?_⟩
  intro k v
  constructor
  · intro h; simp at h
  · rintro ⟨p, ⟨a, b, he, -⟩, -⟩; simp at he

theorem has_unique {e : Elem} {k : String} {v w : Str} (h : Has e k v) (g : Has e k w) : v = w := by
  rw [has_iff] at h g
  obtain ⟨r, h1, rfl⟩ := h
  obtain ⟨r', h2, rfl⟩ := g
  rw [h1] at h2; cases h2; rfl

theorem paramsAre_snoc {pre : List Elem} {m : List (Str × Str)} {e : Elem} {k : Str} (h : ParamsAre pre m) (hk : Has e "name" k) :
    ParamsAre (pre ++ [e]) (assign m k (textOf e)) := by
  obtain ⟨h1, h2, h3⟩ := h
  refine ⟨?_, assign_nodup h2 _ _, ?_⟩
  · intro p hp
    rcases List.mem_append.1 hp with h | h
    · exact h1 p h
    · rw [List.mem_singleton.1 h]; exact ⟨k, hk⟩
  · intro a b
    rw [mem_assign h2]
    by_cases hak : a = k
    · subst hak
      simp only [true_and, ne_eq, not_true_eq_false, false_and, or_false]
      constructor
      · rintro rfl; exact ⟨e, (last_snoc ..).2 (.inl ⟨hk, rfl⟩), (textIs_iff _ _).2 rfl⟩
      · rintro ⟨p, hp, ht⟩
        rcases (last_snoc ..).1 hp with ⟨_, rfl⟩ | ⟨hn, _⟩
        · exact ((textIs_iff _ _).1 ht).symm
        · exact absurd hk hn
    · have hna : ¬ Has e "name" a := fun g => hak (has_unique g hk)
      simp only [hak, false_and, ne_eq, not_false_eq_true, true_and, false_or, h3]
      constructor
      · rintro ⟨p, hp, ht⟩; exact ⟨p, (last_snoc ..).2 (.inr ⟨hna, hp⟩), ht⟩
      · rintro ⟨p, hp, ht⟩
        rcases (last_snoc ..).1 hp with ⟨g, _⟩ | ⟨_, hp⟩
        · exact absurd g hna
        · exact ⟨p, hp, ht⟩

theorem textOf_strip (e : Elem) : strip (textOf e) = textOf e := by
  unfold textOf
  cases e.text with
  | none => rfl
  | some t => exact strip_strip t

theorem params_inv (es : List Elem) : ∀ (pre : List Elem) (m m' : List (Str × Str)), ParamsAre pre m → params es m = .ok m' →
    ParamsAre (pre ++ es) m' := by
  induction es with
  | nil => intro pre m m' h he; simp only [params, Except.ok.injEq] at he; rw [← he]; simpa using h
  | cons e es ih =>
    intro pre m m' h he
    rw [params] at he
    cases hf : e.find "name" with
    | none => rw [hf] at he; cases he
    | some n =>
      rw [hf] at he
      have := ih (pre ++ [e]) _ m' (paramsAre_snoc (k := strip n) h ((has_iff _ _ _).2 ⟨n, hf, rfl⟩)) (by rw [← textOf_strip]; exact he)
      simpa using this

theorem params_exists (es : List Elem) (h : ∀ p ∈ es, ∃ k, Has p "name" k) : ∀ m, ∃ m', params es m = .ok m' := by
  induction es with
  | nil => intro m; exact ⟨m, rfl⟩
  | cons e es ih =>
    intro m
    obtain ⟨k, hk⟩ := h e (List.mem_cons_self ..)
    obtain ⟨n, hf, -⟩ := (has_iff _ _ _).1 hk
    rw [params, hf]
    exact ih (fun p hp => h p (List.mem_cons_of_mem _ hp)) _

theorem params_sound {es : List Elem} {m : List (Str × Str)} (h : params es [] = .ok m) : ParamsAre es m := by
  have := params_inv es [] [] m paramsAre_nil h
  simpa using this

theorem params_complete {es : List Elem} {m : List (Str × Str)} (h : ParamsAre es m) : ∃ m', params es [] = .ok m' :=
  params_exists es h.1 []

theorem param_value {ps : List Elem} {m : List (Str × Str)} (h : ParamsAre ps m) (k : Str) :
    LastValue ps (fun p => Has p "name" k) TextIs [] ((get m k).getD []) := by
  cases hg : get m k with
  | some v =>
    rw [get_mem h.2.1, h.2.2] at hg
    exact .inl hg
  | none =>
    refine .inr ⟨?_, rfl⟩
    intro x hx hk
    obtain ⟨y, hy⟩ := last_exists (P := fun p => Has p "name" k) hx hk
    have := (h.2.2 k (textOf y)).2 ⟨y, hy, (textIs_iff _ _).2 rfl⟩
    rw [← get_mem h.2.1, hg] at this
    cases this

/-! ## Lists -/

theorem each_ok {α β : Type} (f : α → R β) (l : List α) (r : List β) :
    each f l = .ok r ↔ List.Forall₂ (fun a b => f a = .ok b) l r := by
  induction l generalizing r with
  | nil =>
    simp only [each, Except.ok.injEq, List.forall₂_nil_left_iff]
    exact eq_comm
  | cons a t ih =>
    rw [each]
    cases hf : f a with
    | error x =>
      constructor
      · intro h; cases h
      · intro h; cases h with | cons h1 h2 => rw [hf] at h1; cases h1
    | ok b =>
      cases ht : each f t with
      | error x =>
        constructor
        · intro h; cases h
        · intro h
          cases h with
          | cons h1 h2 => rw [← ih, ht] at h2; cases h2
      | ok bs =>
        constructor
        · intro h; cases h; exact .cons hf ((ih bs).1 ht)
        · intro h
          cases h with
          | cons h1 h2 =>
            rw [hf] at h1; cases h1
            rw [← ih, ht] at h2; cases h2
            rfl

theorem forall₂_imp {α β : Type} {P Q : α → β → Prop} (h : ∀ a b, P a b → Q a b) {l : List α} {r : List β} (hl : List.Forall₂ P l r) :
    List.Forall₂ Q l r := hl.imp h

theorem each_complete {α β γ : Type} {f : α → R β} {P : α → γ → Prop} {l : List α} {r : List γ} (h : List.Forall₂ P l r)
    (hf : ∀ a c, P a c → ∃ b, f a = .ok b) : ∃ bs, each f l = .ok bs := by
  induction h with
  | nil => exact ⟨[], rfl⟩
  | cons h1 h2 ih =>
    obtain ⟨b, hb⟩ := hf _ _ h1
    obtain ⟨bs, hbs⟩ := ih
    exact ⟨b :: bs, by simp [each, hb, hbs]; rfl⟩

/-! ## Interfaces and components -/

theorem itf_sound {e : Elem} {i : Itf} (h : itf e = .ok i) (g : Bool) : IsItf g e { i with enable := i.enable && g } := by
  unfold itf at h
  cases hn : attr e "name" with
  | error x => rw [hn] at h; cases h
  | ok name =>
    cases hp : params (e.all "param") [] with
    | error x => rw [hn, hp] at h; cases h
    | ok ps =>
      cases he : enabled e with
      | error x => rw [hn, hp, he] at h; cases h
      | ok en =>
        cases hs : sizeOf e with
        | error x => rw [hn, hp, he, hs] at h; cases h
        | ok size =>
          rw [hn, hp, he, hs] at h
          cases h
          have P := params_sound hp
          exact ⟨(attr_ok _ _ _).1 hn, P, param_value P _, param_value P _, param_value P _, (dataType_is _ _).1 rfl,
            (sizeOf_ok _ _).1 hs, en, (enabled_ok _ _).1 he, rfl⟩

theorem itf_complete {e : Elem} {i : Itf} {g : Bool} (h : IsItf g e i) : ∃ i', itf e = .ok i' := by
  obtain ⟨b, hb, -⟩ := h.enable
  obtain ⟨ps, hps⟩ := params_complete h.params
  have hps' : params (e.all "param") [] = .ok ps := hps
  unfold itf
  rw [(attr_ok _ _ _).2 h.name, hps', (enabled_ok _ _).2 hb, (sizeOf_ok _ _).2 h.size]
  exact ⟨_, rfl⟩

theorem itfs_sound {l : List Elem} {is : List Itf} (h : each itf l = .ok is) (g : Bool) :
    List.Forall₂ (IsItf g) l (is.map (fun i => { i with enable := i.enable && g })) := by
  rw [List.forall₂_map_right_iff]
  exact forall₂_imp (fun a b hab => itf_sound hab g) ((each_ok _ _ _).1 h)

theorem itfs_complete {l : List Elem} {is : List Itf} {g : Bool} (h : List.Forall₂ (IsItf g) l is) : ∃ is', each itf l = .ok is' :=
  each_complete h (fun _ _ => itf_complete)

theorem mimic_ok (e : Elem) (m : MimicAttr) : mimicOf e = .ok m ↔
    OptAttr e "mimic" (fun s m => (BoolText s true ∧ m = .true) ∨ (BoolText s false ∧ m = .false)) .notSet m := by
  unfold mimicOf attr
  cases hf : e.find "mimic" with
  | none =>
    rw [optAttr_none hf]
    show ((.ok .notSet : R MimicAttr) = .ok m) ↔ _
    simp only [Except.ok.injEq]
    exact eq_comm
  | some v =>
    rw [optAttr_some hf, ← parseBool_ok, ← parseBool_ok]
    show (match lift (parseBool (strip v)) with
      | .ok true => .ok .true
      | .ok false => .ok .false
      | .error .runtime => .ok .notSet
      | .error x => .error x : R MimicAttr) = .ok m ↔ _
    have hnr : lift (parseBool (strip v)) ≠ .error .runtime := by
      cases parseBool (strip v) <;> simp [lift]
    cases hl : lift (parseBool (strip v)) with
    | ok b => cases b <;> simp [eq_comm]
    | error x =>
      cases x with
      | runtime => exact absurd hl hnr
      | _ => simp

theorem comp_sound {e : Elem} {c : Comp} (h : comp e = .ok c) : IsComp e c := by
  unfold comp at h
  cases hn : attr e "name" with
  | error x => rw [hn] at h; cases h
  | ok name =>
    cases hm : mimicAttr e with
    | error x => rw [hn, hm] at h; cases h
    | ok mimic =>
      cases he : enabled e with
      | error x => rw [hn, hm, he] at h; cases h
      | ok en =>
        cases hc : each itf (e.all "command_interface") with
        | error x => rw [hn, hm, he, hc] at h; cases h
        | ok cmds =>
          cases hs : each itf (e.all "state_interface") with
          | error x => rw [hn, hm, he, hc, hs] at h; cases h
          | ok states =>
            cases hp : params (e.all "param") [] with
            | error x => rw [hn, hm, he, hc, hs, hp] at h; cases h
            | ok ps =>
              rw [hn, hm, he, hc, hs, hp] at h
              cases h
              refine ⟨(attr_ok _ _ _).1 hn, rfl, ?_, (enabled_ok _ _).1 he, itfs_sound hc _, itfs_sound hs _, params_sound hp⟩
              unfold mimicAttr at hm
              by_cases ht : e.tag = "joint"
              · rw [if_pos ht] at hm ⊢
                exact (mimic_ok _ _).1 hm
              · rw [if_neg ht] at hm ⊢
                cases hm; rfl

theorem comp_complete {e : Elem} {c : Comp} (h : IsComp e c) : ∃ c', comp e = .ok c' := by
  obtain ⟨ps, hps⟩ := params_complete h.params
  obtain ⟨cs, hcs⟩ := itfs_complete h.cmds
  obtain ⟨ss, hss⟩ := itfs_complete h.states
  have hps' : params (e.all "param") [] = .ok ps := hps
  have hcs' : each itf (e.all "command_interface") = .ok cs := hcs
  have hss' : each itf (e.all "state_interface") = .ok ss := hss
  have hm : mimicAttr e = .ok c.mimic := by
    have := h.mimic
    unfold mimicAttr
    by_cases ht : e.tag = "joint"
    · rw [if_pos ht] at this ⊢; exact (mimic_ok _ _).2 this
    · rw [if_neg ht] at this ⊢; rw [this]
  unfold comp
  rw [(attr_ok _ _ _).2 h.name, hm, (enabled_ok _ _).2 h.enable, hcs', hss', hps']
  exact ⟨_, rfl⟩

theorem gpio_sound {e : Elem} {c : Comp} (h : gpio e = .ok c) : IsGpio e c := by
  unfold gpio at h
  cases hn : attr e "name" with
  | error x => rw [hn] at h; cases h
  | ok name =>
    cases hc : each itf (e.all "command_interface") with
    | error x => rw [hn, hc] at h; cases h
    | ok cmds =>
      cases hs : each itf (e.all "state_interface") with
      | error x => rw [hn, hc, hs] at h; cases h
      | ok states =>
        cases hp : params (e.all "param") [] with
        | error x => rw [hn, hc, hs, hp] at h; cases h
        | ok ps =>
          rw [hn, hc, hs, hp] at h
          cases h
          have hid : ∀ l : List Itf, l.map (fun i => { i with enable := i.enable && true }) = l := by
            intro l; simp
          refine ⟨(attr_ok _ _ _).1 hn, rfl, rfl, rfl, ?_, ?_, params_sound hp⟩
          · have := itfs_sound hc true; rw [hid] at this; exact this
          · have := itfs_sound hs true; rw [hid] at this; exact this

theorem gpio_complete {e : Elem} {c : Comp} (h : IsGpio e c) : ∃ c', gpio e = .ok c' := by
  obtain ⟨ps, hps⟩ := params_complete h.params
  obtain ⟨cs, hcs⟩ := itfs_complete h.cmds
  obtain ⟨ss, hss⟩ := itfs_complete h.states
  have hps' : params (e.all "param") [] = .ok ps := hps
  have hcs' : each itf (e.all "command_interface") = .ok cs := hcs
  have hss' : each itf (e.all "state_interface") = .ok ss := hss
  unfold gpio
  rw [(attr_ok _ _ _).2 h.name, hcs', hss', hps']
  exact ⟨_, rfl⟩

/-! ## Transmissions -/

theorem numberOr_is (round : Rat → Option Rat) (k : String) (d : Rat) (e : Elem) : NumberIs round e k d (numberOr round k d e.kids) := by
  unfold NumberIs
  generalize e.kids = l
  induction l with
  | nil => exact .inr ⟨by simp, rfl⟩
  | cons x l ih =>
    have skip : (x.tag = k → x.text = none) → numberOr round k d (x :: l) = numberOr round k d l := by
      intro h
      rw [numberOr]
      by_cases hk : x.tag = k
      · rw [if_pos hk, h hk]
      · rw [if_neg hk]
    by_cases hs : x.tag = k → x.text = none
    · rw [skip hs]
      rcases ih with ⟨a, c, b, raw, v, he, h1, h2, h3, h4, h5⟩ | ⟨h1, h2⟩
      · refine .inl ⟨x :: a, c, b, raw, v, by rw [he]; rfl, h1, h2, ?_, h4, h5⟩
        intro y hy
        rcases List.mem_cons.1 hy with rfl | hy
        · exact hs
        · exact h3 y hy
      · refine .inr ⟨?_, h2⟩
        intro y hy
        rcases List.mem_cons.1 hy with rfl | hy
        · exact hs
        · exact h1 y hy
    · obtain ⟨hk, ht⟩ := Classical.not_imp.1 hs
      obtain ⟨raw, hr⟩ := Option.ne_none_iff_exists'.1 ht
      refine .inl ⟨[], x, l, raw, strip raw, rfl, hk, hr, by simp, (trimmed_iff _ _).2 rfl, ?_⟩
      rw [numberOr, if_pos hk, hr]
      simp only [Desc.Reads]
      cases hst : stod round (strip raw) with
      | ok q => exact .inl rfl
      | invalid => exact .inr ⟨by simp, rfl⟩
      | range => exact .inr ⟨by simp, rfl⟩
      | ub => exact .inr ⟨by simp, rfl⟩

theorem tpart_sound {round : Rat → Option Rat} {e : Elem} {t : TPart} (h : tpart round e = .ok t) :
    IsTPart round e t ∧ t.states = [] ∧ t.cmds = [] := by
  unfold tpart at h
  cases hn : attr e "name" with
  | error x => rw [hn] at h; cases h
  | ok name =>
    cases hr : attr e "role" with
    | error x => rw [hn, hr] at h; cases h
    | ok role =>
      cases ho : readOnly e with
      | error x => rw [hn, hr, ho] at h; cases h
      | ok ro =>
        rw [hn, hr, ho] at h
        cases h
        exact ⟨⟨(attr_ok _ _ _).1 hn, (attr_ok _ _ _).1 hr, numberOr_is .., numberOr_is .., (readOnly_ok _ _).1 ho⟩, rfl, rfl⟩

theorem tpart_complete {round : Rat → Option Rat} {e : Elem} {t : TPart} (h : IsTPart round e t) : ∃ t', tpart round e = .ok t' := by
  unfold tpart
  rw [(attr_ok _ _ _).2 h.name, (attr_ok _ _ _).2 h.role, (readOnly_ok _ _).2 h.readOnly]
  exact ⟨_, rfl⟩

end Verif.Xml
