import Verif.Text.Parse
import Verif.Text.Spec
import Mathlib.Tactic.Ring
import Mathlib.Tactic.Linarith
/-!
# Lemmas on text conversions
-/
namespace Verif.Text
open Re

theorem isBlank_iff (c : Char) : isBlank c = true ↔ c ∈ [' ', '\t', '\n', '\r', Char.ofNat 12, Char.ofNat 11] := by
  simp [isBlank, or_assoc]

theorem blanks_iff (w : List Char) : Blanks w ↔ ∀ c ∈ w, isBlank c = true := by
  unfold Blanks; simp only [isBlank_iff]

theorem blanks_one (c : Char) : Blanks [c] ↔ isBlank c = true := by rw [blanks_iff]; simp

theorem Blanks.append {a b : List Char} (ha : Blanks a) (hb : Blanks b) : Blanks (a ++ b) := by
  intro c hc; rcases List.mem_append.1 hc with h | h
  · exact ha c h
  · exact hb c h

theorem lang_blanks {w : List Char} : Lang (star (cls isBlank)) w ↔ Blanks w := by rw [lang_star_cls, blanks_iff]

/-! ## Arrays -/

/-- What `array_regex` accepts: one pair of brackets around anything without brackets. -/
theorem lang_arrayRe (s : List Char) : Lang arrayRe s ↔ ∃ w, s = '[' :: (w ++ [']']) ∧ ∀ c ∈ w, c ≠ '[' ∧ c ≠ ']' := by
  have nb : ∀ {w : List Char}, Blanks w → ∀ c ∈ w, c ≠ '[' ∧ c ≠ ']' := by
    intro w h c hc
    have := h c hc
    constructor <;> rintro rfl <;> exact absurd this (by decide)
  unfold arrayRe
  simp only [lang_seq, lang_chr, lang_opt, lang_blanks]
  constructor
  · rintro ⟨_, _, rfl, rfl, w, _, rfl, hw, b, _, rfl, hb, rfl⟩
    refine ⟨w ++ b, by simp, ?_⟩
    intro c hc
    rcases List.mem_append.1 hc with h | h
    · exact nb hw c h
    rcases hb with hb | rfl
    · unfold flatBody at hb
      simp only [lang_seq, lang_star_cls] at hb
      obtain ⟨x, _, rfl, hx, y, z, rfl, hy, hz⟩ := hb
      rcases List.mem_append.1 h with h | h
      · have := hx c h; simpa using this
      rcases List.mem_append.1 h with h | h
      · exact nb ((blanks_iff _).2 hy) c h
      obtain ⟨l, rfl, hl⟩ := lang_star.1 hz
      obtain ⟨u, hu, hcu⟩ := List.mem_flatten.1 h
      have := hl u hu
      simp only [lang_seq, lang_chr, lang_blanks, lang_plus_cls] at this
      obtain ⟨_, _, rfl, rfl, p, _, rfl, hp, q, r, rfl, hq, hr⟩ := this
      simp only [List.mem_append, List.mem_singleton] at hcu
      rcases hcu with rfl | h | h | h
      · decide
      · exact nb hp c h
      · have := hq.2 c h; simpa using this
      · exact nb hr c h
    · simp at h
  · rintro ⟨w, rfl, hw⟩
    refine ⟨['['], w ++ [']'], rfl, rfl, [], w ++ [']'], rfl, by intro c hc; simp at hc, w, [']'], rfl, .inl ?_, rfl⟩
    unfold flatBody
    simp only [lang_seq, lang_star_cls]
    refine ⟨w, [], by simp, ?_, [], [], rfl, by intro c hc; simp at hc, .starNil⟩
    intro c hc; simpa using hw c hc

theorem lang_emptyRe (s : List Char) : Lang emptyRe s ↔ ∃ w, s = '[' :: (w ++ [']']) ∧ Blanks w := by
  unfold emptyRe
  simp only [lang_seq, lang_chr, lang_blanks]
  constructor
  · rintro ⟨_, _, rfl, rfl, w, _, rfl, hw, rfl⟩; exact ⟨w, by simp, hw⟩
  · rintro ⟨w, rfl, hw⟩; exact ⟨['['], w ++ [']'], rfl, rfl, w, [']'], rfl, hw, rfl⟩

/-- A word of `comma_separated_regex`: no blank and no comma in it. -/
def Word (t : List Char) : Prop := t ≠ [] ∧ ∀ c ∈ t, (c != ',' && !isBlank c) = true

/-- The part after the first element. -/
def Tail (x : List Char) (l : List (List Char)) : Prop :=
  ∃ ps : List (List Char × List Char × List Char), x = (ps.map (fun p => p.1 ++ ',' :: (p.2.1 ++ p.2.2))).flatten ∧
    l = ps.map (fun p => p.2.2) ∧ ∀ p ∈ ps, Blanks p.1 ∧ Blanks p.2.1 ∧ Word p.2.2

theorem lang_commaTail (x : List Char) :
    Lang (.star (.seq (.star (.cls isBlank)) (.seq (.chr ',') (.seq (.star (.cls isBlank)) (.plus (.cls (fun c => c != ',' && !isBlank c))))))) x ↔
      ∃ l, Tail x l := by
  rw [lang_star]
  constructor
  · rintro ⟨l, rfl, hl⟩
    induction l with
    | nil => exact ⟨[], [], rfl, rfl, by simp⟩
    | cons u l ih =>
      obtain ⟨m, ps, e1, e2, hp⟩ := ih (fun y hy => hl y (by simp [hy]))
      have := hl u (by simp)
      simp only [lang_seq, lang_chr, lang_blanks, lang_plus_cls] at this
      obtain ⟨a, _, rfl, ha, _, _, rfl, rfl, b, t, rfl, hb, ht⟩ := this
      refine ⟨t :: m, (a, b, t) :: ps, by simp [e1], by simp [e2], ?_⟩
      intro p hp'
      rcases List.mem_cons.1 hp' with rfl | h
      · exact ⟨ha, hb, ht⟩
      · exact hp p h
  · rintro ⟨l, ps, rfl, rfl, hp⟩
    refine ⟨ps.map (fun p => p.1 ++ ',' :: (p.2.1 ++ p.2.2)), rfl, ?_⟩
    intro y hy
    obtain ⟨p, hp', rfl⟩ := List.mem_map.1 hy
    obtain ⟨h1, h2, h3⟩ := hp p hp'
    simp only [lang_seq, lang_chr, lang_blanks, lang_plus_cls]
    exact ⟨p.1, _, rfl, h1, [','], _, rfl, rfl, p.2.1, p.2.2, rfl, h2, h3⟩

/-- What `comma_separated_regex` accepts. -/
theorem lang_commaRe (s : List Char) : Lang commaRe s ↔ ∃ w, s = '[' :: (w ++ [']']) ∧
    (Blanks w ∨ ∃ a t x b l, w = a ++ (t ++ x) ++ b ∧ Blanks a ∧ Word t ∧ Tail x l ∧ Blanks b) := by
  unfold commaRe commaBody
  simp only [lang_seq, lang_chr, lang_opt, lang_blanks, lang_commaTail, lang_plus_cls]
  constructor
  · rintro ⟨_, _, rfl, rfl, a, _, rfl, ha, y, _, rfl, hy, b, _, rfl, hb, rfl⟩
    refine ⟨a ++ y ++ b, by simp, ?_⟩
    rcases hy with ⟨t, x, rfl, ht, l, hx⟩ | rfl
    · exact .inr ⟨a, t, x, b, l, by simp, ha, ht, hx, hb⟩
    · exact .inl (by simpa using ha.append hb)
  · rintro ⟨w, rfl, h | ⟨a, t, x, b, l, rfl, ha, ht, hx, hb⟩⟩
    · exact ⟨['['], _, rfl, rfl, w, [']'], rfl, h, [], [']'], rfl, .inr rfl, [], [']'], rfl, by intro c hc; simp at hc, rfl⟩
    · exact ⟨['['], _, rfl, rfl, a, t ++ x ++ (b ++ [']']), by simp, ha, t ++ x, b ++ [']'], by simp, .inl ⟨t, x, rfl, ht, l, hx⟩, b, [']'], rfl, hb, rfl⟩

theorem Word.token {t : List Char} (h : Word t) (hb : ∀ c ∈ t, c ≠ '[' ∧ c ≠ ']') : Token t := by
  refine ⟨h.1, fun c hc => ?_⟩
  have := h.2 c hc
  simp at this
  rw [blanks_one]
  exact ⟨by simp [this.2], this.1, (hb c hc).1, (hb c hc).2⟩

theorem Token.word {t : List Char} (h : Token t) : Word t := by
  refine ⟨h.1, fun c hc => ?_⟩
  obtain ⟨h1, h2, _⟩ := h.2 c hc
  rw [blanks_one] at h1
  simp [h1, h2]

/-- Elements as the expressions see them are the elements of the specification. -/
theorem items_iff (w : List Char) (l : List (List Char)) (hw : ∀ c ∈ w, c ≠ '[' ∧ c ≠ ']') :
    Items w l ↔ ∃ a t x b m, w = a ++ (t ++ x) ++ b ∧ Blanks a ∧ Word t ∧ Tail x m ∧ Blanks b ∧ l = t :: m := by
  constructor
  · intro h
    clear hw
    induction h with
    | @one a t b ha ht hb => exact ⟨a, t, [], b, [], by simp, ha, ht.word, ⟨[], rfl, rfl, by simp⟩, hb, rfl⟩
    | @more a t b r l ha ht hb _ ih =>
      obtain ⟨a', t', x, b', m, rfl, ha', ht', ⟨ps, rfl, rfl, hp⟩, hb', rfl⟩ := ih
      refine ⟨a, t, b ++ ',' :: (a' ++ t') ++ (ps.map (fun p => p.1 ++ ',' :: (p.2.1 ++ p.2.2))).flatten, b', t' :: ps.map (fun p => p.2.2),
        by simp, ha, ht.word, ⟨(b, a', t') :: ps, by simp, by simp, ?_⟩, hb', rfl⟩
      intro p hp'
      rcases List.mem_cons.1 hp' with rfl | h
      · exact ⟨hb, ha', ht'⟩
      · exact hp p h
  · rintro ⟨a, t, x, b, m, rfl, ha, ht, ⟨ps, rfl, rfl, hp⟩, hb, rfl⟩
    induction ps generalizing a t with
    | nil =>
      simp
      have := Items.one ha (ht.token (fun c hc => hw c (by simp [hc]))) hb
      simpa using this
    | cons p ps ih =>
      obtain ⟨h1, h2, h3⟩ := hp p (by simp)
      have := ih p.2.1 p.2.2 h2 h3 (fun c hc => hw c (by
        simp only [List.map_cons, List.flatten_cons, List.mem_append, List.mem_cons] at hc ⊢
        rcases hc with (h | h | h) | h
        · exact .inl (.inr (.inr (.inl (.inr (.inr (.inl h))))))
        · exact .inl (.inr (.inr (.inl (.inr (.inr (.inr h))))))
        · exact .inl (.inr (.inr (.inr h)))
        · exact .inr h)) (fun q hq => hp q (by simp [hq]))
      have := Items.more ha (ht.token (fun c hc => hw c (by simp [hc]))) h1 this
      simpa using this

theorem values_token (t : List Char) (ht : ∀ c ∈ t, isValueChar c = true) (cur r : List Char) :
    values cur (t ++ r) = values (cur ++ t) r := by
  induction t generalizing cur with
  | nil => simp
  | cons c t ih => simp only [List.cons_append, values, ht c (by simp), if_true]; rw [ih (fun d hd => ht d (by simp [hd]))]; simp

theorem values_skip (w : List Char) (hw : ∀ c ∈ w, isValueChar c = false) (r : List Char) : values [] (w ++ r) = values [] r := by
  induction w with
  | nil => rfl
  | cons c t ih => simp only [List.cons_append, values, hw c (by simp), Bool.false_eq_true, if_false, if_true]; exact ih (fun d hd => hw d (by simp [hd]))

theorem values_end (t w r : List Char) (ht : t ≠ []) (hw : ∀ c ∈ w, isValueChar c = false) (hne : w ≠ []) :
    values t (w ++ r) = t :: values [] r := by
  cases w with
  | nil => exact absurd rfl hne
  | cons c w =>
    simp only [List.cons_append, values, hw c (by simp), Bool.false_eq_true, if_false, ht]
    rw [values_skip w (fun d hd => hw d (by simp [hd]))]

theorem blank_not_value {w : List Char} (h : Blanks w) : ∀ c ∈ w, isValueChar c = false := by
  intro c hc; have := (blanks_iff w).1 h c hc; simp [isValueChar, this]

theorem token_value {t : List Char} (h : Token t) : ∀ c ∈ t, isValueChar c = true := by
  intro c hc
  obtain ⟨h1, h2, h3, h4⟩ := h.2 c hc
  rw [blanks_one] at h1
  simp [isValueChar, h1, h2, h3, h4]

/-- The values found are the elements. -/
theorem values_items {w : List Char} {l : List (List Char)} (h : Items w l) : values [] (w ++ [']']) = l := by
  induction h with
  | @one a t b ha ht hb =>
    rw [List.append_assoc, List.append_assoc, values_skip a (blank_not_value ha), values_token t (token_value ht), List.nil_append]
    rw [show b ++ [']'] = (b ++ [']']) ++ [] by simp, values_end t (b ++ [']']) [] ht.1 ?_ (by simp)]
    · simp [values]
    · intro c hc
      rcases List.mem_append.1 hc with h | h
      · exact blank_not_value hb c h
      · simp at h; subst h; decide
  | @more a t b r l ha ht hb _ ih =>
    rw [show a ++ t ++ b ++ ',' :: r ++ [']'] = a ++ (t ++ ((b ++ [',']) ++ (r ++ [']']))) by simp]
    rw [values_skip a (blank_not_value ha), values_token t (token_value ht), List.nil_append, values_end t (b ++ [',']) _ ht.1 ?_ (by simp), ih]
    intro c hc
    rcases List.mem_append.1 hc with h | h
    · exact blank_not_value hb c h
    · simp at h; subst h; decide

theorem items_no_brackets {w : List Char} {l : List (List Char)} (h : Items w l) : ∀ c ∈ w, c ≠ '[' ∧ c ≠ ']' := by
  have nb : ∀ {w : List Char}, Blanks w → ∀ c ∈ w, c ≠ '[' ∧ c ≠ ']' := by
    intro w h c hc
    have := h c hc
    constructor <;> rintro rfl <;> exact absurd this (by decide)
  induction h with
  | one ha ht hb =>
    intro c hc
    simp only [List.mem_append] at hc
    rcases hc with (h | h) | h
    · exact nb ha c h
    · exact ⟨(ht.2 c h).2.2.1, (ht.2 c h).2.2.2⟩
    · exact nb hb c h
  | more ha ht hb _ ih =>
    intro c hc
    simp only [List.mem_append, List.mem_cons] at hc
    rcases hc with ((h | h) | h) | h | h
    · exact nb ha c h
    · exact ⟨(ht.2 c h).2.2.1, (ht.2 c h).2.2.2⟩
    · exact nb hb c h
    · subst h; decide
    · exact ih c h

theorem items_not_blanks {w : List Char} {l : List (List Char)} (h : Items w l) : ¬ Blanks w := by
  intro hb
  have key : ∀ {a t : List Char} {r : List Char}, Token t → ¬ Blanks (a ++ t ++ r) := by
    intro a t r ht hb
    cases t with
    | nil => exact ht.1 rfl
    | cons c t => exact (ht.2 c (by simp)).1 (by intro d hd; simp at hd; subst hd; exact hb _ (by simp))
  cases h with
  | one ha ht hb' => exact key ht hb
  | @more a t b r l ha ht hb' _ => exact key (r := b ++ ',' :: r) ht (by simpa using hb)

theorem convertAll_ok {T : Type} (elem : List Char → Out T) (l : List (List Char)) (xs : List T) :
    convertAll elem l = .ok xs ↔ List.Forall₂ (fun t x => elem t = .ok x) l xs := by
  induction l generalizing xs with
  | nil =>
    simp only [convertAll, List.forall₂_nil_left_iff, Out.ok.injEq]
    exact eq_comm
  | cons t l ih =>
    simp only [convertAll, List.forall₂_cons_left_iff]
    cases he : elem t with
    | ok a =>
      cases hc : convertAll elem l with
      | ok m =>
        simp only [Out.ok.injEq]
        constructor
        · rintro rfl; exact ⟨a, m, rfl, (ih m).1 hc, rfl⟩
        · rintro ⟨b, u, rfl, h, rfl⟩; have := (ih u).2 h; rw [hc] at this; cases this; rfl
      | _ =>
        simp only [reduceCtorEq, false_iff]
        rintro ⟨b, u, _, h, rfl⟩; have := (ih u).2 h; rw [hc] at this; cases this
    | _ => simp

/-- **The whole of `parse_array`**: it accepts exactly the bracketed lists, and converts their elements in order. -/
theorem parseArray_list {T : Type} (elem : List Char → Out T) (s : List Char) :
    (∀ l, ListText s l → parseArray elem s = convertAll elem l) ∧ ((¬ ∃ l, ListText s l) → parseArray elem s = .invalid) := by
  constructor
  · rintro l ⟨w, rfl, h⟩
    have hnb : ∀ c ∈ w, c ≠ '[' ∧ c ≠ ']' := by
      rcases h with ⟨hb, _⟩ | h
      · intro c hc
        have := hb c hc
        constructor <;> rintro rfl <;> exact absurd this (by decide)
      · exact items_no_brackets h
    unfold parseArray
    rw [if_neg (by rw [(accepts_iff _ _).2 ((lang_arrayRe _).2 ⟨w, rfl, hnb⟩)]; simp)]
    rcases h with ⟨hb, rfl⟩ | h
    · rw [if_pos ((accepts_iff _ _).2 ((lang_emptyRe _).2 ⟨w, rfl, hb⟩))]; rfl
    · have e : emptyRe.accepts ('[' :: (w ++ [']'])) ≠ true := by
        rw [Ne, accepts_iff, lang_emptyRe]
        rintro ⟨v, e, hv⟩
        have e := (List.append_left_inj _).1 (List.cons.inj e).2
        exact items_not_blanks h (e ▸ hv)
      rw [if_neg e]
      obtain ⟨a, t, x, b, m, rfl, ha, ht, hx, hb, rfl⟩ := (items_iff w l hnb).1 h
      rw [if_neg (by rw [(accepts_iff _ _).2 ((lang_commaRe _).2 ⟨_, rfl, .inr ⟨a, t, x, b, m, rfl, ha, ht, hx, hb⟩⟩)]; simp)]
      rw [if_neg]
      · rw [show values [] ('[' :: (a ++ (t ++ x) ++ b ++ [']'])) = values [] (a ++ (t ++ x) ++ b ++ [']']) from values_skip ['['] (by decide) _]
        rw [values_items h]
      · intro e
        have := congrArg List.length e
        have ht1 := ht.1
        have : t.length = 0 := by simp at this; omega
        exact ht1 (List.length_eq_zero_iff.1 this)
  · intro h
    unfold parseArray
    by_cases h1 : arrayRe.accepts s = true
    · rw [if_neg (by simp [h1])]
      obtain ⟨w, rfl, hw⟩ := (lang_arrayRe s).1 ((accepts_iff _ _).1 h1)
      have h2 : emptyRe.accepts ('[' :: (w ++ [']'])) ≠ true := by
        rw [Ne, accepts_iff, lang_emptyRe]
        rintro ⟨v, e, hv⟩
        exact h ⟨[], v, e, .inl ⟨hv, rfl⟩⟩
      rw [if_neg h2]
      have h3 : commaRe.accepts ('[' :: (w ++ [']'])) ≠ true := by
        rw [Ne, accepts_iff, lang_commaRe]
        rintro ⟨v, e, hv⟩
        have e' := (List.append_left_inj _).1 (List.cons.inj e).2
        rcases hv with hv | ⟨a, t, x, b, m, hv, ha, ht, hx, hb⟩
        · exact h ⟨[], v, e, .inl ⟨hv, rfl⟩⟩
        · exact h ⟨t :: m, w, rfl, .inr ((items_iff w _ hw).2 ⟨a, t, x, b, m, e' ▸ hv, ha, ht, hx, hb, rfl⟩)⟩
      rw [if_pos (by simpa using h3)]
    · rw [if_pos (by simpa using h1)]

end Verif.Text
