/-!
# Regular expressions

`std::regex_match` (ECMAScript grammar, as used in hardware_interface/include/hardware_interface/lexical_casts.hpp:117-141)
decides whether the *whole* string is in the language of the expression. Modelled by derivatives; `Re.Lang` is the usual
meaning of regular expressions. Not modelled: that the library's matcher recurses and can exhaust the stack on very long strings.
-/
namespace Verif.Text

/-- Regular expressions over characters: a class of characters, the empty string, alternatives, concatenation, repetition.
(lexical_casts.hpp:117, 125, 133, 148 use exactly these, and the derived `?` and `+`.) -/
inductive Re where
  | no
  | eps
  | cls (p : Char → Bool)
  | alt (a b : Re)
  | seq (a b : Re)
  | star (a : Re)

namespace Re

/-- `x?` in the expressions of lexical_casts.hpp:117-141. -/
def opt (a : Re) : Re := alt a eps
/-- `x+` in the expressions of lexical_casts.hpp:117-148. -/
def plus (a : Re) : Re := seq a (star a)
/-- A single literal character in the expressions of lexical_casts.hpp:117-141. -/
def chr (c : Char) : Re := cls (fun d => d == c)

/-- The meaning of a regular expression. -/
inductive Lang : Re → List Char → Prop where
  | eps : Lang eps []
  | cls {p c} : p c = true → Lang (cls p) [c]
  | altL {a b s} : Lang a s → Lang (alt a b) s
  | altR {a b s} : Lang b s → Lang (alt a b) s
  | seq {a b s t} : Lang a s → Lang b t → Lang (seq a b) (s ++ t)
  | starNil {a} : Lang (star a) []
  | starCons {a s t} : Lang a s → Lang (star a) t → Lang (star a) (s ++ t)

/-- Does the expression match the empty string? Part of `std::regex_match` (lexical_casts.hpp:118, 126, 134). -/
def nullable : Re → Bool
  | no => false
  | eps => true
  | cls _ => false
  | alt a b => nullable a || nullable b
  | seq a b => nullable a && nullable b
  | star _ => true

/-- What must follow after the character `c`. Part of `std::regex_match` (lexical_casts.hpp:118, 126, 134). -/
def deriv (c : Char) : Re → Re
  | no => no
  | eps => no
  | cls p => if p c then eps else no
  | alt a b => alt (deriv c a) (deriv c b)
  | seq a b => if nullable a then alt (seq (deriv c a) b) (deriv c b) else seq (deriv c a) b
  | star a => seq (deriv c a) (star a)

/-- `std::regex_match(s, r)` (lexical_casts.hpp:118, 126, 134). -/
def accepts (r : Re) : List Char → Bool
  | [] => nullable r
  | c :: t => accepts (deriv c r) t

theorem lang_seq {a b : Re} {s : List Char} : Lang (seq a b) s ↔ ∃ x y, s = x ++ y ∧ Lang a x ∧ Lang b y := by
  constructor
  · intro h; cases h with | seq h g => exact ⟨_, _, rfl, h, g⟩
  · rintro ⟨x, y, rfl, h, g⟩; exact .seq h g

theorem nullable_iff (r : Re) : nullable r = true ↔ Lang r [] := by
  induction r with
  | no => exact ⟨fun h => by simp [nullable] at h, fun h => by cases h⟩
  | eps => exact ⟨fun _ => .eps, fun _ => rfl⟩
  | cls p => exact ⟨fun h => by simp [nullable] at h, fun h => by cases h⟩
  | alt a b iha ihb =>
    simp only [nullable, Bool.or_eq_true, iha, ihb]
    constructor
    · rintro (h | h)
      · exact .altL h
      · exact .altR h
    · intro h; cases h <;> simp_all
  | seq a b iha ihb =>
    simp only [nullable, Bool.and_eq_true, iha, ihb]
    constructor
    · rintro ⟨h, g⟩; exact .seq h g
    · intro h
      obtain ⟨x, y, e, h, g⟩ := lang_seq.1 h
      have := List.append_eq_nil_iff.1 e.symm
      rw [this.1] at h; rw [this.2] at g; exact ⟨h, g⟩
  | star a _ => exact ⟨fun _ => .starNil, fun _ => rfl⟩

theorem not_lang_no (s : List Char) : ¬ Lang no s := by intro h; cases h

theorem lang_alt {a b : Re} {s : List Char} : Lang (alt a b) s ↔ Lang a s ∨ Lang b s := by
  constructor
  · intro h; cases h <;> simp_all
  · rintro (h | h)
    · exact .altL h
    · exact .altR h

theorem lang_cls {p : Char → Bool} {s : List Char} : Lang (cls p) s ↔ ∃ c, p c = true ∧ s = [c] := by
  constructor
  · intro h; cases h with | cls h => exact ⟨_, h, rfl⟩
  · rintro ⟨c, h, rfl⟩; exact .cls h

theorem lang_eps {s : List Char} : Lang eps s ↔ s = [] := by
  constructor
  · intro h; cases h; rfl
  · rintro rfl; exact .eps

/-- A non-empty string of `star a` starts with a non-empty string of `a`. -/
theorem star_cons {a : Re} {c : Char} {s : List Char} (h : Lang (star a) (c :: s)) :
    ∃ x y, s = x ++ y ∧ Lang a (c :: x) ∧ Lang (star a) y := by
  generalize hr : star a = r at h
  generalize hw : c :: s = w at h
  induction h with
  | starNil => simp at hw
  | @starCons b x y hx hy _ ih =>
    cases hr
    cases x with
    | nil => exact ih rfl (by simpa using hw)
    | cons d x => simp at hw; obtain ⟨rfl, rfl⟩ := hw; exact ⟨x, y, rfl, hx, hy⟩
  | _ => cases hr

theorem deriv_iff (c : Char) (r : Re) (s : List Char) : Lang (deriv c r) s ↔ Lang r (c :: s) := by
  induction r generalizing s with
  | no => exact ⟨fun h => absurd h (not_lang_no _), fun h => absurd h (not_lang_no _)⟩
  | eps => exact ⟨fun h => absurd h (not_lang_no _), fun h => by simp [lang_eps] at h⟩
  | cls p =>
    simp only [deriv, lang_cls]
    by_cases h : p c = true
    · rw [if_pos h, lang_eps]
      constructor
      · rintro rfl; exact ⟨c, h, rfl⟩
      · rintro ⟨d, _, e⟩; simp at e; exact e.2
    · rw [if_neg h]
      constructor
      · intro g; exact absurd g (not_lang_no _)
      · rintro ⟨d, g, e⟩; simp at e; rw [← e.1] at g; exact absurd g h
  | alt a b iha ihb => simp only [deriv, lang_alt, iha, ihb]
  | seq a b iha ihb =>
    have key : Lang (seq a b) (c :: s) ↔ (∃ x y, s = x ++ y ∧ Lang a (c :: x) ∧ Lang b y) ∨ (Lang a [] ∧ Lang b (c :: s)) := by
      rw [lang_seq]
      constructor
      · rintro ⟨x, y, e, hx, hy⟩
        cases x with
        | nil => right; simp at e; exact ⟨hx, e ▸ hy⟩
        | cons d x => simp at e; obtain ⟨rfl, rfl⟩ := e; exact .inl ⟨x, y, rfl, hx, hy⟩
      · rintro (⟨x, y, rfl, hx, hy⟩ | ⟨h, g⟩)
        · exact ⟨c :: x, y, rfl, hx, hy⟩
        · exact ⟨[], c :: s, rfl, h, g⟩
    simp only [deriv]
    by_cases h : nullable a = true
    · rw [if_pos h, lang_alt, lang_seq, ihb, key]
      simp only [iha, (nullable_iff a).1 h, true_and]
    · rw [if_neg h, lang_seq, key]
      have : ¬ Lang a [] := fun g => h ((nullable_iff a).2 g)
      simp only [iha, this, false_and, or_false]
  | star a iha =>
    simp only [deriv, lang_seq, iha]
    constructor
    · rintro ⟨x, y, rfl, hx, hy⟩; exact .starCons (s := c :: x) hx hy
    · intro h; exact star_cons h

theorem accepts_iff (r : Re) (s : List Char) : accepts r s = true ↔ Lang r s := by
  induction s generalizing r with
  | nil => exact nullable_iff r
  | cons c t ih => rw [accepts, ih, deriv_iff]

theorem lang_opt {a : Re} {s : List Char} : Lang (opt a) s ↔ Lang a s ∨ s = [] := by rw [opt, lang_alt, lang_eps]

theorem lang_chr {c : Char} {s : List Char} : Lang (chr c) s ↔ s = [c] := by
  rw [chr, lang_cls]
  constructor
  · rintro ⟨d, h, rfl⟩; simp at h; rw [h]
  · rintro rfl; exact ⟨c, by simp, rfl⟩

theorem lang_star_cls {p : Char → Bool} {s : List Char} : Lang (star (cls p)) s ↔ ∀ c ∈ s, p c = true := by
  constructor
  · intro h
    generalize hr : star (cls p) = r at h
    induction h with
    | starNil => simp
    | starCons h1 _ _ ih =>
      cases hr
      obtain ⟨c, hc, rfl⟩ := lang_cls.1 h1
      intro d hd
      rcases List.mem_append.1 hd with h | h
      · simp at h; rw [h]; exact hc
      · exact ih rfl d h
    | _ => cases hr
  · intro h
    induction s with
    | nil => exact .starNil
    | cons c t ih =>
      exact .starCons (s := [c]) (.cls (h c (by simp))) (ih (fun d hd => h d (by simp [hd])))

theorem lang_plus_cls {p : Char → Bool} {s : List Char} : Lang (plus (cls p)) s ↔ s ≠ [] ∧ ∀ c ∈ s, p c = true := by
  rw [plus, lang_seq]
  constructor
  · rintro ⟨x, y, rfl, hx, hy⟩
    obtain ⟨c, hc, rfl⟩ := lang_cls.1 hx
    refine ⟨by simp, fun d hd => ?_⟩
    rcases List.mem_append.1 hd with h | h
    · simp at h; rw [h]; exact hc
    · exact lang_star_cls.1 hy d h
  · rintro ⟨hne, h⟩
    cases s with
    | nil => exact absurd rfl hne
    | cons c t => exact ⟨[c], t, rfl, .cls (h c (by simp)), lang_star_cls.2 (fun d hd => h d (by simp [hd]))⟩

/-- `star a` is any number of strings of `a`, one after the other. -/
theorem lang_star {a : Re} {s : List Char} : Lang (star a) s ↔ ∃ l : List (List Char), s = l.flatten ∧ ∀ x ∈ l, Lang a x := by
  constructor
  · intro h
    generalize hr : star a = r at h
    induction h with
    | starNil => exact ⟨[], rfl, by simp⟩
    | @starCons b x y h1 _ _ ih =>
      cases hr
      obtain ⟨l, e, hl⟩ := ih rfl
      refine ⟨x :: l, by simp [e], fun z hz => ?_⟩
      rcases List.mem_cons.1 hz with h | h
      · rw [h]; exact h1
      · exact hl z h
    | _ => cases hr
  · rintro ⟨l, rfl, hl⟩
    induction l with
    | nil => exact .starNil
    | cons x l ih => exact .starCons (hl x (by simp)) (ih (fun y hy => hl y (by simp [hy])))

end Re
end Verif.Text
