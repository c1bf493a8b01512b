import Verif.Text.Numbers
import Mathlib.Data.List.Sort
/-!
# C31, C47, C48, C49: conversions between texts and values

`Text/Spec.lean` says what the texts mean; strings are lists of characters.
-/
namespace Verif.Text

/-! ## C31: strip, parse_bool, parse_array -/

/-- **C31 (strip).** `strip` removes blanks at both ends, and only those: the result neither starts nor ends with a blank. -/
theorem C31_strip (s : List Char) :
    ∃ a b, s = a ++ strip s ++ b ∧ Blanks a ∧ Blanks b ∧
      (∀ c t, strip s = c :: t → ¬ Blanks [c]) ∧ (∀ c t, strip s = t ++ [c] → ¬ Blanks [c]) := by
  have hd : ∀ (p : Char → Bool) (l : List Char) c t, l.dropWhile p = c :: t → p c = false := by
    intro p l c t h
    have := List.head?_dropWhile_not p l
    rw [h] at this; simpa using this
  have hb : ∀ l : List Char, Blanks (l.takeWhile isBlank) := by
    intro l; rw [blanks_iff]; intro c hc; exact List.all_eq_true.1 (List.all_takeWhile (p := isBlank) (l := l)) c hc
  have e1 := List.takeWhile_append_dropWhile (p := isBlank) (l := s)
  have e2 := List.takeWhile_append_dropWhile (p := isBlank) (l := (s.dropWhile isBlank).reverse)
  refine ⟨s.takeWhile isBlank, (((s.dropWhile isBlank).reverse).takeWhile isBlank).reverse, ?_, hb s, ?_, ?_, ?_⟩
  · have e3 := congrArg List.reverse e2
    rw [List.reverse_append, List.reverse_reverse] at e3
    unfold strip
    rw [List.append_assoc, e3, e1]
  · intro c hc; exact hb _ c (List.mem_reverse.1 hc)
  · intro c t h hc
    rw [blanks_one] at hc
    have e3 := congrArg List.reverse e2
    rw [List.reverse_append, List.reverse_reverse] at e3
    unfold strip at h
    rw [h, List.cons_append] at e3
    have := hd isBlank s c _ e3.symm
    rw [hc] at this; cases this
  · intro c t h hc
    rw [blanks_one] at hc
    unfold strip at h
    have e3 := congrArg List.reverse h
    rw [List.reverse_reverse, List.reverse_append] at e3
    have := hd isBlank _ c _ e3
    rw [hc] at this; cases this

/-- `s` is spelled like the list of pairs (lower case, upper case), letter by letter in either case. -/
def Spelled (s : List Char) (l : List (Char × Char)) : Prop := List.Forall₂ (fun c p => c = p.1 ∨ c = p.2) s l

/-- The two words. -/
def trueWord : List (Char × Char) := [('t', 'T'), ('r', 'R'), ('u', 'U'), ('e', 'E')]
/-- The two words. -/
def falseWord : List (Char × Char) := [('f', 'F'), ('a', 'A'), ('l', 'L'), ('s', 'S'), ('e', 'E')]

theorem lowerChar_eq (c d u : Char) (hd : 97 ≤ d.toNat ∧ d.toNat ≤ 122) (hu : u.toNat + 32 = d.toNat) :
    lowerChar c = d ↔ c = d ∨ c = u := by
  have inj : ∀ a b : Char, a.toNat = b.toNat → a = b := by
    intro a b h; rw [← Char.ofNat_toNat a, ← Char.ofNat_toNat b, h]
  unfold lowerChar
  by_cases h : 'A'.toNat ≤ c.toNat ∧ c.toNat ≤ 'Z'.toNat
  · rw [if_pos h]
    have h' : 65 ≤ c.toNat ∧ c.toNat ≤ 90 := h
    have e : (Char.ofNat (c.toNat + 32)).toNat = c.toNat + 32 := by
      have hv : (c.toNat + 32).isValidChar := by left; omega
      unfold Char.ofNat; rw [dif_pos hv]; rfl
    constructor
    · intro g; right; apply inj; have := congrArg Char.toNat g; rw [e] at this; omega
    · rintro (g | g)
      · subst g; omega
      · subst g; apply inj; rw [e, hu]
  · rw [if_neg h]
    have h' : ¬ (65 ≤ c.toNat ∧ c.toNat ≤ 90) := h
    constructor
    · exact .inl
    · rintro (g | g)
      · exact g
      · subst g; omega

theorem spelled_iff (s : List Char) (l : List (Char × Char))
    (hl : ∀ p ∈ l, 97 ≤ p.1.toNat ∧ p.1.toNat ≤ 122 ∧ p.2.toNat + 32 = p.1.toNat) :
    toLowerCase s = l.map (·.1) ↔ Spelled s l := by
  unfold Spelled
  induction s generalizing l with
  | nil => cases l <;> simp [toLowerCase]
  | cons c s ih =>
    cases l with
    | nil => simp [toLowerCase]
    | cons p l =>
      obtain ⟨h1, h2, h3⟩ := hl p (by simp)
      have := ih l (fun q hq => hl q (by simp [hq]))
      simp only [toLowerCase, List.map_cons, List.cons.injEq, List.forall₂_cons] at *
      rw [this, lowerChar_eq c p.1 p.2 ⟨h1, h2⟩ h3]

/-- **C31 (parse_bool).** `parse_bool` answers true for the spellings of "true", false for those of "false", in any mixture of upper and
lower case, and throws for every other text. -/
theorem C31_parse_bool (s : List Char) :
    (parseBool s = .ok true ↔ Spelled s trueWord) ∧ (parseBool s = .ok false ↔ Spelled s falseWord) ∧
    (¬ Spelled s trueWord → ¬ Spelled s falseWord → parseBool s = .invalid) := by
  have ht := spelled_iff s trueWord (by decide)
  have hf := spelled_iff s falseWord (by decide)
  have et : trueWord.map (·.1) = ['t', 'r', 'u', 'e'] := rfl
  have ef : falseWord.map (·.1) = ['f', 'a', 'l', 's', 'e'] := rfl
  rw [et] at ht; rw [ef] at hf
  unfold parseBool
  rw [← ht, ← hf]
  by_cases h1 : toLowerCase s = ['t', 'r', 'u', 'e']
  · simp [h1]
  · by_cases h2 : toLowerCase s = ['f', 'a', 'l', 's', 'e'] <;> simp [h1, h2]

example : parseBool "True".toList = .ok true ∧ parseBool "fALSE".toList = .ok false ∧ parseBool "1".toList = .invalid ∧
    parseBool "true ".toList = .invalid ∧ strip " \t a b \n".toList = "a b".toList ∧ strip "  ".toList = [] := by decide

/-- **C31 (parse_array).** A list of texts is accepted exactly if it is written as a flat bracketed list with commas between non-empty
elements without blanks, and the elements are returned in order, none dropped, split or merged; every other text is rejected. -/
theorem C31_parse_array (s : List Char) :
    (∀ l, parseStringArray s = .ok l ↔ ListText s l) ∧ ((¬ ∃ l, ListText s l) → parseStringArray s = .invalid) := by
  have H := parseArray_list (T := List Char) .ok s
  have conv : ∀ l : List (List Char), convertAll (.ok : List Char → Out (List Char)) l = .ok l := by
    intro l; induction l with
    | nil => rfl
    | cons t l ih => simp [convertAll, ih]
  refine ⟨fun l => ⟨fun h => ?_, fun h => ?_⟩, H.2⟩
  · by_cases hex : ∃ l, ListText s l
    · obtain ⟨m, hm⟩ := hex
      have := H.1 m hm
      unfold parseStringArray at h
      rw [h, conv] at this
      cases this; exact hm
    · have := H.2 hex
      unfold parseStringArray at h
      rw [h] at this; cases this
  · have := H.1 l h
    rw [conv] at this; exact this

/-- Lists of booleans: exactly the lists of spellings of true and false. -/
theorem C31_parse_bool_array (s : List Char) (bs : List Bool) :
    parseBoolArray s = .ok bs ↔ ∃ l, ListText s l ∧
      List.Forall₂ (fun t b => Spelled t (if b then trueWord else falseWord)) l bs := by
  have key : ∀ t b, parseBool t = .ok b ↔ Spelled t (if b then trueWord else falseWord) := by
    intro t b; cases b
    · exact (C31_parse_bool t).2.1
    · exact (C31_parse_bool t).1
  have H := parseArray_list parseBool s
  unfold parseBoolArray
  constructor
  · intro h
    by_cases hex : ∃ l, ListText s l
    · obtain ⟨m, hm⟩ := hex
      rw [H.1 m hm, convertAll_ok] at h
      exact ⟨m, hm, h.imp (fun t b => (key t b).1)⟩
    · rw [H.2 hex] at h; cases h
  · rintro ⟨l, hl, hf⟩
    rw [H.1 l hl, convertAll_ok]
    exact hf.imp (fun t b => (key t b).2)

example : parseStringArray "[ a,b1 ,\tc ]".toList = .ok ["a".toList, "b1".toList, "c".toList] ∧ parseStringArray "[ ]".toList = .ok [] ∧
    parseStringArray "[a,,b]".toList = .invalid ∧ parseStringArray "[a b]".toList = .invalid ∧ parseStringArray "[a,[b]]".toList = .invalid ∧
    parseStringArray "a,b".toList = .invalid ∧ parseBoolArray "[true, FALSE]".toList = .ok [true, false] := by decide

/-! ## C47: integers -/

/-- **C47 (signed).** `stoi8/16/32` return `v` exactly for the texts of the integer `v` in the range of the type; an integer out of range
throws out_of_range; anything else throws. -/
theorem C47_signed (lo hi : Int) (hlo : -2 ^ 63 ≤ lo) (hhi : hi ≤ 2 ^ 63 - 1) (s : List Char) :
    (∀ v, stoi lo hi s = .ok v ↔ IntText s v ∧ lo ≤ v ∧ v ≤ hi) ∧
    (∀ v, IntText s v → ¬ (lo ≤ v ∧ v ≤ hi) → stoi lo hi s = .range) ∧
    ((¬ ∃ v, IntText s v) → stoi lo hi s = .invalid ∨ stoi lo hi s = .range) := by
  unfold stoi
  cases h : scanInt s with
  | none =>
    have hn : ¬ ∃ v, IntText s v := by rintro ⟨v, hv⟩; obtain ⟨n, a, e, _⟩ := (scanInt_text s v).1 hv; rw [h] at e; cases e
    exact ⟨fun v => ⟨fun h => (by cases h), fun g => absurd ⟨v, g.1⟩ hn⟩, fun v g => absurd ⟨v, g⟩ hn, fun _ => .inl rfl⟩
  | some r =>
    obtain ⟨neg, a, rest⟩ := r
    simp only
    generalize hw : (if neg = true then -(a : Int) else a) = w
    have ht : ∀ v, IntText s v ↔ rest = [] ∧ v = w := by
      intro v
      rw [scanInt_text]
      constructor
      · rintro ⟨n, b, e, rfl⟩; rw [h] at e; cases e; exact ⟨rfl, hw⟩
      · rintro ⟨rfl, rfl⟩; exact ⟨neg, a, h, hw.symm⟩
    simp only [ht]
    by_cases h1 : w < -2 ^ 63 ∨ 2 ^ 63 - 1 < w
    · rw [if_pos h1]
      refine ⟨fun v => ⟨fun g => (by cases g), ?_⟩, fun _ _ _ => rfl, fun _ => .inr rfl⟩
      rintro ⟨⟨_, rfl⟩, g1, g2⟩; omega
    · rw [if_neg h1]
      by_cases h2 : rest = []
      · rw [if_neg (by simp [h2])]
        by_cases h3 : w < lo ∨ hi < w
        · rw [if_pos h3]
          refine ⟨fun v => ⟨fun g => (by cases g), ?_⟩, fun _ _ _ => rfl, fun _ => .inr rfl⟩
          rintro ⟨⟨_, rfl⟩, g1, g2⟩; omega
        · rw [if_neg h3]
          refine ⟨fun v => ⟨fun g => ?_, ?_⟩, ?_, fun g => absurd ⟨w, h2, rfl⟩ g⟩
          · cases g; exact ⟨⟨h2, rfl⟩, by omega⟩
          · rintro ⟨⟨_, rfl⟩, _⟩; rfl
          · rintro v ⟨_, rfl⟩ g; omega
      · rw [if_pos h2]
        exact ⟨fun v => ⟨fun g => (by cases g), fun g => absurd g.1.1 h2⟩, fun v g => absurd g.1 h2, fun _ => .inl rfl⟩

example : stoi (-128) 127 "-12".toList = .ok (-12) ∧ stoi (-128) 127 " +12".toList = .ok 12 ∧ stoi (-128) 127 "128".toList = .range ∧
    stoi (-128) 127 "12 ".toList = .invalid ∧ stoi (-128) 127 "1.5".toList = .invalid ∧ stoi (-128) 127 "".toList = .invalid ∧
    stoi (-128) 127 "99999999999999999999".toList = .range := by decide

/-- **C47 (unsigned), under a condition.** If the text is not that of a number below `-(2^64 - hi)`, `stoui8/16/32` return `n` exactly for
the texts of the integer `n` in range, and a number out of range (negative ones included) throws out_of_range. -/
theorem C47_unsigned_partial (hi : Nat) (hhi : hi < 2 ^ 64) (s : List Char) (hc : ∀ v, IntText s v → -(2 ^ 64 - hi : Int) < v) :
    (∀ n : Nat, stoui hi s = .ok n ↔ IntText s n ∧ n ≤ hi) ∧
    (∀ v, IntText s v → ¬ (0 ≤ v ∧ v ≤ hi) → stoui hi s = .range) ∧
    ((¬ ∃ v, IntText s v) → stoui hi s = .invalid ∨ stoui hi s = .range) := by
  unfold stoui
  cases h : scanInt s with
  | none =>
    have hn : ¬ ∃ v, IntText s v := by rintro ⟨v, hv⟩; obtain ⟨n, a, e, _⟩ := (scanInt_text s v).1 hv; rw [h] at e; cases e
    exact ⟨fun v => ⟨fun h => (by cases h), fun g => absurd ⟨v, g.1⟩ hn⟩, fun v g => absurd ⟨v, g⟩ hn, fun _ => .inl rfl⟩
  | some r =>
    obtain ⟨neg, a, rest⟩ := r
    have ht : ∀ v, IntText s v ↔ rest = [] ∧ v = if neg then -(a : Int) else a := by
      intro v
      rw [scanInt_text]
      constructor
      · rintro ⟨n, b, e, rfl⟩; rw [h] at e; cases e; exact ⟨rfl, rfl⟩
      · rintro ⟨rfl, e⟩; exact ⟨neg, a, h, e⟩
    simp only [ht] at hc ⊢
    by_cases h1 : 2 ^ 64 - 1 < a
    · rw [if_pos h1]
      refine ⟨fun v => ⟨fun g => (by cases g), ?_⟩, fun _ _ _ => rfl, fun _ => .inr rfl⟩
      rintro ⟨⟨_, e⟩, g2⟩
      cases neg <;> simp at e <;> omega
    · rw [if_neg h1]
      by_cases h2 : rest = []
      · rw [if_neg (by simp [h2])]
        have hc := hc _ ⟨h2, rfl⟩
        cases neg
        · simp only [Bool.false_eq_true, if_false] at hc ⊢
          by_cases h3 : hi < a
          · rw [if_pos h3]
            refine ⟨fun v => ⟨fun g => (by cases g), ?_⟩, fun _ _ _ => rfl, fun _ => .inr rfl⟩
            rintro ⟨⟨_, e⟩, g2⟩; omega
          · rw [if_neg h3]
            refine ⟨fun v => ⟨fun g => ?_, ?_⟩, ?_, fun g => absurd ⟨_, h2, rfl⟩ g⟩
            · cases g; exact ⟨⟨h2, rfl⟩, by omega⟩
            · rintro ⟨⟨_, e⟩, _⟩; have : v = a := by omega
              rw [this]
            · rintro v ⟨_, rfl⟩ g; omega
        · simp only [if_true] at hc ⊢
          by_cases h0 : a = 0
          · subst h0
            have e0 : (2 ^ 64 - 0) % 2 ^ 64 = 0 := by norm_num
            rw [e0, if_neg (by omega)]
            refine ⟨fun v => ⟨fun g => ?_, ?_⟩, ?_, fun g => absurd ⟨_, h2, rfl⟩ g⟩
            · cases g; exact ⟨⟨h2, rfl⟩, by omega⟩
            · rintro ⟨⟨_, e⟩, _⟩; have : v = 0 := by omega
              rw [this]
            · rintro v ⟨_, rfl⟩ g; omega
          · have e0 : (2 ^ 64 - a) % 2 ^ 64 = 2 ^ 64 - a := Nat.mod_eq_of_lt (by omega)
            rw [e0, if_pos (by omega)]
            refine ⟨fun v => ⟨fun g => (by cases g), ?_⟩, fun _ _ _ => rfl, fun _ => .inr rfl⟩
            rintro ⟨⟨_, e⟩, g2⟩; omega
      · rw [if_pos h2]
        exact ⟨fun v => ⟨fun g => (by cases g), fun g => absurd g.1.1 h2⟩, fun v g => absurd g.1 h2, fun _ => .inl rfl⟩

/-- **C47, negation of the full claim.** A negative number far out of range is accepted: the sign is applied modulo 2^64. -/
theorem C47_negative_accepted :
    stoui 255 "-18446744073709551615".toList = .ok 1 ∧ IntText "-18446744073709551615".toList (-18446744073709551615) := by
  refine ⟨by decide, ?_⟩
  rw [scanInt_text]
  exact ⟨true, 18446744073709551615, by decide, by decide⟩

example : stoui 255 "12".toList = .ok 12 ∧ stoui 255 "256".toList = .range ∧ stoui 255 "-1".toList = .range ∧
    stoui 255 "".toList = .invalid ∧ stoui 255 "7x".toList = .invalid := by decide

/-! ## C48: real numbers -/

/-- **C48 (nothing rejected).** Every decimal number (optional sign, digits with an optional point, optional exponent) that is in the range of
the floating-point type is converted to its value. -/
theorem C48_numbers_accepted {F : Type} (round : Rat → Option F) (s : List Char) (q : Rat) (x : F)
    (h : RealText s q) (hr : round q = some x) : stod round s = .ok x :=
  (stod_iff round s x).2 ⟨q, hr, .inl h⟩

/-- **C48 (nothing else accepted), under a condition.** A text that does not start with "+-" is only accepted if it is a decimal number, and
the result is its value; in particular no blanks, no trailing characters, no infinities and no NaN are accepted. -/
theorem C48_only_numbers_partial {F : Type} (round : Rat → Option F) (s : List Char) (x : F)
    (hs : ∀ t, s ≠ '+' :: '-' :: t) (h : stod round s = .ok x) : ∃ q, RealText s q ∧ round q = some x := by
  obtain ⟨q, hr, h | ⟨t, r, e, _⟩⟩ := (stod_iff round s x).1 h
  · exact ⟨q, h, hr⟩
  · exact absurd e (hs t)

/-- A text has one value at most. -/
theorem C48_value_unique (s : List Char) (q r : Rat) (h1 : RealText s q) (h2 : RealText s r) : q = r := by
  have a := C48_numbers_accepted some s q q h1 rfl
  have b := C48_numbers_accepted some s r r h2 rfl
  rw [a] at b; cases b; rfl

/-- **C48, negation of the full claim.** "+-1" is accepted as -1, although it is not a number. -/
theorem C48_plus_minus : stod some "+-1".toList = .ok (-1) ∧ ¬ ∃ q, RealText "+-1".toList q := by
  refine ⟨by decide +kernel, ?_⟩
  rintro ⟨q, sg, neg, t, r, e, hs, hd, _⟩
  rcases hs with ⟨rfl, _⟩ | ⟨rfl, _⟩ | ⟨rfl, _⟩
  · exact (decimal_no_sign hd '+' ['-', '1'] (by simpa using e.symm)).1 rfl
  · exact (decimal_no_sign hd '-' ['1'] (by simpa using e.symm)).2 rfl
  · exact absurd e (by simp)

example : stod some "-1.25e2".toList = .ok (-125 : Rat) ∧ stod some "+.5".toList = .ok (1/2 : Rat) ∧ stod some "1.".toList = .ok (1 : Rat) ∧
    stod some "1e".toList = .invalid ∧ stod some " 1".toList = .invalid ∧ stod some ".".toList = .invalid ∧ stod some "inf".toList = .invalid ∧
    stod some "0x10".toList = .invalid ∧ stod some "".toList = .invalid ∧ stod some "+".toList = .invalid := by
  refine ⟨?_, ?_, ?_, ?_, ?_, ?_, ?_, ?_, ?_, ?_⟩ <;> decide +kernel

/-! ## C49: lists of numbers -/

/-- **C49 (real numbers).** A list of real numbers is accepted exactly if it is a bracketed list of texts that `stod` accepts, and the
values are returned in order. -/
theorem C49_reals {F : Type} (round : Rat → Option F) (s : List Char) (xs : List F) :
    parseRealArray round s = .ok xs ↔ ∃ l, ListText s l ∧ List.Forall₂ (fun t x => stod round t = .ok x) l xs := by
  have H := parseArray_list (stod round) s
  unfold parseRealArray
  constructor
  · intro h
    by_cases hex : ∃ l, ListText s l
    · obtain ⟨m, hm⟩ := hex
      rw [H.1 m hm, convertAll_ok] at h
      exact ⟨m, hm, h⟩
    · rw [H.2 hex] at h; cases h
  · rintro ⟨l, hl, hf⟩
    rw [H.1 l hl, convertAll_ok]
    exact hf

/-- **C49 (integers), under a condition.** If every element is an integer number in the range of the type (and exactly representable as a double), the list
of these integers is returned. -/
theorem C49_integers_partial {F : Type} (round : Rat → Option F) (val : F → Rat) (lo hi : Int) (s : List Char) (l : List (List Char)) (ns : List Int)
    (hl : ListText s l) (hn : List.Forall₂ (fun t (n : Int) => RealText t (n : Rat) ∧ lo ≤ n ∧ n ≤ hi ∧ ∃ x, round (n : Rat) = some x ∧ val x = n) l ns) :
    parseIntArray round val lo hi s = .ok ns := by
  unfold parseIntArray
  rw [(parseArray_list _ s).1 l hl, convertAll_ok]
  refine hn.imp ?_
  rintro t n ⟨h1, h2, h3, x, h4, h5⟩
  rw [C48_numbers_accepted round t n x h1 h4]
  simp only [castInt, h5]
  have : (if 0 ≤ (n : Rat) then ⌊(n : Rat)⌋ else ⌈(n : Rat)⌉) = n := by split <;> simp
  rw [this, if_pos ⟨h2, h3⟩]

/-- **C49 (integers), exactly.** A list of integers is returned exactly if the text is a bracketed list of texts that `stod` accepts, each of which has a
value whose truncation (towards zero) is in the range of the type; these truncations are returned in order. In particular nothing is returned
if one element is not a number. -/
theorem C49_integers_iff {F : Type} (round : Rat → Option F) (val : F → Rat) (lo hi : Int) (s : List Char) (ns : List Int) :
    parseIntArray round val lo hi s = .ok ns ↔ ∃ l, ListText s l ∧ List.Forall₂ (fun t (n : Int) => ∃ x, stod round t = .ok x ∧
      (0 ≤ val x → (n : Rat) ≤ val x ∧ val x < n + 1) ∧ (val x < 0 → (n : Rat) - 1 < val x ∧ val x ≤ n) ∧ lo ≤ n ∧ n ≤ hi) l ns := by
  have elem : ∀ (t : List Char) (n : Int), ((match stod round t with | .ok x => castInt lo hi (val x) | _ => .invalid) = Out.ok n ↔ ∃ x, stod round t = .ok x ∧
      (0 ≤ val x → (n : Rat) ≤ val x ∧ val x < n + 1) ∧ (val x < 0 → (n : Rat) - 1 < val x ∧ val x ≤ n) ∧ lo ≤ n ∧ n ≤ hi) := by
    intro t n
    cases hs : stod round t with
    | ok x =>
      simp only [Out.ok.injEq, exists_eq_left', castInt]
      rcases le_or_gt 0 (val x) with h0 | h0
      · rw [if_pos h0]
        constructor
        · intro h
          split at h
          · rename_i hb
            cases h
            exact ⟨fun _ => ⟨Int.floor_le _, Int.lt_floor_add_one _⟩, fun h => absurd h0 (not_le.2 h), hb⟩
          · cases h
        · rintro ⟨h1, -, h3, h4⟩
          have : ⌊val x⌋ = n := Int.floor_eq_iff.2 (h1 h0)
          rw [this, if_pos ⟨h3, h4⟩]
      · rw [if_neg (not_le.2 h0)]
        constructor
        · intro h
          split at h
          · rename_i hb
            cases h
            refine ⟨fun h => absurd h0 (not_lt.2 h), fun _ => ⟨?_, Int.le_ceil _⟩, hb⟩
            have := Int.ceil_lt_add_one (val x)
            linarith
          · cases h
        · rintro ⟨-, h1, h3, h4⟩
          have : ⌈val x⌉ = n := Int.ceil_eq_iff.2 (h1 h0)
          rw [this, if_pos ⟨h3, h4⟩]
    | invalid => simp
    | range => simp
    | ub => simp
  have H := fun f : List Char → Out Int => parseArray_list f s
  unfold parseIntArray
  constructor
  · intro h
    by_cases hex : ∃ l, ListText s l
    · obtain ⟨m, hm⟩ := hex
      rw [(H _).1 m hm, convertAll_ok] at h
      exact ⟨m, hm, h.imp fun t n ht => (elem t n).1 ht⟩
    · rw [(H _).2 hex] at h; cases h
  · rintro ⟨l, hl, hf⟩
    rw [(H _).1 l hl, convertAll_ok]
    exact hf.imp fun t n ht => (elem t n).2 ht

/-- **C49, negation of the full claim.** Fractions are accepted for a list of integers and truncated, and a number out of range is not
rejected: the conversion is undefined behaviour. -/
theorem C49_integers_not_checked :
    parseIntArray some id (-128) 127 "[1.9, -1.9]".toList = .ok [1, -1] ∧ parseIntArray some id (-128) 127 "[300]".toList = .ub := by
  refine ⟨?_, ?_⟩ <;> decide +kernel

example : parseRealArray some "[1.5, -2]".toList = .ok [3/2, -2] ∧ parseRealArray some "[1.5, x]".toList = .invalid ∧
    parseIntArray some id (-128) 127 "[1, -2]".toList = .ok [1, -2] := by
  refine ⟨?_, ?_, ?_⟩ <;> decide +kernel

end Verif.Text
