import Verif.Text.Lemmas
/-!
# Lemmas on numbers as texts
-/
namespace Verif.Text

theorem isDigit_iff (c : Char) : isDigit c = true ↔ c ∈ ['0', '1', '2', '3', '4', '5', '6', '7', '8', '9'] := by
  constructor
  · intro h
    have h : 48 ≤ c.toNat ∧ c.toNat ≤ 57 := by simpa [isDigit] using h
    have e : c = Char.ofNat c.toNat := (Char.ofNat_toNat c).symm
    obtain ⟨h1, h2⟩ := h
    generalize c.toNat = n at *
    have : n = 48 ∨ n = 49 ∨ n = 50 ∨ n = 51 ∨ n = 52 ∨ n = 53 ∨ n = 54 ∨ n = 55 ∨ n = 56 ∨ n = 57 := by omega
    rcases this with rfl | rfl | rfl | rfl | rfl | rfl | rfl | rfl | rfl | rfl <;> rw [e] <;> decide
  · intro h
    simp only [List.mem_cons, List.not_mem_nil, or_false] at h
    rcases h with rfl | rfl | rfl | rfl | rfl | rfl | rfl | rfl | rfl | rfl <;> decide

theorem digits_iff (ds : List Char) : Digits ds ↔ ∀ c ∈ ds, isDigit c = true := by unfold Digits; simp only [isDigit_iff]

theorem digitsVal_eq (ds : List Char) : digitsVal ds = decimalValue ds := by
  unfold digitsVal decimalValue
  have gen : ∀ (ds : List Char) (n : Nat), ds.foldl (fun n c => n * 10 + (c.toNat - '0'.toNat)) n =
      n * 10 ^ ds.length + Nat.ofDigits 10 (ds.reverse.map (fun c => c.toNat - '0'.toNat)) := by
    intro ds
    induction ds with
    | nil => simp
    | cons c t ih =>
      intro n
      rw [List.foldl_cons, ih, List.reverse_cons, List.map_append, Nat.ofDigits_append]
      simp
      ring
  rw [gen]; simp

/-- A digit does not follow. -/
def NoDigit (r : List Char) : Prop := ∀ c t, r = c :: t → isDigit c = false

theorem takeWhile_digits {ds r : List Char} (h : Digits ds) (hr : NoDigit r) : (ds ++ r).takeWhile isDigit = ds := by
  rw [digits_iff] at h
  rw [List.takeWhile_append_of_pos h]
  cases r with
  | nil => simp
  | cons c t => simp [hr c t rfl]

theorem dropWhile_digits {ds r : List Char} (h : Digits ds) (hr : NoDigit r) : (ds ++ r).dropWhile isDigit = r := by
  rw [digits_iff] at h
  rw [List.dropWhile_append_of_pos h]
  cases r with
  | nil => simp
  | cons c t => simp [hr c t rfl]

theorem takeWhile_isDigits (s : List Char) : Digits (s.takeWhile isDigit) := by
  rw [digits_iff]
  intro c hc
  exact List.all_eq_true.1 (List.all_takeWhile (p := isDigit) (l := s)) c hc

theorem noDigit_nil : NoDigit [] := by intro c t h; simp at h

theorem noDigit_cons {c : Char} {t : List Char} (h : isDigit c = false) : NoDigit (c :: t) := by
  intro d u e; cases e; exact h

theorem noDigit_exp {x : List Char} {e : Int} (h : ExpText x e) : NoDigit x := by
  rcases h with ⟨rfl, _⟩ | ⟨m, sg, neg, ds, rfl, hm, _⟩
  · exact noDigit_nil
  · rcases hm with rfl | rfl <;> exact noDigit_cons (by decide)

theorem scanExp_of (x : List Char) (e : Int) (h : ExpText x e) : scanExp x = (e, []) := by
  rcases h with ⟨rfl, rfl⟩ | ⟨m, sg, neg, ds, rfl, hm, hs, hd, hne, rfl⟩
  · rfl
  · have t1 := takeWhile_digits hd noDigit_nil
    have t2 := dropWhile_digits hd noDigit_nil
    rw [List.append_nil] at t1 t2
    rcases hs with ⟨rfl, rfl⟩ | ⟨rfl, rfl⟩ | ⟨rfl, rfl⟩
    · cases ds with
      | nil => exact absurd rfl hne
      | cons d u =>
        have hd1 : d ≠ '-' ∧ d ≠ '+' := by
          have := hd d (by simp)
          constructor <;> rintro rfl <;> exact absurd this (by decide)
        simp only [List.nil_append, scanExp, hm, if_true, hd1.1, hd1.2, if_false, t1, t2, digitsVal_eq, hne, Bool.false_eq_true]
    · simp only [List.cons_append, List.nil_append, scanExp, hm, if_true, t1, t2, digitsVal_eq, hne, if_false, Bool.false_eq_true,
        show ¬ ('+' = '-') by decide]
    · simp only [List.cons_append, List.nil_append, scanExp, hm, if_true, t1, t2, digitsVal_eq, hne, if_false]

theorem exp_of_scan (x : List Char) (e : Int) (h : scanExp x = (e, [])) : ExpText x e := by
  cases x with
  | nil => simp [scanExp] at h; exact .inl ⟨rfl, h.symm⟩
  | cons m t =>
    rw [scanExp.eq_def] at h
    simp only at h
    by_cases hm : m = 'e' ∨ m = 'E'
    · rw [if_pos hm] at h
      cases t with
      | nil => simp at h
      | cons d u =>
        simp only at h
        by_cases h1 : d = '-'
        · rw [if_pos h1] at h
          by_cases h2 : u.takeWhile isDigit = []
          · rw [if_pos h2] at h; simp at h
          · rw [if_neg h2] at h
            simp only [Prod.mk.injEq] at h
            refine .inr ⟨m, ['-'], true, u.takeWhile isDigit, ?_, hm, .inr (.inr ⟨rfl, rfl⟩), takeWhile_isDigits u, h2, ?_⟩
            · have := List.takeWhile_append_dropWhile (p := isDigit) (l := u)
              rw [h.2, List.append_nil] at this; rw [this, h1]; rfl
            · simp only [if_true, ← digitsVal_eq]; exact h.1.symm
        · rw [if_neg h1] at h
          by_cases h3 : d = '+'
          · rw [if_pos h3] at h
            by_cases h2 : u.takeWhile isDigit = []
            · rw [if_pos h2] at h; simp at h
            · rw [if_neg h2] at h
              simp only [Prod.mk.injEq] at h
              refine .inr ⟨m, ['+'], false, u.takeWhile isDigit, ?_, hm, .inr (.inl ⟨rfl, rfl⟩), takeWhile_isDigits u, h2, ?_⟩
              · have := List.takeWhile_append_dropWhile (p := isDigit) (l := u)
                rw [h.2, List.append_nil] at this; rw [this, h3]; rfl
              · simp only [Bool.false_eq_true, if_false, ← digitsVal_eq]; exact h.1.symm
          · rw [if_neg h3] at h
            by_cases h2 : (d :: u).takeWhile isDigit = []
            · rw [if_pos h2] at h; simp at h
            · rw [if_neg h2] at h
              simp only [Prod.mk.injEq] at h
              refine .inr ⟨m, [], false, (d :: u).takeWhile isDigit, ?_, hm, .inl ⟨rfl, rfl⟩, takeWhile_isDigits _, h2, ?_⟩
              · have := List.takeWhile_append_dropWhile (p := isDigit) (l := d :: u)
                rw [h.2, List.append_nil] at this; rw [this]; rfl
              · simp only [Bool.false_eq_true, if_false, ← digitsVal_eq]; exact h.1.symm
    · rw [if_neg hm] at h; simp at h

theorem exp_no_point {x : List Char} {e : Int} (h : ExpText x e) (t : List Char) : x ≠ '.' :: t := by
  rintro rfl
  rcases h with ⟨h, _⟩ | ⟨m, sg, neg, ds, h, hm, _⟩
  · simp at h
  · cases h; rcases hm with h | h <;> exact absurd h (by decide)

theorem splitPoint_none {x : List Char} (h : ∀ t, x ≠ '.' :: t) : splitPoint x = ([], x) := by
  unfold splitPoint
  split
  · exact absurd rfl (h _)
  · rfl

theorem scanAbs_of (s : List Char) (q : Rat) (h : Decimal s q) : scanAbs s = some (q, []) := by
  obtain ⟨i, f, p, x, e, rfl, hi, hf, hne, hp, hx, rfl⟩ := h
  have nx := noDigit_exp hx
  rcases hp with ⟨rfl, rfl⟩ | rfl
  · have hi0 : i ≠ [] := by simpa using hne
    have t1 := takeWhile_digits hi nx
    have t2 := dropWhile_digits hi nx
    unfold scanAbs
    simp only [List.append_nil, t1, t2, splitPoint_none (exp_no_point hx), scanExp_of x e hx, hi0, false_and, if_false, digitsVal_eq]
  · have t1 := takeWhile_digits (r := '.' :: f ++ x) hi (noDigit_cons (by decide))
    have t2 := dropWhile_digits (r := '.' :: f ++ x) hi (noDigit_cons (by decide))
    have t3 := takeWhile_digits hf nx
    have t4 := dropWhile_digits hf nx
    unfold scanAbs
    have t5 : splitPoint ('.' :: f ++ x) = (f, x) := by simp only [List.cons_append, splitPoint, t3, t4]
    rw [List.append_assoc]
    simp only [t1, t2, t5, scanExp_of x e hx, digitsVal_eq]
    rw [if_neg (by intro h; rcases hne with h' | h' <;> simp_all)]

theorem decimal_of_scan (s : List Char) (q : Rat) (h : scanAbs s = some (q, [])) : Decimal s q := by
  unfold scanAbs at h
  have es := List.takeWhile_append_dropWhile (p := isDigit) (l := s)
  have di := takeWhile_isDigits s
  simp only at h
  generalize s.takeWhile isDigit = i at *
  generalize s.dropWhile isDigit = s2 at *
  have key : ∃ p, s2 = p ++ (splitPoint s2).2 ∧ Digits (splitPoint s2).1 ∧ ((p = [] ∧ (splitPoint s2).1 = []) ∨ p = '.' :: (splitPoint s2).1) := by
    unfold splitPoint
    split
    · rename_i t
      exact ⟨'.' :: t.takeWhile isDigit, by simp only; rw [List.cons_append, List.takeWhile_append_dropWhile], takeWhile_isDigits t, .inr rfl⟩
    · exact ⟨[], rfl, by intro c hc; simp at hc, .inl ⟨rfl, rfl⟩⟩
  obtain ⟨p, e2, df, hp⟩ := key
  generalize splitPoint s2 = sp at *
  by_cases h0 : i = [] ∧ sp.1 = []
  · rw [if_pos h0] at h; simp at h
  · rw [if_neg h0] at h
    simp only [Option.some.injEq, Prod.mk.injEq] at h
    refine ⟨i, sp.1, p, sp.2, (scanExp sp.2).1, by rw [← es, e2]; simp, di, df, ?_, hp, exp_of_scan sp.2 _ ?_, ?_⟩
    · by_contra hc
      push Not at hc
      exact h0 hc
    · rw [← h.2]
    · rw [← h.1, digitsVal_eq]

theorem decimal_no_sign {s : List Char} {q : Rat} (h : Decimal s q) (c : Char) (t : List Char) (hs : s = c :: t) : c ≠ '+' ∧ c ≠ '-' := by
  obtain ⟨i, f, p, x, e, rfl, hi, hf, hne, hp, hx, _⟩ := h
  cases i with
  | cons d i =>
    simp at hs
    have := hi d (by simp)
    rw [hs.1] at this
    constructor <;> rintro rfl <;> exact absurd this (by decide)
  | nil =>
    rcases hp with ⟨rfl, rfl⟩ | rfl
    · simp at hne
    · simp at hs; rw [← hs.1]; decide

/-- `from_chars` accepts a decimal number with an optional minus sign. -/
theorem fromChars_iff (s : List Char) (q : Rat) :
    fromChars s = some (q, []) ↔ (∃ t r, s = '-' :: t ∧ Decimal t r ∧ q = -r) ∨ Decimal s q := by
  constructor
  · intro h
    unfold fromChars at h
    split at h
    · rename_i t
      cases hs : scanAbs t with
      | none => rw [hs] at h; simp at h
      | some r =>
        rw [hs] at h
        simp only [Option.map_some, Option.some.injEq, Prod.mk.injEq] at h
        exact .inl ⟨t, r.1, rfl, decimal_of_scan t r.1 (by rw [hs, ← h.2]), h.1.symm⟩
    · exact .inr (decimal_of_scan s q h)
  · rintro (⟨t, r, rfl, hd, rfl⟩ | hd)
    · simp [fromChars, scanAbs_of t r hd]
    · unfold fromChars
      split
      · exact absurd rfl (decimal_no_sign hd _ _ rfl).2
      · exact scanAbs_of s q hd

/-- Exactly what `stod` accepts: besides the decimal numbers, a plus sign followed by a minus sign. -/
theorem stod_iff {F : Type} (round : Rat → Option F) (s : List Char) (x : F) :
    stod round s = .ok x ↔ ∃ q, round q = some x ∧ (RealText s q ∨ ∃ t r, s = '+' :: '-' :: t ∧ Decimal t r ∧ q = -r) := by
  have core : ∀ t : List Char, fromAll round t = .ok x ↔ ∃ q, round q = some x ∧ ((∃ u r, t = '-' :: u ∧ Decimal u r ∧ q = -r) ∨ Decimal t q) := by
    intro t
    unfold fromAll
    constructor
    · intro h
      split at h
      · rename_i q e
        refine ⟨q, ?_, (fromChars_iff t q).1 e⟩
        split at h
        · rename_i y ey; cases h; exact ey
        · cases h
      · cases h
    · rintro ⟨q, hr, h⟩
      rw [(fromChars_iff t q).2 h]
      simp [hr]
  unfold stod skipPlus
  split
  · rename_i u
    rw [core u]
    constructor
    · rintro ⟨q, hr, ⟨v, r, rfl, hd, rfl⟩ | hd⟩
      · exact ⟨_, hr, .inr ⟨v, r, rfl, hd, rfl⟩⟩
      · exact ⟨q, hr, .inl ⟨['+'], false, u, q, rfl, .inr (.inl ⟨rfl, rfl⟩), hd, by simp⟩⟩
    · rintro ⟨q, hr, ⟨sg, neg, t, r, e, hs, hd, rfl⟩ | ⟨t, r, e, hd, rfl⟩⟩
      · refine ⟨_, hr, ?_⟩
        rcases hs with ⟨rfl, rfl⟩ | ⟨rfl, rfl⟩ | ⟨rfl, rfl⟩
        · exact absurd rfl (decimal_no_sign hd '+' u e.symm).1
        · simp at e; rw [e]; exact .inr (by simpa using hd)
        · simp at e
      · simp at e; exact ⟨_, hr, .inl ⟨t, r, e, hd, rfl⟩⟩
  · rename_i hne
    rw [core s]
    constructor
    · rintro ⟨q, hr, ⟨v, r, rfl, hd, rfl⟩ | hd⟩
      · exact ⟨_, hr, .inl ⟨['-'], true, v, r, rfl, .inr (.inr ⟨rfl, rfl⟩), hd, by simp⟩⟩
      · exact ⟨q, hr, .inl ⟨[], false, s, q, rfl, .inl ⟨rfl, rfl⟩, hd, by simp⟩⟩
    · rintro ⟨q, hr, ⟨sg, neg, t, r, e, hs, hd, rfl⟩ | ⟨t, r, e, hd, rfl⟩⟩
      · refine ⟨_, hr, ?_⟩
        rcases hs with ⟨rfl, rfl⟩ | ⟨rfl, rfl⟩ | ⟨rfl, rfl⟩
        · simp at e; rw [e]; exact .inr (by simpa using hd)
        · exact absurd e (hne t)
        · simp at e; exact .inl ⟨t, r, e, hd, by simp⟩
      · exact absurd e (hne _)

/-! ## Integers -/

theorem digit_not_blank {c : Char} (h : isDigit c = true) : isBlank c = false := by
  rw [isDigit_iff] at h
  simp only [List.mem_cons, List.not_mem_nil, or_false] at h
  rcases h with rfl | rfl | rfl | rfl | rfl | rfl | rfl | rfl | rfl | rfl <;> decide

theorem dropWhile_blanks {w r : List Char} (h : Blanks w) (hr : ∀ c t, r = c :: t → isBlank c = false) :
    (w ++ r).dropWhile isBlank = r := by
  rw [List.dropWhile_append_of_pos ((blanks_iff w).1 h)]
  cases r with
  | nil => simp
  | cons c t => simp [hr c t rfl]

/-- What is read of an integer text, and what is left. -/
theorem scanInt_iff (s : List Char) (neg : Bool) (a : Nat) (rest : List Char) :
    scanInt s = some (neg, a, rest) ↔ ∃ w sg ds, s = w ++ sg ++ ds ++ rest ∧ Blanks w ∧ SignText sg neg ∧ Digits ds ∧ ds ≠ [] ∧
      NoDigit rest ∧ a = decimalValue ds := by
  have drop_nd : ∀ s : List Char, NoDigit (s.dropWhile isDigit) := by
    intro s c t h
    have := List.head?_dropWhile_not isDigit s
    rw [h] at this; simpa using this
  constructor
  · intro h
    have es := List.takeWhile_append_dropWhile (p := isBlank) (l := s)
    have hb : Blanks (s.takeWhile isBlank) := by
      rw [blanks_iff]; intro c hc; exact List.all_eq_true.1 (List.all_takeWhile (p := isBlank) (l := s)) c hc
    unfold scanInt at h
    generalize s.takeWhile isBlank = w at *
    generalize s.dropWhile isBlank = s1 at *
    have fin : ∀ (sg s2 : List Char) (n : Bool), s1 = sg ++ s2 → SignText sg n →
        (if s2.takeWhile isDigit = [] then none else some (n, digitsVal (s2.takeWhile isDigit), s2.dropWhile isDigit)) = some (neg, a, rest) →
        ∃ w sg ds, s = w ++ sg ++ ds ++ rest ∧ Blanks w ∧ SignText sg neg ∧ Digits ds ∧ ds ≠ [] ∧ NoDigit rest ∧ a = decimalValue ds := by
      intro sg s2 n e1 hs hc
      by_cases h0 : s2.takeWhile isDigit = []
      · rw [if_pos h0] at hc; simp at hc
      · rw [if_neg h0] at hc
        simp only [Option.some.injEq, Prod.mk.injEq] at hc
        obtain ⟨rfl, rfl, rfl⟩ := hc
        refine ⟨w, sg, s2.takeWhile isDigit, ?_, hb, hs, takeWhile_isDigits s2, h0, drop_nd s2, digitsVal_eq _⟩
        rw [List.append_assoc, List.takeWhile_append_dropWhile, ← es, e1]; simp
    unfold splitSign at h
    split at h
    · rename_i t; exact fin ['-'] t true rfl (.inr (.inr ⟨rfl, rfl⟩)) h
    · rename_i t; exact fin ['+'] t false rfl (.inr (.inl ⟨rfl, rfl⟩)) h
    · exact fin [] s1 false rfl (.inl ⟨rfl, rfl⟩) h
  · rintro ⟨w, sg, ds, rfl, hb, hs, hd, hne, hr, rfl⟩
    have t1 := takeWhile_digits hd hr
    have t2 := dropWhile_digits hd hr
    rw [List.append_assoc, List.append_assoc]
    unfold scanInt
    rcases hs with ⟨rfl, rfl⟩ | ⟨rfl, rfl⟩ | ⟨rfl, rfl⟩
    · cases ds with
      | nil => exact absurd rfl hne
      | cons d u =>
        have hd0 := hd d (by simp)
        rw [List.nil_append, dropWhile_blanks hb (by intro c t e; cases e; exact digit_not_blank ((isDigit_iff _).2 hd0))]
        have m1 : d ≠ '-' := by rintro rfl; exact absurd hd0 (by decide)
        have m2 : d ≠ '+' := by rintro rfl; exact absurd hd0 (by decide)
        rw [List.cons_append] at t1 t2 ⊢
        have e : splitSign (d :: (u ++ rest)) = (false, d :: (u ++ rest)) := by
          unfold splitSign
          split
          · rename_i h; simp at h; exact absurd h.1 m1
          · rename_i h; simp at h; exact absurd h.1 m2
          · rfl
        simp only [e, t1, t2, hne, if_false, digitsVal_eq]
    · rw [dropWhile_blanks hb (by intro c t e; cases e; decide)]
      simp only [List.cons_append, List.nil_append, splitSign, t1, t2, hne, if_false, digitsVal_eq]
    · rw [dropWhile_blanks hb (by intro c t e; cases e; decide)]
      simp only [List.cons_append, List.nil_append, splitSign, t1, t2, hne, if_false, digitsVal_eq]

theorem scanInt_text (s : List Char) (v : Int) :
    IntText s v ↔ ∃ neg a, scanInt s = some (neg, a, []) ∧ v = if neg then -(a : Int) else a := by
  constructor
  · rintro ⟨w, sg, neg, ds, rfl, hb, hs, hd, hne, rfl⟩
    exact ⟨neg, decimalValue ds, (scanInt_iff _ _ _ _).2 ⟨w, sg, ds, by simp, hb, hs, hd, hne, noDigit_nil, rfl⟩, rfl⟩
  · rintro ⟨neg, a, h, rfl⟩
    obtain ⟨w, sg, ds, e, hb, hs, hd, hne, _, rfl⟩ := (scanInt_iff _ _ _ _).1 h
    exact ⟨w, sg, neg, ds, by simpa using e, hb, hs, hd, hne, rfl⟩

end Verif.Text
