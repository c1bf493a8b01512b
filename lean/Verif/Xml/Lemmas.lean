import Verif.Xml.Spec
import Verif.Text.Numbers
/-!
# Lemmas about the description parser
-/
namespace Verif.Xml
open Verif.Text (Blanks Digits decimalValue Spelled trueWord falseWord ListText IntText SignText Out strip parseBool stod scanInt
  parseIntArray toLowerCase Re isDigit isBlank blanks_iff blanks_one)
open Verif.Desc (MimicAttr)

/-! ## Texts -/

theorem strip_of_trimmed {raw v : Str} (h : Trimmed raw v) : strip raw = v := by
  obtain ⟨a, b, rfl, ha, hb, h1, h2⟩ := h
  rw [blanks_iff] at ha hb
  unfold strip
  rw [List.append_assoc, List.dropWhile_append_of_pos ha]
  cases v with
  | nil =>
    have : b.dropWhile isBlank = [] := by
      rw [← List.append_nil b, List.dropWhile_append_of_pos hb]
      rfl
    rw [List.nil_append, this]
    rfl
  | cons c t =>
    have hc : isBlank c = false := by
      have := h1 c t rfl
      rw [blanks_one] at this
      simpa using this
    rw [List.cons_append, List.dropWhile_cons_of_neg (by simp [hc]), ← List.cons_append, List.reverse_append,
      List.dropWhile_append_of_pos (by intro x hx; exact hb x (List.mem_reverse.1 hx))]
    have hne : (c :: t) ≠ [] := by simp
    have hl := List.dropLast_append_getLast hne
    have hx : isBlank ((c :: t).getLast hne) = false := by
      have := h2 ((c :: t).getLast hne) (c :: t).dropLast hl.symm
      rw [blanks_one] at this
      simpa using this
    rw [← hl, List.reverse_append]
    simp only [List.reverse_cons, List.reverse_nil, List.nil_append, List.singleton_append]
    rw [List.dropWhile_cons_of_neg (by simp [hx])]
    simp

theorem trimmed_iff (raw v : Str) : Trimmed raw v ↔ strip raw = v := by
  constructor
  · exact strip_of_trimmed
  · rintro rfl
    obtain ⟨a, b, e, h1, h2, h3, h4⟩ := Text.C31_strip raw
    exact ⟨a, b, e, h1, h2, h3, h4⟩

theorem strip_strip (s : Str) : strip (strip s) = strip s := by
  obtain ⟨a, b, e, h1, h2, h3, h4⟩ := Text.C31_strip s
  exact strip_of_trimmed ⟨[], [], by simp, by intro c h; simp at h, by intro c h; simp at h, h3, h4⟩

theorem has_iff (e : Elem) (k : String) (v : Str) : Has e k v ↔ ∃ raw, e.find k = some raw ∧ strip raw = v := by
  unfold Has Elem.find
  constructor
  · rintro ⟨a, raw, b, he, ha, ht⟩
    refine ⟨raw, ?_, (trimmed_iff _ _).1 ht⟩
    have : e.attrs.find? (fun p => decide (p.1 = k)) = some (k, raw) :=
      List.find?_eq_some_iff_append.2 ⟨by simp, a, b, he, fun p hp => by simp [ha p hp]⟩
    rw [this]; rfl
  · rintro ⟨raw, hf, hs⟩
    cases hq : e.attrs.find? (fun p => decide (p.1 = k)) with
    | none => rw [hq] at hf; cases hf
    | some q =>
      rw [hq] at hf
      obtain ⟨hk, a, b, he, ha⟩ := List.find?_eq_some_iff_append.1 hq
      simp only [decide_eq_true_eq] at hk
      cases hf
      refine ⟨a, q.2, b, ?_, fun p hp => by simpa using ha p hp, (trimmed_iff _ _).2 hs⟩
      rw [he, ← hk]

theorem lacks_iff (e : Elem) (k : String) : Lacks e k ↔ e.find k = none := by
  unfold Lacks Elem.find
  simp

theorem attr_ok (e : Elem) (k : String) (v : Str) : attr e k = .ok v ↔ Has e k v := by
  rw [has_iff]
  unfold attr
  cases e.find k <;> simp

theorem textIs_iff (e : Elem) (v : Str) : TextIs e v ↔ textOf e = v := by
  unfold TextIs textOf
  cases e.text with
  | none => simp [eq_comm]
  | some t => simp [trimmed_iff]

theorem firstTag_iff (e : Elem) (t : String) (c : Elem) : FirstTag e t c ↔ e.first t = some c := by
  unfold FirstTag Elem.first
  rw [List.find?_eq_some_iff_append]
  constructor
  · rintro ⟨a, b, h1, h2, h3⟩; exact ⟨by simpa using h2, a, b, h1, fun x hx => by simpa using h3 x hx⟩
  · rintro ⟨h2, a, b, h1, h3⟩; exact ⟨a, b, h1, by simpa using h2, fun x hx => by simpa using h3 x hx⟩

theorem noTag_iff (e : Elem) (t : String) : NoTag e t ↔ e.first t = none := by
  unfold NoTag Elem.first
  simp

theorem parseBool_ok (v : Str) (b : Bool) : lift (parseBool v) = .ok b ↔ BoolText v b := by
  have h := Text.C31_parse_bool v
  unfold BoolText
  cases hp : parseBool v with
  | ok c =>
    cases b <;> cases c <;> simp [lift, ← h.1, ← h.2.1, hp]
  | invalid => cases b <;> simp [lift, ← h.1, ← h.2.1, hp]
  | range => cases b <;> simp [lift, ← h.1, ← h.2.1, hp]
  | ub => cases b <;> simp [lift, ← h.1, ← h.2.1, hp]

theorem enabled_ok (e : Elem) (b : Bool) : enabled e = .ok b ↔ Enabled e b := by
  unfold enabled Enabled
  rw [noTag_iff]
  cases hl : e.first "limits" with
  | none =>
    have : ¬ ∃ l v, FirstTag e "limits" l ∧ Has l "enable" v ∧ BoolText v b := by
      rintro ⟨l, v, h, -⟩
      rw [firstTag_iff, hl] at h; cases h
    simp only [this, or_false, true_and, Except.ok.injEq, eq_comm]
  | some l =>
    simp only [reduceCtorEq, false_and, false_or]
    cases ha : attr l "enable" with
    | error x =>
      simp only [reduceCtorEq, false_iff]
      rintro ⟨l', v, h, h2, -⟩
      rw [firstTag_iff, hl] at h; cases h
      rw [← attr_ok, ha] at h2; cases h2
    | ok v =>
      simp only
      rw [parseBool_ok]
      constructor
      · intro h; exact ⟨l, v, (firstTag_iff _ _ _).2 hl, (attr_ok _ _ _).1 ha, h⟩
      · rintro ⟨l', v', h, h2, h3⟩
        rw [firstTag_iff, hl] at h; cases h
        rw [← attr_ok, ha] at h2; cases h2
        exact h3

theorem optAttr_some {α : Type} {e : Elem} {k : String} {V : Str → α → Prop} {d v : α} {raw : Str} (h : e.find k = some raw) :
    OptAttr e k V d v ↔ V (strip raw) v := by
  unfold OptAttr
  rw [lacks_iff, h]
  simp only [reduceCtorEq, false_and, or_false]
  constructor
  · rintro ⟨s, hs, hv⟩
    obtain ⟨r, hr, rfl⟩ := (has_iff _ _ _).1 hs
    rw [h] at hr; cases hr; exact hv
  · intro hv; exact ⟨_, (has_iff _ _ _).2 ⟨raw, h, rfl⟩, hv⟩

theorem optAttr_none {α : Type} {e : Elem} {k : String} {V : Str → α → Prop} {d v : α} (h : e.find k = none) :
    OptAttr e k V d v ↔ v = d := by
  unfold OptAttr
  rw [lacks_iff, h]
  simp only [true_and]
  constructor
  · rintro (⟨s, hs, -⟩ | h')
    · obtain ⟨r, hr, -⟩ := (has_iff _ _ _).1 hs
      rw [h] at hr; cases hr
    · exact h'
  · intro hv; exact .inr hv

/-! ## Numbers -/

theorem decimalValue_int {ds : Str} : ((decimalValue ds : Nat) : Int) = (decimalValue ds : Int) := rfl

theorem stdStoi_ok (s : Str) (v : Int) : stdStoi s = .ok v ↔ ∃ neg a rest, scanInt s = some (neg, a, rest) ∧
    v = (if neg then -(a : Int) else a) ∧ -2 ^ 31 ≤ v ∧ v < 2 ^ 31 := by
  unfold stdStoi
  cases hs : scanInt s with
  | none => simp
  | some r =>
    obtain ⟨neg, a, rest⟩ := r
    show (if (if neg then -(a : Int) else a) < -2 ^ 31 ∨ 2 ^ 31 - 1 < (if neg then -(a : Int) else a) then
      (.error .range : R Int) else .ok (if neg then -(a : Int) else a)) = .ok v ↔ _
    generalize hw : (if neg then -(a : Int) else (a : Int)) = w
    by_cases hc : w < -2 ^ 31 ∨ 2 ^ 31 - 1 < w
    · rw [if_pos hc]
      constructor
      · intro h; cases h
      · rintro ⟨n', a', r', he, hv, h1, h2⟩
        cases he
        rw [hw] at hv
        omega
    · rw [if_neg hc]
      constructor
      · intro h
        cases h
        exact ⟨neg, a, rest, rfl, hw.symm, by omega, by omega⟩
      · rintro ⟨n', a', r', he, hv, h1, h2⟩
        cases he
        rw [hw] at hv
        rw [hv]

theorem digits_accepted (s : Str) : positiveRe.accepts s = true ↔ (∃ c t, s = c :: t ∧ c ≠ '0') ∧ Digits s := by
  rw [Re.accepts_iff, positiveRe, Re.lang_seq]
  simp only [Re.lang_cls, Re.lang_star_cls]
  constructor
  · rintro ⟨x, y, rfl, ⟨c, hc, rfl⟩, hy⟩
    simp only [Bool.and_eq_true, bne_iff_ne, ne_eq] at hc
    refine ⟨⟨c, y, rfl, hc.2⟩, ?_⟩
    rw [Text.digits_iff]
    intro d hd
    rcases List.mem_cons.1 hd with rfl | hd
    · exact hc.1
    · exact hy d hd
  · rintro ⟨⟨c, t, rfl, hc⟩, hd⟩
    rw [Text.digits_iff] at hd
    refine ⟨[c], t, rfl, ⟨c, ?_, rfl⟩, fun d h => hd d (List.mem_cons_of_mem _ h)⟩
    simp [hd c (List.mem_cons_self ..), hc]

theorem scanInt_digits {s : Str} (hd : Digits s) (hne : s ≠ []) : scanInt s = some (false, decimalValue s, []) :=
  (Text.scanInt_iff s false (decimalValue s) []).2
    ⟨[], [], s, by simp, by intro c h; simp at h, .inl ⟨rfl, rfl⟩, hd, hne, Text.noDigit_nil, rfl⟩

theorem positive_ok (s : Str) (n : Int) : positive s = .ok n ↔ PosText s n := by
  unfold positive PosText
  by_cases ha : positiveRe.accepts s = true
  · have hd := (digits_accepted s).1 ha
    rw [if_pos ha, stdStoi_ok]
    obtain ⟨⟨c, t, hs, hc⟩, hds⟩ := hd
    have hne : s ≠ [] := by rw [hs]; simp
    rw [scanInt_digits hds hne]
    constructor
    · rintro ⟨neg, a, rest, he, hv, -, h2⟩
      cases he
      exact ⟨⟨c, t, hs, hc⟩, hds, by simpa using hv, h2⟩
    · rintro ⟨-, -, hv, h2⟩
      refine ⟨false, decimalValue s, [], rfl, by simpa using hv, ?_, h2⟩
      omega
  · rw [if_neg ha]
    simp only [reduceCtorEq, false_iff]
    rintro ⟨h1, h2, -⟩
    exact ha ((digits_accepted s).2 ⟨h1, h2⟩)

theorem sizeOf_ok (e : Elem) (n : Int) : sizeOf e = .ok n ↔ OptAttr e "size" PosText 1 n := by
  unfold sizeOf
  cases h : e.find "size" with
  | none => rw [optAttr_none h]; simp [eq_comm]
  | some v => rw [optAttr_some h]; exact positive_ok _ _

theorem threadPriority_ok (e : Elem) (n : Int) : threadPriority e = .ok n ↔ OptAttr e "thread_priority" PosText 50 n := by
  unfold threadPriority
  cases h : e.find "thread_priority" with
  | none => rw [optAttr_none h]; simp [eq_comm]
  | some v => rw [optAttr_some h]; exact positive_ok _ _

theorem isAsync_ok (e : Elem) (b : Bool) : isAsync e = .ok b ↔ OptAttr e "is_async" BoolText false b := by
  unfold isAsync
  cases h : e.find "is_async" with
  | none => rw [optAttr_none h]; simp [eq_comm]
  | some v => rw [optAttr_some h]; exact parseBool_ok _ _

theorem readOnly_ok (e : Elem) (b : Bool) : readOnly e = .ok b ↔ OptAttr e "read_only" BoolText false b := by
  unfold readOnly
  cases h : e.find "read_only" with
  | none => rw [optAttr_none h]; simp [eq_comm]
  | some v => rw [optAttr_some h]; exact parseBool_ok _ _

theorem dataType_is (e : Elem) (t : Str) : dataType e = t ↔ OptAttr e "data_type" (fun s v => v = s) "double".toList t := by
  unfold dataType
  cases h : e.find "data_type" with
  | none => rw [optAttr_none h]; exact eq_comm
  | some v => rw [optAttr_some h]; exact eq_comm

theorem noDigit_iff (rest : Str) : Text.NoDigit rest ↔ ∀ c t, rest = c :: t → ¬ Digits [c] := by
  unfold Text.NoDigit
  have : ∀ c : Char, Digits [c] ↔ isDigit c = true := by intro c; rw [Text.digits_iff]; simp
  simp [this]

theorem rateText (s : Str) (n : Nat) : (∃ v : Int, stdStoi s = .ok v ∧ 0 ≤ v ∧ v.toNat = n) ↔ RateText s n := by
  unfold RateText
  constructor
  · rintro ⟨v, h, h0, rfl⟩
    obtain ⟨neg, a, rest, hs, hv, h1, h2⟩ := (stdStoi_ok _ _).1 h
    obtain ⟨w, sg, ds, e, hb, hsg, hd, hne, hr, ha⟩ := (Text.scanInt_iff _ _ _ _).1 hs
    refine ⟨w, sg, neg, ds, rest, e, hb, hsg, hd, hne, (noDigit_iff _).1 hr, ?_, ?_, ?_⟩ <;>
      cases neg <;> simp only [Bool.false_eq_true, if_true, if_false] at hv <;> first | omega | (intro; omega) | (intro hh; cases hh)
  · rintro ⟨w, sg, neg, ds, rest, e, hb, hsg, hd, hne, hr, hn, h31, hz⟩
    have hs := (Text.scanInt_iff s neg (decimalValue ds) rest).2 ⟨w, sg, ds, e, hb, hsg, hd, hne, (noDigit_iff _).2 hr, rfl⟩
    refine ⟨(n : Int), (stdStoi_ok _ _).2 ⟨neg, decimalValue ds, rest, hs, ?_, by omega, by omega⟩, by omega, by simp⟩
    cases neg with
    | false => simp [hn]
    | true => have := hz rfl; simp only [if_true]; omega

theorem rwRate_ok (e : Elem) (n : Nat) : rwRate e = .ok n ↔ OptAttr e "rw_rate" RateText 0 n := by
  unfold rwRate
  cases h : e.find "rw_rate" with
  | none => rw [optAttr_none h]; simp [eq_comm]
  | some v =>
    rw [optAttr_some h, ← rateText]
    simp only
    cases hs : stdStoi (strip v) with
    | error x => simp
    | ok m =>
      simp only [Except.ok.injEq]
      split
      · simp only [reduceCtorEq, false_iff]
        rintro ⟨v, rfl, h0, -⟩
        omega
      · simp only [Except.ok.injEq]
        constructor
        · intro hm; exact ⟨m, rfl, by omega, hm⟩
        · rintro ⟨v, rfl, -, hm⟩; exact hm

end Verif.Xml
