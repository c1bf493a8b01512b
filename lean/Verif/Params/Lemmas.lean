import Verif.Params.Spec
import Mathlib.Tactic.ByContra
import Mathlib.Tactic.Tauto
import Mathlib.Data.List.Basic

namespace Verif.Params

theorem at_nil (y : Y) : y.at [] = some y := by cases y <;> rfl

theorem at_cons (y : Y) (k : String) (ks : List String) : y.at (k :: ks) = (y.at [k]).bind (fun z => z.at ks) := by
  cases y with
  | map m =>
    simp only [Y.at]
    cases m.find? (fun e => decide (e.1 = k)) <;> simp
  | _ => simp [Y.at]

theorem has_map (m : List (String × Y)) (k : String) : (Y.map m).has k = .ok ((Y.map m).at [k]).isSome := by
  simp only [Y.has, Y.at]
  congr 1
  induction m with
  | nil => rfl
  | cons e m ih =>
    rw [List.any_cons, List.find?_cons]
    cases hd : decide (e.1 = k)
    · simpa [hd] using ih
    · simp

theorem get_map (m : List (String × Y)) (k : String) (s : Y) (h : (Y.map m).at [k] = some s) : (Y.map m).get k = .ok s := by
  simp only [Y.get, Y.at] at *
  cases hf : m.find? (fun e => decide (e.1 = k)) with
  | none => rw [hf] at h; cases h
  | some e => rw [hf] at h; simp at h; simp [h]

theorem wildHas_map {p : Y} (hp : Mapping p) (k : String) : wildHas p k = .ok (p.at ["/**", k]).isSome := by
  obtain ⟨⟨m, rfl⟩, hw⟩ := hp
  unfold wildHas
  rw [has_map, at_cons (.map m) "/**" [k]]
  show (if ((Y.map m).at ["/**"]).isSome = true then _ else _) = _
  cases hv : (Y.map m).at ["/**"] with
  | none => rfl
  | some w =>
    obtain ⟨m', rfl⟩ := hw w hv
    have := get_map m wildcard _ hv
    simp only [Option.isSome_some, if_true]
    rw [this]
    show (Y.map m').has k = _
    rw [has_map]; rfl

theorem wild_eq (name : String) : wildcard ++ "/" ++ name = "/**/" ++ name := rfl

theorem mem_keys (name ns k : String) : k ∈ keys name ns ↔ Names name ns k ∨ k = name := by
  have e : "/**" ++ ("/" ++ name) = "/**/" ++ name := by rw [← String.append_assoc]; rfl
  have e2 : wildcard ++ (ns ++ "/" ++ name) = "/**" ++ ns ++ "/" ++ name := by simp [wildcard, String.append_assoc]
  unfold keys nsName Names
  simp only [List.mem_cons, List.not_mem_nil, or_false, wild_eq]
  by_cases h : ns = "/"
  · subst h
    simp only [if_true]
    rw [show wildcard ++ ("/" ++ name) = "/**/" ++ name from e]
    simp
    tauto
  · simp only [h, if_false]
    rw [e2]
    simp
    tauto

/-! ## Which files -/

theorem usesLoop_any {p : Y} (hp : Mapping p) (name ns : String) (hb : ¬ Bare name ns p) (ks : List String) :
    usesLoop name ns p ks = .ok (ks.any (fun k => (p.at [k]).isSome || (p.at ["/**", k]).isSome || (p.at ["/**", "ros__parameters"]).isSome)) := by
  induction ks with
  | nil => rfl
  | cons k ks ih =>
    unfold usesLoop
    rw [wildHas_map hp, wildHas_map hp]
    have hh : p.has k = .ok (p.at [k]).isSome := by obtain ⟨⟨m, rfl⟩, -⟩ := hp; exact has_map m k
    rw [hh, List.any_cons]
    show (if (p.at [k]).isSome = true then _ else _) = _
    cases hv : (p.at [k]).isSome with
    | true =>
      simp only [if_true, Bool.true_or]
      congr 1
      by_cases hk : k = name
      · subst hk
        have : ns = "/" := by
          by_contra hc
          exact hb ⟨hc, hv⟩
        simp [this]
      · simp [hk]
    | false =>
      simp only [Bool.false_eq_true, if_false, Bool.false_or]
      show (if (p.at ["/**", k]).isSome = true then _ else _) = _
      cases (p.at ["/**", k]).isSome with
      | true => simp
      | false =>
        simp only [Bool.false_eq_true, if_false, Bool.false_or]
        show (if (p.at ["/**", rosParams]).isSome = true then _ else _) = _
        show (if (p.at ["/**", "ros__parameters"]).isSome = true then _ else _) = _
        cases hr : (p.at ["/**", "ros__parameters"]).isSome with
        | true => simp
        | false =>
          simp only [Bool.false_eq_true, if_false, Bool.false_or]
          rw [ih]
          simp [hr]

theorem uses_addresses {p : Y} (hp : Mapping p) (name ns : String) (hb : ¬ Bare name ns p) :
    ∃ b, usesLoop name ns p (keys name ns) = .ok b ∧ (b = true ↔ Addresses name ns p) := by
  refine ⟨_, usesLoop_any hp name ns hb _, ?_⟩
  rw [List.any_eq_true]
  constructor
  · rintro ⟨k, hk, h⟩
    simp only [Bool.or_eq_true] at h
    rw [mem_keys] at hk
    rcases h with (h | h) | h
    · rcases hk with hk | hk
      · exact .inl ⟨k, hk, h⟩
      · refine .inl ⟨k, .inl ⟨hk, ?_⟩, h⟩
        by_contra hc
        subst hk
        exact hb ⟨hc, h⟩
    · exact .inr (.inl ⟨k, hk, h⟩)
    · exact .inr (.inr h)
  · rintro (⟨k, hk, h⟩ | ⟨k, hk, h⟩ | h)
    · exact ⟨k, (mem_keys _ _ _).2 (.inl hk), by simp [h]⟩
    · exact ⟨k, (mem_keys _ _ _).2 hk, by simp [h]⟩
    · exact ⟨name, by simp [keys], by simp [h]⟩

theorem uses_bare {p : Y} (hp : Mapping p) (name ns : String) (hb : Bare name ns p) : usesLoop name ns p (keys name ns) = .ok false := by
  obtain ⟨⟨m, rfl⟩, -⟩ := hp
  unfold keys usesLoop
  rw [has_map]
  show (if ((Y.map m).at [name]).isSome = true then _ else _) = _
  simp [hb.1, hb.2]

/-- The loop over files, when every file is read without an exception. -/
theorem filesLoop_spec (fs : Files) (name ns : String) (u : String → Prop) (files rest pre acc : List String) (e : files = pre ++ rest)
    (hu : ∀ f ∈ files, ∃ p b, fs f = some p ∧ usesLoop name ns p (keys name ns) = .ok b ∧ (b = true ↔ u f))
    (h1 : ∀ f, f ∈ acc ↔ f ∈ pre ∧ u f) (h2 : acc.Pairwise (fun f g => files.idxOf f < files.idxOf g)) :
    ∃ l, filesLoop fs name ns rest acc = .ok l ∧ (∀ f, f ∈ l ↔ f ∈ files ∧ u f) ∧ l.Pairwise (fun f g => files.idxOf f < files.idxOf g) := by
  induction rest generalizing pre acc with
  | nil => exact ⟨acc, rfl, by simpa [e] using h1, h2⟩
  | cons f rest ih =>
    obtain ⟨p, b, hp, hb, hbu⟩ := hu f (by rw [e]; simp)
    unfold filesLoop
    split
    · rename_i hf
      refine ih (pre ++ [f]) acc (by simp [e]) (fun g => ?_) h2
      rw [h1]
      constructor
      · rintro ⟨a, c⟩; exact ⟨by simp [a], c⟩
      · rintro ⟨a, c⟩
        rcases List.mem_append.1 a with a | a
        · exact ⟨a, c⟩
        · rw [List.mem_singleton] at a; subst a; exact (h1 _).1 hf
    · rename_i hf
      have hl : load fs f = .ok p := by unfold load; rw [hp]
      rw [hl]
      show ∃ l, (do if ← usesLoop name ns p (keys name ns) then _ else _) = Except.ok l ∧ _
      rw [hb]
      cases b with
      | true =>
        have huf := hbu.1 rfl
        have hfp : f ∉ pre := fun hc => hf ((h1 f).2 ⟨hc, huf⟩)
        refine ih (pre ++ [f]) (acc ++ [f]) (by simp [e]) (fun g => ?_) ?_
        · simp only [List.mem_append, List.mem_singleton, h1]
          constructor
          · rintro (⟨a, c⟩ | rfl)
            · exact ⟨.inl a, c⟩
            · exact ⟨.inr rfl, huf⟩
          · rintro ⟨a | a, c⟩
            · exact .inl ⟨a, c⟩
            · exact .inr a
        · rw [List.pairwise_append]
          refine ⟨h2, by simp, fun g hg x hx => ?_⟩
          rw [List.mem_singleton] at hx
          subst hx
          have hgp := ((h1 g).1 hg).1
          rw [e, List.idxOf_append_of_mem hgp, List.idxOf_append_of_notMem hfp]
          have := List.idxOf_lt_length_iff.2 hgp
          omega
      | false =>
        refine ih (pre ++ [f]) acc (by simp [e]) (fun g => ?_) h2
        rw [h1]
        constructor
        · rintro ⟨a, c⟩; exact ⟨by simp [a], c⟩
        · rintro ⟨a, c⟩
          rcases List.mem_append.1 a with a | a
          · exact ⟨a, c⟩
          · rw [List.mem_singleton] at a; subst a
            exact absurd (hbu.2 c) (by simp)

/-! ## Which value -/

/-- The section the loop looks at for a key. -/
def sel (p : Y) (k : String) : Option Y :=
  (p.at [k]).or ((p.at ["/**", k]).or (if (p.at ["/**", "ros__parameters"]).isSome then p.at ["/**"] else none))

theorem falsy_at {s : Y} (h : s.truthy = false) (k : String) (ks : List String) : s.at (k :: ks) = none := by
  cases s with
  | map m =>
    cases m with
    | nil => rfl
    | cons e m => simp [Y.truthy] at h
  | _ => rfl

theorem sel_valid {name ns : String} {p : Y} (hv : Valid name ns p) {k : String} (hk : k ∈ keys name ns) {s : Y} (hs : sel p k = some s) :
    ValidSection s := by
  obtain ⟨hm, h1, h2, h3⟩ := hv
  rw [mem_keys] at hk
  unfold sel at hs
  cases ht : p.at [k] with
  | some t => rw [ht] at hs; simp at hs; subst hs; exact h1 k t hk ht
  | none =>
    rw [ht] at hs
    cases hn : p.at ["/**", k] with
    | some t => rw [hn] at hs; simp at hs; subst hs; exact h2 k t hk hn
    | none =>
      rw [hn] at hs
      simp only [Option.none_or] at hs
      split at hs
      · rename_i hr
        obtain ⟨r, hr⟩ := Option.isSome_iff_exists.1 hr
        rw [at_cons, hs] at hr
        obtain ⟨m, rfl⟩ := h3 s r hs hr
        exact .inr ⟨m, hr⟩
      · cases hs

theorem section_has {s : Y} (hv : ValidSection s) (ht : s.truthy = true) (q : String) :
    (∃ m, s = .map m) ∧ s.has rosParams = .ok true ∧ ∃ r, s.get rosParams = .ok (.map r) ∧ (Y.map r).has q = .ok (s.at ["ros__parameters", q]).isSome ∧
      ∀ v, s.at ["ros__parameters", q] = some v → (Y.map r).get q = .ok v := by
  rcases hv with h | ⟨r, hr⟩
  · rw [h] at ht; cases ht
  cases s with
  | map m =>
    have e : (Y.map m).at ["ros__parameters", q] = (Y.map r).at [q] := by rw [at_cons, hr]; rfl
    refine ⟨⟨m, rfl⟩, ?_, r, get_map m _ _ hr, ?_, ?_⟩
    · rw [has_map]
      show Except.ok ((Y.map m).at ["ros__parameters"]).isSome = _
      rw [hr]; rfl
    · rw [has_map, e]
    · intro v hv; rw [e] at hv; exact get_map r _ _ hv
  | _ => cases hr

/-- Nothing about the parameter in this section. -/
def Silent (q : String) (s : Y) : Prop := s.at ["ros__parameters", q] = none

theorem findLoop_step {name ns : String} {p : Y} (hm : Mapping p) (hb : ¬ Bare name ns p) (q k : String) (ks : List String) (cur : Y)
    (hv : ValidSection ((sel p k).getD cur)) :
    findLoop name ns q p (k :: ks) cur =
      if (((sel p k).getD cur).at ["ros__parameters", q]).isSome then .ok ((sel p k).getD cur) else findLoop name ns q p ks ((sel p k).getD cur) := by
  have hh : p.has k = .ok (p.at [k]).isSome := by obtain ⟨⟨m, rfl⟩, -⟩ := hm; exact has_map m k
  have key : findLoop name ns q p (k :: ks) cur = (fun cur : Y =>
      if cur.truthy then
        match cur with
        | .map _ => (do
          if ← cur.has rosParams then
            if ← (← cur.get rosParams).has q then .ok cur else findLoop name ns q p ks cur
          else .error .invalid)
        | _ => .error .invalid
      else findLoop name ns q p ks cur) ((sel p k).getD cur) := by
    rw [findLoop, hh]
    have hnb : ((p.at [k]).isSome && decide (k = name) && decide (ns ≠ "/")) = false := by
      by_contra hc
      simp only [Bool.not_eq_false, Bool.and_eq_true, decide_eq_true_eq] at hc
      exact hb ⟨hc.2, by rw [← hc.1.2]; exact hc.1.1⟩
    show (if ((p.at [k]).isSome && decide (k = name) && decide (ns ≠ "/")) = true then _ else _) = _
    rw [hnb]
    simp only [Bool.false_eq_true, if_false]
    have hc : pick p k (p.at [k]).isSome cur = .ok ((sel p k).getD cur) := by
      unfold pick
      rw [wildHas_map hm, wildHas_map hm]
      unfold sel
      obtain ⟨⟨m, rfl⟩, hw⟩ := hm
      cases ht : (Y.map m).at [k] with
      | some t => simp [get_map m k t ht]
      | none =>
        simp only [Option.isSome_none, Bool.false_eq_true, if_false, Option.none_or]
        show (if ((Y.map m).at ["/**", k]).isSome = true then _ else _) = _
        rw [at_cons (.map m) "/**" [k]]
        cases hwv : (Y.map m).at ["/**"] with
        | none =>
          simp only [Option.bind_none, Option.isSome_none, Bool.false_eq_true, if_false, Option.none_or]
          have hr : (Y.map m).at ["/**", rosParams] = none := by rw [at_cons, hwv]; rfl
          have hr' : (Y.map m).at ["/**", "ros__parameters"] = none := hr
          rw [hr, hr']
          rfl
        | some w =>
          obtain ⟨m', rfl⟩ := hw w hwv
          have hg := get_map m wildcard _ hwv
          obtain ⟨on, hn⟩ : ∃ on, (Y.map m').at [k] = on := ⟨_, rfl⟩
          rw [show (some (Y.map m')).bind (fun z => z.at [k]) = on from hn]
          cases on with
          | none =>
            simp only [Option.isSome_none, Bool.false_eq_true, if_false, Option.none_or]
            show (if ((Y.map m).at ["/**", "ros__parameters"]).isSome = true then _ else _) = _
            cases hr : ((Y.map m).at ["/**", "ros__parameters"]).isSome with
            | true => simp [hg]
            | false => simp
          | some t =>
            simp only [Option.isSome_some, if_true]
            rw [hg]
            show (Y.map m').get k = _
            rw [get_map m' k t hn]; rfl
    rw [hc]
    rfl
  rw [key]
  generalize (sel p k).getD cur = s at *
  dsimp only
  cases ht : s.truthy with
  | false => rw [falsy_at ht]; simp
  | true =>
    obtain ⟨⟨m, rfl⟩, h1, r, h2, h3, -⟩ := section_has hv ht q
    simp only [if_true]
    rw [h1]
    show (do if ← (← (Y.map m).get rosParams).has q then _ else _) = _
    rw [h2]
    show (do if ← (Y.map r).has q then _ else _) = _
    rw [h3]
    rfl

theorem findLoop_spec {name ns : String} {p : Y} (hv : Valid name ns p) (hb : ¬ Bare name ns p) (q : String) (ks : List String)
    (hks : ∀ k ∈ ks, k ∈ keys name ns) (cur : Y) (hcv : ValidSection cur) (hcs : Silent q cur) :
    ∃ c, findLoop name ns q p ks cur = .ok c ∧ ValidSection c ∧
      ((∃ k ∈ ks, sel p k = some c ∧ ∃ v, c.at ["ros__parameters", q] = some v) ∨
        (Silent q c ∧ ∀ k ∈ ks, ∀ s, sel p k = some s → Silent q s)) := by
  induction ks generalizing cur with
  | nil => exact ⟨cur, rfl, hcv, .inr ⟨hcs, by simp⟩⟩
  | cons k ks ih =>
    have hvs : ValidSection ((sel p k).getD cur) := by
      cases hs : sel p k with
      | none => exact hcv
      | some s => exact sel_valid hv (hks k (by simp)) hs
    rw [findLoop_step hv.1 hb q k ks cur hvs]
    cases hd : ((sel p k).getD cur).at ["ros__parameters", q] with
    | some v =>
      refine ⟨_, rfl, hvs, .inl ⟨k, by simp, ?_, v, hd⟩⟩
      cases hs : sel p k with
      | none => rw [hs] at hd; rw [Option.getD_none, hcs] at hd; cases hd
      | some s => rfl
    | none =>
      simp only [Option.isSome_none, Bool.false_eq_true, if_false]
      obtain ⟨c, h1, h2, h3⟩ := ih (fun x hx => hks x (by simp [hx])) _ hvs hd
      refine ⟨c, h1, h2, ?_⟩
      rcases h3 with ⟨x, hx, h⟩ | ⟨h4, h5⟩
      · exact .inl ⟨x, by simp [hx], h⟩
      · refine .inr ⟨h4, fun x hx s hs => ?_⟩
        rcases List.mem_cons.1 hx with rfl | hx
        · rw [hs] at hd; exact hd
        · exact h5 x hx s hs

theorem findIn_spec {name ns : String} {p : Y} (hv : Valid name ns p) (hb : ¬ Bare name ns p) (q : String) :
    ∃ r, findIn name ns q p = .ok r ∧ (∀ v, r = some v → ∃ k ∈ keys name ns, ∃ s, sel p k = some s ∧ s.at ["ros__parameters", q] = some v) ∧
      (r = none → ∀ k ∈ keys name ns, ∀ s, sel p k = some s → Silent q s) := by
  obtain ⟨c, h1, h2, h3⟩ := findLoop_spec hv hb q (keys name ns) (fun _ h => h) .null (.inl rfl) rfl
  refine ⟨c.at ["ros__parameters", q], ?_, ?_, ?_⟩
  · unfold findIn
    rw [h1]
    show (if c.truthy = true then _ else _) = _
    cases ht : c.truthy with
    | false => rw [falsy_at ht]; rfl
    | true =>
      obtain ⟨-, -, r, h4, h5, h6⟩ := section_has h2 ht q
      simp only [if_true]
      rw [h4]
      show (do if ← (Y.map r).has q then _ else _) = _
      rw [h5]
      cases hd : c.at ["ros__parameters", q] with
      | none => rfl
      | some v =>
        show (do let __do_lift ← (Y.map r).get q; _) = _
        rw [h6 v hd]; rfl
  · intro v hr
    rcases h3 with ⟨k, hk, hs, -⟩ | ⟨h3, -⟩
    · exact ⟨k, hk, c, hs, hr⟩
    · rw [h3] at hr; cases hr
  · intro hr
    rcases h3 with ⟨-, -, -, v, hx⟩ | ⟨-, h3⟩
    · rw [hx] at hr; cases hr
    · exact h3

theorem findIn_bare {name ns : String} {p : Y} (hm : Mapping p) (hb : Bare name ns p) (q : String) : findIn name ns q p = .ok none := by
  obtain ⟨⟨m, rfl⟩, -⟩ := hm
  have : findLoop name ns q (.map m) (keys name ns) .null = .ok .null := by
    unfold keys findLoop
    rw [has_map]
    show (if (((Y.map m).at [name]).isSome && decide (name = name) && decide (ns ≠ "/")) = true then _ else _) = _
    rw [show (((Y.map m).at [name]).isSome && decide (name = name) && decide (ns ≠ "/")) = true by simp [hb.1, hb.2]]
    rfl
  unfold findIn
  rw [this]; rfl

theorem sel_says {name ns : String} {p : Y} (hb : ¬ Bare name ns p) {k : String} (hk : k ∈ keys name ns) {s v : Y} {q : String}
    (hs : sel p k = some s) (hq : s.at ["ros__parameters", q] = some v) : Says name ns q p v := by
  rw [mem_keys] at hk
  unfold sel at hs
  cases ht : p.at [k] with
  | some t =>
    rw [ht] at hs; simp at hs; subst hs
    refine .inl ⟨k, ?_, by rw [at_cons, ht]; exact hq⟩
    rcases hk with hk | hk
    · exact hk
    · refine .inl ⟨hk, ?_⟩
      by_contra hc
      subst hk
      exact hb ⟨hc, by rw [ht]; rfl⟩
  | none =>
    rw [ht] at hs
    cases hn : p.at ["/**", k] with
    | some t =>
      rw [hn] at hs; simp at hs; subst hs
      refine .inr (.inl ⟨k, hk, ?_⟩)
      rw [at_cons] at hn ⊢
      cases hw : p.at ["/**"] with
      | none => rw [hw] at hn; cases hn
      | some w =>
        rw [hw] at hn
        show w.at [k, "ros__parameters", q] = _
        rw [at_cons, show w.at [k] = some t from hn]; exact hq
    | none =>
      rw [hn] at hs
      simp only [Option.none_or] at hs
      split at hs
      · exact .inr (.inr (by rw [at_cons, hs]; exact hq))
      · cases hs

theorem says_sel {name ns : String} {p : Y} (hp : Plain name ns p) {q : String} {v : Y} (h : Says name ns q p v) :
    ∃ k ∈ keys name ns, ∃ s, sel p k = some s ∧ s.at ["ros__parameters", q] = some v := by
  rcases h with ⟨k, hk, h⟩ | ⟨k, hk, h⟩ | h
  · rw [at_cons] at h
    cases ht : p.at [k] with
    | none => rw [ht] at h; cases h
    | some t => rw [ht] at h; exact ⟨k, (mem_keys _ _ _).2 (.inl hk), t, by simp [sel, ht], h⟩
  · rw [at_cons] at h
    cases hw : p.at ["/**"] with
    | none => rw [hw] at h; cases h
    | some w =>
      rw [hw] at h
      have h' : w.at [k, "ros__parameters", q] = some v := h
      rw [at_cons] at h'
      cases ht : w.at [k] with
      | none => rw [ht] at h'; cases h'
      | some t =>
        rw [ht] at h'
        have hn : p.at ["/**", k] = some t := by rw [at_cons, hw]; exact ht
        have : p.at [k] = none := by
          have := hp.1 k hk
          rw [hn] at this
          simpa using this
        exact ⟨k, (mem_keys _ _ _).2 hk, t, by simp [sel, this, hn], h'⟩
  · obtain ⟨k, hk, h1, h2⟩ := hp.2
    rw [at_cons] at h
    cases hw : p.at ["/**"] with
    | none => rw [hw] at h; cases h
    | some w =>
      rw [hw] at h
      have h' : w.at ["ros__parameters", q] = some v := h
      have hr : (p.at ["/**", "ros__parameters"]).isSome := by
        rw [at_cons, hw]
        rw [at_cons] at h'
        show (w.at ["ros__parameters"]).isSome
        cases hx : w.at ["ros__parameters"] with
        | none => rw [hx] at h'; cases h'
        | some _ => rfl
      exact ⟨k, (mem_keys _ _ _).2 (.inl hk), w, by simp [sel, h1, h2, hr, hw], h'⟩

/-! ## Arguments of the node -/

theorem readArgs_append (m : Mode) (l r : List String) :
    readArgs m (l ++ r) = ((readArgs (readArgs m l).1 r).1, (readArgs m l).2 ++ (readArgs (readArgs m l).1 r).2) := by
  induction l generalizing m with
  | nil => simp [readArgs]
  | cons a l ih => simp [readArgs, ih]

theorem plain_stays (l : List String) (h : "--ros-args" ∉ l) : readArgs .plain l = (.plain, []) := by
  induction l with
  | nil => rfl
  | cons a l ih =>
    have h1 : a ≠ "--ros-args" := fun e => h (by simp [e])
    have h2 : "--ros-args" ∉ l := fun e => h (by simp [e])
    simp [readArgs, readArg, h1, ih h2]

/-- The arguments are outside ROS arguments without `--ros-args`, and inside with it. -/
def Open (l : List String) : Prop := "--ros-args" ∈ l → (readArgs .plain l).1 = .ros

theorem withRos_mode (l : List String) (h : Open l) :
    "--ros-args" ∈ withRos l ∧ readArgs .plain (withRos l) = (.ros, (readArgs .plain l).2) := by
  unfold withRos
  split
  · rename_i hm
    exact ⟨hm, by rw [Prod.ext_iff]; exact ⟨h hm, rfl⟩⟩
  · rename_i hm
    refine ⟨by simp, ?_⟩
    rw [readArgs_append, plain_stays l hm]
    rfl

theorem addFiles_mode (files l : List String) (h : Open l) :
    Open (files.foldl (fun l f => withRos l ++ ["--params-file", f]) l) ∧
    (readArgs .plain (files.foldl (fun l f => withRos l ++ ["--params-file", f]) l)).2 = (readArgs .plain l).2 ++ files.map .file ∧
    (files ≠ [] → (readArgs .plain (files.foldl (fun l f => withRos l ++ ["--params-file", f]) l)).1 = .ros) := by
  induction files generalizing l with
  | nil => exact ⟨h, by simp, by simp⟩
  | cons f files ih =>
    obtain ⟨h1, h2⟩ := withRos_mode l h
    have e : readArgs .plain (withRos l ++ ["--params-file", f]) = (.ros, (readArgs .plain l).2 ++ [.file f]) := by
      rw [readArgs_append, h2]; rfl
    have ho : Open (withRos l ++ ["--params-file", f]) := fun _ => by rw [e]
    obtain ⟨k1, k2, k3⟩ := ih _ ho
    refine ⟨k1, ?_, fun _ => ?_⟩
    · rw [List.foldl_cons, k2, e]; simp
    · rw [List.foldl_cons]
      cases files with
      | nil => rw [List.foldl_nil, e]
      | cons g t => exact k3 (by simp)

/-! ## The command line -/

theorem appendUnique_mem (base l : List String) (f : String) : f ∈ appendUnique base l ↔ f ∈ base ∨ f ∈ l := by
  induction l generalizing base with
  | nil => simp [appendUnique]
  | cons x t ih =>
    unfold appendUnique
    split
    · rename_i h
      rw [ih]
      simp only [List.mem_cons]
      constructor
      · rintro (h | h); exacts [.inl h, .inr (.inr h)]
      · rintro (h' | rfl | h'); exacts [.inl h', .inl h, .inr h']
    · rw [ih]; simp [or_assoc]

theorem appendUnique_prefix (base l : List String) : base <+: appendUnique base l := by
  induction l generalizing base with
  | nil => exact List.prefix_rfl
  | cons x t ih =>
    unfold appendUnique
    split
    · exact ih _
    · exact (List.prefix_append _ _).trans (ih _)

end Verif.Params
