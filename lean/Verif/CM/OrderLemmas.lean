import Mathlib.Order.Basic
import Mathlib.Order.Nat
import Verif.CM.Order
import Mathlib.Logic.Relation
import Mathlib.Data.List.Nodup
/-! # Facts about the ordering and the chain groups -/
namespace Verif
namespace Chain

/-- Linked by a chained interface, in either direction. -/
def Adj (foll prec : Name → List Name) (a b : Name) : Prop := b ∈ foll a ∨ b ∈ prec a

theorem foldl_min_le (l fs : List Name) (p : Nat) :
    fs.foldl (fun p c => if c ∈ l ∧ l.idxOf c < p then l.idxOf c else p) p ≤ p := by
  induction fs generalizing p with
  | nil => simp
  | cons c t ih =>
    simp only [List.foldl_cons]
    split
    · rename_i h; exact (ih _).trans h.2.le
    · exact ih _

theorem foldl_max_le (l fs : List Name) (p : Nat) (b : Nat) (hp : p < b) (hb : l.length ≤ b) :
    fs.foldl (fun p c => if c ∈ l ∧ p < l.idxOf c then l.idxOf c else p) p < b := by
  induction fs generalizing p with
  | nil => simpa
  | cons c t ih =>
    simp only [List.foldl_cons]
    split
    · rename_i h; exact ih _ ((List.idxOf_lt_length_of_mem h.1).trans_le hb)
    · exact ih _ hp

theorem foldl_max_le' (l fs : List Name) (p : Nat) (hp : p ≤ l.length) :
    fs.foldl (fun p c => if c ∈ l ∧ p < l.idxOf c then l.idxOf c else p) p ≤ l.length := by
  have := foldl_max_le l fs p (l.length + 1) (by omega) (by omega)
  omega

theorem insertPos_le (foll prec) (l : List Name) (n : Name) (s : Nat) (hs : s ≤ l.length) :
    insertPos foll prec l n s ≤ l.length := by
  unfold insertPos
  exact foldl_max_le' _ _ _ ((foldl_min_le _ _ _).trans hs)

theorem insertPos_lt (foll prec) (l : List Name) (n : Name) (s : Nat) (hs : s < l.length) :
    insertPos foll prec l n s < l.length := by
  unfold insertPos
  exact foldl_max_le _ _ _ _ ((foldl_min_le _ _ _).trans_lt hs) le_rfl

/-- The index handed to `insert` is valid. -/
theorem insertIdx_ok (foll prec) (l : List Name) (n : Name) (pos : Nat) (app : Bool)
    (hp : if app then pos < l.length else pos ≤ l.length) :
    (if app then insertPos foll prec l n pos + 1 else insertPos foll prec l n pos) ≤ l.length := by
  cases app with
  | true => simp at hp ⊢; exact insertPos_lt foll prec l n pos hp
  | false => simp at hp ⊢; exact insertPos_le foll prec l n pos hp

/-- What an insertion of a chain guarantees about the list. -/
structure InsOk (K : Name → Prop) (l l' : List Name) : Prop where
  nodup : l'.Nodup
  sub : ∀ x ∈ l, x ∈ l'
  new : ∀ x ∈ l', x ∈ l ∨ K x

theorem InsOk.refl {K} {l : List Name} (h : l.Nodup) : InsOk K l l := ⟨h, fun _ h => h, fun _ h => .inl h⟩

theorem InsOk.trans {K} {a b c : List Name} (h : InsOk K a b) (k : InsOk K b c) : InsOk K a c :=
  ⟨k.nodup, fun x hx => k.sub x (h.sub x hx), fun x hx => by
    rcases k.new x hx with hx | hx
    · exact h.new x hx
    · exact .inr hx⟩

theorem mem_insertIdx' {l : List Name} {i : Nat} {a x : Name} (h : i ≤ l.length) :
    x ∈ l.insertIdx i a ↔ x = a ∨ x ∈ l := List.mem_insertIdx h

theorem nodup_insertIdx {l : List Name} {i : Nat} {a : Name} (h : i ≤ l.length) (hn : l.Nodup) (ha : a ∉ l) :
    (l.insertIdx i a).Nodup :=
  (List.perm_insertIdx a l h).nodup_iff.2 (List.nodup_cons.2 ⟨ha, hn⟩)

theorem insertChain_ok (foll prec : Name → List Name) (K : Name → Prop)
    (hf : ∀ x, ∀ y ∈ foll x, K y) (hp : ∀ x, ∀ y ∈ prec x, K y) (fuel : Nat) :
    ∀ (l : List Name) (n : Name) (pos : Nat) (app : Bool), l.Nodup → K n →
      (if app then pos < l.length else pos ≤ l.length) →
      InsOk K l (insertChain foll prec fuel l n pos app) ∧
      (0 < fuel → n ∈ insertChain foll prec fuel l n pos app) := by
  induction fuel with
  | zero => intro l n pos app hl _ _; exact ⟨.refl hl, by simp⟩
  | succ fuel ih =>
    intro l n pos app hl hn hpos
    unfold insertChain
    split
    · rename_i h; exact ⟨.refl hl, fun _ => h⟩
    · rename_i hnl
      have hidx := insertIdx_ok foll prec l n pos app hpos
      have h1 : InsOk K l (l.insertIdx (if app then insertPos foll prec l n pos + 1 else insertPos foll prec l n pos) n) ∧
          n ∈ l.insertIdx (if app then insertPos foll prec l n pos + 1 else insertPos foll prec l n pos) n :=
        ⟨⟨nodup_insertIdx hidx hl hnl, fun x hx => (mem_insertIdx' hidx).2 (.inr hx), fun x hx => by
          rcases (mem_insertIdx' hidx).1 hx with rfl | hx
          · exact .inr hn
          · exact .inl hx⟩, (mem_insertIdx' hidx).2 (.inl rfl)⟩
      have step : ∀ (app : Bool) (fs : List Name) (l0 l1 : List Name), (∀ y ∈ fs, K y) → InsOk K l0 l1 → n ∈ l1 →
          InsOk K l0 (fs.foldl (fun l f => insertChain foll prec fuel l f (l.idxOf n) app) l1) ∧
          n ∈ fs.foldl (fun l f => insertChain foll prec fuel l f (l.idxOf n) app) l1 := by
        intro app fs
        induction fs with
        | nil => intro l0 l1 _ h hn; exact ⟨h, hn⟩
        | cons f t iht =>
          intro l0 l1 hk h hn
          simp only [List.foldl_cons]
          have hlt := List.idxOf_lt_length_of_mem hn
          have := ih l1 f (l1.idxOf n) app h.nodup (hk f (by simp)) (by
            cases app <;> simp <;> omega)
          exact iht l0 _ (fun y hy => hk y (by simp [hy])) (h.trans this.1) (this.1.sub n hn)
      have h2 := step true (foll n) l _ (hf n) h1.1 h1.2
      have h3 := step false (prec n) l _ (hp n) h2.1 h2.2
      exact ⟨h3.1, fun _ => h3.2⟩

/-- The computed order is a duplicate-free enumeration of the keys. -/
theorem orderAll_ok (foll prec : Name → List Name) (keys : List Name) (fuel : Nat) (hfuel : 0 < fuel)
    (hf : ∀ x, ∀ y ∈ foll x, y ∈ keys) (hp : ∀ x, ∀ y ∈ prec x, y ∈ keys) :
    (orderAll foll prec fuel keys).Nodup ∧ ∀ x, x ∈ orderAll foll prec fuel keys ↔ x ∈ keys := by
  unfold orderAll
  have gen : ∀ (ks l : List Name), (∀ k ∈ ks, k ∈ keys) → l.Nodup →
      InsOk (· ∈ keys) l (ks.foldl (fun l k => if k ∈ l then l else insertChain foll prec fuel l k l.length false) l) ∧
      ∀ k ∈ ks, k ∈ ks.foldl (fun l k => if k ∈ l then l else insertChain foll prec fuel l k l.length false) l := by
    intro ks
    induction ks with
    | nil => intro l _ hl; exact ⟨.refl hl, by simp⟩
    | cons k t ih =>
      intro l hk hl
      simp only [List.foldl_cons]
      have h1 : InsOk (· ∈ keys) l (if k ∈ l then l else insertChain foll prec fuel l k l.length false) ∧
          k ∈ (if k ∈ l then l else insertChain foll prec fuel l k l.length false) := by
        split
        · rename_i h; exact ⟨.refl hl, h⟩
        · have := insertChain_ok foll prec (· ∈ keys) hf hp fuel l k l.length false hl (hk k (by simp)) (by simp)
          exact ⟨this.1, this.2 hfuel⟩
      have h2 := ih _ (fun x hx => hk x (by simp [hx])) h1.1.nodup
      refine ⟨h1.1.trans h2.1, ?_⟩
      intro x hx
      rcases List.mem_cons.1 hx with rfl | hx
      · exact h2.1.sub _ h1.2
      · exact h2.2 x hx
  obtain ⟨a, b⟩ := gen keys [] (fun _ h => h) (by simp)
  refine ⟨a.nodup, fun x => ⟨fun hx => ?_, b x⟩⟩
  rcases a.new x hx with h | h
  · simp at h
  · exact h

/-! ## Fuel is enough -/

/-- Names of `K` not yet in the list. -/
def rem (K l : List Name) : Nat := (K.filter (fun x => decide (x ∉ l))).length

theorem rem_mono {K l l' : List Name} (h : ∀ x ∈ l, x ∈ l') : rem K l' ≤ rem K l := by
  unfold rem
  apply List.Sublist.length_le
  apply List.monotone_filter_right
  intro x hx
  simp only [decide_eq_true_eq] at hx ⊢
  exact fun hl => hx (h x hl)

theorem rem_lt {K l l' : List Name} {n : Name} (h : ∀ x ∈ l, x ∈ l') (hn : n ∈ K) (h1 : n ∉ l) (h2 : n ∈ l') :
    rem K l' < rem K l := by
  unfold rem
  have hs : (K.filter (fun x => decide (x ∉ l'))).Sublist (K.filter (fun x => decide (x ∉ l))) := by
    apply List.monotone_filter_right
    intro x hx
    simp only [decide_eq_true_eq] at hx ⊢
    exact fun hl => hx (h x hl)
  rcases hs.length_le.lt_or_eq with h | h
  · exact h
  · exfalso
    have := hs.eq_of_length h
    have hm : n ∈ K.filter (fun x => decide (x ∉ l)) := by simp [hn, h1]
    rw [← this] at hm
    simp [h2] at hm

theorem rem_le (K l : List Name) : rem K l ≤ K.length := List.length_filter_le _ _

/-- Deeper fuel does not change the result: the recursion depth is bounded by the number of names that
are not yet in the list. -/
theorem insertChain_fuel (foll prec : Name → List Name) (keys : List Name)
    (hf : ∀ x, ∀ y ∈ foll x, y ∈ keys) (hp : ∀ x, ∀ y ∈ prec x, y ∈ keys) (fuel : Nat) :
    ∀ (fuel' : Nat) (l : List Name) (n : Name) (pos : Nat) (app : Bool), l.Nodup → n ∈ keys →
      (if app then pos < l.length else pos ≤ l.length) → rem keys l < fuel → fuel ≤ fuel' →
      insertChain foll prec fuel' l n pos app = insertChain foll prec fuel l n pos app := by
  induction fuel with
  | zero => intro _ _ _ _ _ _ _ _ h _; omega
  | succ fuel ih =>
    intro fuel' l n pos app hl hn hpos hr hle
    obtain ⟨fuel', rfl⟩ : ∃ k, fuel' = k + 1 := ⟨fuel' - 1, by omega⟩
    unfold insertChain
    split
    · rfl
    · rename_i hnl
      have hidx := insertIdx_ok foll prec l n pos app hpos
      set l1 := l.insertIdx (if app then insertPos foll prec l n pos + 1 else insertPos foll prec l n pos) n with hl1
      have m1 : n ∈ l1 := (mem_insertIdx' hidx).2 (.inl rfl)
      have nd1 : l1.Nodup := nodup_insertIdx hidx hl hnl
      have r1 : rem keys l1 < rem keys l :=
        rem_lt (fun x hx => (mem_insertIdx' hidx).2 (.inr hx)) hn hnl m1
      have step : ∀ (app : Bool) (fs : List Name) (l1 : List Name), (∀ y ∈ fs, y ∈ keys) → l1.Nodup → n ∈ l1 →
          rem keys l1 < rem keys l →
          fs.foldl (fun l f => insertChain foll prec fuel' l f (l.idxOf n) app) l1 =
          fs.foldl (fun l f => insertChain foll prec fuel l f (l.idxOf n) app) l1 := by
        intro app fs
        induction fs with
        | nil => intros; rfl
        | cons f t iht =>
          intro l1 hk nd hn1 hr1
          simp only [List.foldl_cons]
          have hlt := List.idxOf_lt_length_of_mem hn1
          have hpos : (if app then l1.idxOf n < l1.length else l1.idxOf n ≤ l1.length) := by
            cases app <;> simp <;> omega
          rw [ih fuel' l1 f (l1.idxOf n) app nd (hk f (by simp)) hpos (by omega) (by omega)]
          have ok := (insertChain_ok foll prec (· ∈ keys) hf hp fuel l1 f (l1.idxOf n) app nd (hk f (by simp)) hpos).1
          exact iht _ (fun y hy => hk y (by simp [hy])) ok.nodup (ok.sub n hn1)
            ((rem_mono ok.sub).trans_lt hr1)
      have inv : ∀ (app : Bool) (fs : List Name) (l1 : List Name), (∀ y ∈ fs, y ∈ keys) → l1.Nodup → n ∈ l1 →
          InsOk (· ∈ keys) l1 (fs.foldl (fun l f => insertChain foll prec fuel l f (l.idxOf n) app) l1) := by
        intro app fs
        induction fs with
        | nil => intro l1 _ nd _; exact .refl nd
        | cons f t iht =>
          intro l1 hk nd hn1
          simp only [List.foldl_cons]
          have hlt := List.idxOf_lt_length_of_mem hn1
          have hpos : (if app then l1.idxOf n < l1.length else l1.idxOf n ≤ l1.length) := by
            cases app <;> simp <;> omega
          have ok := (insertChain_ok foll prec (· ∈ keys) hf hp fuel l1 f (l1.idxOf n) app nd (hk f (by simp)) hpos).1
          exact ok.trans (iht _ (fun y hy => hk y (by simp [hy])) ok.nodup (ok.sub n hn1))
      show (prec n).foldl _ ((foll n).foldl _ l1) = (prec n).foldl _ ((foll n).foldl _ l1)
      rw [step true (foll n) l1 (hf n) nd1 m1 r1]
      have i2 := inv true (foll n) l1 (hf n) nd1 m1
      exact step false (prec n) _ (hp n) i2.nodup (i2.sub n m1) ((rem_mono i2.sub).trans_lt r1)

/-! ## Chain groups -/

section
variable (foll prec : Name → List Name) (keys : List Name)

/-- Everything `fullChain` collects is connected to the start or was collected before. -/
theorem fullChain_sound (fuel : Nat) : ∀ (n : Name) (acc : List Name) (x : Name),
    x ∈ fullChain foll prec keys fuel n acc → x ∈ acc ∨ Relation.ReflTransGen (Adj foll prec) n x := by
  induction fuel with
  | zero => intro n acc x h; exact .inl h
  | succ fuel ih =>
    intro n acc x h
    unfold fullChain at h
    split at h
    · have step : ∀ (fs : List Name) (a : List Name), (∀ f ∈ fs, Adj foll prec n f) →
          x ∈ fs.foldl (fun acc f => if f ∈ acc then acc else fullChain foll prec keys fuel f acc) a →
          x ∈ a ∨ Relation.ReflTransGen (Adj foll prec) n x := by
        intro fs
        induction fs with
        | nil => intro a _ h; exact .inl h
        | cons f t iht =>
          intro a hadj h
          simp only [List.foldl_cons] at h
          rcases iht _ (fun y hy => hadj y (by simp [hy])) h with h | h
          · split at h
            · exact .inl h
            · rcases ih f a x h with h | h
              · exact .inl h
              · exact .inr (.head (hadj f (by simp)) h)
          · exact .inr h
      rcases step (prec n) _ (fun f hf => .inr hf) h with h | h
      · rcases step (foll n) _ (fun f hf => .inl hf) h with h | h
        · rcases mem_addItem.1 h with h | rfl
          · exact .inl h
          · exact .inr .refl
        · exact .inr h
      · exact .inr h
    · exact .inl h

/-- Invariant of the depth-first search. -/
structure DfsOk (A R : List Name) : Prop where
  sub : ∀ x ∈ A, x ∈ R
  keys : (∀ x ∈ A, x ∈ keys) → ∀ x ∈ R, x ∈ keys
  closed : ∀ x ∈ R, x ∉ A → ∀ y, Adj foll prec x y → y ∈ R
  nodup : A.Nodup → R.Nodup

theorem DfsOk.refl (A : List Name) : DfsOk foll prec keys A A :=
  ⟨fun _ h => h, fun h => h, fun _ h h' => absurd h h', id⟩

variable {foll prec keys}

theorem DfsOk.trans {A B C : List Name} (h : DfsOk foll prec keys A B) (k : DfsOk foll prec keys B C) :
    DfsOk foll prec keys A C :=
  ⟨fun x hx => k.sub x (h.sub x hx), fun hA => k.keys (h.keys hA), fun x hx hA y hy => by
    by_cases hB : x ∈ B
    · exact k.sub y (h.closed x hB hA y hy)
    · exact k.closed x hx hB y hy, fun hA => k.nodup (h.nodup hA)⟩

theorem fullChain_complete (hf : ∀ x, ∀ y ∈ foll x, y ∈ keys) (hp : ∀ x, ∀ y ∈ prec x, y ∈ keys) (fuel : Nat) :
    ∀ (n : Name) (acc : List Name), n ∈ keys → rem keys (addItem acc n) < fuel →
      DfsOk foll prec keys (addItem acc n) (fullChain foll prec keys fuel n acc) ∧
      ∀ y, Adj foll prec n y → y ∈ fullChain foll prec keys fuel n acc := by
  induction fuel with
  | zero => intro _ _ _ h; omega
  | succ fuel ih =>
    intro n acc hn hr
    unfold fullChain
    rw [if_pos hn]
    have step : ∀ (fs : List Name) (a : List Name), (∀ f ∈ fs, f ∈ keys) → (∀ x ∈ addItem acc n, x ∈ a) →
        DfsOk foll prec keys a (fs.foldl (fun acc f => if f ∈ acc then acc else fullChain foll prec keys fuel f acc) a) ∧
        ∀ f ∈ fs, f ∈ fs.foldl (fun acc f => if f ∈ acc then acc else fullChain foll prec keys fuel f acc) a := by
      intro fs
      induction fs with
      | nil => intro a _ _; exact ⟨.refl _ _ _ a, by simp⟩
      | cons f t iht =>
        intro a hk hsub
        simp only [List.foldl_cons]
        have h1 : DfsOk foll prec keys a (if f ∈ a then a else fullChain foll prec keys fuel f a) ∧
            f ∈ (if f ∈ a then a else fullChain foll prec keys fuel f a) := by
          split
          · rename_i h; exact ⟨.refl _ _ _ a, h⟩
          · rename_i hfa
            have hlt : rem keys (addItem a f) < rem keys a :=
              rem_lt (fun x hx => mem_addItem.2 (.inl hx)) (hk f (by simp)) hfa (mem_addItem.2 (.inr rfl))
            have hmono := rem_mono (K := keys) hsub
            obtain ⟨d, e⟩ := ih f a (hk f (by simp)) (by omega)
            refine ⟨⟨fun x hx => d.sub x (mem_addItem.2 (.inl hx)), fun hA => d.keys (fun x hx => ?_), ?_, fun hA => d.nodup (nodup_addItem hA)⟩,
              d.sub f (mem_addItem.2 (.inr rfl))⟩
            · rcases mem_addItem.1 hx with hx | rfl
              · exact hA x hx
              · exact hk _ (by simp)
            · intro x hx hxa y hy
              by_cases hxf : x = f
              · subst hxf; exact e y hy
              · exact d.closed x hx (by simp [hxa, hxf]) y hy
        have h2 := iht _ (fun y hy => hk y (by simp [hy])) (fun x hx => h1.1.sub x (hsub x hx))
        refine ⟨h1.1.trans h2.1, ?_⟩
        intro x hx
        rcases List.mem_cons.1 hx with rfl | hx
        · exact h2.1.sub _ h1.2
        · exact h2.2 x hx
    obtain ⟨a1, b1⟩ := step (foll n) (addItem acc n) (hf n) (fun _ h => h)
    obtain ⟨a2, b2⟩ := step (prec n) _ (hp n) a1.sub
    refine ⟨a1.trans a2, ?_⟩
    intro y hy
    rcases hy with hy | hy
    · exact a2.sub y (b1 y hy)
    · exact b2 y hy

/-- The chain group of `n` is the set of controllers connected to `n` by chain links. -/
theorem mem_group (hf : ∀ x, ∀ y ∈ foll x, y ∈ keys) (hp : ∀ x, ∀ y ∈ prec x, y ∈ keys) {n : Name}
    (hn : n ∈ keys) (x : Name) :
    x ∈ group foll prec keys n ↔ Relation.ReflTransGen (Adj foll prec) n x := by
  have e : addItem [] n = [n] := by simp [addItem]
  have hr : rem keys (addItem [n] n) < keys.length + 1 := Nat.lt_succ_of_le (rem_le _ _)
  obtain ⟨d, c⟩ := fullChain_complete hf hp (keys.length + 1) n [n] hn hr
  have e2 : addItem [n] n = [n] := by simp [addItem]
  rw [e2] at d
  constructor
  · intro h
    unfold group at h
    rw [e] at h
    rcases fullChain_sound foll prec keys _ n [n] x h with h | h
    · simp at h; subst h; exact .refl
    · exact h
  · intro h
    unfold group
    rw [e]
    induction h with
    | refl => exact d.sub n (by simp)
    | tail _ hbc ih =>
      rename_i b c' _
      by_cases hb : b = n
      · subst hb; exact c _ hbc
      · exact d.closed b ih (by simp [hb]) _ hbc

theorem group_nodup (hf : ∀ x, ∀ y ∈ foll x, y ∈ keys) (hp : ∀ x, ∀ y ∈ prec x, y ∈ keys) {n : Name}
    (hn : n ∈ keys) : (group foll prec keys n).Nodup := by
  have e : addItem [] n = [n] := by simp [addItem]
  have e2 : addItem [n] n = [n] := by simp [addItem]
  have hr : rem keys (addItem [n] n) < keys.length + 1 := Nat.lt_succ_of_le (rem_le _ _)
  obtain ⟨d, c⟩ := fullChain_complete hf hp (keys.length + 1) n [n] hn hr
  rw [e2] at d
  unfold group; rw [e]; exact d.nodup (by simp)

end

end Chain
end Verif
