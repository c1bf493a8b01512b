import Verif.Pub.Store
/-!
# C83: the published values are those of the existing interfaces

At every publication each registered function reads an interface through a raw pointer. A user relies on all of them existing, and on
each interface with a numeric value being published exactly once. Removing the interfaces of a controller never meets a missing one.

It is false: when a robot description cannot be loaded, the interfaces of the components that could are destroyed but stay registered; the
controller manager goes on, and waits for another description.
-/
namespace Verif
namespace Pub

/-- The object is a stored interface. -/
def Lives (s : Store) (obj : Nat) : Prop := ∃ k h, s.at_ k = some h ∧ h.obj = obj

/-- What is published is exactly what there is: each registered function reads the stored interface of its name, which can be
published and is a command interface if it is the flag that is read; the value of each stored interface that can be published is registered exactly once, and for a command interface its flag too; nothing has crashed. -/
structure AllThere (s : Store) : Prop where
  valid : ∀ e ∈ s.regs, (∃ h, s.at_ e.var.itf = some h ∧ h.obj = e.obj ∧ h.pub = true) ∧ (e.var.lim = true → e.var.itf.cmd = true)
  value : ∀ k h, s.at_ k = some h → h.pub = true → s.regs.filter (fun e => e.var = ⟨k, false⟩) = [⟨⟨k, false⟩, h.obj⟩]
  limited : ∀ n h, s.at_ ⟨true, n⟩ = some h → h.pub = true →
    s.regs.filter (fun e => e.var = ⟨⟨true, n⟩, true⟩) = [⟨⟨⟨true, n⟩, true⟩, h.obj⟩]
  whole : s.crashed = false

/-- The full property. -/
def FullC83 : Prop := ∀ (all : Bool) (l : List StoreOp), AllThere (storeRun all l)

/-! ## Lemmas -/

/-- What every elementary change keeps is kept. -/
theorem step_keeps {all : Bool} (P : Store → Prop) (hadd : ∀ s k pub, P s → P (add s k pub).1) (hdrop : ∀ s k, P s → P (drop all s k))
    (hexp : ∀ s e, P s → P { s with exp := e }) (op : StoreOp) (hclear : (∃ cs, op = .load cs false) → ∀ s, P s → P (clear s))
    {s : Store} (h : P s) : P (storeStep all s op) := by
  have states : ∀ l s, P s → P (addStates s l).1 := by
    intro l
    induction l with
    | nil => intro s h; exact h
    | cons x t ih => intro s h; exact ih _ (hadd _ _ _ h)
  have cmds : ∀ l s, P s → P (addCmds s l).1 := by
    intro l
    induction l with
    | nil => intro s h; exact h
    | cons x t ih =>
      intro s h
      show P (if (add s ⟨true, x.1⟩ x.2).2 then _ else _ : Store × Option (List Name)).1
      split
      · exact ih _ (hadd _ _ _ h)
      · exact hadd _ _ _ h
  have comps : ∀ (cs : List (List (Name × Bool) × List (Name × Bool))) s, P s → P (cs.foldl importComp s) := by
    intro cs
    induction cs with
    | nil => intro s h; exact h
    | cons c t ih => intro s h; exact ih _ (cmds _ _ (states _ _ h))
  have drops : ∀ b l s, P s → P (dropAll all b s l) := by
    intro b l
    induction l with
    | nil => intro s h; exact h
    | cons n t ih => intro s h; exact ih _ (hdrop _ _ h)
  have rem : ∀ b c s, P s → P (removeExp all b s c) := by
    intro b c s h
    unfold removeExp
    split
    · exact h
    · exact drops _ _ _ (hexp _ _ h)
  unfold storeStep
  split
  · exact h
  · cases op with
    | load cs ok =>
      cases ok with
      | true => exact comps cs s h
      | false => exact hclear ⟨cs, rfl⟩ _ (comps cs s h)
    | importStates c l => exact hexp _ _ (states l s h)
    | importRefs c l =>
      show P (match (addCmds s l).2 with | none => _ | some names => _)
      split
      · exact cmds l s h
      · exact hexp _ _ (cmds l s h)
    | removeStates c => exact rem _ _ _ h
    | removeRefs c => exact rem _ _ _ h

theorem add_at (s : Store) (k : IKey) (pub : Bool) :
    ((add s k pub).2 = false ∧ (s.at_ k).isSome ∧ (add s k pub).1 = { s with next := s.next + 1 }) ∨
    ((add s k pub).2 = true ∧ s.at_ k = none ∧ (add s k pub).1 = { s with
      at_ := upd s.at_ k (some ⟨s.next, pub⟩), regs := if pub then s.regs ++ regsOf k s.next else s.regs, next := s.next + 1 }) := by
  unfold add
  split
  · rename_i h; exact .inl ⟨rfl, h, rfl⟩
  · rename_i h; exact .inr ⟨rfl, by simpa using h, rfl⟩

/-- Objects are not shared, and nothing that should be published is missing. -/
structure Sane (s : Store) : Prop where
  lt : ∀ k h, s.at_ k = some h → h.obj < s.next
  elt : ∀ e ∈ s.regs, e.obj < s.next
  inj : ∀ k k' h h', s.at_ k = some h → s.at_ k' = some h' → h.obj = h'.obj → k = k'
  reg : ∀ k h, s.at_ k = some h → h.pub = true → ∀ v, k.has v → (⟨v, h.obj⟩ : Reg) ∈ s.regs

theorem Sane.step {all : Bool} {s : Store} (h : Sane s) (op : StoreOp) : Sane (storeStep all s op) := by
  refine step_keeps Sane ?_ ?_ (fun s e h => ⟨h.lt, h.elt, h.inj, h.reg⟩) op
    (fun _ s h => ⟨by simp [clear], h.elt, by simp [clear], by simp [clear]⟩) h
  · intro s k pub h
    rcases add_at s k pub with ⟨-, -, e⟩ | ⟨-, e0, e⟩
    · rw [e]
      exact ⟨fun k x hx => Nat.lt_succ_of_lt (h.lt k x hx), fun x hx => Nat.lt_succ_of_lt (h.elt x hx), h.inj, h.reg⟩
    · rw [e]
      have sub : ∀ x ∈ s.regs, x ∈ (if pub then s.regs ++ regsOf k s.next else s.regs) := by
        intro x hx; split
        · exact List.mem_append_left _ hx
        · exact hx
      refine ⟨?_, ?_, ?_, ?_⟩
      · intro k' x hx
        have hx : upd s.at_ k (some ⟨s.next, pub⟩) k' = some x := hx
        rw [upd_apply] at hx
        by_cases hk : k' = k
        · rw [if_pos hk] at hx; cases hx; exact Nat.lt_succ_self _
        · rw [if_neg hk] at hx; exact Nat.lt_succ_of_lt (h.lt _ _ hx)
      · intro x hx
        have hx : x ∈ (if pub then s.regs ++ regsOf k s.next else s.regs) := hx
        split at hx
        · rcases mem_append_regsOf.1 hx with h1 | ⟨-, h1⟩
          · exact Nat.lt_succ_of_lt (h.elt x h1)
          · exact h1 ▸ Nat.lt_succ_self _
        · exact Nat.lt_succ_of_lt (h.elt x hx)
      · intro k1 k2 h1 h2 a1 a2 ho
        have a1 : upd s.at_ k (some ⟨s.next, pub⟩) k1 = some h1 := a1
        have a2 : upd s.at_ k (some ⟨s.next, pub⟩) k2 = some h2 := a2
        rw [upd_apply] at a1 a2
        by_cases e1 : k1 = k
        · by_cases e2 : k2 = k
          · rw [e1, e2]
          · rw [if_pos e1] at a1; rw [if_neg e2] at a2
            cases a1
            have h3 : s.next = h2.obj := ho
            have := h.lt _ _ a2
            omega
        · rw [if_neg e1] at a1
          by_cases e2 : k2 = k
          · rw [if_pos e2] at a2
            cases a2
            have h3 : h1.obj = s.next := ho
            have := h.lt _ _ a1
            omega
          · rw [if_neg e2] at a2
            exact h.inj _ _ _ _ a1 a2 ho
      · intro k1 h1 a1 hp v hv
        have a1 : upd s.at_ k (some ⟨s.next, pub⟩) k1 = some h1 := a1
        rw [upd_apply] at a1
        show _ ∈ (if pub then s.regs ++ regsOf k s.next else s.regs)
        by_cases e1 : k1 = k
        · rw [if_pos e1] at a1
          cases a1
          have hp : pub = true := hp
          rw [if_pos hp]
          subst e1
          exact mem_append_regsOf.2 (.inr ⟨hv, rfl⟩)
        · rw [if_neg e1] at a1
          exact sub _ (h.reg k1 h1 a1 hp v hv)
  · intro s k h
    unfold drop
    split
    · exact ⟨h.lt, h.elt, h.inj, h.reg⟩
    rename_i x hx
    have back : ∀ {k' y}, upd s.at_ k none k' = some y → k' ≠ k ∧ s.at_ k' = some y := by
      intro k' y hy
      rw [upd_apply] at hy
      by_cases e : k' = k
      · rw [if_pos e] at hy; cases hy
      · rw [if_neg e] at hy; exact ⟨e, hy⟩
    refine ⟨fun k' y hy => h.lt _ _ (back hy).2, fun e he => ?_, fun k1 k2 h1 h2 a1 a2 => h.inj _ _ _ _ (back a1).2 (back a2).2,
      fun k1 h1 a1 hp v hv => ?_⟩
    · have he : e ∈ (if x.pub then unregs all k s.regs else s.regs) := he
      split at he
      · exact h.elt e (mem_of_unregs he)
      · exact h.elt e he
    · have hm := h.reg k1 h1 (back a1).2 hp v hv
      show _ ∈ (if x.pub then unregs all k s.regs else s.regs)
      split
      · refine (mem_unregs_other ?_).2 hm
        rintro ⟨e1, -⟩
        exact (back a1).1 (hv.1.symm.trans e1)
      · exact hm

theorem Sane.run (all : Bool) (l : List StoreOp) : Sane (storeRun all l) :=
  foldl_inv Sane _ l _ ⟨by simp [Store.empty], by simp [Store.empty], by simp [Store.empty], by simp [Store.empty]⟩ (fun _ op _ h => h.step op)

/-- Exactly what is stored is registered. -/
def Fits (s : Store) : Prop := ∀ v, (regsAt v s.regs).map (·.obj) =
  match s.at_ v.itf with
  | none => []
  | some h => if h.pub = true ∧ v.itf.has v then [h.obj] else []

theorem Fits.step {all : Bool} {s : Store} (h : Fits s) (op : StoreOp) (hop : ∀ cs, op ≠ .load cs false) : Fits (storeStep all s op) := by
  refine step_keeps Fits ?_ ?_ (fun s e h => h) op (fun ⟨cs, e⟩ => absurd e (hop cs)) h
  · intro s k pub h
    rcases add_at s k pub with ⟨-, -, e⟩ | ⟨-, e0, e⟩
    · rw [e]; exact h
    · rw [e]
      intro v
      show (regsAt v (if pub then s.regs ++ regsOf k s.next else s.regs)).map _ = match upd s.at_ k (some ⟨s.next, pub⟩) v.itf with
        | none => [] | some h => if h.pub = true ∧ v.itf.has v then [h.obj] else []
      have hv := h v
      rw [upd_apply]
      by_cases hk : v.itf = k
      · rw [if_pos hk]
        rw [hk, e0] at hv
        simp only at hv
        cases pub with
        | false => simpa using hv
        | true =>
          simp only [if_true, true_and]
          have : regsAt v (s.regs ++ regsOf k s.next) = regsAt v s.regs ++ regsAt v (regsOf k s.next) := by simp [regsAt]
          rw [this, List.map_append, hv, regsAt_regsOf, List.nil_append, hk]
          split <;> rfl
      · rw [if_neg hk, ← hv]
        cases pub with
        | false => rfl
        | true =>
          simp only [if_true]
          have : regsAt v (s.regs ++ regsOf k s.next) = regsAt v s.regs ++ regsAt v (regsOf k s.next) := by simp [regsAt]
          rw [this, regsAt_regsOf, if_neg (fun hh => hk hh.1), List.append_nil]
  · intro s k h
    unfold drop
    split
    · exact h
    rename_i x hx
    intro v
    show (regsAt v (if x.pub then unregs all k s.regs else s.regs)).map _ = match upd s.at_ k none v.itf with
      | none => [] | some h => if h.pub = true ∧ v.itf.has v then [h.obj] else []
    have hv := h v
    rw [upd_apply]
    by_cases hk : v.itf = k
    · rw [if_pos hk]
      rw [hk, hx] at hv
      simp only at hv ⊢
      cases hp : x.pub with
      | false => rw [hp] at hv; simpa using hv
      | true =>
        rw [hp] at hv
        simp only [true_and] at hv
        rw [if_pos rfl, regsAt_unregs]
        by_cases hh : k.has v
        · rw [if_pos hh] at hv ⊢
          split
          · rfl
          · rw [List.map_tail, hv]; rfl
        · rw [if_neg hh] at hv ⊢
          exact hv
    · rw [if_neg hk, ← hv]
      split
      · rw [regsAt_unregs, if_neg (fun hh => hk hh.1)]
      · rfl

/-! ## Names of exported interfaces -/

theorem addStates_spec (l : List (Name × Bool)) : ∀ s : Store,
    (addStates s l).1.exp = s.exp ∧ (addStates s l).1.crashed = s.crashed ∧
    (∀ k, (s.at_ k).isSome → ((addStates s l).1.at_ k).isSome) ∧
    (∀ n ∈ (addStates s l).2, s.at_ ⟨false, n⟩ = none ∧ ((addStates s l).1.at_ ⟨false, n⟩).isSome) ∧ (addStates s l).2.Nodup := by
  induction l with
  | nil => intro s; exact ⟨rfl, rfl, fun _ h => h, by simp [addStates], by simp [addStates]⟩
  | cons x t ih =>
    intro s
    obtain ⟨i1, i2, i3, i4, i5⟩ := ih (add s ⟨false, x.1⟩ x.2).1
    have e : addStates s (x :: t) = ((addStates (add s ⟨false, x.1⟩ x.2).1 t).1,
      if (add s ⟨false, x.1⟩ x.2).2 then x.1 :: (addStates (add s ⟨false, x.1⟩ x.2).1 t).2 else (addStates (add s ⟨false, x.1⟩ x.2).1 t).2) := rfl
    rw [e]
    rcases add_at s ⟨false, x.1⟩ x.2 with ⟨a1, a2, a3⟩ | ⟨a1, a2, a3⟩
    · rw [a1]
      rw [a3] at i1 i2 i3 i4 i5 ⊢
      exact ⟨i1, i2, i3, i4, i5⟩
    · rw [a1]
      have hup : ∀ k, (s.at_ k).isSome → ((add s ⟨false, x.1⟩ x.2).1.at_ k).isSome := by
        intro k hk
        rw [a3]
        show (upd s.at_ _ _ k).isSome
        rw [upd_apply]; split
        · rfl
        · exact hk
      have hx : ((add s ⟨false, x.1⟩ x.2).1.at_ ⟨false, x.1⟩).isSome := by rw [a3]; simp
      refine ⟨by rw [i1, a3], by rw [i2, a3], fun k hk => i3 k (hup k hk), ?_, ?_⟩
      · intro n hn
        simp only [if_true, List.mem_cons] at hn
        rcases hn with rfl | hn
        · exact ⟨a2, i3 _ hx⟩
        · refine ⟨?_, (i4 n hn).2⟩
          cases hs : s.at_ ⟨false, n⟩ with
          | none => rfl
          | some y =>
            have := hup ⟨false, n⟩ (by rw [hs]; rfl)
            rw [(i4 n hn).1] at this; cases this
      · simp only [if_true, List.nodup_cons]
        refine ⟨fun hm => ?_, i5⟩
        rw [(i4 _ hm).1] at hx; cases hx

theorem addCmds_spec (l : List (Name × Bool)) : ∀ s : Store,
    (addCmds s l).1.exp = s.exp ∧ (addCmds s l).1.crashed = s.crashed ∧
    (∀ k, (s.at_ k).isSome → ((addCmds s l).1.at_ k).isSome) ∧
    (∀ r, (addCmds s l).2 = some r → (∀ n ∈ r, s.at_ ⟨true, n⟩ = none ∧ ((addCmds s l).1.at_ ⟨true, n⟩).isSome) ∧ r.Nodup) := by
  induction l with
  | nil => intro s; exact ⟨rfl, rfl, fun _ h => h, fun r hr => by cases hr; simp⟩
  | cons x t ih =>
    intro s
    obtain ⟨i1, i2, i3, i4⟩ := ih (add s ⟨true, x.1⟩ x.2).1
    have e : addCmds s (x :: t) = if (add s ⟨true, x.1⟩ x.2).2 then
      ((addCmds (add s ⟨true, x.1⟩ x.2).1 t).1, (addCmds (add s ⟨true, x.1⟩ x.2).1 t).2.map (x.1 :: ·)) else ((add s ⟨true, x.1⟩ x.2).1, none) := rfl
    rw [e]
    rcases add_at s ⟨true, x.1⟩ x.2 with ⟨a1, a2, a3⟩ | ⟨a1, a2, a3⟩
    · rw [a1, a3]
      exact ⟨rfl, rfl, fun _ h => h, fun r hr => by cases hr⟩
    · rw [a1]
      have hup : ∀ k, (s.at_ k).isSome → ((add s ⟨true, x.1⟩ x.2).1.at_ k).isSome := by
        intro k hk
        rw [a3]
        show (upd s.at_ _ _ k).isSome
        rw [upd_apply]; split
        · rfl
        · exact hk
      have hx : ((add s ⟨true, x.1⟩ x.2).1.at_ ⟨true, x.1⟩).isSome := by rw [a3]; simp
      refine ⟨by rw [if_pos rfl, i1, a3], by rw [if_pos rfl, i2, a3], fun k hk => i3 k (hup k hk), fun r hr => ?_⟩
      simp only [if_true] at hr ⊢
      cases hq : (addCmds (add s ⟨true, x.1⟩ x.2).1 t).2 with
      | none => rw [hq] at hr; cases hr
      | some q =>
        rw [hq] at hr
        cases hr
        obtain ⟨j1, j2⟩ := i4 q hq
        refine ⟨fun n hn => ?_, ?_⟩
        · simp only [List.mem_cons] at hn
          rcases hn with rfl | hn
          · exact ⟨a2, i3 _ hx⟩
          · refine ⟨?_, (j1 n hn).2⟩
            cases hs : s.at_ ⟨true, n⟩ with
            | none => rfl
            | some y =>
              have := hup ⟨true, n⟩ (by rw [hs]; rfl)
              rw [(j1 n hn).1] at this; cases this
        · simp only [List.nodup_cons]
          refine ⟨fun hm => ?_, j2⟩
          rw [(j1 _ hm).1] at hx; cases hx

/-- The exported interfaces of the controllers are stored, and no two controllers export the same. -/
structure Known (s : Store) : Prop where
  whole : s.crashed = false
  here : ∀ b c l, s.exp b c = some l → l.Nodup ∧ ∀ n ∈ l, (s.at_ ⟨b, n⟩).isSome
  apart : ∀ b c d l m n, s.exp b c = some l → s.exp b d = some m → n ∈ l → n ∈ m → c = d

theorem Known.grow {s : Store} (h : Known s) (t : Store) (he : t.exp = s.exp) (hc : t.crashed = s.crashed)
    (hu : ∀ k, (s.at_ k).isSome → (t.at_ k).isSome) : Known t :=
  ⟨hc.trans h.whole, fun b c l hl => by
      rw [he] at hl
      exact ⟨(h.here b c l hl).1, fun n hn => hu _ ((h.here b c l hl).2 n hn)⟩,
    fun b c d l m n h1 h2 => by rw [he] at h1 h2; exact h.apart b c d l m n h1 h2⟩

theorem Known.export {s : Store} (h : Known s) (t : Store) (b : Bool) (c : Name) (r : List Name)
    (he : t.exp = upd s.exp b (upd (s.exp b) c (some r))) (hc : t.crashed = s.crashed)
    (hu : ∀ k, (s.at_ k).isSome → (t.at_ k).isSome) (hr : ∀ n ∈ r, s.at_ ⟨b, n⟩ = none ∧ (t.at_ ⟨b, n⟩).isSome) (hd : r.Nodup) : Known t := by
  have look : ∀ b' c' l, t.exp b' c' = some l → (b' = b ∧ c' = c ∧ l = r) ∨ (¬ (b' = b ∧ c' = c) ∧ s.exp b' c' = some l) := by
    intro b' c' l hl
    rw [he, upd_apply] at hl
    by_cases hb : b' = b
    · rw [if_pos hb, upd_apply] at hl
      by_cases hcc : c' = c
      · rw [if_pos hcc] at hl; exact .inl ⟨hb, hcc, (Option.some.inj hl).symm⟩
      · rw [if_neg hcc] at hl; exact .inr ⟨fun x => hcc x.2, by rw [hb]; exact hl⟩
    · rw [if_neg hb] at hl; exact .inr ⟨fun x => hb x.1, hl⟩
  refine ⟨hc.trans h.whole, fun b' c' l hl => ?_, fun b' c' d l m n h1 h2 n1 n2 => ?_⟩
  · rcases look b' c' l hl with ⟨rfl, rfl, rfl⟩ | ⟨-, hs⟩
    · exact ⟨hd, fun n hn => (hr n hn).2⟩
    · exact ⟨(h.here _ _ _ hs).1, fun n hn => hu _ ((h.here _ _ _ hs).2 n hn)⟩
  · rcases look b' c' l h1 with ⟨rfl, rfl, rfl⟩ | ⟨-, hs⟩ <;> rcases look _ d m h2 with ⟨e1, rfl, rfl⟩ | ⟨-, hs'⟩
    · rfl
    · have := (h.here _ _ _ hs').2 n n2
      rw [(hr n n1).1] at this; cases this
    · subst e1
      have := (h.here _ _ _ hs).2 n n1
      rw [(hr n n2).1] at this; cases this
    · exact h.apart _ _ _ _ _ _ hs hs' n1 n2

theorem dropAll_spec {all b : Bool} (l : List Name) : ∀ s : Store, l.Nodup → (∀ n ∈ l, (s.at_ ⟨b, n⟩).isSome) →
    (dropAll all b s l).exp = s.exp ∧ (dropAll all b s l).crashed = s.crashed ∧
    (∀ k, (k.cmd = b → k.name ∉ l) → (dropAll all b s l).at_ k = s.at_ k) := by
  induction l with
  | nil => intro s _ _; exact ⟨rfl, rfl, fun _ _ => rfl⟩
  | cons n t ih =>
    intro s hd hs
    rw [List.nodup_cons] at hd
    obtain ⟨x, hx⟩ := Option.isSome_iff_exists.1 (hs n (by simp))
    have e : dropAll all b s (n :: t) = dropAll all b
        { s with at_ := upd s.at_ ⟨b, n⟩ none, regs := if x.pub then unregs all ⟨b, n⟩ s.regs else s.regs } t := by
      show dropAll all b (drop all s ⟨b, n⟩) t = _
      unfold drop
      rw [hx]
    rw [e]
    obtain ⟨i1, i2, i3⟩ := ih { s with at_ := upd s.at_ ⟨b, n⟩ none, regs := if x.pub then unregs all ⟨b, n⟩ s.regs else s.regs } hd.2 (by
      intro m hm
      show (upd s.at_ ⟨b, n⟩ none ⟨b, m⟩).isSome
      rw [upd_apply, if_neg (by intro e; cases e; exact hd.1 hm)]
      exact hs m (by simp [hm]))
    refine ⟨i1, i2, fun k hk => ?_⟩
    rw [i3 k (fun hb hm => hk hb (by simp [hm]))]
    show upd s.at_ ⟨b, n⟩ none k = _
    rw [upd_apply, if_neg (by rintro rfl; exact hk rfl (by simp))]

theorem Known.remove {all : Bool} {s : Store} (h : Known s) (b : Bool) (c : Name) : Known (removeExp all b s c) := by
  unfold removeExp
  split
  · exact h
  rename_i l hl
  obtain ⟨h1, h2⟩ := h.here b c l hl
  obtain ⟨i1, i2, i3⟩ := dropAll_spec (all := all) (b := b) l { s with exp := upd s.exp b (upd (s.exp b) c none) } h1 h2
  have look : ∀ b' c' m, upd s.exp b (upd (s.exp b) c none) b' c' = some m → ¬ (b' = b ∧ c' = c) ∧ s.exp b' c' = some m := by
    intro b' c' m hm
    rw [upd_apply] at hm
    by_cases hb : b' = b
    · rw [if_pos hb, upd_apply] at hm
      by_cases hcc : c' = c
      · rw [if_pos hcc] at hm; cases hm
      · rw [if_neg hcc] at hm; exact ⟨fun x => hcc x.2, by rw [hb]; exact hm⟩
    · rw [if_neg hb] at hm; exact ⟨fun x => hb x.1, hm⟩
  refine ⟨i2.trans h.whole, fun b' c' m hm => ?_, fun b' c' d m m' n a1 a2 n1 n2 => ?_⟩
  · rw [i1] at hm
    obtain ⟨hne, hm'⟩ := look b' c' m hm
    clear hm
    refine ⟨(h.here _ _ _ hm').1, fun n hn => ?_⟩
    rw [i3 ⟨b', n⟩ (fun hb hnl => hne ⟨hb, ?_⟩)]
    · exact (h.here _ _ _ hm').2 n hn
    · have hb : b' = b := hb
      subst hb
      exact h.apart _ _ _ _ _ n hm' hl hn hnl
  · rw [i1] at a1 a2
    exact h.apart _ _ _ _ _ n (look _ _ _ a1).2 (look _ _ _ a2).2 n1 n2

theorem Known.step {all : Bool} {s : Store} (h : Known s) (op : StoreOp) (hop : ∀ cs, op ≠ .load cs false) : Known (storeStep all s op) := by
  unfold storeStep
  rw [if_neg (by rw [h.whole]; simp)]
  cases op with
  | load cs ok =>
    cases ok with
    | false => exact absurd rfl (hop cs)
    | true =>
      show Known (cs.foldl importComp s)
      refine foldl_inv Known _ _ _ h (fun s x _ h => ?_)
      obtain ⟨a1, a2, a3, -⟩ := addStates_spec x.1 s
      obtain ⟨b1, b2, b3, -⟩ := addCmds_spec x.2 (addStates s x.1).1
      exact h.grow _ (b1.trans a1) (b2.trans a2) (fun k hk => b3 k (a3 k hk))
  | importStates c l =>
    obtain ⟨a1, a2, a3, a4, a5⟩ := addStates_spec l s
    exact h.export _ false c _ (by show upd _ _ _ = _; rw [a1]) a2 a3 a4 a5
  | importRefs c l =>
    obtain ⟨a1, a2, a3, a4⟩ := addCmds_spec l s
    show Known (match (addCmds s l).2 with | none => _ | some names => _)
    split
    · exact h.grow _ a1 a2 a3
    · rename_i names hn
      exact h.export _ true c _ (by show upd _ _ _ = _; rw [a1]) a2 a3 (a4 _ hn).1 (a4 _ hn).2
  | removeStates c => exact h.remove false c
  | removeRefs c => exact h.remove true c

/-! ## The property -/

/-- After every history, whatever failed in it, each stored interface that can be published is registered with its own object, which no
other interface shares. -/
theorem C83_registered (all : Bool) (l : List StoreOp) :
    (∀ k h, (storeRun all l).at_ k = some h → h.pub = true →
      (⟨⟨k, false⟩, h.obj⟩ : Reg) ∈ (storeRun all l).regs ∧ (k.cmd = true → (⟨⟨k, true⟩, h.obj⟩ : Reg) ∈ (storeRun all l).regs)) ∧
    (∀ k k' h h', (storeRun all l).at_ k = some h → (storeRun all l).at_ k' = some h' → h.obj = h'.obj → k = k') := by
  have h := Sane.run all l
  exact ⟨fun k x hk hp => ⟨h.reg k x hk hp ⟨k, false⟩ ⟨rfl, by simp⟩, fun hc => h.reg k x hk hp ⟨k, true⟩ ⟨rfl, fun _ => hc⟩⟩, h.inj⟩

/-- What is missing in `FullC83`: the histories with a robot description that cannot be loaded. In all others what is published is exactly
what there is, and nothing crashes. -/
theorem C83_exact_partial (all : Bool) (l : List StoreOp) (hl : ∀ cs, StoreOp.load cs false ∉ l) : AllThere (storeRun all l) := by
  have key : Fits (storeRun all l) ∧ Known (storeRun all l) := by
    refine foldl_inv (fun s => Fits s ∧ Known s) _ l _ ⟨fun v => rfl, rfl, by simp [Store.empty], by simp [Store.empty]⟩ ?_
    intro s op hop h
    have : ∀ cs, op ≠ .load cs false := fun cs e => hl cs (e ▸ hop)
    exact ⟨h.1.step op this, h.2.step op this⟩
  obtain ⟨h, hw⟩ := key
  generalize storeRun all l = s at h hw
  have one : ∀ v x, s.at_ v.itf = some x → x.pub = true → v.itf.has v → s.regs.filter (fun e => e.var = v) = [⟨v, x.obj⟩] := by
    intro v x hx hp hh
    have hv := h v
    rw [hx] at hv
    simp only [hp, hh, and_self, if_true] at hv
    show regsAt v s.regs = _
    cases hu : regsAt v s.regs with
    | nil => rw [hu] at hv; cases hv
    | cons e t =>
      rw [hu, List.map_cons, List.cons.injEq, List.map_eq_nil_iff] at hv
      have he : e ∈ regsAt v s.regs := by rw [hu]; exact List.mem_cons_self
      have hk : e.var = v := by simpa [regsAt] using (List.mem_filter.1 he).2
      rw [hv.2]
      cases e
      simp only at hk hv
      rw [hk, hv.1]
  refine ⟨?_, fun k x hx hp => one ⟨k, false⟩ x hx hp ⟨rfl, by simp⟩, fun n x hx hp => one ⟨⟨true, n⟩, true⟩ x hx hp ⟨rfl, fun _ => rfl⟩, hw.whole⟩
  intro e he
  have hm : e.obj ∈ (regsAt e.var s.regs).map (·.obj) := List.mem_map_of_mem (mem_regsAt.1 he)
  rw [h e.var] at hm
  cases hx : s.at_ e.var.itf with
  | none => rw [hx] at hm; cases hm
  | some x =>
    rw [hx] at hm
    simp only at hm
    split at hm
    · rename_i hc
      rw [List.mem_singleton] at hm; exact ⟨⟨x, rfl, hm.symm, hc.1⟩, hc.2.2⟩
    · cases hm

theorem not_lives_step {all : Bool} {s : Store} {j : Nat} (h : j < s.next ∧ ¬ Lives s j) (op : StoreOp) :
    j < (storeStep all s op).next ∧ ¬ Lives (storeStep all s op) j := by
  refine step_keeps (fun s => j < s.next ∧ ¬ Lives s j) ?_ ?_ (fun s e h => h) op
    (fun _ s h => ⟨h.1, by rintro ⟨k, x, hx, -⟩; cases hx⟩) h
  · intro s k pub h
    rcases add_at s k pub with ⟨-, -, e⟩ | ⟨-, -, e⟩
    · rw [e]; exact ⟨Nat.lt_succ_of_lt h.1, h.2⟩
    · rw [e]
      refine ⟨Nat.lt_succ_of_lt h.1, ?_⟩
      rintro ⟨k', x, hx, ho⟩
      have hx : upd s.at_ k (some ⟨s.next, pub⟩) k' = some x := hx
      rw [upd_apply] at hx
      by_cases hk : k' = k
      · rw [if_pos hk] at hx
        cases hx
        have h2 : s.next = j := ho
        omega
      · rw [if_neg hk] at hx; exact h.2 ⟨k', x, hx, ho⟩
  · intro s k h
    unfold drop
    split
    · exact h
    refine ⟨h.1, ?_⟩
    rintro ⟨k', x, hx, ho⟩
    have hx : upd s.at_ k none k' = some x := hx
    rw [upd_apply] at hx
    by_cases hk : k' = k
    · rw [if_pos hk] at hx; cases hx
    · rw [if_neg hk] at hx; exact h.2 ⟨k', x, hx, ho⟩

/-- A description that cannot be loaded: everything registered so far, and everything its components registered before the failure, stays
registered; none of it is a stored interface, and never will be again. (The components, the only other owners of theirs, are destroyed
too, resource_manager.cpp:1333-1335; an interface a controller exported lives on in the controller.) -/
theorem C83_dangling (all : Bool) (l : List StoreOp) (cs : List (List (Name × Bool) × List (Name × Bool)))
    (hw : (storeRun all l).crashed = false) :
    (storeRun all (l ++ [.load cs false])).regs = (cs.foldl importComp (storeRun all l)).regs ∧
    ∀ e ∈ (storeRun all (l ++ [.load cs false])).regs, ∀ l', ¬ Lives (storeRun all (l ++ .load cs false :: l')) e.obj := by
  have e1 : storeRun all (l ++ [.load cs false]) = clear (cs.foldl importComp (storeRun all l)) := by
    have : storeRun all (l ++ [.load cs false]) = storeStep all (storeRun all l) (.load cs false) := by simp [storeRun]
    rw [this]
    unfold storeStep
    rw [hw]
    rfl
  refine ⟨by rw [e1]; rfl, fun e he l' => ?_⟩
  have h := Sane.run all (l ++ [.load cs false])
  have dead : e.obj < (storeRun all (l ++ [.load cs false])).next ∧ ¬ Lives (storeRun all (l ++ [.load cs false])) e.obj := by
    refine ⟨h.elt e he, ?_⟩
    rw [e1]
    rintro ⟨k, x, hx, -⟩
    cases hx
  have e2 : storeRun all (l ++ .load cs false :: l') = l'.foldl (storeStep all) (storeRun all (l ++ [.load cs false])) := by
    simp [storeRun]
  rw [e2]
  exact (foldl_inv (fun s => e.obj < s.next ∧ ¬ Lives s e.obj) _ l' _ dead (fun s op _ h => not_lives_step h op)).2

theorem addStates_at (l : List (Name × Bool)) : ∀ (s : Store) k,
    (addStates s l).1.at_ k = s.at_ k ∨ (k.cmd = false ∧ k.name ∈ (addStates s l).2) := by
  induction l with
  | nil => intro s k; exact .inl rfl
  | cons x t ih =>
    intro s k
    show (addStates (add s ⟨false, x.1⟩ x.2).1 t).1.at_ k = _ ∨ (_ ∧ k.name ∈ (if (add s ⟨false, x.1⟩ x.2).2 then
      x.1 :: (addStates (add s ⟨false, x.1⟩ x.2).1 t).2 else (addStates (add s ⟨false, x.1⟩ x.2).1 t).2))
    rcases add_at s ⟨false, x.1⟩ x.2 with ⟨a1, a2, a3⟩ | ⟨a1, a2, a3⟩
    · rw [a1]
      rw [if_neg (by simp)]
      rcases ih (add s ⟨false, x.1⟩ x.2).1 k with h | h
      · left; rw [h, a3]
      · exact .inr h
    · rw [a1, if_pos rfl]
      rcases ih (add s ⟨false, x.1⟩ x.2).1 k with h | h
      · by_cases hk : k = ⟨false, x.1⟩
        · right; rw [hk]; exact ⟨rfl, List.mem_cons_self⟩
        · left; rw [h, a3]
          show upd s.at_ _ _ k = _
          rw [upd_apply, if_neg hk]
      · exact .inr ⟨h.1, List.mem_cons_of_mem _ h.2⟩

theorem dropAll_none {all b : Bool} (l : List Name) : ∀ s : Store, ∀ n, n ∈ l ∨ s.at_ ⟨b, n⟩ = none → (dropAll all b s l).at_ ⟨b, n⟩ = none := by
  induction l with
  | nil => intro s n h; exact h.resolve_left (by simp)
  | cons m t ih =>
    intro s n h
    show (dropAll all b (drop all s ⟨b, m⟩) t).at_ ⟨b, n⟩ = none
    apply ih
    rw [List.mem_cons] at h
    have key : n = m ∨ s.at_ ⟨b, n⟩ = none → (drop all s ⟨b, m⟩).at_ ⟨b, n⟩ = none := by
      intro h
      unfold drop
      split
      · rename_i hm
        rcases h with h | h
        · rw [h]; exact hm
        · exact h
      · show upd s.at_ _ _ _ = none
        rw [upd_apply]
        split
        · rfl
        · rename_i hne
          exact h.resolve_left (fun e => hne (by rw [e]))
    rcases h with (h | h) | h
    · exact .inr (key (.inl h))
    · exact .inl h
    · exact .inr (key (.inr h))

/-- After every history without a failed load: removing the states or references of a controller removes and unregisters exactly those that
are noted as exported by it, and forgets them. -/
theorem C83_removed (all : Bool) (l : List StoreOp) (hl : ∀ cs, StoreOp.load cs false ∉ l) (b : Bool) (c : Name) (names : List Name)
    (hx : (storeRun all l).exp b c = some names) :
    (∀ k, (storeRun all (l ++ [if b then .removeRefs c else .removeStates c])).at_ k =
      if k.cmd = b ∧ k.name ∈ names then none else (storeRun all l).at_ k) ∧
    (∀ e ∈ (storeRun all (l ++ [if b then .removeRefs c else .removeStates c])).regs, ¬ (e.var.itf.cmd = b ∧ e.var.itf.name ∈ names)) ∧
    (storeRun all (l ++ [if b then .removeRefs c else .removeStates c])).exp b c = none := by
  have hk : Known (storeRun all l) := by
    refine foldl_inv Known _ l _ ⟨rfl, by simp [Store.empty], by simp [Store.empty]⟩ ?_
    intro s op hop h
    exact h.step op (fun cs e => hl cs (e ▸ hop))
  have hw : AllThere (storeRun all (l ++ [if b then .removeRefs c else .removeStates c])) := by
    refine C83_exact_partial all _ (fun cs hm => ?_)
    rcases List.mem_append.1 hm with hm | hm
    · exact hl cs hm
    · rw [List.mem_singleton] at hm
      cases b <;> cases hm
  have e : storeRun all (l ++ [if b then .removeRefs c else .removeStates c]) =
      dropAll all b { storeRun all l with exp := upd (storeRun all l).exp b (upd ((storeRun all l).exp b) c none) } names := by
    have h1 : storeRun all (l ++ [if b then .removeRefs c else .removeStates c]) =
        storeStep all (storeRun all l) (if b then .removeRefs c else .removeStates c) := by simp [storeRun]
    rw [h1]
    unfold storeStep
    rw [if_neg (by rw [hk.whole]; simp)]
    cases b <;> (simp only [if_true, if_false, Bool.false_eq_true]; unfold removeExp; rw [hx])
  obtain ⟨h1, h2⟩ := hk.here b c names hx
  obtain ⟨i1, i2, i3⟩ := dropAll_spec (all := all) (b := b) names
    { storeRun all l with exp := upd (storeRun all l).exp b (upd ((storeRun all l).exp b) c none) } h1 h2
  have first : ∀ k, (storeRun all (l ++ [if b then .removeRefs c else .removeStates c])).at_ k =
      if k.cmd = b ∧ k.name ∈ names then none else (storeRun all l).at_ k := by
    intro k
    rw [e]
    split
    · rename_i h
      obtain ⟨kc, kn⟩ := k
      obtain ⟨hc, hn⟩ := h
      have hc : kc = b := hc
      subst hc
      exact dropAll_none _ _ _ (.inl hn)
    · rename_i h
      exact i3 k (fun hb hn => h ⟨hb, hn⟩)
  refine ⟨first, fun r hr hh => ?_, ?_⟩
  · obtain ⟨⟨x, hx', -⟩, -⟩ := hw.valid r hr
    rw [first, if_pos hh] at hx'
    cases hx'
  · rw [e, i1]
    simp

/-- In every state that has not crashed, also after failed loads: importing the states a controller exports and removing them leaves the
stored interfaces as they were, whatever names were refused. -/
theorem C83_roundtrip (all : Bool) (l : List StoreOp) (c : Name) (x : List (Name × Bool)) (hw : (storeRun all l).crashed = false) :
    (storeRun all (l ++ [.importStates c x, .removeStates c])).at_ = (storeRun all l).at_ ∧
    (storeRun all (l ++ [.importStates c x, .removeStates c])).crashed = false := by
  obtain ⟨a1, a2, a3, a4, a5⟩ := addStates_spec x (storeRun all l)
  have e : storeRun all (l ++ [.importStates c x, .removeStates c]) =
      storeStep all (storeStep all (storeRun all l) (.importStates c x)) (.removeStates c) := by simp [storeRun]
  have e2 : storeStep all (storeRun all l) (.importStates c x) =
      { (addStates (storeRun all l) x).1 with
        exp := upd (addStates (storeRun all l) x).1.exp false (upd ((addStates (storeRun all l) x).1.exp false) c (some (addStates (storeRun all l) x).2)) } := by
    unfold storeStep
    rw [if_neg (by rw [hw]; simp)]
  rw [e, e2]
  have hc : (addStates (storeRun all l) x).1.crashed = false := a2.trans hw
  generalize storeRun all l = s at *
  unfold storeStep
  dsimp only
  rw [if_neg (by rw [hc]; simp)]
  unfold removeExp
  dsimp only
  rw [upd_apply, if_pos rfl, upd_apply, if_pos rfl]
  dsimp only
  have spec := fun E => dropAll_spec (all := all) (b := false) (addStates s x).2 { (addStates s x).1 with exp := E } a5 (fun n hn => (a4 n hn).2)
  have hnone := dropAll_none (all := all) (b := false) (addStates s x).2
  refine ⟨?_, (spec _).2.1.trans hc⟩
  funext k
  by_cases hk : k.cmd = false ∧ k.name ∈ (addStates s x).2
  · obtain ⟨kc, kn⟩ := k
    obtain ⟨h1, h2⟩ := hk
    have h1 : kc = false := h1
    subst h1
    rw [(a4 kn h2).1]
    exact hnone _ _ (.inl h2)
  · refine ((spec _).2.2 k (fun hb hn => hk ⟨hb, hn⟩)).trans ?_
    exact (addStates_at x s k).resolve_right hk

/-! ## Examples -/

/-- A component: interfaces 1 and 2 (the second is not a number) to read, 1 to command. -/
def demoComp : List (Name × Bool) × List (Name × Bool) := ([(1, true), (2, false)], [(1, true)])

/-- Load it, import and remove the interfaces of controller 100, which also tries to export the state interface 1. -/
def demoHist : List StoreOp :=
  [.load [demoComp] true, .importStates 100 [(7, true), (1, true)], .importRefs 100 [(8, true)], .importRefs 200 [(9, true), (8, true)],
   .removeStates 100, .removeRefs 100]

example : AllThere (storeRun false demoHist) := C83_exact_partial false demoHist (by simp [demoHist])

example : (storeRun true (demoHist.take 4)).regs.length = 8 ∧ (storeRun true demoHist).regs =
    [⟨⟨⟨false, 1⟩, false⟩, 0⟩, ⟨⟨⟨true, 1⟩, false⟩, 2⟩, ⟨⟨⟨true, 1⟩, true⟩, 2⟩, ⟨⟨⟨true, 9⟩, false⟩, 6⟩, ⟨⟨⟨true, 9⟩, true⟩, 6⟩] := by
  decide +kernel

-- the hypotheses of `C83_removed`: controller 100 exported state 7 (1 was refused) and reference 8
example : (storeRun true (demoHist.take 4)).exp false 100 = some [7] ∧ (storeRun true (demoHist.take 4)).exp true 100 = some [8] ∧
    (storeRun true (demoHist.take 4)).at_ ⟨false, 7⟩ = some ⟨3, true⟩ ∧ (storeRun true (demoHist.take 5)).at_ ⟨false, 7⟩ = none := by
  decide +kernel

-- of `C83_roundtrip`, after a failed load
example : (storeRun true [.load [demoComp] false, .load [demoComp] true]).crashed = false := by decide +kernel

-- a description whose second component fails, then a good one: everything is registered twice, half of it dangling
example : (storeRun true [.load [demoComp] false, .load [demoComp] true]).regs.length = 6 ∧
    (storeRun true [.load [demoComp] false, .load [demoComp] true]).at_ ⟨false, 1⟩ = some ⟨3, true⟩ := by decide +kernel

/-- The full property is false. -/
theorem C83_false : ¬ FullC83 := by
  intro h
  obtain ⟨⟨x, hx, -⟩, -⟩ := (h true [.load [demoComp] false]).valid ⟨⟨⟨false, 1⟩, false⟩, 0⟩ (by decide +kernel)
  have : (storeRun true [.load [demoComp] false]).at_ ⟨false, 1⟩ = none := by decide +kernel
  rw [this] at hx
  cases hx

-- loading while a controller has exported interfaces: removing them meets a missing one
example : (storeRun true [.importStates 100 [(7, true)], .load [] false, .removeStates 100]).crashed = true := by decide +kernel

end Pub
end Verif
