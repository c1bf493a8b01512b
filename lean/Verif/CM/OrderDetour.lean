import Verif.CM.OrderForest
/-!
# The execution order is a data-flow order when every detour is a chain
-/
namespace Verif
namespace Chain

variable {foll prec : Name → List Name}

/-- Whenever `u` feeds `n` and `n` feeds `w`, every connection of `u` and `w` around `n` contains a chain from `u` to `w`. -/
structure Tame (foll prec : Name → List Name) : Prop where
  sym : ∀ a b, b ∈ foll a ↔ a ∈ prec b
  no2 : ∀ a b, b ∈ foll a → a ∉ foll b
  detour : ∀ u n w, n ∈ foll u → w ∈ foll n → ∀ p : (graph foll).Walk u w, n ∉ p.support →
    Relation.TransGen (fun a b => b ∈ foll a ∧ a ∈ p.support ∧ b ∈ p.support) u w

theorem Tame.adj_foll (F : Tame foll prec) {a b : Name} (h : b ∈ foll a) : (graph foll).Adj a b := by
  simp only [graph, SimpleGraph.fromRel_adj]
  refine ⟨?_, .inl h⟩
  intro e; subst e; exact F.no2 a a h h

theorem Tame.adj_iff (F : Tame foll prec) {a b : Name} :
    (graph foll).Adj a b ↔ b ∈ foll a ∨ b ∈ prec a := by
  constructor
  · simp only [graph, SimpleGraph.fromRel_adj]
    rintro ⟨_, h | h⟩
    · exact .inl h
    · exact .inr ((F.sym b a).1 h)
  · rintro (h | h)
    · exact F.adj_foll h
    · exact (F.adj_foll ((F.sym b a).2 h)).symm

/-- A forest has no detours. -/
theorem Forest.tame (F : Forest foll prec) : Tame foll prec := by
  refine ⟨F.sym, F.no2, fun u n w hu hw p hn => ?_⟩
  have := F.unique_neighbour (F.adj_foll hu).symm (F.adj_foll hw) p hn
  subst this
  exact absurd hu (F.no2 _ _ hw)

theorem ord_lt {l : List Name} (ho : l.Pairwise (fun x y => x ∉ foll y)) {a b : Name} (ha : a ∈ l) (hb : b ∈ l)
    (hne : a ≠ b) (h : b ∈ foll a) : l.idxOf a < l.idxOf b := by
  have h1 : l.idxOf a < l.length := List.idxOf_lt_length_iff.2 ha
  have h2 : l.idxOf b < l.length := List.idxOf_lt_length_iff.2 hb
  by_contra hc
  rcases Nat.lt_or_eq_of_le (Nat.le_of_not_lt hc) with hlt | he
  · have := List.pairwise_iff_getElem.1 ho _ _ h2 h1 hlt
    rw [List.getElem_idxOf, List.getElem_idxOf] at this
    exact this h
  · exact hne (by
      have e1 : l[l.idxOf a]'h1 = a := List.getElem_idxOf h1
      have e2 : l[l.idxOf b]'h2 = b := List.getElem_idxOf h2
      rw [← e1, ← e2]; congr 1; exact he.symm)

/-- Whoever feeds `n` stands before whoever is fed by `n`. -/
theorem Good.sep (F : Tame foll prec) {l : List Name} (g : Good foll l) {n c d : Name} (hn : n ∉ l) (hc : c ∈ l) (hd : d ∈ l)
    (hcn : n ∈ foll c) (hnd : d ∈ foll n) : l.idxOf c < l.idxOf d := by
  have hr : (graph foll).Reachable c d := (F.adj_foll hcn).reachable.trans (F.adj_foll hnd).reachable
  obtain ⟨p, hp⟩ := g.conn c hc d hd hr
  have := F.detour c n d hcn hnd p (fun h => hn (hp n h))
  have key : ∀ x, Relation.TransGen (fun a b => b ∈ foll a ∧ a ∈ p.support ∧ b ∈ p.support) c x → l.idxOf c < l.idxOf x := by
    intro x h
    induction h with
    | single h => exact ord_lt g.ord hc (hp _ h.2.2) (fun e => by subst e; exact F.no2 _ _ h.1 h.1) h.1
    | tail _ h ih =>
      exact ih.trans (ord_lt g.ord (hp _ h.2.1) (hp _ h.2.2) (fun e => by subst e; exact F.no2 _ _ h.1 h.1) h.1)
  exact key d this

/-- Inserting a neighbour of the list after those that feed it and before those it feeds. -/
theorem Good.between {l : List Name} (g : Good foll l) {n u : Name} {i : Nat} (hn : n ∉ l) (hu : u ∈ l)
    (au : (graph foll).Adj n u) (hi : i ≤ l.length) (hp : ∀ c ∈ l, n ∈ foll c → l.idxOf c < i)
    (hf : ∀ d ∈ l, d ∈ foll n → i ≤ l.idxOf d) : Good foll (l.insertIdx i n) := by
  have mem : ∀ x, x ∈ l.insertIdx i n ↔ x = n ∨ x ∈ l := fun x => List.mem_insertIdx hi
  refine ⟨nodup_insertIdx hi g.nodup hn, ?_, ?_⟩
  · rw [insertIdx_take_drop l n i hi, List.pairwise_append]
    have ho := g.ord
    rw [← List.take_append_drop i l, List.pairwise_append] at ho
    refine ⟨ho.1, List.pairwise_cons.2 ⟨?_, ho.2.1⟩, ?_⟩
    · intro y hy hny
      have hyl : y ∈ l := List.mem_of_mem_drop hy
      have := hp y hyl hny
      obtain ⟨k, hk, e⟩ := List.mem_drop_iff_getElem.1 hy
      have h1 : l.idxOf y = i + k := by
        have := g.nodup.idxOf_getElem (i + k) (by omega)
        rw [e] at this; exact this
      omega
    · intro x hx y hy
      rcases List.mem_cons.1 hy with hy | hy
      · subst hy
        intro hxn
        have hxl : x ∈ l := List.mem_of_mem_take hx
        have := hf x hxl hxn
        obtain ⟨k, hk, e⟩ := List.mem_take_iff_getElem.1 hx
        have h1 : l.idxOf x = k := by
          have := g.nodup.idxOf_getElem k (by omega)
          rw [e] at this; exact this
        omega
      · exact ho.2.2 x hx y hy
  · have ext : ∀ x y (p : (graph foll).Walk x y), (∀ v ∈ p.support, v ∈ l) → ∀ v ∈ p.support, v ∈ l.insertIdx i n :=
      fun x y p hp v hv => (mem v).2 (.inr (hp v hv))
    have one : ∀ x ∈ l, (graph foll).Reachable x n → ∃ p : (graph foll).Walk x n, ∀ v ∈ p.support, v ∈ l.insertIdx i n := by
      intro x hx hr
      obtain ⟨p, hp⟩ := g.conn x hx u hu (hr.trans au.reachable)
      refine ⟨p.concat au.symm, ?_⟩
      intro v hv
      rw [SimpleGraph.Walk.support_concat] at hv
      simp at hv
      rcases hv with hv | hv
      · exact (mem v).2 (.inr (hp v hv))
      · subst hv; exact (mem _).2 (.inl rfl)
    intro x hx y hy hr
    rcases (mem x).1 hx with ex | hx1 <;> rcases (mem y).1 hy with ey | hy1
    · subst ex; subst ey
      exact ⟨.nil, by intro v hv; simp at hv; subst hv; exact (mem _).2 (.inl rfl)⟩
    · subst ex
      obtain ⟨p, hp⟩ := one y hy1 hr.symm
      exact ⟨p.reverse, by simpa using hp⟩
    · subst ey; exact one x hx1 hr
    · obtain ⟨p, hp⟩ := g.conn x hx1 y hy1 hr
      exact ⟨p, ext x y p hp⟩

theorem Good.alone (F : Tame foll prec) {l : List Name} (g : Good foll l) {n : Name} (hn : n ∉ l)
    (h : ∀ w ∈ l, ¬ (graph foll).Reachable n w) : Good foll (l ++ [n]) := by
  refine ⟨?_, ?_, ?_⟩
  · rw [List.nodup_append]
    refine ⟨g.nodup, by simp, ?_⟩
    intro a ha b hb e
    simp at hb; subst hb; subst e; exact hn ha
  · rw [List.pairwise_append]
    refine ⟨g.ord, by simp, ?_⟩
    intro a ha b hb hx
    simp at hb; subst hb
    exact h a ha (F.adj_foll hx).reachable
  · intro x hx y hy hr
    rcases List.mem_append.1 hx with hx1 | ex <;> rcases List.mem_append.1 hy with hy1 | ey
    · obtain ⟨p, hp⟩ := g.conn x hx1 y hy1 hr
      exact ⟨p, fun v hv => by simp [hp v hv]⟩
    · simp at ey; subst ey; exact absurd hr.symm (h x hx1)
    · simp at ex; subst ex; exact absurd hr (h y hy1)
    · simp at ex ey; subst ex; subst ey
      exact ⟨.nil, by simp⟩

/-- The first loop of the position search. -/
theorem min_loop (l : List Name) : ∀ (fs : List Name) (s : Nat),
    let p := fs.foldl (fun p c => if c ∈ l ∧ l.idxOf c < p then l.idxOf c else p) s
    p ≤ s ∧ (∀ c ∈ fs, c ∈ l → p ≤ l.idxOf c) ∧ (p = s ∨ ∃ c ∈ fs, c ∈ l ∧ p = l.idxOf c)
  | [], s => ⟨le_rfl, by simp, .inl rfl⟩
  | c :: fs, s => by
      obtain ⟨h1, h2, h3⟩ := min_loop l fs (if c ∈ l ∧ l.idxOf c < s then l.idxOf c else s)
      simp only [List.foldl_cons]
      refine ⟨h1.trans ?_, fun x hx hxl => ?_, ?_⟩
      · split
        · rename_i h; omega
        · exact le_rfl
      · rcases List.mem_cons.1 hx with rfl | hx
        · refine h1.trans ?_
          split
          · exact le_rfl
          · rename_i h; simp only [hxl, true_and, not_lt] at h; exact h
        · exact h2 x hx hxl
      · rcases h3 with h3 | ⟨x, hx, h⟩
        · rw [h3]
          split
          · rename_i h; exact .inr ⟨c, by simp, h.1, rfl⟩
          · exact .inl rfl
        · exact .inr ⟨x, by simp [hx], h⟩

/-- The second loop of the position search. -/
theorem max_loop (l : List Name) : ∀ (fs : List Name) (s : Nat),
    let p := fs.foldl (fun p c => if c ∈ l ∧ p < l.idxOf c then l.idxOf c else p) s
    s ≤ p ∧ (∀ c ∈ fs, c ∈ l → l.idxOf c ≤ p) ∧ (p = s ∨ ∃ c ∈ fs, c ∈ l ∧ p = l.idxOf c)
  | [], s => ⟨le_rfl, by simp, .inl rfl⟩
  | c :: fs, s => by
      obtain ⟨h1, h2, h3⟩ := max_loop l fs (if c ∈ l ∧ s < l.idxOf c then l.idxOf c else s)
      simp only [List.foldl_cons]
      refine ⟨le_trans ?_ h1, fun x hx hxl => ?_, ?_⟩
      · split
        · rename_i h; omega
        · exact le_rfl
      · rcases List.mem_cons.1 hx with rfl | hx
        · refine le_trans ?_ h1
          split
          · exact le_rfl
          · rename_i h; simp only [hxl, true_and, not_lt] at h; exact h
        · exact h2 x hx hxl
      · rcases h3 with h3 | ⟨x, hx, h⟩
        · rw [h3]
          split
          · rename_i h; exact .inr ⟨c, by simp, h.1, rfl⟩
          · exact .inl rfl
        · exact .inr ⟨x, by simp [hx], h⟩

/-- The position found lies between those that feed `n` and those it feeds. -/
theorem insert_step (F : Tame foll prec) {l : List Name} (g : Good foll l) {n : Name} {pos : Nat} {app : Bool} (hn : n ∉ l)
    (hc : Called foll l n pos app) :
    let p := insertPos foll prec l n pos
    let l1 := l.insertIdx (if app then p + 1 else p) n
    Good foll l1 ∧ (∀ x, x ∈ l1 ↔ x = n ∨ x ∈ l) := by
  intro p l1
  obtain ⟨a1, a2, a3⟩ := min_loop l (foll n) pos
  obtain ⟨b1, b2, b3⟩ : (foll n).foldl (fun p c => if c ∈ l ∧ l.idxOf c < p then l.idxOf c else p) pos ≤ p ∧
      (∀ c ∈ prec n, c ∈ l → l.idxOf c ≤ p) ∧
      (p = (foll n).foldl (fun p c => if c ∈ l ∧ l.idxOf c < p then l.idxOf c else p) pos ∨ ∃ c ∈ prec n, c ∈ l ∧ p = l.idxOf c) :=
    max_loop l (prec n) _
  generalize (foll n).foldl (fun p c => if c ∈ l ∧ l.idxOf c < p then l.idxOf c else p) pos = p1 at *
  rcases hc with ⟨u, hu, hnu, hpos, happ⟩ | ⟨u, hu, hun, hpos, happ⟩ | ⟨hno, hpos, happ⟩
  · have hlt : l.idxOf u < l.length := List.idxOf_lt_length_iff.2 hu
    have e1 : p1 = l.idxOf u := by
      rcases a3 with h | ⟨c, hc, hcl, h⟩
      · rw [h, hpos]
      · have := g.sep F hn hu hcl hnu hc
        omega
    have hpp : ∃ c ∈ l, n ∈ foll c ∧ p = l.idxOf c := by
      rcases b3 with h | ⟨c, hc, hcl, h⟩
      · exact ⟨u, hu, hnu, by rw [h, e1]⟩
      · exact ⟨c, hcl, (F.sym c n).2 hc, h⟩
    obtain ⟨c, hcl, hcn, hpc⟩ := hpp
    have hclt : l.idxOf c < l.length := List.idxOf_lt_length_iff.2 hcl
    have e : l1 = l.insertIdx (p + 1) n := by simp only [l1, happ, if_true]
    rw [e]
    refine ⟨g.between hn hu (F.adj_foll hnu).symm (by omega) (fun x hx hxn => ?_) (fun d hd hnd => ?_), fun x => List.mem_insertIdx (by omega)⟩
    · have := b2 x ((F.sym x n).1 hxn) hx; omega
    · have := g.sep F hn hcl hd hcn hnd; omega
  · have hlt : l.idxOf u < l.length := List.idxOf_lt_length_iff.2 hu
    have h1 : ∃ d ∈ l, d ∈ foll n ∧ p1 = l.idxOf d := by
      rcases a3 with h | ⟨d, hd, hdl, h⟩
      · exact ⟨u, hu, hun, by rw [h, hpos]⟩
      · exact ⟨d, hdl, hd, h⟩
    obtain ⟨d, hdl, hnd, hpd⟩ := h1
    have hp : p = p1 := by
      rcases b3 with h | ⟨c, hc, hcl, h⟩
      · exact h
      · have := g.sep F hn hcl hdl ((F.sym c n).2 hc) hnd
        omega
    have e : l1 = l.insertIdx p n := by simp only [l1, happ, Bool.false_eq_true, if_false]
    rw [e]
    have hdlt : l.idxOf d < l.length := List.idxOf_lt_length_iff.2 hdl
    refine ⟨g.between hn hu (F.adj_foll hun) (by omega) (fun x hx hxn => ?_) (fun x hx hnx => ?_), fun x => List.mem_insertIdx (by omega)⟩
    · have := g.sep F hn hx hdl hxn hnd; omega
    · have := a2 x hnx hx; omega
  · have hp : p = l.length := by
      rcases b3 with h | ⟨c, hc, hcl, h⟩
      · rcases a3 with h' | ⟨d, hd, hdl, h'⟩
        · rw [h, h', hpos]
        · exact absurd (F.adj_foll hd).reachable (hno d hdl)
      · exact absurd (F.adj_iff.2 (.inr hc)).reachable (hno c hcl)
    have e : l1 = l ++ [n] := by
      simp only [l1, happ, hp, Bool.false_eq_true, if_false]
      simp
    rw [e]
    exact ⟨g.alone F hn hno, fun x => by simp [or_comm]⟩

theorem insertChain_tame (F : Tame foll prec) (keys : List Name) (hk : ∀ a b, b ∈ foll a → a ∈ keys ∧ b ∈ keys)
    (fuel : Nat) : ∀ (l : List Name) (n : Name) (pos : Nat) (app : Bool), Good foll l → n ∈ keys →
      n ∉ l → Called foll l n pos app → rem keys l ≤ fuel →
      let r := insertChain foll prec fuel l n pos app
      Good foll r ∧ (∀ x ∈ l, x ∈ r) ∧ n ∈ r ∧ (∀ x ∈ r, x ∉ l → ∀ y, Adj foll prec x y → y ∈ r) := by
  induction fuel with
  | zero =>
    intro l n pos app g hn hnl hc hr
    exfalso
    have : 0 < rem keys l := by
      unfold rem
      apply List.length_pos_of_mem (a := n)
      simp [hn, hnl]
    omega
  | succ fuel ih =>
    intro l n pos app g hn hnl hc hr
    dsimp only
    unfold insertChain
    rw [if_neg hnl]
    extract_lets p l1 l2
    obtain ⟨g1, m1⟩ : Good foll l1 ∧ (∀ x, x ∈ l1 ↔ x = n ∨ x ∈ l) := insert_step F g hnl hc
    have hr1 : rem keys l1 ≤ fuel := by
      have := rem_lt (K := keys) (l := l) (l' := l1) (n := n) (fun x hx => (m1 x).2 (.inr hx)) hn hnl ((m1 n).2 (.inl rfl))
      omega
    have loop : ∀ (fs : List Name) (app : Bool) (l' : List Name),
        (∀ f ∈ fs, (app = true ∧ f ∈ foll n) ∨ (app = false ∧ n ∈ foll f)) →
        Good foll l' → (∀ x ∈ l1, x ∈ l') → (∀ x ∈ l', x ∉ l1 → ∀ y, Adj foll prec x y → y ∈ l') →
        let r := fs.foldl (fun l f => insertChain foll prec fuel l f (l.idxOf n) app) l'
        Good foll r ∧ (∀ x ∈ l', x ∈ r) ∧ (∀ f ∈ fs, f ∈ r) ∧ (∀ x ∈ r, x ∉ l1 → ∀ y, Adj foll prec x y → y ∈ r) := by
      intro fs app
      induction fs with
      | nil => intro l' _ g' _ c'; exact ⟨g', fun _ h => h, by simp, c'⟩
      | cons f t iht =>
        intro l' hfs g' s' c'
        simp only [List.foldl_cons]
        have hnl' : n ∈ l' := s' n ((m1 n).2 (.inl rfl))
        have hff := hfs f (by simp)
        have hfk : f ∈ keys := by
          rcases hff with ⟨_, h⟩ | ⟨_, h⟩
          · exact (hk _ _ h).2
          · exact (hk _ _ h).1
        by_cases hfl : f ∈ l'
        · have e : insertChain foll prec fuel l' f (l'.idxOf n) app = l' := by
            cases fuel with
            | zero => rfl
            | succ k => unfold insertChain; rw [if_pos hfl]
          rw [e]
          obtain ⟨k1, k2, k3, k4⟩ := iht l' (fun x hx => hfs x (by simp [hx])) g' s' c'
          refine ⟨k1, k2, ?_, k4⟩
          intro x hx
          rcases List.mem_cons.1 hx with hx | hx
          · subst hx; exact k2 _ hfl
          · exact k3 x hx
        · have hcall : Called foll l' f (l'.idxOf n) app := by
            rcases hff with ⟨ha, h⟩ | ⟨ha, h⟩
            · exact .inl ⟨n, hnl', h, rfl, ha⟩
            · exact .inr (.inl ⟨n, hnl', h, rfl, ha⟩)
          have hrl : rem keys l' ≤ fuel := (rem_mono s').trans hr1
          obtain ⟨j1, j2, j3, j4⟩ := ih l' f (l'.idxOf n) app g' hfk hfl hcall hrl
          obtain ⟨k1, k2, k3, k4⟩ := iht _ (fun x hx => hfs x (by simp [hx])) j1 (fun x hx => j2 x (s' x hx)) (by
            intro x hx hx1 y hy
            by_cases hxl : x ∈ l'
            · exact j2 y (c' x hxl hx1 y hy)
            · exact j4 x hx hxl y hy)
          refine ⟨k1, fun x hx => k2 x (j2 x hx), ?_, k4⟩
          intro x hx
          rcases List.mem_cons.1 hx with hx | hx
          · subst hx; exact k2 _ j3
          · exact k3 x hx
    obtain ⟨a1, a2, a3, a4⟩ := loop (foll n) true l1 (fun f hf => .inl ⟨rfl, hf⟩) g1 (fun _ h => h)
      (fun x hx hx' => absurd hx hx')
    obtain ⟨b1, b2, b3, b4⟩ := loop (prec n) false l2 (fun f hf => .inr ⟨rfl, (F.sym f n).2 hf⟩) a1 a2 a4
    refine ⟨b1, fun x hx => b2 x (a2 x ((m1 x).2 (.inr hx))), b2 n (a2 n ((m1 n).2 (.inl rfl))), ?_⟩
    intro x hx hxl y hy
    by_cases hxn : x = n
    · subst hxn
      rcases hy with hy | hy
      · exact b2 y (a3 y hy)
      · exact b3 y hy
    · exact b4 x hx (fun h => by
        rcases (m1 x).1 h with h | h
        · exact hxn h
        · exact hxl h) y hy

theorem orderAll_tame (F : Tame foll prec) (keys : List Name) (hk : ∀ a b, b ∈ foll a → a ∈ keys ∧ b ∈ keys)
    (fuel : Nat) (hfuel : keys.length ≤ fuel) : Good foll (orderAll foll prec fuel keys) := by
  unfold orderAll
  have gen : ∀ (ks l : List Name), (∀ k ∈ ks, k ∈ keys) → Good foll l →
      (∀ x ∈ l, ∀ y, Adj foll prec x y → y ∈ l) →
      Good foll (ks.foldl (fun l k => if k ∈ l then l else insertChain foll prec fuel l k l.length false) l) := by
    intro ks
    induction ks with
    | nil => intro l _ g _; exact g
    | cons k t ih =>
      intro l hks g c
      simp only [List.foldl_cons]
      split
      · exact ih l (fun x hx => hks x (by simp [hx])) g c
      · rename_i hkl
        have hno : ∀ w ∈ l, ¬ (graph foll).Reachable k w := by
          intro w hw hr
          have : ∀ {x y : Name} (p : (graph foll).Walk x y), y ∈ l → x ∈ l := by
            intro x y p
            induction p with
            | nil => exact id
            | cons h q ihq => intro hy; exact c _ (ihq hy) _ (F.adj_iff.1 h.symm)
          obtain ⟨p⟩ := hr
          exact hkl (this p hw)
        have hrem : rem keys l ≤ fuel := (rem_le _ _).trans hfuel
        obtain ⟨j1, j2, _, j4⟩ := insertChain_tame F keys hk fuel l k l.length false g (hks k (by simp)) hkl
          (.inr (.inr ⟨hno, rfl, rfl⟩)) hrem
        refine ih _ (fun x hx => hks x (by simp [hx])) j1 ?_
        intro x hx y hy
        by_cases hxl : x ∈ l
        · exact j2 y (c x hxl y hy)
        · exact j4 x hx hxl y hy
  exact gen keys [] (fun _ h => h) good_nil (by simp)

end Chain
end Verif
