import Verif.CM.OrderLemmas
import Mathlib.Combinatorics.SimpleGraph.Acyclic
/-!
# The execution order is a data-flow order when the chains form a forest
-/
namespace Verif
namespace Chain

/-- The chain links without their direction. -/
def graph (foll : Name → List Name) : SimpleGraph Name := SimpleGraph.fromRel (fun a b => b ∈ foll a)

/-- The chains form a forest: links are symmetric in the two tables, no two controllers feed each other,
and there is no cycle of links. -/
structure Forest (foll prec : Name → List Name) : Prop where
  sym : ∀ a b, b ∈ foll a ↔ a ∈ prec b
  no2 : ∀ a b, b ∈ foll a → a ∉ foll b
  acyclic : (graph foll).IsAcyclic

variable {foll prec : Name → List Name}

theorem Forest.adj_foll (F : Forest foll prec) {a b : Name} (h : b ∈ foll a) : (graph foll).Adj a b := by
  simp only [graph, SimpleGraph.fromRel_adj]
  refine ⟨?_, .inl h⟩
  intro e; subst e; exact F.no2 a a h h

theorem Forest.adj_iff (F : Forest foll prec) {a b : Name} :
    (graph foll).Adj a b ↔ b ∈ foll a ∨ b ∈ prec a := by
  constructor
  · simp only [graph, SimpleGraph.fromRel_adj]
    rintro ⟨_, h | h⟩
    · exact .inl h
    · exact .inr ((F.sym b a).1 h)
  · rintro (h | h)
    · exact F.adj_foll h
    · exact (F.adj_foll ((F.sym b a).2 h)).symm

/-- Two neighbours of `n` that are connected without `n` are equal. -/
theorem Forest.unique_neighbour (F : Forest foll prec) {n u w : Name} (hu : (graph foll).Adj n u)
    (hw : (graph foll).Adj n w) (p : (graph foll).Walk u w) (hn : n ∉ p.support) : u = w := by
  have hp : (SimpleGraph.Walk.cons hu p.bypass).IsPath :=
    (SimpleGraph.Walk.cons_isPath_iff _ _).2 ⟨p.bypass_isPath, fun h => hn (p.support_bypass_subset_support h)⟩
  have := (F.acyclic.subsingleton_path n w).elim ⟨_, hp⟩ (SimpleGraph.Path.singleton hw)
  have hl := congrArg (fun q : (graph foll).Path n w => q.1.length) this
  simp [SimpleGraph.Path.singleton] at hl
  exact hl.eq

/-- A partial execution list. -/
structure Good (foll : Name → List Name) (l : List Name) : Prop where
  nodup : l.Nodup
  ord : l.Pairwise (fun x y => x ∉ foll y)
  conn : ∀ x ∈ l, ∀ y ∈ l, (graph foll).Reachable x y → ∃ p : (graph foll).Walk x y, ∀ v ∈ p.support, v ∈ l

theorem good_nil : Good foll [] := ⟨by simp, by simp, by simp⟩

/-- A controller outside the list has at most one neighbour inside each chain. -/
theorem Good.neighbour (F : Forest foll prec) {l : List Name} (g : Good foll l) {n u w : Name} (hn : n ∉ l) (hu : u ∈ l)
    (hw : w ∈ l) (au : (graph foll).Adj n u) (aw : (graph foll).Adj n w) : w = u := by
  have hr : (graph foll).Reachable u w := au.symm.reachable.trans aw.reachable
  obtain ⟨p, hp⟩ := g.conn u hu w hw hr
  exact (F.unique_neighbour au aw p (fun h => hn (hp n h))).symm

theorem insertIdx_take_drop (l : List Name) (n : Name) (i : Nat) (h : i ≤ l.length) :
    l.insertIdx i n = l.take i ++ n :: l.drop i := by
  induction l generalizing i with
  | nil => simp at h; subst h; rfl
  | cons a t ih =>
    cases i with
    | zero => rfl
    | succ i => simp at h; simp [ih i h]

theorem Good.insert (F : Forest foll prec) {l : List Name} (g : Good foll l) {n u : Name} {i : Nat} (hn : n ∉ l) (hu : u ∈ l)
    (h : (n ∈ foll u ∧ i = l.idxOf u + 1) ∨ (u ∈ foll n ∧ i = l.idxOf u)) :
    Good foll (l.insertIdx i n) := by
  have hlt : l.idxOf u < l.length := List.idxOf_lt_length_iff.2 hu
  have hi : i ≤ l.length := by rcases h with h | h <;> omega
  have au : (graph foll).Adj n u := by
    rcases h with h | h
    · exact (F.adj_foll h.1).symm
    · exact F.adj_foll h.1
  have nb : ∀ w ∈ l, (graph foll).Adj n w → w = u := fun w hw aw => g.neighbour F hn hu hw au aw
  have mem : ∀ x, x ∈ l.insertIdx i n ↔ x = n ∨ x ∈ l := fun x => List.mem_insertIdx hi
  refine ⟨nodup_insertIdx hi g.nodup hn, ?_, ?_⟩
  · rw [insertIdx_take_drop l n i hi, List.pairwise_append]
    have ho := g.ord
    rw [← List.take_append_drop i l, List.pairwise_append] at ho
    refine ⟨ho.1, List.pairwise_cons.2 ⟨?_, ho.2.1⟩, ?_⟩
    · intro y hy hny
      have hyl : y ∈ l := List.mem_of_mem_drop hy
      have : y = u := nb y hyl (F.adj_foll hny).symm
      subst this
      rcases h with h | h
      · obtain ⟨k, hk, e⟩ := List.mem_drop_iff_getElem.1 hy
        have h1 : l.idxOf y = i + k := by
          have := g.nodup.idxOf_getElem (i + k) (by omega)
          rw [e] at this; exact this
        omega
      · exact F.no2 _ _ hny h.1
    · intro x hx y hy
      rcases List.mem_cons.1 hy with hy | hy
      · subst hy
        intro hxn
        have hxl : x ∈ l := List.mem_of_mem_take hx
        have : x = u := nb x hxl (F.adj_foll hxn)
        subst this
        rcases h with h | h
        · exact F.no2 _ _ h.1 hxn
        · obtain ⟨k, hk, e⟩ := List.mem_take_iff_getElem.1 hx
          have h1 : l.idxOf x = k := by
            have := g.nodup.idxOf_getElem k (by omega)
            rw [e] at this; exact this
          omega
      · exact ho.2.2 x hx y hy
  · -- paths inside the list
    have ext : ∀ x y (p : (graph foll).Walk x y), (∀ v ∈ p.support, v ∈ l) → ∀ v ∈ p.support, v ∈ l.insertIdx i n :=
      fun x y p hp v hv => (mem v).2 (.inr (hp v hv))
    have one : ∀ x ∈ l, (graph foll).Reachable x n → ∃ p : (graph foll).Walk x n, ∀ v ∈ p.support, v ∈ l.insertIdx i n := by
      intro x hx hr
      obtain ⟨p, hp⟩ := g.conn x hx u hu (hr.trans au.reachable)
      refine ⟨p.concat au.symm, ?_⟩
      intro v hv
      rw [SimpleGraph.Walk.support_concat] at hv
      simp at hv
      rcases hv with hv | hv
      · exact (mem v).2 (.inr (hp v hv))
      · subst hv; exact (mem _).2 (.inl rfl)
    intro x hx y hy hr
    rcases (mem x).1 hx with ex | hx1 <;> rcases (mem y).1 hy with ey | hy1
    · subst ex; subst ey
      exact ⟨.nil, by intro v hv; simp at hv; subst hv; exact (mem _).2 (.inl rfl)⟩
    · subst ex
      obtain ⟨p, hp⟩ := one y hy1 hr.symm
      exact ⟨p.reverse, by simpa using hp⟩
    · subst ey; exact one x hx1 hr
    · obtain ⟨p, hp⟩ := g.conn x hx1 y hy1 hr
      exact ⟨p, ext x y p hp⟩

theorem Good.append (F : Forest foll prec) {l : List Name} (g : Good foll l) {n : Name} (hn : n ∉ l)
    (h : ∀ w ∈ l, ¬ (graph foll).Reachable n w) : Good foll (l ++ [n]) := by
  refine ⟨?_, ?_, ?_⟩
  · rw [List.nodup_append]
    refine ⟨g.nodup, by simp, ?_⟩
    intro a ha b hb e
    simp at hb; subst hb; subst e; exact hn ha
  · rw [List.pairwise_append]
    refine ⟨g.ord, by simp, ?_⟩
    intro a ha b hb hx
    simp at hb; subst hb
    exact h a ha (F.adj_foll hx).reachable
  · intro x hx y hy hr
    rcases List.mem_append.1 hx with hx1 | ex <;> rcases List.mem_append.1 hy with hy1 | ey
    · obtain ⟨p, hp⟩ := g.conn x hx1 y hy1 hr
      exact ⟨p, fun v hv => by simp [hp v hv]⟩
    · simp at ey; subst ey; exact absurd hr.symm (h x hx1)
    · simp at ex; subst ex; exact absurd hr (h y hy1)
    · simp at ex ey; subst ex; subst ey
      exact ⟨.nil, by simp⟩

/-- No neighbour of `n` in the list other than `u`: the position search does not move. -/
theorem insertPos_stay (l : List Name) (n : Name) (s : Nat)
    (hf : ∀ c ∈ foll n, c ∈ l → s ≤ l.idxOf c) (hp : ∀ c ∈ prec n, c ∈ l → l.idxOf c ≤ s) :
    insertPos foll prec l n s = s := by
  unfold insertPos
  have h1 : ∀ fs : List Name, (∀ c ∈ fs, c ∈ l → s ≤ l.idxOf c) →
      fs.foldl (fun p c => if c ∈ l ∧ l.idxOf c < p then l.idxOf c else p) s = s := by
    intro fs
    induction fs with
    | nil => intro _; rfl
    | cons c t ih =>
      intro h
      simp only [List.foldl_cons]
      rw [if_neg, ih (fun c hc => h c (by simp [hc]))]
      rintro ⟨hc, hlt⟩
      have := h c (by simp) hc
      omega
  have h2 : ∀ fs : List Name, (∀ c ∈ fs, c ∈ l → l.idxOf c ≤ s) →
      fs.foldl (fun p c => if c ∈ l ∧ p < l.idxOf c then l.idxOf c else p) s = s := by
    intro fs
    induction fs with
    | nil => intro _; rfl
    | cons c t ih =>
      intro h
      simp only [List.foldl_cons]
      rw [if_neg, ih (fun c hc => h c (by simp [hc]))]
      rintro ⟨hc, hlt⟩
      have := h c (by simp) hc
      omega
  simp only [h1 _ hf, h2 _ hp]

/-- How the recursion calls `update_list_with_controller_chain`. -/
def Called (foll : Name → List Name) (l : List Name) (n : Name) (pos : Nat) (app : Bool) : Prop :=
  (∃ u ∈ l, n ∈ foll u ∧ pos = l.idxOf u ∧ app = true) ∨
  (∃ u ∈ l, u ∈ foll n ∧ pos = l.idxOf u ∧ app = false) ∨
  ((∀ w ∈ l, ¬ (graph foll).Reachable n w) ∧ pos = l.length ∧ app = false)

theorem insertChain_forest (F : Forest foll prec) (keys : List Name) (hk : ∀ a b, b ∈ foll a → a ∈ keys ∧ b ∈ keys)
    (fuel : Nat) : ∀ (l : List Name) (n : Name) (pos : Nat) (app : Bool), Good foll l → n ∈ keys →
      n ∉ l → Called foll l n pos app → rem keys l ≤ fuel →
      let r := insertChain foll prec fuel l n pos app
      Good foll r ∧ (∀ x ∈ l, x ∈ r) ∧ n ∈ r ∧ (∀ x ∈ r, x ∉ l → ∀ y, Adj foll prec x y → y ∈ r) := by
  induction fuel with
  | zero =>
    intro l n pos app g hn hnl hc hr
    exfalso
    have : 0 < rem keys l := by
      unfold rem
      apply List.length_pos_of_mem (a := n)
      simp [hn, hnl]
    omega
  | succ fuel ih =>
    intro l n pos app g hn hnl hc hr
    dsimp only
    unfold insertChain
    rw [if_neg hnl]
    extract_lets p l1 l2
    -- the list right after the insertion
    have hins : Good foll l1 ∧ (∀ x, x ∈ l1 ↔ x = n ∨ x ∈ l) := by
      rcases hc with ⟨u, hu, hnu, hpos, happ⟩ | ⟨u, hu, hun, hpos, happ⟩ | ⟨hno, hpos, happ⟩
      · have hlt : l.idxOf u < l.length := List.idxOf_lt_length_iff.2 hu
        have hp : p = l.idxOf u := by
          simp only [p, hpos]
          apply insertPos_stay
          · intro c hcf hcl
            have : c = u := g.neighbour F hnl hu hcl (F.adj_foll hnu).symm (F.adj_foll hcf)
            subst this; exact le_rfl
          · intro c hcp hcl
            have : c = u := g.neighbour F hnl hu hcl (F.adj_foll hnu).symm (F.adj_iff.2 (.inr hcp))
            subst this; exact le_rfl
        have e : l1 = l.insertIdx (l.idxOf u + 1) n := by simp only [l1, happ, hp, if_true]
        rw [e]
        exact ⟨g.insert F hnl hu (.inl ⟨hnu, rfl⟩), fun x => List.mem_insertIdx (by omega)⟩
      · have hlt : l.idxOf u < l.length := List.idxOf_lt_length_iff.2 hu
        have hp : p = l.idxOf u := by
          simp only [p, hpos]
          apply insertPos_stay
          · intro c hcf hcl
            have : c = u := g.neighbour F hnl hu hcl (F.adj_foll hun) (F.adj_foll hcf)
            subst this; exact le_rfl
          · intro c hcp hcl
            have : c = u := g.neighbour F hnl hu hcl (F.adj_foll hun) (F.adj_iff.2 (.inr hcp))
            subst this; exact le_rfl
        have e : l1 = l.insertIdx (l.idxOf u) n := by
          simp only [l1, happ, hp, Bool.false_eq_true, if_false]
        rw [e]
        exact ⟨g.insert F hnl hu (.inr ⟨hun, rfl⟩), fun x => List.mem_insertIdx (by omega)⟩
      · have hp : p = l.length := by
          simp only [p, hpos]
          apply insertPos_stay
          · intro c hcf hcl
            exact absurd (F.adj_foll hcf).reachable (hno c hcl)
          · intro c hcp hcl
            exact absurd (F.adj_iff.2 (.inr hcp)).reachable (hno c hcl)
        have e : l1 = l ++ [n] := by
          simp only [l1, happ, hp, Bool.false_eq_true, if_false]
          simp
        rw [e]
        exact ⟨g.append F hnl hno, fun x => by simp [or_comm]⟩
    obtain ⟨g1, m1⟩ := hins
    have hr1 : rem keys l1 ≤ fuel := by
      have := rem_lt (K := keys) (l := l) (l' := l1) (n := n) (fun x hx => (m1 x).2 (.inr hx)) hn hnl ((m1 n).2 (.inl rfl))
      omega
    -- the two loops
    have loop : ∀ (fs : List Name) (app : Bool) (l' : List Name),
        (∀ f ∈ fs, (app = true ∧ f ∈ foll n) ∨ (app = false ∧ n ∈ foll f)) →
        Good foll l' → (∀ x ∈ l1, x ∈ l') → (∀ x ∈ l', x ∉ l1 → ∀ y, Adj foll prec x y → y ∈ l') →
        let r := fs.foldl (fun l f => insertChain foll prec fuel l f (l.idxOf n) app) l'
        Good foll r ∧ (∀ x ∈ l', x ∈ r) ∧ (∀ f ∈ fs, f ∈ r) ∧ (∀ x ∈ r, x ∉ l1 → ∀ y, Adj foll prec x y → y ∈ r) := by
      intro fs app
      induction fs with
      | nil => intro l' _ g' _ c'; exact ⟨g', fun _ h => h, by simp, c'⟩
      | cons f t iht =>
        intro l' hfs g' s' c'
        simp only [List.foldl_cons]
        have hnl' : n ∈ l' := s' n ((m1 n).2 (.inl rfl))
        have hff := hfs f (by simp)
        have hfk : f ∈ keys := by
          rcases hff with ⟨_, h⟩ | ⟨_, h⟩
          · exact (hk _ _ h).2
          · exact (hk _ _ h).1
        by_cases hfl : f ∈ l'
        · have e : insertChain foll prec fuel l' f (l'.idxOf n) app = l' := by
            cases fuel with
            | zero => rfl
            | succ k => unfold insertChain; rw [if_pos hfl]
          rw [e]
          obtain ⟨k1, k2, k3, k4⟩ := iht l' (fun x hx => hfs x (by simp [hx])) g' s' c'
          refine ⟨k1, k2, ?_, k4⟩
          intro x hx
          rcases List.mem_cons.1 hx with hx | hx
          · subst hx; exact k2 _ hfl
          · exact k3 x hx
        · have hcall : Called foll l' f (l'.idxOf n) app := by
            rcases hff with ⟨ha, h⟩ | ⟨ha, h⟩
            · exact .inl ⟨n, hnl', h, rfl, ha⟩
            · exact .inr (.inl ⟨n, hnl', h, rfl, ha⟩)
          have hrl : rem keys l' ≤ fuel := by
            refine le_trans ?_ hr1
            unfold rem
            apply List.Sublist.length_le
            apply List.monotone_filter_right
            intro x hx
            simp only [decide_eq_true_eq] at hx ⊢
            exact fun h => hx (s' x h)
          obtain ⟨j1, j2, j3, j4⟩ := ih l' f (l'.idxOf n) app g' hfk hfl hcall hrl
          obtain ⟨k1, k2, k3, k4⟩ := iht _ (fun x hx => hfs x (by simp [hx])) j1 (fun x hx => j2 x (s' x hx)) (by
            intro x hx hx1 y hy
            by_cases hxl : x ∈ l'
            · exact j2 y (c' x hxl hx1 y hy)
            · exact j4 x hx hxl y hy)
          refine ⟨k1, fun x hx => k2 x (j2 x hx), ?_, k4⟩
          intro x hx
          rcases List.mem_cons.1 hx with hx | hx
          · subst hx; exact k2 _ j3
          · exact k3 x hx
    obtain ⟨a1, a2, a3, a4⟩ := loop (foll n) true l1 (fun f hf => .inl ⟨rfl, hf⟩) g1 (fun _ h => h)
      (fun x hx hx' => absurd hx hx')
    obtain ⟨b1, b2, b3, b4⟩ := loop (prec n) false l2 (fun f hf => .inr ⟨rfl, (F.sym f n).2 hf⟩) a1 a2 a4
    refine ⟨b1, fun x hx => b2 x (a2 x ((m1 x).2 (.inr hx))), b2 n (a2 n ((m1 n).2 (.inl rfl))), ?_⟩
    intro x hx hxl y hy
    by_cases hxn : x = n
    · subst hxn
      rcases hy with hy | hy
      · exact b2 y (a3 y hy)
      · exact b3 y hy
    · exact b4 x hx (fun h => by
        rcases (m1 x).1 h with h | h
        · exact hxn h
        · exact hxl h) y hy

theorem orderAll_forest (F : Forest foll prec) (keys : List Name) (hk : ∀ a b, b ∈ foll a → a ∈ keys ∧ b ∈ keys)
    (fuel : Nat) (hfuel : keys.length ≤ fuel) : Good foll (orderAll foll prec fuel keys) := by
  unfold orderAll
  have gen : ∀ (ks l : List Name), (∀ k ∈ ks, k ∈ keys) → Good foll l →
      (∀ x ∈ l, ∀ y, Adj foll prec x y → y ∈ l) →
      Good foll (ks.foldl (fun l k => if k ∈ l then l else insertChain foll prec fuel l k l.length false) l) := by
    intro ks
    induction ks with
    | nil => intro l _ g _; exact g
    | cons k t ih =>
      intro l hks g c
      simp only [List.foldl_cons]
      split
      · exact ih l (fun x hx => hks x (by simp [hx])) g c
      · rename_i hkl
        have hno : ∀ w ∈ l, ¬ (graph foll).Reachable k w := by
          intro w hw hr
          have : ∀ {x y : Name} (p : (graph foll).Walk x y), y ∈ l → x ∈ l := by
            intro x y p
            induction p with
            | nil => exact id
            | cons h q ihq => intro hy; exact c _ (ihq hy) _ (F.adj_iff.1 h.symm)
          obtain ⟨p⟩ := hr
          exact hkl (this p hw)
        have hrem : rem keys l ≤ fuel := (rem_le _ _).trans hfuel
        obtain ⟨j1, j2, _, j4⟩ := insertChain_forest F keys hk fuel l k l.length false g (hks k (by simp)) hkl
          (.inr (.inr ⟨hno, rfl, rfl⟩)) hrem
        refine ih _ (fun x hx => hks x (by simp [hx])) j1 ?_
        intro x hx y hy
        by_cases hxl : x ∈ l
        · exact j2 y (c x hxl y hy)
        · exact j4 x hx hxl y hy
  exact gen keys [] (fun _ h => h) good_nil (by simp)

/-- A finite nonempty list has a minimal element of a transitive irreflexive relation. -/
theorem exists_minimal_list {α : Type} (R : α → α → Prop) (ht : ∀ a b c, R a b → R b c → R a c) (hi : ∀ a, ¬ R a a) :
    ∀ l : List α, l ≠ [] → ∃ m ∈ l, ∀ x ∈ l, ¬ R x m := by
  intro l
  induction l with
  | nil => intro h; exact absurd rfl h
  | cons a t ih =>
    intro _
    by_cases hte : t = []
    · subst hte
      exact ⟨a, by simp, by simpa using hi a⟩
    · obtain ⟨m, hm, hmin⟩ := ih hte
      by_cases ham : R a m
      · refine ⟨a, by simp, ?_⟩
        intro x hx
        rcases List.mem_cons.1 hx with rfl | hx
        · exact hi _
        · exact fun h => hmin x hx (ht _ _ _ h ham)
      · refine ⟨m, by simp [hm], ?_⟩
        intro x hx
        rcases List.mem_cons.1 hx with rfl | hx
        · exact ham
        · exact hmin x hx

/-- Without feedback loops, and if everybody feeds at most one other, the links form a forest. -/
theorem acyclic_of_functional (F : Name → Name → Prop) (hloop : ∀ a, ¬ Relation.TransGen F a a)
    (hone : ∀ a b c, F a b → F a c → b = c) : (SimpleGraph.fromRel F).IsAcyclic := by
  intro u p hp
  obtain ⟨m, hm, hmin⟩ := exists_minimal_list (Relation.TransGen F) (fun _ _ _ => Relation.TransGen.trans) hloop
    p.support (by simp)
  let q := p.rotate m hm
  have hq : q.IsCycle := hp.rotate hm
  have h1 : (SimpleGraph.fromRel F).Adj m q.snd := SimpleGraph.Walk.adj_snd hq.not_nil
  have h2 : (SimpleGraph.fromRel F).Adj q.penultimate m := SimpleGraph.Walk.adj_penultimate hq.not_nil
  have m1 : q.snd ∈ p.support := by
    rw [← SimpleGraph.Walk.mem_support_rotate_iff p m hm]
    exact SimpleGraph.Walk.getVert_mem_support _ _
  have m2 : q.penultimate ∈ p.support := by
    rw [← SimpleGraph.Walk.mem_support_rotate_iff p m hm]
    exact SimpleGraph.Walk.getVert_mem_support _ _
  have f1 : F m q.snd := by
    rcases h1.2 with h | h
    · exact h
    · exact absurd (.single h) (hmin _ m1)
  have f2 : F m q.penultimate := by
    rcases h2.2 with h | h
    · exact absurd (.single h) (hmin _ m2)
    · exact h
  exact hq.snd_ne_penultimate (hone _ _ _ f1 f2)

/-- The same if everybody is fed by at most one other. -/
theorem acyclic_of_cofunctional (F : Name → Name → Prop) (hloop : ∀ a, ¬ Relation.TransGen F a a)
    (hone : ∀ a b c, F b a → F c a → b = c) : (SimpleGraph.fromRel F).IsAcyclic := by
  have e : SimpleGraph.fromRel F = SimpleGraph.fromRel (Function.swap F) := by
    ext a b
    simp only [SimpleGraph.fromRel_adj, Function.swap, or_comm]
  rw [e]
  refine acyclic_of_functional _ ?_ (fun a b c h1 h2 => hone a b c h1 h2)
  intro a h
  exact hloop a (Relation.transGen_swap.1 h)

end Chain
end Verif
