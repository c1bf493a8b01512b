import Verif.RM.InitialLemmas
/-!
# C34: bring-up of the hardware at start

`Eff n rm rm' a b L`: from `rm` to `rm'`, component `n` went from state `a` to state `b`, and `L` are all its plugin was asked and
answered in between (newest first).
-/
namespace Verif
open RM

/-- Just loaded: any robot description, any plugins; `ord` and `gord` are the orders in which the code's hash maps enumerate the
components and their groups. -/
structure RM.Boot (o : Oracle) (ord gord : List Name) (rm : RM) : Prop where
  loaded : ∃ a b specs, rm = ((RM.empty a b).loadAll o specs).1
  ord : ord.Perm (rm.comps.map (·.name))
  groups : gord.Nodup
  all : ∀ h ∈ rm.comps, ∀ g, h.group = some g → g ∈ gord

/-- Neither listed as unconfigured nor as inactive. -/
def RM.InitCfg.Free (cfg : InitCfg) (n : Name) : Prop := n ∉ cfg.unconfigured ∧ n ∉ cfg.inactive

instance (cfg : InitCfg) (n : Name) : Decidable (cfg.Free n) := by unfold RM.InitCfg.Free; infer_instance

theorem RM.loadOne_fresh (o : Oracle) (rm : RM) (s : HwSpec) (h : ∀ c ∈ rm.comps, c.lc = .unconfigured) :
    ∀ c ∈ (rm.loadOne o s).1.comps, c.lc = .unconfigured := by
  have hS : ∀ (is : List Itf) (rm : RM), (rm.addStateItfs is).1.comps = rm.comps := by
    intro is
    induction is with
    | nil => intro rm; rfl
    | cons i is ih => intro rm; unfold addStateItfs; split <;> simp [ih]
  have hC : ∀ (is : List Itf) (rm : RM), (rm.addCmdItfs is).1.comps = rm.comps := by
    intro is
    induction is with
    | nil => intro rm; rfl
    | cons i is ih =>
      intro rm; unfold addCmdItfs
      split
      · rfl
      · dsimp only; split <;> simp_all
  unfold loadOne
  split
  · exact h
  split
  · exact h
  dsimp only
  split
  · rename_i hl
    split
    · intro c hc
      simp only [List.mem_append, List.mem_singleton] at hc
      rcases hc with hc | rfl
      · rw [hS] at hc; exact h c hc
      · exact hl
    · split
      · rename_i rm2 names he
        have := congrArg (fun q : RM × Option (List Itf) => q.1.comps) he
        rw [hC, hS] at this
        intro c hc
        simp only [List.mem_append, List.mem_singleton] at hc
        rcases hc with hc | rfl
        · dsimp only at this; rw [← this] at hc; exact h c hc
        · exact hl
      · rename_i rm2 he
        have := congrArg (fun q : RM × Option (List Itf) => q.1.comps) he
        rw [hC, hS] at this
        intro c hc
        simp only [List.mem_append, List.mem_singleton] at hc
        rcases hc with hc | rfl
        · dsimp only at this; rw [← this] at hc; exact h c hc
        · exact hl
  · exact h

theorem RM.loadAll_fresh (o : Oracle) (a b : Bool) (specs : List HwSpec) :
    ∀ c ∈ ((RM.empty a b).loadAll o specs).1.comps, c.lc = .unconfigured := by
  have hfold : ∀ (l : List HwSpec) (x : RM × Bool), (∀ c ∈ x.1.comps, c.lc = .unconfigured) →
      ∀ c ∈ (l.foldl (fun (acc : RM × Bool) s => if acc.2 then acc.1.loadOne o s else acc) x).1.comps, c.lc = .unconfigured := by
    intro l
    induction l with
    | nil => intro x h; exact h
    | cons s l ih =>
      intro x h
      rw [List.foldl_cons]
      apply ih
      split
      · exact loadOne_fresh o _ s h
      · exact h
  unfold loadAll
  dsimp only
  split
  · exact hfold specs _ (by simp [RM.empty])
  · simp

theorem RM.Boot.inv {o : Oracle} {ord gord : List Name} {rm : RM} (B : Boot o ord gord rm) : rm.Inv := by
  obtain ⟨a, b, specs, rfl⟩ := B.loaded
  exact inv_run o a b specs []

theorem RM.Boot.fresh {o : Oracle} {ord gord : List Name} {rm : RM} (B : Boot o ord gord rm) {n : Name} (hn : n ∈ ord) :
    rm.stateOf n = some .unconfigured := by
  obtain ⟨h, hh, rfl⟩ := List.mem_map.1 (B.ord.mem_iff.1 hn)
  unfold stateOf
  rw [findHw_of_mem B.inv.names hh, Option.map_some]
  obtain ⟨a, b, specs, rfl⟩ := B.loaded
  rw [loadAll_fresh o a b specs h hh]

theorem RM.Boot.nodup {o : Oracle} {ord gord : List Name} {rm : RM} (B : Boot o ord gord rm) : ord.Nodup :=
  B.ord.nodup_iff.2 B.inv.names

/-- Everything about one bring-up. -/
structure RM.Brought (cfg : InitCfg) (ord : List Name) (rm rm' : RM) (thrown : Bool) : Prop where
  inv : rm'.Inv
  unconfigured : ∀ n ∈ ord, n ∈ cfg.unconfigured → Eff n rm rm' .unconfigured .unconfigured []
  inactive : ∀ n ∈ ord, n ∈ cfg.inactive → n ∉ cfg.unconfigured →
    (Eff n rm rm' .unconfigured .unconfigured [] ∧ thrown = true) ∨
    ∃ a, Eff n rm rm' .unconfigured (if a = .success then .inactive else .unconfigured) [.hwCb n .configure a] ∧
      (cfg.shutdownOnFailure = true → thrown = false → a = .success)
  single : thrown = false → ∀ n ∈ ord, cfg.Free n → rm.groupOf n = none →
    Eff n rm rm' .unconfigured .active [.hwCb n .activate .success, .hwCb n .configure .success] ∨
    (cfg.shutdownOnFailure = false ∧ Failed n rm rm' ∧ rm'.stateOf n ≠ some .active)
  group : thrown = false → ∀ g, (∃ n ∈ ord, rm.groupOf n = some g) →
    GroupDone (ord.filter (fun n => cfg.Free n ∧ rm.groupOf n = some g)) rm rm' cfg.shutdownOnFailure
  thrown : thrown = true → cfg.shutdownOnFailure = true ∧ ∃ n ∈ ord, Failed n rm rm'

theorem RM.bringUp_spec (o : Oracle) (cfg : InitCfg) {ord gord : List Name} {rm : RM} (B : Boot o ord gord rm) :
    Brought cfg ord rm (bringUp o cfg ord gord rm).1 (bringUp o cfg ord gord rm).2 := by
  have hfresh := fun n (h : n ∈ ord) => B.fresh h
  have hnd := B.nodup
  have I := B.inv
  obtain ⟨vs, hv, hvn, hvm, hvf, hvt⟩ := initListed_visits o cfg.shutdownOnFailure .unconfigured cfg.unconfigured rm ord
  unfold bringUp
  dsimp only
  generalize initListed o cfg.shutdownOnFailure .unconfigured cfg.unconfigured rm ord = u at hv hvf hvt ⊢
  obtain ⟨rm1, rest1, t1⟩ := u
  dsimp only at hv hvf hvt ⊢
  have I1 := hv.inv I
  -- nothing happens in the first loop
  have hQ0 : ∀ m r, (m, r) ∈ vs → m ∈ ord → Eff m rm rm1 .unconfigured .unconfigured [] ∧ r = .ok := by
    intro m r hm ho
    obtain ⟨b, L, hE, rfl, rfl, hr⟩ := hv.self I hvn hm (hfresh m ho) (Q := fun b L r => b = .unconfigured ∧ L = [] ∧ r = .ok)
      (fun rm I h => ⟨_, _, (set_unconf_unconf o I m h).1, rfl, rfl, (set_unconf_unconf o I m h).2⟩)
    exact ⟨hE, hr⟩
  have hE1 : ∀ n ∈ ord, Eff n rm rm1 .unconfigured .unconfigured [] := by
    intro n hn
    by_cases hm : n ∈ vs.map (·.1)
    · obtain ⟨⟨m, r⟩, hv', rfl⟩ := List.mem_map.1 hm
      exact (hQ0 m r hv' hn).1
    · exact hv.other I hm (hfresh n hn)
  have ht1 : t1 = false := by
    cases t1 with
    | false => rfl
    | true =>
      obtain ⟨-, k, hk⟩ := hvt rfl
      have := (hQ0 k .error hk (hvm k (List.mem_map.2 ⟨_, hk, rfl⟩)).2).2
      cases this
  subst ht1
  simp only [Bool.false_eq_true, if_false]
  obtain ⟨hrest1, -, -⟩ := hvf rfl
  subst hrest1
  clear hQ0 hvf hvt hvm hvn hv vs
  obtain ⟨vs, hv, hvn, hvm, hvf, hvt⟩ := initListed_visits o cfg.shutdownOnFailure .inactive cfg.inactive rm1
    (ord.filter (fun m => m ∉ cfg.unconfigured))
  generalize initListed o cfg.shutdownOnFailure .inactive cfg.inactive rm1 (ord.filter (fun m => m ∉ cfg.unconfigured)) = i at hv hvf hvt ⊢
  obtain ⟨rm2, rest2, t2⟩ := i
  dsimp only at hv hvf hvt ⊢
  have I2 := hv.inv I1
  have hmem : ∀ m ∈ vs.map (·.1), m ∈ cfg.inactive ∧ m ∈ ord ∧ m ∉ cfg.unconfigured := by
    intro m hm
    obtain ⟨a, b⟩ := hvm m hm
    have := List.mem_filter.1 b
    exact ⟨a, this.1, by simpa using this.2⟩
  have hoth2 : ∀ n ∈ ord, n ∉ vs.map (·.1) → Eff n rm rm2 .unconfigured .unconfigured [] := fun n hn hm =>
    (hE1 n hn).trans (hv.other I1 hm (hE1 n hn).after)
  have hQ1 : ∀ m r, (m, r) ∈ vs → ∃ a, Eff m rm rm2 .unconfigured (if a = .success then .inactive else .unconfigured) [.hwCb m .configure a] ∧
      r = (if a = .success then .ok else .error) := by
    intro m r hm
    have ho := (hmem m (List.mem_map.2 ⟨_, hm, rfl⟩)).2.1
    obtain ⟨b, L, hE, a, rfl, rfl, hr⟩ := hv.self I1 hvn hm (hE1 m ho).after
      (Q := fun b L r => ∃ a : CbAns, b = (if a = .success then .inactive else .unconfigured) ∧ L = [.hwCb m .configure a] ∧
        r = (if a = .success then Ret.ok else .error))
      (fun rm I h => by
        obtain ⟨a, h1, h2⟩ := set_unconf_inactive o I m h
        exact ⟨_, _, h1, a, rfl, rfl, h2⟩)
    exact ⟨a, by simpa using (hE1 m ho).trans hE, hr⟩
  have hun2 : ∀ n ∈ ord, n ∈ cfg.unconfigured → Eff n rm rm2 .unconfigured .unconfigured [] := fun n hn hu =>
    hoth2 n hn (fun h => (hmem n h).2.2 hu)
  have hfree2 : ∀ n ∈ ord, cfg.Free n → Eff n rm rm2 .unconfigured .unconfigured [] := fun n hn hf =>
    hoth2 n hn (fun h => hf.2 (hmem n h).1)
  cases t2 with
  | true =>
    obtain ⟨hs, k, hk⟩ := hvt rfl
    refine ⟨I2, hun2, ?_, by simp, by simp, fun _ => ⟨hs, k, (hmem k (List.mem_map.2 ⟨_, hk, rfl⟩)).2.1, ?_⟩⟩
    · intro n hn hi hu
      by_cases hm : n ∈ vs.map (·.1)
      · obtain ⟨⟨m, r⟩, hv', rfl⟩ := List.mem_map.1 hm
        obtain ⟨a, hE, -⟩ := hQ1 m r hv'
        exact .inr ⟨a, hE, fun _ h => by cases h⟩
      · exact .inl ⟨hoth2 n hn hm, rfl⟩
    · obtain ⟨a, hE, hr⟩ := hQ1 k .error hk
      have ha : a ≠ .success := by rintro rfl; cases hr
      exact ⟨_, _, _, a, .configure, hE, .inl rfl, ha, by simp⟩
  | false =>
    simp only [Bool.false_eq_true, if_false]
    obtain ⟨hrest2, hall2, hok2⟩ := hvf rfl
    rw [List.filter_filter] at hrest2
    have hrest : rest2 = ord.filter (fun n => cfg.Free n) := by
      rw [hrest2]
      apply List.filter_congr
      intro n _
      by_cases h1 : n ∈ cfg.inactive <;> by_cases h2 : n ∈ cfg.unconfigured <;> simp [RM.InitCfg.Free, h1, h2]
    subst hrest
    clear hrest2
    have hin2 : ∀ n ∈ ord, n ∈ cfg.inactive → n ∉ cfg.unconfigured →
        ∃ a, Eff n rm rm2 .unconfigured (if a = .success then .inactive else .unconfigured) [.hwCb n .configure a] ∧
          (cfg.shutdownOnFailure = true → a = .success) := by
      intro n hn hi hu
      obtain ⟨⟨m, r⟩, hv', rfl⟩ := List.mem_map.1 (hall2 n hi (List.mem_filter.2 ⟨hn, by simpa using hu⟩))
      obtain ⟨a, hE, hr⟩ := hQ1 m r hv'
      refine ⟨a, hE, ?_⟩
      intro hs
      have := hok2 hs _ hv'
      dsimp only at this
      rw [this] at hr
      by_contra h
      rw [if_neg h] at hr
      cases hr
    clear hall2 hok2 hQ1 hmem hoth2 hvt hvf hv hvm hvn vs
    have hmemg : ∀ g n, n ∈ (ord.filter (fun n => cfg.Free n)).filter (fun n => rm.groupOf n = some g) ↔
        n ∈ ord ∧ cfg.Free n ∧ rm.groupOf n = some g := by
      intro g n; simp only [List.mem_filter, and_assoc, decide_eq_true_eq]
    obtain ⟨I3, g1, g2, g3, g4⟩ := initGroups_spec o cfg.shutdownOnFailure
      (fun g => (ord.filter (fun n => cfg.Free n)).filter (fun n => rm.groupOf n = some g)) gord I2 B.groups
      (fun g => (hnd.filter _).filter _)
      (fun g g' n h h' => by
        have a := ((hmemg g n).1 h).2.2
        have b := ((hmemg g' n).1 h').2.2
        rw [a] at b; exact Option.some.inj b)
      (fun g _ n hn => (hfree2 n ((hmemg g n).1 hn).1 ((hmemg g n).1 hn).2.1).after)
    generalize initGroups o cfg.shutdownOnFailure
      (fun g => (ord.filter (fun n => cfg.Free n)).filter (fun n => rm.groupOf n = some g)) gord rm2 = q at I3 g1 g2 g3 g4 ⊢
    obtain ⟨rm3, t3⟩ := q
    dsimp only at I3 g1 g2 g3 g4 ⊢
    have hlist3 : ∀ n, ¬ cfg.Free n → ∀ g ∈ gord, n ∉ (ord.filter (fun n => cfg.Free n)).filter (fun n => rm.groupOf n = some g) :=
      fun n h g _ hm => h ((hmemg g n).1 hm).2.1
    have hsing3 : ∀ n, rm.groupOf n = none → ∀ g ∈ gord, n ∉ (ord.filter (fun n => cfg.Free n)).filter (fun n => rm.groupOf n = some g) :=
      fun n h g _ hm => by have := ((hmemg g n).1 hm).2.2; rw [h] at this; cases this
    have hun3 : ∀ n ∈ ord, n ∈ cfg.unconfigured → Eff n rm rm3 .unconfigured .unconfigured [] := fun n hn hu =>
      (hun2 n hn hu).trans (g1 n _ (hlist3 n (fun h => h.1 hu)) (hun2 n hn hu).after)
    have hin3 : ∀ n ∈ ord, n ∈ cfg.inactive → n ∉ cfg.unconfigured →
        ∃ a, Eff n rm rm3 .unconfigured (if a = .success then .inactive else .unconfigured) [.hwCb n .configure a] ∧
          (cfg.shutdownOnFailure = true → a = .success) := by
      intro n hn hi hu
      obtain ⟨a, hE, hs⟩ := hin2 n hn hi hu
      exact ⟨a, hE.trans (g1 n _ (hlist3 n (fun h => h.2 hi)) hE.after), hs⟩
    have hgrp : ∀ g, (ord.filter (fun n => cfg.Free n)).filter (fun n => rm.groupOf n = some g) =
        ord.filter (fun n => cfg.Free n ∧ rm.groupOf n = some g) := by
      intro g
      rw [List.filter_filter]
      apply List.filter_congr
      intro n _
      rw [Bool.decide_and, Bool.and_comm]
    have hgm : ∀ n ∈ ord, ∀ g, rm.groupOf n = some g → g ∈ gord := by
      intro n hn g hg
      obtain ⟨h, hh, rfl⟩ := List.mem_map.1 (B.ord.mem_iff.1 hn)
      unfold groupOf at hg
      rw [findHw_of_mem I.names hh] at hg
      exact B.all h hh g hg
    cases t3 with
    | true =>
      simp only [if_true]
      refine ⟨I3, hun3, ?_, by simp, by simp, fun _ => ?_⟩
      · intro n hn hi hu
        obtain ⟨a, hE, hs⟩ := hin3 n hn hi hu
        exact .inr ⟨a, hE, fun h _ => hs h⟩
      · obtain ⟨hs, g, hg, n, hn, hf⟩ := g2 rfl
        have := (hmemg g n).1 hn
        exact ⟨hs, n, this.1, hf.after (hfree2 n this.1 this.2.1)⟩
    | false =>
      simp only [Bool.false_eq_true, if_false]
      obtain ⟨vs, hv, hvp, hvf, hvt⟩ := initSingles_visits o cfg.shutdownOnFailure
        ((ord.filter (fun n => cfg.Free n)).filter (fun n => rm.groupOf n = none)) rm3
      generalize initSingles o cfg.shutdownOnFailure
        ((ord.filter (fun n => cfg.Free n)).filter (fun n => rm.groupOf n = none)) rm3 = q at hv hvf hvt ⊢
      obtain ⟨rm4, t4⟩ := q
      dsimp only at hv hvf hvt ⊢
      have I4 := hv.inv I3
      have hmems : ∀ n, n ∈ (ord.filter (fun n => cfg.Free n)).filter (fun n => rm.groupOf n = none) ↔
          n ∈ ord ∧ cfg.Free n ∧ rm.groupOf n = none := by
        intro n; simp only [List.mem_filter, and_assoc, decide_eq_true_eq]
      have hvm : ∀ n ∈ vs.map (·.1), n ∈ ord ∧ cfg.Free n ∧ rm.groupOf n = none := fun n hn =>
        (hmems n).1 (hvp.subset hn)
      have hvn : (vs.map (·.1)).Nodup := ((hnd.filter _).filter _).sublist hvp.sublist
      have hs3 : ∀ n ∈ ord, cfg.Free n → rm.groupOf n = none → Eff n rm rm3 .unconfigured .unconfigured [] := fun n hn hf hg =>
        (hfree2 n hn hf).trans (g1 n _ (hsing3 n hg) (hfree2 n hn hf).after)
      have hQ : ∀ m r, (m, r) ∈ vs → ∃ b L, Eff m rm rm4 .unconfigured b L ∧
          ((r = .ok ∧ b = .active ∧ L = [.hwCb m .activate .success, .hwCb m .configure .success]) ∨
           (r = .error ∧ b ≠ .active ∧ ∃ ans cb, (cb = .configure ∨ cb = .activate) ∧ ans ≠ .success ∧ Ev.hwCb m cb ans ∈ L)) := by
        intro m r hm
        obtain ⟨h1, h2, h3⟩ := hvm m (List.mem_map.2 ⟨_, hm, rfl⟩)
        obtain ⟨b, L, hE, h⟩ := hv.self I3 hvn hm (hs3 m h1 h2 h3).after
          (Q := fun b L r => (r = .ok ∧ b = .active ∧ L = [.hwCb m .activate .success, .hwCb m .configure .success]) ∨
            (r = .error ∧ b ≠ .active ∧ ∃ ans cb, (cb = .configure ∨ cb = .activate) ∧ ans ≠ .success ∧ Ev.hwCb m cb ans ∈ L))
          (fun rm I h => by
            obtain ⟨b, L, hE, h⟩ := set_unconf_active o I m h
            refine ⟨b, L, hE, ?_⟩
            rcases h with h | ⟨h1, h2, ⟨a, ha, hL⟩ | ⟨a, post, ha, hL⟩⟩
            · exact .inl h
            · exact .inr ⟨h1, h2, a, .configure, .inl rfl, ha, by rw [hL]; simp⟩
            · exact .inr ⟨h1, h2, a, .activate, .inr rfl, ha, by rw [hL]; simp⟩)
        exact ⟨b, L ++ [], (hs3 m h1 h2 h3).trans hE, by simpa using h⟩
      have hother4 : ∀ n a, ¬ (cfg.Free n ∧ rm.groupOf n = none) → rm3.stateOf n = some a → Eff n rm3 rm4 a a [] :=
        fun n a h ha => hv.other I3 (fun hm => h (hvm n hm).2) ha
      refine ⟨I4, ?_, ?_, ?_, ?_, ?_⟩
      · intro n hn hu
        exact (hun3 n hn hu).trans (hother4 n _ (fun h => h.1.1 hu) (hun3 n hn hu).after)
      · intro n hn hi hu
        obtain ⟨a, hE, hs⟩ := hin3 n hn hi hu
        exact .inr ⟨a, hE.trans (hother4 n _ (fun h => h.1.2 hi) hE.after), fun h _ => hs h⟩
      · intro ht n hn hf hg
        obtain ⟨hnames, hok⟩ := hvf ht
        obtain ⟨⟨m, r⟩, hv', rfl⟩ := List.mem_map.1 (hnames ▸ (hmems n).2 ⟨hn, hf, hg⟩)
        obtain ⟨b, L, hE, h⟩ := hQ m r hv'
        rcases h with ⟨-, rfl, rfl⟩ | ⟨hr, hb, ans, cb, h1, h2, h3⟩
        · exact .inl hE
        · refine .inr ⟨?_, ⟨_, b, L, ans, cb, hE, h1, h2, h3⟩, by rw [hE.after]; simpa using hb⟩
          cases hs : cfg.shutdownOnFailure with
          | false => rfl
          | true => have := hok hs _ hv'; rw [hr] at this; cases this
      · intro _ g hg
        obtain ⟨n0, hn0, hg0⟩ := hg
        rw [← hgrp g]
        refine GroupDone.after ?_ (GroupDone.then (g3 rfl g (hgm n0 hn0 g hg0)) ?_)
        · intro n hn
          have := (hmemg g n).1 hn
          exact hfree2 n this.1 this.2.1
        · intro n hn a ha
          have := (hmemg g n).1 hn
          exact hother4 n a (fun h => by rw [this.2.2] at h; cases h.2) ha
      · intro ht
        obtain ⟨hs, k, hk⟩ := hvt ht
        obtain ⟨b, L, hE, h⟩ := hQ k .error hk
        refine ⟨hs, k, (hvm k (List.mem_map.2 ⟨_, hk, rfl⟩)).1, ?_⟩
        rcases h with ⟨h, -⟩ | ⟨-, -, ans, cb, h1, h2, h3⟩
        · cases h
        · exact ⟨_, b, L, ans, cb, hE, h1, h2, h3⟩

/-! ## The property -/

/-- **C34, listed as unconfigured.** Nothing is asked of such a component, whatever happens to others, and it stays unconfigured. -/
theorem bringUp_unconfigured (o : Oracle) (cfg : InitCfg) (ord gord : List Name) (rm : RM) (B : Boot o ord gord rm)
    (n : Name) (hn : n ∈ rm.comps.map (·.name)) (hl : n ∈ cfg.unconfigured) :
    Eff n rm (bringUp o cfg ord gord rm).1 .unconfigured .unconfigured [] :=
  (bringUp_spec o cfg B).unconfigured n (B.ord.mem_iff.2 hn) hl

/-- **C34, listed as inactive** (and not as unconfigured): such a component is configured once and nothing else; it becomes inactive
if it accepts and stays unconfigured otherwise. If the bring-up is aborted, it may not have been reached. -/
theorem bringUp_inactive (o : Oracle) (cfg : InitCfg) (ord gord : List Name) (rm : RM) (B : Boot o ord gord rm)
    (n : Name) (hn : n ∈ rm.comps.map (·.name)) (hl : n ∈ cfg.inactive) (hu : n ∉ cfg.unconfigured) :
    (Eff n rm (bringUp o cfg ord gord rm).1 .unconfigured .unconfigured [] ∧ (bringUp o cfg ord gord rm).2 = true) ∨
    ∃ a, Eff n rm (bringUp o cfg ord gord rm).1 .unconfigured (if a = .success then .inactive else .unconfigured)
      [.hwCb n .configure a] := by
  rcases (bringUp_spec o cfg B).inactive n (B.ord.mem_iff.2 hn) hl hu with h | ⟨a, h, -⟩
  · exact .inl h
  · exact .inr ⟨a, h⟩

/-- **C34, all others, without a group.** If the bring-up is not aborted, the component was configured and activated and is active,
unless it refused one of them; then it is not active. -/
theorem bringUp_others (o : Oracle) (cfg : InitCfg) (ord gord : List Name) (rm : RM) (B : Boot o ord gord rm)
    (h : Hw) (hh : h ∈ rm.comps) (hf : cfg.Free h.name) (hg : h.group = none) (ht : (bringUp o cfg ord gord rm).2 = false) :
    Eff h.name rm (bringUp o cfg ord gord rm).1 .unconfigured .active
      [.hwCb h.name .activate .success, .hwCb h.name .configure .success] ∨
    (Failed h.name rm (bringUp o cfg ord gord rm).1 ∧ (bringUp o cfg ord gord rm).1.stateOf h.name ≠ some .active) := by
  have hgo : rm.groupOf h.name = none := by unfold groupOf; rw [findHw_of_mem B.inv.names hh]; exact hg
  rcases (bringUp_spec o cfg B).single ht h.name (B.ord.mem_iff.2 (List.mem_map.2 ⟨h, hh, rfl⟩)) hf hgo with h | ⟨-, h⟩
  · exact .inl h
  · exact .inr h

/-- **C34, groups (part).** If the bring-up is not aborted, then of the components of a group that are not listed either all are
active, or one of them refused and none is active, except one that refused to be deactivated again. -/
theorem bringUp_groups_partial (o : Oracle) (cfg : InitCfg) (ord gord : List Name) (rm : RM) (B : Boot o ord gord rm)
    (g : Name) (ht : (bringUp o cfg ord gord rm).2 = false) :
    (∀ h ∈ rm.comps, cfg.Free h.name → h.group = some g → (bringUp o cfg ord gord rm).1.stateOf h.name = some .active) ∨
    ((∃ h ∈ rm.comps, cfg.Free h.name ∧ h.group = some g ∧ Failed h.name rm (bringUp o cfg ord gord rm).1) ∧
     ∀ h ∈ rm.comps, cfg.Free h.name → h.group = some g → (bringUp o cfg ord gord rm).1.stateOf h.name ≠ some .active ∨
      ∃ es a, (bringUp o cfg ord gord rm).1.tr = es ++ rm.tr ∧ a ≠ .success ∧ Ev.hwCb h.name .deactivate a ∈ es) := by
  have hgo : ∀ h ∈ rm.comps, rm.groupOf h.name = h.group := by
    intro h hh; unfold groupOf; rw [findHw_of_mem B.inv.names hh]; rfl
  by_cases hex : ∃ n ∈ ord, rm.groupOf n = some g
  · have hm : ∀ h ∈ rm.comps, cfg.Free h.name → h.group = some g →
        h.name ∈ ord.filter (fun n => cfg.Free n ∧ rm.groupOf n = some g) := by
      intro h hh hf hg
      rw [List.mem_filter]
      exact ⟨B.ord.mem_iff.2 (List.mem_map.2 ⟨h, hh, rfl⟩), by simp [hf, hgo h hh, hg]⟩
    rcases (bringUp_spec o cfg B).group ht g hex with h | ⟨-, ⟨n, hn, hF⟩, h⟩
    · exact .inl fun c hc hf hg => (h c.name (hm c hc hf hg)).after
    · refine .inr ⟨?_, ?_⟩
      · rw [List.mem_filter] at hn
        obtain ⟨c, hc, rfl⟩ := List.mem_map.1 (B.ord.mem_iff.1 hn.1)
        have := hn.2
        simp only [decide_eq_true_eq] at this
        exact ⟨c, hc, this.1, by rw [← hgo c hc]; exact this.2, hF⟩
      · intro c hc hf hg
        obtain ⟨b, L, hE, hb⟩ := h c.name (hm c hc hf hg)
        by_cases hba : b = .active
        · obtain ⟨a, ha, hL⟩ := hb hba
          obtain ⟨es, e1, e2⟩ := hE.trace
          refine .inr ⟨es, a, e1, ha, ?_⟩
          rw [← e2] at hL
          exact (List.mem_filter.1 hL).1
        · refine .inl ?_
          rw [hE.after]; simpa using hba
  · refine .inl fun h hh _ hg => absurd ⟨h.name, B.ord.mem_iff.2 (List.mem_map.2 ⟨h, hh, rfl⟩), ?_⟩ hex
    rw [hgo h hh, hg]

/-- **C34, when nothing goes wrong, and with `shutdown_on_initial_state_failure`.** The bring-up is aborted only if that
parameter is set and some component refused. If it is set and the bring-up is not aborted, or if no component answered anything but
success, every component ends exactly in the configured state. -/
theorem bringUp_exact (o : Oracle) (cfg : InitCfg) (ord gord : List Name) (rm : RM) (B : Boot o ord gord rm) :
    ((bringUp o cfg ord gord rm).2 = true → cfg.shutdownOnFailure = true ∧
      ∃ n ∈ rm.comps.map (·.name), Failed n rm (bringUp o cfg ord gord rm).1) ∧
    (((bringUp o cfg ord gord rm).2 = false ∧ cfg.shutdownOnFailure = true ∨
      (∀ es n cb a, (bringUp o cfg ord gord rm).1.tr = es ++ rm.tr → Ev.hwCb n cb a ∈ es → a = .success)) →
     (bringUp o cfg ord gord rm).2 = false ∧ ∀ n ∈ rm.comps.map (·.name), (bringUp o cfg ord gord rm).1.stateOf n =
      some (if n ∈ cfg.unconfigured then .unconfigured else if n ∈ cfg.inactive then .inactive else .active)) := by
  have S := bringUp_spec o cfg B
  refine ⟨fun h => ?_, fun h => ?_⟩
  · obtain ⟨h1, n, hn, hF⟩ := S.thrown h
    exact ⟨h1, n, B.ord.mem_iff.1 hn, hF⟩
  have hno : ∀ n, Failed n rm (bringUp o cfg ord gord rm).1 →
      (∀ es n cb a, (bringUp o cfg ord gord rm).1.tr = es ++ rm.tr → Ev.hwCb n cb a ∈ es → a = .success) → False := by
    rintro n ⟨a, b, L, ans, cb, hE, -, h2, h3⟩ hall
    obtain ⟨es, e1, e2⟩ := hE.trace
    rw [← e2] at h3
    exact h2 (hall es n cb ans e1 (List.mem_filter.1 h3).1)
  have ht : (bringUp o cfg ord gord rm).2 = false := by
    rcases h with h | h
    · exact h.1
    · rw [Bool.eq_false_iff]
      intro ht
      obtain ⟨-, n, -, hF⟩ := S.thrown ht
      exact hno n hF h
  refine ⟨ht, ?_⟩
  intro n hn
  have hno' := B.ord.mem_iff.2 hn
  by_cases hu : n ∈ cfg.unconfigured
  · rw [if_pos hu]; exact (S.unconfigured n hno' hu).after
  rw [if_neg hu]
  by_cases hi : n ∈ cfg.inactive
  · rw [if_pos hi]
    rcases S.inactive n hno' hi hu with ⟨-, h'⟩ | ⟨a, hE, hs⟩
    · rw [ht] at h'; cases h'
    · have ha : a = .success := by
        rcases h with h | h
        · exact hs h.2 ht
        · obtain ⟨es, e1, e2⟩ := hE.trace
          refine h es n .configure a e1 ?_
          have : Ev.hwCb n .configure a ∈ own n es := by rw [e2]; simp
          exact (List.mem_filter.1 this).1
      rw [if_pos ha] at hE
      exact hE.after
  rw [if_neg hi]
  cases hg : rm.groupOf n with
  | none =>
    rcases S.single ht n hno' ⟨hu, hi⟩ hg with h' | ⟨hs, hF, -⟩
    · exact h'.after
    · rcases h with h | h
      · rw [hs] at h; cases h.2
      · exact absurd hF (fun hF => hno n hF h)
  | some g =>
    have hm : n ∈ ord.filter (fun n => cfg.Free n ∧ rm.groupOf n = some g) :=
      List.mem_filter.2 ⟨hno', by simp [InitCfg.Free, hu, hi, hg]⟩
    rcases S.group ht g ⟨n, hno', hg⟩ with h' | ⟨hs, ⟨m, -, hF⟩, -⟩
    · exact (h' n hm).after
    · rcases h with h | h
      · rw [hs] at h; cases h.2
      · exact absurd hF (fun hF => hno m hF h)

/-- The bring-up consists of calls of `set_component_state`: everything proved about reachable resource managers holds after it. -/
theorem bringUp_reachable (o : Oracle) (cfg : InitCfg) (ord gord : List Name) (rm : RM) (hr : rm.Reach o) :
    (bringUp o cfg ord gord rm).1.Reach o := by
  have hset : ∀ (rm : RM) n t, rm.Reach o → (rm.setComponentState o n t).1.Reach o := by
    rintro rm n t ⟨a, b, specs, ops, rfl⟩
    exact ⟨a, b, specs, ops ++ [.setState n t], by simp [RM.run, RM.step]⟩
  have hL : ∀ s t l (rm : RM) rest, rm.Reach o → (initListed o s t l rm rest).1.Reach o := by
    intro s t l
    induction l with
    | nil => intro rm rest h; exact h
    | cons n l ih =>
      intro rm rest h
      unfold initListed
      split
      · dsimp only; split
        · exact hset _ _ _ h
        · exact ih _ _ (hset _ _ _ h)
      · exact ih _ _ h
  have hA : ∀ t l (rm : RM), rm.Reach o → (initAll o t l rm).1.Reach o := by
    intro t l
    induction l with
    | nil => intro rm h; exact h
    | cons n l ih =>
      intro rm h
      unfold initAll
      dsimp only; split
      · exact hset _ _ _ h
      · exact ih _ (hset _ _ _ h)
  have hR : ∀ l (rm : RM), rm.Reach o → (initRollback o l rm).Reach o := by
    intro l
    induction l with
    | nil => intro rm h; exact h
    | cons n l ih => intro rm h; exact ih _ (hset _ _ _ h)
  have hG : ∀ s l (rm : RM), rm.Reach o → (initGroup o s l rm).1.Reach o := by
    intro s l rm h
    unfold initGroup
    dsimp only
    split
    · exact hA _ _ _ h
    · split
      · split
        · exact hA _ _ _ (hA _ _ _ h)
        · exact hR _ _ (hA _ _ _ (hA _ _ _ h))
      · exact hA _ _ _ (hA _ _ _ h)
  have hGs : ∀ s m l (rm : RM), rm.Reach o → (initGroups o s m l rm).1.Reach o := by
    intro s m l
    induction l with
    | nil => intro rm h; exact h
    | cons n l ih =>
      intro rm h
      unfold initGroups
      dsimp only; split
      · exact hG _ _ _ h
      · exact ih _ (hG _ _ _ h)
  have hS : ∀ s l (rm : RM), rm.Reach o → (initSingles o s l rm).1.Reach o := by
    intro s l
    induction l with
    | nil => intro rm h; exact h
    | cons n l ih =>
      intro rm h
      unfold initSingles
      dsimp only; split
      · exact hset _ _ _ h
      · exact ih _ (hset _ _ _ h)
  unfold bringUp
  dsimp only
  split
  · exact hL _ _ _ _ _ hr
  split
  · exact hL _ _ _ _ _ (hL _ _ _ _ _ hr)
  split
  · exact hGs _ _ _ _ (hL _ _ _ _ _ (hL _ _ _ _ _ hr))
  · exact hS _ _ _ (hGs _ _ _ _ (hL _ _ _ _ _ (hL _ _ _ _ _ hr)))

/-! ## Examples -/

/-- Five components: 1 and 2 without a group, 3, 4 and 5 in group 7. -/
def fiveSpecs : List HwSpec :=
  [{ name := 1, kind := .actuator, group := none, loads := true, exportS := [⟨10, 0⟩], exportC := [⟨10, 0⟩], declS := [], declC := [] },
   { name := 2, kind := .sensor, group := none, loads := true, exportS := [⟨20, 0⟩], exportC := [], declS := [], declC := [] },
   { name := 3, kind := .system, group := some 7, loads := true, exportS := [⟨30, 0⟩], exportC := [⟨30, 0⟩], declS := [], declC := [] },
   { name := 4, kind := .system, group := some 7, loads := true, exportS := [⟨40, 0⟩], exportC := [⟨40, 0⟩], declS := [], declC := [] },
   { name := 5, kind := .system, group := some 7, loads := true, exportS := [⟨50, 0⟩], exportC := [⟨50, 0⟩], declS := [], declC := [] }]

/-- Plugins that answer `f` to transition callbacks. -/
def cbOracle (f : Name → HwCb → CbAns) : Oracle := { goodOracle with hwCb := fun _ n cb => f n cb }

theorem five_boot (f : Name → HwCb → CbAns) (hf : ∀ n, f n .init = .success) :
    Boot (cbOracle f) [2, 5, 1, 3, 4] [7] ((RM.empty false false).loadAll (cbOracle f) fiveSpecs).1 := by
  have hc : ((RM.empty false false).loadAll (cbOracle f) fiveSpecs).1.comps =
      [{ name := 1, kind := .actuator, group := none, stateItfs := [⟨10, 0⟩], cmdItfs := [⟨10, 0⟩], lc := .unconfigured },
       { name := 2, kind := .sensor, group := none, stateItfs := [⟨20, 0⟩], cmdItfs := [], lc := .unconfigured },
       { name := 3, kind := .system, group := some 7, stateItfs := [⟨30, 0⟩], cmdItfs := [⟨30, 0⟩], lc := .unconfigured },
       { name := 4, kind := .system, group := some 7, stateItfs := [⟨40, 0⟩], cmdItfs := [⟨40, 0⟩], lc := .unconfigured },
       { name := 5, kind := .system, group := some 7, stateItfs := [⟨50, 0⟩], cmdItfs := [⟨50, 0⟩], lc := .unconfigured }] := by
    simp [RM.loadAll, fiveSpecs, RM.loadOne, RM.empty, Hw.init, cbOracle, hf, RM.addStateItfs, RM.addCmdItfs]
  refine ⟨⟨false, false, fiveSpecs, rfl⟩, ?_, by simp, ?_⟩
  · rw [hc]; decide
  · rw [hc]; decide

/-- States after the bring-up, and whether it was aborted. -/
def bootStates (f : Name → HwCb → CbAns) (cfg : InitCfg) : List (Option LState) × Bool :=
  let r := bringUp (cbOracle f) cfg [2, 5, 1, 3, 4] [7] ((RM.empty false false).loadAll (cbOracle f) fiveSpecs).1
  ([1, 2, 3, 4, 5].map r.1.stateOf, r.2)

/-- All well, with lists that overlap and name an unknown component; a failure in the group rolled back; a failure of one without a group. -/
example :
    bootStates (fun _ _ => .success) { unconfigured := [2, 2, 9], inactive := [2, 1] } =
      ([some .inactive, some .unconfigured, some .active, some .active, some .active], false) ∧
    bootStates (fun n cb => if n = 3 ∧ cb = .activate then .error else .success) { shutdownOnFailure := false } =
      ([some .active, some .active, some .unconfigured, some .inactive, some .inactive], false) ∧
    bootStates (fun n cb => if n = 3 ∧ cb = .configure then .failure else .success) { shutdownOnFailure := false } =
      ([some .active, some .active, some .unconfigured, some .unconfigured, some .inactive], false) ∧
    bootStates (fun n cb => if n = 2 ∧ cb = .activate then .failure else .success) { shutdownOnFailure := false } =
      ([some .active, some .inactive, some .active, some .active, some .active], false) := by decide

/-- **C34, negation of all-or-nothing (1).** A member that refuses to be deactivated in the rollback stays active. -/
theorem group_half_active_after_rollback :
    bootStates (fun n cb => if n = 3 ∧ cb = .activate ∨ n = 5 ∧ cb = .deactivate then .failure else .success)
      { shutdownOnFailure := false } =
      ([some .active, some .active, some .inactive, some .inactive, some .active], false) := by decide

/-- **C34, negation of all-or-nothing (2).** A member that is listed as inactive does not keep the rest of its group from being
activated. -/
theorem group_half_active_by_list :
    bootStates (fun _ _ => .success) { inactive := [4] } =
      ([some .active, some .active, some .active, some .inactive, some .active], false) := by decide

/-- **C34, negation of all-or-nothing (3).** With `shutdown_on_initial_state_failure` the exception leaves the group without rollback:
the members activated before stay active. -/
theorem group_half_active_after_abort :
    bootStates (fun n cb => if n = 3 ∧ cb = .activate then .failure else .success) { shutdownOnFailure := true } =
      ([some .unconfigured, some .unconfigured, some .inactive, some .inactive, some .active], true) := by decide

end Verif
