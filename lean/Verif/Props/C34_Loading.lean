import Verif.Props.C34_BringUp
import Verif.Props.C03_C05_Resource
/-!
# C34 and C05: loading is all or nothing, and what can be claimed of a component
-/
namespace Verif
open RM

theorem RM.addStateItfs_comps (is : List Itf) (rm : RM) : (rm.addStateItfs is).1.comps = rm.comps := by
  induction is generalizing rm with
  | nil => rfl
  | cons i is ih => unfold addStateItfs; split <;> simp [ih]

theorem RM.addCmdItfs_comps (is : List Itf) (rm : RM) : (rm.addCmdItfs is).1.comps = rm.comps := by
  induction is generalizing rm with
  | nil => rfl
  | cons i is ih =>
    unfold addCmdItfs
    split
    · rfl
    · dsimp only; split <;> simp_all

/-- One component that is loaded: it is new, its plugin exists, it comes last. -/
theorem RM.loadOne_added (o : Oracle) (rm : RM) (s : HwSpec) (h : (rm.loadOne o s).2 = true) :
    (∀ c ∈ rm.comps, c.name ≠ s.name) ∧ s.loads = true ∧
    ∃ c, (rm.loadOne o s).1.comps = rm.comps ++ [c] ∧ c.name = s.name ∧ c.kind = s.kind ∧ c.group = s.group := by
  have hi : ∀ (h : Hw) (tr : List Ev), (h.init o tr).1.name = h.name ∧ (h.init o tr).1.kind = h.kind ∧ (h.init o tr).1.group = h.group := by
    intro h tr; unfold Hw.init; split <;> (try split) <;> exact ⟨rfl, rfl, rfl⟩
  unfold loadOne at h ⊢
  by_cases h1 : (rm.comps.any fun h => decide (h.name = s.name)) = true
  · rw [if_pos h1] at h; simp at h
  rw [if_neg h1] at h ⊢
  by_cases h2 : s.loads = false
  · rw [if_pos h2] at h; simp at h
  rw [if_neg h2] at h ⊢
  refine ⟨?_, by simpa using h2, ?_⟩
  · intro c hc e; exact h1 (List.any_eq_true.2 ⟨c, hc, by simp [e]⟩)
  dsimp only at h ⊢
  obtain ⟨n1, n2, n3⟩ := hi { name := s.name, kind := s.kind, group := s.group, stateItfs := [], cmdItfs := [], lc := .unknown } rm.tr
  split at h
  · rename_i h3
    rw [if_pos h3]
    by_cases h4 : s.kind = .sensor
    · rw [if_pos h4]
      exact ⟨_, congrArg (· ++ _) (RM.addStateItfs_comps _ _), n1, n2, n3⟩
    · rw [if_neg h4]
      split
      · rename_i rm2 names he
        have := congrArg (fun q : RM × Option (List Itf) => q.1.comps) he
        rw [RM.addCmdItfs_comps, RM.addStateItfs_comps] at this
        exact ⟨_, (congrArg (· ++ _) this).symm, n1, n2, n3⟩
      · rename_i rm2 he
        have := congrArg (fun q : RM × Option (List Itf) => q.1.comps) he
        rw [RM.addCmdItfs_comps, RM.addStateItfs_comps] at this
        exact ⟨_, (congrArg (· ++ _) this).symm, n1, n2, n3⟩
  · simp at h

/-- A component as its tag says. -/
def LoadedAs (s : HwSpec) (c : Hw) : Prop := c.name = s.name ∧ c.kind = s.kind ∧ c.group = s.group ∧ c.lc = .unconfigured

theorem RM.load_fold (o : Oracle) (l : List HwSpec) (x : RM × Bool)
    (h : (l.foldl (fun (acc : RM × Bool) s => if acc.2 then acc.1.loadOne o s else acc) x).2 = true) :
    x.2 = true ∧ (∀ s ∈ l, s.loads = true) ∧ (l.map (·.name)).Nodup ∧ (∀ s ∈ l, ∀ c ∈ x.1.comps, c.name ≠ s.name) ∧
    ∃ cs, (l.foldl (fun (acc : RM × Bool) s => if acc.2 then acc.1.loadOne o s else acc) x).1.comps = x.1.comps ++ cs ∧
      List.Forall₂ (fun s c => c.name = s.name ∧ c.kind = s.kind ∧ c.group = s.group) l cs := by
  induction l generalizing x with
  | nil => exact ⟨h, by simp, by simp, by simp, [], by simp, .nil⟩
  | cons s l ih =>
    rw [List.foldl_cons] at h ⊢
    obtain ⟨a1, a2, a3, a4, cs, a5, a6⟩ := ih _ h
    by_cases hx : x.2 = true
    · rw [if_pos hx] at a1 a4 a5 ⊢
      obtain ⟨b1, b2, c, b3, b4⟩ := RM.loadOne_added o x.1 s a1
      refine ⟨hx, ?_, ?_, ?_, c :: cs, ?_, .cons b4 a6⟩
      · intro s' hs'
        rcases List.mem_cons.1 hs' with rfl | hs'
        · exact b2
        · exact a2 s' hs'
      · rw [List.map_cons, List.nodup_cons]
        refine ⟨fun hm => ?_, a3⟩
        obtain ⟨s', hs', e⟩ := List.mem_map.1 hm
        exact a4 s' hs' c (by rw [b3]; simp) (b4.1.trans e.symm)
      · intro s' hs' c' hc'
        rcases List.mem_cons.1 hs' with rfl | hs'
        · exact b1 c' hc'
        · exact a4 s' hs' c' (by rw [b3]; exact List.mem_append_left _ hc')
      · rw [a5, b3, List.append_assoc]; rfl
    · rw [if_neg hx] at a1; exact absurd a1 hx

/-- **C34, loading is all or nothing.** If loading succeeds there is one component for each tag, in order, with its name, type and group, all
unconfigured; the names are different, all plugins exist and all interfaces written in the tags exist. Otherwise there are no components and no interfaces. -/
theorem load_all_or_nothing (o : Oracle) (a b : Bool) (specs : List HwSpec) :
    (((RM.empty a b).loadAll o specs).2 = true → List.Forall₂ LoadedAs specs ((RM.empty a b).loadAll o specs).1.comps ∧
      (specs.map (·.name)).Nodup ∧ (∀ s ∈ specs, s.loads = true) ∧
      ∀ s ∈ specs, (∀ i ∈ s.declS, i ∈ ((RM.empty a b).loadAll o specs).1.stateKeys) ∧
        ∀ i ∈ s.declC, i ∈ ((RM.empty a b).loadAll o specs).1.cmdKeys) ∧
    (((RM.empty a b).loadAll o specs).2 = false → ((RM.empty a b).loadAll o specs).1.comps = [] ∧
      ∀ k, ((RM.empty a b).loadAll o specs).1.claimState k = false ∧ (((RM.empty a b).loadAll o specs).1.claim k).2 = false ∧
        ((RM.empty a b).loadAll o specs).1.isClaimed k = some false) := by
  have hf := loadAll_fresh o a b specs
  have hk := RM.load_fold o specs (RM.empty a b, true)
  unfold loadAll at *
  dsimp only at *
  generalize hr : specs.foldl (fun (acc : RM × Bool) s => if acc.2 then acc.1.loadOne o s else acc) (RM.empty a b, true) = r at *
  by_cases hc : r.2 = true ∧ (∀ s ∈ specs, (∀ i ∈ s.declS, i ∈ r.1.stateKeys) ∧ (∀ i ∈ s.declC, i ∈ r.1.cmdKeys))
  · rw [if_pos hc] at hf ⊢
    obtain ⟨-, h1, h2, -, cs, h5, h4⟩ := hk hc.1
    refine ⟨fun _ => ⟨?_, h2, h1, hc.2⟩, fun h => absurd hc.1 (by simp [h])⟩
    have h3 : r.1.comps = cs := by rw [h5]; rfl
    rw [h3] at hf ⊢
    clear h3 h2 h1 hk hr hc
    clear h5
    induction h4 with
    | nil => exact .nil
    | cons h t ih => exact .cons ⟨h.1, h.2.1, h.2.2, hf _ (by simp)⟩ (ih fun c hc => hf c (List.mem_cons_of_mem _ hc))
  · rw [if_neg hc]
    refine ⟨fun h => absurd h (by simp), fun _ => ⟨rfl, fun k => ⟨?_, ?_, ?_⟩⟩⟩
    · simp [claimState]
    · simp [claim]
    · simp [isClaimed]

example : ((RM.empty false false).loadAll (cbOracle fun _ _ => .success) fiveSpecs).2 = true := by decide +kernel

/-- A tag whose command interface is not exported: nothing is loaded. -/
example : ((RM.empty false false).loadAll (cbOracle fun _ _ => .success)
    [⟨1, .system, none, true, [⟨1, 0⟩], [], [⟨1, 0⟩], [⟨1, 1⟩]⟩]).2 = false := by decide +kernel

/-- **C05, state interfaces and claims of a component.** Of a component that never failed, state interfaces can be claimed exactly while it is
inactive or active; while it is not, its command interfaces cannot be claimed and count as unclaimed. -/
theorem C05_component_claims (o : Oracle) (rm : RM) (hr : rm.Reach o) (h : Hw) (hh : h ∈ rm.comps)
    (hb : ∀ e ∈ rm.tr, ¬ BadEv h.name e) :
    (∀ i ∈ h.stateItfs, rm.claimState i = true ↔ (h.lc = .inactive ∨ h.lc = .active)) ∧
    (h.lc ≠ .inactive → h.lc ≠ .active → ∀ i ∈ h.cmdItfs, (rm.claim i).2 = false ∧ rm.isClaimed i = some false) := by
  have I := hr.inv
  constructor
  · intro i hi
    have hk : i ∈ rm.stateKeys := I.keyS i (.hw h.name) ⟨h, hh, rfl, hi⟩
    unfold claimState
    simp only [hk, decide_true, Bool.and_true, decide_eq_true_eq]
    constructor
    · intro ha
      by_contra hn
      exact (I.clean h hh hn hb).1 i hi ha
    · intro hc; exact (I.conf h hh hc).1 i hi
  · intro h1 h2 i hi
    have := (I.clean h hh (fun hc => hc.elim h1 h2) hb).2 i hi
    simp [claim, isClaimed, this]

end Verif
