import Verif.CM.TopoMem
import Verif.CM.OrderForest
import Verif.Props.CMDemo
/-!
# C11–C13: chain topology, execution order, chain groups
-/
namespace Verif
open CM

/-! ## Specification -/

/-- `a` feeds `b`: both are loaded, and `a` is configured and commands an interface named after `b` (a
reference that `b` exports), or `b` is configured and reads an interface named after `a` (a state that
`a` exports). Stated on what the controllers answer (`command_interface_configuration`,
`state_interface_configuration`) and on the list of loaded controllers only. -/
def CM.Feeds (cm : CM) (a b : Name) : Prop := (cm.Commands a b ∧ cm.Loaded b) ∨ (cm.Reads b a ∧ cm.Loaded a)

/-- Linked in the chain tables, in either direction. -/
def CM.Linked (cm : CM) (a b : Name) : Prop := b ∈ cm.foll a ∨ a ∈ cm.foll b

/-! ## C12 -/

/-- **C12 (symmetry).** In every reachable state `b` is listed as following `a` iff `a` is listed as preceding
`b`, both are loaded then, and no link is listed twice. -/
theorem C12_symmetric (o : Oracle) (cm : CM) (hr : Reach o cm) (a b : Name) :
    (b ∈ cm.foll a ↔ a ∈ cm.prec b) ∧ (b ∈ cm.foll a → cm.Loaded a ∧ cm.Loaded b) ∧
    (cm.foll a).Nodup ∧ (cm.prec a).Nodup := by
  have T := hr.inv.topo
  refine ⟨T.sym a b, fun h => ?_, T.nodF a, T.nodP a⟩
  obtain ⟨h1, h2⟩ := T.sub a b h
  have h1 := List.mem_map.1 ((T.loaded a).1 h1)
  have h2 := List.mem_map.1 ((T.loaded b).1 h2)
  exact ⟨h1, h2⟩

theorem configure_foll (o : Oracle) (cm : CM) (I : Inv cm) (n : Name) (cfg : CtlCfg) (ord : List Name) (r : Bool)
    (hok : (cm.configure o n cfg ord r).2 = .ok) (a b : Name) :
    b ∈ (cm.configure o n cfg ord r).1.foll a ↔ (cm.configure o n cfg ord r).1.Feeds a b := by
  rcases configure_spec o cm n cfg ord r I with ⟨h1, _⟩ | ⟨y, d, e, h, _⟩
  · rw [h1] at hok; simp at hok
  · rw [e]
    simp only
    have ht := h.topo.topology
    have tab := topology_tab y
    unfold CM.Feeds
    rw [reorder_commands ht, reorder_reads ht, reorder_loaded ht, reorder_loaded ht, tab.commands_iff, tab.reads_iff,
      tab.loaded_iff, tab.loaded_iff, ← topology_foll]
    rfl

/-- **C12 (exactness).** After a successful `configure_controller` the topology is exactly the chained
interfaces of the controllers as they are then configured. -/
theorem C12_topology_exact (o : Oracle) (cm : CM) (hr : Reach o cm) (n : Name) (cfg : CtlCfg) (ord : List Name) (r : Bool)
    (hok : (cm.configure o n cfg ord r).2 = .ok) (a b : Name) :
    (b ∈ (cm.configure o n cfg ord r).1.foll a ↔ (cm.configure o n cfg ord r).1.Feeds a b) ∧
    (a ∈ (cm.configure o n cfg ord r).1.prec b ↔ (cm.configure o n cfg ord r).1.Feeds a b) := by
  have hr' : Reach o (cm.configure o n cfg ord r).1 := hr.step (.configure n cfg ord r)
  refine ⟨configure_foll o cm hr.inv n cfg ord r hok a b, ?_⟩
  rw [← (C12_symmetric o _ hr' a b).1]
  exact configure_foll o cm hr.inv n cfg ord r hok a b

/-- **C12 (unload).** After a successful `unload_controller` the topology is the previous one without the
links of the unloaded controller. -/
theorem C12_unload (o : Oracle) (cm : CM) (hr : Reach o cm) (n : Name) (hok : (cm.unload o n).2 = .ok) (a b : Name) :
    b ∈ (cm.unload o n).1.foll a ↔ b ∈ cm.foll a ∧ a ≠ n ∧ b ≠ n := by
  have I := hr.inv
  unfold unload at hok ⊢
  split at hok
  · simp at hok
  split at hok
  · simp at hok
  split at hok
  · simp at hok
  dsimp only at hok
  split at hok
  · simp at hok
  rename_i h1 _ c hc h3 h4
  simp only [h1, Bool.false_eq_true, if_false, hc, h3, h4]
  have F := Fwd.cleanup o cm n
  have T1 : Topo (cm.cleanup o n).1 := I.topo.same F.same
  have hn : n ∈ (cm.cleanup o n).1.ctls.map (·.name) := by
    rw [names_of_stat F.stat]
    obtain ⟨k1, k2⟩ := find_some hc
    exact List.mem_map.2 ⟨c, k1, k2⟩
  have hs := (chainCleanup_spec T1 hn).2.1 a b
  rw [F.foll] at hs
  have hF := (Fwd.trigger (T := (· = n)) o ((cm.cleanup o n).1.chainCleanup n) n .shutdown rfl (by simp)).foll
  have hR : ((((cm.cleanup o n).1.chainCleanup n).trigger o n .shutdown).releaseItfs n).foll =
      (((cm.cleanup o n).1.chainCleanup n).trigger o n .shutdown).foll := by
    unfold CM.releaseItfs
    split <;> rfl
  rw [hR, hF]
  exact hs

/-- Non-vacuity: in the demo 200 and 400 feed 100; 300 reads 10/1, which no controller exports. -/
example :
    let cm := demo goodOracle []
    Reach goodOracle cm ∧ cm.foll 200 = [100] ∧ cm.foll 400 = [100] ∧ cm.foll 300 = [] ∧ cm.prec 100 = [200, 400] ∧
    (cm.configure goodOracle 300 (plainCfg [⟨20, 0⟩] [⟨100, 1⟩]) [] true).2 = .ok ∧
    (cm.configure goodOracle 300 (plainCfg [⟨20, 0⟩] [⟨100, 1⟩]) [] true).1.foll 100 = [300] ∧
    (cm.unload goodOracle 100).2 = .ok ∧ (cm.unload goodOracle 100).1.foll 200 = [] :=
  ⟨demo_reach _ _, by decide⟩

/-! ## C13 -/

/-- **C13.** After a successful `configure_controller` the chain group stored for every controller contains
exactly the controllers that are connected to it through chain links (of whatever direction, and whatever
cycles there are), each once. -/
theorem C13_group_is_component (o : Oracle) (cm : CM) (hr : Reach o cm) (n : Name) (cfg : CtlCfg) (ord : List Name)
    (r : Bool) (hok : (cm.configure o n cfg ord r).2 = .ok) :
    let cm' := (cm.configure o n cfg ord r).1
    ∀ c ∈ cm'.ctls, c.group.Nodup ∧
      ∀ x, x ∈ c.group ↔ Relation.ReflTransGen (fun a b => cm'.Feeds a b ∨ cm'.Feeds b a) c.name x := by
  intro cm' c hc
  have hf := configure_foll o cm hr.inv n cfg ord r hok
  change ∀ a b, b ∈ cm'.foll a ↔ cm'.Feeds a b at hf
  have hr' : Reach o cm' := hr.step (.configure n cfg ord r)
  have T := hr'.inv.topo
  rcases configure_spec o cm n cfg ord r hr.inv with ⟨h1, _⟩ | ⟨y, d, e, h, _⟩
  · rw [h1] at hok; simp at hok
  have ht := h.topo.topology
  have e' : cm' = y.topology.reorder ord := congrArg Prod.fst e
  have hgrp : c.group = Chain.group cm'.foll cm'.prec (cm'.keyOrder ord) c.name := by
    have hc' := hc
    rw [e'] at hc'
    obtain ⟨c0, _, rfl⟩ := (reorder_mem ht ord c).1 hc'
    rw [e']; rfl
  have hk1 : ∀ x, ∀ z ∈ cm'.foll x, z ∈ cm'.keyOrder ord := fun x z hz => (mem_keyOrder _ _ _).2 (T.sub x z hz).2
  have hk2 : ∀ x, ∀ z ∈ cm'.prec x, z ∈ cm'.keyOrder ord :=
    fun x z hz => (mem_keyOrder _ _ _).2 (T.sub z x ((T.sym z x).2 hz)).1
  have hcn : c.name ∈ cm'.keyOrder ord := (mem_keyOrder _ _ _).2 ((T.loaded _).2 (List.mem_map_of_mem hc))
  rw [hgrp]
  refine ⟨Chain.group_nodup hk1 hk2 hcn, fun x => ?_⟩
  rw [Chain.mem_group hk1 hk2 hcn]
  have : Chain.Adj cm'.foll cm'.prec = fun a b => cm'.Feeds a b ∨ cm'.Feeds b a := by
    funext a b
    simp only [Chain.Adj, ← T.sym b a, hf]
  rw [this]

/-- Non-vacuity: the groups of the demo; and a cyclic topology (100 also reads nothing, 500 both drives 100/0 and
exports the interface that 100 drives). -/
example :
    ((demo goodOracle []).ctls.map (fun c => (c.name, c.group))) =
      [(200, [200, 100, 400]), (400, [400, 100, 200]), (100, [100, 200, 400]), (300, [300])] ∧
    (let cyc : CtlCfg := { cmd := .individual [⟨100, 0⟩], state := .individual [], exports := some ([], [⟨500, 0⟩]) }
     let cfg : CtlCfg := { cmd := .individual [⟨500, 0⟩], state := .individual [], exports := some ([], [⟨100, 0⟩]) }
     let cm := demo goodOracle [.load 500 true false cyc [], .configure 500 cyc [] true, .configure 100 cfg [] true]
     cm.foll 100 = [500] ∧ cm.foll 500 = [100] ∧
     (cm.ctls.map (fun c => (c.name, c.group))) =
      [(200, [200, 100, 500, 400]), (400, [400, 100, 500, 200]), (100, [100, 500, 200, 400]), (500, [500, 100, 200, 400]), (300, [300])]) := by
  decide

/-! ## C11 -/

/-- The chains form a forest: no two controllers feed each other (nor one itself), and the links without their
direction contain no cycle. -/
structure CM.ForestChains (cm : CM) : Prop where
  no2 : ∀ a b, cm.Feeds a b → ¬ cm.Feeds b a
  acyclic : (SimpleGraph.fromRel cm.Feeds).IsAcyclic

/-- **C11, partial.** If the chains form a forest, then after a successful `configure_controller`, for every
iteration order of the chain map, every controller is executed before each controller it feeds. What is
missing: acyclic topologies whose undirected links do contain a cycle (diamonds, shortcuts):
`C11_shortcut_misordered` shows that the code does not order all of those correctly. -/
theorem C11_data_flow_order_partial (o : Oracle) (cm : CM) (hr : Reach o cm) (n : Name) (cfg : CtlCfg) (ord : List Name)
    (r : Bool) (hok : (cm.configure o n cfg ord r).2 = .ok) :
    let cm' := (cm.configure o n cfg ord r).1
    cm'.ForestChains → ∀ a b, cm'.Feeds a b →
      ∃ l₁ l₂ l₃, cm'.ctls.map (·.name) = l₁ ++ a :: l₂ ++ b :: l₃ := by
  intro cm' hF a b hab
  have hf := configure_foll o cm hr.inv n cfg ord r hok
  change ∀ a b, b ∈ cm'.foll a ↔ cm'.Feeds a b at hf
  have hr' : Reach o cm' := hr.step (.configure n cfg ord r)
  have T := hr'.inv.topo
  rcases configure_spec o cm n cfg ord r hr.inv with ⟨h1, _⟩ | ⟨y, d, e, h, _⟩
  · rw [h1] at hok; simp at hok
  have ht := h.topo.topology
  have e' : cm' = y.topology.reorder ord := congrArg Prod.fst e
  have hg : Chain.graph cm'.foll = SimpleGraph.fromRel cm'.Feeds := by
    unfold Chain.graph
    congr 1
    funext a b
    exact propext (hf a b)
  have F : Chain.Forest cm'.foll cm'.prec :=
    ⟨T.sym, fun a b h1 h2 => hF.no2 a b ((hf a b).1 h1) ((hf b a).1 h2), by rw [hg]; exact hF.acyclic⟩
  have G := Chain.orderAll_forest F (cm'.keyOrder ord)
    (fun a b hb => ⟨(mem_keyOrder _ _ _).2 (T.sub a b hb).1, (mem_keyOrder _ _ _).2 (T.sub a b hb).2⟩)
    ((cm'.keyOrder ord).length + 1) (by omega)
  have hnames : cm'.ctls.map (·.name) = Chain.orderAll cm'.foll cm'.prec ((cm'.keyOrder ord).length + 1) (cm'.keyOrder ord) := by
    have := reorder_names ht ord
    rw [← e'] at this
    rw [this, e']; rfl
  rw [← hnames] at G
  have hb := (hf a b).2 hab
  have ha' := (T.loaded a).1 (T.sub a b hb).1
  have hb' := (T.loaded b).1 (T.sub a b hb).2
  have hne : a ≠ b := by
    intro e; subst e; exact F.no2 a a hb hb
  obtain ⟨s, t, hst⟩ := List.append_of_mem ha'
  rw [hst] at hb'
  have hord := G.ord
  rw [hst] at hord ⊢
  rcases List.mem_append.1 hb' with hbs | hbt
  · exact absurd hb ((List.pairwise_append.1 hord).2.2 b hbs a (by simp))
  · rcases List.mem_cons.1 hbt with hbe | hbt
    · exact absurd hbe.symm hne
    · obtain ⟨s2, t2, rfl⟩ := List.append_of_mem hbt
      exact ⟨s, s2, t2, by simp⟩

/-- **C11 for layered stacks, partial.** Without feedback loops, if no controller feeds two others — or if no
controller is fed by two others — every controller is executed before each controller it feeds. -/
theorem C11_stack_order_partial (o : Oracle) (cm : CM) (hr : Reach o cm) (n : Name) (cfg : CtlCfg) (ord : List Name)
    (r : Bool) (hok : (cm.configure o n cfg ord r).2 = .ok) :
    let cm' := (cm.configure o n cfg ord r).1
    (∀ a, ¬ Relation.TransGen cm'.Feeds a a) →
    ((∀ a b c, cm'.Feeds a b → cm'.Feeds a c → b = c) ∨ (∀ a b c, cm'.Feeds b a → cm'.Feeds c a → b = c)) →
    ∀ a b, cm'.Feeds a b → ∃ l₁ l₂ l₃, cm'.ctls.map (·.name) = l₁ ++ a :: l₂ ++ b :: l₃ := by
  intro cm' hl ho
  refine C11_data_flow_order_partial o cm hr n cfg ord r hok ⟨?_, ?_⟩
  · intro a b h1 h2
    exact hl a (.tail (.single h1) h2)
  · rcases ho with h | h
    · exact Chain.acyclic_of_functional _ hl h
    · exact Chain.acyclic_of_cofunctional _ hl h

/-- Non-vacuity: the demo is such a stack (200 and 400 feed 100, nothing else). -/
example : ∀ a b c, (demo goodOracle []).foll a = b :: c → (a = 200 ∨ a = 400) ∧ b = 100 ∧ c = [] := by
  intro a b c h
  have hr := demo_reach goodOracle []
  have T := hr.inv.topo
  have hk := (T.sub a b (by rw [h]; simp)).1
  have : (demo goodOracle []).chainKeys = [100, 200, 300, 400] := by decide
  rw [this] at hk
  simp only [List.mem_cons, List.not_mem_nil, or_false] at hk
  have e1 : (demo goodOracle []).foll 100 = [] := by decide
  have e2 : (demo goodOracle []).foll 200 = [100] := by decide
  have e3 : (demo goodOracle []).foll 300 = [] := by decide
  have e4 : (demo goodOracle []).foll 400 = [100] := by decide
  rcases hk with rfl | rfl | rfl | rfl
  · rw [e1] at h; simp at h
  · rw [e2] at h; simp at h; simp [h]
  · rw [e3] at h; simp at h
  · rw [e4] at h; simp at h; simp [h]

/-- Chainable controller `n` that commands `cmd` and exports the references `n/0`, `n/1`. -/
def chainCfg (n : Name) (cmd : List Itf) : CtlCfg :=
  { cmd := .individual cmd, state := .individual [], exports := some ([], [⟨n, 0⟩, ⟨n, 1⟩]) }

/-- **C11, negation in general.** Four controllers 500 → 600 → 700 → 800 and a shortcut 500 → 800. The topology
is acyclic, but with an iteration order of the hash map that starts at 700, it is executed *before* 600, which
feeds it. -/
theorem C11_shortcut_misordered :
    let cm := CM.run goodOracle (CM.start goodOracle false false demoSpecs)
      [.setHw 1 .active, .load 800 true false (chainCfg 800 [⟨10, 0⟩]) [], .configure 800 (chainCfg 800 [⟨10, 0⟩]) [] true,
       .load 700 true false (chainCfg 700 [⟨800, 0⟩]) [], .configure 700 (chainCfg 700 [⟨800, 0⟩]) [] true,
       .load 600 true false (chainCfg 600 [⟨700, 0⟩]) [], .configure 600 (chainCfg 600 [⟨700, 0⟩]) [] true,
       .load 500 true false (chainCfg 500 [⟨600, 0⟩, ⟨800, 1⟩]) [],
       .configure 500 (chainCfg 500 [⟨600, 0⟩, ⟨800, 1⟩]) [700] true]
    cm.foll 500 = [600, 800] ∧ cm.foll 600 = [700] ∧ cm.foll 700 = [800] ∧ cm.foll 800 = [] ∧
    cm.ctls.map (·.name) = [700, 500, 600, 800] := by decide

end Verif
