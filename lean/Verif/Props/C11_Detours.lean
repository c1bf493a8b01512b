import Verif.CM.OrderDetour
import Verif.Props.C11_C13_Chains
/-!
# C11 beyond forests

`C11_detours_partial`: the execution order is a data-flow order whenever every detour is a chain. This covers forests, topologies
of two layers (whatever the links), transitively closed ones, diamonds, and all of these glued together at single controllers.
`C11_layers_misordered`: three layers with links between neighbouring layers only are not enough.
-/
namespace Verif
open CM

/-- No two controllers feed each other, and every detour is a chain: whenever `u` feeds `n` and `n` feeds `w`, each set `S` of other
controllers within which `u` and `w` are connected contains a chain from `u` to `w`. -/
structure CM.DetoursAreChains (cm : CM) : Prop where
  no2 : ∀ a b, cm.Feeds a b → ¬ cm.Feeds b a
  detour : ∀ u n w, cm.Feeds u n → cm.Feeds n w → ∀ S : Name → Prop, ¬ S n → S u → S w →
    Relation.ReflTransGen (fun a b => (cm.Feeds a b ∨ cm.Feeds b a) ∧ S b) u w →
    Relation.TransGen (fun a b => cm.Feeds a b ∧ S a ∧ S b) u w

/-- **C11, partial.** If every detour is a chain, then after a successful `configure_controller`, for every iteration order of the
chain map, every controller is executed before each controller it feeds. Missing: other topologies, some of which the code
orders wrongly (`C11_shortcut_misordered`, `C11_layers_misordered`). -/
theorem C11_detours_partial (o : Oracle) (cm : CM) (hr : Reach o cm) (n : Name) (cfg : CtlCfg) (ord : List Name)
    (r : Bool) (hok : (cm.configure o n cfg ord r).2 = .ok) :
    let cm' := (cm.configure o n cfg ord r).1
    cm'.DetoursAreChains → ∀ a b, cm'.Feeds a b →
      ∃ l₁ l₂ l₃, cm'.ctls.map (·.name) = l₁ ++ a :: l₂ ++ b :: l₃ := by
  intro cm' hF a b hab
  have hf := configure_foll o cm hr.inv n cfg ord r hok
  change ∀ a b, b ∈ cm'.foll a ↔ cm'.Feeds a b at hf
  have hr' : Reach o cm' := hr.step (.configure n cfg ord r)
  have T := hr'.inv.topo
  rcases configure_spec o cm n cfg ord r hr.inv with ⟨h1, _⟩ | ⟨y, d, e, h, _⟩
  · rw [h1] at hok; simp at hok
  have ht := h.topo.topology
  have e' : cm' = y.topology.reorder ord := congrArg Prod.fst e
  have F : Chain.Tame cm'.foll cm'.prec := by
    refine ⟨T.sym, fun a b h1 h2 => hF.no2 a b ((hf a b).1 h1) ((hf b a).1 h2), fun u n w hu hw p hn => ?_⟩
    have hwalk : ∀ {x y : Name} (q : (Chain.graph cm'.foll).Walk x y), (∀ v ∈ q.support, v ∈ p.support) →
        Relation.ReflTransGen (fun a b => (cm'.Feeds a b ∨ cm'.Feeds b a) ∧ b ∈ p.support) x y := by
      intro x y q
      induction q with
      | nil => intro _; exact .refl
      | cons h q ih =>
        intro hs
        refine .head ⟨?_, hs _ (by simp)⟩ (ih (fun v hv => hs v (by simp [hv])))
        rcases h.2 with h | h
        · exact .inl ((hf _ _).1 h)
        · exact .inr ((hf _ _).1 h)
    have hd := hF.detour u n w ((hf _ _).1 hu) ((hf _ _).1 hw) (· ∈ p.support) hn (by simp) (by simp) (hwalk p (fun _ h => h))
    have e : (fun a b => b ∈ cm'.foll a ∧ a ∈ p.support ∧ b ∈ p.support) =
        (fun a b => cm'.Feeds a b ∧ a ∈ p.support ∧ b ∈ p.support) := by
      funext a b
      exact propext (and_congr_left (fun _ => hf a b))
    rw [e]; exact hd
  have G := Chain.orderAll_tame F (cm'.keyOrder ord)
    (fun a b hb => ⟨(mem_keyOrder _ _ _).2 (T.sub a b hb).1, (mem_keyOrder _ _ _).2 (T.sub a b hb).2⟩)
    ((cm'.keyOrder ord).length + 1) (by omega)
  have hnames : cm'.ctls.map (·.name) = Chain.orderAll cm'.foll cm'.prec ((cm'.keyOrder ord).length + 1) (cm'.keyOrder ord) := by
    have := reorder_names ht ord
    rw [← e'] at this
    rw [this, e']; rfl
  rw [← hnames] at G
  have hb := (hf a b).2 hab
  have ha' := (T.loaded a).1 (T.sub a b hb).1
  have hb' := (T.loaded b).1 (T.sub a b hb).2
  have hne : a ≠ b := by
    intro e; subst e; exact F.no2 a a hb hb
  obtain ⟨s, t, hst⟩ := List.append_of_mem ha'
  rw [hst] at hb'
  have hord := G.ord
  rw [hst] at hord ⊢
  rcases List.mem_append.1 hb' with hbs | hbt
  · exact absurd hb ((List.pairwise_append.1 hord).2.2 b hbs a (by simp))
  · rcases List.mem_cons.1 hbt with hbe | hbt
    · exact absurd hbe.symm hne
    · obtain ⟨s2, t2, rfl⟩ := List.append_of_mem hbt
      exact ⟨s, s2, t2, by simp⟩

/-- Every forest is such a topology, so that this theorem contains `C11_data_flow_order_partial`. -/
theorem CM.ForestChains.detours {cm : CM} (h : cm.ForestChains) : cm.DetoursAreChains := by
  refine ⟨h.no2, fun u n w hu hw S hn hSu _ hc => ?_⟩
  have hadj : ∀ a b, cm.Feeds a b → (SimpleGraph.fromRel cm.Feeds).Adj a b := by
    intro a b hab
    rw [SimpleGraph.fromRel_adj]
    exact ⟨fun e => by subst e; exact h.no2 _ _ hab hab, .inl hab⟩
  have hwalk : ∀ x, Relation.ReflTransGen (fun a b => (cm.Feeds a b ∨ cm.Feeds b a) ∧ S b) u x →
      ∃ p : (SimpleGraph.fromRel cm.Feeds).Walk u x, ∀ v ∈ p.support, S v := by
    intro x hx
    induction hx with
    | refl => exact ⟨.nil, by simpa using hSu⟩
    | tail _ hab ih =>
      obtain ⟨p, hp⟩ := ih
      have ha : (SimpleGraph.fromRel cm.Feeds).Adj _ _ := hab.1.elim (hadj _ _) (fun h => (hadj _ _ h).symm)
      refine ⟨p.concat ha, fun v hv => ?_⟩
      rw [SimpleGraph.Walk.support_concat] at hv
      simp only [List.mem_append, List.mem_singleton] at hv
      rcases hv with hv | rfl
      · exact hp v hv
      · exact hab.2
  obtain ⟨p, hp⟩ := hwalk w hc
  have hpath : (SimpleGraph.Walk.cons (hadj _ _ hu).symm p.bypass).IsPath :=
    (SimpleGraph.Walk.cons_isPath_iff _ _).2 ⟨p.bypass_isPath, fun hh => hn (hp _ (p.support_bypass_subset_support hh))⟩
  have := (h.acyclic.subsingleton_path n w).elim ⟨_, hpath⟩ (SimpleGraph.Path.singleton (hadj _ _ hw))
  have hl := congrArg (fun q : (SimpleGraph.fromRel cm.Feeds).Path n w => q.1.length) this
  simp [SimpleGraph.Path.singleton] at hl
  have := hl.eq
  subst this
  exact absurd hu (h.no2 _ _ hw)

/-- Two layers: if no controller both feeds others and is fed, the order is right, whatever the links are. -/
theorem C11_two_layers (o : Oracle) (cm : CM) (hr : Reach o cm) (n : Name) (cfg : CtlCfg) (ord : List Name)
    (r : Bool) (hok : (cm.configure o n cfg ord r).2 = .ok) :
    let cm' := (cm.configure o n cfg ord r).1
    (∀ a b c, cm'.Feeds a b → ¬ cm'.Feeds b c) → ∀ a b, cm'.Feeds a b →
      ∃ l₁ l₂ l₃, cm'.ctls.map (·.name) = l₁ ++ a :: l₂ ++ b :: l₃ := by
  intro cm' h
  exact C11_detours_partial o cm hr n cfg ord r hok ⟨fun a b h1 => h a b a h1, fun u n w h1 h2 => absurd h2 (h u n w h1)⟩

/-- Transitively closed topologies without feedback: the order is right. -/
theorem C11_transitive (o : Oracle) (cm : CM) (hr : Reach o cm) (n : Name) (cfg : CtlCfg) (ord : List Name)
    (r : Bool) (hok : (cm.configure o n cfg ord r).2 = .ok) :
    let cm' := (cm.configure o n cfg ord r).1
    (∀ a, ¬ cm'.Feeds a a) → (∀ a b c, cm'.Feeds a b → cm'.Feeds b c → cm'.Feeds a c) → ∀ a b, cm'.Feeds a b →
      ∃ l₁ l₂ l₃, cm'.ctls.map (·.name) = l₁ ++ a :: l₂ ++ b :: l₃ := by
  intro cm' hi ht
  exact C11_detours_partial o cm hr n cfg ord r hok ⟨fun a b h1 h2 => hi a (ht a b a h1 h2),
    fun u n w h1 h2 S _ hu hw _ => .single ⟨ht u n w h1 h2, hu, hw⟩⟩

/-- The steps before the last one of the diamond 500 → {600, 700} → 800. -/
def diamondOps : List Op :=
  [.setHw 1 .active, .load 800 true false (chainCfg 800 [⟨10, 0⟩]) [], .configure 800 (chainCfg 800 [⟨10, 0⟩]) [] true,
   .load 700 true false (chainCfg 700 [⟨800, 0⟩]) [], .configure 700 (chainCfg 700 [⟨800, 0⟩]) [] true,
   .load 600 true false (chainCfg 600 [⟨800, 1⟩]) [], .configure 600 (chainCfg 600 [⟨800, 1⟩]) [] true,
   .load 500 true false (chainCfg 500 [⟨600, 0⟩, ⟨700, 0⟩]) []]

/-- The diamond meets the hypotheses. -/
example :
    let cm := CM.run goodOracle (CM.start goodOracle false false demoSpecs) diamondOps
    let r := cm.configure goodOracle 500 (chainCfg 500 [⟨600, 0⟩, ⟨700, 0⟩]) [800] true
    r.2 = .ok ∧ r.1.DetoursAreChains ∧ r.1.Feeds 500 700 ∧ r.1.Feeds 700 800 ∧ ¬ r.1.ForestChains := by
  intro cm r
  have hr : Reach goodOracle cm := ⟨false, false, demoSpecs, diamondOps, rfl⟩
  have hok : r.2 = .ok := by decide +kernel
  have hf := configure_foll goodOracle cm hr.inv 500 (chainCfg 500 [⟨600, 0⟩, ⟨700, 0⟩]) [800] true hok
  change ∀ a b, b ∈ r.1.foll a ↔ r.1.Feeds a b at hf
  have hr' : Reach goodOracle r.1 := hr.step (.configure 500 (chainCfg 500 [⟨600, 0⟩, ⟨700, 0⟩]) [800] true)
  have T := hr'.inv.topo
  have hkeys : r.1.chainKeys.all (fun k => k ∈ [500, 600, 700, 800]) = true := by decide +kernel
  have e5 : r.1.foll 500 = [600, 700] := by decide +kernel
  have e6 : r.1.foll 600 = [800] := by decide +kernel
  have e7 : r.1.foll 700 = [800] := by decide +kernel
  have e8 : r.1.foll 800 = [] := by decide +kernel
  have hall : ∀ a b, r.1.Feeds a b ↔ (a = 500 ∧ b = 600) ∨ (a = 500 ∧ b = 700) ∨ (a = 600 ∧ b = 800) ∨ (a = 700 ∧ b = 800) := by
    intro a b
    rw [← hf]
    constructor
    · intro h
      have := List.all_eq_true.1 hkeys a (T.sub a b h).1
      simp only [List.mem_cons, List.not_mem_nil, or_false, decide_eq_true_eq] at this
      rcases this with rfl | rfl | rfl | rfl
      · rw [e5] at h; simp at h; rcases h with rfl | rfl <;> simp
      · rw [e6] at h; simp at h; subst h; simp
      · rw [e7] at h; simp at h; subst h; simp
      · rw [e8] at h; simp at h
    · rintro (⟨rfl, rfl⟩ | ⟨rfl, rfl⟩ | ⟨rfl, rfl⟩ | ⟨rfl, rfl⟩)
      · rw [e5]; simp
      · rw [e5]; simp
      · rw [e6]; simp
      · rw [e7]; simp
  refine ⟨hok, ⟨?_, ?_⟩, (hall _ _).2 (by simp), (hall _ _).2 (by simp), ?_⟩
  · intro a b h1 h2
    rw [hall] at h1 h2
    rcases h1 with ⟨rfl, rfl⟩ | ⟨rfl, rfl⟩ | ⟨rfl, rfl⟩ | ⟨rfl, rfl⟩ <;> simp at h2
  · intro u n w h1 h2 S hn hu hw hc
    rw [hall] at h1 h2
    have step : ∀ (other : Name), (n = 600 ∧ other = 700 ∨ n = 700 ∧ other = 600) → u = 500 → w = 800 →
        Relation.TransGen (fun a b => r.1.Feeds a b ∧ S a ∧ S b) u w := by
      intro other ho hu5 hw8
      subst hu5 hw8
      have hS : S other := by
        rcases Relation.ReflTransGen.cases_head hc with h | ⟨c, ⟨h, hSc⟩, _⟩
        · cases h
        · rw [hall, hall] at h
          simp at h
          rcases ho with ⟨rfl, rfl⟩ | ⟨rfl, rfl⟩
          · rcases h with rfl | rfl
            · exact absurd hSc hn
            · exact hSc
          · rcases h with rfl | rfl
            · exact hSc
            · exact absurd hSc hn
      rcases ho with ⟨rfl, rfl⟩ | ⟨rfl, rfl⟩
      · exact .tail (.single ⟨(hall _ _).2 (by simp), hu, hS⟩) ⟨(hall _ _).2 (by simp), hS, hw⟩
      · exact .tail (.single ⟨(hall _ _).2 (by simp), hu, hS⟩) ⟨(hall _ _).2 (by simp), hS, hw⟩
    rcases h1 with ⟨rfl, rfl⟩ | ⟨rfl, rfl⟩ | ⟨rfl, rfl⟩ | ⟨rfl, rfl⟩ <;> simp at h2
    · exact step 700 (by simp) rfl h2
    · exact step 600 (by simp) rfl h2
  · intro hF
    have h5 : (SimpleGraph.fromRel r.1.Feeds).Adj 500 600 := ⟨by decide, .inl ((hall _ _).2 (by simp))⟩
    have h6 : (SimpleGraph.fromRel r.1.Feeds).Adj 600 800 := ⟨by decide, .inl ((hall _ _).2 (by simp))⟩
    have h7 : (SimpleGraph.fromRel r.1.Feeds).Adj 500 700 := ⟨by decide, .inl ((hall _ _).2 (by simp))⟩
    have h8 : (SimpleGraph.fromRel r.1.Feeds).Adj 700 800 := ⟨by decide, .inl ((hall _ _).2 (by simp))⟩
    have p1 : (SimpleGraph.Walk.cons h5 (.cons h6 .nil)).IsPath := by simp [SimpleGraph.Walk.cons_isPath_iff]
    have p2 : (SimpleGraph.Walk.cons h7 (.cons h8 .nil)).IsPath := by simp [SimpleGraph.Walk.cons_isPath_iff]
    have := (hF.acyclic.subsingleton_path 500 800).elim ⟨_, p1⟩ ⟨_, p2⟩
    have := congrArg (fun q : (SimpleGraph.fromRel r.1.Feeds).Path 500 800 => q.1.support) this
    simp at this

/-- Chainable controller `n` that commands `cmd` and exports the references `n/0` to `n/3`. -/
def layerCfg (n : Name) (cmd : List Itf) : CtlCfg :=
  { cmd := .individual cmd, state := .individual [], exports := some ([], [⟨n, 0⟩, ⟨n, 1⟩, ⟨n, 2⟩, ⟨n, 3⟩]) }

/-- Loading and configuring a controller. -/
def addLayer (n : Name) (cmd : List Itf) (ord : List Name) : List Op :=
  [.load n true false (layerCfg n cmd) [], .configure n (layerCfg n cmd) ord true]

/-- **C11, negation for three layers.** Planners 510, 520; controllers 610 to 650; 710, 720 below them. All links go from one layer
to the next, and no two controllers command the same reference. With an iteration order of the hash map that starts at 610, controller 650 is
executed before 520, which feeds it. -/
theorem C11_layers_misordered :
    let cm := CM.run goodOracle (CM.start goodOracle false false demoSpecs)
      (addLayer 710 [⟨10, 0⟩] [] ++ addLayer 720 [] [] ++
       addLayer 610 [⟨710, 0⟩] [] ++ addLayer 620 [] [] ++ addLayer 630 [⟨720, 0⟩] [] ++ addLayer 640 [⟨710, 1⟩] [] ++
       addLayer 650 [⟨720, 1⟩] [] ++ addLayer 510 [⟨610, 0⟩, ⟨620, 0⟩, ⟨630, 0⟩] [] ++
       addLayer 520 [⟨640, 0⟩, ⟨620, 1⟩, ⟨650, 0⟩] [610])
    [510, 520, 610, 620, 630, 640, 650, 710, 720].map cm.foll =
      [[610, 620, 630], [640, 620, 650], [710], [], [720], [710], [720], [], []] ∧
    cm.ctls.map (·.name) = [510, 630, 720, 610, 650, 520, 620, 640, 710] := by decide +kernel

end Verif
