import Verif.CM.Listing
import Verif.Props.C06_C10_Controllers
/-!
# C60: what the listing services answer

`cm.listSrv`, `cm.listHwSrv` and `cm.listItfSrv` are the answers of `list_controllers`, `list_hardware_components` and
`list_hardware_interfaces` in the state `cm`; `none` is an exception that leaves the service callback.
-/
namespace Verif
open CM

/-- The controller is inactive or active. -/
def Ctl.Configured (c : Ctl) : Prop := c.lc = .inactive ∨ c.lc = .active

/-- The command interfaces that the controller asks for in this state. -/
def CM.asksFor (cm : CM) (c : Ctl) : List Itf := c.cfg.cmd.resolve cm.rm.availC

theorem CM.listOne_spec {cm : CM} {c : Ctl} {e : CtlEntry} (h : cm.listOne c = some e) :
    e.name = c.name ∧ e.state = c.lc ∧ e.isAsync = c.async ∧ e.claimed = c.claimedInfo ∧ e.chainable = c.chainable ∧
    e.chained = c.chained ∧
    (c.Configured → e.reqCmd = cm.asksFor c ∧ e.reqState = c.cfg.state.resolve cm.rm.availS ∧
      e.conns = listConns (cm.listChained c)) ∧
    (¬ c.Configured → e.reqCmd = [] ∧ e.reqState = [] ∧ e.conns = []) ∧
    (c.Configured → c.chainable = true → ∃ rs ss, cm.rm.expR c.name = some rs ∧ cm.rm.expS c.name = some ss ∧
      e.refs = rs.map (·.suf) ∧ e.expStates = ss.map (·.suf)) ∧
    (¬ (c.Configured ∧ c.chainable = true) → e.refs = [] ∧ e.expStates = []) := by
  unfold CM.listOne at h
  unfold Ctl.Configured
  split at h
  · rename_i hl
    have hl' : c.lc = .inactive ∨ c.lc = .active := hl.symm
    split at h
    · rename_i hch
      split at h
      · simp at h
      · rename_i rs hrs
        split at h
        · simp at h
        · rename_i ss hss
          simp only [Option.some.injEq] at h; subst h
          exact ⟨rfl, rfl, rfl, rfl, rfl, rfl, fun _ => ⟨rfl, rfl, rfl⟩, fun g => absurd hl' g,
            fun _ _ => ⟨rs, ss, hrs, hss, rfl, rfl⟩, fun g => absurd ⟨hl', hch⟩ g⟩
    · rename_i hch
      simp only [Option.some.injEq] at h; subst h
      exact ⟨rfl, rfl, rfl, rfl, rfl, rfl, fun _ => ⟨rfl, rfl, rfl⟩, fun g => absurd hl' g,
        fun _ g => absurd g hch, fun _ => ⟨rfl, rfl⟩⟩
  · rename_i hl
    have hl' : ¬ (c.lc = .inactive ∨ c.lc = .active) := fun g => hl g.symm
    simp only [Option.some.injEq] at h; subst h
    exact ⟨rfl, rfl, rfl, rfl, rfl, rfl, fun g => absurd g hl', fun _ => ⟨rfl, rfl, rfl⟩,
      fun g => absurd g hl', fun _ => ⟨rfl, rfl⟩⟩

/-- Every entry of the answer belongs to one loaded controller. -/
theorem CM.listSrv_entry {o : Oracle} {cm : CM} (hr : Reach o cm) {l : List CtlEntry} (h : cm.listSrv = some l)
    {e : CtlEntry} (he : e ∈ l) : ∃ c, cm.find e.name = some c ∧ cm.listOne c = some e := by
  obtain ⟨c, hc, hce⟩ := (listAll_some h).2 e he
  refine ⟨c, ?_, hce⟩
  rw [(listOne_spec hce).1]
  exact (find_iff hr.inv.topo.names).2 ⟨hc, rfl⟩

/-- **C60 (controllers).** The answer has exactly one entry for every loaded controller, in the order in which they are
updated, and every entry shows the current state of that controller. -/
theorem C60_one_entry_per_controller (o : Oracle) (cm : CM) (hr : Reach o cm) (l : List CtlEntry)
    (h : cm.listSrv = some l) :
    l.map (·.name) = cm.ctls.map (·.name) ∧ (l.map (·.name)).Nodup ∧
    ∀ e ∈ l, ∃ c, cm.find e.name = some c ∧ e.state = c.lc ∧ e.isAsync = c.async ∧ e.chainable = c.chainable ∧
      e.chained = c.chained ∧ e.claimed = c.claimedInfo := by
  have hn : l.map (·.name) = cm.ctls.map (·.name) := listAll_map (fun a b hb => (listOne_spec hb).1) h
  refine ⟨hn, by rw [hn]; exact hr.inv.topo.names, ?_⟩
  intro e he
  obtain ⟨c, hc, hce⟩ := listSrv_entry hr h he
  obtain ⟨_, h2, h3, h4, h5, h6, _⟩ := listOne_spec hce
  exact ⟨c, hc, h2, h3, h5, h6, h4⟩

/-- **C60 (required interfaces).** For an inactive or active controller the answer lists the interfaces it asks for, in
particular the individually named ones exactly as named; for any other controller it lists none. -/
theorem C60_required_interfaces (o : Oracle) (cm : CM) (hr : Reach o cm) (l : List CtlEntry) (h : cm.listSrv = some l)
    (e : CtlEntry) (he : e ∈ l) (c : Ctl) (hc : cm.find e.name = some c) :
    (c.Configured → e.reqCmd = c.cfg.cmd.resolve cm.rm.availC ∧ e.reqState = c.cfg.state.resolve cm.rm.availS ∧
      (∀ k, c.cfg.cmd = .individual k → e.reqCmd = k) ∧ (∀ k, c.cfg.state = .individual k → e.reqState = k)) ∧
    (¬ c.Configured → e.reqCmd = [] ∧ e.reqState = []) := by
  obtain ⟨d, hd, hde⟩ := listSrv_entry hr h he
  obtain rfl : d = c := by rw [hd] at hc; exact Option.some.inj hc
  obtain ⟨_, _, _, _, _, _, h7, h8, _⟩ := listOne_spec hde
  refine ⟨fun g => ?_, fun g => ⟨(h8 g).1, (h8 g).2.1⟩⟩
  obtain ⟨a, b, _⟩ := h7 g
  refine ⟨a, b, ?_, ?_⟩
  · intro k hk; rw [a, asksFor, hk]; rfl
  · intro k hk; rw [b, hk]; rfl

/-- **C60 (chain connections).** A controller is shown as connected to `m` exactly if it is inactive or active, `m` is
loaded, and it asks for a command interface whose name begins with `m/`; every other controller is shown once. -/
theorem C60_connections (o : Oracle) (cm : CM) (hr : Reach o cm) (l : List CtlEntry) (h : cm.listSrv = some l)
    (e : CtlEntry) (he : e ∈ l) (c : Ctl) (hc : cm.find e.name = some c) :
    (e.conns.map (·.name)).Nodup ∧
    ∀ m, m ∈ e.conns.map (·.name) ↔
      (c.Configured ∧ m ∈ cm.ctls.map (·.name) ∧ ∃ i ∈ cm.asksFor c, i.pre = m) := by
  obtain ⟨d, hd, hde⟩ := listSrv_entry hr h he
  obtain rfl : d = c := by rw [hd] at hc; exact Option.some.inj hc
  obtain ⟨_, _, _, _, _, _, h7, h8, _⟩ := listOne_spec hde
  by_cases g : d.Configured
  · obtain ⟨_, _, hk⟩ := h7 g
    have e1 : e.conns.map (·.name) = addItems [] ((cm.listChained d).map (·.pre)) := by
      rw [hk]; simp [listConns, Function.comp_def]
    rw [e1]
    refine ⟨nodup_addItems (by simp), ?_⟩
    intro m
    simp only [mem_addItems, List.not_mem_nil, false_or, List.mem_map, listChained, List.mem_filter, g, true_and]
    constructor
    · rintro ⟨i, ⟨hi, hs⟩, rfl⟩
      obtain ⟨x, hx⟩ := Option.isSome_iff_exists.1 hs
      exact ⟨⟨x, (find_some hx).1, (find_some hx).2⟩, i, hi, rfl⟩
    · rintro ⟨⟨x, hx, hn⟩, i, hi, rfl⟩
      refine ⟨i, ⟨hi, ?_⟩, rfl⟩
      rw [(find_iff hr.inv.topo.names).2 ⟨hx, hn⟩]; rfl
  · obtain ⟨_, _, hk⟩ := h8 g
    rw [hk]
    simp [g]

/-- **C60 (interfaces of a connection), partial.** The interfaces shown for a connection are exactly the ones that the
controller asks for from that other controller. Missing: controllers that ask for interfaces of more than one
controller (`C60_connection_lists_foreign`). -/
theorem C60_connection_interfaces_partial (o : Oracle) (cm : CM) (hr : Reach o cm) (l : List CtlEntry)
    (h : cm.listSrv = some l) (e : CtlEntry) (he : e ∈ l) (c : Ctl) (hc : cm.find e.name = some c)
    (k : Connection) (hk : k ∈ e.conns)
    (h1 : ∀ i ∈ cm.asksFor c, i.pre ∈ cm.ctls.map (·.name) → i.pre = k.name) :
    k.refs.map (fun s => (⟨k.name, s⟩ : Itf)) = (cm.asksFor c).filter (fun i => i.pre = k.name) := by
  obtain ⟨d, hd, hde⟩ := listSrv_entry hr h he
  obtain rfl : d = c := by rw [hd] at hc; exact Option.some.inj hc
  obtain ⟨_, _, _, _, _, _, h7, h8, _⟩ := listOne_spec hde
  have hm := (C60_connections o cm hr l h e he d hd).2 k.name
  obtain ⟨g, hm', _⟩ := hm.1 (List.mem_map.2 ⟨k, hk, rfl⟩)
  obtain ⟨_, _, hcs⟩ := h7 g
  rw [hcs] at hk
  unfold listConns at hk
  obtain ⟨m, _, rfl⟩ := List.mem_map.1 hk
  have hf : cm.listChained d = (cm.asksFor d).filter (fun i => i.pre = m) := by
    unfold listChained
    apply List.filter_congr
    intro i hi
    cases hx : cm.find i.pre with
    | none =>
      simp only [Option.isSome_none, Bool.false_eq, decide_eq_false_iff_not]
      intro e1
      exact absurd (e1 ▸ hm') (find_none.1 hx)
    | some x =>
      simp only [Option.isSome_some, Bool.true_eq, decide_eq_true_eq]
      have hx' := find_some hx
      exact h1 i hi (List.mem_map.2 ⟨x, hx'.1, hx'.2⟩)
  simp only [hf, List.map_map]
  conv_rhs => rw [← List.map_id ((cm.asksFor d).filter (fun i => i.pre = m))]
  apply List.map_congr_left
  intro i hi
  have := (List.mem_filter.1 hi).2
  simp only [decide_eq_true_eq] at this
  simp [Function.comp, ← this]

/-- **C60 (when the service throws).** `list_controllers` throws exactly if some inactive or active chainable controller
has no list of exported interfaces on record. -/
theorem C60_list_throws_iff (cm : CM) :
    cm.listSrv = none ↔
      ∃ c ∈ cm.ctls, c.Configured ∧ c.chainable = true ∧ (cm.rm.expR c.name = none ∨ cm.rm.expS c.name = none) := by
  unfold listSrv
  rw [listAll_none]
  refine exists_congr (fun c => and_congr_right (fun _ => ?_))
  unfold listOne Ctl.Configured
  constructor
  · intro h
    split at h
    · rename_i hl
      split at h
      · rename_i hch
        refine ⟨hl.symm, hch, ?_⟩
        split at h
        · rename_i hx; exact .inl hx
        · split at h
          · rename_i hx; exact .inr hx
          · simp at h
      · simp at h
    · simp at h
  · rintro ⟨hl, hch, hx⟩
    rw [if_pos hl.symm, if_pos hch]
    rcases hx with hx | hx
    · simp [hx]
    · cases cm.rm.expR c.name <;> simp [hx]

/-- **C60 (the service answers), partial.** As long as no exception escaped before and no controller's last
`on_configure` or `on_cleanup` was an `on_cleanup` that answered FAILURE, `list_controllers` answers. Missing: the
controllers whose clean-up failed (`C60_list_throws`). -/
theorem C60_list_answers_partial (o : Oracle) (cm : CM) (hr : Reach o cm) (hf : cm.rm.fault = false)
    (hl : ∀ n ∈ cm.ctls.map (·.name), lastCleanupFailed n cm.rm.tr = false) : ∃ l, cm.listSrv = some l := by
  cases h : cm.listSrv with
  | some l => exact ⟨l, rfl⟩
  | none =>
    exfalso
    obtain ⟨c, hc, hcf, hch, hx⟩ := (C60_list_throws_iff cm).1 h
    have hfd := (find_iff hr.inv.topo.names).2 ⟨hc, rfl⟩
    rcases hr.safe c.name hf with h1 | h1
    · rw [hl c.name (List.mem_map.2 ⟨c, hc, rfl⟩)] at h1; exact absurd h1 (by simp)
    · obtain ⟨ss, rs, k, _, h2, h3, _⟩ := h1 c hfd hch hcf
      rcases hx with hx | hx
      · rw [h2] at hx; simp at hx
      · rw [h3] at hx; simp at hx

/-- **C60 (exported interfaces).** If no exception escaped before, the reference interfaces listed for an inactive or
active chainable controller whose last clean-up did not fail are exactly the ones it exports, and the listed state
interfaces are among the ones it exports; for every other controller none are listed. -/
theorem C60_exported_interfaces (o : Oracle) (cm : CM) (hr : Reach o cm) (hf : cm.rm.fault = false)
    (l : List CtlEntry) (h : cm.listSrv = some l) (e : CtlEntry) (he : e ∈ l) (c : Ctl)
    (hc : cm.find e.name = some c) :
    (c.Configured → c.chainable = true → lastCleanupFailed c.name cm.rm.tr = false →
      ∃ ss rs, c.cfg.exports = some (ss, rs) ∧ e.refs = rs.map (·.suf) ∧ e.expStates ⊆ ss.map (·.suf)) ∧
    (¬ (c.Configured ∧ c.chainable = true) → e.refs = [] ∧ e.expStates = []) := by
  obtain ⟨d, hd, hde⟩ := listSrv_entry hr h he
  obtain rfl : d = c := by rw [hd] at hc; exact Option.some.inj hc
  obtain ⟨hn, _, _, _, _, _, _, _, h9, h10⟩ := listOne_spec hde
  refine ⟨fun g gc gl => ?_, h10⟩
  obtain ⟨rs, ss, hrs, hss, e1, e2⟩ := h9 g gc
  rw [hn] at hd
  rcases hr.safe d.name hf with h1 | h1
  · rw [gl] at h1; exact absurd h1 (by simp)
  · obtain ⟨ss', rs', k, h2, h3, h4, h5⟩ := h1 d hd gc g
    rw [hrs] at h3; rw [hss] at h4
    obtain rfl := Option.some.inj h3
    obtain rfl := Option.some.inj h4
    exact ⟨ss', rs, h2, e1, by rw [e2]; exact List.map_subset _ h5⟩

/-! ## Hardware -/

theorem CM.listCmdItf_answers {cm : CM} (I : cm.rm.Inv) {i : Itf} (hi : i ∈ cm.rm.cmdKeys) : cm.listCmdItf i ≠ none := by
  unfold listCmdItf RM.isClaimed
  rw [if_pos hi]
  have hd := I.claimedDom i hi
  split
  · rename_i hx
    split at hx
    · exact absurd hx hd
    · simp at hx
  · simp

theorem CM.listCmdItf_spec {cm : CM} {i : Itf} {e : ItfEntry} (h : cm.listCmdItf i = some e) :
    e.name = i ∧ (e.available = true ↔ i ∈ cm.rm.availC) ∧
    (e.claimed = true ↔ i ∈ cm.rm.availC ∧ cm.rm.claimed i = some true) := by
  unfold listCmdItf RM.isClaimed at h
  split at h
  · split at h
    · simp at h
    · rename_i b hb
      simp only [Option.some.injEq] at h; subst h
      refine ⟨rfl, by simp, ?_⟩
      split at hb
      · rename_i hx; simp [hb, hx]
      · rename_i hx; simp only [Option.some.injEq] at hb; subst hb; simp [hx]
  · simp at h

theorem CM.listStateItf_spec {cm : CM} {i : Itf} {e : ItfEntry} (h : cm.listStateItf i = some e) :
    e.name = i ∧ (e.available = true ↔ i ∈ cm.rm.availS) ∧ e.claimed = false := by
  unfold listStateItf at h
  split at h
  · simp only [Option.some.injEq] at h; subst h; exact ⟨rfl, by simp, rfl⟩
  · simp at h

/-- **C60 (the hardware services answer).** `list_hardware_components` and `list_hardware_interfaces` never throw. -/
theorem C60_hardware_answers (o : Oracle) (cm : CM) (hr : Reach o cm) :
    (∃ l, cm.listHwSrv = some l) ∧ ∃ l, cm.listItfSrv = some l := by
  have I := hr.inv.sys.claims.rm
  have hS : ∀ i ∈ cm.rm.stateKeys, cm.listStateItf i ≠ none := by
    intro i hi; unfold listStateItf; rw [if_pos hi]; simp
  constructor
  · cases h : cm.listHwSrv with
    | some l => exact ⟨l, rfl⟩
    | none =>
      exfalso
      obtain ⟨w, hw, hx⟩ := listAll_none.1 h
      unfold listHwOne at hx
      split at hx
      · rename_i hy
        obtain ⟨i, hi, hz⟩ := listAll_none.1 hy
        exact listCmdItf_answers I (I.keyC i (.hw w.name) ⟨w, hw, rfl, hi⟩) hz
      · split at hx
        · rename_i hy
          obtain ⟨i, hi, hz⟩ := listAll_none.1 hy
          exact hS i (I.keyS i (.hw w.name) ⟨w, hw, rfl, hi⟩) hz
        · simp at hx
  · unfold listItfSrv
    split
    · rename_i hy
      obtain ⟨i, hi, hz⟩ := listAll_none.1 hy
      exact absurd hz (hS i hi)
    · split
      · rename_i hy
        obtain ⟨i, hi, hz⟩ := listAll_none.1 hy
        exact absurd hz (listCmdItf_answers I hi)
      · exact ⟨_, rfl⟩


/-- **C60 (hardware components).** `list_hardware_components` has exactly one entry for every component, with its current
state and its interfaces; the interfaces of an inactive or active component are shown as available; a command interface
is shown as claimed exactly if it is available and some controller has it on loan, and then exactly one, active
controller has. -/
theorem C60_hardware_components (o : Oracle) (cm : CM) (hr : Reach o cm) (l : List HwEntry) (h : cm.listHwSrv = some l) :
    l.map (·.name) = cm.rm.comps.map (·.name) ∧ (l.map (·.name)).Nodup ∧
    ∀ w ∈ cm.rm.comps, ∃ e ∈ l, e.name = w.name ∧ e.state = w.lc ∧
      e.cmd.map (·.name) = w.cmdItfs ∧ e.states.map (·.name) = w.stateItfs ∧
      ((w.lc = .inactive ∨ w.lc = .active) → (∀ x ∈ e.cmd, x.available = true) ∧ (∀ x ∈ e.states, x.available = true)) ∧
      (∀ x ∈ e.states, x.claimed = false) ∧
      (∀ x ∈ e.cmd, (x.claimed = true ↔ x.available = true ∧ ∃ c ∈ cm.ctls, x.name ∈ c.held) ∧
        (x.claimed = true → ∃ c ∈ cm.ctls, c.lc = .active ∧ x.name ∈ c.held ∧ ∀ d ∈ cm.ctls, x.name ∈ d.held → d = c)) := by
  have I := hr.inv.sys.claims.rm
  have hspec : ∀ w e, cm.listHwOne w = some e → e.name = w.name ∧ e.state = w.lc ∧
      listAll cm.listCmdItf w.cmdItfs = some e.cmd ∧ listAll cm.listStateItf w.stateItfs = some e.states := by
    intro w e hw
    unfold listHwOne at hw
    split at hw
    · simp at hw
    · rename_i cs hcs
      split at hw
      · simp at hw
      · rename_i ss hss
        simp only [Option.some.injEq] at hw; subst hw
        exact ⟨rfl, rfl, hcs, hss⟩
  have hn : l.map (·.name) = cm.rm.comps.map (·.name) := listAll_map (fun a b hb => (hspec a b hb).1) h
  refine ⟨hn, by rw [hn]; exact I.names, ?_⟩
  intro w hw
  obtain ⟨e, he, hwe⟩ := (listAll_some h).1 w hw
  obtain ⟨h1, h2, h3, h4⟩ := hspec w e hwe
  have c1 : e.cmd.map (·.name) = w.cmdItfs := by
    have := listAll_map (g := ItfEntry.name) (k := fun i : Itf => i) (fun a b hb => (listCmdItf_spec hb).1) h3
    simpa using this
  have c2 : e.states.map (·.name) = w.stateItfs := by
    have := listAll_map (g := ItfEntry.name) (k := fun i : Itf => i) (fun a b hb => (listStateItf_spec hb).1) h4
    simpa using this
  refine ⟨e, he, h1, h2, c1, c2, ?_, ?_, ?_⟩
  · intro hl
    obtain ⟨a, b⟩ := I.conf w hw hl
    constructor
    · intro x hx
      obtain ⟨i, hi, hix⟩ := (listAll_some h3).2 x hx
      exact (listCmdItf_spec hix).2.1.2 (b i hi)
    · intro x hx
      obtain ⟨i, hi, hix⟩ := (listAll_some h4).2 x hx
      exact (listStateItf_spec hix).2.1.2 (a i hi)
  · intro x hx
    obtain ⟨i, hi, hix⟩ := (listAll_some h4).2 x hx
    exact (listStateItf_spec hix).2.2
  · intro x hx
    obtain ⟨i, hi, hix⟩ := (listAll_some h3).2 x hx
    obtain ⟨rfl, s2, s3⟩ := listCmdItf_spec hix
    obtain ⟨g1, g2, g3⟩ := C06_hardware_single_holder o cm hr w hw _ hi
    refine ⟨by rw [s3, s2, g1], ?_⟩
    intro hcl
    obtain ⟨c, hc, hic⟩ := g1.1 (s3.1 hcl).2
    refine ⟨c, hc, ?_, hic, fun d hd hid => g2 d hd c hc hid hic⟩
    by_cases ha : c.lc = .active
    · exact ha
    · rw [C06_inactive_holds_nothing o cm hr c hc ha] at hic; simp at hic

/-- **C60 (interfaces).** `list_hardware_interfaces` shows every registered interface, the command interfaces as claimed
only while they are available, and the state interfaces never as claimed. -/
theorem C60_interfaces (cm : CM) (ss cs : List ItfEntry) (h : cm.listItfSrv = some (ss, cs)) :
    ss.map (·.name) = cm.rm.stateKeys ∧ cs.map (·.name) = cm.rm.cmdKeys ∧
    (∀ x ∈ ss, (x.available = true ↔ x.name ∈ cm.rm.availS) ∧ x.claimed = false) ∧
    (∀ x ∈ cs, (x.available = true ↔ x.name ∈ cm.rm.availC) ∧
      (x.claimed = true ↔ x.available = true ∧ cm.rm.claimed x.name = some true)) := by
  unfold listItfSrv at h
  split at h
  · simp at h
  · rename_i ss' h4
    split at h
    · simp at h
    · rename_i cs' h3
      simp only [Option.some.injEq, Prod.mk.injEq] at h
      obtain ⟨rfl, rfl⟩ := h
      refine ⟨?_, ?_, ?_, ?_⟩
      · have := listAll_map (g := ItfEntry.name) (k := fun i : Itf => i) (fun a b hb => (listStateItf_spec hb).1) h4
        simpa using this
      · have := listAll_map (g := ItfEntry.name) (k := fun i : Itf => i) (fun a b hb => (listCmdItf_spec hb).1) h3
        simpa using this
      · intro x hx
        obtain ⟨i, hi, hix⟩ := (listAll_some h4).2 x hx
        obtain ⟨rfl, a, b⟩ := listStateItf_spec hix
        exact ⟨a, b⟩
      · intro x hx
        obtain ⟨i, hi, hix⟩ := (listAll_some h3).2 x hx
        obtain ⟨rfl, a, b⟩ := listCmdItf_spec hix
        exact ⟨a, by rw [b, a]⟩

/-! ## Concrete cases and witnesses -/

/-- The entry of a controller in the answer of `list_controllers`. -/
def CM.entryOf (cm : CM) (n : Name) : Option CtlEntry := (cm.listSrv.getD []).find? (fun e => e.name = n)

/-- Non-vacuity: a chain of active controllers is listed with its connection and the exported interfaces. -/
example :
    let cm := demo goodOracle (switchOps [100, 200] [] .strict)
    Reach goodOracle cm ∧ cm.rm.fault = false ∧ (cm.ctls.all (fun c => !lastCleanupFailed c.name cm.rm.tr)) = true ∧
    cm.entryOf 200 = some ⟨200, .active, false, [⟨100, 0⟩], false, false, [⟨100, 0⟩], [], [], [], [⟨100, [0]⟩]⟩ ∧
    cm.entryOf 100 = some ⟨100, .active, false, [⟨10, 0⟩], true, true, [⟨10, 0⟩], [⟨10, 0⟩], [0], [1], []⟩ ∧
    cm.entryOf 300 = some ⟨300, .inactive, false, [], false, false, [⟨20, 0⟩], [⟨10, 1⟩], [], [], []⟩ :=
  ⟨demo_reach _ _, by decide +kernel⟩

/-- Non-vacuity: the components and interfaces are listed, a claimed one and an unclaimed one. -/
example :
    let cm := demo goodOracle (switchOps [100, 200] [] .strict)
    ((cm.listHwSrv.getD []).map (fun e => (e.name, e.state, e.cmd))) =
      [(1, .active, [⟨⟨10, 0⟩, true, true⟩]), (2, .active, [⟨⟨20, 0⟩, true, false⟩, ⟨⟨20, 1⟩, true, false⟩])] ∧
    (cm.listItfSrv.map (fun p => p.2)) =
      some [⟨⟨10, 0⟩, true, true⟩, ⟨⟨20, 0⟩, true, false⟩, ⟨⟨20, 1⟩, true, false⟩, ⟨⟨100, 0⟩, true, true⟩] := by
  decide +kernel

/-- A second chainable controller, driving 20/0 and exporting the reference 500/7. -/
def cfg500 : CtlCfg :=
  { cmd := .individual [⟨20, 0⟩], state := .individual [], exports := some ([], [⟨500, 7⟩]) }

/-- A controller on top of 100 and 500. -/
def twoChains : CM :=
  demo goodOracle [.load 500 true false cfg500 [], .configure 500 cfg500 [] true,
    .load 600 false false (plainCfg [⟨100, 0⟩, ⟨500, 7⟩] []) [],
    .configure 600 (plainCfg [⟨100, 0⟩, ⟨500, 7⟩] []) [] true]

/-- **C60, negation (1).** A controller that asks for interfaces of two controllers is shown to use both interfaces of
each of them: 600 asks for 100/0 and 500/7; the connection to 100 lists 0 and 7, and so does the one to 500. -/
theorem C60_connection_lists_foreign :
    Reach goodOracle twoChains ∧
    (twoChains.entryOf 600).map (·.reqCmd) = some [⟨100, 0⟩, ⟨500, 7⟩] ∧
    (twoChains.entryOf 600).map (·.conns) = some [⟨100, [0, 7]⟩, ⟨500, [0, 7]⟩] ∧
    (twoChains.entryOf 100).map (·.refs) = some [0] ∧ (twoChains.entryOf 500).map (·.refs) = some [7] :=
  ⟨demo_reach _ _, by decide +kernel⟩

/-- **C60, negation (2).** A controller that has the name of a joint is shown as a chain connection of the controllers of
that joint, although it exports nothing: 100 drives the hardware interface 10/0 and is shown as connected to the
controller 10, which is not even configured and not chainable. -/
theorem C60_joint_shown_as_connection :
    let cm := demo goodOracle [.load 10 false false (plainCfg [] []) []]
    Reach goodOracle cm ∧ cm.lcOf 10 = some .unconfigured ∧ (cm.entryOf 10).map (·.chainable) = some false ∧
    (cm.entryOf 100).map (·.conns) = some [⟨10, [0]⟩] :=
  ⟨demo_reach _ _, by decide +kernel⟩

/-- The clean-up of controller 100 answers FAILURE. -/
def refuseCleanup100 : Oracle :=
  { goodOracle with ctlCb := fun _ n cb => if n = 100 ∧ cb = .cleanup then .failure else .success }

/-- **C60, negation (3).** If the `on_cleanup` of a chainable controller answers FAILURE, the controller stays inactive
without its exported interfaces, and the next `list_controllers` throws. -/
theorem C60_list_throws :
    let cm := demo refuseCleanup100 [.cleanup 100]
    Reach refuseCleanup100 cm ∧ cm.rm.fault = false ∧ cm.lcOf 100 = some .inactive ∧ cm.listSrv = none :=
  ⟨demo_reach _ _, by decide +kernel⟩

/-- **C60, negation (4).** A command interface that a controller has on loan can be shown as not claimed: the component
of the interface was set to UNCONFIGURED while the controller was active. -/
theorem C60_held_shown_unclaimed :
    let cm := demo goodOracle (switchOps [300] [] .strict ++ [.setHw 2 .unconfigured])
    Reach goodOracle cm ∧ cm.lcOf 300 = some .active ∧ cm.heldBy 300 = some [⟨20, 0⟩] ∧
    ((cm.listHwSrv.getD []).map (fun e => (e.name, e.state, e.cmd))) =
      [(1, .active, [⟨⟨10, 0⟩, true, false⟩]), (2, .unconfigured, [⟨⟨20, 0⟩, false, false⟩, ⟨⟨20, 1⟩, false, false⟩])] :=
  ⟨demo_reach _ _, by decide +kernel⟩

end Verif
