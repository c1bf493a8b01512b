import Verif.CM.Avail
import Verif.CM.Wired
import Verif.Props.CMDemo
import Verif.Props.C06_C10_Controllers
/-!
# C14–C18: `switch_controller`

`cm.switchBegin o act deact s asap` is the call up to the point where it has either been answered
(`.done r`) or waits for the real-time loop (`.wait`: the request was accepted).
-/
namespace Verif
open CM

/-! ## C14 -/

/-- The reasons for which a STRICT request to activate `act` and deactivate `deact` must be refused, in the
words of the user documentation, as a property of the state before the call. -/
inductive CM.Unfit (cm : CM) (act deact : List Name) : Prop
  /-- a named controller is not loaded -/
  | notLoaded (n : Name) (h : n ∈ act ∨ n ∈ deact) (hl : cm.lcOf n = none)
  /-- a controller to activate is not INACTIVE (and not about to be restarted) -/
  | notInactive (n : Name) (h : n ∈ act) (hl : cm.lcOf n ≠ some .inactive)
      (hr : ¬ (cm.lcOf n = some .active ∧ n ∈ deact))
  /-- a controller to deactivate is not ACTIVE -/
  | notActive (n : Name) (h : n ∈ deact) (hl : cm.lcOf n ≠ some .active)
  /-- a controller at any depth below one to activate is not chainable, or is being stopped, or is neither
  running nor started by the same request -/
  | following (n : Name) (c f : Ctl) (h : n ∈ act) (hc : cm.find n = some c) (hl : c.lc = .inactive)
      (hf : Relation.TransGen (cm.Needs deact) c f)
      (hb : f.chainable = false ∨ (f.lc = .active ∧ f.name ∈ deact) ∨ (f.lc ≠ .active ∧ f.name ∉ act))
  /-- a recorded user of a chainable controller to deactivate keeps running or is started -/
  | preceding (n p : Name) (c : Ctl) (h : n ∈ deact) (hc : cm.find n = some c) (hch : c.chainable = true)
      (hp : p ∈ cm.stateCache n ++ cm.refCache n)
      (hb : (cm.lcOf p = some .active ∧ p ∉ deact) ∨ (cm.lcOf p = some .inactive ∧ p ∈ act))
  /-- a fallback controller is not loaded or not configured -/
  | fallback (n m : Name) (c : Ctl) (h : n ∈ act) (hc : cm.find n = some c) (hm : m ∈ c.fallbacks)
      (hi : cm.lcOf m ≠ some .inactive) (ha : cm.lcOf m ≠ some .active)
  /-- a command interface is neither available nor exported by a controller -/
  | noCommand (n : Name) (c : Ctl) (i : Itf) (h : n ∈ act) (hd : n ∉ deact) (hc : cm.find n = some c)
      (hi : i ∈ c.cfg.cmd.resolve cm.rm.availC) (ha : i ∉ cm.rm.availC)
      (he : ∀ m l, cm.rm.expR m = some l → i ∉ l)
  /-- a state interface is neither available nor exported by a controller -/
  | noState (n : Name) (c : Ctl) (i : Itf) (h : n ∈ act) (hd : n ∉ deact) (hc : cm.find n = some c)
      (hi : i ∈ c.cfg.state.resolve cm.rm.availS) (ha : i ∉ cm.rm.availS)
      (he : ∀ m l, cm.rm.expS m = some l → i ∉ l)
  /-- two controllers to start want the same command interface -/
  | twice (n m : Name) (c d : Ctl) (i : Itf) (hn : n ∈ act) (hm : m ∈ act) (hne : n ≠ m) (hnd : n ∉ deact) (hmd : m ∉ deact)
      (hc : cm.find n = some c) (hd : cm.find m = some d)
      (h1 : i ∈ c.cfg.cmd.resolve cm.rm.availC) (h2 : i ∈ d.cfg.cmd.resolve cm.rm.availC)

theorem CM.Accepted.starts {cm r : CM} {act deact R : List Name} (hn : (cm.ctls.map (·.name)).Nodup)
    (A : Accepted cm r act deact R) {n : Name} (h : n ∈ act) (hd : n ∉ deact) : n ∈ r.sw.act ∧ n ∉ r.sw.deact := by
  refine ⟨by rw [A.actL]; simp [h], ?_⟩
  rw [A.deactL]
  intro hx
  rcases List.mem_append.1 hx with hx | hx
  · exact hd hx
  obtain ⟨_, _, e, he, h2, h3⟩ := A.restart n hx
  obtain ⟨c, hc, h4, _⟩ := A.strictOk.actOk n h
  have := (find_iff hn).2 ⟨he, h2⟩
  rw [hc] at this
  simp at this; subst this
  rcases h4 with ⟨h4, _⟩ | ⟨_, h4⟩
  · rw [h3] at h4; simp at h4
  · exact hd h4

/-- **C14 (an unfit STRICT request is answered with ERROR).** -/
theorem C14_unfit_rejected (o : Oracle) (cm : CM) (hr : Reach o cm) (act deact : List Name) (asap : Bool)
    (h : cm.Unfit act deact) : (cm.switchBegin o act deact .strict asap).2 = .done .error := by
  by_contra hne
  have hnd := hr.inv.topo.names
  rcases switchBegin_strict o cm act deact asap hne with ⟨rfl, rfl, _⟩ | ⟨hw, R, A⟩
  · cases h with
    | notLoaded n h => simp at h
    | notInactive n h => simp at h
    | notActive n h => simp at h
    | following n c f h => simp at h
    | preceding n p c h => simp at h
    | fallback n m c h => simp at h
    | noCommand n c i h => simp at h
    | noState n c i h => simp at h
    | twice n m c d i h => simp at h
  have lcf : ∀ {n c}, cm.find n = some c → cm.lcOf n = some c.lc := by
    intro n c hc; unfold CM.lcOf; rw [hc]; rfl
  have V := switchBegin_avail hw
  obtain ⟨g1, g2, g3, g4⟩ := switchBegin_grow hw
  have cmdM : ∀ c : Ctl, c.cfg.cmd.resolve cm.rm.availC ⊆ (cm.switchBegin o act deact .strict asap).1.cmdItfs c :=
    fun c => ItfCfg.resolve_mono _ g1
  have stM : ∀ c : Ctl, c.cfg.state.resolve cm.rm.availS ⊆ (cm.switchBegin o act deact .strict asap).1.stateItfs c :=
    fun c => ItfCfg.resolve_mono _ g2
  cases h with
  | notLoaded n h hl =>
    rcases h with h | h
    · obtain ⟨c, hc, _⟩ := A.strictOk.actOk n h
      rw [lcf hc] at hl; simp at hl
    · obtain ⟨c, hc, _⟩ := A.strictOk.deactOk n h
      rw [lcf hc] at hl; simp at hl
  | notInactive n h hl hrr =>
    obtain ⟨c, hc, h4, _⟩ := A.strictOk.actOk n h
    rw [lcf hc] at hl hrr
    rcases h4 with ⟨h4, _⟩ | ⟨h4, h5⟩
    · exact hl (by rw [h4])
    · exact hrr ⟨by rw [h4], h5⟩
  | notActive n h hl =>
    obtain ⟨c, hc, h4, _⟩ := A.strictOk.deactOk n h
    rw [lcf hc] at hl
    exact hl (by rw [h4])
  | following n c f h hc hl hf hb =>
    obtain ⟨c', hc', h4, _⟩ := A.strictOk.actOk n h
    rw [hc] at hc'; simp at hc'; subst hc'
    rcases h4 with ⟨_, h4⟩ | ⟨h4, _⟩
    · obtain ⟨k1, k2⟩ := h4 f hf
      rcases hb with hb | ⟨hb, hb'⟩ | ⟨hb, hb'⟩
      · rw [k1] at hb; simp at hb
      · rcases k2 with ⟨_, k2⟩ | ⟨k2, _⟩
        · exact k2 hb'
        · exact k2 hb
      · rcases k2 with ⟨k2, _⟩ | ⟨_, k2⟩
        · exact hb k2
        · exact hb' k2
    · rw [hl] at h4; simp at h4
  | preceding n p c h hc hch hp hb =>
    obtain ⟨c', hc', _, h4⟩ := A.strictOk.deactOk n h
    rw [hc] at hc'; simp at hc'; subst hc'
    cases hpf : cm.find p with
    | none => simp [CM.lcOf, hpf] at hb
    | some pc =>
      obtain ⟨k1, k2⟩ := h4 hch p hp pc hpf
      rw [lcf hpf] at hb
      simp only [Option.some.injEq] at hb
      rcases hb with hb | hb
      · exact k2 hb
      · exact k1 hb
  | fallback n m c h hc hm hi ha =>
    obtain ⟨c', hc', _, aC, aS, _, _, _, _, F⟩ := A.strictOk.actOk n h
    rw [hc] at hc'; simp at hc'; subst hc'
    obtain ⟨d, hd, h5, _⟩ := F m hm
    rw [lcf hd] at hi ha
    rcases h5 with h5 | h5
    · exact hi (by rw [h5])
    · exact ha (by rw [h5])
  | noCommand n c i h hd hc hi ha he =>
    obtain ⟨k1, k2⟩ := A.starts hnd h hd
    obtain ⟨c', hc', h5, _⟩ := V.items n k1 k2
    rw [hc] at hc'; simp at hc'; subst hc'
    rcases g3 i (h5 i (cmdM c hi)).1 with h6 | ⟨m, l, h6, h7⟩
    · exact ha h6
    · exact he m l h6 h7
  | noState n c i h hd hc hi ha he =>
    obtain ⟨k1, k2⟩ := A.starts hnd h hd
    obtain ⟨c', hc', _, h5⟩ := V.items n k1 k2
    rw [hc] at hc'; simp at hc'; subst hc'
    rcases g4 i (h5 i (stM c hi)) with h6 | ⟨m, l, h6, h7⟩
    · exact ha h6
    · exact he m l h6 h7
  | twice n m c d i hn hm hne hnd' hmd hc hd h1 h2 =>
    obtain ⟨a1, a2⟩ := A.starts hnd hn hnd'
    obtain ⟨b1, b2⟩ := A.starts hnd hm hmd
    exact wanted_disjoint V.once (List.mem_filter.2 ⟨a1, by simpa using a2⟩) (List.mem_filter.2 ⟨b1, by simpa using b2⟩)
      hne hc hd (cmdM c h1) (cmdM d h2)

theorem CM.Began.field {α : Type} {a b : CM} (h : Began a b) (g : Ctl → α) (hg : ∀ c : Ctl, g c.noSkip = g c) (n : Name) :
    (b.find n).map g = (a.find n).map g := by
  have e : ((fun c : Ctl => decide (c.name = n)) ∘ Ctl.noSkip) = (fun c : Ctl => decide (c.name = n)) := by
    funext c; rfl
  have key : ∀ x : CM, (x.find n).map g = ((x.ctls.map Ctl.noSkip).find? (fun c => c.name = n)).map g := by
    intro x
    rw [List.find?_map, e]
    unfold CM.find
    cases x.ctls.find? (fun c => c.name = n) with
    | none => rfl
    | some c => simp [hg]
  rw [key, key, h.ctls]

/-- **C14 (a request that is not accepted changes nothing).** Whatever the strictness: if the call is answered
without waiting for the real-time loop, then the loaded controllers and their order, their lifecycle states, the
interfaces they hold, their chained mode, the states of all hardware components and all claims are as before,
and there is no request left that the real-time loop could execute. -/
theorem C14_rejected_unchanged (o : Oracle) (cm : CM) (hp : cm.pending = false) (act deact : List Name) (s : Strictness)
    (asap : Bool) (r : Ret) (h : (cm.switchBegin o act deact s asap).2 = .done r) :
    let cm' := (cm.switchBegin o act deact s asap).1
    cm'.ctls.map (·.name) = cm.ctls.map (·.name) ∧
    (∀ n, cm'.lcOf n = cm.lcOf n ∧ cm'.heldBy n = cm.heldBy n ∧ cm'.chainedMode n = cm.chainedMode n) ∧
    (∀ hw, cm'.rm.stateOf hw = cm.rm.stateOf hw) ∧ cm'.rm.claimed = cm.rm.claimed ∧
    cm'.sw.doSwitch = false ∧ cm'.pending = false := by
  have B := switchBegin_began o cm act deact s asap
  obtain ⟨d1, d2⟩ := switchBegin_done h
  refine ⟨?_, ?_, ?_, B.claimed, d1, d2.trans hp⟩
  · have := congrArg (List.map (·.name)) B.ctls
    simpa [List.map_map, Function.comp_def, Ctl.noSkip] using this
  · intro n
    exact ⟨B.field (·.lc) (by intro _; rfl) n, B.field (·.held) (by intro _; rfl) n, B.field (·.chained) (by intro _; rfl) n⟩
  · intro hw
    unfold RM.stateOf RM.findHw
    rw [B.comps]

/-- A rejected request of the demo robot: 200 and 400 both want the reference of 100. -/
example : (demo goodOracle []).Unfit [200, 100, 400] [] :=
  .twice 200 400 _ _ ⟨100, 0⟩ (by decide) (by decide) (by decide) (by decide) (by decide)
    (show (demo goodOracle []).find 200 = some (((demo goodOracle []).find 200).get (by decide)) by simp)
    (show (demo goodOracle []).find 400 = some (((demo goodOracle []).find 400).get (by decide)) by simp)
    (by decide) (by decide)

example : ((demo goodOracle []).switchBegin goodOracle [300, 9] [] .strict true).2 = .done .error :=
  C14_unfit_rejected goodOracle _ (demo_reach _ _) _ _ _ (.notLoaded 9 (.inl (by decide)) (by decide))

/-- The demo hardware refuses every mode switch that stops an interface. -/
def rejectStop : Oracle :=
  { goodOracle with hwMode := fun _ _ p _ stop => if p = true ∧ stop ≠ [] then .ret .error else .ret .ok }

/-- An active asynchronous controller 600 that drives 20/1. -/
def async600 : List CM.Op :=
  [.load 600 false true (plainCfg [⟨20, 1⟩] []) [], .configure 600 (plainCfg [⟨20, 1⟩] []) [] true] ++
  switchOps [600] [] .strict

/-- **C14, what the theorem does not claim.** A rejected request is not without any trace: the interfaces exported
by an inactive chainable controller can stay available (cm.cpp:4006-4031 runs before later checks fail), and an
asynchronous controller whose deactivation was refused by the hardware is never updated again although it stays
ACTIVE (`prepare_for_deactivation`, cm.cpp:2348-2358, is not undone). -/
theorem C14_rejected_leaves_traces :
    ((demo goodOracle []).switchBegin goodOracle [200, 100, 400] [] .strict true).2 = .done .error ∧
    ((⟨100, 0⟩ : Itf) ∉ (demo goodOracle []).rm.availC ∧
      (⟨100, 0⟩ : Itf) ∈ ((demo goodOracle []).switchBegin goodOracle [200, 100, 400] [] .strict true).1.rm.availC) ∧
    ((demo rejectStop async600).switchBegin rejectStop [] [600] .strict true).2 = .done .error ∧
    (let before := demo rejectStop (async600 ++ [.update (fun _ => true) true])
     let after := demo rejectStop (async600 ++ [.switchBegin [] [600] .strict true, .update (fun _ => true) true])
     before.rm.tr.head? = some (.ctlUpdate 600 (.ret .ok)) ∧
     after.lcOf 600 = some .active ∧ after.rm.tr.head? ≠ some (.ctlUpdate 600 (.ret .ok))) := by
  decide

/-! ## C15 -/

/-- The call `switch_controller` that began in `cm` is still waiting after each of the operations. -/
def CM.WaitsThrough (o : Oracle) (cm : CM) (ops : List CM.Op) : Prop :=
  ∀ k, k ≤ ops.length → (CM.run o cm (ops.take k)).pending = true

theorem CM.WaitsThrough.keep {o : Oracle} : ∀ (ops : List CM.Op) {cm : CM}, Inv cm → cm.WaitsThrough o ops →
    (∃ d r, (CM.run o cm ops).sw = { cm.sw with doSwitch := d, ready := r }) ∧
    (CM.run o cm ops).ctls.map (·.name) = cm.ctls.map (·.name) := by
  intro ops
  induction ops with
  | nil => intro cm _ _; exact ⟨⟨_, _, rfl⟩, rfl⟩
  | cons op t ih =>
    intro cm I h
    have h0 : cm.pending = true := h 0 (by simp)
    have h1 : (cm.step o op).pending = true := h 1 (by simp)
    obtain ⟨⟨d, r, e, _⟩, nm⟩ := step_pending o I op h0 h1
    obtain ⟨⟨d', r', e'⟩, nm'⟩ := ih (cm := cm.step o op) (inv_step o I op) (fun k hk => h (k + 1) (by simpa using hk))
    refine ⟨⟨d', r', ?_⟩, nm'.trans nm⟩
    change (CM.run o (cm.step o op) t).sw = _
    rw [e', e]

/-- **C15.** A call `switch_controller` was accepted, anything that can happen happened while it was waiting, and
then it returned OK: every controller of the effective activation list is ACTIVE, and every controller that is only
on the effective deactivation list is not. The effective lists are the requested ones as corrected by the validation
(`cm'.sw`); `C15_ok_means_switched_strict` is about the requested ones. -/
theorem C15_ok_means_switched (o : Oracle) (cm : CM) (hr : Reach o cm) (act deact : List Name) (s : Strictness)
    (asap : Bool) (_hw : (cm.switchBegin o act deact s asap).2 = .wait) (ops : List CM.Op)
    (hp : (cm.switchBegin o act deact s asap).1.WaitsThrough o ops)
    (hok : ((CM.run o (cm.switchBegin o act deact s asap).1 ops).switchWake o).2 = some .ok) :
    let cm' := (cm.switchBegin o act deact s asap).1
    let final := ((CM.run o cm' ops).switchWake o).1
    (∀ n ∈ cm'.sw.act, cm.lcOf n ≠ none → final.lcOf n = some .active) ∧
    (∀ n ∈ cm'.sw.deact, n ∉ cm'.sw.act → final.lcOf n ≠ some .active) := by
  intro cm' final
  have I' : Inv cm' := (Fwd.switchBegin o cm act deact s asap hr.inv.sys).cmInv hr.inv
  obtain ⟨⟨d, r, e⟩, nm⟩ := CM.WaitsThrough.keep ops I' hp
  have J : Inv (CM.run o cm' ops) := inv_run o I' ops
  have B := switchBegin_began o cm act deact s asap
  have nm' : cm'.ctls.map (·.name) = cm.ctls.map (·.name) := by
    have := congrArg (List.map (·.name)) B.ctls
    simpa [List.map_map, Function.comp_def, Ctl.noSkip] using this
  -- the state that is evaluated
  have : ∃ y : CM, final = y.switchFinish.1 ∧ y.evalResult = .ok ∧ y.sw.act = cm'.sw.act ∧ y.sw.deact = cm'.sw.deact ∧
      y.ctls.map (·.name) = cm.ctls.map (·.name) := by
    change ((CM.run o cm' ops).switchWake o).2 = some .ok at hok
    have eF : final = ((CM.run o cm' ops).switchWake o).1 := rfl
    clear_value final
    generalize CM.run o cm' ops = x at *
    unfold CM.switchWake at eF hok
    split at hok
    · simp at hok
    split at hok
    · split at hok
      · simp at hok
      · rename_i h1 h2 h3
        rw [if_neg h1, if_pos h2, if_neg h3] at eF
        exact ⟨x, eF, by simpa [CM.switchFinish] using hok, by rw [e], by rw [e], nm.trans nm'⟩
    · split at hok
      · rename_i h1 h2 h3
        rw [if_neg h1, if_neg h2, if_pos h3] at eF
        refine ⟨x.manageSwitch o, eF, by simpa [CM.switchFinish] using hok, ?_, ?_, ?_⟩
        · rw [(manageSwitch_sw o x).1, e]
        · rw [(manageSwitch_sw o x).1, e]
        · rw [names_of_stat (Fwd.manageSwitch o x J.sys).stat, nm, nm']
      · simp at hok
  obtain ⟨y, eF, ev, ya, yd, yn⟩ := this
  have lcF : ∀ n, final.lcOf n = y.lcOf n := by
    intro n
    rw [eF]
    unfold CM.switchFinish CM.clear CM.lcOf CM.find
    simp only [List.find?_map]
    have e : ((fun c : Ctl => decide (c.name = n)) ∘ y.evalOne) = (fun c : Ctl => decide (c.name = n)) := by
      funext c; rfl
    rw [e]
    cases y.ctls.find? (fun c => c.name = n) <;> rfl
  have all : ∀ c ∈ y.ctls, (c.name ∈ y.sw.act → c.lc = .active) ∧ (c.name ∈ y.sw.deact → c.name ∉ y.sw.act → c.lc ≠ .active) := by
    unfold CM.evalResult at ev
    split at ev
    · rename_i h
      rw [List.all_eq_true] at h
      intro c hc
      have := h c hc
      simp only [Bool.and_eq_true, Bool.not_eq_true', decide_eq_false_iff_not, not_and, not_not] at this
      exact ⟨this.1, fun a b => this.2 a b⟩
    · simp at ev
  refine ⟨?_, ?_⟩
  · intro n hn hl
    rw [lcF]
    have : n ∈ y.ctls.map (·.name) := by
      rw [yn]
      cases hf : cm.find n with
      | none => simp [CM.lcOf, hf] at hl
      | some c => rw [← (find_some hf).2]; exact List.mem_map_of_mem (find_some hf).1
    cases hf : y.find n with
    | none => exact absurd this (find_none.1 hf)
    | some c =>
      have := (find_some hf)
      have h2 := (all c this.1).1 (by rw [this.2, ya]; exact hn)
      unfold CM.lcOf; rw [hf]; simp [h2]
  · intro n hn hna hl
    rw [lcF] at hl
    cases hf : y.find n with
    | none => simp [CM.lcOf, hf] at hl
    | some c =>
      have := (find_some hf)
      refine (all c this.1).2 (by rw [this.2, yd]; exact hn) (by rw [this.2, ya]; exact hna) ?_
      unfold CM.lcOf at hl; rw [hf] at hl; simpa using hl

/-- **C15 for STRICT requests**, in terms of the requested lists: if the call returned OK, every controller to
activate is ACTIVE and every controller to deactivate only is not. -/
theorem C15_ok_means_switched_strict (o : Oracle) (cm : CM) (hr : Reach o cm) (act deact : List Name)
    (asap : Bool) (hw : (cm.switchBegin o act deact .strict asap).2 = .wait) (ops : List CM.Op)
    (hp : (cm.switchBegin o act deact .strict asap).1.WaitsThrough o ops)
    (hok : ((CM.run o (cm.switchBegin o act deact .strict asap).1 ops).switchWake o).2 = some .ok) :
    let final := ((CM.run o (cm.switchBegin o act deact .strict asap).1 ops).switchWake o).1
    (∀ n ∈ act, final.lcOf n = some .active) ∧ (∀ n ∈ deact, n ∉ act → final.lcOf n ≠ some .active) := by
  intro final
  obtain ⟨h1, h2⟩ := C15_ok_means_switched o cm hr act deact .strict asap hw ops hp hok
  have A : ∃ R, Accepted cm (cm.switchBegin o act deact .strict asap).1 act deact R := by
    rcases switchBegin_strict o cm act deact asap (by rw [hw]; simp) with ⟨_, _, h⟩ | ⟨_, h⟩
    · rw [hw] at h; simp at h
    · exact h
  obtain ⟨R, A⟩ := A
  refine ⟨?_, ?_⟩
  · intro n hn
    obtain ⟨c, hc, _⟩ := A.strictOk.actOk n hn
    exact h1 n (by rw [A.actL]; simp [hn]) (by unfold CM.lcOf; rw [hc]; simp)
  · intro n hn hna
    refine h2 n (by rw [A.deactL]; simp [hn]) ?_
    rw [A.actL]
    intro hx
    rcases List.mem_append.1 hx with hx | hx
    · exact hna hx
    · exact (A.restart n hx).1 hn

/-- **C15 (OK without waiting).** A STRICT call that returns OK at once was empty. -/
theorem C15_ok_at_once_is_empty (o : Oracle) (cm : CM) (act deact : List Name) (asap : Bool)
    (h : (cm.switchBegin o act deact .strict asap).2 = .done .ok) : act = [] ∧ deact = [] := by
  rcases switchBegin_strict o cm act deact asap (by rw [h]; simp) with ⟨h1, h2, _⟩ | ⟨h1, _⟩
  · exact ⟨h1, h2⟩
  · rw [h] at h1; simp at h1

/-- The hypotheses are met: the demo robot starts the whole chain; meanwhile the real-time loop runs. -/
example :
    let cm' := ((demo goodOracle []).switchBegin goodOracle [200, 100, 300] [] .strict true).1
    ((demo goodOracle []).switchBegin goodOracle [200, 100, 300] [] .strict true).2 = .wait ∧
    (CM.run goodOracle cm' []).pending = true ∧ (CM.run goodOracle cm' [.update (fun _ => true) true]).pending = true ∧
    ((CM.run goodOracle cm' [.update (fun _ => true) true]).switchWake goodOracle).2 = some .ok := by decide

/-- The demo hardware fails to perform a mode switch that both starts and stops interfaces. -/
def noPerform : Oracle :=
  { goodOracle with hwMode := fun _ _ p start stop => if p = false ∧ stop ≠ [] ∧ start ≠ [] then .ret .error else .ret .ok }

/-- **C15, what OK does not mean.** When the hardware fails to perform the mode switch, `manage_switch` gives up
before touching any controller, and a request to restart a controller is still answered with OK although the
controller was neither stopped nor started (its last callbacks are unchanged). -/
theorem C15_restart_ok_without_restart :
    let cm := demo noPerform (switchOps [300] [] .strict)
    let cm' := (cm.switchBegin noPerform [300] [300] .strict true).1
    let x := CM.run noPerform cm' [.update (fun _ => true) true]
    (x.switchWake noPerform).2 = some .ok ∧
    (x.switchWake noPerform).1.rm.tr.filter (fun e => match e with | .ctlCb 300 _ _ => true | _ => false) =
      cm.rm.tr.filter (fun e => match e with | .ctlCb 300 _ _ => true | _ => false) := by
  decide

/-! ## C16 -/

/-- **C16 (unavailable interfaces).** If a request is accepted, whatever its strictness, every command and state
interface of every controller to start is available, and a claimed one is advertised by a controller that is stopped. -/
theorem C16_interfaces_available (o : Oracle) (cm : CM) (act deact : List Name) (s : Strictness) (asap : Bool)
    (hw : (cm.switchBegin o act deact s asap).2 = .wait) :
    let cm' := (cm.switchBegin o act deact s asap).1
    ∀ n ∈ cm'.sw.act, n ∉ cm'.sw.deact → ∃ c, cm.find n = some c ∧
      (∀ i ∈ c.cfg.cmd.resolve cm'.rm.availC, i ∈ cm'.rm.availC ∧
        (cm.rm.claimed i = some true → ∃ m ∈ cm'.sw.deact, ∃ d, cm.find m = some d ∧ i ∈ d.advertised)) ∧
      (∀ i ∈ c.cfg.state.resolve cm'.rm.availS, i ∈ cm'.rm.availS) :=
  (switchBegin_avail hw).items

/-- **C16 (two controllers).** If a request is accepted, whatever its strictness, two controllers to start never want
the same command interface. -/
theorem C16_no_double_claim (o : Oracle) (cm : CM) (act deact : List Name) (s : Strictness) (asap : Bool)
    (hw : (cm.switchBegin o act deact s asap).2 = .wait) (n m : Name) (c d : Ctl) (i : Itf)
    (hn : n ∈ (cm.switchBegin o act deact s asap).1.sw.act) (hm : m ∈ (cm.switchBegin o act deact s asap).1.sw.act)
    (hnd : n ∉ (cm.switchBegin o act deact s asap).1.sw.deact) (hmd : m ∉ (cm.switchBegin o act deact s asap).1.sw.deact)
    (hne : n ≠ m) (hc : cm.find n = some c) (hd : cm.find m = some d)
    (hi : i ∈ c.cfg.cmd.resolve (cm.switchBegin o act deact s asap).1.rm.availC) :
    i ∉ d.cfg.cmd.resolve (cm.switchBegin o act deact s asap).1.rm.availC :=
  wanted_disjoint (switchBegin_avail hw).once (List.mem_filter.2 ⟨hn, by simpa using hnd⟩)
    (List.mem_filter.2 ⟨hm, by simpa using hmd⟩) hne hc hd hi

/-- **C16 (interfaces of running controllers), partial.** A STRICT request is accepted and starts `n`, which wants an
interface held by the controller `p`. Then `p` is stopped: it is requested to stop, or it is running and restarted
because its chained mode changes. The hypotheses: the controllers that are stopped ask for individual interfaces and
have not refused a deactivation, and the interface is not an erased reference interface (`C06_reference_two_holders`).
Missing: `C16_restart_steals` shows that a restarted controller really can lose its interface. -/
theorem C16_holder_is_stopped_partial (o : Oracle) (cm : CM) (hr : Reach o cm) (act deact : List Name) (asap : Bool)
    (hw : (cm.switchBegin o act deact .strict asap).2 = .wait)
    (hind : ∀ m ∈ (cm.switchBegin o act deact .strict asap).1.sw.deact, ∀ d, cm.find m = some d →
      (∃ l, d.cfg.cmd = .individual l) ∧ stopRefused m cm.rm.tr = false)
    (n p : Name) (c pc : Ctl) (hn : n ∈ act) (hnd : n ∉ deact) (hc : cm.find n = some c) (hpc : cm.find p = some pc)
    (i : Itf) (hi : i ∈ c.cfg.cmd.resolve cm.rm.availC) (hh : i ∈ pc.held) (hdr : i ∉ cm.dropped) :
    p ∈ (cm.switchBegin o act deact .strict asap).1.sw.deact ∧
    (p ∈ deact ∨ (pc.lc = .active ∧ p ∈ (cm.switchBegin o act deact .strict asap).1.sw.act)) := by
  have I := hr.inv
  obtain ⟨R, A⟩ : ∃ R, Accepted cm (cm.switchBegin o act deact .strict asap).1 act deact R := by
    rcases switchBegin_strict o cm act deact asap (by rw [hw]; simp) with ⟨_, _, h⟩ | ⟨_, h⟩
    · rw [hw] at h; simp at h
    · exact h
  have kp : cm.abs.k p = some pc.core := by rw [abs_k, hpc]; rfl
  have hcl : cm.rm.claimed i = some true := I.sys.claims.mark p pc.core i kp hh hdr
  obtain ⟨a1, a2⟩ := A.starts I.topo.names hn hnd
  obtain ⟨c', hc', h5, _⟩ := (switchBegin_avail hw).items n a1 a2
  rw [hc] at hc'; simp at hc'; subst hc'
  obtain ⟨m, hm, d, hd, hadv⟩ := (h5 i (ItfCfg.resolve_mono _ (switchBegin_grow hw).1 hi)).2 hcl
  obtain ⟨⟨l, hl⟩, hsr⟩ := hind m hm d hd
  have hact : d.lc = .active := by
    rw [A.deactL] at hm
    rcases List.mem_append.1 hm with hm | hm
    · obtain ⟨d', hd', h6, _⟩ := A.strictOk.deactOk m hm
      rw [hd] at hd'; simp at hd'; subst hd'; exact h6
    · obtain ⟨_, _, e, he, h7, h8⟩ := A.restart m hm
      have := (find_iff I.topo.names).2 ⟨he, h7⟩
      rw [hd] at this; simp at this; subst this; exact h8
  have kd : cm.abs.k m = some d.core := by rw [abs_k, hd]; rfl
  have hheld := hr.held m d.core kd hact hsr l hl
  have hid : i ∈ d.core.held := by
    rw [hheld]
    unfold Ctl.advertised at hadv
    rw [hl] at hadv; exact hadv
  have e : m = p := I.sys.claims.uniq m p d.core pc.core i kd kp hid hh hdr
  subst e
  rw [hd] at hpc; simp at hpc; subst hpc
  refine ⟨hm, ?_⟩
  rw [A.deactL] at hm
  rcases List.mem_append.1 hm with hm | hm
  · exact .inl hm
  · exact .inr ⟨hact, by rw [A.actL]; simp [hm]⟩

/-- A second controller, 500, that drives 10/0 like 100; 100 runs. -/
def with500 : List CM.Op :=
  [.load 500 false false (plainCfg [⟨10, 0⟩] []) [], .configure 500 (plainCfg [⟨10, 0⟩] []) [] true] ++
  switchOps [100] [] .strict

/-- The hypotheses of `C16_holder_is_stopped_partial` are met: 500 replaces 100. -/
example :
    ((demo goodOracle with500).switchBegin goodOracle [500] [100] .strict true).2 = .wait ∧
    (demo goodOracle with500).heldBy 100 = some [⟨10, 0⟩] ∧
    ((demo goodOracle with500).switchBegin goodOracle [500] [100] .strict true).1.sw.deact = [100] ∧
    ((demo goodOracle with500).switchBegin goodOracle [500] [] .strict true).2 = .done .error := by decide

/-- **C16, negation of the full claim.** 100 runs and holds 10/0. The STRICT request to start 200 (which feeds 100) and
500 (which wants 10/0) does not mention 100, but is accepted, because 100 will be restarted in chained mode and its
interfaces count as free (cm.cpp:4326-4349). 500 then cannot be started together with 100, the switch fails, and 100,
which nobody asked to stop, is left stopped. -/
theorem C16_restart_steals :
    let cm := demo goodOracle with500
    cm.heldBy 100 = some [⟨10, 0⟩] ∧ (cm.switchBegin goodOracle [200, 500] [] .strict true).2 = .wait ∧
    (let x := CM.run goodOracle (cm.switchBegin goodOracle [200, 500] [] .strict true).1 [.update (fun _ => true) true]
     (x.switchWake goodOracle).2 = some .error ∧ (x.switchWake goodOracle).1.lcOf 100 = some .inactive ∧
     (x.switchWake goodOracle).1.lcOf 200 = some .inactive ∧ (x.switchWake goodOracle).1.lcOf 500 = some .inactive) := by
  decide

/-! ## C17 -/

/-- **C17 for STRICT requests, at any depth.** If a STRICT request is accepted, then for every controller to start
that was not running, every controller below it in the chain (reached through the interfaces each one asks for) is
chainable, and either running and not stopped by the request, or INACTIVE and started by the same request. `Needs`
leaves out one case: a controller that asks for ALL interfaces does not need those of a controller that is being
stopped. -/
theorem C17_chain_below_is_started_partial (o : Oracle) (cm : CM) (act deact : List Name) (asap : Bool)
    (h : (cm.switchBegin o act deact .strict asap).2 = .wait) (n : Name) (c f : Ctl) (hn : n ∈ act)
    (hc : cm.find n = some c) (hl : c.lc = .inactive) (hf : Relation.TransGen (cm.Needs deact) c f) :
    f.chainable = true ∧ ((f.lc = .active ∧ f.name ∉ deact) ∨ (f.lc = .inactive ∧ f.name ∈ act)) := by
  obtain ⟨R, A⟩ : ∃ R, Accepted cm (cm.switchBegin o act deact .strict asap).1 act deact R := by
    rcases switchBegin_strict o cm act deact asap (by rw [h]; simp) with ⟨_, _, h'⟩ | ⟨_, h'⟩
    · rw [h] at h'; simp at h'
    · exact h'
  obtain ⟨c', hc', h4, _⟩ := A.strictOk.actOk n hn
  rw [hc] at hc'; simp at hc'; subst hc'
  rcases h4 with ⟨_, h4⟩ | ⟨h4, _⟩
  · obtain ⟨k1, k2⟩ := h4 f hf
    refine ⟨k1, ?_⟩
    rcases k2 with k2 | ⟨k2, k3⟩
    · exact .inl k2
    · have hff : cm.find f.name = some f := by
        obtain ⟨x, _, ⟨i, _, hif⟩, _⟩ := Relation.TransGen.tail'_iff.1 hf
        have := (find_some hif).2
        rw [this]; exact hif
      obtain ⟨f', hf', h6, _⟩ := A.strictOk.actOk f.name k3
      rw [hff] at hf'; simp at hf'; subst hf'
      rcases h6 with ⟨h6, _⟩ | ⟨h6, _⟩
      · exact .inr ⟨h6, k3⟩
      · exact absurd h6 k2
  · rw [hl] at h4; simp at h4

/-- The hypotheses are met by the chain 200 → 100. -/
example : ((demo goodOracle []).switchBegin goodOracle [200, 100] [] .strict true).2 = .wait ∧
    (∃ c f, (demo goodOracle []).find 200 = some c ∧ (demo goodOracle []).find 100 = some f ∧
      c.lc = .inactive ∧ (demo goodOracle []).Needs [] c f) := by
  refine ⟨by decide, ((demo goodOracle []).find 200).get (by decide), ((demo goodOracle []).find 100).get (by decide),
    by simp, by simp, by decide, ⟨⟨100, 0⟩, by decide, by simp⟩, by simp⟩

/-- Controller 100 answers ERROR to `on_deactivate` and recovers to UNCONFIGURED. -/
def errDeact : Oracle :=
  { goodOracle with ctlCb := fun _ n cb => if n = 100 ∧ cb = .deactivate then .error else .success }

/-- **C17, negation of the full claim.** With BEST_EFFORT the activation list is checked front to back, and a controller
that is erased from it later has already been accepted as the following controller of an earlier one: 200 is started
although 100, whose reference it drives, is UNCONFIGURED, and the call returns OK. -/
theorem C17_best_effort_violates :
    let cm := demo errDeact (switchOps [100] [] .strict ++ switchOps [] [100] .strict)
    let x := CM.run errDeact (cm.switchBegin errDeact [200, 100] [] .bestEffort true).1 [.update (fun _ => true) true]
    cm.lcOf 100 = some .unconfigured ∧ (cm.switchBegin errDeact [200, 100] [] .bestEffort true).2 = .wait ∧
    (x.switchWake errDeact).2 = some .ok ∧ (x.switchWake errDeact).1.lcOf 200 = some .active ∧
    (x.switchWake errDeact).1.lcOf 100 = some .unconfigured ∧ (x.switchWake errDeact).1.heldBy 200 = some [⟨100, 0⟩] := by
  decide

/-! ## C18 -/

/-- **C18, partial.** In a history in which no `configure_controller` returned ERROR and still left its controller
INACTIVE: if a STRICT request is accepted and deactivates a chainable controller `n`, then every running controller `p`
that asks for an individual command or state interface named after `n` is deactivated too, and no such INACTIVE
controller is activated. Missing: controllers that do not name their interfaces individually
(`C18_regex_user_keeps_running`), and histories with half-failed configurations. -/
theorem C18_users_are_stopped_partial (o : Oracle) (a b : Bool) (specs : List RM.HwSpec) (ops : List CM.Op)
    (hcl : CM.CleanRun o (CM.start o a b specs) ops) (act deact : List Name) (asap : Bool) :
    let cm := CM.run o (CM.start o a b specs) ops
    (cm.switchBegin o act deact .strict asap).2 = .wait → ∀ n p c pc i, n ∈ deact → cm.find n = some c → c.chainable = true →
      cm.find p = some pc → i.pre = n →
      ((∃ l, pc.cfg.cmd = .individual l ∧ i ∈ l) ∨ (∃ l, pc.cfg.state = .individual l ∧ i ∈ l)) →
      (pc.lc = .active → p ∈ deact) ∧ (pc.lc = .inactive → p ∉ act) := by
  intro cm h n p c pc i hn hc hch hp hi hu
  have W : Wired cm := (wired_start o a b specs).run ops (inv_start o a b specs) hcl
  obtain ⟨R, A⟩ : ∃ R, Accepted cm (cm.switchBegin o act deact .strict asap).1 act deact R := by
    rcases switchBegin_strict o cm act deact asap (by rw [h]; simp) with ⟨_, _, h'⟩ | ⟨_, h'⟩
    · rw [h] at h'; simp at h'
    · exact h'
  obtain ⟨c', hc', hl, h4⟩ := A.strictOk.deactOk n hn
  rw [hc] at hc'; simp at hc'; subst hc'
  have rn : cm.Ready n := by right; unfold CM.lcOf; rw [hc]; simp [hl]
  have mem : cm.Ready p → p ∈ cm.stateCache n ++ cm.refCache n := by
    intro rp
    obtain ⟨w1, w2⟩ := W p pc n hp rp rn
    rcases hu with ⟨l, hl, hil⟩ | ⟨l, hl, hil⟩
    · exact List.mem_append.2 (.inr (w1 l hl i hil hi))
    · exact List.mem_append.2 (.inl (w2 l hl i hil hi))
  refine ⟨fun ha => ?_, fun hin hpa => ?_⟩
  · by_contra hx
    exact (h4 hch p (mem (by right; unfold CM.lcOf; rw [hp]; simp [ha])) pc hp).2 ⟨ha, hx⟩
  · exact (h4 hch p (mem (by left; unfold CM.lcOf; rw [hp]; simp [hin])) pc hp).1 ⟨hin, hpa⟩

/-- The hypotheses are met: 100 and its user 200 run and are stopped together; stopping 100 alone is refused. -/
example :
    let cm := demo goodOracle (switchOps [100, 200] [] .strict)
    (cm.switchBegin goodOracle [] [100, 200] .strict true).2 = .wait ∧ cm.lcOf 200 = some .active ∧
    (cm.switchBegin goodOracle [] [100] .strict true).2 = .done .error := by decide

/-- The history of the demo robot meets the condition on configurations. -/
example : CM.CleanRun goodOracle (CM.start goodOracle false false demoSpecs)
    [.setHw 1 .active, .load 100 true false cfg100 [], .configure 100 cfg100 [] true,
     .load 200 false false (plainCfg [⟨100, 0⟩] []) [], .configure 200 (plainCfg [⟨100, 0⟩] []) [] true,
     .switchBegin [100, 200] [] .strict true, .update (fun _ => true) true, .switchWake] :=
  ⟨trivial, trivial, .inl (by decide), trivial, .inl (by decide), trivial, trivial, trivial, trivial⟩

/-- A controller whose command interfaces are given by a regular expression matching the references of 100. -/
def regexCfg : CtlCfg := { cmd := .regex [fun i => i.pre = 100], state := .none, exports := none }

/-- **C18, negation of the full claim.** Who uses whose interfaces is recorded at configuration time, when the references
of the inactive controller 100 are not available and a regular expression matches nothing. Controller 700 later claims
the reference of the running 100; a STRICT request to stop 100 alone is accepted and leaves 700 running with the
interface of a stopped controller. -/
theorem C18_regex_user_keeps_running :
    let cm := demo goodOracle ([.load 700 false false regexCfg [], .configure 700 regexCfg [] true] ++
      switchOps [100] [] .strict ++ switchOps [700] [] .strict)
    let x := CM.run goodOracle (cm.switchBegin goodOracle [] [100] .strict true).1 [.update (fun _ => true) true]
    cm.heldBy 700 = some [⟨100, 0⟩] ∧ (cm.switchBegin goodOracle [] [100] .strict true).2 = .wait ∧
    (x.switchWake goodOracle).2 = some .ok ∧ (x.switchWake goodOracle).1.lcOf 100 = some .inactive ∧
    (x.switchWake goodOracle).1.lcOf 700 = some .active ∧ (x.switchWake goodOracle).1.heldBy 700 = some [⟨100, 0⟩] := by
  decide

end Verif
