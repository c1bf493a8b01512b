import Verif.CM.Asked
import Verif.Props.C06_C10_Controllers
import Verif.Props.C27_HardwareUsers
import Verif.Props.C19_C20_ChainedMode
/-!
# C21, C45, C46: what happens when a controller fails, strict activation, nobody starts uninvited
-/
namespace Verif
open CM

/-! ## Vocabulary -/

/-- Between `cm` and `cm'` the `update` of controller `n` was called and answered something else than OK, or threw. -/
def CM.FailedNow (cm cm' : CM) (n : Name) : Prop :=
  ∃ es a, cm'.rm.tr = es ++ cm.rm.tr ∧ Ev.ctlUpdate n a ∈ es ∧ a ≠ .ret .ok

/-- `m` is in the chain group of a controller that failed between `cm` and `cm'`. -/
def CM.Hit (cm cm' : CM) (m : Name) : Prop := ∃ c ∈ cm.ctls, cm.FailedNow cm' c.name ∧ m ∈ c.group

/-- `f` is declared as a fallback of a controller in the chain group of one that failed. -/
def CM.StandIn (cm cm' : CM) (f : Name) : Prop := cm.FallbackOf (cm.Hit cm') f

/-- The switch that was waiting is carried out in this cycle. -/
def CM.Switches (cm : CM) (lock : Bool) : Prop := cm.sw.doSwitch = true ∧ cm.sw.asap = true ∧ lock = true

/-- The parts of a cycle: the calls of `update`, the reaction to failures, the pending switch. -/
theorem CM.rtUpdate_cases (o : Oracle) (due : Name → Bool) (lock : Bool) (cm : CM) (I : Inv cm) :
    ∃ (x : CM) (L : List Name), (∃ es, x = { cm with rm := { cm.rm with tr := es ++ cm.rm.tr } }) ∧ x.abs.Inv ∧
      (x.handleFailed o L).abs.Inv ∧
      (∀ m, m ∈ L ↔ cm.Hit (cm.rtUpdate o due lock).1 m) ∧
      (∀ n, cm.FailedNow (cm.rtUpdate o due lock).1 n → ∃ c ∈ cm.ctls, c.name = n ∧ c.lc = .active) ∧
      ((cm.Switches lock ∧ (cm.rtUpdate o due lock).1 = (x.handleFailed o L).manageSwitch o) ∨
       (¬ cm.Switches lock ∧ ∃ sw, (cm.rtUpdate o due lock).1 = { x.handleFailed o L with sw := sw })) := by
  obtain ⟨es, h1, h2, h3⟩ := updateLoop_failed o due cm.ctls cm [] .ok
  have h3 := h3 I.topo.names
  have f1 : Fwd o Anybody cm (updateLoop o due cm.ctls cm [] .ok).1 := Fwd.updateLoop o _ due _ _ _ _
    (fun c hc => (find_iff I.topo.names).2 ⟨hc, rfl⟩)
  have hp : PushOnly cm (updateLoop o due cm.ctls cm [] .ok).1 := updateLoop_push o due _ _ _ _
  refine ⟨(updateLoop o due cm.ctls cm [] .ok).1, (updateLoop o due cm.ctls cm [] .ok).2.1, hp, f1.inv I.sys, ?_⟩
  have Ix := f1.inv I.sys
  have f2 := Fwd.handleFailed o (updateLoop o due cm.ctls cm [] .ok).1 (updateLoop o due cm.ctls cm [] .ok).2.1 Ix
  have Ih := f2.inv Ix
  refine ⟨Ih, ?_⟩
  have hsw : ((updateLoop o due cm.ctls cm [] .ok).1.handleFailed o (updateLoop o due cm.ctls cm [] .ok).2.1).sw = cm.sw := by
    rw [(Keeps.handleFailed o _ _).1]; obtain ⟨_, e⟩ := hp; rw [e]
  have hshape : (cm.Switches lock ∧ (cm.rtUpdate o due lock).1 =
      ((updateLoop o due cm.ctls cm [] .ok).1.handleFailed o (updateLoop o due cm.ctls cm [] .ok).2.1).manageSwitch o) ∨
     (¬ cm.Switches lock ∧ ∃ sw, (cm.rtUpdate o due lock).1 =
       { (updateLoop o due cm.ctls cm [] .ok).1.handleFailed o (updateLoop o due cm.ctls cm [] .ok).2.1 with sw := sw }) := by
    unfold CM.rtUpdate CM.Switches
    simp only [hsw]
    by_cases g1 : cm.sw.doSwitch = true
    · rw [if_pos g1]
      by_cases g2 : cm.sw.asap = true
      · rw [if_pos g2]
        by_cases g3 : lock = true
        · rw [if_pos g3]; exact .inl ⟨⟨g1, g2, g3⟩, rfl⟩
        · rw [if_neg g3]; exact .inr ⟨fun h => g3 h.2.2, _, rfl⟩
      · rw [if_neg g2]; exact .inr ⟨fun h => g2 h.2.1, _, rfl⟩
    · rw [if_neg g1]; exact .inr ⟨fun h => g1 h.1, _, rfl⟩
  refine ⟨?_, ?_, hshape⟩
  rotate_left
  · rintro n ⟨es', a, e', ha, _⟩
    have hno : NoUpd (updateLoop o due cm.ctls cm [] .ok).1 (cm.rtUpdate o due lock).1 := by
      have n1 := NoUpd.handleFailed o _ (updateLoop o due cm.ctls cm [] .ok).2.1 Ix
      rcases hshape with ⟨_, e⟩ | ⟨_, sw, e⟩ <;> rw [e]
      · exact n1.trans (NoUpd.manageSwitch o _ Ih)
      · exact n1.trans (.same rfl)
    obtain ⟨es2, e2, hn2⟩ := hno
    rw [h1, ← List.append_assoc] at e2
    rw [e2] at e'
    rw [← List.append_cancel_right e'] at ha
    rcases List.mem_append.1 ha with h | h
    · exact absurd h (hn2 _ _)
    · obtain ⟨k, b, e, c, hc, hl⟩ := h2 _ h
      cases e
      exact ⟨c, hc, hl⟩
  have hno : NoUpd (updateLoop o due cm.ctls cm [] .ok).1 (cm.rtUpdate o due lock).1 := by
    have n1 := NoUpd.handleFailed o _ (updateLoop o due cm.ctls cm [] .ok).2.1 Ix
    rcases hshape with ⟨_, e⟩ | ⟨_, sw, e⟩ <;> rw [e]
    · exact n1.trans (NoUpd.manageSwitch o _ Ih)
    · exact n1.trans (.same rfl)
  obtain ⟨es2, e2, hn2⟩ := hno
  rw [h1, ← List.append_assoc] at e2
  intro m
  rw [h3]
  unfold CM.Hit CM.FailedNow
  constructor
  · rintro (h | ⟨c, hc, a, ha, hne, hm⟩)
    · simp at h
    · exact ⟨c, hc, ⟨_, a, e2, List.mem_append.2 (.inr ha), hne⟩, hm⟩
  · rintro ⟨c, hc, ⟨es', a, e', ha, hne⟩, hm⟩
    rw [e2] at e'
    have := List.append_cancel_right e'
    rw [← this] at ha
    rcases List.mem_append.1 ha with h | h
    · exact absurd h (hn2 _ _)
    · exact .inr ⟨c, hc, a, h, hne, hm⟩

theorem CM.fallbackOf_congr {a b : CM} (h : ∃ es, a = { b with rm := { b.rm with tr := es ++ b.rm.tr } }) {P Q : Name → Prop}
    (hPQ : ∀ m, P m ↔ Q m) (f : Name) : a.FallbackOf P f ↔ b.FallbackOf Q f := by
  obtain ⟨es, rfl⟩ := h
  unfold FallbackOf
  constructor
  · rintro ⟨n, c, h1, h2⟩; exact ⟨n, c, (hPQ n).1 h1, h2⟩
  · rintro ⟨n, c, h1, h2⟩; exact ⟨n, c, (hPQ n).2 h1, h2⟩

theorem CM.inTheWay_congr {a b : CM} (h : ∃ es, a = { b with rm := { b.rm with tr := es ++ b.rm.tr } }) (f m : Name) :
    a.InTheWay f m ↔ b.InTheWay f m := by
  obtain ⟨es, rfl⟩ := h; exact Iff.rfl

/-! ## C21 -/

/-- **C21 (stopping).** In the cycle in which the `update` of a controller fails, every controller of its chain group, and
every running controller that drives a command interface needed by one of the fallbacks, is stopped: it is ACTIVE
afterwards only if its own `on_deactivate` refused, or it is itself one of the fallbacks that take over, or a switch
request carried out in the same cycle started it. -/
theorem C21_chain_is_stopped (o : Oracle) (cm : CM) (hr : Reach o cm) (due : Name → Bool) (lock : Bool) (m : Name) :
    let cm' := (cm.rtUpdate o due lock).1
    (cm.Hit cm' m ∨ ∃ f, cm.StandIn cm' f ∧ cm.InTheWay f m) → cm'.lcOf m = some .active →
    stopRefused m cm'.rm.tr = true ∨ cm.StandIn cm' m ∨ (cm.Switches lock ∧ m ∈ cm.sw.act) := by
  intro cm' hm ha
  obtain ⟨x, L, hx, Ix, Ih, hL, hact, hshape⟩ := rtUpdate_cases o due lock cm hr.inv
  have hsf : ∀ f, x.FallbackOf (· ∈ L) f ↔ cm.StandIn cm' f := fun f => fallbackOf_congr hx hL f
  by_cases hfb : cm.StandIn cm' m
  · exact .inr (.inl hfb)
  have hnf : m ∉ (x.fallbackPlan L).1 := by rw [(mem_fallbackPlan x L m).1, hsf]; exact hfb
  have hin : m ∈ L ∨ (L ≠ [] ∧ m ∈ (x.fallbackPlan L).2) := by
    rcases hm with h | ⟨f, h1, h2⟩
    · exact .inl ((hL m).2 h)
    · right
      obtain ⟨n, _, hn, _⟩ := (hsf f).2 h1
      exact ⟨List.ne_nil_of_mem hn, (mem_fallbackPlan x L m).2.2 ⟨f, (hsf f).2 h1, (inTheWay_congr hx f m).2 h2⟩⟩
  have hsw : (x.handleFailed o L).sw = cm.sw := by
    rw [(Keeps.handleFailed o _ _).1]; obtain ⟨_, e⟩ := hx; rw [e]
  by_cases hs : cm.Switches lock ∧ m ∈ cm.sw.act
  · exact .inr (.inr hs)
  left
  rcases hshape with ⟨hd, e⟩ | ⟨_, sw, e⟩
  · have hk : m ∉ (x.handleFailed o L).sw.act := by rw [hsw]; exact fun h => hs ⟨hd, h⟩
    have F := Falls.manageSwitch o (x.handleFailed o L) hk Ih
    rw [← e] at F
    obtain ⟨h1, h2⟩ := F.1 ha
    exact h2 (handleFailed_stops o x L Ix hin hnf h1)
  · have ha' : (x.handleFailed o L).lcOf m = some .active := by
      have : cm'.lcOf m = (x.handleFailed o L).lcOf m := by simp only [cm']; rw [e]; rfl
      rw [← this]; exact ha
    have := handleFailed_stops o x L Ix hin hnf ha'
    simp only [cm']; rw [e]; exact this

/-- **C21 (nobody else).** A controller that is in no failing chain group, is no fallback of one, is not in the way of such a
fallback, and is not touched by a switch carried out in the same cycle, keeps its lifecycle state, its claimed interfaces and its chained mode. -/
theorem C21_others_untouched (o : Oracle) (cm : CM) (hr : Reach o cm) (due : Name → Bool) (lock : Bool) (m : Name) :
    let cm' := (cm.rtUpdate o due lock).1
    ¬ cm.Hit cm' m → ¬ cm.StandIn cm' m → (∀ f, cm.StandIn cm' f → ¬ cm.InTheWay f m) →
    (cm.Switches lock → m ∉ cm.sw.act ∧ m ∉ cm.sw.deact ∧ m ∉ cm.sw.toCh ∧ m ∉ cm.sw.fromCh) →
    cm'.lcOf m = cm.lcOf m ∧ cm'.heldBy m = cm.heldBy m ∧ cm'.chainedMode m = cm.chainedMode m := by
  intro cm' h1 h2 h3 h4
  obtain ⟨x, L, hx, Ix, Ih, hL, hact, hshape⟩ := rtUpdate_cases o due lock cm hr.inv
  have hsf : ∀ f, x.FallbackOf (· ∈ L) f ↔ cm.StandIn cm' f := fun f => fallbackOf_congr hx hL f
  have hsw : (x.handleFailed o L).sw = cm.sw := by
    rw [(Keeps.handleFailed o _ _).1]; obtain ⟨_, e⟩ := hx; rw [e]
  have k0 : x.abs.k m = cm.abs.k m := by obtain ⟨_, e⟩ := hx; rw [e]; rfl
  have k1 : (x.handleFailed o L).abs.k m = x.abs.k m := by
    refine (Fwd.handleFailed o x L Ix).steps.frame ?_
    rintro ⟨_, h⟩
    unfold failTouched at h
    rw [mem_addItems, (mem_fallbackPlan x L m).1, (mem_fallbackPlan x L m).2, hL, hsf] at h
    rcases h with (h | ⟨f, hf, hw⟩) | h
    · exact h1 h
    · exact h3 f ((hsf f).1 hf) ((inTheWay_congr hx f m).1 hw)
    · exact h2 h
  have k2 : cm'.abs.k m = (x.handleFailed o L).abs.k m := by
    simp only [cm']
    rcases hshape with ⟨hd, e⟩ | ⟨_, sw, e⟩ <;> rw [e]
    · refine (Fwd.manageSwitch o _ Ih).steps.frame ?_
      rw [hsw]
      obtain ⟨a, b, c, d⟩ := h4 hd
      unfold Sw.names
      rintro (h | h | h | h)
      · exact b h
      · exact a h
      · exact c h
      · exact d h
    · rfl
  have k := (k2.trans k1).trans k0
  rw [abs_k, abs_k] at k
  unfold CM.lcOf CM.heldBy CM.chainedMode
  cases hb : cm'.find m <;> cases ha : cm.find m <;> rw [hb, ha] at k <;> simp at k ⊢
  rename_i y z
  exact ⟨congrArg Core.lc k, congrArg Core.held k, congrArg Core.chained k⟩

/-- **C21 (fallbacks take over together).** Unless a switch is carried out in the same cycle: either every (loaded) fallback of the failing chain
groups is ACTIVE after the cycle, or those that are ACTIVE refused to be stopped when the take-over was undone. -/
theorem C21_fallbacks_together (o : Oracle) (cm : CM) (hr : Reach o cm) (due : Name → Bool) (lock : Bool)
    (hs : ¬ cm.Switches lock) :
    let cm' := (cm.rtUpdate o due lock).1
    (∀ f s, cm.StandIn cm' f → cm'.lcOf f = some s → s = .active) ∨
    (∀ f, cm.StandIn cm' f → cm'.lcOf f = some .active → stopRefused f cm'.rm.tr = true) := by
  intro cm'
  obtain ⟨x, L, hx, Ix, Ih, hL, hact, hshape⟩ := rtUpdate_cases o due lock cm hr.inv
  have hsf : ∀ f, f ∈ (x.fallbackPlan L).1 ↔ cm.StandIn cm' f := fun f =>
    (mem_fallbackPlan x L f).1.trans (fallbackOf_congr hx hL f)
  rcases hshape with ⟨hd, _⟩ | ⟨_, sw, e⟩
  · exact absurd hd hs
  have el : ∀ n, cm'.lcOf n = (x.handleFailed o L).lcOf n := by intro n; simp only [cm']; rw [e]; rfl
  have et : cm'.rm.tr = (x.handleFailed o L).rm.tr := by simp only [cm']; rw [e]
  rcases handleFailed_fallbacks o x L Ix with h | h
  · left; intro f s hf hl; rw [el] at hl; exact h f ((hsf f).2 hf) s hl
  · right; intro f hf hl; rw [el] at hl; rw [et]; exact h f ((hsf f).2 hf) hl

/-- **C21 (the failing controller itself), under a condition.** If no `configure_controller` of the history returned ERROR
and still left its controller configured, a controller whose `update` fails is not ACTIVE after the cycle, unless it refused, or
it is a fallback of its own chain, or a switch carried out in the same cycle restarted it. -/
theorem C21_failed_controller_stops_partial (o : Oracle) (a b : Bool) (specs : List RM.HwSpec) (ops : List CM.Op)
    (hcl : CleanRun o (CM.start o a b specs) ops) (due : Name → Bool) (lock : Bool) (n : Name) :
    let cm := CM.run o (CM.start o a b specs) ops
    let cm' := (cm.rtUpdate o due lock).1
    cm.FailedNow cm' n → cm'.lcOf n = some .active →
    stopRefused n cm'.rm.tr = true ∨ cm.StandIn cm' n ∨ (cm.Switches lock ∧ n ∈ cm.sw.act) := by
  intro cm cm' hf ha
  have hr : Reach o cm := ⟨a, b, specs, ops, rfl⟩
  have G : Grouped cm := (grouped_start o a b specs).run ops (inv_start o a b specs) hcl
  refine C21_chain_is_stopped o cm hr due lock n (.inl ?_) ha
  have hc : ∃ c, cm.find n = some c ∧ c.lc = .active := by
    obtain ⟨x, L, hx, Ix, Ih, hL, hact, hshape⟩ := rtUpdate_cases o due lock cm hr.inv
    obtain ⟨c, hc, hl⟩ := hact n hf
    exact ⟨c, (find_iff hr.inv.topo.names).2 ⟨hc, hl.1⟩, hl.2⟩
  obtain ⟨c, hc, hl⟩ := hc
  exact ⟨c, (find_some hc).1, (find_some hc).2.symm ▸ hf, G n c hc (by right; unfold CM.lcOf; rw [hc]; simp [hl])⟩

/-- The demo robot before the cycle in which the update of 500 fails; 600 is its fallback, 300 would be in the way of 600. -/
def beforeFailure : CM := demo fallbackOracle
  [.load 600 false false (plainCfg [⟨20, 0⟩] []) [], .configure 600 (plainCfg [⟨20, 0⟩] []) [] true,
   .load 500 false false (plainCfg [⟨10, 0⟩] []) [600], .configure 500 (plainCfg [⟨10, 0⟩] []) [] true,
   .load 700 false false (plainCfg [⟨20, 1⟩] []) [], .configure 700 (plainCfg [⟨20, 1⟩] []) [] true,
   .switchBegin [300, 500, 700] [] .strict true, .update (fun _ => true) true, .switchWake]

/-- Non-vacuity: 500 fails; 500 and 300 (in the way of the fallback) are stopped, 600 takes over, 700 is untouched. -/
example :
    let cm := beforeFailure
    let cm' := (cm.rtUpdate fallbackOracle (fun _ => true) true).1
    Reach fallbackOracle cm ∧ cm.FailedNow cm' 500 ∧ cm.Hit cm' 500 ∧ cm.StandIn cm' 600 ∧ cm.InTheWay 600 300 ∧ ¬ cm.Switches true ∧
    cm.lcOf 500 = some .active ∧ cm.lcOf 300 = some .active ∧ cm.lcOf 600 = some .inactive ∧ cm.lcOf 700 = some .active ∧
    cm'.lcOf 500 = some .inactive ∧ cm'.lcOf 300 = some .inactive ∧ cm'.lcOf 600 = some .active ∧ cm'.heldBy 600 = some [⟨20, 0⟩] ∧
    cm'.lcOf 700 = some .active := by
  intro cm cm'
  have F : cm.FailedNow cm' 500 :=
    ⟨cm'.rm.tr.take (cm'.rm.tr.length - cm.rm.tr.length), .ret .error, by decide, by decide, by decide⟩
  have c5 : ∃ c ∈ cm.ctls, c.name = 500 ∧ 500 ∈ c.group ∧ c.fallbacks = [600] := by decide
  obtain ⟨c, hc, h1, h2, h3⟩ := c5
  have H : cm.Hit cm' 500 := ⟨c, hc, h1 ▸ F, h2⟩
  have fd : (cm.find 500).map (·.fallbacks) = some [600] := by decide
  refine ⟨demo_reach _ _, F, H, ?_, ?_, by unfold CM.Switches; decide, by decide, by decide, by decide, by decide, by decide, by decide, by decide, by decide, by decide⟩
  · cases hf : cm.find 500 with
    | none => rw [hf] at fd; simp at fd
    | some c => rw [hf] at fd; simp at fd; exact ⟨500, c, H, hf, by rw [fd]; simp⟩
  · have g : ∀ fc, cm.find 600 = some fc → ⟨20, 0⟩ ∈ cm.cmdItfs fc := by
      have : (cm.find 600).all (fun fc => decide (⟨20, 0⟩ ∈ cm.cmdItfs fc)) = true := by decide
      intro fc hfc; rw [hfc] at this; simpa using this
    have d : ∃ d ∈ cm.ctls, d.name = 300 ∧ d.lc = .active ∧ ⟨20, 0⟩ ∈ cm.cmdItfs d := by decide
    cases hf : cm.find 600 with
    | none => have : (cm.find 600).isSome = true := by decide
              rw [hf] at this; simp at this
    | some fc => exact ⟨fc, hf, ⟨20, 0⟩, g fc hf, d⟩

/-- A chainable controller that exports nothing: `configure_controller` fails after `on_configure` succeeded. -/
def noExportCfg : CtlCfg := { cmd := .individual [⟨20, 0⟩], state := .none, exports := none }

/-- 800 refuses to be cleaned up and its updates fail. -/
def stubborn : Oracle :=
  { goodOracle with
    ctlCb := fun _ n cb => if n = 800 ∧ cb = .cleanup then .failure else .success
    ctlUpdate := fun _ n => if n = 800 then .ret .error else .ret .ok }

/-- **C21, negation without the condition.** 800 was left INACTIVE by a failed `configure_controller` (its `on_cleanup` answered
FAILURE), hence has no chain group. It can be started; its `update` answers ERROR, `update` of the manager returns ERROR, and 800 keeps
running. -/
theorem C21_failed_controller_keeps_running :
    let cm := demo stubborn ([.load 800 true false noExportCfg [], .configure 800 noExportCfg [] true] ++ switchOps [800] [] .strict)
    let cm' := (cm.rtUpdate stubborn (fun _ => true) true).1
    (cm.rtUpdate stubborn (fun _ => true) true).2 = .error ∧ cm'.rm.tr.head? = some (.ctlUpdate 800 (.ret .error)) ∧
    cm'.lcOf 800 = some .active ∧ stopRefused 800 cm'.rm.tr = false := by decide

/-! ## C45 -/

/-- The switch waiting in `y` is carried out and leads to `z`: in an `update` of the real-time loop in which no controller
fails, or by the waiting service call itself. -/
def CM.Executes (o : Oracle) (y z : CM) : Prop :=
  (∃ due, y.Switches true ∧ (y.rtUpdate o due true).2 = .ok ∧ z = (y.rtUpdate o due true).1) ∨
  (y.pending = true ∧ y.sw.asap = false ∧ y.sw.ready = true ∧ z = (y.switchWake o).1)

/-- **C45.** A STRICT switch request was accepted, anything that can happen happened while it was waiting, and now it is carried
out: either the hardware refused the mode change and no controller changed its state, or every controller to activate is ACTIVE, or the
activation is rolled back, and whatever of it is still ACTIVE refused to be stopped. -/
theorem C45_strict_all_or_nothing (o : Oracle) (cm : CM) (hr : Reach o cm) (act deact : List Name) (asap : Bool)
    (hw : (cm.switchBegin o act deact .strict asap).2 = .wait) (hnp : cm.pending = false) (ops : List CM.Op)
    (hp : (cm.switchBegin o act deact .strict asap).1.WaitsThrough o ops) (z : CM)
    (hz : (CM.run o (cm.switchBegin o act deact .strict asap).1 ops).Executes o z) :
    (∀ n, z.lcOf n = (CM.run o (cm.switchBegin o act deact .strict asap).1 ops).lcOf n) ∨
    (∀ n ∈ act, z.lcOf n = some .active) ∨
    (∀ n ∈ act, z.lcOf n = some .active → stopRefused n z.rm.tr = true) := by
  obtain ⟨R, A⟩ : ∃ R, Accepted cm (cm.switchBegin o act deact .strict asap).1 act deact R := by
    rcases switchBegin_strict o cm act deact asap (by rw [hw]; simp) with ⟨_, _, h⟩ | ⟨_, h⟩
    · rw [hw] at h; simp at h
    · exact h
  have hb : Reach o (cm.switchBegin o act deact .strict asap).1 := by
    have := hr.step (.switchBegin act deact .strict asap)
    simpa only [step, hnp, if_false, Bool.false_eq_true] using this
  have hst := (switchBegin_wait hw).2.2.2
  obtain ⟨⟨d, r, esw⟩, nm⟩ := WaitsThrough.keep ops hb.inv hp
  have hy : Reach o (CM.run o (cm.switchBegin o act deact .strict asap).1 ops) := by
    have gen : ∀ (ops : List CM.Op) (x : CM), Reach o x → Reach o (CM.run o x ops) := by
      intro ops
      induction ops with
      | nil => intro x hx; exact hx
      | cons op t ih => intro x hx; exact ih _ (hx.step op)
    exact gen ops _ hb
  have nmb : (cm.switchBegin o act deact .strict asap).1.ctls.map (·.name) = cm.ctls.map (·.name) :=
    names_of_stat (Fwd.switchBegin o cm act deact .strict asap hr.inv.sys).stat
  generalize CM.run o (cm.switchBegin o act deact .strict asap).1 ops = y at hz esw nm hy ⊢
  have ys : y.sw.strict = .strict := by rw [esw]; exact hst
  have ya : ∀ n ∈ act, n ∈ y.sw.act := by intro n hn; rw [esw, A.actL]; simp [hn]
  have yl : ∀ n ∈ act, n ∈ y.ctls.map (·.name) := by
    intro n hn
    obtain ⟨c, hc, _⟩ := A.strictOk.actOk n hn
    rw [nm, nmb, ← (find_some hc).2]; exact List.mem_map_of_mem (find_some hc).1
  -- both ways end with `manage_switch` of a state `w` with the same controllers
  have main : ∀ w : CM, w.abs.Inv → w.sw = y.sw → w.ctls = y.ctls → (∀ n, z.lcOf n = (w.manageSwitch o).lcOf n) →
      z.rm.tr = (w.manageSwitch o).rm.tr →
      (∀ n, z.lcOf n = y.lcOf n) ∨ (∀ n ∈ act, z.lcOf n = some .active) ∨
      (∀ n ∈ act, z.lcOf n = some .active → stopRefused n z.rm.tr = true) := by
    intro w Iw hsw hct hlc htr
    have wn : (w.manageSwitch o).ctls.map (·.name) = y.ctls.map (·.name) := by
      rw [names_of_stat (Fwd.manageSwitch o w Iw).stat, hct]
    rcases manageSwitch_strict o w Iw (by rw [hsw]; exact ys) with h | h | h
    · left; intro n
      rw [hlc]
      unfold CM.lcOf
      rw [h n]; unfold CM.find; rw [hct]
    · right; left; intro n hn
      have hl : n ∈ (w.manageSwitch o).ctls.map (·.name) := by rw [wn]; exact yl n hn
      rw [hlc]
      cases hf : (w.manageSwitch o).find n with
      | none => exact absurd hl (find_none.1 hf)
      | some c =>
        have e : (w.manageSwitch o).lcOf n = some c.lc := by unfold CM.lcOf; rw [hf]; rfl
        rw [e, h n (by rw [hsw]; exact ya n hn) c.lc e]
    · right; right; intro n hn hl
      rw [hlc] at hl; rw [htr]
      exact h n (by rw [hsw]; exact ya n hn) hl
  rcases hz with ⟨due, hsws, hok, rfl⟩ | ⟨hpd, has, hrd, rfl⟩
  · have hL : (updateLoop o due y.ctls y [] .ok).2.1 = [] := by
      have : (updateLoop o due y.ctls y [] .ok).2.2 = .ok := hok
      exact (updateLoop_ok o due y.ctls y [] .ok this).1
    have f1 : Fwd o Anybody y (updateLoop o due y.ctls y [] .ok).1 := Fwd.updateLoop o _ due _ _ _ _
      (fun c hc => (find_iff hy.inv.topo.names).2 ⟨hc, rfl⟩)
    obtain ⟨es, ep⟩ : PushOnly y (updateLoop o due y.ctls y [] .ok).1 := updateLoop_push o due _ _ _ _
    have e : (y.rtUpdate o due true).1 = (updateLoop o due y.ctls y [] .ok).1.manageSwitch o := by
      obtain ⟨g1, g2, _⟩ := hsws
      unfold CM.rtUpdate
      have hh : (updateLoop o due y.ctls y [] .ok).1.handleFailed o (updateLoop o due y.ctls y [] .ok).2.1 = (updateLoop o due y.ctls y [] .ok).1 := by
        rw [hL]; simp [CM.handleFailed]
      have hd1 : (updateLoop o due y.ctls y [] .ok).1.sw.doSwitch = true := by rw [ep]; exact g1
      have hd2 : (updateLoop o due y.ctls y [] .ok).1.sw.asap = true := by rw [ep]; exact g2
      simp only [hh, hd1, hd2, if_true]
    exact main _ (f1.inv hy.inv.sys) (by rw [ep]) (by rw [ep]) (fun n => by rw [e]) (by rw [e])
  · have e : (y.switchWake o).1 = (y.manageSwitch o).switchFinish.1 := by
      unfold CM.switchWake
      rw [if_neg (by simp [hpd]), if_neg (by simp [has]), if_pos hrd]
    refine main y hy.inv.sys rfl rfl (fun n => ?_) ?_
    · rw [e, switchFinish_lc]
    · rw [e]; rfl

/-- 200 cannot be activated. -/
def reject200 : Oracle :=
  { goodOracle with ctlCb := fun _ n cb => if n = 200 ∧ cb = .activate then .failure else .success }

/-- Non-vacuity: 300 could be started but 200 refuses: nothing of the strict request runs; of a BEST_EFFORT request 100 and 300 run. -/
example :
    let cm := (demo reject200 []).switchBegin reject200 [100, 200, 300] [] .strict true
    cm.2 = .wait ∧ cm.1.Executes reject200 (cm.1.rtUpdate reject200 (fun _ => true) true).1 ∧
    (demo reject200 (switchOps [100, 200, 300] [] .strict)).ctls.map (fun c => (c.name, c.lc)) =
      [(200, .inactive), (400, .inactive), (100, .inactive), (300, .inactive)] ∧
    (demo reject200 (switchOps [100, 200, 300] [] .bestEffort)).ctls.map (fun c => (c.name, c.lc)) =
      [(200, .inactive), (400, .inactive), (100, .active), (300, .active)] ∧
    (demo goodOracle (switchOps [100, 200, 300] [] .strict)).ctls.map (fun c => (c.name, c.lc)) =
      [(200, .active), (400, .inactive), (100, .active), (300, .active)] := by
  refine ⟨by decide, .inl ⟨fun _ => true, ?_, by decide, rfl⟩, by decide, by decide, by decide⟩
  unfold CM.Switches; decide

/-! ## C46 -/

/-- **C46.** In every history, a controller that is ACTIVE was named in the activation list of some `switch_controller` request, or
as a fallback when some controller was loaded. No failure, timeout, rollback or restart starts a controller nobody asked for. -/
theorem C46_nobody_starts_uninvited (o : Oracle) (a b : Bool) (specs : List RM.HwSpec) (ops : List CM.Op) (n : Name)
    (h : (CM.run o (CM.start o a b specs) ops).lcOf n = some .active) :
    (∃ act deact s asap, Op.switchBegin act deact s asap ∈ ops ∧ n ∈ act) ∨
    (∃ m ch as cfg fb, Op.load m ch as cfg fb ∈ ops ∧ n ∈ fb) := by
  have gen : ∀ (ops : List CM.Op) (cm : CM) (P : Name → Prop), Inv cm →
      (∀ n, (cm.lcOf n = some .active ∨ n ∈ cm.sw.act ∨ cm.IsFallback n) → P n) →
      ∀ n, (CM.run o cm ops).lcOf n = some .active → P n ∨
        (∃ act deact s asap, Op.switchBegin act deact s asap ∈ ops ∧ n ∈ act) ∨
        (∃ m ch as cfg fb, Op.load m ch as cfg fb ∈ ops ∧ n ∈ fb) := by
    intro ops
    induction ops with
    | nil => intro cm P _ hP n hn; exact .inl (hP n (.inl hn))
    | cons op t ih =>
      intro cm P I hP n hn
      have := ih (cm.step o op) (fun n => P n ∨ (∃ act deact s asap, op = .switchBegin act deact s asap ∧ n ∈ act) ∨
        (∃ m ch as cfg fb, op = .load m ch as cfg fb ∧ n ∈ fb)) (inv_step o I op) ?_ n hn
      · rcases this with (h | ⟨x1, x2, x3, x4, h1, h2⟩ | ⟨x1, x2, x3, x4, x5, h1, h2⟩) | ⟨x1, x2, x3, x4, h1, h2⟩ | ⟨x1, x2, x3, x4, x5, h1, h2⟩
        · exact .inl h
        · exact .inr (.inl ⟨x1, x2, x3, x4, by simp [h1], h2⟩)
        · exact .inr (.inr ⟨x1, x2, x3, x4, x5, by simp [h1], h2⟩)
        · exact .inr (.inl ⟨x1, x2, x3, x4, by simp [h1], h2⟩)
        · exact .inr (.inr ⟨x1, x2, x3, x4, x5, by simp [h1], h2⟩)
      · rintro k (hk | hk | ⟨c, hc, hk⟩)
        · rcases step_rise o I op k hk with h | h | h
          · exact .inl (hP k (.inl h))
          · exact .inl (hP k (.inr (.inl h)))
          · exact .inl (hP k (.inr (.inr h)))
        · rcases step_act o I op k hk with h | h | h
          · exact .inl (hP k (.inr (.inl h)))
          · exact .inl (hP k (.inl h))
          · exact .inr (.inl h)
        · rcases step_fb o I op c hc with ⟨d, hd, e⟩ | ⟨m, ch, as, cfg, e⟩
          · exact .inl (hP k (.inr (.inr ⟨d, hd, e ▸ hk⟩)))
          · exact .inr (.inr ⟨m, ch, as, cfg, _, e, hk⟩)
  refine (gen ops (CM.start o a b specs) (fun _ => False) (inv_start o a b specs) ?_ n h).resolve_left id
  rintro k (h | h | ⟨c, hc, _⟩)
  · simp [CM.start, CM.init, CM.lcOf, CM.find] at h
  · simp [CM.start, CM.init, Sw.empty] at h
  · simp [CM.start, CM.init] at hc

/-- Non-vacuity: controllers do become active, by request (300) and as a fallback (600). -/
example : (demo goodOracle (switchOps [100, 200, 300] [] .strict)).lcOf 300 = some .active ∧
    (demo fallbackOracle withFallback).lcOf 600 = some .active := by decide

end Verif
