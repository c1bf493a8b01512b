import Verif.CM.ChainEnter
import Verif.Props.C41_C43_Callbacks
/-!
# C43: the controller driven by a newly started controller is in chained mode

The positive part of C43 (`C43_Full` itself is false, see `C43_false_after_restart` and
`C43_observer_swap_unchains` in `Props/C41_C43_Callbacks.lean`).
-/
namespace Verif
open CM

/-- While an accepted request waits, the part of the controllers that only `load` and `configure` write stays. -/
theorem CM.WaitsThrough.stat {o : Oracle} : ∀ (ops : List CM.Op) {cm : CM}, Inv cm → cm.WaitsThrough o ops →
    (CM.run o cm ops).ctls.map Ctl.stat = cm.ctls.map Ctl.stat := by
  intro ops
  induction ops with
  | nil => intro cm _ _; rfl
  | cons op t ih =>
    intro cm I h
    have h0 : cm.pending = true := h 0 (by simp)
    have h1 : (cm.step o op).pending = true := h 1 (by simp)
    refine (ih (cm := cm.step o op) (inv_step o I op) (fun k hk => h (k + 1) (by simpa using hk))).trans ?_
    cases op with
    | load => simp only [CM.step, CM.load, h0, if_true]
    | configure => simp only [CM.step, CM.configure, h0, if_true]
    | cleanup => simp only [CM.step, CM.cleanup, h0, if_true]
    | unload => simp only [CM.step, CM.unload, h0, if_true]
    | switchBegin => simp only [CM.step, h0, if_true]
    | switchWake => exact (Fwd.switchWake o cm I).stat
    | switchTimeout => simp [CM.step, CM.switchTimeout, h0, CM.clear] at h1
    | read s => exact (Fwd.rtRead o s cm I.sys).stat
    | update due lock => exact (Fwd.rtUpdate o due lock cm I).stat
    | write s => exact (Fwd.rtWrite o s cm I.sys).stat
    | setHw => simp only [CM.step, CM.setHw, h0, if_true]
    | shutdown => exact (Fwd.shutdownAll o cm).stat

/-- **C43.** A STRICT request was accepted that starts the inactive controller `p`, whose configuration names one
by one the interfaces it wants, among them a command interface of the controller `f`; the request stops no controller
that uses (or could ask for) an interface of `f`. If `f` is still as it was at the time of the request when the
operation comes that starts `p` (the `update` of the real-time loop that performs the switch, or the call itself), then
after it `f` does not run outside chained mode: `f` is not active, or it is in chained mode - whether it was running
before (then it is restarted), is started by the same request, or was in chained mode already.
Assumed of `f`: it agrees to enter chained mode and its `on_deactivate` does not answer FAILURE.
Partial: with another user of `f` stopped in the same request the property is false (`C43_false_after_restart`,
`C43_observer_swap_unchains`); for BEST_EFFORT, see `C20_best_effort_leaves_chained_mode_on`. -/
theorem C43_started_feeder_chains_partial (o : Oracle) (cm : CM) (hr : Reach o cm) (hidle : cm.pending = false)
    (act deact : List Name) (asap : Bool) (hw : (cm.switchBegin o act deact .strict asap).2 = .wait)
    (p f : Ctl) (i : Itf) (lc ls : List Itf)
    (hp : cm.find p.name = some p) (hpa : p.name ∈ act) (hpl : p.lc = .inactive)
    (hcc : p.cfg.cmd = .individual lc) (hcs : p.cfg.state = .individual ls) (hil : i ∈ lc)
    (hf : cm.find i.pre = some f)
    (hno : ∀ d ∈ cm.ctls, d.name ∈ deact → ¬ d.mayUse f.name)
    (hacc : ∀ t, o.ctlChained t f.name true = true) (hstop : ∀ t, o.ctlCb t f.name .deactivate ≠ .failure)
    (ops : List CM.Op) (hwait : (cm.switchBegin o act deact .strict asap).1.WaitsThrough o ops)
    (hfl : (CM.run o (cm.switchBegin o act deact .strict asap).1 ops).lcOf f.name = some f.lc)
    (hfc : (CM.run o (cm.switchBegin o act deact .strict asap).1 ops).chainedMode f.name = some f.chained)
    (op : CM.Op)
    (hop : op = .switchWake ∨ ∃ due lock, op = .update due lock ∧
      ((CM.run o (cm.switchBegin o act deact .strict asap).1 ops).rtUpdate o due lock).2 = .ok)
    (h1 : (CM.run o (cm.switchBegin o act deact .strict asap).1 ops).lcOf p.name ≠ some .active)
    (h2 : ((CM.run o (cm.switchBegin o act deact .strict asap).1 ops).step o op).lcOf p.name = some .active) :
    ((CM.run o (cm.switchBegin o act deact .strict asap).1 ops).step o op).lcOf f.name ≠ some .active ∨
    ((CM.run o (cm.switchBegin o act deact .strict asap).1 ops).step o op).chainedMode f.name = some true := by
  have I := hr.inv
  obtain ⟨kc, kf, kt, kd⟩ := switchBegin_enter ⟨(hr.idle hidle).toCh, (hr.idle hidle).fromCh⟩ hw hp hpa hpl hcc hcs hil hf hno
  have I' : Inv (cm.switchBegin o act deact .strict asap).1 := (Fwd.switchBegin o cm act deact .strict asap I.sys).cmInv I
  have st : (cm.switchBegin o act deact .strict asap).1.ctls.map Ctl.stat = cm.ctls.map Ctl.stat :=
    (Fwd.switchBegin o cm act deact .strict asap I.sys).stat
  have fn : f.name = i.pre := (find_some hf).2
  generalize (cm.switchBegin o act deact .strict asap).1 = r at *
  have st' := (CM.WaitsThrough.stat ops I' hwait).trans st
  obtain ⟨⟨dd, rr, e⟩, _⟩ := CM.WaitsThrough.keep ops I' hwait
  have hpend : (CM.run o r ops).pending = true := by
    have := hwait ops.length (Nat.le_refl _)
    rwa [List.take_length] at this
  generalize CM.run o r ops = x at *
  have hch : x.Chbl f.name := by
    intro d hd
    obtain ⟨c, hc, hs⟩ := find_stat st' hd
    rw [fn, hf] at hc
    simp at hc; subst hc
    have := congrArg Ctl.chainable hs
    exact this.symm.trans kc
  have hreq : (f.name ∈ x.sw.toCh ∧ (f.name ∈ x.sw.deact ∨ x.NotAct f.name)) ∨ (x.InChained f.name ∧ f.name ∉ x.sw.deact) := by
    rw [e]
    cases h : f.chained with
    | false =>
      refine .inl ⟨(kt h).1, ?_⟩
      by_cases ha : f.lc = .active
      · exact .inl ((kt h).2 ha)
      · refine .inr (notAct_iff.2 ?_)
        rw [hfl]; simpa using ha
    | true =>
      refine .inr ⟨?_, kd h⟩
      intro c hc
      unfold CM.chainedMode at hfc
      rw [hc] at hfc
      simp at hfc
      rw [hfc]; exact h
  have xf : f.name ∉ x.sw.fromCh := by rw [e]; exact kf
  have manage : ∀ y : CM, y.sw = x.sw → (∀ n, y.find n = x.find n) →
      (y.manageSwitch o).lcOf p.name ≠ y.lcOf p.name → (y.manageSwitch o).ActInChained f.name := by
    intro y hy hfy hne
    rcases manageSwitch_enter o f.name hacc hstop y (fun c hc => hch c (by rw [← hfy]; exact hc)) (by rw [hy]; exact xf)
      (by
        rw [hy]
        rcases hreq with ⟨a, b⟩ | ⟨a, b⟩
        · exact .inl ⟨a, b.imp id (fun b c hc => b c (by rw [← hfy]; exact hc))⟩
        · exact .inr ⟨fun c hc => a c (by rw [← hfy]; exact hc), b⟩) with ⟨rm1, h⟩ | h
    · rw [h] at hne; exact absurd rfl hne
    · exact h
  have goal : (x.step o op).ActInChained f.name := by
    rcases hop with rfl | ⟨due, lock, rfl, hok⟩
    · simp only [CM.step] at h2 ⊢
      unfold CM.switchWake at h2 ⊢
      have lf : ∀ y : CM, y.switchFinish.1.lcOf p.name = y.lcOf p.name := by
        intro y; unfold CM.lcOf; rw [find_switchFinish]; cases y.find p.name <;> rfl
      split
      · rename_i h; rw [hpend] at h; simp at h
      rename_i g1
      rw [if_neg g1] at h2
      split
      · rename_i g2
        rw [if_pos g2] at h2
        split
        · rename_i g3; rw [if_pos g3] at h2; exact absurd h2 h1
        · rename_i g3
          rw [if_neg g3] at h2
          simp only at h2
          rw [lf] at h2; exact absurd h2 h1
      · rename_i g2
        rw [if_neg g2] at h2
        split
        · rename_i g3
          rw [if_pos g3] at h2
          simp only at h2 ⊢
          rw [lf] at h2
          have := manage x rfl (fun _ => rfl) (by rw [h2]; exact fun h => h1 h.symm)
          intro c hc hcl
          rw [find_switchFinish] at hc
          cases hd : (x.manageSwitch o).find f.name with
          | none => simp [hd] at hc
          | some d => simp [hd] at hc; subst hc; exact this d hd hcl
        · rename_i g3; rw [if_neg g3] at h2; exact absurd h2 h1
    · simp only [CM.step] at h2 ⊢
      unfold CM.rtUpdate at h2 hok ⊢
      revert h2 hok
      extract_lets q cm1 _ cm2
      intro hok h2
      have hq : q.2.1 = [] := (updateLoop_ok o due x.ctls x [] .ok hok).1
      have hpush : ∃ es, q.1 = { x with rm := { x.rm with tr := es ++ x.rm.tr } } := updateLoop_push o due x.ctls x [] .ok
      obtain ⟨es, hes⟩ := hpush
      have h1' : cm1 = { x with rm := { x.rm with tr := es ++ x.rm.tr } } := by
        simp only [cm1, CM.handleFailed, hq, if_true]; exact hes
      have hlc : cm1.lcOf p.name = x.lcOf p.name := by rw [h1']; rfl
      have hsw : cm1.sw = x.sw := by rw [h1']
      have hfd : ∀ n, cm1.find n = x.find n := by intro n; rw [h1']; rfl
      clear_value cm1
      simp only [cm2] at h2 ⊢
      split
      · rename_i g1
        rw [if_pos g1] at h2
        split
        · rename_i g2
          rw [if_pos g2] at h2
          split
          · rename_i g3
            rw [if_pos g3] at h2
            exact manage cm1 hsw hfd (by rw [h2, hlc]; exact fun h => h1 h.symm)
          · rename_i g3; rw [if_neg g3] at h2; rw [hlc] at h2; exact absurd h2 h1
        · rename_i g2
          rw [if_neg g2] at h2
          exact absurd (hlc.symm.trans h2) h1
      · rename_i g1
        rw [if_neg g1] at h2
        rw [hlc] at h2; exact absurd h2 h1
  unfold CM.chainedMode CM.lcOf
  cases hd : (x.step o op).find f.name with
  | none => exact .inl (by simp)
  | some d =>
    by_cases hl : d.lc = .active
    · exact .inr (by simp [goal d hd hl])
    · exact .inl (by simpa using hl)

/-- The hypotheses are met with `f` = 100 already running on its own: starting 200 restarts it in chained mode. -/
example :
    let cm := demo goodOracle (switchOps [100] [] .strict)
    let r := (cm.switchBegin goodOracle [200] [] .strict true).1
    cm.pending = false ∧ (cm.switchBegin goodOracle [200] [] .strict true).2 = .wait ∧
    (cm.find 200).map (fun c => (c.lc, c.cfg.cmd, c.cfg.state)) = some (.inactive, .individual [⟨100, 0⟩], .individual []) ∧
    cm.lcOf 100 = some .active ∧ cm.chainedMode 100 = some false ∧ r.lcOf 100 = some .active ∧ r.chainedMode 100 = some false ∧
    (∀ t, goodOracle.ctlChained t 100 true = true) ∧ (∀ t, goodOracle.ctlCb t 100 .deactivate ≠ .failure) ∧
    (r.rtUpdate goodOracle (fun _ => true) true).2 = .ok ∧ r.lcOf 200 ≠ some .active ∧
    (r.step goodOracle (.update (fun _ => true) true)).lcOf 200 = some .active ∧
    (r.step goodOracle (.update (fun _ => true) true)).lcOf 100 = some .active ∧
    (r.step goodOracle (.update (fun _ => true) true)).chainedMode 100 = some true := by
  refine ⟨by decide, by decide, by rfl, by decide, by decide, by decide, by decide, fun _ => rfl, fun _ => by simp [goodOracle],
    by decide, by decide, by decide, by decide, by decide⟩

/-- C43 is false also when a request only stops: 200 drives 100, 500 reads a state interface of 100. Stopping the
reader 500 - accepted, answered OK - restarts 100 outside chained mode although 200 keeps running and holds the
reference interface of 100. -/
theorem C43_stopping_an_observer_unchains :
    let cm := withObserver (switchOps [100, 200, 500] [] .strict)
    Reach goodOracle cm ∧ cm.lcOf 500 = some .active ∧ cm.Drives 200 100 ∧ cm.lcOf 100 = some .active ∧
    cm.chainedMode 100 = some true ∧ (cm.switchBegin goodOracle [] [500] .strict true).2 = .wait ∧
    let r := CM.run goodOracle (cm.switchBegin goodOracle [] [500] .strict true).1 [.update (fun _ => true) true]
    (r.switchWake goodOracle).2 = some .ok ∧ (r.switchWake goodOracle).1.Drives 200 100 ∧
    (r.switchWake goodOracle).1.lcOf 100 = some .active ∧ (r.switchWake goodOracle).1.chainedMode 100 = some false := by
  refine ⟨demo_reach _ _, by decide, ⟨by decide, [⟨100, 0⟩], by decide, ⟨100, 0⟩, by decide, rfl⟩, by decide, by decide,
    by decide, by decide, ⟨by decide, [⟨100, 0⟩], by decide, ⟨100, 0⟩, by decide, rfl⟩, by decide, by decide⟩

end Verif
