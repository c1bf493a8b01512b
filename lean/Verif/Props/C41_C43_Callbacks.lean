import Verif.Props.C19_C20_ChainedMode
/-!
# C41, C42, C43: controller callbacks, internal consistency check, running chains
-/
namespace Verif
open CM

/-- Does the history split at an event satisfy the rule of `CtlEvOk`? -/
theorem CtlTraceOk.at {post pre : List Ev} {e : Ev} (h : CtlTraceOk (post ++ e :: pre)) : CtlEvOk pre e := by
  induction post with
  | nil => exact h.1
  | cons x t ih => exact ih h.2

/-- **C41.** In every history of the controller manager, whatever controllers and hardware answer:
`update` of a controller is only called while the controller is active; `on_configure` only while it is
unconfigured; `on_activate` and `on_cleanup` only while it is inactive; `on_deactivate` only while it is
active; `on_shutdown` never on a finalized controller; `on_error` only directly after a callback of the same
controller that failed with ERROR or an exception. The states are computed from the callback history alone
(`ctlLc`), and they are the states the controller manager reports. -/
theorem C41_callbacks_only_in_permitted_states (o : Oracle) (cm : CM) (hr : Reach o cm) (n : Name)
    (post pre : List Ev) :
    (∀ a, cm.rm.tr = post ++ .ctlUpdate n a :: pre → ctlLc n pre = .active) ∧
    (∀ a, cm.rm.tr = post ++ .ctlCb n .configure a :: pre → ctlLc n pre = .unconfigured) ∧
    (∀ a, cm.rm.tr = post ++ .ctlCb n .activate a :: pre → ctlLc n pre = .inactive) ∧
    (∀ a, cm.rm.tr = post ++ .ctlCb n .cleanup a :: pre → ctlLc n pre = .inactive) ∧
    (∀ a, cm.rm.tr = post ++ .ctlCb n .deactivate a :: pre → ctlLc n pre = .active) ∧
    (∀ a, cm.rm.tr = post ++ .ctlCb n .shutdown a :: pre →
      ctlLc n pre = .unconfigured ∨ ctlLc n pre = .inactive ∨ ctlLc n pre = .active) ∧
    (∀ a, cm.rm.tr = post ++ .ctlErr n a :: pre →
      ∃ cb b t, pre = .ctlCb n cb b :: t ∧ (b = .error ∨ b = .throws)) ∧
    (∀ s, cm.lcOf n = some s → s = ctlLc n cm.rm.tr ∧ s ≠ .unknown) := by
  have T := hr.inv.sys.trace
  have ok : CtlTraceOk cm.rm.tr := T.ok
  refine ⟨?_, ?_, ?_, ?_, ?_, ?_, ?_, ?_⟩
  any_goals (intro a h; rw [h] at ok; exact ok.at)
  intro s hs
  unfold CM.lcOf at hs
  cases hc : cm.find n with
  | none => simp [hc] at hs
  | some c =>
    simp [hc] at hs
    subst hs
    have hk : cm.abs.k n = some c.core := by rw [abs_k, hc]; rfl
    exact ⟨(T.lc n _ hk).symm, T.known n _ hk⟩

/-- Non-vacuity: the demo history contains all kinds of callbacks. -/
example :
    let cm := demo goodOracle (switchOps [300] [] .strict ++
      [.update (fun _ => true) true] ++ switchOps [] [300] .strict ++ [.unload 300])
    (∃ a, Ev.ctlUpdate 300 a ∈ cm.rm.tr) ∧ (∃ a, Ev.ctlCb 300 .activate a ∈ cm.rm.tr) ∧
    (∃ a, Ev.ctlCb 300 .cleanup a ∈ cm.rm.tr) ∧ (∃ a, Ev.ctlCb 300 .shutdown a ∈ cm.rm.tr) := by
  refine ⟨⟨.ret .ok, ?_⟩, ⟨.success, ?_⟩, ⟨.success, ?_⟩, ⟨.success, ?_⟩⟩ <;> decide

/-! ## C42 -/

/-- cm.cpp:1877-1904: the three checks at the beginning of `switch_controller` that throw
`std::runtime_error` ("This should never happen"). They look at the request lists after
`switch_params_.reset()` (controller_manager.hpp:735-742), which leaves the lists alone. -/
def CM.internalCheckThrows (cm : CM) : Bool :=
  (!cm.sw.deact.isEmpty || !cm.sw.act.isEmpty) ||
  (!cm.sw.deactItf.isEmpty || !cm.sw.actItf.isEmpty) ||
  (!cm.sw.fromCh.isEmpty || !cm.sw.toCh.isEmpty)

/-- **C42.** Whatever happened before - rejected, accepted, timed-out switches, failing hardware and controllers -
the internal consistency check at the beginning of `switch_controller` never throws (`services_lock_` keeps a
call out while another one is waiting, so the check only runs when no call is waiting). -/
theorem C42_internal_check_never_throws (o : Oracle) (cm : CM) (hr : Reach o cm) (hp : cm.pending = false) :
    cm.internalCheckThrows = false := by
  have h := hr.idle hp
  simp [CM.internalCheckThrows, h.deact, h.act, h.deactItf, h.actItf, h.fromCh, h.toCh]

/-- Non-vacuity: states after an accepted, a rejected and a timed-out request; while a request is waiting the
lists are not empty. -/
example :
    (demo goodOracle (switchOps [100, 200] [] .strict)).pending = false ∧
    (demo goodOracle (switchOps [200] [] .strict)).pending = false ∧
    (demo goodOracle [.switchBegin [100, 200] [] .strict true]).internalCheckThrows = true ∧
    (demo goodOracle [.switchBegin [100, 200] [] .strict true, .switchTimeout]).pending = false ∧
    (demo goodOracle [.switchBegin [100, 200] [] .strict true, .switchTimeout]).internalCheckThrows = false := by
  decide

/-! ## C43 -/

/-- The running controller `p` holds a command interface exported by `f`. -/
def CM.Drives (cm : CM) (p f : Name) : Prop :=
  cm.lcOf p = some .active ∧ ∃ l, cm.heldBy p = some l ∧ ∃ i ∈ l, i.pre = f

/-- The natural property C43, kept in view: a running controller that is driven by a running controller is in
chained mode. It is false of the code, see the two witnesses below (and `C20_restart_of_feeder_unchains`). -/
def C43_Full : Prop :=
  ∀ (o : Oracle) (cm : CM), Reach o cm → ∀ p f, cm.Drives p f → cm.lcOf f = some .active → cm.chainedMode f = some true

/-- C43 is false: after a restart of the driving controller 200 the driven controller 100 runs on its own references
although 200 holds its reference interface. -/
theorem C43_false_after_restart : ¬ C43_Full := by
  intro h
  have := h goodOracle (demo goodOracle (switchOps [100, 200] [] .strict ++ switchOps [200] [200] .strict)) (demo_reach _ _)
    200 100 ⟨by decide, [⟨100, 0⟩], by decide, ⟨100, 0⟩, by decide, rfl⟩ (by decide)
  revert this
  decide

/-- The demo robot with a controller 500 that only reads the state interface exported by 100. -/
def withObserver (ops : List CM.Op) : CM :=
  demo goodOracle ([.load 500 false false (plainCfg [] [⟨100, 1⟩]) [], .configure 500 (plainCfg [] [⟨100, 1⟩]) [] true] ++ ops)

/-- C43 is false without any restart: when the observer 500 of 100 is stopped in the same STRICT request that starts
200, the request to leave chained mode (because of 500) is executed after the request to enter it (because of 200);
the call answers OK, 200 drives 100, and 100 is not in chained mode. -/
theorem C43_observer_swap_unchains :
    let cm := withObserver (switchOps [100, 500] [] .strict)
    Reach goodOracle cm ∧ cm.lcOf 500 = some .active ∧ cm.lcOf 100 = some .active ∧
    (cm.switchBegin goodOracle [200] [500] .strict true).2 = .wait ∧
    let r := CM.run goodOracle (cm.switchBegin goodOracle [200] [500] .strict true).1 [.update (fun _ => true) true]
    (r.switchWake goodOracle).2 = some .ok ∧
    (r.switchWake goodOracle).1.lcOf 200 = some .active ∧ (r.switchWake goodOracle).1.heldBy 200 = some [⟨100, 0⟩] ∧
    (r.switchWake goodOracle).1.lcOf 100 = some .active ∧ (r.switchWake goodOracle).1.chainedMode 100 = some false :=
  ⟨demo_reach _ _, by decide⟩

end Verif
