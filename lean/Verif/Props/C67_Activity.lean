import Verif.CM.ActivityLemmas
import Verif.Props.CMDemo
/-!
# C67: what the activity topic tells

`Tells m cm` (CM/Activity): the message lists exactly the loaded controllers and the hardware components, each once, with the
state they have. `Reports`: the operations whose end is announced. `Hides`: the operations after which the last message can be
wrong.
-/
namespace Verif
namespace CM

/-- **C67.** Every `load_controller`, `configure_controller` and `unload_controller` that succeeds, every `switch_controller`
that ends, every change of a hardware component by service and every cycle in which a controller failed leaves as its last
message the states at its end, whatever was on the topic before. -/
theorem activity_reports {o : Oracle} {cm : CM} (hr : Reach o cm) (op : Op) (h : Reports o cm op) :
    ∃ m, (cm.published o op).getLast? = some m ∧ Tells m (cm.step o op) := by
  have I' : Inv (cm.step o op) := (hr.step op).inv
  cases op <;> simp only [Reports] at h
  · exact ⟨_, by simp only [published, h, if_true]; rfl, I'.tells⟩
  · exact ⟨_, by simp only [published, h, if_true]; rfl, I'.tells⟩
  · exact ⟨_, by simp only [published, h, if_true]; rfl, I'.tells⟩
  · exact ⟨_, by simp only [published, Option.isSome_iff_ne_none.2 h, if_true]; rfl, I'.tells⟩
  · rename_i due lock
    obtain ⟨e1, e2⟩ := update_shape o due lock cm h.2
    refine ⟨_, by simp only [published, h.1, if_false]; rfl, ?_⟩
    refine Tells.fields (tells_now ?_ ?_) e1 (by show RM.comps _ = _; rw [CM.step, e2])
    · rw [← e1]; exact I'.topo.names
    · rw [← e2]; exact I'.rmInv.names
  · rename_i n t
    have : (cm.rm.findHw n).isSome = true := by
      cases hf : cm.rm.findHw n with
      | none => exact absurd (by unfold CM.hwOf; rw [hf]; rfl) h.2
      | some _ => rfl
    exact ⟨_, by simp only [published, h.1, this, and_self, if_true]; rfl, I'.tells⟩

/-- **C67.** An operation that is none of `Hides` keeps a correct topic correct: either its last message shows the states at
its end, or it makes no message and changes no state. -/
theorem activity_kept {o : Oracle} {cm : CM} (hr : Reach o cm) (op : Op) (hh : ¬ Hides o cm op) {m : ActivityMsg}
    (hm : Tells m cm) : Tells ((cm.published o op).getLast?.getD m) (cm.step o op) := by
  have I := hr.inv
  have rep : Reports o cm op → Tells ((cm.published o op).getLast?.getD m) (cm.step o op) := by
    intro h
    obtain ⟨x, h1, h2⟩ := activity_reports hr op h
    rw [h1]; exact h2
  cases op
  · rename_i n ch as cfg fb
    by_cases hs : (cm.load o n ch as cfg fb).2 = .ok
    · exact rep hs
    · simp only [published, hs, if_false]
      exact hm.same (SameStates.load hs)
  · rename_i n cfg ord rt
    by_cases hs : (cm.configure o n cfg ord rt).2 = .ok
    · exact rep hs
    · simp only [published, hs, if_false]
      refine hm.same (SameStates.configure I ?_)
      simp only [Hides, not_and, not_not] at hh
      cases hp : cm.pending
      · right; intro hc; exact hs (hh hp hc)
      · exact .inl rfl
  · rename_i n
    simp only [published]
    refine hm.same (SameStates.cleanup I ?_)
    simp only [Hides, not_and] at hh
    cases hp : cm.pending
    · exact .inr (hh hp)
    · exact .inl rfl
  · rename_i n
    by_cases hs : (cm.unload o n).2 = .ok
    · exact rep hs
    · simp only [published, hs, if_false]
      refine hm.same (SameStates.unload I ?_ hs)
      simp only [Hides, not_and, not_not] at hh
      cases hp : cm.pending
      · right; intro hc; exact hs (hh hp hc)
      · exact .inl rfl
  · simp only [published, step]
    split
    · exact hm
    · exact hm.same (SameStates.switchBegin o cm _ _ _ _)
  · by_cases hs : (cm.switchWake o).2 = none
    · simp only [published, hs, step]
      refine hm.same ?_
      unfold CM.switchWake at hs ⊢
      split
      · exact .refl _
      rename_i h1
      rw [if_neg h1] at hs
      split
      · rename_i h2
        rw [if_pos h2] at hs
        split
        · exact .refl _
        · rename_i h3; rw [if_neg h3] at hs; cases hs
      · rename_i h2
        rw [if_neg h2] at hs
        split
        · rename_i h3; rw [if_pos h3] at hs; cases hs
        · exact .refl _
    · exact rep hs
  · simp only [published, step]
    refine hm.same ?_
    unfold CM.switchTimeout
    split
    · exact .of rfl rfl
    · exact .refl _
  · simp only [published, step]
    simp only [Hides, not_not, ne_eq] at hh
    exact hm.same (SameStates.read I hh)
  · rename_i due lock
    by_cases hs : (updateLoop o due cm.ctls cm [] .ok).2.1 = []
    · simp only [published, hs, if_true]
      obtain ⟨e1, e2⟩ := update_shape o due lock cm hh
      obtain ⟨es, e⟩ := updateLoop_push o due cm.ctls cm [] .ok
      rw [hs] at e1 e2
      refine hm.fields (e1.trans ?_) (by show RM.comps _ = _; rw [CM.step, e2]; unfold CM.handleFailed; rw [if_pos rfl, e])
      unfold CM.handleFailed; rw [if_pos rfl, e]
    · exact rep ⟨hs, hh⟩
  · simp only [Hides, not_not, ne_eq] at hh
    have := SameStates.write I hh
    rw [this.2]
    exact hm.same this.1
  · rename_i n t
    by_cases hs : cm.pending = false ∧ (cm.rm.findHw n).isSome
    · refine rep ⟨hs.1, ?_⟩
      unfold CM.hwOf
      cases hf : cm.rm.findHw n with
      | none => rw [hf] at hs; simp at hs
      | some _ => simp
    · simp only [published, hs, if_false]
      refine hm.same ?_
      simp only [step, CM.setHw]
      split
      · exact .refl _
      · rename_i hp
        cases hf : cm.rm.findHw n with
        | none =>
          refine .of rfl ?_
          show (cm.rm.setComponentState o n t).1.comps = _
          unfold RM.setComponentState; rw [hf]
        | some _ => exact absurd ⟨by simpa using hp, by rw [hf]; rfl⟩ hs
  · simp only [Hides, ne_eq, not_not] at hh
    simp only [published, step]
    refine hm.same (.of ?_ ?_)
    · unfold CM.shutdownAll; rw [hh]; exact hh
    · exact SameHw.shutdownAll o cm

/-- **C67.** A subscriber of a history without `Hides`, begun with an operation that reports, always reads the present states. -/
theorem activity_current_partial {o : Oracle} {cm : CM} (hr : Reach o cm) (op : Op) (h : Reports o cm op) (ops : List Op)
    (hh : NoneHidden o (cm.step o op) ops) :
    ∃ m, (cm.topic o (op :: ops)).getLast? = some m ∧ Tells m (CM.run o cm (op :: ops)) := by
  have key : ∀ (ops : List Op) (cm : CM) (m : ActivityMsg), Reach o cm → Tells m cm → NoneHidden o cm ops →
      Tells ((cm.topic o ops).getLast?.getD m) (CM.run o cm ops) := by
    intro ops
    induction ops with
    | nil => intro cm m _ hm _; exact hm
    | cons op t ih =>
      intro cm m hr hm hh
      have h1 := ih (cm.step o op) _ (hr.step op) (activity_kept hr op hh.1 hm) hh.2
      have e : ((cm.topic o (op :: t)).getLast?.getD m) =
          ((CM.topic o (cm.step o op) t).getLast?.getD ((cm.published o op).getLast?.getD m)) := by
        simp only [topic, List.getLast?_append]
        cases (CM.topic o (cm.step o op) t).getLast? <;> rfl
      rw [e]; exact h1
  obtain ⟨m, h1, h2⟩ := activity_reports hr op h
  have h3 := key ops (cm.step o op) m (hr.step op) h2 hh
  simp only [topic, List.getLast?_append, h1]
  cases hx : (CM.topic o (cm.step o op) ops).getLast? with
  | none => rw [hx] at h3; exact ⟨m, rfl, h3⟩
  | some x => rw [hx] at h3; exact ⟨x, rfl, h3⟩

/-- **C67.** The messages of a write cycle that deactivates components show the controllers as they were before the cycle, all
components once, and each component as it was before or as it is after the cycle. -/
theorem activity_write {o : Oracle} {cm : CM} (hr : Reach o cm) (sched : Name → RM.Sched) (m : ActivityMsg)
    (hm : m ∈ cm.published o (.write sched)) :
    (∀ n s, (n, s) ∈ m.controllers ↔ cm.lcOf n = some s) ∧ (m.controllers.map (·.1)).Nodup ∧
    (m.hardware.map (·.1)).Nodup ∧ (∀ n, n ∈ m.hardware.map (·.1) ↔ cm.hwOf n ≠ none) ∧
    ∀ n s, (n, s) ∈ m.hardware → cm.hwOf n = some s ∨ (cm.step o (.write sched)).hwOf n = some s := by
  have I := hr.inv
  have R : cm.rm.Inv := I.rmInv
  obtain ⟨a, b, c, d⟩ := writeMsgs_mem o sched cm cm.rm.writeOrder (cm.rm, { result := .ok, failed := [] }) R
    (RM.writeOrder_nodup R) m hm
  have T := I.tells
  refine ⟨fun n s => by rw [a]; exact T.controllers n s, by rw [a]; exact T.once, b, fun n => ?_, fun n s hs => ?_⟩
  · rw [c n]; unfold CM.hwOf; simp
  · rcases d n s hs with h | h
    · exact .inl h
    · right
      unfold CM.hwOf RM.findHw
      simp only [step]
      rw [comps_rtWrite]
      exact h

/-- **C67.** The message of a cycle in which a controller failed shows all loaded controllers once, and the components as they
are. -/
theorem activity_update {o : Oracle} {cm : CM} (hr : Reach o cm) (due : Name → Bool) (lock : Bool) (m : ActivityMsg)
    (hm : m ∈ cm.published o (.update due lock)) :
    (m.controllers.map (·.1)).Nodup ∧ (∀ n, n ∈ m.controllers.map (·.1) ↔ cm.lcOf n ≠ none) ∧
    (m.hardware.map (·.1)).Nodup ∧ ∀ n s, (n, s) ∈ m.hardware ↔ cm.hwOf n = some s := by
  have I := hr.inv
  simp only [published] at hm
  split at hm
  · cases hm
  have e := List.mem_singleton.1 hm
  subst e
  obtain ⟨es, e⟩ := updateLoop_push o due cm.ctls cm [] .ok
  have hsame : SameHw cm ((updateLoop o due cm.ctls cm [] .ok).1.handleFailed o (updateLoop o due cm.ctls cm [] .ok).2.1) :=
    SameHw.trans (by rw [e]; rfl) (SameHw.handleFailed o _ _)
  have hn := names_handleFailed o cm due I
  generalize (updateLoop o due cm.ctls cm [] .ok).1.handleFailed o (updateLoop o due cm.ctls cm [] .ok).2.1 = x at hsame hn ⊢
  have hc : (x.ctls.map (·.name)).Nodup := by rw [hn]; exact I.topo.names
  have hh : (x.rm.comps.map (·.name)).Nodup := by rw [hsame]; exact I.rmInv.names
  have T := tells_now hc hh
  refine ⟨T.once, fun n => ?_, T.onceHw, fun n s => ?_⟩
  · have e1 : x.activityMsg.controllers.map (·.1) = cm.ctls.map (·.name) := by
      rw [← hn]; simp [activityMsg, List.map_map, Function.comp_def]
    rw [e1]
    unfold CM.lcOf CM.find
    simp [List.find?_eq_none]
  · rw [T.hardware, hwOf_eq hsame]

/-! ## The full claim is false of the code

Full claim: what a subscriber reads on the latched topic is the present state of every controller and component, whenever no
service call is under way. Every kind of operation in `Hides` leaves a wrong message on the topic; below, each in the demo
robot. The message stays until the next operation that reports. -/

/-- The last message of a history of the demo robot. -/
def lastActivity (o : Oracle) (ops : List Op) : Option ActivityMsg :=
  (CM.topic o (CM.start o false false demoSpecs) (demoSetup ++ ops)).getLast?

/-- What a message says about a controller. -/
def _root_.Verif.ActivityMsg.saysCtl (m : ActivityMsg) (n : Name) : Option LState := (m.controllers.find? (·.1 = n)).map (·.2)

/-- What a message says about a component. -/
def _root_.Verif.ActivityMsg.saysHw (m : ActivityMsg) (n : Name) : Option LState := (m.hardware.find? (·.1 = n)).map (·.2)

/-- `cleanup_controller`: the topic says INACTIVE, the controller is UNCONFIGURED. -/
theorem activity_stale_cleanup :
    (lastActivity goodOracle [.cleanup 300]).bind (·.saysCtl 300) = some .inactive ∧
    (demo goodOracle [.cleanup 300]).lcOf 300 = some .unconfigured := by decide +kernel

/-- An error in the read of hardware component 1 takes the component and controller 100 out of ACTIVE; the topic says that
both are ACTIVE. -/
theorem activity_stale_read :
    let o : Oracle := { goodOracle with hwIo := fun _ n io => if n = 1 ∧ io = .read then .ret .error else .ret .ok }
    let ops := switchOps [100, 200] [] .strict ++ [Op.read (fun _ => .run)]
    ((lastActivity o ops).bind (·.saysCtl 100) = some .active ∧ (demo o ops).lcOf 100 = some .inactive) ∧
    ((lastActivity o ops).bind (·.saysHw 1) = some .active ∧ (demo o ops).hwOf 1 = some .unconfigured) := by decide +kernel

/-- A component that answers DEACTIVATE to a write: a message is published, but before the controllers are deactivated. -/
theorem activity_stale_write :
    let o : Oracle := { goodOracle with hwIo := fun _ n io => if n = 1 ∧ io = .write then .ret .deactivate else .ret .ok }
    let start := CM.start o false true demoSpecs
    let ops := demoSetup ++ switchOps [100, 200] [] .strict ++ [Op.write (fun _ => .run)]
    ((start.topic o ops).getLast?.bind (·.saysHw 1) = some .inactive ∧ (CM.run o start ops).hwOf 1 = some .inactive) ∧
    ((start.topic o ops).getLast?.bind (·.saysCtl 100) = some .active ∧ (CM.run o start ops).lcOf 100 = some .inactive) := by
  decide +kernel

/-- A failed `configure_controller` of an INACTIVE controller, which cleans the controller up first. -/
theorem activity_stale_configure :
    let o : Oracle := { goodOracle with ctlCb := fun tr n cb => if n = 300 ∧ cb = .configure ∧ 15 ≤ tr.length then .failure else .success }
    let ops := [Op.configure 300 (plainCfg [⟨20, 0⟩] [⟨10, 1⟩]) [] true]
    (lastActivity o ops).bind (·.saysCtl 300) = some .inactive ∧ (demo o ops).lcOf 300 = some .unconfigured ∧
    ((demo o []).configure o 300 (plainCfg [⟨20, 0⟩] [⟨10, 1⟩]) [] true).2 = .error := by decide +kernel

/-- `shutdown_controllers`. -/
theorem activity_stale_shutdown :
    (lastActivity goodOracle [.shutdown]).bind (·.saysCtl 300) = some .inactive ∧
    (demo goodOracle [.shutdown]).lcOf 300 = some .finalized := by decide +kernel

/-- A switch executed by the real-time loop whose `switch_controller` call has timed out before it woke up: the controller is
active, the topic says INACTIVE. -/
theorem activity_stale_timeout :
    let ops := [Op.switchBegin [300] [] .strict true, .update (fun _ => true) true, .switchTimeout]
    (lastActivity goodOracle ops).bind (·.saysCtl 300) = some .inactive ∧
    (demo goodOracle ops).lcOf 300 = some .active := by decide +kernel

/-- **C67, negation of the full claim.** -/
theorem activity_current_false :
    ¬ ∀ (o : Oracle) (a b : Bool) (specs : List RM.HwSpec) (ops : List Op) (m : ActivityMsg),
      ((CM.start o a b specs).topic o ops).getLast? = some m → Tells m (CM.run o (CM.start o a b specs) ops) := by
  intro h
  obtain ⟨m, hm, e⟩ : ∃ m, lastActivity goodOracle [.cleanup 300] = some m ∧ (300, LState.inactive) ∈ m.controllers := by
    decide +kernel
  have := ((h goodOracle false false demoSpecs _ m hm).controllers 300 .inactive).1 e
  have h2 := activity_stale_cleanup.2
  unfold demo at h2
  rw [h2] at this
  cases this

/-! ## Examples -/

example : Reports goodOracle (demo goodOracle [Op.switchBegin [300] [] .strict true, .update (fun _ => true) true]) .switchWake := by
  simp only [Reports]; decide +kernel

example : (lastActivity goodOracle (switchOps [100, 200, 300] [] .strict)) =
    some ⟨[(200, .active), (400, .inactive), (100, .active), (300, .active)], [(1, .active), (2, .active)]⟩ := by decide +kernel

example : NoneHidden goodOracle (demo goodOracle []) [.load 500 false false (plainCfg [] []) [], .configure 500 (plainCfg [] []) [] true,
    .unload 500, .read (fun _ => .run), .switchBegin [300] [] .strict true] := by
  simp only [NoneHidden, Hides]; decide +kernel

/-- A failing controller is reported in the cycle in which it fails. -/
example :
    let o : Oracle := { goodOracle with ctlUpdate := fun _ n => if n = 300 then .ret .error else .ret .ok }
    let cm := demo o (switchOps [300] [] .strict)
    Reports o cm (.update (fun _ => true) true) ∧
    (cm.published o (.update (fun _ => true) true)).map (·.saysCtl 300) = [some .inactive] := by
  simp only [Reports]; decide +kernel

/-- Both components are stopped by the same write: two messages. -/
example :
    let o : Oracle := { goodOracle with hwIo := fun _ _ io => if io = .write then .ret .deactivate else .ret .ok }
    let cm := demo o (switchOps [300] [] .strict)
    (cm.published o (.write (fun _ => .run))).map (fun m => (m.saysHw 1, m.saysHw 2, m.saysCtl 300)) =
      [(some .inactive, some .active, some .active), (some .inactive, some .inactive, some .active)] := by decide +kernel

end CM
end Verif
