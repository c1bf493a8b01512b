import Verif.Props.C14_C18_Switch
/-!
# C15: a switch that times out
-/
namespace Verif
open CM

/-- **C15, timeout.** A call `switch_controller` that was accepted, and that was still waiting after whatever happened, is answered with an error if it
times out; the controllers are then what they were just before, the request is forgotten, and nothing waits any more. -/
theorem C15_timeout (o : Oracle) (cm : CM) (act deact : List Name) (s : Strictness) (asap : Bool)
    (ops : List CM.Op) (hp : (cm.switchBegin o act deact s asap).1.WaitsThrough o ops) :
    let x := CM.run o (cm.switchBegin o act deact s asap).1 ops
    x.switchTimeout.2 = some .error ∧ x.switchTimeout.1.ctls = x.ctls ∧ x.switchTimeout.1.rm = x.rm ∧
    x.switchTimeout.1.sw.act = [] ∧ x.switchTimeout.1.sw.deact = [] ∧ x.switchTimeout.1.sw.doSwitch = false ∧ x.switchTimeout.1.pending = false := by
  intro x
  have h : x.pending = true := by simpa using hp ops.length (Nat.le_refl _)
  unfold CM.switchTimeout
  rw [if_pos h]
  exact ⟨rfl, rfl, rfl, rfl, rfl, rfl, rfl⟩

/-- The demo robot is asked to start the whole chain, and the real-time loop does not run in time. -/
example :
    let cm' := ((demo goodOracle []).switchBegin goodOracle [200, 100, 300] [] .strict true).1
    cm'.WaitsThrough goodOracle [] ∧ cm'.switchTimeout.2 = some .error ∧ cm'.sw.act ≠ [] := by
  refine ⟨?_, by decide, by decide⟩
  intro k hk
  obtain rfl : k = 0 := by simpa using hk
  decide

end Verif
