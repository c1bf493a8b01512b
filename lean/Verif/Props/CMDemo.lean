import Verif.CM.Run
import Verif.Props.C03_C05_Resource
/-!
# A concrete robot and controllers, used to show that the theorems about the controller manager are
not vacuous and for the witnesses of false properties.

Hardware: `demoSpecs` (actuator 1 with command interface 10/0, system 2 with 20/0 and 20/1).
Controllers: 100 is chainable, drives 10/0 and exports the reference 100/0 and the state 100/1; 200 and
400 drive the reference 100/0; 300 drives 20/0.
-/
namespace Verif

/-- A controller that drives `cmd` and reads `st`. -/
def plainCfg (cmd st : List Itf) : CtlCfg := { cmd := .individual cmd, state := .individual st, exports := none }

/-- The chainable controller 100. -/
def cfg100 : CtlCfg :=
  { cmd := .individual [⟨10, 0⟩], state := .individual [⟨10, 0⟩], exports := some ([⟨100, 1⟩], [⟨100, 0⟩]) }

/-- Switch on the hardware, load and configure the four controllers. -/
def demoSetup : List CM.Op :=
  [.setHw 1 .active, .setHw 2 .active,
   .load 100 true false cfg100 [], .configure 100 cfg100 [] true,
   .load 200 false false (plainCfg [⟨100, 0⟩] []) [], .configure 200 (plainCfg [⟨100, 0⟩] []) [] true,
   .load 300 false false (plainCfg [⟨20, 0⟩] [⟨10, 1⟩]) [], .configure 300 (plainCfg [⟨20, 0⟩] [⟨10, 1⟩]) [] true,
   .load 400 false false (plainCfg [⟨100, 0⟩] []) [], .configure 400 (plainCfg [⟨100, 0⟩] []) [] true]

/-- The complete call of `switch_controller`, with one cycle of the real-time loop. -/
def switchOps (act deact : List Name) (s : Strictness) : List CM.Op :=
  [.switchBegin act deact s true, .update (fun _ => true) true, .switchWake]

/-- The demo robot after some operations. -/
def demo (o : Oracle) (ops : List CM.Op) : CM := CM.run o (CM.start o false false demoSpecs) (demoSetup ++ ops)

theorem demo_reach (o : Oracle) (ops : List CM.Op) : CM.Reach o (demo o ops) := ⟨false, false, demoSpecs, _, rfl⟩

/-- Held interfaces of a controller, as the controller sees them. -/
def CM.heldBy (cm : CM) (n : Name) : Option (List Itf) := (cm.find n).map (·.held)

/-- Chained mode of a controller. -/
def CM.chainedMode (cm : CM) (n : Name) : Option Bool := (cm.find n).map (·.chained)

example : (demo goodOracle (switchOps [100, 200, 300] [] .strict)).heldBy 200 = some [⟨100, 0⟩] ∧
    (demo goodOracle (switchOps [100, 200, 300] [] .strict)).chainedMode 100 = some true ∧
    (demo goodOracle (switchOps [100, 200, 300] [] .strict)).rm.claimed ⟨10, 0⟩ = some true ∧
    (demo goodOracle (switchOps [100, 200, 300] [] .strict)).ctls.map (·.name) = [200, 400, 100, 300] := by
  decide

end Verif
