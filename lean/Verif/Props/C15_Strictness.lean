import Verif.CM.Lenient
import Verif.Props.CMDemo
/-!
# C15: what the strictness of a switch request is for
-/
namespace Verif
open CM

/-- **C15, strictness.** If a STRICT request is not rejected, a request with any other strictness is answered alike and leaves the same controller manager
- the same controllers and hardware, the same controllers to start and to stop - except that the strictness itself is remembered, which the
real-time loop uses if a controller fails to activate. So BEST_EFFORT differs from STRICT only where STRICT rejects, and there. -/
theorem C15_strictness_matters_if_rejected (o : Oracle) (cm : CM) (act deact : List Name) (s : Strictness) (asap : Bool)
    (h : (cm.switchBegin o act deact .strict asap).2 ≠ .done .error) :
    (cm.switchBegin o act deact s asap).2 = (cm.switchBegin o act deact .strict asap).2 ∧
    ∀ t, { (cm.switchBegin o act deact s asap).1 with sw := { (cm.switchBegin o act deact s asap).1.sw with strict := t } } =
      { (cm.switchBegin o act deact .strict asap).1 with sw := { (cm.switchBegin o act deact .strict asap).1.sw with strict := t } } := by
  rw [switchBegin_agree o cm act deact s asap h]
  unfold withStrictness
  cases hc : (cm.switchBegin o act deact .strict asap).2 with
  | wait => exact ⟨rfl, fun _ => rfl⟩
  | done r => exact ⟨hc, fun _ => rfl⟩

/-- The hypothesis is met, and not only by requests that do nothing. -/
example : ((demo goodOracle []).switchBegin goodOracle [100, 200] [] .strict true).2 = .wait ∧
    ((demo goodOracle []).switchBegin goodOracle [100, 200] [] .bestEffort true).1.sw.act = [100, 200] ∧
    ((demo goodOracle []).switchBegin goodOracle [200] [] .strict true).2 = .done .error ∧
    ((demo goodOracle []).switchBegin goodOracle [200] [] .bestEffort true).2 = .done .ok := by decide +kernel

end Verif
