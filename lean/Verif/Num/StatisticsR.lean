import Verif.Num.Statistics
import Verif.Num.Round

/-!
# hardware_interface/types/statistics_types.hpp with rounding

The same code as `Num/Statistics`, every operation rounded by an arbitrary `Rounding`. `sqrt` is not modelled (`var` is its argument). Fused
multiply-add (a compiler may contract `a + b * c` on some targets) is not modelled.
-/
namespace Verif
namespace Stat

/-- `add_measurement` (statistics_types.hpp:172-192), rounded; `static_cast<double>(sample_count)` is rounded as well. -/
def Collector.addR (R : Rounding) (c : Collector) (item : Dbl) : Collector :=
  if item.isFinite then
    let n := c.data.count + 1
    let avg := R.add c.data.average (R.div (R.sub item c.data.average) (R.rnd (n : Rat)))
    let m2 := R.add c.m2 (R.mul (R.sub item c.data.average) (R.sub item avg))
    { data := { average := avg, min := Dbl.min c.data.min item, max := Dbl.max c.data.max item, var := R.div m2 (R.rnd (n : Rat)), count := n },
      current := item, m2 := m2 }
  else { c with current := item }

/-- One operation (as `step`, statistics_types.hpp:148-258), rounded. -/
def stepR (R : Rounding) (s : Collector × Report) : Op → Collector × Report
  | .add x => (s.1.addR R x, s.2)
  | op => step s op

/-- A sequence of operations from construction. -/
def runR (R : Rounding) (ops : List Op) : Collector × Report := ops.foldl (stepR R) (Collector.init, Report.init)

theorem addR_exact (c : Collector) (x : Dbl) : c.addR Rounding.exact x = c.add x := by
  unfold Collector.addR Collector.add
  simp only [Rounding.exact_add, Rounding.exact_sub, Rounding.exact_mul, Rounding.exact_div]
  rfl

/-- Without rounding this is the model of C32. -/
theorem runR_exact (ops : List Op) : runR Rounding.exact ops = run ops := by
  unfold runR run
  congr 1
  funext s op
  cases op with
  | add x => simp [stepR, step, addR_exact]
  | _ => rfl

end Stat
end Verif
