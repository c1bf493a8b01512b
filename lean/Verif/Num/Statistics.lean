import Verif.Num.Dbl
/-!
# hardware_interface/types/statistics_types.hpp: online statistics

`sqrt` is not modelled: the field `var` holds the radicand of `standard_deviation`. `StatisticData` belongs to the external
package libstatistics_collector, where every field starts as NaN and the count as 0 (this is assumed).
-/
namespace Verif
namespace Stat

/-- `StatisticData` (libstatistics_collector, not in /repo): `average`, `min`, `max`, the square of `standard_deviation`,
`sample_count`. -/
structure Data where
  average : Dbl
  min : Dbl
  max : Dbl
  var : Dbl
  count : Nat
  deriving DecidableEq, Repr

/-- `MovingAverageStatistics` (statistics_types.hpp:48-210). -/
structure Collector where
  data : Data
  /-- `current_measurement_` -/
  current : Dbl
  /-- `sum_of_square_diff_from_mean_` -/
  m2 : Dbl
  deriving DecidableEq, Repr

/-- `std::numeric_limits<double>::max()`. -/
def dblMax : Rat := (2 - 1 / 2 ^ 52) * 2 ^ 1023

/-- A default-constructed collector (statistics_types.hpp:52, 207-209). -/
def Collector.init : Collector :=
  { data := { average := .nan, min := .nan, max := .nan, var := .nan, count := 0 }, current := .nan, m2 := 0 }

/-- `reset` (statistics_types.hpp:148-158). -/
def Collector.reset (_ : Collector) : Collector :=
  { data := { average := 0, min := .fin dblMax, max := .fin (-dblMax), var := 0, count := 0 }, current := .nan, m2 := 0 }

/-- `reset_current_measurement` (statistics_types.hpp:160-164). -/
def Collector.resetCurrent (c : Collector) : Collector := { c with current := 0 }

/-- `add_measurement` (statistics_types.hpp:172-192). -/
def Collector.add (c : Collector) (item : Dbl) : Collector :=
  if item.isFinite then
    let n := c.data.count + 1
    let avg := c.data.average + (item - c.data.average) / .fin (n : Rat)
    let m2 := c.m2 + (item - c.data.average) * (item - avg)
    { data := { average := avg, min := Dbl.min c.data.min item, max := Dbl.max c.data.max item, var := m2 / .fin (n : Rat), count := n },
      current := item, m2 := m2 }
  else { c with current := item }

/-- `MovingAverageStatisticsData` (statistics_types.hpp:216-294): what diagnostics show. -/
structure Report where
  data : Data
  current : Dbl
  /-- `reset_statistics_sample_count_` -/
  resetAt : Nat
  deriving DecidableEq, Repr

/-- The constructor (statistics_types.hpp:221-225, 260-267). -/
def Report.init : Report :=
  { data := { average := .nan, min := .nan, max := .nan, var := .nan, count := 0 }, current := .nan, resetAt := 4294967295 }

/-- `update_statistics` (statistics_types.hpp:231-248): also resets the collector when it has seen enough samples. -/
def Report.update (r : Report) (c : Collector) : Report × Collector :=
  let r' := if c.data.count > 0 then { r with data := c.data, current := c.current } else r
  (r', if c.data.count ≥ r.resetAt then c.reset else c)

/-- The operations on a collector and its report. -/
inductive Op
  | add (item : Dbl)
  | reset
  | resetCurrent
  | publish
  | setResetCount (n : Nat)
  deriving DecidableEq, Repr

/-- One operation. `setResetCount`: statistics_types.hpp:254-258. -/
def step (s : Collector × Report) : Op → Collector × Report
  | .add x => (s.1.add x, s.2)
  | .reset => (s.1.reset, s.2)
  | .resetCurrent => (s.1.resetCurrent, s.2)
  | .publish => let p := s.2.update s.1; (p.2, p.1)
  | .setResetCount n => (s.1, { s.2 with resetAt := n })

/-- A sequence of operations from construction. -/
def run (ops : List Op) : Collector × Report := ops.foldl step (Collector.init, Report.init)

end Stat
end Verif
