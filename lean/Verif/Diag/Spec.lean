import Verif.Diag.Model
/-!
# What the diagnostics should say
-/
namespace Verif
namespace Diag

/-- A statistic is beyond the error thresholds: its deviation from what is expected, or its spread. A NaN is beyond nothing. -/
def Thr.BeyondErr (t : Thr) (dev sd : Dbl) : Prop := Dbl.lt t.meanErr dev = true ∨ Dbl.lt t.sdErr sd = true

/-- A statistic is beyond some threshold (warning or error). -/
def Thr.Beyond (t : Thr) (dev sd : Dbl) : Prop :=
  t.BeyondErr dev sd ∨ Dbl.lt t.meanWarn dev = true ∨ Dbl.lt t.sdWarn sd = true

instance (t : Thr) (d s : Dbl) : Decidable (t.BeyondErr d s) := inferInstanceAs (Decidable (_ ∨ _))
instance (t : Thr) (d s : Dbl) : Decidable (t.Beyond d s) := inferInstanceAs (Decidable (_ ∨ _))

/-- How far the observed rate is from the wanted one. -/
def rateDev (d : Data) (rate : Nat) : Dbl := Dbl.abs (d.avg - .fin (rate : Rat))

/-- How far the mean execution time (in microseconds) is above what is expected: a whole period for something that runs in
its own thread, nothing otherwise. -/
def execDev (d : Data) (async : Bool) (rate : Nat) : Dbl :=
  d.avg - (if async then .fin 1000000 / .fin (rate : Rat) else 0)

/-- The execution time of an active controller is beyond the error thresholds. -/
def Ctl.ExecErr (t : Thrs) (c : Ctl) : Prop :=
  c.state = .active ∧ t.exec.BeyondErr (execDev c.exec c.async c.rate) c.exec.sd

/-- The execution time of an active controller is beyond some threshold. -/
def Ctl.ExecHigh (t : Thrs) (c : Ctl) : Prop :=
  c.state = .active ∧ t.exec.Beyond (execDev c.exec c.async c.rate) c.exec.sd

/-- The rate of a controller is watched: it runs in its own thread or at a rate of its own. -/
def Ctl.Watched (cmRate : Nat) (c : Ctl) : Prop := c.async = true ∨ c.rate ≠ cmRate

/-- The rate of a watched active controller is beyond the error thresholds. -/
def Ctl.RateErr (cmRate : Nat) (t : Thrs) (c : Ctl) : Prop :=
  c.state = .active ∧ c.Watched cmRate ∧ t.per.BeyondErr (rateDev c.per c.rate) c.per.sd

/-- The rate of a watched active controller is beyond some threshold. -/
def Ctl.RateBad (cmRate : Nat) (t : Thrs) (c : Ctl) : Prop :=
  c.state = .active ∧ c.Watched cmRate ∧ t.per.Beyond (rateDev c.per c.rate) c.per.sd

instance (c : Ctl) (r : Nat) : Decidable (c.Watched r) := inferInstanceAs (Decidable (_ ∨ _))
instance (t : Thrs) (c : Ctl) : Decidable (c.ExecErr t) := inferInstanceAs (Decidable (_ ∧ _))
instance (t : Thrs) (c : Ctl) : Decidable (c.ExecHigh t) := inferInstanceAs (Decidable (_ ∧ _))
instance (r : Nat) (t : Thrs) (c : Ctl) : Decidable (c.RateErr r t) := inferInstanceAs (Decidable (_ ∧ _))
instance (r : Nat) (t : Thrs) (c : Ctl) : Decidable (c.RateBad r t) := inferInstanceAs (Decidable (_ ∧ _))

/-- The values a controller contributes. -/
def Ctl.entries (cmRate : Nat) (c : Ctl) : List Entry :=
  [.state c.name c.state]
    ++ (if c.state = .active then [.exec c.name .update c.exec] else [])
    ++ (if c.state = .active ∧ c.Watched cmRate then [.per c.name .update c.per c.rate] else [])

/-- The cycles of a component that have statistics. -/
def Comp.cycles (h : Comp) : List (Cycle × HwStats) :=
  (h.read.map fun d => (Cycle.read, d)).toList ++ (h.write.map fun d => (Cycle.write, d)).toList

/-- The rate of a component is watched. -/
def Comp.Watched (cmRate : Nat) (h : Comp) : Prop := h.async = true ∨ h.rate ≠ cmRate

/-- A cycle of an active component has an execution time beyond the error thresholds. -/
def Comp.ExecErr (t : Thrs) (h : Comp) : Prop :=
  h.state = .active ∧ ∃ d ∈ h.cycles, t.exec.BeyondErr (execDev d.2.exec h.async h.rate) d.2.exec.sd

/-- A cycle of an active component has an execution time beyond some threshold. -/
def Comp.ExecHigh (t : Thrs) (h : Comp) : Prop :=
  h.state = .active ∧ ∃ d ∈ h.cycles, t.exec.Beyond (execDev d.2.exec h.async h.rate) d.2.exec.sd

/-- A cycle of a watched active component has a rate beyond the error thresholds. -/
def Comp.RateErr (cmRate : Nat) (t : Thrs) (h : Comp) : Prop :=
  h.state = .active ∧ h.Watched cmRate ∧ ∃ d ∈ h.cycles, t.per.BeyondErr (rateDev d.2.per h.rate) d.2.per.sd

/-- A cycle of a watched active component has a rate beyond some threshold. -/
def Comp.RateBad (cmRate : Nat) (t : Thrs) (h : Comp) : Prop :=
  h.state = .active ∧ h.Watched cmRate ∧ ∃ d ∈ h.cycles, t.per.Beyond (rateDev d.2.per h.rate) d.2.per.sd

instance (h : Comp) (r : Nat) : Decidable (h.Watched r) := inferInstanceAs (Decidable (_ ∨ _))

/-- The values one cycle of a component contributes. -/
def Comp.cycleEntries (cmRate : Nat) (h : Comp) (d : Cycle × HwStats) : List Entry :=
  [.exec h.name d.1 d.2.exec] ++ (if h.Watched cmRate then [.per h.name d.1 d.2.per h.rate] else [])

/-- The values a component contributes. -/
def Comp.entries (cmRate : Nat) (h : Comp) : List Entry :=
  [.state h.name h.state] ++ (if h.state = .active then h.cycles.flatMap (h.cycleEntries cmRate) else [])

end Diag
end Verif
