import Mathlib.Algebra.Order.Field.Rat
import Mathlib.Tactic.Linarith
import Mathlib.Tactic.FieldSimp
import Mathlib.Tactic.Ring
import Mathlib.Tactic.NormNum
import Mathlib.Tactic.Positivity
/-!
# When a controller or a hardware component is called

The decision rule of `ControllerManager::update` and `ResourceManager::read`/`write`, on exact rational seconds.
Simplification: `double` and the nanosecond clock are replaced by exact rational arithmetic (no rounding).
-/
namespace Verif
namespace Rate

/-- What one control cycle brings: the time handed to `update`, the clock's reading, the measured period, and whether the
controller takes the trigger (`successful` of `trigger_update`, `controller_interface_base.cpp:328-374`: an asynchronous
controller still busy with its previous update does not). -/
structure Cyc where
  time : Rat
  now : Rat
  period : Rat
  taken : Bool
deriving Repr, DecidableEq

/-- One call of `trigger_update`: when, the period handed over, and whether the controller took it. -/
structure Call where
  at_ : Rat
  period : Rat
  taken : Bool
deriving Repr, DecidableEq

/-- `controller_period` (`controller_manager.cpp:3441-3444`). -/
def nominal (cm rate : Nat) (period : Rat) : Rat :=
  if rate ≥ cm then period else 1 / (rate : Rat)

/-- `controller_actual_period` (`controller_manager.cpp:3446-3452`); `last = 0` is "not yet updated". -/
def actual (cm rate : Nat) (last : Rat) (c : Cyc) : Rat :=
  if last = 0 then nominal cm rate c.period else c.now - last

/-- `std::abs(x)`. -/
def mag (x : Rat) : Rat := if x < 0 then -x else x

/-- `controller_go` (`controller_manager.cpp:3454-3464`). -/
def go (cm rate : Nat) (last : Rat) (c : Cyc) : Bool :=
  let a := actual cm rate last c
  let now := mag (a * rate - 1)
  let skipped := mag ((a + 1 / (cm : Rat)) * rate - 1)
  decide (rate ≥ cm) || decide (c.time = 0) || decide (now ≤ skipped) || decide (last = 0)

/-- One cycle of an active controller (`controller_manager.cpp:3440-3509`): the new `last_update_cycle_time` and the
call made, if any. `last` is set after the call whatever its outcome. -/
def cycle (cm rate : Nat) (last : Rat) (c : Cyc) : Rat × Option Call :=
  if go cm rate last c then (c.now, some ⟨c.now, actual cm rate last c, c.taken⟩) else (last, none)

/-- Whole runs from a given `last_update_cycle_time`. Activation sets it to 0 (`controller_manager.cpp:2682`). -/
def runFrom (cm rate : Nat) (last : Rat) : List Cyc → List Call
  | [] => []
  | c :: cs =>
    let r := cycle cm rate last c
    match r.2 with
    | some k => k :: runFrom cm rate r.1 cs
    | none => runFrom cm rate r.1 cs

/-- The calls an active controller gets in the cycles after its activation. -/
def calls (cm rate : Nat) (cs : List Cyc) : List Call := runFrom cm rate 0 cs

/-- `std::round(a / b)` for positive integers (half away from zero). `double` division of 32-bit integers does not
change this value: a quotient differs from a half by at least `1/(2b)`, far above the rounding error. -/
def roundDiv (a b : Nat) : Nat := (2 * a + b) / (2 * b)

/-- The update-rate part of `ControllerInterfaceBase::configure` (`controller_interface_base.cpp:199-241`): `cur` is
`params.update_rate`, `req` the parameter. `none`: refused (the controller stays unconfigured). -/
def configureRate (cm cur : Nat) (req : Int) : Option Nat :=
  if req < 0 then none
  else if cur ≠ 0 ∧ req > cur then some cur
  else if req > 0 ∧ cm > 0 then
    let r := req.toNat
    some (if cm % r = 0 then r else cm / roundDiv cm r)
  else some cur

/-- A history of configurations (with a cleanup before each, a refused one changes nothing). The first starts from the
manager's rate (`controller_manager.cpp:2480-2481`). -/
def configured (cm : Nat) (reqs : List Int) : Nat :=
  reqs.foldl (fun cur r => (configureRate cm cur r).getD cur) cm

/-! ## Hardware -/

/-- `rw_rate` as loaded (`resource_manager.cpp:1543-1546`). -/
def rwRate (cm declared : Nat) : Nat := if declared = 0 ∨ declared > cm then cm else declared

/-- What happens when `HardwareComponent::read`/`write` is called (`hardware_component.cpp:351-425`): the state needs
no action (time stamp only), the component is called and takes it, is called and does not take it (asynchronous), or is
not called in this state (`write` while inactive). -/
inductive HwAns | stamp | taken | missed | skip
deriving Repr, DecidableEq

/-- One cycle. -/
structure HwCyc where
  now : Rat
  period : Rat
  ans : HwAns
deriving Repr, DecidableEq

/-- `actual_period` and the decision (`resource_manager.cpp:2427-2450`, `write` alike); `last = none` is the
uninitialised clock. The result is the period handed over, if the component is due. -/
def hwDue (cm rw : Nat) (last : Option Rat) (c : HwCyc) : Option Rat :=
  if rw = 0 ∨ rw = cm then some c.period
  else
    let a := match last with
      | some l => c.now - l
      | none => 1 / (rw : Rat)
    if mag (a * rw - 1) ≤ mag ((a + 1 / (cm : Rat)) * rw - 1) then some a else none

/-- One cycle of a component: the new `last_*_cycle_time_` and the call made. -/
def hwCycle (cm rw : Nat) (last : Option Rat) (c : HwCyc) : Option Rat × Option Call :=
  match hwDue cm rw last c with
  | none => (last, none)
  | some p =>
    match c.ans with
    | .stamp => (some c.now, none)
    | .taken => (some c.now, some ⟨c.now, p, true⟩)
    | .missed => (last, some ⟨c.now, p, false⟩)
    | .skip => (last, none)

/-- Whole runs. -/
def hwRunFrom (cm rw : Nat) (last : Option Rat) : List HwCyc → List Call
  | [] => []
  | c :: cs =>
    let r := hwCycle cm rw last c
    match r.2 with
    | some k => k :: hwRunFrom cm rw r.1 cs
    | none => hwRunFrom cm rw r.1 cs

/-! ## Lemmas -/

theorem mag_eq (x : Rat) : mag x = |x| := by
  unfold mag; split
  · rw [abs_of_neg (by assumption)]
  · rw [abs_of_nonneg (by linarith)]

/-- The rule in plain terms. -/
theorem err_iff {cm rate a : Rat} (hc : 0 < cm) (hr : 0 < rate) :
    mag (a * rate - 1) ≤ mag ((a + 1 / cm) * rate - 1) ↔ 1 / rate - 1 / (2 * cm) ≤ a := by
  rw [mag_eq, mag_eq]
  have e1 : a * rate - 1 = rate * (a - 1 / rate) := by field_simp
  have e2 : (a + 1 / cm) * rate - 1 = rate * (a - 1 / rate + 1 / cm) := by field_simp; ring
  have hp : 0 < 1 / cm := by positivity
  have e3 : 1 / (2 * cm) = (1 / cm) / 2 := by field_simp
  rw [e1, e2, abs_mul, abs_mul, abs_of_pos hr, mul_le_mul_iff_right₀ hr, e3]
  generalize 1 / cm = h at *
  generalize 1 / rate = p at *
  constructor
  · intro H
    by_contra hlt
    have : |a - p + h| < |a - p| := by
      rw [abs_lt]
      rw [abs_of_neg (by linarith)]
      constructor <;> linarith
    linarith
  · intro H
    rw [abs_le]
    have := le_abs_self (a - p + h)
    constructor <;> linarith

theorem runFrom_go {cm rate : Nat} {last : Rat} {c : Cyc} {cs : List Cyc} (h : go cm rate last c = true) :
    runFrom cm rate last (c :: cs) = ⟨c.now, actual cm rate last c, c.taken⟩ :: runFrom cm rate c.now cs := by
  simp [runFrom, cycle, h]

theorem runFrom_skip {cm rate : Nat} {last : Rat} {c : Cyc} {cs : List Cyc} (h : go cm rate last c = false) :
    runFrom cm rate last (c :: cs) = runFrom cm rate last cs := by
  simp [runFrom, cycle, h]

theorem go_first (cm rate : Nat) (c : Cyc) : go cm rate 0 c = true := by simp [go]

theorem go_fast {cm rate : Nat} (h : cm ≤ rate) (last : Rat) (c : Cyc) : go cm rate last c = true := by simp [go, h]

/-- The decision for a slow controller that has been updated before. -/
theorem go_slow {cm rate : Nat} {last : Rat} {c : Cyc} (hr : 0 < rate) (hs : rate < cm) (hl : last ≠ 0)
    (ht : c.time ≠ 0) :
    go cm rate last c = true ↔ 1 / (rate : Rat) - 1 / (2 * (cm : Rat)) ≤ c.now - last := by
  have h1 : (0 : Rat) < rate := by exact_mod_cast hr
  have h2 : (0 : Rat) < cm := by exact_mod_cast (by omega : 0 < cm)
  unfold go
  simp only [Bool.or_eq_true, decide_eq_true_eq, ge_iff_le]
  rw [err_iff h2 h1]
  unfold actual
  rw [if_neg hl]
  constructor
  · rintro (((h | h) | h) | h)
    · omega
    · exact absurd h ht
    · exact h
    · exact absurd h hl
  · intro h; exact Or.inl (Or.inr h)

end Rate
end Verif
