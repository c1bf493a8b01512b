import Verif.Loop.Model
/-!
# What is expected of clocks, sleeping and rounding
-/
namespace Verif.Loop

/-- Time does not run backwards within a cycle. -/
def Cycle.Forward (y : Cycle) : Prop := y.start ≤ y.done ∧ y.done ≤ y.now

/-- The next cycle begins after this one and after the time it sleeps for. -/
def Follows (y z : Cycle) : Prop := y.now ≤ z.start ∧ ∀ u, y.till = some u → u ≤ z.start

/-- The clocks do not run backwards, and no sleep ends early. -/
def Physical (l : List Cycle) : Prop :=
  (∀ y ∈ l, y.Forward) ∧ ∀ i y z, l[i]? = some y → l[i + 1]? = some z → Follows y z

/-- Rounding as to a `double`: it keeps the sign, and numbers of an ordinary size change by at most a part in 2^53. -/
def Rounds (rnd : Rat → Rat) : Prop :=
  (∀ x, 0 ≤ x → 0 ≤ rnd x) ∧ ∀ x, 1 / 2 ^ 100 ≤ x → x ≤ 2 ^ 100 → |rnd x - x| ≤ x / 2 ^ 53

/-- Every cycle is over at most `d` after the time it was due: the first one was due at `due`, every other one at the end of the
sleep before it. -/
def Lateness (d due : Int) (l : List Cycle) : Prop :=
  (∀ y, l[0]? = some y → y.now ≤ due + d) ∧
  ∀ i y z u, l[i]? = some y → l[i + 1]? = some z → y.till = some u → z.now ≤ u + d

end Verif.Loop
