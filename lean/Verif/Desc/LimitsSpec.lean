import Verif.Desc.Limits
/-!
# What a description says about the limits of a joint

The vocabulary of the theorems of C55, without reference to how the limits are computed.
-/
namespace Verif.Desc
open Verif (Dbl)

/-- The text is the number `q` (as `stod` reads it, C48). -/
def Reads (round : Rat → Option Rat) (s : List Char) (q : Rat) : Prop := Text.stod round s = .ok q

/-- Rounding yields finite doubles, whose absolute value is at most `DBL_MAX`. -/
def Rounds (round : Rat → Option Rat) : Prop := ∀ q x, round q = some x → |x| ≤ dblMax

/-- The interface gives limits: a `min` or a `max`, and whatever it gives is a number. -/
def Itf.Usable (round : Rat → Option Rat) (i : Itf) : Prop :=
  (i.min ≠ [] ∨ i.max ≠ []) ∧ (i.min ≠ [] → ∃ q, Reads round i.min q) ∧ (i.max ≠ [] → ∃ q, Reads round i.max q)

/-- The joint has position limits in the URDF. -/
def UJoint.PosLimit (u : UJoint) (l : ULimit) : Prop := u.limit = some l ∧ (u.type = .revolute ∨ u.type = .prismatic)

/-- `x` is a lower bound of positions: the one of the URDF, or the `min` of a position command interface. -/
def Lower (round : Rat → Option Rat) (u : UJoint) (cs : List Itf) (x : Rat) : Prop :=
  (∃ l, u.PosLimit l ∧ x = l.lower) ∨ ∃ i ∈ cs, i.name = .position ∧ i.Usable round ∧ Reads round i.min x

/-- `x` is an upper bound of positions. -/
def Upper (round : Rat → Option Rat) (u : UJoint) (cs : List Itf) (x : Rat) : Prop :=
  (∃ l, u.PosLimit l ∧ x = l.upper) ∨ ∃ i ∈ cs, i.name = .position ∧ i.Usable round ∧ Reads round i.max x

/-- `x` is given by an interface of the name `k` as a bound of absolute values: the absolute value of its `min`, or its `max`. -/
def TagBound (round : Rat → Option Rat) (k : IName) (cs : List Itf) (x : Rat) : Prop :=
  ∃ i ∈ cs, i.name = k ∧ i.Usable round ∧ ((∃ q, Reads round i.min q ∧ x = |q|) ∨ Reads round i.max x)

/-- `x` is a bound of velocities. -/
def Speed (round : Rat → Option Rat) (u : UJoint) (cs : List Itf) (x : Rat) : Prop :=
  (∃ l, u.limit = some l ∧ x = |l.velocity|) ∨ TagBound round .velocity cs x

/-- `x` is a bound of efforts. -/
def Force (round : Rat → Option Rat) (u : UJoint) (cs : List Itf) (x : Rat) : Prop :=
  (∃ l, u.limit = some l ∧ x = |l.effort|) ∨ TagBound round .effort cs x

/-- `m` is the greatest of the numbers in `S`, or `d` if there are none. -/
def Greatest (S : Rat → Prop) (d m : Rat) : Prop := (∀ x, S x → x ≤ m) ∧ (S m ∨ (m = d ∧ ∀ x, ¬ S x))

/-- `m` is the least of the numbers in `S`, or `d` if there are none. -/
def Least (S : Rat → Prop) (d m : Rat) : Prop := (∀ x, S x → m ≤ x) ∧ (S m ∨ (m = d ∧ ∀ x, ¬ S x))

/-- No command interface of that name has its limits disabled. -/
def NoneDisabled (k : IName) (cs : List Itf) : Prop := ∀ i ∈ cs, i.name = k → i.enable = true

/-- `i` is the last element with property `P`. -/
def LastWith (P : Itf → Prop) (cs : List Itf) (i : Itf) : Prop :=
  ∃ pre post, cs = pre ++ i :: post ∧ P i ∧ ∀ k ∈ post, ¬ P k

/-- The joint is acceptable in a tag with the joints `js`: it is in the URDF and not fixed; it says it mimics only if the URDF
says so; and unless it says it does not, a joint that mimics has no command interface and mimics a joint of the same tag. -/
def Acceptable (urdf : Nat → Option UJoint) (js : List Joint) (j : Joint) : Prop :=
  ∃ u, urdf j.name = some u ∧ u.type ≠ .fixed ∧ (u.mimic = none → j.mimic ≠ .true) ∧
    ∀ m, u.mimic = some m → j.mimic ≠ .false → j.cmds = [] ∧ ∃ k ∈ js, k.name = m.joint

/-- Joint number `i` of `js` follows joint number `k` as the URDF says. -/
def Follows (urdf : Nat → Option UJoint) (js : List Joint) (mj : MimicJoint) : Prop :=
  ∃ j u m t, js[mj.index]? = some j ∧ urdf j.name = some u ∧ u.mimic = some m ∧ j.mimic ≠ .false ∧
    js[mj.mimicked]? = some t ∧ t.name = m.joint ∧ (∀ k < mj.mimicked, ∀ t', js[k]? = some t' → t'.name ≠ m.joint) ∧
    mj.multiplier = m.multiplier ∧ mj.offset = m.offset

end Verif.Desc
