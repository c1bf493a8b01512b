import Mathlib.Algebra.Order.Field.Rat
import Mathlib.Data.Rat.Lemmas
/-!
# `double` as used by the limiters and the statistics

NaN, the two infinities and exact rational numbers. Not modelled: rounding, overflow to infinity of finite operations, and
the sign of zero (so `x / 0` is NaN for `x = 0` and an infinity with the sign of `x` otherwise, as for a positive zero).
-/
namespace Verif

/-- A `double` (IEEE 754 binary64 without rounding and without the sign of zero). -/
inductive Dbl
  | nan
  | ninf
  | fin (q : Rat)
  | pinf
  deriving DecidableEq, Repr

namespace Dbl

instance : OfNat Dbl n := ⟨.fin (n : Rat)⟩

/-- `a < b` of C++ (false if either is NaN). -/
def lt : Dbl → Dbl → Bool
  | nan, _ => false
  | _, nan => false
  | ninf, ninf => false
  | ninf, _ => true
  | fin a, fin b => decide (a < b)
  | fin _, pinf => true
  | fin _, ninf => false
  | pinf, _ => false

/-- `a <= b` of C++ (false if either is NaN). -/
def le : Dbl → Dbl → Bool
  | nan, _ => false
  | _, nan => false
  | ninf, _ => true
  | fin a, fin b => decide (a ≤ b)
  | fin _, pinf => true
  | fin _, ninf => false
  | pinf, pinf => true
  | pinf, _ => false

/-- `std::isnan`. -/
def isNan : Dbl → Bool
  | nan => true
  | _ => false

/-- `std::isfinite`. -/
def isFinite : Dbl → Bool
  | fin _ => true
  | _ => false

/-- `std::isinf`. -/
def isInf : Dbl → Bool
  | pinf => true
  | ninf => true
  | _ => false

/-- Unary minus. -/
def neg : Dbl → Dbl
  | nan => nan
  | ninf => pinf
  | fin a => fin (-a)
  | pinf => ninf

/-- `+`. -/
def add : Dbl → Dbl → Dbl
  | nan, _ => nan
  | _, nan => nan
  | fin a, fin b => fin (a + b)
  | fin _, x => x
  | x, fin _ => x
  | ninf, ninf => ninf
  | pinf, pinf => pinf
  | ninf, pinf => nan
  | pinf, ninf => nan

/-- Binary `-`. -/
def sub (a b : Dbl) : Dbl := add a (neg b)

/-- Infinity with the sign of a nonzero rational times a sign. -/
def infOf (positive : Bool) : Dbl := if positive then pinf else ninf

/-- `*`. -/
def mul : Dbl → Dbl → Dbl
  | nan, _ => nan
  | _, nan => nan
  | fin a, fin b => fin (a * b)
  | fin a, pinf => if a = 0 then nan else infOf (decide (0 < a))
  | fin a, ninf => if a = 0 then nan else infOf (decide (a < 0))
  | pinf, fin a => if a = 0 then nan else infOf (decide (0 < a))
  | ninf, fin a => if a = 0 then nan else infOf (decide (a < 0))
  | pinf, pinf => pinf
  | ninf, ninf => pinf
  | pinf, ninf => ninf
  | ninf, pinf => ninf

/-- `/`. -/
def div : Dbl → Dbl → Dbl
  | nan, _ => nan
  | _, nan => nan
  | fin a, fin b => if b = 0 then (if a = 0 then nan else infOf (decide (0 < a))) else fin (a / b)
  | fin _, _ => fin 0
  | pinf, fin b => infOf (decide (0 ≤ b))
  | ninf, fin b => infOf (decide (b < 0))
  | _, _ => nan

/-- `std::fabs`. -/
def abs : Dbl → Dbl
  | nan => nan
  | ninf => pinf
  | fin a => fin |a|
  | pinf => pinf

/-- `std::min(a, b)`: `(b < a) ? b : a`. -/
def min (a b : Dbl) : Dbl := if lt b a then b else a

/-- `std::max(a, b)`: `(a < b) ? b : a`. -/
def max (a b : Dbl) : Dbl := if lt a b then b else a

/-- `std::clamp(v, lo, hi)`: `(v < lo) ? lo : (hi < v) ? hi : v`. Undefined behaviour if `hi < lo`; this is what every
standard library computes. -/
def clamp (v lo hi : Dbl) : Dbl := if lt v lo then lo else if lt hi v then hi else v

instance : Neg Dbl := ⟨neg⟩
instance : Add Dbl := ⟨add⟩
instance : Sub Dbl := ⟨sub⟩
instance : Mul Dbl := ⟨mul⟩
instance : Div Dbl := ⟨div⟩

@[simp] theorem neg_fin (a : Rat) : (-(fin a) : Dbl) = fin (-a) := rfl
@[simp] theorem add_fin (a b : Rat) : (fin a + fin b : Dbl) = fin (a + b) := rfl
@[simp] theorem sub_fin (a b : Rat) : (fin a - fin b : Dbl) = fin (a - b) := by
  show add (fin a) (neg (fin b)) = _
  simp [neg, add, sub_eq_add_neg]
@[simp] theorem mul_fin (a b : Rat) : (fin a * fin b : Dbl) = fin (a * b) := rfl
@[simp] theorem lt_fin (a b : Rat) : lt (fin a) (fin b) = decide (a < b) := rfl
@[simp] theorem le_fin (a b : Rat) : le (fin a) (fin b) = decide (a ≤ b) := rfl
@[simp] theorem abs_fin (a : Rat) : abs (fin a) = fin |a| := rfl
theorem div_fin (a b : Rat) (h : b ≠ 0) : (fin a / fin b : Dbl) = fin (a / b) := by
  show div (fin a) (fin b) = _
  simp [div, h]

end Dbl
end Verif
