import Verif.Num.Near
import Verif.Num.TransmissionLemmas

/-!
# The transmissions in `double` arithmetic

The model of `Num/Transmission` is generic in the numbers; here they are `double`s with every operation rounded.
-/
namespace Verif
namespace Transm

/-- `double` with the operations of a rounding. -/
def Fl (_R : Rounding) : Type := Dbl

/-- `double` numbers as numbers of the transmissions (`value_ * reduction_` etc. in simple_transmission.hpp:251-311,
differential_transmission.hpp:431-579, four_bar_linkage_transmission.hpp:275-357). -/
instance (R : Rounding) : DecidableEq (Fl R) := inferInstanceAs (DecidableEq Dbl)
instance (R : Rounding) : Add (Fl R) := ⟨R.add⟩
instance (R : Rounding) : Sub (Fl R) := ⟨R.sub⟩
instance (R : Rounding) : Mul (Fl R) := ⟨R.mul⟩
instance (R : Rounding) : Div (Fl R) := ⟨R.div⟩
instance (R : Rounding) : Zero (Fl R) := ⟨Dbl.fin 0⟩
instance (R : Rounding) : OfNat (Fl R) 2 := ⟨Dbl.fin 2⟩

/-- A finite number. -/
def dbl (R : Rounding) (q : Rat) : Fl R := Dbl.fin q

/-- The number itself. -/
def Fl.val {R : Rounding} (x : Fl R) : Dbl := x

/-- A memory of finite numbers. -/
def Mem.fl (R : Rounding) (m : Mem Rat) : Mem (Fl R) := fun x => dbl R (m x)

/-- The transmission with the same (finite) parameters in `double`. -/
def Simple.fl (R : Rounding) (t : Simple Rat) : Simple (Fl R) :=
  { red := dbl R t.red, off := dbl R t.off, joint := t.joint, act := t.act }

/-- The transmission with the same (finite) parameters in `double`. -/
def Two.fl (R : Rounding) (t : Two Rat) : Two (Fl R) :=
  { ar0 := dbl R t.ar0, ar1 := dbl R t.ar1, jr0 := dbl R t.jr0, jr1 := dbl R t.jr1, off0 := dbl R t.off0, off1 := dbl R t.off1,
    joint := t.joint, act := t.act }

end Transm
end Verif
