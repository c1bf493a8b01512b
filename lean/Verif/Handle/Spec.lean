import Verif.Handle.Model
/-!
# What handles should be: registers

A handle is a register of its data type, or it shows a variable of the hardware component, or it shows nothing. Copying copies
the register, moving hands it over.
-/
namespace Verif.Hdl
open Verif (Dbl)

/-- What a handle stands for. -/
inductive Reg
  /-- a register of its own, of type `t`, holding `v` -/
  | own (t : Ty) (v : t.Val)
  /-- the hardware's variable `c` -/
  | shared (c : Nat)
  /-- nothing -/
  | unset
  deriving DecidableEq

/-- The handles that are alive, and the hardware's variables. -/
structure Regs where
  reg : Nat → Option Reg
  cell : Nat → Dbl

/-- No handles. -/
def Regs.empty (cells : Nat → Dbl) : Regs := { reg := fun _ => none, cell := cells }

/-- The same registers with another one at `h`. -/
def Regs.put (s : Regs) (h : Nat) (g : Option Reg) : Regs := { s with reg := fun h' => if h' = h then g else s.reg h' }

/-- The variable `c` gets the value `x`. -/
def Regs.assign (s : Regs) (c : Nat) (x : Dbl) : Regs := { s with cell := fun c' => if c' = c then x else s.cell c' }

/-- Reading with type `T`: the value if the types agree, a boolean also as the number 0 or 1. -/
def Regs.read (s : Regs) (T : Ty) : Reg → R T.Val
  | .own t v =>
    if h : t = T then .ok (h ▸ v)
    else match T, t, v with
      | .double, .bool, b => .ok (ofBool b)
      | _, _, _ => .thrown
  | .shared c => match T with
    | .double => .ok (s.cell c)
    | _ => .thrown
  | .unset => .thrown

/-- Writing with type `T`: only with the very type of the handle. -/
def Regs.write (s : Regs) (h : Nat) (T : Ty) (x : T.Val) : Reg → R Unit × Regs
  | .own t _ => if t = T then (.ok (), s.put h (some (.own T x))) else (.thrown, s)
  | .shared c => match T, x with
    | .double, x => (.ok (), s.assign c x)
    | _, _ => (.thrown, s)
  | .unset => (.thrown, s)

/-- The register a construction makes: the initial value of the text, nothing if it is not one. -/
def register (r : Rounding) (type text : List Char) : Option Reg :=
  match tyOf type with
  | none => none
  | some t => match initial r t text with
    | .ok v => some (.own t v)
    | _ => none

/-- One operation on registers. -/
def Regs.step (r : Rounding) (s : Regs) : Op → Obs × Regs
  | .make h ty text => match s.reg h with
    | some _ => (.nonsense, s)
    | none => match register r ty text with
      | some g => (.done, s.put h (some g))
      | none => (.threw, s)
  | .wrap h c => match s.reg h with
    | some _ => (.nonsense, s)
    | none => (.done, s.put h (some (.shared c)))
  | .copyNew h src => match s.reg h, s.reg src with
    | none, some g => (.done, s.put h (some g))
    | _, _ => (.nonsense, s)
  | .copyTo h src => match s.reg h, s.reg src with
    | some _, some g => (.done, s.put h (some g))
    | _, _ => (.nonsense, s)
  | .moveNew h src => match s.reg h, s.reg src with
    | none, some g => (.done, (s.put h (some g)).put src (some .unset))
    | _, _ => (.nonsense, s)
  | .moveTo h src => match s.reg h, s.reg src with
    | some g, some g' => (.done, (s.put h (some g')).put src (some g))
    | _, _ => (.nonsense, s)
  | .destroy h => match s.reg h with
    | some _ => (.done, s.put h none)
    | none => (.nonsense, s)
  | .set h T x got => match s.reg h with
    | some g => if got then ((.wrote (s.write h T x g).1), (s.write h T x g).2) else (.wrote .missed, s)
    | none => (.nonsense, s)
  | .get h T got => match s.reg h with
    | some g => (.read T (if got then s.read T g else .missed), s)
    | none => (.nonsense, s)
  | .poke c x => (.done, s.assign c x)

/-- A program on registers. -/
def Regs.run (r : Rounding) : Regs → List Op → List Obs × Regs
  | s, [] => ([], s)
  | s, op :: ops =>
    let q := s.step r op
    let rest := Regs.run r q.2 ops
    (q.1 :: rest.1, rest.2)

/-- A register of type `double` of its own. -/
def Reg.ownDouble : Option Reg → Bool
  | some (.own .double _) => true
  | _ => false

/-- The operation moves no handle that has a `double` of its own, and nothing onto itself. -/
def Regs.fine (s : Regs) : Op → Bool
  | .moveNew _ src => !Reg.ownDouble (s.reg src)
  | .moveTo h src => h != src && !Reg.ownDouble (s.reg src) && !Reg.ownDouble (s.reg h)
  | _ => true

/-- All operations of the program are such. -/
def Regs.allFine (r : Rounding) : Regs → List Op → Bool
  | _, [] => true
  | s, op :: ops => s.fine op && Regs.allFine r (s.step r op).2 ops

end Verif.Hdl
