import Verif.Num.Dbl
import Verif.Text.Parse
/-!
# Handles: the values behind state and command interfaces

`hardware_interface::Handle` (handle.hpp), with the storage of each object, the pointer `value_ptr_` and the copy and move
operations, and the retrying accessors of `LoanedCommandInterface` and `LoanedStateInterface`.

Simplified: names and logging are left out; a floating-point number is a `Dbl` (an exact number, NaN or an infinity), an integer
is an `Int` whose range is that of the C++ type of the argument; whether an access obtains the lock is an input (`got`), each
access that obtains it is atomic. Reading or writing a `double` whose lifetime has ended is the outcome `ub`.
-/
namespace Verif.Hdl
open Verif (Dbl)

/-- The data types a handle can have (hardware_info.hpp:158-170; `UNKNOWN` is rejected by the constructor). -/
inductive Ty
  | double
  | float
  | bool
  | uint8
  | int8
  | uint16
  | int16
  | uint32
  | int32
  deriving DecidableEq, Repr

/-- The values of a type (the alternatives of `HANDLE_DATATYPE`, hardware_info.hpp:153-154). -/
def Ty.Val : Ty → Type
  | .double => Dbl
  | .float => Dbl
  | .bool => Bool
  | _ => Int

instance : (t : Ty) → DecidableEq t.Val
  | .double => inferInstanceAs (DecidableEq Dbl)
  | .float => inferInstanceAs (DecidableEq Dbl)
  | .bool => inferInstanceAs (DecidableEq Bool)
  | .uint8 => inferInstanceAs (DecidableEq Int)
  | .int8 => inferInstanceAs (DecidableEq Int)
  | .uint16 => inferInstanceAs (DecidableEq Int)
  | .int16 => inferInstanceAs (DecidableEq Int)
  | .uint32 => inferInstanceAs (DecidableEq Int)
  | .int32 => inferInstanceAs (DecidableEq Int)

/-- The content of the variant `value_`; `none` is `std::monostate`. -/
abbrev Var := Option (Sigma Ty.Val)

/-- What `value_ptr_` may point to: nothing, a variable of the hardware component (deprecated constructor, handle.hpp:66-73),
or the storage of some handle object. -/
inductive Ptr
  | null
  | cell (c : Nat)
  | own (h : Nat)
  deriving DecidableEq, Repr

/-- The members of a `Handle` object (handle.hpp:617-626). -/
structure Obj where
  val : Var := none
  ty : Ty := .double
  ptr : Ptr := .null
  deriving DecidableEq

/-- All handle objects that are alive, and the variables of the hardware components. -/
structure Mem where
  obj : Nat → Option Obj
  cell : Nat → Dbl

/-- What an access yields. -/
inductive R (α : Type)
  /-- it succeeded -/
  | ok (a : α)
  /-- the lock was not obtained: `std::nullopt` or `false` -/
  | missed
  /-- it threw -/
  | thrown
  /-- undefined behaviour -/
  | ub
  deriving DecidableEq, Repr

/-- No objects; the hardware's variables hold anything. -/
def Mem.empty (cells : Nat → Dbl) : Mem := { obj := fun _ => none, cell := cells }

/-- The memory after storing an object. -/
def Mem.put (m : Mem) (h : Nat) (o : Option Obj) : Mem := { m with obj := fun h' => if h' = h then o else m.obj h' }

/-- `HandleDataType(const std::string &)` (hardware_info.hpp:174-216); `none` is `UNKNOWN`. -/
def tyOf (s : List Char) : Option Ty :=
  if s = "double".toList then some .double
  else if s = "bool".toList then some .bool
  else if s = "float32".toList then some .float
  else if s = "uint8".toList then some .uint8
  else if s = "int8".toList then some .int8
  else if s = "uint16".toList then some .uint16
  else if s = "int16".toList then some .int16
  else if s = "uint32".toList then some .uint32
  else if s = "int32".toList then some .int32
  else none

/-- `std::numeric_limits<T>::max()` of an integer type. -/
def Ty.hi : Ty → Int
  | .uint8 => 255
  | .int8 => 127
  | .uint16 => 65535
  | .int16 => 32767
  | .uint32 => 4294967295
  | .int32 => 2147483647
  | _ => 0

/-- `std::numeric_limits<T>::min()` of an integer type. -/
def Ty.lo : Ty → Int
  | .int8 => -128
  | .int16 => -32768
  | .int32 => -2147483648
  | _ => 0

/-- How exact decimal numbers become a `double` and a `float` (`none` where they are out of range), see `Text.stod`. -/
structure Rounding where
  double : Rat → Option Dbl
  float : Rat → Option Dbl

/-- What the constructor stores (handle.hpp:85-233): a default if there is no text, otherwise the value of the text. -/
def initial (r : Rounding) (t : Ty) (text : List Char) : Text.Out t.Val :=
  match t with
  | .double => if text = [] then .ok Dbl.nan else Text.stod r.double text
  | .float => if text = [] then .ok Dbl.nan else Text.stod r.float text
  | .bool => if text = [] then .ok false else Text.parseBool text
  | .uint8 => if text = [] then .ok (Ty.hi .uint8) else (match Text.stoui (Ty.hi .uint8).toNat text with
      | .ok n => .ok (n : Int) | .invalid => .invalid | .range => .range | .ub => .ub)
  | .uint16 => if text = [] then .ok (Ty.hi .uint16) else (match Text.stoui (Ty.hi .uint16).toNat text with
      | .ok n => .ok (n : Int) | .invalid => .invalid | .range => .range | .ub => .ub)
  | .uint32 => if text = [] then .ok (Ty.hi .uint32) else (match Text.stoui (Ty.hi .uint32).toNat text with
      | .ok n => .ok (n : Int) | .invalid => .invalid | .range => .range | .ub => .ub)
  | .int8 => if text = [] then .ok (Ty.hi .int8) else Text.stoi (Ty.lo .int8) (Ty.hi .int8) text
  | .int16 => if text = [] then .ok (Ty.hi .int16) else Text.stoi (Ty.lo .int16) (Ty.hi .int16) text
  | .int32 => if text = [] then .ok (Ty.hi .int32) else Text.stoi (Ty.lo .int32) (Ty.hi .int32) text

/-- `std::get_if<double>(&value_)` of the object `h` (handle.hpp:93, 596). -/
def ptrInto (h : Nat) (v : Var) : Ptr :=
  match v with
  | some ⟨.double, _⟩ => .own h
  | _ => .null

/-- The object built by the constructor from a data type and an initial value (handle.hpp:75-242). -/
def construct (r : Rounding) (h : Nat) (type text : List Char) : Option Obj :=
  match tyOf type with
  | none => none
  | some t => match initial r t text with
    | .ok v => some { val := some ⟨t, v⟩, ty := t, ptr := ptrInto h (some ⟨t, v⟩) }
    | _ => none

/-- `copy` into the object `h` (handle.hpp:582-599). -/
def copyOf (h : Nat) (src : Obj) : Obj :=
  { val := src.val, ty := src.ty, ptr := if src.val.isNone then src.ptr else ptrInto h src.val }

/-- `std::get<T>(value_)`; `none` if it holds something else (`std::bad_variant_access`). -/
def pick (T : Ty) (v : Var) : Option T.Val :=
  match v with
  | some ⟨t, x⟩ => if h : t = T then some (h ▸ x) else none
  | none => none

/-- Reading the double a pointer points to; `none` if there is no such double. -/
def Mem.load (m : Mem) : Ptr → Option Dbl
  | .null => none
  | .cell c => some (m.cell c)
  | .own h => match m.obj h with
    | some o => pick .double o.val
    | none => none

/-- Writing the double a pointer points to; `none` if there is no such double. -/
def Mem.store (m : Mem) (p : Ptr) (x : Dbl) : Option Mem :=
  match p with
  | .null => none
  | .cell c => some { m with cell := fun c' => if c' = c then x else m.cell c' }
  | .own h => match m.obj h with
    | some o => match pick .double o.val with
      | some _ => some (m.put h (some { o with val := some ⟨.double, x⟩ }))
      | none => none
    | none => none

/-- `static_cast<double>` of a bool. -/
def ofBool (b : Bool) : Dbl := if b then 1 else 0

/-- `get_optional<T>` and `get_value` (handle.hpp:322-371, 516-580). -/
def Mem.get (m : Mem) (h : Nat) (T : Ty) (got : Bool) : R T.Val :=
  match m.obj h with
  | none => .ub
  | some o =>
    if !got then .missed
    else match T with
      | .double => match o.ty with
        | .double => match o.ptr with
          | .null => .thrown
          | p => match m.load p with
            | some x => .ok x
            | none => .ub
        | .bool => match pick .bool o.val with
          | some b => .ok (ofBool b)
          | none => .thrown
        | _ => .thrown
      | T => match pick T o.val with
        | some x => .ok x
        | none => .thrown

/-- `set_value` (handle.hpp:430-497). -/
def Mem.set (m : Mem) (h : Nat) (T : Ty) (x : T.Val) (got : Bool) : R Unit × Mem :=
  match m.obj h with
  | none => (.ub, m)
  | some o =>
    if !got then (.missed, m)
    else match T, x with
      | .double, x => match o.ptr with
        | .null => (.thrown, m)
        | p => match m.store p x with
          | some m' => (.ok (), m')
          | none => (.ub, m)
      | T, x => match pick T o.val with
        | some _ => (.ok (), m.put h (some { o with val := some ⟨T, x⟩ }))
        | none => (.thrown, m)

/-! ## Programs -/

/-- What a program does with handles. -/
inductive Op
  /-- construct from a data type and an initial value (handle.hpp:75) -/
  | make (h : Nat) (type text : List Char)
  /-- construct around a variable of the hardware component (handle.hpp:67) -/
  | wrap (h c : Nat)
  /-- copy construction (handle.hpp:266) -/
  | copyNew (h src : Nat)
  /-- copy assignment (handle.hpp:268-275) -/
  | copyTo (h src : Nat)
  /-- move construction (handle.hpp:277) -/
  | moveNew (h src : Nat)
  /-- move assignment (handle.hpp:279-283) -/
  | moveTo (h src : Nat)
  /-- the end of an object's lifetime (handle.hpp:285) -/
  | destroy (h : Nat)
  /-- `set_value` -/
  | set (h : Nat) (T : Ty) (x : T.Val) (got : Bool)
  /-- `get_optional` -/
  | get (h : Nat) (T : Ty) (got : Bool)
  /-- the hardware component assigns to its own variable -/
  | poke (c : Nat) (x : Dbl)

/-- What a program sees of an operation. -/
inductive Obs
  /-- done -/
  | done
  /-- it threw -/
  | threw
  /-- the answer of `set_value` -/
  | wrote (r : R Unit)
  /-- the answer of `get_optional` -/
  | read (T : Ty) (r : R T.Val)
  /-- undefined behaviour -/
  | broken
  /-- not a C++ program: the object does not exist, or exists already -/
  | nonsense
  deriving DecidableEq

/-- One operation (handle.hpp:266-283 for copies and moves; `swap` 601-610). A moved-from new object is default constructed. -/
def step (r : Rounding) (m : Mem) : Op → Obs × Mem
  | .make h ty text =>
    if (m.obj h).isSome then (.nonsense, m)
    else match construct r h ty text with
      | some o => (.done, m.put h (some o))
      | none => (.threw, m)
  | .wrap h c => if (m.obj h).isSome then (.nonsense, m) else (.done, m.put h (some { ptr := .cell c }))
  | .copyNew h src =>
    match m.obj h, m.obj src with
    | none, some o => (.done, m.put h (some (copyOf h o)))
    | _, _ => (.nonsense, m)
  | .copyTo h src =>
    match m.obj h, m.obj src with
    | some _, some o => if h = src then (.done, m) else (.done, m.put h (some (copyOf h o)))
    | _, _ => (.nonsense, m)
  | .moveNew h src =>
    match m.obj h, m.obj src with
    | none, some o => (.done, (m.put h (some o)).put src (some {}))
    | _, _ => (.nonsense, m)
  | .moveTo h src =>
    match m.obj h, m.obj src with
    | some o, some o' => if h = src then (.broken, m) else (.done, (m.put h (some o')).put src (some o))
    | _, _ => (.nonsense, m)
  | .destroy h => if (m.obj h).isSome then (.done, m.put h none) else (.nonsense, m)
  | .set h T x got =>
    if (m.obj h).isSome then
      let q := m.set h T x got
      (.wrote q.1, q.2)
    else (.nonsense, m)
  | .get h T got => if (m.obj h).isSome then (.read T (m.get h T got), m) else (.nonsense, m)
  | .poke c x => (.done, { m with cell := fun c' => if c' = c then x else m.cell c' })

/-- A program: everything it sees, and the memory at the end. -/
def run (r : Rounding) : Mem → List Op → List Obs × Mem
  | m, [] => ([], m)
  | m, op :: ops =>
    let q := step r m op
    let rest := run r q.2 ops
    (q.1 :: rest.1, rest.2)

/-! ## Loaned interfaces -/

/-- The loop of `LoanedCommandInterface::set_value` (loaned_command_interface.hpp:100-116) on an interface without limiter: one
entry of the list for each attempt, `nr` the 32-bit counter of failed attempts; `none` as long as it is still trying. -/
def loanedSet (h : Nat) (T : Ty) (x : T.Val) (maxTries : Nat) : Nat → List Bool → Mem → Option (R Unit) × Mem
  | _, [], m => (none, m)
  | nr, got :: rest, m =>
    match m.set h T x got with
    | (.missed, m') =>
      let nr' := (nr + 1) % 4294967296
      if nr' = maxTries then (some .missed, m') else loanedSet h T x maxTries nr' rest m'
    | (q, m') => (some q, m')

/-- The loop of `get_optional` of the loaned interfaces (loaned_command_interface.hpp:136-154, loaned_state_interface.hpp:97-115):
`none` as long as it is still trying. -/
def loanedGet (m : Mem) (h : Nat) (T : Ty) (maxTries : Nat) : Nat → List Bool → Option (R T.Val)
  | _, [] => none
  | nr, got :: rest =>
    match m.get h T got with
    | .missed =>
      let nr' := (nr + 1) % 4294967296
      if nr' < maxTries then loanedGet m h T maxTries nr' rest else some .missed
    | q => some q

end Verif.Hdl
