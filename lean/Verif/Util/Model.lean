/-!
# The helper functions for containers and texts

`hardware_interface/include/hardware_interface/helpers.hpp` (namespace `ros2_control`), on vectors and texts. For maps `has_item` and the functions
over it look at the keys, which is the same on the list of the keys.
-/
namespace Verif
namespace Util

variable {T : Type} [DecidableEq T]

/-- helpers.hpp:37-60 (`std::find`): where the item is first, the size of the container if it is not there. -/
def find (v : List T) (x : T) : Nat :=
  match v with
  | [] => 0
  | a :: t => if a = x then 0 else find t x + 1

/-- helpers.hpp:69-72 -/
def hasItem (v : List T) (x : T) : Bool := find v x ≠ v.length

/-- helpers.hpp:80-86 -/
def addItem (v : List T) (x : T) : List T := if hasItem v x then v else v ++ [x]

/-- helpers.hpp:94-100 -/
def addItems (v items : List T) : List T := items.foldl addItem v

/-- helpers.hpp:110-119: `erase` at the place found. -/
def removeItem (v : List T) (x : T) : List T × Bool :=
  if find v x ≠ v.length then (v.eraseIdx (find v x), true) else (v, false)

/-- helpers.hpp:128-147 -/
def hasAny (v items : List T) : Bool := items.any (hasItem v)

/-- helpers.hpp:156-175 -/
def hasAll (v items : List T) : Bool := items.all (hasItem v)

/-- `std::adjacent_find` reaches the end. -/
def noAdjacent : List T → Bool
  | a :: b :: t => if a = b then false else noAdjacent (b :: t)
  | _ => true

/-- helpers.hpp:186-190; `sorted` is what `std::sort` makes of the copy. -/
def isUnique (sorted : List T → List T) (v : List T) : Bool := noAdjacent (sorted v)

/-- helpers.hpp:199 -/
def isWs (c : Char) : Bool := c = ' ' || c = '\t' || c = '\n' || c = '\r' || c = '\x0c' || c = '\x0b'

/-- `find_first_not_of` from position `i`; `none`: `npos`. -/
def firstNot : List Char → Nat → Option Nat
  | [], _ => none
  | c :: t, i => if isWs c then firstNot t (i + 1) else some i

/-- `find_last_not_of` with the best so far. -/
def lastNot : List Char → Nat → Nat → Nat
  | [], _, best => best
  | c :: t, i, best => if isWs c then lastNot t (i + 1) best else lastNot t (i + 1) i

/-- helpers.hpp:197-207: `substr(start, end - start + 1)`. -/
def strip (s : List Char) : List Char :=
  match firstNot s 0 with
  | none => []
  | some start => (s.drop start).take (lastNot s 0 0 - start + 1)

end Util
end Verif
