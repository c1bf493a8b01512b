import Verif.Core.Lemmas
/-!
# Execution order and chain groups

`update_list_with_controller_chain`, `get_full_chain_spec` and
`build_controller_full_chain_map_cache` of controller_manager/src/controller_manager.cpp, as
functions of the two link tables `foll` / `prec` (`following_controllers`,
`preceding_controllers` of `controller_chain_spec_`).
-/
namespace Verif

namespace Chain

/-- controller_manager.cpp:4827-4852: the insertion position. Iterators are indices; `end()` is the
length. Following controllers already in the list pull the position to the front, then preceding
ones push it to the back. -/
def insertPos (foll prec : Name → List Name) (l : List Name) (n : Name) (start : Nat) : Nat :=
  let p1 := (foll n).foldl (fun p c => if c ∈ l ∧ l.idxOf c < p then l.idxOf c else p) start
  (prec n).foldl (fun p c => if c ∈ l ∧ p < l.idxOf c then l.idxOf c else p) p1

/-- controller_manager.cpp:4817-4888 `update_list_with_controller_chain`. `pos` is the iterator handed
in. `List.insertIdx` drops the element when the index is beyond the end; in the code that would be
an insertion at an invalid iterator. The recursion is on `fuel`, which bounds its depth (every
nested call that recurses further has inserted a new name). -/
def insertChain (foll prec : Name → List Name) :
    Nat → List Name → Name → Nat → Bool → List Name
  | 0, l, _, _, _ => l
  | fuel + 1, l, n, pos, append =>
    if n ∈ l then l
    else
      let p := insertPos foll prec l n pos
      let l1 := l.insertIdx (if append then p + 1 else p) n
      let l2 := (foll n).foldl (fun l f => insertChain foll prec fuel l f (l.idxOf n) true) l1
      (prec n).foldl (fun l f => insertChain foll prec fuel l f (l.idxOf n) false) l2

/-- controller_manager.cpp:1783-1792: the loop over the keys of the unordered map, in the (arbitrary)
iteration order `keys`. -/
def orderAll (foll prec : Name → List Name) (fuel : Nat) (keys : List Name) : List Name :=
  keys.foldl (fun l k => if k ∈ l then l else insertChain foll prec fuel l k l.length false) []

/-- controller_manager.cpp:452-480 `get_full_chain_spec`; `keys` are the keys of the map. -/
def fullChain (foll prec : Name → List Name) (keys : List Name) : Nat → Name → List Name → List Name
  | 0, _, acc => acc
  | fuel + 1, n, acc =>
    if n ∈ keys then
      let a1 := (foll n).foldl
        (fun acc f => if f ∈ acc then acc else fullChain foll prec keys fuel f acc) (addItem acc n)
      (prec n).foldl
        (fun acc f => if f ∈ acc then acc else fullChain foll prec keys fuel f acc) a1
    else acc

/-- controller_manager.cpp:482-496 `build_controller_full_chain_map_cache`, one entry. -/
def group (foll prec : Name → List Name) (keys : List Name) (n : Name) : List Name :=
  fullChain foll prec keys (keys.length + 1) n (addItem [] n)

end Chain
end Verif
