/-!
# The helpers for tests of a running system

`controller_manager/controller_manager/test_utils.py` (tu). What the node and the controller manager answer is an input: one list per turn of a
polling loop, as many as there are before the time is over.
-/
namespace Verif
namespace Check

abbrev Str := List Char

def str (s : String) : Str := s.toList

/-- The polling loops (tu 53-55, 87-92, 107-115): `while` there is time (an observation left) and something is missing, look. `see o c`: the
observation shows `c`. Returns what has been found. -/
def poll {O : Type} (see : O → Str → Bool) (want : List Str) : List O → List Str → List Str
  | [], found => found
  | o :: os, found =>
    if want.all (fun c => decide (c ∈ found)) then found
    else poll see want os (found ++ want.filter (see o))

/-- tu 38-56: `obs` are the answers of `get_node_names`. -/
def nodeRunning (obs : List (List Str)) (name : Str) : Bool :=
  decide (name ∈ poll (fun o c => decide (c ∈ o)) [name] obs [])

/-- tu 77-85: the namespace in which the nodes of the controllers are looked for. -/
def nsApi (ns : Str) : Str :=
  if ns = [] then ['/']
  else
    let a := if ns.head? = some '/' then ns else '/' :: ns
    if ns.getLast? = some '/' then a.dropLast else a

/-- tu 99-106: the name of the controller manager. -/
def cmOf (ns : Str) : Str :=
  if ns = [] then str "controller_manager"
  else if ns.getLast? = some '/' then ns ++ str "controller_manager"
  else ns ++ '/' :: str "controller_manager"

/-- tu 107-115: as `poll`, but a controller manager without controllers, or one that does not answer (`none`), is a failure at once. The inner
loop marks for each listed controller the name it has, if it is in the state. -/
def pollLists (state : Str) (want : List Str) : List (Option (List (Str × Str))) → List Str → Option (List Str)
  | [], found => some found
  | l :: ls, found =>
    if want.all (fun c => decide (c ∈ found)) then some found
    else match l with
      | none => none
      | some [] => none
      | some cs => pollLists state want ls (found ++ (cs.filter (fun c => decide (c.1 ∈ want ∧ c.2 = state))).map Prod.fst)

/-- tu 59-119: does `check_controllers_running` pass? `nodes`: the answers of `get_node_names_and_namespaces`; `lists`: those of the controller
manager, names and states. -/
def controllersRunning (nodes : List (List (Str × Str))) (lists : List (Option (List (Str × Str)))) (want : List Str) (ns state : Str) : Bool :=
  if want.all (fun c => decide (c ∈ poll (fun o c => o.any (fun n => decide (n.1 = c ∧ n.2 = nsApi ns))) want nodes [])) then
    match pollLists state want lists [] with
    | none => false
    | some found => want.all (fun c => decide (c ∈ found))
  else false

/-- tu 122-141: does `check_if_js_published` pass, with the names of the first message (`none`: no message in 20 s)? -/
def jsPublished (msg : Option (List Str)) (names : List Str) : Bool :=
  match msg with
  | none => false
  | some m => decide (m.length = names.length) && (m.all (fun n => decide (n ∈ names)) && names.all (fun n => decide (n ∈ m)))

end Check
end Verif
