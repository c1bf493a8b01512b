import Verif.Argv.Model
/-!
# The launch helpers (lu = controller_manager/controller_manager/launch_utils.py) and the shell between them and the spawner
-/
namespace Verif.Argv

/-- A Python value in the tables given to the helpers; `other`: an object of another type that counts as true. -/
inductive Py
  | none
  | bool (b : Bool)
  | str (s : Str)
  | list (l : List Str)
  | other
deriving DecidableEq, Repr

/-- The entry of one controller; `none`: the key is missing. -/
structure Table where
  paramFile : Py := .none
  loadOnly : Option Py := none
  inactive : Option Py := none
  rosArgs : Option Py := none
deriving DecidableEq, Repr

/-- The files of an entry (lu 184-196); `none` is the `ValueError`. -/
def fileWords : Py → Option (List Str)
  | .none | .bool false => some []
  | .str s => some (if s = [] then [] else [str "--param-file", s])
  | .list l => some (l.flatMap (fun f => [str "--param-file", f]))
  | _ => none

/-- lu 197-212: a flag. -/
def flagWords (opt : Str) : Option Py → Option (List Str)
  | none => some []
  | some (.bool b) => some (if b then [opt] else [])
  | some _ => none

/-- lu 213-220 -/
def rosWords : Option Py → Option (List Str)
  | none => some []
  | some (.str s) => some [str "--controller-ros-args", s]
  | some _ => none

/-- The words for one controller (lu 181-221). -/
def entryWords (e : Str × Table) : Option (List Str) := do
  let f ← fileWords e.2.paramFile
  let l ← flagWords (str "--load-only") e.2.loadOnly
  let i ← flagWords (str "--inactive") e.2.inactive
  let r ← rosWords e.2.rosArgs
  return [str "--controller", e.1] ++ f ++ l ++ i ++ r

/-- lu 152-238 `generate_spawner_launch_description`: the arguments of the spawner; `none`: it raises `ValueError`. -/
def launchTable : List (Str × Table) → List Str → Option (List Str)
  | [], extra => some extra
  | e :: r, extra => do
    let w ← entryWords e
    let t ← launchTable r extra
    return w ++ t

/-- An argument in a launch description: a text, or something that is worked out when it is launched (lu 56-80). -/
inductive Item | text (s : Str) | managerName | unloadFlag
deriving DecidableEq, Repr

/-- lu 23-103 `generate_controllers_spawner_launch_description`: the arguments of the spawner. The list `names` of the caller is not copied
(line 53), it becomes the very list of arguments: the result is also what the caller's variable holds afterwards. -/
def launchNames (names : List Item) (files : List Str) (extra : List Item) : List Item :=
  names ++ [.text (str "--controller-manager"), .managerName] ++
    ((files.filter (· ≠ [])).flatMap (fun f => [.text (str "--param-file"), .text f])) ++ [.unloadFlag] ++ extra

/-- The values at launch time of `controller_manager_name` and `unload_on_kill` (lu 42-51, 70-80). -/
structure LaunchArgs where
  manager : Str := str "controller_manager"
  unload : Str := str "false"

def Item.eval (a : LaunchArgs) : Item → Str
  | .text s => s
  | .managerName => a.manager
  | .unloadFlag => if a.unload = str "true" then str "--unload-on-kill" else []

/-- lu 106-136 `generate_controllers_spawner_launch_description_from_dict`: all files for all controllers. -/
def launchDict : List (Str × Py) → Option (List Str × List Str)
  | [] => some ([], [])
  | (n, v) :: r => do
    let (ns, fs) ← launchDict r
    let f ← (match v with
      | .none | .bool false => some []
      | .str s => some (if s = [] then [] else [s])
      | .list l => some l
      | _ => none)
    return (n :: ns, f ++ fs)

/-- What the shell makes of a command line: words separated by blanks, quotes protect. `cur`: the word so far, `q`: the quote that is open.
Simplified: no variables, globs, escapes, comments or operators. -/
def shellGo : Option Str → Option Char → Str → List Str
  | none, _, [] => []
  | some w, _, [] => [w]
  | cur, none, c :: r =>
    if c = ' ' ∨ c = '\t' ∨ c = '\n' then (match cur with | none => shellGo none none r | some w => w :: shellGo none none r)
    else if c = '\'' ∨ c = '"' then shellGo (some (cur.getD [])) (some c) r
    else shellGo (some (cur.getD [] ++ [c])) none r
  | cur, some q, c :: r =>
    if c = q then shellGo cur none r else shellGo (some (cur.getD [] ++ [c])) (some q) r

def join : List Str → Str
  | [] => []
  | [w] => w
  | w :: r => w ++ ' ' :: join r

/-- `Node(..., shell=True)` (lu 90-96, 226-232): launch joins the arguments with blanks and hands them to the shell (an assumption about launch; its
issue 290 that line 72 refers to is about it). -/
def shell (args : List Str) : List Str := shellGo none none (join args)

end Verif.Argv
