/-!
# Parameter files of controllers (C70)

From the files on the spawner's command line to the arguments of the controller's node.

* `/repo/controller_manager/controller_manager/spawner.py` ("sp"): 318-343 collecting `--params-file`, 363-375 merging and existence check, 455-487 use;
* `/repo/controller_manager/controller_manager/controller_manager_services.py` ("cms"): 342-377, 380-432, 435-520;
* `/repo/controller_manager/src/controller_manager.cpp` ("cm"): 1322-1384 (parameters read when a controller is loaded), 1388-1411 (`type`),
  4966-5015 `determine_controller_node_options`.

Simplified: a file is its parsed YAML document (`yaml.safe_load` is not modelled); a value that is set as a parameter arrives unchanged
(`str(value)` and `get_parameter_value` of ros2param are not modelled); `argparse` is not modelled (its result is `Cmd`).
-/
namespace Verif.Params

/-- A YAML value as `yaml.safe_load` returns it: Python `None`, `bool`, number, `str`, `list`, `dict` (a `dict` has each key once: the lookup
takes the first). Simplified: keys that are not strings are left out, no key looked for is one. -/
inductive Y
  | null
  | bool (b : Bool)
  | num (n : Int)
  | str (s : String)
  | seq (l : List Y)
  | map (m : List (String × Y))

/-- Python exceptions: `TypeError`, `KeyError`, `RuntimeError` ("not a valid ROS parameter file", cms 413-418), `FileNotFoundError` (cms 348,
sp 373), `ValueError` (sp 334). -/
inductive Err | type | key | invalid | notFound | value
  deriving DecidableEq, Repr

/-- Truth value of a Python object (used in `if controller_param_dict`, cms 412-420; `if controller_type`, cms 503). -/
def Y.truthy : Y → Bool
  | .null => false
  | .bool b => b
  | .num n => n != 0
  | .str s => s != ""
  | .seq l => !l.isEmpty
  | .map m => !m.isEmpty

/-- `k in y` in Python, for a string `k`: key of a `dict`, element of a `list`, substring of a `str`, `TypeError` otherwise. -/
def Y.has (y : Y) (k : String) : Except Err Bool :=
  match y with
  | .map m => .ok (m.any (fun e => decide (e.1 = k)))
  | .seq l => .ok (l.any (fun e => match e with | .str s => decide (s = k) | _ => false))
  | .str s => .ok (decide (k.toList <:+: s.toList))
  | _ => .error .type

/-- `y[k]` in Python, for a string `k`. -/
def Y.get (y : Y) (k : String) : Except Err Y :=
  match y with
  | .map m => match m.find? (fun e => decide (e.1 = k)) with
    | some e => .ok e.2
    | none => .error .key
  | _ => .error .type

/-- `WILDCARD_KEY` (cms 352) -/
def wildcard : String := "/**"

/-- `ROS_PARAMS_KEY` (cms 353) -/
def rosParams : String := "ros__parameters"

/-- `namespaced_controller` (cms 349-351) -/
def nsName (name ns : String) : String := if ns = "/" then "/" ++ name else ns ++ "/" ++ name

/-- The keys that are tried, in order (cms 356-361, 392-397). -/
def keys (name ns : String) : List String :=
  [name, nsName name ns, wildcard ++ "/" ++ name, wildcard ++ nsName name ns]

/-- `WILDCARD_KEY in parameters and k in parameters[WILDCARD_KEY]` (cms 371, 373). -/
def wildHas (p : Y) (k : String) : Except Err Bool := do
  if ← p.has wildcard then (← p.get wildcard).has k else .ok false

/-- The loop over the keys for one file (cms 356-374): is the file one for the controller? After the first hit the loop is left (362). -/
def usesLoop (name ns : String) (p : Y) : List String → Except Err Bool
  | [] => .ok false
  | k :: ks => do
    if ← p.has k then .ok (!(decide (k = name) && decide (ns ≠ "/")))
    else if ← wildHas p k then .ok true
    else if ← wildHas p rosParams then .ok true
    else usesLoop name ns p ks

/-- The file system: the document in a file, if there is one. -/
abbrev Files := String → Option Y

/-- `open` and `safe_load` (cms 348-354). -/
def load (fs : Files) (f : String) : Except Err Y :=
  match fs f with
  | some y => .ok y
  | none => .error .notFound

/-- `get_params_files_with_controller_parameters` (cms 342-377); `acc` is `controller_parameter_files`. -/
def filesLoop (fs : Files) (name ns : String) : List String → List String → Except Err (List String)
  | [], acc => .ok acc
  | f :: rest, acc =>
    if f ∈ acc then filesLoop fs name ns rest acc
    else do
      let p ← load fs f
      if ← usesLoop name ns p (keys name ns) then filesLoop fs name ns rest (acc ++ [f]) else filesLoop fs name ns rest acc

/-- The same from the start. -/
def filesFor (fs : Files) (name ns : String) (files : List String) : Except Err (List String) := filesLoop fs name ns files []

/-- The section looked at for one key (cms 399-411), `cur` if there is none; `here`: the key is on the top level. -/
def pick (p : Y) (k : String) (here : Bool) (cur : Y) : Except Err Y := do
  if here then p.get k
  else if ← wildHas p k then (← p.get wildcard).get k
  else if ← wildHas p rosParams then p.get wildcard
  else .ok cur

/-- The loop over the keys for one file when a parameter is looked up (cms 392-424); `cur` is `controller_param_dict`. -/
def findLoop (name ns q : String) (p : Y) : List String → Y → Except Err Y
  | [], cur => .ok cur
  | k :: ks, cur => do
    let here ← p.has k
    if here && decide (k = name) && decide (ns ≠ "/") then .ok cur
    else
      let cur ← pick p k here cur
      if cur.truthy then
        match cur with
        | .map _ =>
          if ← cur.has rosParams then
            if ← (← cur.get rosParams).has q then .ok cur else findLoop name ns q p ks cur
          else .error .invalid
        | _ => .error .invalid
      else findLoop name ns q p ks cur

/-- One file (cms 382-428): the value of the parameter if the file gives one. -/
def findIn (name ns q : String) (p : Y) : Except Err (Option Y) := do
  let cur ← findLoop name ns q p (keys name ns) .null
  if cur.truthy then
    let ps ← cur.get rosParams
    if ← ps.has q then .ok (some (← ps.get q)) else .ok none
  else .ok none

/-- `get_parameter_from_param_files` (cms 380-432); `none` is Python `None`. -/
def paramFrom (fs : Files) (name ns q : String) : List String → Except Err (Option Y)
  | [] => .ok none
  | f :: rest => do
    let p ← load fs f
    match ← findIn name ns q p with
    | some v => .ok (some v)
    | none => paramFrom fs name ns q rest

/-- `get_ros_params_files` (sp 328-340). -/
def rosFiles : List String → Except Err (List String)
  | [] => .ok []
  | a :: rest =>
    if a = "--params-file" then
      match rest with
      | [] => .error .value
      | f :: rest' => do .ok (f :: (← rosFiles rest'))
    else rosFiles rest
termination_by l => l.length

/-- `append_unique_preserve_order` (sp 318-326). -/
def appendUnique (base : List String) : List String → List String
  | [] => base
  | x :: t => if x ∈ base then appendUnique base t else appendUnique (base ++ [x]) t

/-- One controller of the command line, and the command line itself (sp 182-190, 292-311, 342): `-p` files, the words of `--controller-ros-args`
(459-467), and the files of `--params-file` of the spawner's own node. -/
structure Cmd where
  name : String
  files : List String := []
  rosArgs : List String := []
  argv : List String := []

/-- The parameters of a controller on the controller manager (`<name>.params_file` and so on). -/
structure Stored where
  files : Option (List String) := none
  type : Option Y := none
  fallbacks : Option Y := none
  rosArgs : Option (List String) := none

/-- `sp 363-375`: merging and existence check. -/
def given (fs : Files) (c : Cmd) : Except Err (List String) := do
  let l := appendUnique c.files (← rosFiles c.argv)
  if l.all (fun f => (fs f).isSome) then .ok l else .error .notFound

/-- How the part before `load_controller` ends: the controller is loaded next, the spawner returns 1, or an exception leaves it. -/
inductive Next | load | giveUp | raised (e : Err)
  deriving DecidableEq, Repr

/-- A parameter found in the files (cms 499-519: `if controller_type`, `if fallback_controllers`). -/
def wanted (v : Option Y) : Option Y := v.filter Y.truthy

/-- `set_controller_parameters_from_param_files` (cms 481-520) on the parameters of the controller. `acc i` says whether the `i`-th parameter of the
session is accepted by the controller manager: 0 `node_options_args`, 1 `params_file` (the answer is not looked at, 489-495), 2 `type`,
3 `fallback_controllers`. -/
def setFromFiles (fs : Files) (acc : Nat → Bool) (name ns : String) (files : List String) (s : Stored) : Stored × Next :=
  match filesFor fs name ns files with
  | .error e => (s, .raised e)
  | .ok l =>
    if l.isEmpty then (s, .load)
    else
      let s1 := if acc 1 then { s with files := some l } else s
      match paramFrom fs name ns "type" l with
      | .error e => (s1, .raised e)
      | .ok t =>
        if (wanted t).isSome && !acc 2 then (s1, .giveUp)
        else
          let s2 := if (wanted t).isSome then { s1 with type := wanted t } else s1
          match paramFrom fs name ns "fallback_controllers" l with
          | .error e => (s2, .raised e)
          | .ok b =>
            if (wanted b).isSome && !acc 3 then (s2, .giveUp)
            else (if (wanted b).isSome then { s2 with fallbacks := wanted b } else s2, .load)

/-- The spawner up to `load_controller` (sp 363-375, 452-487), for one controller that is not loaded. -/
def prepare (fs : Files) (acc : Nat → Bool) (ns : String) (c : Cmd) (s : Stored) : Stored × Next :=
  match given fs c with
  | .error e => (s, .raised e)
  | .ok l =>
    if !c.rosArgs.isEmpty && !acc 0 then (s, .giveUp)
    else
      let s1 := if c.rosArgs.isEmpty then s else { s with rosArgs := some c.rosArgs }
      if l.isEmpty then (s1, .load) else setFromFiles fs acc c.name ns l s1

/-- What a controller that is loaded is given: its type (cm 1388-1411), the arguments of its node (cm 1322-1350, 1372-1384) and its fallback controllers
(cm 1351-1371). -/
structure Given where
  type : Y
  files : List String
  fallbacks : Option Y
  rosArgs : List String

/-- `load_controller` as far as parameters are concerned (cm 1322-1384, 1388-1411): no type, no controller. Simplified: a fallback list naming the
controller itself (1362-1369) is not looked at here. -/
def loadWith (s : Stored) : Option Given :=
  match s.type with
  | none => none
  | some t => some { type := t, files := s.files.getD [], fallbacks := s.fallbacks, rosArgs := s.rosArgs.getD [] }

/-- Adding `--ros-args` when it is not there (cm 4975-4978, 4986-4989). -/
def withRos (l : List String) : List String := if "--ros-args" ∈ l then l else l ++ ["--ros-args"]

/-- `determine_controller_node_options` (cm 4966-5015): the arguments of the controller's node; `custom` are those of
`define_custom_node_options`. -/
def nodeArgs (custom : List String) (g : Given) (useSimTime : Bool) : List String :=
  let a := g.files.foldl (fun l f => withRos l ++ ["--params-file", f]) custom
  let b := if useSimTime then withRos a ++ ["-p", "use_sim_time:=true"] else a
  let c := if !g.rosArgs.isEmpty && !("--ros-args" ∈ g.rosArgs : Bool) then b ++ ["--ros-args"] else b
  c ++ g.rosArgs

end Verif.Params
