import Verif.CM.Listing
/-!
# The views of `ros2 control`: `view_controller_chains` and `view_hardware_status`

(ros2controlcli/ros2controlcli/verb/view_controller_chains.py, cited as `chains.py`, and view_hardware_status.py, cited as `status.py`.)
The diagram is what is handed to graphviz: the labels of the nodes (texts, with the ports of the record in `<...>` and `|` between the fields) and the
edges. How graphviz lays it out is not modelled.
-/
namespace Verif
namespace View

/-! ## Edges -/

/-- An arrow between two controllers: from the field `controller_start_key` of `src` to the field `controller_end_key` of `dst`. -/
structure Edge where
  src : Name
  dst : Name
  key : Nat
deriving DecidableEq, Repr

/-- `output_chain_connections[name]` (chains.py:173-180), a Python set: the interfaces of all connections. -/
def outs (e : CtlEntry) : List Nat := addItems [] (e.conns.flatMap (·.refs))

/-- `input_chain_connections[name]` (chains.py:181-182), a Python set. -/
def ins (e : CtlEntry) : List Nat := addItems [] e.refs

/-- `port_map["controller_end_" + key] = name` (chains.py:57): a dictionary. -/
def setPort (m : Nat → Option Name) (k : Nat) (n : Name) : Nat → Option Name := fun j => if j = k then some n else m j

/-- `port_map` after the loop over the controllers (chains.py:121-138 and 50-57). `l` is the answer in the order of the Python set
`controller_names`, which is arbitrary. -/
def portMap (l : List CtlEntry) : Nat → Option Name := l.foldl (fun m e => (ins e).foldl (fun m k => setPort m k e.name) m) (fun _ => none)

/-- The arrows that leave one controller (chains.py:143-150); `none`: `KeyError` of `port_map[...]`. -/
def edgesOf (m : Nat → Option Name) (e : CtlEntry) : Option (List Edge) :=
  CM.listAll (fun k => (m k).map fun d => { src := e.name, dst := d, key := k }) (outs e)

/-- All arrows between controllers (chains.py:142-150); `none`: the verb ends with a `KeyError`. -/
def chainEdges (l : List CtlEntry) : Option (List Edge) := (CM.listAll (edgesOf (portMap l)) l).map List.flatten

/-- The arrows from the box of the state interfaces (chains.py:151-155; 187): the controller and the interface. -/
def stateEdges (l : List CtlEntry) : List (Name × Itf) := l.flatMap fun e => (addItems [] e.reqState).map fun i => (e.name, i)

/-- The arrows to the box of the command interfaces (chains.py:156-160; 186). -/
def cmdEdges (l : List CtlEntry) : List (Name × Itf) := l.flatMap fun e => (addItems [] e.reqCmd).map fun i => (e.name, i)

/-! ## Labels -/

/-- One field, `"<{}> {} {} ".format(port, name, deliminator)` (chains.py:46-48, 54-56, 64-66, 72-74, 86-88, 102-104). -/
def field (pre name : List Char) (sep : Bool) : List Char :=
  '<' :: pre ++ name ++ '>' :: ' ' :: name ++ ' ' :: (if sep then ['|'] else []) ++ [' ']

/-- The fields of a controller for one kind of interface, the names in sorted order (chains.py:42-48, 50-56, 60-66, 68-74). The
separator is left out where `ind == len(name) - 1`: the length of the name, not of the list. `i`: the first index. -/
def section' (pre : List Char) : Nat → List (List Char) → List Char
  | _, [] => []
  | i, n :: t => field pre n (i + 1 ≠ n.length) ++ section' pre (i + 1) t

/-- The label of a controller (chains.py:41-76). -/
def ctlLabel (name : List Char) (states refs cmds conns : List (List Char)) : List Char :=
  name ++ ['|', '{', '{'] ++ section' "state_end_".toList 0 states ++ section' "controller_end_".toList 0 refs ++ ['}', '|', '{'] ++
    section' "command_start_".toList 0 cmds ++ section' "controller_start_".toList 0 conns ++ ['}', '}']

/-- The fields of the boxes of the command and state interfaces (chains.py:81-88, 97-104): the separator is left out after the last. -/
def boxSection (pre : List Char) : List (List Char) → List Char
  | [] => []
  | n :: t => field pre n (!t.isEmpty) ++ boxSection pre t

/-- The label of such a box (chains.py:90-92, 106). -/
def boxLabel (title pre : List Char) (names : List (List Char)) : List Char :=
  title ++ ['|', '{', '{'] ++ boxSection pre names ++ ['}', '}']

/-! ## Hardware status -/

/-- A `HardwareStatus` message: the component and its devices (the states of the devices, printed as they are, are not modelled). -/
structure Msg where
  hw : Name
  devs : List Name
deriving DecidableEq, Repr

/-- `--hardware-id` and `--device-id` (status.py:42-55); an empty text counts as not given. -/
structure Filter where
  hw : Option Name
  dev : Option Name

/-- The attributes of the verb (status.py:35-40); `stopped`: `rclpy.shutdown()` was called; `printed`: the component and the devices printed. -/
structure Watch where
  hws : List Name
  devs : List Name
  count : Nat
  complete : Bool
  stopped : Bool
  printed : List (Name × List Name)
deriving Repr

/-- status.py:35-40 -/
def Watch.init : Watch := { hws := [], devs := [], count := 0, complete := false, stopped := false, printed := [] }

/-- `args.x and args.x not in found` (status.py:66, 79). -/
def missing (x : Option Name) (found : List Name) : Bool :=
  match x with
  | none => false
  | some n => !(found.contains n)

/-- The part that prints (status.py:92-97, 112-114). -/
def printMsg (f : Filter) (m : Msg) : Option (Name × List Name) :=
  if f.hw.isSome && f.hw != some m.hw then none
  else if f.dev.isSome && !(m.devs.any fun d => f.dev == some d) then none
  else some (m.hw, m.devs.filter fun d => !(f.dev.isSome && f.dev != some d))

/-- `_on_message` (status.py:57-140). -/
def Watch.onMessage (f : Filter) (w : Watch) (m : Msg) : Watch :=
  let w := { w with count := w.count + 1, hws := m.hw :: w.hws, devs := m.devs ++ w.devs }
  let discover := !w.complete && w.count ≥ 10
  let w := if discover then { w with complete := true } else w
  if discover && (missing f.hw w.hws || missing f.dev w.devs) then { w with stopped := true }
  else { w with printed := w.printed ++ (printMsg f m).toList }

/-- `rclpy.spin` (status.py:173): messages arrive until `rclpy.shutdown()`. -/
def watch (f : Filter) (ms : List Msg) : Watch := ms.foldl (fun w m => if w.stopped then w else w.onMessage f m) Watch.init

end View
end Verif
