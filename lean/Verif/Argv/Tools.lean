import Verif.Argv.Lines
/-!
# The command lines of the hardware spawner and the unspawner

`controller_manager/controller_manager/hardware_spawner.py` (hs) and `unspawner.py` (un), with the part of `argparse` of `Argv/Model` and its
mutually exclusive groups. `rclpy.utilities.remove_ros_args` has been applied. Texts of messages are not modelled.
-/
namespace Verif.Argv

/-- The options of the two programs. -/
inductive TKey | cm | cmTimeout | switchTimeout | activate | configure | help
deriving DecidableEq, Repr

/-- Number of arguments (hs 111-138, un 34-49; `help` is `argparse`'s own). -/
def TKey.arity : TKey → Arity
  | .cm | .cmTimeout | .switchTimeout => .one
  | _ => .zero

/-- The parser of the hardware spawner (hs 103-138). -/
def hwParser : Parser TKey where
  opts := [(str "-h", .help), (str "--help", .help), (str "-c", .cm), (str "--controller-manager", .cm),
    (str "--controller-manager-timeout", .cmTimeout), (str "--activate", .activate), (str "--configure", .configure)]
  arity := TKey.arity
  abbr := true

/-- The parser of the unspawner (un 31-48). -/
def unParser : Parser TKey where
  opts := [(str "-h", .help), (str "--help", .help), (str "-c", .cm), (str "--controller-manager", .cm), (str "--switch-timeout", .switchTimeout)]
  arity := TKey.arity
  abbr := true

/-- What the parsers fill in; `none`: the default. -/
structure TNs where
  cm : Option Str := none
  cmTimeout : Option Str := none
  switchTimeout : Option Str := none
  activate : Bool := false
  configure : Bool := false
deriving DecidableEq, Repr

/-- One action (`take_action` of `_parse_known_args`: first the conflicts, then the action). The two flags of the hardware spawner exclude each other
(hs 104, 126-138). -/
def tact (fl : Str → Bool) (s : TNs) : TKey → List Str → Except Stop TNs
  | .cm, [x] => .ok { s with cm := some x }
  | .cmTimeout, [x] => if fl x then .ok { s with cmTimeout := some x } else .error .error
  | .switchTimeout, [x] => if fl x then .ok { s with switchTimeout := some x } else .error .error
  | .activate, _ => if s.configure then .error .error else .ok { s with activate := true }
  | .configure, _ => if s.activate then .error .error else .ok { s with configure := true }
  | .help, _ => .error .help
  | _, _ => .ok s

/-- `parse_args` with one positional with `nargs="+"`, as `strict`. -/
def tstrict (fl : Str → Bool) : List (Ev TKey) → TNs → Names → Bool → Except Stop (TNs × List Str)
  | [], s, .during l, ex => if l = [] ∨ ex then .error .error else .ok (s, l)
  | [], s, .after l, ex => if l = [] ∨ ex then .error .error else .ok (s, l)
  | [], _, .before, _ => .error .error
  | .took k a :: r, s, n, ex => (tact fl s k a).bind (fun s' => tstrict fl r s' n.close ex)
  | .word w :: r, s, .before, ex => tstrict fl r s (.during [w]) ex
  | .word w :: r, s, .during l, ex => tstrict fl r s (.during (l ++ [w])) ex
  | .word _ :: r, s, .after l, _ => tstrict fl r s (.after l) true
  | .sep :: r, s, .before, ex => tstrict fl r s (.during []) ex
  | .sep :: r, s, .during l, ex => tstrict fl r s (.during l) ex
  | .sep :: r, s, .after l, _ => tstrict fl r s (.after l) true
  | .extra _ :: r, s, n, _ => tstrict fl r s n.close true
  | .bad :: _, _, _, _ => .error .error

/-- What the hardware spawner takes from the command line (hs 140-146). -/
structure HwArgs where
  comps : List Str
  cm : Str := str "controller_manager"
  cmTimeout : Option Str := none
  activate : Bool
deriving DecidableEq, Repr

/-- hs 103-146: one of the two flags is required (hs 104). -/
def hwArgs (fl : Str → Bool) (args : List Str) : Except Stop HwArgs :=
  (tstrict fl (parse hwParser args) {} .before false).bind (fun r =>
    if r.1.activate ∨ r.1.configure then
      .ok { comps := r.2, cm := r.1.cm.getD (str "controller_manager"), cmTimeout := r.1.cmTimeout, activate := r.1.activate }
    else .error .error)

/-- What the unspawner takes from the command line (un 51-54). -/
structure UnArgs where
  ctrls : List Str
  cm : Str := str "/controller_manager"
  switchTimeout : Option Str := none
deriving DecidableEq, Repr

/-- un 30-54 -/
def unArgs (fl : Str → Bool) (args : List Str) : Except Stop UnArgs :=
  (tstrict fl (parse unParser args) {} .before false).map (fun r =>
    { ctrls := r.2, cm := r.1.cm.getD (str "/controller_manager"), switchTimeout := r.1.switchTimeout })

/-- hs 149-154: the name of the controller manager, in the namespace `ns` of the program; also what ROS makes of the relative name the unspawner
uses as it is. -/
def cmName (ns name : Str) : Str :=
  if name.head? = some '/' then name
  else if ns ≠ str "/" then ns ++ '/' :: name
  else '/' :: name

end Verif.Argv
