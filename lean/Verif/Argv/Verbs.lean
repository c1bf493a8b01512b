import Verif.Argv.Lines
import Verif.Cli.Model
/-!
# The command line of `ros2 control switch_controllers`

`ros2controlcli/verb/switch_controllers.py` (sw) and `ros2controlcli/api/__init__.py` (api), with the part of `argparse` of `Argv/Model`. The options
of `ros2cli.node.direct.add_arguments` are not part of the repository. Not modelled: `--ros-args` (api 124-129), which takes the rest of the line;
texts of messages; the completion of names.
-/
namespace Verif.Argv

/-- The options of the verb. -/
inductive VKey | deactivate | activate | strict | bestEffort | asap | switchTimeout | cm | hidden | spinTime | simTime | help
deriving DecidableEq, Repr

/-- Number of arguments (sw 28-61, api 111-123; `spinTime` and `simTime` are ros2cli's, `help` is `argparse`'s own). -/
def VKey.arity : VKey → Arity
  | .deactivate | .activate => .many
  | .switchTimeout | .cm | .spinTime => .one
  | _ => .zero

/-- The parser of the verb (sw 26-61, api 109-123), in the order in which the options are added. -/
def verbParser : Parser VKey where
  opts := [(str "-h", .help), (str "--help", .help), (str "--spin-time", .spinTime), (str "-s", .simTime), (str "--use-sim-time", .simTime),
    (str "--deactivate", .deactivate), (str "--activate", .activate), (str "--strict", .strict), (str "--best-effort", .bestEffort),
    (str "--activate-asap", .asap), (str "--switch-timeout", .switchTimeout), (str "-c", .cm), (str "--controller-manager", .cm),
    (str "--include-hidden-nodes", .hidden)]
  arity := VKey.arity
  abbr := true

/-- What the parser fills in, with the defaults of sw 28-61 and api 111-118 (`none`: 5 s). -/
structure VNs where
  deact : List Str := []
  act : List Str := []
  strict : Bool := false
  bestEffort : Bool := false
  asap : Bool := false
  timeout : Option Str := none
  cm : Str := str "controller_manager"
deriving DecidableEq, Repr

/-- One action (`take_action` of `_parse_known_args`: first the conflicts, then the action). `--strict` and `--best-effort` exclude each other
(sw 42-52). `fl`: the texts `float` accepts. -/
def vact (fl : Str → Bool) (s : VNs) : VKey → List Str → Except Stop VNs
  | .deactivate, l => .ok { s with deact := l }
  | .activate, l => .ok { s with act := l }
  | .strict, _ => if s.bestEffort then .error .error else .ok { s with strict := true }
  | .bestEffort, _ => if s.strict then .error .error else .ok { s with bestEffort := true }
  | .asap, _ => .ok { s with asap := true }
  | .switchTimeout, [x] => .ok { s with timeout := some x }
  | .cm, [x] => .ok { s with cm := x }
  | .spinTime, [x] => if fl x then .ok s else .error .error
  | .help, _ => .error .help
  | _, _ => .ok s

/-- `parse_args` without positionals: a word no option takes, a `--` or an unknown option is an error, once everything has been read. -/
def vstrict (fl : Str → Bool) : List (Ev VKey) → VNs → Bool → Except Stop VNs
  | [], s, ex => if ex then .error .error else .ok s
  | .took k a :: r, s, ex => (vact fl s k a).bind (fun s' => vstrict fl r s' ex)
  | .word _ :: r, s, _ => vstrict fl r s true
  | .sep :: r, s, _ => vstrict fl r s true
  | .extra _ :: r, s, _ => vstrict fl r s true
  | .bad :: _, _, _ => .error .error

/-- What the verb takes from the command line (sw 64-79). -/
def verbArgs (fl : Str → Bool) (args : List Str) : Except Stop VNs := vstrict fl (parse verbParser args) {} false

/-- What the verb does with a line (sw 64-86; `Cli.switchCtls`, C68): the number of the controller with a name is `num`, `dflt` is the parameter
`defaults.switch_controller.strictness` of the controller manager. The time of `--switch-timeout` is not modelled here (C68). -/
def verbProg (fl : Str → Bool) (num : Str → Name) (dflt : Bool) (args : List Str) : Except Stop Spawn.Prog :=
  (verbArgs fl args).map (fun r =>
    Cli.switchCtls (r.deact.map num) (r.act.map num) r.asap (Cli.modeOf r.strict r.bestEffort dflt))

end Verif.Argv
