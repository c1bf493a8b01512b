import Verif.Core.Types
/-!
# The command line of the spawner and the launch helpers that write it

`controller_manager/controller_manager/spawner.py` (sp) and `launch_utils.py` (lu). Texts are lists of characters. Python's `argparse`
(CPython 3.11.10/3.12, `Lib/argparse.py`, named by function) is not part of the repository; the part of it that the parsers of the spawner use is
modelled here: options with no, one or any number of arguments, `=`, joined short options, abbreviations, `--`, unknown options, one positional with
`nargs="+"`. Not modelled: the texts of messages, `BooleanOptionalAction`'s help.
-/
namespace Verif.Argv

abbrev Str := List Char

/-- How many arguments an option takes (`nargs` 0, `None` and `"*"`). -/
inductive Arity | zero | one | many
deriving DecidableEq, Repr

/-- A parser: its option strings with the keys (actions) they belong to, the number of arguments of each, and `allow_abbrev`. -/
structure Parser (K : Type) where
  opts : List (Str × K)
  arity : K → Arity
  abbr : Bool

/-- `str.partition('=')`: the text before, and after the first `=` if there is one. -/
def partEq : Str → Str × Option Str
  | [] => ([], none)
  | c :: t => if c = '=' then ([], some t) else let r := partEq t; (c :: r.1, r.2)

/-- `_negative_number_matcher`: `^-\d+$|^-\d*\.\d+$`. -/
def negNum : Str → Bool
  | '-' :: t =>
    let d := t.takeWhile Char.isDigit
    match t.dropWhile Char.isDigit with
    | [] => !d.isEmpty
    | '.' :: f => !f.isEmpty && f.all Char.isDigit
    | _ => false
  | _ => false

/-- What `_parse_optional` makes of a word. `opt k long x`: the option `k`, written with two dashes or one, and the argument attached to it, if any,
with whether it was attached with `=`. -/
inductive Cls (K : Type)
  | pos
  | unknown
  | ambiguous
  | opt (k : K) (long : Bool) (attached : Option (Bool × Str))
deriving DecidableEq, Repr

/-- Does an option string start with two dashes? -/
def isLong : Str → Bool
  | '-' :: '-' :: _ => true
  | _ => false

/-- `_get_option_tuples` -/
def tuples {K : Type} (P : Parser K) (w : Str) : List (Cls K) :=
  if isLong w then
    if P.abbr then
      (P.opts.filter (fun o => (partEq w).1.isPrefixOf o.1)).map (fun o => .opt o.2 (isLong o.1) ((partEq w).2.map (fun a => (true, a))))
    else []
  else
    P.opts.filterMap (fun o =>
      if o.1 = w.take 2 then some (.opt o.2 (isLong o.1) (some (false, w.drop 2)))
      else if w.isPrefixOf o.1 then some (.opt o.2 (isLong o.1) none)
      else none)

/-- `_parse_optional` -/
def classify {K : Type} (P : Parser K) (w : Str) : Cls K :=
  match w with
  | [] => .pos
  | c :: t =>
    if c ≠ '-' then .pos
    else match P.opts.lookup w with
    | some k => .opt k (isLong w) none
    | none =>
      if t = [] then .pos
      else match (partEq w).2, P.opts.lookup (partEq w).1 with
      | some a, some k => .opt k (isLong (partEq w).1) (some (true, a))
      | _, _ =>
        match tuples P w with
        | _ :: _ :: _ => .ambiguous
        | [x] => x
        | [] => if negNum w || w.contains ' ' then .pos else .unknown

/-- The first loop of `_parse_known_args`: after `--` there are no options any more. `none`: the separator itself. -/
def tokens {K : Type} (P : Parser K) : List Str → List (Str × Option (Cls K))
  | [] => []
  | w :: r => if w = ['-', '-'] then (w, none) :: r.map (fun x => (x, some .pos)) else (w, some (classify P w)) :: tokens P r

/-- What happens in the order in which it happens: an option takes effect with its arguments, a word that no option takes, the separator, an unknown
word, or the parser gives up with exit code 2. -/
inductive Ev (K : Type)
  | took (k : K) (args : List Str)
  | word (s : Str)
  | sep
  | extra (s : Str)
  | bad
deriving DecidableEq, Repr

/-- The inner loop of `consume_optional` for an option with an attached argument: the options that take effect (and unknown
letters; up to 3.12.3 these were an error), and one that is still to get its arguments from the following words. -/
def expand {K : Type} (P : Parser K) : Nat → K → Bool → Bool → Str → Option (List (Ev K) × Option K)
  | 0, _, _, _, _ => none
  | n + 1, k, long, eq, arg =>
    match P.arity k with
    | .zero =>
      if long then none
      else match arg with
      | [] => none
      | c :: t =>
        if eq ∨ c = '-' then none
        else match P.opts.lookup ['-', c] with
        | none => some ([.took k [], .extra ('-' :: c :: t)], none)
        | some k' =>
          match t with
          | [] => some ([.took k []], some k')
          | '=' :: t' => (expand P n k' false true t').map (fun r => (.took k [] :: r.1, r.2))
          | t => (expand P n k' false false t).map (fun r => (.took k [] :: r.1, r.2))
    | _ => some ([.took k [arg]], none)

/-- `consume_optional` up to the arguments in the following words. -/
def attached {K : Type} (P : Parser K) (k : K) (long : Bool) : Option (Bool × Str) → Option (List (Ev K) × Option K)
  | none => some ([], some k)
  | some (eq, a) => expand P (a.length + 1) k long eq a

/-- The words at the front. -/
def posSpan {K : Type} : List (Str × Option (Cls K)) → List Str × List (Str × Option (Cls K))
  | (s, some .pos) :: r => let x := posSpan r; (s :: x.1, x.2)
  | l => ([], l)

/-- The second loop of `_parse_known_args` with `consume_optional`. -/
def run {K : Type} (P : Parser K) : Nat → List (Str × Option (Cls K)) → List (Ev K)
  | 0, _ => []
  | _, [] => []
  | n + 1, (_, none) :: r => .sep :: run P n r
  | n + 1, (s, some .pos) :: r => .word s :: run P n r
  | n + 1, (s, some .unknown) :: r => .extra s :: run P n r
  | _ + 1, (_, some .ambiguous) :: _ => [.bad]
  | n + 1, (_, some (.opt k long att)) :: r =>
    match attached P k long att with
    | none => [.bad]
    | some (done, pending) =>
      done ++
      match pending with
      | none => run P n r
      | some k' =>
        match P.arity k' with
        | .zero => .took k' [] :: run P n r
        | .one =>
          match r with
          | (s, some .pos) :: r' => .took k' [s] :: run P n r'
          | _ => [.bad]
        | .many => .took k' (posSpan r).1 :: run P n (posSpan r).2

/-- A word that could be several options (`_parse_optional`). -/
def isAmbiguous {K : Type} : Str × Option (Cls K) → Bool
  | (_, some .ambiguous) => true
  | _ => false

/-- `_parse_known_args` up to what is done with the events. An ambiguous option is found before anything takes effect. -/
def parse {K : Type} (P : Parser K) (args : List Str) : List (Ev K) :=
  let ts := tokens P args
  if ts.any isAmbiguous then [.bad] else run P ts.length ts

def str (s : String) : Str := s.toList

/-- The options of the spawner. -/
inductive Key
  | cm | cmTimeout | switchTimeout | callTimeout | group | asap | noAsap | unload | help
  | paramFile | loadOnly | inactive | rosArgs | controller
deriving DecidableEq, Repr

/-- Number of arguments (sp 77-110, 173-177, 207-286). -/
def Key.arity : Key → Arity
  | .cm | .cmTimeout | .switchTimeout | .callTimeout | .paramFile | .rosArgs => .one
  | .controller => .many
  | _ => .zero

/-- `global_parser` (sp 77-110) -/
def globalParser : Parser Key where
  opts := [(str "-c", .cm), (str "--controller-manager", .cm), (str "--controller-manager-timeout", .cmTimeout),
    (str "--switch-timeout", .switchTimeout), (str "--service-call-timeout", .callTimeout), (str "--activate-as-group", .group),
    (str "--switch-asap", .asap), (str "--no-switch-asap", .noAsap), (str "-u", .unload), (str "--unload-on-kill", .unload),
    (str "-h", .help), (str "--help", .help)]
  arity := Key.arity
  abbr := false

/-- `c_parser` (sp 173-177) -/
def ctlParser : Parser Key where
  opts := [(str "-p", .paramFile), (str "--param-file", .paramFile), (str "--load-only", .loadOnly), (str "--inactive", .inactive),
    (str "--controller-ros-args", .rosArgs)]
  arity := Key.arity
  abbr := true

/-- The parser of `parse_native_args` (sp 206-287). -/
def nativeParser : Parser Key where
  opts := [(str "-h", .help), (str "--help", .help), (str "-c", .cm), (str "--controller-manager", .cm), (str "-p", .paramFile),
    (str "--param-file", .paramFile), (str "--load-only", .loadOnly), (str "--inactive", .inactive), (str "-u", .unload),
    (str "--unload-on-kill", .unload), (str "--controller-manager-timeout", .cmTimeout), (str "--switch-timeout", .switchTimeout),
    (str "--service-call-timeout", .callTimeout), (str "--activate-as-group", .group), (str "--switch-asap", .asap),
    (str "--no-switch-asap", .noAsap), (str "--controller-ros-args", .rosArgs), (str "--controller", .controller)]
  arity := Key.arity
  abbr := true

/-- The namespaces the parsers fill. Times are kept as texts, `none` is the default (0, 5 and 10 s). -/
structure Ns where
  cm : Str := str "controller_manager"
  cmTimeout : Option Str := none
  switchTimeout : Option Str := none
  callTimeout : Option Str := none
  group : Bool := false
  asap : Bool := false
  unload : Bool := false
  files : List Str := []
  loadOnly : Bool := false
  inactive : Bool := false
  ros : Option (List Str) := none
deriving DecidableEq, Repr

/-- How a parser ends without a result. -/
inductive Stop
  /-- help was printed: exit code 0 -/
  | help
  /-- exit code 1 -/
  | usage
  /-- `ArgumentParser.error`: exit code 2 -/
  | error
deriving DecidableEq, Repr

/-- One action; `fl`: is the text a number for Python's `float`? `-h` of `global_parser` only stores a flag nobody reads, the one of the native parser
ends the program. -/
def act (fl : Str → Bool) (stopOnHelp : Bool) (s : Ns) : Key → List Str → Except Stop Ns
  | .cm, [x] => .ok { s with cm := x }
  | .cmTimeout, [x] => if fl x then .ok { s with cmTimeout := some x } else .error .error
  | .switchTimeout, [x] => if fl x then .ok { s with switchTimeout := some x } else .error .error
  | .callTimeout, [x] => if fl x then .ok { s with callTimeout := some x } else .error .error
  | .group, _ => .ok { s with group := true }
  | .asap, _ => .ok { s with asap := true }
  | .noAsap, _ => .ok { s with asap := false }
  | .unload, _ => .ok { s with unload := true }
  | .help, _ => if stopOnHelp then .error .help else .ok s
  | .paramFile, [x] => .ok { s with files := s.files ++ [x] }
  | .loadOnly, _ => .ok { s with loadOnly := true }
  | .inactive, _ => .ok { s with inactive := true }
  | .rosArgs, [x] => .ok { s with ros := some (s.ros.getD [] ++ [x]) }
  | _, _ => .ok s

/-- `parse_known_args`: what is not known is dropped by the callers (sp 139, 178). -/
def known (fl : Str → Bool) : List (Ev Key) → Ns → Except Stop Ns
  | [], s => .ok s
  | .took k a :: r, s => (act fl false s k a).bind (known fl r)
  | .bad :: _, _ => .error .error
  | _ :: r, s => known fl r s

/-- A controller of the command line (sp 180-188, 292-300). -/
structure Entry where
  name : Str
  files : List Str := []
  loadOnly : Bool := false
  inactive : Bool := false
  ros : Option (List Str) := none
deriving DecidableEq, Repr

def Ns.entry (s : Ns) (n : Str) : Entry := { name := n, files := s.files, loadOnly := s.loadOnly, inactive := s.inactive, ros := s.ros }

/-- What `main` takes from the namespace of the global options (sp 352-359). -/
structure Global where
  cm : Str := str "controller_manager"
  cmTimeout : Option Str := none
  switchTimeout : Option Str := none
  callTimeout : Option Str := none
  group : Bool := false
  asap : Bool := false
  unload : Bool := false
deriving DecidableEq, Repr

def Ns.global (s : Ns) : Global :=
  { cm := s.cm, cmTimeout := s.cmTimeout, switchTimeout := s.switchTimeout, callTimeout := s.callTimeout, group := s.group, asap := s.asap,
    unload := s.unload }

def delim : Str := str "--controller"

/-- sp 141-159: the words between one `--controller` and the next; what is before the first one is left out. -/
def chunksGo : List Str → List Str → List (List Str)
  | cur, [] => [cur]
  | cur, w :: r => if w = delim then cur :: chunksGo [] r else chunksGo (cur ++ [w]) r

def chunks (args : List Str) : List (List Str) := (chunksGo [] args).tail

/-- sp 162-188 for one chunk (without its `--controller`). -/
def entryOf (fl : Str → Bool) : List Str → Except Stop Entry
  | [] => .error .usage
  | n :: r => (known fl (parse ctlParser r) {}).map (fun s => s.entry n)

def entries (fl : Str → Bool) : List (List Str) → Except Stop (List Entry)
  | [] => .ok []
  | c :: r => (entryOf fl c).bind (fun e => (entries fl r).map (e :: ·))

/-- sp 74-190 `parse_args_advanced` -/
def advanced (fl : Str → Bool) (args : List Str) : Except Stop (Global × List Entry) :=
  if str "-h" ∈ args ∨ str "--help" ∈ args then .error .help
  else (known fl (parse globalParser args) {}).bind (fun g =>
    if chunks args = [] then .error .usage
    else (entries fl (chunks args)).map (fun es => (g.global, es)))

/-- `parse_args` with one positional with `nargs="+"`: the first run of free words. `st`: not yet begun, in it (the words so far), or over. -/
inductive Names | before | during (l : List Str) | after (l : List Str)
deriving DecidableEq, Repr

def Names.close : Names → Names
  | .during l => .after l
  | n => n

/-- `ex`: there were words or options too many; that is an error, but only at the end. -/
def strict (fl : Str → Bool) : List (Ev Key) → Ns → Names → Bool → Except Stop (Ns × List Str)
  | [], s, .during l, ex => if l = [] ∨ ex then .error .error else .ok (s, l)
  | [], s, .after l, ex => if l = [] ∨ ex then .error .error else .ok (s, l)
  | [], _, .before, _ => .error .error
  | .took k a :: r, s, n, ex => (act fl true s k a).bind (fun s' => strict fl r s' n.close ex)
  | .word w :: r, s, .before, ex => strict fl r s (.during [w]) ex
  | .word w :: r, s, .during l, ex => strict fl r s (.during (l ++ [w])) ex
  | .word _ :: r, s, .after l, _ => strict fl r s (.after l) true
  | .sep :: r, s, .before, ex => strict fl r s (.during []) ex
  | .sep :: r, s, .during l, ex => strict fl r s (.during l) ex
  | .sep :: r, s, .after l, _ => strict fl r s (.after l) true
  | .extra _ :: r, s, n, _ => strict fl r s n.close true
  | .bad :: _, _, _, _ => .error .error

/-- sp 193-302 `parse_native_args`: all controllers get the same options. -/
def native (fl : Str → Bool) (args : List Str) : Except Stop (Global × List Entry) :=
  (strict fl (parse nativeParser args) {} .before false).map (fun r => (r.1.global, r.2.map r.1.entry))

/-- sp 344-350: the word `--controller` decides. -/
def spawnerArgs (fl : Str → Bool) (args : List Str) : Except Stop (Global × List Entry) :=
  if delim ∈ args then advanced fl args else native fl args

end Verif.Argv
