import Verif.Argv.Launch
/-!
# What a command line says

A command line written by a person who follows the help text: settings, each with a key, a way of writing it and, if the option takes one, a value.
-/
namespace Verif.Argv

/-- `--name value`, `-n value`, `--name=value`; an option without a value is written `--name` or `-n`. -/
inductive Form | spaced | short | eq
deriving DecidableEq, Repr

structure Setting where
  key : Key
  form : Form := .spaced
  value : Str := []
deriving DecidableEq, Repr

/-- The names of the options in the help text. -/
def longName : Key → Str
  | .cm => str "--controller-manager"
  | .cmTimeout => str "--controller-manager-timeout"
  | .switchTimeout => str "--switch-timeout"
  | .callTimeout => str "--service-call-timeout"
  | .group => str "--activate-as-group"
  | .asap => str "--switch-asap"
  | .noAsap => str "--no-switch-asap"
  | .unload => str "--unload-on-kill"
  | .help => str "--help"
  | .paramFile => str "--param-file"
  | .loadOnly => str "--load-only"
  | .inactive => str "--inactive"
  | .rosArgs => str "--controller-ros-args"
  | .controller => str "--controller"

def shortName : Key → Option Str
  | .cm => some (str "-c")
  | .unload => some (str "-u")
  | .paramFile => some (str "-p")
  | _ => none

/-- Does the option take a value? -/
def takesValue : Key → Bool
  | .cm | .cmTimeout | .switchTimeout | .callTimeout | .paramFile | .rosArgs => true
  | _ => false

def Setting.words (s : Setting) : List Str :=
  if takesValue s.key then
    match s.form with
    | .spaced => [longName s.key, s.value]
    | .short => [(shortName s.key).getD (longName s.key), s.value]
    | .eq => [longName s.key ++ '=' :: s.value]
  else
    match s.form with
    | .short => [(shortName s.key).getD (longName s.key)]
    | _ => [longName s.key]

/-- A text that can stand alone as a value: it does not begin with a dash, or it has a blank before any `=` and does not begin with one of the
short options. -/
def Value (v : Str) : Prop :=
  v.head? ≠ some '-' ∨
    ((∃ a b, v = a ++ ' ' :: b ∧ '=' ∉ a) ∧ v.take 2 ∉ [str "-p", str "-c", str "-u", str "-h"])

/-- A time. -/
def isTime : Key → Bool
  | .cmTimeout | .switchTimeout | .callTimeout => true
  | _ => false

/-- A setting that is written properly: not `--help` and not `--controller`; a value after a blank can stand alone; times are numbers. -/
def Setting.Ok (fl : Str → Bool) (s : Setting) : Prop :=
  s.key ≠ .help ∧ s.key ≠ .controller ∧ (takesValue s.key = true → s.form ≠ .eq → Value s.value) ∧ (isTime s.key = true → fl s.value = true)

/-- The values given for a key, in the order given. -/
def given (k : Key) (l : List Setting) : List Str := (l.filter (fun s => s.key = k)).map (·.value)

def has (k : Key) (l : List Setting) : Bool := l.any (fun s => s.key = k)

/-- What the settings `l` say about a controller. -/
def entrySays (n : Str) (l : List Setting) : Entry where
  name := n
  files := given .paramFile l
  loadOnly := has .loadOnly l
  inactive := has .inactive l
  ros := if given .rosArgs l = [] then none else some (given .rosArgs l)

/-- What the settings `l` say about all controllers: of several values the last one counts. -/
def globalSays (l : List Setting) : Global where
  cm := (given .cm l).getLast?.getD (str "controller_manager")
  cmTimeout := (given .cmTimeout l).getLast?
  switchTimeout := (given .switchTimeout l).getLast?
  callTimeout := (given .callTimeout l).getLast?
  group := has .group l
  asap := ((l.filter (fun s => s.key = .asap ∨ s.key = .noAsap)).getLast?.map (fun s => decide (s.key = .asap))).getD false
  unload := has .unload l

/-- The words of settings. -/
def wordsOf (l : List Setting) : List Str := l.flatMap Setting.words

/-- A command line with options for each controller: options, then `--controller`, a name and options, any number of times. -/
def lineFor (pre : List Setting) (cs : List (Str × List Setting)) : List Str :=
  wordsOf pre ++ cs.flatMap (fun c => str "--controller" :: c.1 :: wordsOf c.2)

/-- A command line with the same options for all controllers: options, names, options. -/
def lineAll (pre : List Setting) (ns : List Str) (post : List Setting) : List Str := wordsOf pre ++ ns ++ wordsOf post

/-- The words after each `--controller`. -/
def named : List Str → List Str
  | a :: b :: r => if a = str "--controller" then b :: named (b :: r) else named (b :: r)
  | _ => []

end Verif.Argv
