import Verif.Params.Model

/-!
# Specification for C70: what a parameter file says to a reader, and how a ROS node reads its arguments

Independent of the functions of the model.
-/
namespace Verif.Params

/-- The value at a path of keys in a document. -/
def Y.at (y : Y) : List String → Option Y
  | [] => some y
  | k :: ks => match y with
    | .map m => match m.find? (fun e => decide (e.1 = k)) with
      | some e => e.2.at ks
      | none => none
    | _ => none

/-- The documented ways to name a controller in a file (userdoc.rst 384-450): its bare name (only without a namespace), its full name, and both behind
the wildcard `/**`. -/
def Names (name ns k : String) : Prop :=
  (k = name ∧ ns = "/") ∨ (ns = "/" ∧ k = "/" ++ name) ∨ (ns ≠ "/" ∧ k = ns ++ "/" ++ name) ∨ k = "/**/" ++ name ∨
    (ns ≠ "/" ∧ k = "/**" ++ ns ++ "/" ++ name)

/-- The document has a section for the controller: on the top level, below the wildcard `/**` (there the bare name will do), or for every node. -/
def Addresses (name ns : String) (p : Y) : Prop :=
  (∃ k, Names name ns k ∧ (p.at [k]).isSome) ∨ (∃ k, (Names name ns k ∨ k = name) ∧ (p.at ["/**", k]).isSome) ∨
    (p.at ["/**", "ros__parameters"]).isSome

/-- The document is a mapping, and so is its wildcard section. -/
def Mapping (p : Y) : Prop := (∃ m, p = .map m) ∧ ∀ w, p.at ["/**"] = some w → ∃ m, w = .map m

/-- The controller's bare name is a section on the top level although the controller lives in a namespace. -/
def Bare (name ns : String) (p : Y) : Prop := ns ≠ "/" ∧ (p.at [name]).isSome

/-- Some section for the controller gives the parameter this value. -/
def Says (name ns q : String) (p : Y) (v : Y) : Prop :=
  (∃ k, Names name ns k ∧ p.at [k, "ros__parameters", q] = some v) ∨
  (∃ k, (Names name ns k ∨ k = name) ∧ p.at ["/**", k, "ros__parameters", q] = some v) ∨
  p.at ["/**", "ros__parameters", q] = some v

/-- A section that is empty or has a mapping `ros__parameters`. -/
def ValidSection (s : Y) : Prop := s.truthy = false ∨ ∃ m, s.at ["ros__parameters"] = some (.map m)

/-- All sections for the controller are valid. -/
def Valid (name ns : String) (p : Y) : Prop :=
  Mapping p ∧ (∀ k s, Names name ns k ∨ k = name → p.at [k] = some s → ValidSection s) ∧
    (∀ k s, Names name ns k ∨ k = name → p.at ["/**", k] = some s → ValidSection s) ∧
    (∀ w s, p.at ["/**"] = some w → w.at ["ros__parameters"] = some s → ∃ m, s = .map m)

/-- Each way to name the controller is used in one place only, and not all of them are used. -/
def Plain (name ns : String) (p : Y) : Prop :=
  (∀ k, Names name ns k ∨ k = name → ¬ ((p.at [k]).isSome ∧ (p.at ["/**", k]).isSome)) ∧
    (∃ k, Names name ns k ∧ p.at [k] = none ∧ p.at ["/**", k] = none)

/-! ## Arguments of a ROS node -/

/-- What a ROS node takes from its arguments, in order: parameter files and parameters (later ones win). -/
inductive Item | file (f : String) | param (p : String)
  deriving DecidableEq, Repr

/-- Where a ROS node is when it reads its arguments: outside ROS arguments, inside, after `--params-file`, after `-p`. -/
inductive Mode | plain | ros | wantFile | wantParam
  deriving DecidableEq, Repr

/-- One argument (https://docs.ros.org, "passing ROS arguments to nodes via the command line": `--ros-args` opens, `--` closes). -/
def readArg : Mode → String → Mode × List Item
  | .plain, a => (if a = "--ros-args" then .ros else .plain, [])
  | .ros, a => (if a = "--params-file" then .wantFile else if a = "-p" ∨ a = "--param" then .wantParam else if a = "--" then .plain else .ros, [])
  | .wantFile, f => (.ros, [.file f])
  | .wantParam, p => (.ros, [.param p])

/-- All arguments: the mode at the end and what was taken. -/
def readArgs : Mode → List String → Mode × List Item
  | m, [] => (m, [])
  | m, a :: l => ((readArgs (readArg m a).1 l).1, (readArg m a).2 ++ (readArgs (readArg m a).1 l).2)

end Verif.Params
