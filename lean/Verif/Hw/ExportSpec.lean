import Verif.Hw.Export
/-!
# What a user expects of exported interfaces (specification for C54)

No maps, no iteration orders, no handles: the interfaces as they are written down, in the order of the
description, and the last value written.
-/
namespace Verif.Exp

/-- The state or command interfaces of a `<joint>`, `<sensor>` or `<gpio>` tag, by full name, with their initial values. -/
def Part.listed {V : Type} (cmd : Bool) (p : Part V) : List (Str × V) :=
  (if cmd then p.cmds else p.states).map (fun d => (p.name ++ '/' :: d.itf, d.init))

/-- The state (`cmd = false`) or command (`cmd = true`) interfaces of a component in the order of the description: an
actuator has joints, a sensor has states of joints and sensors, a system has everything; sensors have no commands. The
deprecated export methods, if overridden, replace all of this. -/
def Comp.declared {V : Type} (cmd : Bool) (c : Comp V) : List (Str × V) :=
  let own := fun d : Desc V => (d.pre ++ '/' :: d.itf, d.init)
  let legacy := if cmd then c.legacyC else c.legacyS
  if cmd = true ∧ c.kind = .sensor then []
  else if legacy.isEmpty = false then legacy.map own
  else
    (if cmd then c.unlistedC else c.unlistedS).map own ++
    c.joints.flatMap (Part.listed cmd) ++
    (if cmd = false ∧ c.kind ≠ .actuator then c.sensors.flatMap (Part.listed cmd) else []) ++
    (if c.kind = .system then c.gpios.flatMap (Part.listed cmd) else [])

/-- The component declares an interface of that name. -/
def Comp.declares {V : Type} (cmd : Bool) (c : Comp V) (n : Str) : Prop := n ∈ (c.declared cmd).map (·.1)

/-- The value of the first declaration of that name. -/
def Comp.initial {V : Type} (cmd : Bool) (c : Comp V) (n : Str) : Option V :=
  ((c.declared cmd).find? (fun p => p.1 = n)).map (·.2)

/-- Exporting is left to the framework. -/
def Comp.framework {V : Type} (cmd : Bool) (c : Comp V) : Prop := (if cmd then c.legacyC else c.legacyS) = []

/-- Does the access write interface `n` of component `k`? Writing a command through a loan writes it for whatever component
has it. -/
def Op.writes {V : Type} (cmd : Bool) (k : Nat) (n : Str) : Op V → Option V
  | .setState k' n' v => if cmd = false ∧ k' = k ∧ n' = n then some v else none
  | .setCommand k' n' v => if cmd = true ∧ k' = k ∧ n' = n then some v else none
  | .loanSet n' v => if cmd = true ∧ n' = n then some v else none

/-- The last value written to interface `n` of component `k`, the oldest access first; `d` if there was none. -/
def lastWritten {V : Type} (cmd : Bool) (k : Nat) (n : Str) (d : Option V) : List (Op V) → Option V
  | [] => d
  | op :: t => lastWritten cmd k n ((op.writes cmd k n).or d) t

end Verif.Exp
