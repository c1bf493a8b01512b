import Verif.Props.C52_MockModes
/-!
# C52: concrete cases and violations

Full statements that are false of the code, each with a witness: `C52_switch_full` (an accepted command mode switch sets the modes, and a request for
one interface of one joint is accepted) and `C52_mimic_full` (mimic joints follow, also those that mimic a mimic joint). Besides: configuring again
shifts the positions once more (`C52_reconfigure_drifts`), and an infinite effort command leaves mimic joints behind (`C52_error_leaves_mimic`).
-/
namespace Verif.Mock
open Verif (Dbl)

theorem motion_of_lists (c : Cfg)
    (h1 : ∀ i ∈ c.jointStates ++ c.sensorStates ++ c.gpioStates, Pva3 i.key.2 → i.ty = .dbl)
    (h2 : ∀ i ∈ c.unlistedCommands ++ c.jointCommands ++ c.gpioCommands, Pva3 i.key.2 → i.ty = .dbl) (k : Key) (hk : Pva3 k.2) :
    (c.stTy k = some .dbl ∨ c.stTy k = none) ∧ (c.cmTy k = some .dbl ∨ c.cmTy k = none) := by
  have gen : ∀ l : List Itf, (∀ i ∈ l, Pva3 i.key.2 → i.ty = .dbl) →
      ((l.find? (fun i => i.key == k)).map (·.ty) = some .dbl ∨ (l.find? (fun i => i.key == k)).map (·.ty) = none) := by
    intro l hl
    cases hf : l.find? (fun i => i.key == k) with
    | none => exact .inr rfl
    | some i =>
      left
      have e : i.key = k := by simpa using List.find?_some hf
      rw [Option.map_some, hl i (List.mem_of_find?_eq_some hf) (by rw [e]; exact hk)]
  exact ⟨gen _ h1, gen _ h2⟩

def effort : Str := "effort".toList
def jA : Str := "a".toList
def jB : Str := "b".toList
def jC : Str := "c".toList

/-- A two-joint robot: `a` has position, velocity and effort (state and command), `b` mimics `a` with multiplier -2 and offset 1; a force sensor `s`
without command; a gpio `g` with a boolean output. Offset 1/2 on positions. -/
def robot : Cfg :=
  { joints := [jA, jB]
    jointStates := [⟨(jA, effort), .dbl⟩, ⟨(jB, position), .dbl⟩, ⟨(jA, velocity), .dbl⟩, ⟨(jA, position), .dbl⟩]
    jointCommands := [⟨(jA, velocity), .dbl⟩, ⟨(jA, effort), .dbl⟩, ⟨(jA, position), .dbl⟩]
    sensorStates := [⟨("s".toList, "force".toList), .dbl⟩]
    gpioStates := [⟨("g".toList, "do1".toList), .bool⟩]
    gpioCommands := [⟨("g".toList, "do1".toList), .bool⟩]
    unlistedCommands := []
    mimics := [⟨jB, jA, .fin (-2), 1⟩]
    mockSensor := false, mockGpio := false, disabled := false, dynamics := false, offset := .fin (1/2), custom := [] }

/-- The state before the first command: zero states, NaN commands. -/
def fresh (c : Cfg) : St :=
  { st := fun _ => 0, cm := fun _ => .nan, stb := fun _ => false, cmb := fun _ => false, modes := c.joints.map (fun _ => .pos) }

theorem robot_consistent : Consistent robot where
  motion := motion_of_lists robot (by decide) (by decide)
  joint := by decide
  customItf := by decide
  mimicked := by
    intro m hm itf hi
    have : m = ⟨jB, jA, .fin (-2), 1⟩ := by simpa [robot] using hm
    subst this
    rcases hi with rfl | rfl | rfl <;> decide
  commanded := by decide
  sensor := by decide
  gpio := by decide
  gpioC := by decide

/-- The velocity of `a` is mirrored; the force is a state without command; all hypotheses of the theorems are met. -/
example : Mirrored robot (jA, velocity) ∧ robot.hasCommand ("s".toList, "force".toList) = false ∧
    NoMimic robot (jA, position) ∧ JointOnly robot (jA, position) ∧ robot.cmTy (jA, position) = some .dbl := by
  refine ⟨⟨by decide, by decide, by decide, by decide, by decide, by unfold NoMimic; decide⟩, by decide, by unfold NoMimic; decide,
    by unfold JointOnly; decide, by decide⟩

/-- Commands 3 for the position, 4 for the velocity, `true` for the output, then two reads: position 3 + 1/2, mimic 1 - 2 * 7/2, velocity 4. -/
example :
    let r := run robot [.command (jA, position) 3, .command (jA, velocity) 4, .commandB ("g".toList, "do1".toList) true, .read 1,
      .command (jA, velocity) .nan, .read 1] (fresh robot)
    r.2 = .ok ∧ r.1.st (jA, position) = .fin (7/2) ∧ r.1.st (jB, position) = .fin (-6) ∧ r.1.st (jA, velocity) = 4 ∧
      r.1.stb ("g".toList, "do1".toList) = true ∧ r.1.st ("s".toList, "force".toList) = 0 := by decide +kernel

/-- The digital output, and a force sensor with a mock command, are mirrored. -/
example : ⟨("g".toList, "do1".toList), .bool⟩ ∈ robot.gpioCommands ∧ robot.hasState ("g".toList, "do1".toList) = true ∧
    Mocked { robot with mockSensor := true, unlistedCommands := [⟨("s".toList, "force".toList), .dbl⟩] } ("s".toList, "force".toList) :=
  ⟨by decide, by decide, .inl ⟨rfl, by decide⟩⟩

/-- A robot with dynamics and the joints `joint1`, `joint2`. -/
def dynRobot (names : List Str) : Cfg :=
  { joints := names
    jointStates := names.flatMap fun j => [⟨(j, position), .dbl⟩, ⟨(j, velocity), .dbl⟩, ⟨(j, acceleration), .dbl⟩]
    jointCommands := names.flatMap fun j => [⟨(j, position), .dbl⟩, ⟨(j, velocity), .dbl⟩, ⟨(j, acceleration), .dbl⟩]
    sensorStates := [], gpioStates := [], gpioCommands := [], unlistedCommands := [], mimics := []
    mockSensor := false, mockGpio := false, disabled := false, dynamics := true, offset := 0, custom := [] }

def joint1 : Str := "joint1".toList
def joint2 : Str := "joint2".toList
def joint10 : Str := "joint10".toList

/-- Switching `joint2` to velocity and commanding 3 for two periods of 1/2 moves it by 3; `joint1` follows its position command. -/
example :
    let c := dynRobot [joint1, joint2]
    let r := run c [.switch [full joint2 velocity], .command (joint2, velocity) 3, .command (joint1, position) 5, .read (.fin (1/2)),
      .read (.fin (1/2))] (fresh c)
    r.2 = .ok ∧ r.1.modes = [.pos, .vel] ∧ r.1.st (joint2, position) = 3 ∧ r.1.st (joint1, position) = 5 ∧ r.1.st (joint1, velocity) = 0 ∧
      r.1.st (joint2, acceleration) = 0 := by decide +kernel

theorem demo_simulated : Simulated (dynRobot [joint1, joint2]) (perform (dynRobot [joint1, joint2]) [full joint2 velocity] (fresh (dynRobot [joint1, joint2])))
    joint2 .vel where
  enabled := by decide
  dynamics := by decide
  nodup := by decide
  mode := ⟨1, by decide +kernel, by decide +kernel⟩
  states := by intro itf hi; rcases hi with rfl | rfl | rfl <;> decide
  commands := by intro itf hi; rcases hi with rfl | rfl | rfl <;> decide
  noMimic := fun _ _ m hm => absurd hm List.not_mem_nil
  jointOnly := fun _ => ⟨fun _ hi => absurd hi List.not_mem_nil, List.not_mem_nil⟩

theorem separate_of {js : List Str}
    (h : ∀ j ∈ js, ∀ j' ∈ js, (j <:+: full j' position ∨ j <:+: full j' velocity ∨ j <:+: full j' acceleration) → j = j') : Separate js := by
  intro j hj j' hj' itf hw hin
  have : itf = position ∨ itf = velocity ∨ itf = acceleration := by
    unfold wanted at hw
    by_contra hne
    rw [not_or, not_or] at hne
    rw [if_neg hne.1, if_neg hne.2.1, if_neg hne.2.2] at hw
    cases hw
  rcases this with rfl | rfl | rfl
  · exact h j hj j' hj' (.inl hin)
  · exact h j hj j' hj' (.inr (.inl hin))
  · exact h j hj j' hj' (.inr (.inr hin))

/-- `joint1` and `joint2` are separate names, and the request is accepted. -/
example : Separate [joint1, joint2] ∧ prepare (dynRobot [joint1, joint2]) [full joint2 velocity, full joint1 acceleration] = true ∧
    prepare (dynRobot [joint1, joint2]) [full joint2 velocity, full joint2 position] = false :=
  ⟨separate_of (by decide +kernel), by decide +kernel, by decide +kernel⟩

/-! ### Violations -/

/-- Full statement: a request that names one standard interface of some of the joints is accepted, and puts these joints into the modes of the interfaces. -/
def C52_switch_full : Prop :=
  ∀ (c : Cfg) (s : St) (req : List (Str × Str)), c.dynamics = true → c.joints.Nodup → s.modes.length = c.joints.length →
    (∀ r ∈ req, r.1 ∈ c.joints ∧ (wanted r.2).isSome = true) → (req.map (·.1)).Nodup →
    prepare c (req.map fun r => full r.1 r.2) = true ∧
    ∀ r ∈ req, ∀ i : Nat, c.joints[i]? = some r.1 → (perform c (req.map fun r => full r.1 r.2) s).modes[i]? = wanted r.2

/-- On a robot with `joint1` and `joint10`, a request to start `joint10/velocity` is rejected: it is taken for one of `joint1`. -/
theorem C52_switch_rejected : prepare (dynRobot [joint1, joint10]) [full joint10 velocity] = false := by decide +kernel

/-- Together with a request for `joint1` it is accepted, but `joint10` stays in position mode and ignores velocity commands. -/
theorem C52_switch_ignored :
    let c := dynRobot [joint1, joint10]
    let r := run c [.switch [full joint1 velocity, full joint10 velocity], .command (joint10, velocity) 3, .command (joint1, velocity) 3, .read 1]
      (fresh c)
    prepare c [full joint1 velocity, full joint10 velocity] = true ∧ r.2 = .ok ∧ r.1.modes = [.vel, .pos] ∧ r.1.st (joint1, position) = 3 ∧
      r.1.st (joint10, position) = 0 := by decide +kernel

theorem C52_switch_full_false : ¬ C52_switch_full := by
  intro h
  have := (h (dynRobot [joint1, joint10]) (fresh (dynRobot [joint1, joint10])) [(joint10, velocity)] rfl (by decide +kernel) (by decide +kernel) (by decide +kernel)
    (by decide +kernel)).1
  exact absurd (show prepare (dynRobot [joint1, joint10]) [full joint10 velocity] = true from this) (by rw [C52_switch_rejected]; decide)

/-- Full statement: every mimic joint follows. -/
def C52_mimic_full : Prop :=
  ∀ (c : Cfg) (dt : Dbl) (s : St) (m : Mimic), c.disabled = false → m ∈ c.mimics → (∀ m' ∈ c.mimics, m'.joint = m.joint → m' = m) →
    c.hasState (m.joint, position) = true → c.stTy (m.mimicked, position) = some .dbl → JointOnly c (m.joint, position) →
    JointOnly c (m.mimicked, position) → (read c dt s).2 = .ok →
    (read c dt s).1.st (m.joint, position) = m.offset.add (m.multiplier.mul ((read c dt s).1.st (m.mimicked, position)))

/-- `a` mimics `b`, which mimics `c`, in the order of the joints. -/
def mimicChain : Cfg :=
  { robot with
    joints := [jA, jB, jC]
    jointStates := [⟨(jA, position), .dbl⟩, ⟨(jB, position), .dbl⟩, ⟨(jC, position), .dbl⟩]
    jointCommands := [⟨(jC, position), .dbl⟩]
    mimics := [⟨jA, jB, 1, 0⟩, ⟨jB, jC, 1, 0⟩]
    offset := 0 }

/-- `c` is commanded to 3; `b` follows at once, `a` stays behind by one period. -/
theorem C52_mimic_lags :
    let r := run mimicChain [.command (jC, position) 3, .read 1] (fresh mimicChain)
    r.2 = .ok ∧ r.1.st (jC, position) = 3 ∧ r.1.st (jB, position) = 3 ∧ r.1.st (jA, position) = 0 := by decide +kernel

theorem C52_mimic_full_false : ¬ C52_mimic_full := by
  intro h
  have := h mimicChain 1 (step mimicChain (fresh mimicChain) (.command (jC, position) 3)).1 ⟨jA, jB, 1, 0⟩ rfl (by decide) (by decide)
    (by decide) (by decide) (by unfold JointOnly; decide) (by unfold JointOnly; decide) (by decide +kernel)
  exact absurd this (by decide +kernel)

/-- One joint with a position state and the offset `o`. -/
def single (o : Rat) : Cfg := { mimicChain with joints := [jC], jointStates := [⟨(jC, position), .dbl⟩], mimics := [], offset := .fin o }

/-- `n` times `on_configure`. -/
def configures (c : Cfg) : Nat → St → St
  | 0, s => s
  | n + 1, s => configures c n (configure c s).1

/-- Every `on_configure` shifts the position states by the offset, also the second and later ones: the mock robot drifts by the offset each time it is
cleaned up and configured. -/
theorem C52_reconfigure_drifts (o q : Rat) (n : Nat) (s : St) (h : s.st (jC, position) = .fin q) :
    (configures (single o) n s).st (jC, position) = .fin (q + n * o) := by
  induction n generalizing q s with
  | zero => show s.st _ = _; rw [h]; congr 1; simp
  | succ n ih =>
    have e : (single o).stTy (jC, position) = some .dbl := rfl
    have e1 : configure1 (single o) ⟨(jC, position), .dbl⟩ s = (s.put (jC, position) (.fin (q + o)), .ok) := by
      unfold configure1 getSt setSt
      rw [e]
      simp [h, Dbl.isNan, andThen, single, mimicChain, robot, Dbl.add]
    have e2 : (configure (single o) s).1.st (jC, position) = .fin (q + o) := by
      unfold configure
      rw [show (single o).jointStates = [⟨(jC, position), .dbl⟩] from rfl, loop_cons, e1, if_pos rfl]
      show (s.put (jC, position) (.fin (q + o))).st (jC, position) = _
      exact put_same s _ _
    have := ih (q + o) _ e2
    show (configures (single o) n (configure (single o) s).1).st _ = _
    rw [this]
    congr 1
    push_cast
    ring

/-- An infinite effort command of `a`: `read` returns ERROR after moving `a`, and the mimic joint `b` stays behind. -/
theorem C52_error_leaves_mimic :
    let r := run robot [.command (jA, position) 3, .command (jA, effort) .pinf, .read 1] (fresh robot)
    r.2 = .error ∧ r.1.st (jA, position) = .fin (7/2) ∧ r.1.st (jB, position) = 0 := by decide +kernel

end Verif.Mock
