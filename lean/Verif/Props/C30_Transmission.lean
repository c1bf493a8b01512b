import Mathlib.Algebra.Order.Field.Rat
import Mathlib.Tactic.NormNum
import Mathlib.Tactic.Linarith
import Mathlib.Tactic.LinearCombination
import Verif.Num.TransmissionLemmas
/-!
# C30: the transmissions invert each other and preserve power

Statements are about the memory cells behind the handles: `m` is the memory before a call, `jointToAct`/`actToJoint` give
the memory after it. `Separate` says that no two handles share a cell. Numbers: an arbitrary field of characteristic 0
(exact arithmetic).
-/
set_option linter.unusedSectionVars false
namespace Verif
open Transm
variable {K : Type} [Field K] [DecidableEq K]

/-! ## Constructors and loaders -/

/-- **C30 (zero reductions are rejected).** The simple transmission is constructed exactly if its reduction is not zero,
with the given parameters. -/
theorem C30_simple_make (r off : K) (t : Simple K) :
    Simple.make r off = some t ↔ r ≠ 0 ∧ t = { red := r, off := off, joint := fun _ => none, act := fun _ => none } := by
  unfold Simple.make
  by_cases h : r = 0 <;> simp [h, eq_comm]

/-- **C30 (zero reductions are rejected).** The two-joint transmissions are constructed exactly if the vectors have size 2
and none of the four reductions is zero. -/
theorem C30_two_make (ar jr off : List K) (t : Two K) :
    Two.make ar jr off = some t ↔
      ar = [t.ar0, t.ar1] ∧ jr = [t.jr0, t.jr1] ∧ off = [t.off0, t.off1] ∧ t.ar0 ≠ 0 ∧ t.ar1 ≠ 0 ∧ t.jr0 ≠ 0 ∧ t.jr1 ≠ 0 ∧
      t.joint = (fun _ => []) ∧ t.act = (fun _ => []) := by
  unfold Two.make
  constructor
  · intro h
    split at h
    · split at h
      · cases h
      · next hz =>
        simp only [not_or] at hz
        cases h
        exact ⟨rfl, rfl, rfl, hz.1, hz.2.1, hz.2.2.1, hz.2.2.2, rfl, rfl⟩
    · cases h
  · rintro ⟨rfl, rfl, rfl, h1, h2, h3, h4, h5, h6⟩
    obtain ⟨a0, a1, j0, j1, o0, o1, j, a⟩ := t
    simp only at h1 h2 h3 h4 h5 h6
    subst h5 h6
    simp [h1, h2, h3, h4]

/-- **C30.** Loading from a description never yields a transmission with a zero reduction. -/
theorem C30_load_nonzero (actuators joints : List (K × K)) (t : Two K) (h : Two.load actuators joints = some t) :
    t.ar0 ≠ 0 ∧ t.ar1 ≠ 0 ∧ t.jr0 ≠ 0 ∧ t.jr1 ≠ 0 ∧ (actuators.map (·.1)).take 2 = [t.ar0, t.ar1] ∧
    (joints.map (·.1)).take 2 = [t.jr0, t.jr1] ∧ (joints.map (·.2)).take 2 = [t.off0, t.off1] := by
  unfold Two.load at h
  split at h
  · obtain ⟨h1, h2, h3, z1, z2, z3, z4, _, _⟩ := (C30_two_make _ _ _ t).1 h
    refine ⟨z1, z2, z3, z4, ?_, ?_, ?_⟩ <;> simp_all
  · cases h

/-- **C30.** Loading a simple transmission never yields a zero reduction. -/
theorem C30_simple_load_nonzero (joints : List (K × K)) (t : Simple K) (h : Simple.load joints = some t) :
    t.red ≠ 0 ∧ ∃ rest, joints = (t.red, t.off) :: rest := by
  unfold Simple.load at h
  split at h
  · next j rest =>
    obtain ⟨h1, rfl⟩ := (C30_simple_make _ _ t).1 h
    exact ⟨h1, rest, rfl⟩
  · cases h

/-! ## Simple transmission -/

/-- **C30 (simple, joints → actuators → joints).** Mapping joint values to the actuators and back leaves every joint value
that has a counterpart as it was, for all kinds of interfaces at once. -/
theorem C30_simple_joint_round_trip (t : Simple K) (hr : t.red ≠ 0) (hs : t.Separate) (m : Mem K) (k : Kind) (hk : k ∈ kinds)
    (ha : k ≠ .absPosition) (x y : Nat) (hx : t.joint k = some x) (hy : t.act k = some y) :
    t.actToJoint (t.jointToAct m) x = m x := by
  have h1 := (simple_a t hs (t.jointToAct m)).1 k hk x hx
  have h2 := (simple_j t hs m).1 k hk ha y hy
  rw [h1]
  have h3 : sA t k (t.jointToAct m) x = sA t k (sJ t k m) x := by
    obtain ⟨_, _, s3, _, _⟩ := sep _ _ hs
    have hxm : sJ t k m x = t.jointToAct m x := by
      rw [(simple_j t hs m).2 x (fun k' hk' _ e => s3 k hk k' hk' x (by simp [hx]) (by simp [e]))]
      cases k <;> simp [sJ, hx, hy, one] <;> exact set_other _ _ _ _ (fun e => s3 _ hk _ hk x (by simp [hx]) (by simp [hy, e]))
    cases k <;> simp [sA, hx, hy, one_at, h2] at hxm ⊢ <;> simp_all
  rw [h3]
  cases k <;> simp_all [sA, sJ, one_at]

/-- **C30 (simple, actuators → joints → actuators).** -/
theorem C30_simple_actuator_round_trip (t : Simple K) (hr : t.red ≠ 0) (hs : t.Separate) (m : Mem K) (k : Kind) (hk : k ∈ kinds)
    (x y : Nat) (hx : t.joint k = some x) (hy : t.act k = some y) :
    t.jointToAct (t.actToJoint m) y = m y := by
  obtain ⟨s1, s2, s3, _, _⟩ := sep _ _ hs
  by_cases ha : k = .absPosition
  · subst ha
    rw [(simple_j t hs _).2 y, (simple_a t hs m).2 y]
    · intro k' hk' e
      exact s3 k' hk' .absPosition hk y (by simp [e]) (by simp [hy])
    · intro k' hk' hne e
      exact s2 .absPosition hk k' hk' hne.symm y (by simp [hy]) (by simp [e])
  · rw [(simple_j t hs _).1 k hk ha y hy]
    have h1 := (simple_a t hs m).1 k hk x hx
    cases k <;> first | (exfalso; revert hk; simp [kinds]; done) | simp_all [sA, sJ, one_at]

/-- **C30 (simple, what is written).** `actuator_to_joint` writes joint cells of mapped kinds only; `joint_to_actuator`
writes actuator cells only, and not the absolute position. -/
theorem C30_simple_frame (t : Simple K) (hs : t.Separate) (m : Mem K) (x : Nat) :
    ((∀ k ∈ kinds, t.joint k = some x → t.act k = none) → t.actToJoint m x = m x) ∧
    ((∀ k ∈ kinds, k ≠ .absPosition → t.act k = some x → t.joint k = none) → t.jointToAct m x = m x) := by
  constructor
  · intro h
    by_cases hx : ∃ k ∈ kinds, t.joint k = some x
    · obtain ⟨k, hk, e⟩ := hx
      rw [(simple_a t hs m).1 k hk x e]
      have := h k hk e
      cases k <;> simp [sA, this, one]
    · exact (simple_a t hs m).2 x (fun k hk e => hx ⟨k, hk, e⟩)
  · intro h
    by_cases hx : ∃ k ∈ kinds, k ≠ .absPosition ∧ t.act k = some x
    · obtain ⟨k, hk, hne, e⟩ := hx
      rw [(simple_j t hs m).1 k hk hne x e]
      have := h k hk hne e
      cases k <;> simp [sJ, this, one]
    · exact (simple_j t hs m).2 x (fun k hk hne e => hx ⟨k, hk, hne, e⟩)

/-- **C30 (simple, power).** Effort (or torque, or force) times velocity is the same on both sides after
`actuator_to_joint`. -/
theorem C30_simple_power (t : Simple K) (hr : t.red ≠ 0) (hs : t.Separate) (m : Mem K) (e : Kind)
    (he : e = .effort ∨ e = .torque ∨ e = .force) (je ae jv av : Nat)
    (h1 : t.joint e = some je) (h2 : t.act e = some ae) (h3 : t.joint .velocity = some jv) (h4 : t.act .velocity = some av) :
    t.actToJoint m je * t.actToJoint m jv = m ae * m av := by
  have hv := (simple_a t hs m).1 .velocity (by simp [kinds]) jv h3
  have hee := (simple_a t hs m).1 e (by rcases he with rfl | rfl | rfl <;> simp [kinds]) je h1
  rw [hv, hee]
  rcases he with rfl | rfl | rfl <;> simp [sA, h1, h2, h3, h4, one_at] <;> field_simp

/-- **C30 (simple, positions follow velocities).** If the actuator position advances by `dt` times its velocity, the joint
position advances by `dt` times the joint velocity. -/
theorem C30_simple_position_velocity (t : Simple K) (hr : t.red ≠ 0) (hs : t.Separate) (m m' : Mem K) (dt : K) (p : Kind)
    (hp : p = .position ∨ p = .absPosition) (jp ap jv av : Nat) (h1 : t.joint p = some jp)
    (h2 : t.act p = some ap) (h3 : t.joint .velocity = some jv) (h4 : t.act .velocity = some av) (hm : m' ap = m ap + dt * m av) :
    t.actToJoint m' jp = t.actToJoint m jp + dt * t.actToJoint m jv := by
  have hk : p ∈ kinds := by rcases hp with rfl | rfl <;> simp [kinds]
  rw [(simple_a t hs m').1 p hk jp h1, (simple_a t hs m).1 p hk jp h1, (simple_a t hs m).1 .velocity (by simp [kinds]) jv h3]
  rcases hp with rfl | rfl <;> simp [sA, h1, h2, h3, h4, one_at, hm] <;> field_simp <;> ring

/-! ## Two joints, two actuators -/

/-- None of the four reductions is zero (as after construction, `C30_two_make`). -/
def Nonzero (t : Two K) : Prop := t.ar0 ≠ 0 ∧ t.ar1 ≠ 0 ∧ t.jr0 ≠ 0 ∧ t.jr1 ≠ 0

/-- **C30 (what is written).** `actuator_to_joint` writes only cells of joint handles, `joint_to_actuator` only cells of actuator
handles and never an absolute position. -/
theorem C30_two_frame (t : Two K) (hs : t.Separate) (m : Mem K) (x : Nat) :
    ((∀ k ∈ kinds, x ∉ t.joint k) → t.diffActToJoint m x = m x) ∧
    ((∀ k ∈ kinds, k ≠ .absPosition → x ∉ t.act k) → t.diffJointToAct m x = m x) ∧
    ((∀ k ∈ fourKinds, x ∉ t.joint k) → t.fourActToJoint m x = m x) ∧
    ((∀ k ∈ fourKinds, x ∉ t.act k) → t.fourJointToAct m x = m x) :=
  ⟨(diff_a t hs m).2 x, (diff_j t hs m).2 x, (four_a t hs m).2 x, (four_j t hs m).2 x⟩

/-- **C30 (absolute position).** The absolute position is mapped like the position: equal actuator values give equal joint
values. -/
theorem C30_absolute_position (t : Two K) (hs : t.Separate) (m : Mem K) (x0 x1 y0 y1 v0 v1 w0 w1 : Nat)
    (h1 : t.joint .position = [x0, x1]) (h2 : t.act .position = [y0, y1]) (h3 : t.joint .absPosition = [v0, v1])
    (h4 : t.act .absPosition = [w0, w1]) (e0 : m w0 = m y0) (e1 : m w1 = m y1) :
    t.diffActToJoint m v0 = t.diffActToJoint m x0 ∧ t.diffActToJoint m v1 = t.diffActToJoint m x1 := by
  have hp : Kind.position ∈ kinds := by simp [kinds]
  have ha : Kind.absPosition ∈ kinds := by simp [kinds]
  obtain ⟨q1, q2, q3, q4, q5, q6⟩ := quad hs hp h1 h2
  obtain ⟨r1, r2, r3, r4, r5, r6⟩ := quad hs ha h3 h4
  rw [(diff_a t hs m).1 .position hp x0 (by simp [h1]), (diff_a t hs m).1 .position hp x1 (by simp [h1]),
    (diff_a t hs m).1 .absPosition ha v0 (by simp [h3]), (diff_a t hs m).1 .absPosition ha v1 (by simp [h3])]
  simp only [dA, h1, h2, h3, h4, two_0 _ _ _ _ _ _ _ q1, two_1 _ _ _ _ _ _ _ q3.symm q4.symm, two_0 _ _ _ _ _ _ _ r1,
      two_1 _ _ _ _ _ _ _ r3.symm r4.symm, e0, e1, and_self]

/-- **C30 (absolute position, simple).** -/
theorem C30_simple_absolute_position (t : Simple K) (hs : t.Separate) (m : Mem K) (x y v w : Nat) (h1 : t.joint .position = some x)
    (h2 : t.act .position = some y) (h3 : t.joint .absPosition = some v) (h4 : t.act .absPosition = some w) (e : m w = m y) :
    t.actToJoint m v = t.actToJoint m x := by
  rw [(simple_a t hs m).1 .position (by simp [kinds]) x h1, (simple_a t hs m).1 .absPosition (by simp [kinds]) v h3]
  simp [sA, h1, h2, h3, h4, one_at, e]

variable [CharZero K]

/-- **C30 (differential, joints → actuators → joints).** -/
theorem C30_differential_joint_round_trip (t : Two K) (hz : Nonzero t) (hs : t.Separate) (m : Mem K) (k : Kind) (hk : k ∈ kinds)
    (ha : k ≠ .absPosition) (x0 x1 y0 y1 : Nat) (hx : t.joint k = [x0, x1]) (hy : t.act k = [y0, y1]) :
    t.diffActToJoint (t.diffJointToAct m) x0 = m x0 ∧ t.diffActToJoint (t.diffJointToAct m) x1 = m x1 := by
  obtain ⟨z1, z2, z3, z4⟩ := hz
  obtain ⟨q1, q2, q3, q4, q5, q6⟩ := quad hs hk hx hy
  have e0 := (diff_j t hs m).1 k hk ha y0 (by simp [hy])
  have e1 := (diff_j t hs m).1 k hk ha y1 (by simp [hy])
  rw [(diff_a t hs _).1 k hk x0 (by simp [hx]), (diff_a t hs _).1 k hk x1 (by simp [hx])]
  cases k <;> simp only [dA, dJ, hx, hy, two_0 _ _ _ _ _ _ _ q1, two_1 _ _ _ _ _ _ _ q3.symm q4.symm, two_0 _ _ _ _ _ _ _ q2,
      two_1 _ _ _ _ _ _ _ q3 q5, twoPre_0 _ _ _ _ _ _ _ q2, twoPre_1] at e0 e1 ⊢ <;>
    first
    | (exfalso; revert hk; simp [kinds]; done)
    | (exfalso; exact ha rfl)
    | (rw [e0, e1]; constructor <;> field_simp <;> ring)

/-- **C30 (differential, actuators → joints → actuators).** -/
theorem C30_differential_actuator_round_trip (t : Two K) (hz : Nonzero t) (hs : t.Separate) (m : Mem K) (k : Kind) (hk : k ∈ kinds)
    (x0 x1 y0 y1 : Nat) (hx : t.joint k = [x0, x1]) (hy : t.act k = [y0, y1]) :
    t.diffJointToAct (t.diffActToJoint m) y0 = m y0 ∧ t.diffJointToAct (t.diffActToJoint m) y1 = m y1 := by
  obtain ⟨z1, z2, z3, z4⟩ := hz
  obtain ⟨q1, q2, q3, q4, q5, q6⟩ := quad hs hk hx hy
  by_cases ha : k = .absPosition
  · subst ha
    obtain ⟨_, s2, _, _, _⟩ := sep _ _ hs
    have hf : ∀ y ∈ t.act .absPosition, ∀ m', t.diffJointToAct m' y = m' y := fun y hy m' =>
      (diff_j t hs m').2 y (fun k' hk' hne hy' => s2 .absPosition hk k' hk' hne.symm y hy hy')
    rw [hf y0 (by simp [hy]), hf y1 (by simp [hy]), (diff_keep t hs m _ hk).2 y0 (by simp [hy]), (diff_keep t hs m _ hk).2 y1 (by simp [hy])]
    exact ⟨rfl, rfl⟩
  have e0 := (diff_a t hs m).1 k hk x0 (by simp [hx])
  have e1 := (diff_a t hs m).1 k hk x1 (by simp [hx])
  rw [(diff_j t hs _).1 k hk ha y0 (by simp [hy]), (diff_j t hs _).1 k hk ha y1 (by simp [hy])]
  cases k <;> simp only [dA, dJ, hx, hy, two_0 _ _ _ _ _ _ _ q1, two_1 _ _ _ _ _ _ _ q3.symm q4.symm, two_0 _ _ _ _ _ _ _ q2,
      two_1 _ _ _ _ _ _ _ q3 q5, twoPre_0 _ _ _ _ _ _ _ q2, twoPre_1] at e0 e1 ⊢ <;>
    first
    | (exfalso; revert hk; simp [kinds]; done)
    | (exfalso; exact ha rfl)
    | (rw [e0, e1]; constructor <;> field_simp <;> ring)

/-- **C30 (differential, power).** -/
theorem C30_differential_power (t : Two K) (hz : Nonzero t) (hs : t.Separate) (m : Mem K) (e : Kind)
    (he : e = .effort ∨ e = .torque ∨ e = .force) (x0 x1 y0 y1 v0 v1 w0 w1 : Nat) (h1 : t.joint e = [x0, x1]) (h2 : t.act e = [y0, y1])
    (h3 : t.joint .velocity = [v0, v1]) (h4 : t.act .velocity = [w0, w1]) :
    t.diffActToJoint m x0 * t.diffActToJoint m v0 + t.diffActToJoint m x1 * t.diffActToJoint m v1 = m y0 * m w0 + m y1 * m w1 := by
  obtain ⟨z1, z2, z3, z4⟩ := hz
  have hv : Kind.velocity ∈ kinds := by simp [kinds]
  have hk : e ∈ kinds := by rcases he with rfl | rfl | rfl <;> simp [kinds]
  obtain ⟨q1, q2, q3, q4, q5, q6⟩ := quad hs hk h1 h2
  obtain ⟨r1, r2, r3, r4, r5, r6⟩ := quad hs hv h3 h4
  rw [(diff_a t hs m).1 e hk x0 (by simp [h1]), (diff_a t hs m).1 e hk x1 (by simp [h1]),
    (diff_a t hs m).1 .velocity hv v0 (by simp [h3]), (diff_a t hs m).1 .velocity hv v1 (by simp [h3])]
  rcases he with rfl | rfl | rfl <;>
    simp only [dA, h1, h2, h3, h4, two_0 _ _ _ _ _ _ _ q1, two_1 _ _ _ _ _ _ _ q3.symm q4.symm, two_0 _ _ _ _ _ _ _ r1,
      two_1 _ _ _ _ _ _ _ r3.symm r4.symm] <;> field_simp <;> ring

/-- **C30 (differential, positions follow velocities).** -/
theorem C30_differential_position_velocity (t : Two K) (hz : Nonzero t) (hs : t.Separate) (m m' : Mem K) (dt : K) (p : Kind)
    (hp : p = .position ∨ p = .absPosition) (x0 x1 y0 y1 v0 v1 w0 w1 : Nat) (h1 : t.joint p = [x0, x1]) (h2 : t.act p = [y0, y1])
    (h3 : t.joint .velocity = [v0, v1]) (h4 : t.act .velocity = [w0, w1]) (hm0 : m' y0 = m y0 + dt * m w0) (hm1 : m' y1 = m y1 + dt * m w1) :
    t.diffActToJoint m' x0 = t.diffActToJoint m x0 + dt * t.diffActToJoint m v0 ∧
    t.diffActToJoint m' x1 = t.diffActToJoint m x1 + dt * t.diffActToJoint m v1 := by
  obtain ⟨z1, z2, z3, z4⟩ := hz
  have hv : Kind.velocity ∈ kinds := by simp [kinds]
  have hk : p ∈ kinds := by rcases hp with rfl | rfl <;> simp [kinds]
  obtain ⟨q1, q2, q3, q4, q5, q6⟩ := quad hs hk h1 h2
  obtain ⟨r1, r2, r3, r4, r5, r6⟩ := quad hs hv h3 h4
  rw [(diff_a t hs m).1 p hk x0 (by simp [h1]), (diff_a t hs m).1 p hk x1 (by simp [h1]), (diff_a t hs m').1 p hk x0 (by simp [h1]),
    (diff_a t hs m').1 p hk x1 (by simp [h1]), (diff_a t hs m).1 .velocity hv v0 (by simp [h3]), (diff_a t hs m).1 .velocity hv v1 (by simp [h3])]
  rcases hp with rfl | rfl <;>
    simp only [dA, h1, h2, h3, h4, two_0 _ _ _ _ _ _ _ q1, two_1 _ _ _ _ _ _ _ q3.symm q4.symm, two_0 _ _ _ _ _ _ _ r1,
      two_1 _ _ _ _ _ _ _ r3.symm r4.symm, hm0, hm1] <;> constructor <;> field_simp <;> ring

/-- **C30 (four-bar, joints → actuators → joints).** -/
theorem C30_fourbar_joint_round_trip (t : Two K) (hz : Nonzero t) (hs : t.Separate) (m : Mem K) (k : Kind) (hk : k ∈ fourKinds)
    (x0 x1 y0 y1 : Nat) (hx : t.joint k = [x0, x1]) (hy : t.act k = [y0, y1]) :
    t.fourActToJoint (t.fourJointToAct m) x0 = m x0 ∧ t.fourActToJoint (t.fourJointToAct m) x1 = m x1 := by
  obtain ⟨z1, z2, z3, z4⟩ := hz
  obtain ⟨q1, q2, q3, q4, q5, q6⟩ := quad hs (fourKinds_sub k hk) hx hy
  have e0 := (four_j t hs m).1 k hk y0 (by simp [hy])
  have e1 := (four_j t hs m).1 k hk y1 (by simp [hy])
  rw [(four_a t hs _).1 k hk x0 (by simp [hx]), (four_a t hs _).1 k hk x1 (by simp [hx])]
  cases k <;> simp only [fA, fJ, hx, hy, two_0 _ _ _ _ _ _ _ q1, two_1 _ _ _ _ _ _ _ q3.symm q4.symm, two_0 _ _ _ _ _ _ _ q2,
      two_1 _ _ _ _ _ _ _ q3 q5, twoPre_0 _ _ _ _ _ _ _ q2, twoPre_1] at e0 e1 ⊢ <;>
    first
    | (exfalso; revert hk; simp [fourKinds]; done)
    | (rw [e0, e1]; constructor <;> field_simp <;> ring)

/-- **C30 (four-bar, actuators → joints → actuators).** -/
theorem C30_fourbar_actuator_round_trip (t : Two K) (hz : Nonzero t) (hs : t.Separate) (m : Mem K) (k : Kind) (hk : k ∈ fourKinds)
    (x0 x1 y0 y1 : Nat) (hx : t.joint k = [x0, x1]) (hy : t.act k = [y0, y1]) :
    t.fourJointToAct (t.fourActToJoint m) y0 = m y0 ∧ t.fourJointToAct (t.fourActToJoint m) y1 = m y1 := by
  obtain ⟨z1, z2, z3, z4⟩ := hz
  obtain ⟨q1, q2, q3, q4, q5, q6⟩ := quad hs (fourKinds_sub k hk) hx hy
  have e0 := (four_a t hs m).1 k hk x0 (by simp [hx])
  have e1 := (four_a t hs m).1 k hk x1 (by simp [hx])
  rw [(four_j t hs _).1 k hk y0 (by simp [hy]), (four_j t hs _).1 k hk y1 (by simp [hy])]
  cases k <;> simp only [fA, fJ, hx, hy, two_0 _ _ _ _ _ _ _ q1, two_1 _ _ _ _ _ _ _ q3.symm q4.symm, two_0 _ _ _ _ _ _ _ q2,
      two_1 _ _ _ _ _ _ _ q3 q5, twoPre_0 _ _ _ _ _ _ _ q2, twoPre_1] at e0 e1 ⊢ <;>
    first
    | (exfalso; revert hk; simp [fourKinds]; done)
    | (rw [e0, e1]; constructor <;> field_simp <;> ring)

/-- **C30 (four-bar, power).** -/
theorem C30_fourbar_power (t : Two K) (hz : Nonzero t) (hs : t.Separate) (m : Mem K) (x0 x1 y0 y1 v0 v1 w0 w1 : Nat)
    (h1 : t.joint .effort = [x0, x1]) (h2 : t.act .effort = [y0, y1]) (h3 : t.joint .velocity = [v0, v1]) (h4 : t.act .velocity = [w0, w1]) :
    t.fourActToJoint m x0 * t.fourActToJoint m v0 + t.fourActToJoint m x1 * t.fourActToJoint m v1 = m y0 * m w0 + m y1 * m w1 := by
  obtain ⟨z1, z2, z3, z4⟩ := hz
  have hv : Kind.velocity ∈ fourKinds := by simp [fourKinds]
  have hk : Kind.effort ∈ fourKinds := by simp [fourKinds]
  obtain ⟨q1, q2, q3, q4, q5, q6⟩ := quad hs (fourKinds_sub _ hk) h1 h2
  obtain ⟨r1, r2, r3, r4, r5, r6⟩ := quad hs (fourKinds_sub _ hv) h3 h4
  rw [(four_a t hs m).1 .effort hk x0 (by simp [h1]), (four_a t hs m).1 .effort hk x1 (by simp [h1]),
    (four_a t hs m).1 .velocity hv v0 (by simp [h3]), (four_a t hs m).1 .velocity hv v1 (by simp [h3])]
  simp only [fA, h1, h2, h3, h4, two_0 _ _ _ _ _ _ _ q1, two_1 _ _ _ _ _ _ _ q3.symm q4.symm, two_0 _ _ _ _ _ _ _ r1,
      two_1 _ _ _ _ _ _ _ r3.symm r4.symm]
  field_simp
  ring

/-- **C30 (four-bar, positions follow velocities).** -/
theorem C30_fourbar_position_velocity (t : Two K) (hz : Nonzero t) (hs : t.Separate) (m m' : Mem K) (dt : K)
    (x0 x1 y0 y1 v0 v1 w0 w1 : Nat) (h1 : t.joint .position = [x0, x1]) (h2 : t.act .position = [y0, y1])
    (h3 : t.joint .velocity = [v0, v1]) (h4 : t.act .velocity = [w0, w1]) (hm0 : m' y0 = m y0 + dt * m w0) (hm1 : m' y1 = m y1 + dt * m w1) :
    t.fourActToJoint m' x0 = t.fourActToJoint m x0 + dt * t.fourActToJoint m v0 ∧
    t.fourActToJoint m' x1 = t.fourActToJoint m x1 + dt * t.fourActToJoint m v1 := by
  obtain ⟨z1, z2, z3, z4⟩ := hz
  have hv : Kind.velocity ∈ fourKinds := by simp [fourKinds]
  have hk : Kind.position ∈ fourKinds := by simp [fourKinds]
  obtain ⟨q1, q2, q3, q4, q5, q6⟩ := quad hs (fourKinds_sub _ hk) h1 h2
  obtain ⟨r1, r2, r3, r4, r5, r6⟩ := quad hs (fourKinds_sub _ hv) h3 h4
  rw [(four_a t hs m).1 .position hk x0 (by simp [h1]), (four_a t hs m).1 .position hk x1 (by simp [h1]),
    (four_a t hs m').1 .position hk x0 (by simp [h1]), (four_a t hs m').1 .position hk x1 (by simp [h1]),
    (four_a t hs m).1 .velocity hv v0 (by simp [h3]), (four_a t hs m).1 .velocity hv v1 (by simp [h3])]
  simp only [fA, h1, h2, h3, h4, two_0 _ _ _ _ _ _ _ q1, two_1 _ _ _ _ _ _ _ q3.symm q4.symm, two_0 _ _ _ _ _ _ _ r1,
      two_1 _ _ _ _ _ _ _ r3.symm r4.symm, hm0, hm1]
  constructor <;> field_simp <;> ring

end Verif
