import Verif.Props.C30_Transmission
import Verif.Num.TransmissionR

/-!
# C72: the transmissions in floating point

The properties of C30 for the `double` arithmetic of the code. `t` and `m` are the parameters and the memory as exact numbers, `t.fl binary64` and
`m.fl binary64` the same numbers as `double`s, calculated with by IEEE 754 operations. `Err x r S`: `x` is finite and differs from `r` by at most
`2^-47 * S`. `sz q` is `|q| + 2^-400`. Reductions are between `2^-50` and `2^50` in magnitude, offsets and values below `2^399`; for extreme numbers
the claims are false (`C72_extreme`). The sizes `S` are the sums of the magnitudes of the terms: cancellation between two actuators costs accuracy
and no implementation in `double` can avoid that.
-/
set_option linter.unusedSectionVars false
namespace Verif
open Transm Rounding

/-- A moderate reduction. -/
abbrev Moderate (c : Rat) : Prop := Factor c 50

/-! ## Simple transmission -/

/-- The magnitude of the terms of a joint value calculated from the actuator value `a`. -/
def Transm.Simple.jointSize (t : Simple Rat) (k : Kind) (a : Rat) : Rat :=
  match k with
  | .position | .absPosition => sz a / |t.red| + sz t.off
  | .velocity => sz a / |t.red|
  | _ => sz a * |t.red|

/-- The magnitude of the terms of an actuator value calculated from the joint value `j`. -/
def Transm.Simple.actSize (t : Simple Rat) (k : Kind) (j : Rat) : Rat :=
  match k with
  | .position | .absPosition => (sz j + sz t.off) * |t.red|
  | .velocity => sz j * |t.red|
  | _ => sz j / |t.red|

section simple
variable {t : Simple Rat} (hr : Moderate t.red) (ho : |t.off| ≤ 2 ^ 399)
include hr ho

theorem simple_near_a {x : Dbl} {r S : Rat} {k n : Nat} (h : Near x r S k n) (hk : k ≤ 20) (h4 : 400 ≤ n) (hn : n ≤ 600) :
    Near (binary64.mul x (.fin t.red)) (r * t.red) (S * |t.red|) (k + 1) (n + 50) ∧
    Near (binary64.div x (.fin t.red)) (r / t.red) (S / |t.red|) (k + 3) (n + 50) ∧
    Near (binary64.add (binary64.div x (.fin t.red)) (.fin t.off)) (r / t.red + t.off) (S / |t.red| + sz t.off) (k + 4) (n + 51) ∧
    Near (binary64.mul (binary64.sub x (.fin t.off)) (.fin t.red)) ((r - t.off) * t.red) ((S + sz t.off) * |t.red|) (k + 2) (n + 51) := by
  have d := near_div h hr (by omega) (by omega)
  have a := near_add d (near_fin ho) (by omega) (by omega)
  have s := near_sub h (near_fin ho) (by omega) (by omega)
  have sm := near_mul s hr (by omega) (by omega)
  refine ⟨near_mul h hr (by omega) (by omega), d, ?_, ?_⟩
  · rwa [show max (k + 3) 0 + 1 = k + 4 by omega, show max (n + 50) 400 + 1 = n + 51 by omega] at a
  · rwa [show max k 0 + 1 + 1 = k + 2 by omega, show max n 400 + 1 + 50 = n + 51 by omega] at sm

/-- **C72 (simple, accuracy).** Every mapped joint value is the exact one (C30) up to `2^-47` of the magnitude of its terms. -/
theorem C72_simple_accuracy (hs : t.Separate) (m : Mem Rat) (k : Kind) (hk : k ∈ kinds) (x y : Nat) (hx : t.joint k = some x)
    (hy : t.act k = some y) (hm : |m y| ≤ 2 ^ 399) :
    Err ((t.fl binary64).actToJoint (m.fl binary64) x) (t.actToJoint m x) (t.jointSize k (m y)) := by
  obtain ⟨n1, n2, n3, n4⟩ := simple_near_a hr ho (near_fin hm) (by omega) (by omega) (by omega)
  rw [(simple_a t hs m).1 k hk x hx, (simple_a (t.fl binary64) hs _).1 k hk x hx]
  cases k <;> simp only [sA, Simple.fl, hx, hy, one_at, Simple.jointSize] <;>
    first
    | exact n1.err (by omega) rfl rfl
    | exact n2.err (by omega) rfl rfl
    | exact n3.err (by omega) rfl rfl
    | (exfalso; revert hk; simp [kinds]; done)

/-- **C72 (simple, accuracy).** Every mapped actuator value is the exact one up to `2^-47` of the magnitude of its terms. -/
theorem C72_simple_accuracy_actuator (hs : t.Separate) (m : Mem Rat) (k : Kind) (hk : k ∈ kinds) (ha : k ≠ .absPosition) (x y : Nat)
    (hx : t.joint k = some x) (hy : t.act k = some y) (hm : |m x| ≤ 2 ^ 399) :
    Err ((t.fl binary64).jointToAct (m.fl binary64) y) (t.jointToAct m y) (t.actSize k (m x)) := by
  obtain ⟨n1, n2, n3, n4⟩ := simple_near_a hr ho (near_fin hm) (by omega) (by omega) (by omega)
  rw [(simple_j t hs m).1 k hk ha y hy, (simple_j (t.fl binary64) hs _).1 k hk ha y hy]
  cases k <;> simp only [sJ, Simple.fl, hx, hy, one_at, Simple.actSize] <;>
    first
    | exact n1.err (by omega) rfl rfl
    | exact n2.err (by omega) rfl rfl
    | exact n4.err (by omega) rfl rfl
    | (exfalso; revert hk; simp [kinds]; done)
    | exact absurd rfl ha

/-- **C72 (simple, actuators → joints → actuators).** -/
theorem C72_simple_actuator_round_trip (hs : t.Separate) (m : Mem Rat) (k : Kind) (hk : k ∈ kinds) (ha : k ≠ .absPosition) (x y : Nat)
    (hx : t.joint k = some x) (hy : t.act k = some y) (hm : |m y| ≤ 2 ^ 399) :
    Err ((t.fl binary64).jointToAct ((t.fl binary64).actToJoint (m.fl binary64)) y) (m y)
      (if k = .position then sz (m y) + 2 * |t.red| * sz t.off else sz (m y)) := by
  obtain ⟨n1, n2, n3, n4⟩ := simple_near_a hr ho (near_fin hm) (by omega) (by omega) (by omega)
  have o1 := (simple_near_a hr ho n1 (by omega) (by omega) (by omega)).2.1
  have o2 := (simple_near_a hr ho n2 (by omega) (by omega) (by omega)).1
  have o3 := (simple_near_a hr ho n3 (by omega) (by omega) (by omega)).2.2.2
  rw [(simple_j (t.fl binary64) hs _).1 k hk ha y hy]
  have e := (simple_a (t.fl binary64) hs (m.fl binary64)).1 k hk x hx
  have r0 := hr.ne
  have r1 := hr.pos
  cases k <;> simp only [sA, sJ, Simple.fl, hx, hy, one_at] at e ⊢ <;> first | rw [e] | skip
  · exact o3.err (by omega) (by field_simp; ring) (by simp only [if_true]; field_simp; ring)
  · exact o2.err (by omega) (by field_simp) (by simp only [reduceCtorEq, if_false]; field_simp)
  · exact o1.err (by omega) (by field_simp) (by simp only [reduceCtorEq, if_false]; field_simp)
  · exact o1.err (by omega) (by field_simp) (by simp only [reduceCtorEq, if_false]; field_simp)
  · exact o1.err (by omega) (by field_simp) (by simp only [reduceCtorEq, if_false]; field_simp)
  · exact absurd rfl ha
  · exfalso; revert hk; simp [kinds]

/-- **C72 (simple, joints → actuators → joints).** -/
theorem C72_simple_joint_round_trip (hs : t.Separate) (m : Mem Rat) (k : Kind) (hk : k ∈ kinds) (ha : k ≠ .absPosition) (x y : Nat)
    (hx : t.joint k = some x) (hy : t.act k = some y) (hm : |m x| ≤ 2 ^ 399) :
    Err ((t.fl binary64).actToJoint ((t.fl binary64).jointToAct (m.fl binary64)) x) (m x)
      (if k = .position then sz (m x) + 2 * sz t.off else sz (m x)) := by
  obtain ⟨n1, n2, n3, n4⟩ := simple_near_a hr ho (near_fin hm) (by omega) (by omega) (by omega)
  have o1 := (simple_near_a hr ho n1 (by omega) (by omega) (by omega)).2.1
  have o2 := (simple_near_a hr ho n2 (by omega) (by omega) (by omega)).1
  have o3 := (simple_near_a hr ho n4 (by omega) (by omega) (by omega)).2.2.1
  rw [(simple_a (t.fl binary64) hs _).1 k hk x hx]
  have e := (simple_j (t.fl binary64) hs (m.fl binary64)).1 k hk ha y hy
  have r0 := hr.ne
  have r1 := hr.pos
  cases k <;> simp only [sA, sJ, Simple.fl, hx, hy, one_at] at e ⊢ <;> first | rw [e] | skip
  · exact o3.err (by omega) (by field_simp; ring) (by simp only [if_true]; field_simp; ring)
  · exact o1.err (by omega) (by field_simp) (by simp only [reduceCtorEq, if_false]; field_simp)
  · exact o2.err (by omega) (by field_simp) (by simp only [reduceCtorEq, if_false]; field_simp)
  · exact o2.err (by omega) (by field_simp) (by simp only [reduceCtorEq, if_false]; field_simp)
  · exact o2.err (by omega) (by field_simp) (by simp only [reduceCtorEq, if_false]; field_simp)
  · exact absurd rfl ha
  · exfalso; revert hk; simp [kinds]

end simple

/-! ## Two joints, two actuators -/

/-- Moderate parameters of a two-joint transmission. -/
structure ModerateTwo (t : Two Rat) : Prop where
  ar0 : Moderate t.ar0
  ar1 : Moderate t.ar1
  jr0 : Moderate t.jr0
  jr1 : Moderate t.jr1
  off0 : |t.off0| ≤ 2 ^ 399
  off1 : |t.off1| ≤ 2 ^ 399

/-- Weaker bounds. -/
theorem near_mono {x : Dbl} {r S : Rat} {k n k' n' : Nat} (h : Near x r S k n) (hk : k ≤ k') (hn : n ≤ n') : Near x r S k' n' := by
  obtain ⟨q, hq, he⟩ := h.val
  refine ⟨⟨q, hq, he.trans ?_⟩, h.size, le_trans ?_ h.lo, h.hi.trans (pow_le_pow_right₀ (by norm_num) hn)⟩
  · have : (k : Rat) ≤ k' := by exact_mod_cast hk
    have := uu_pos
    have := h.pos
    gcongr
  · exact zpow_le_zpow_right₀ (by norm_num) (by omega)

theorem near_two : Near (Dbl.fin 2) 2 2 0 1 := ⟨⟨2, rfl, by simp⟩, by norm_num, by norm_num, by norm_num⟩

theorem near_twice {c : Rat} (hc : Moderate c) : Near (binary64.mul (.fin 2) (.fin c)) (2 * c) |2 * c| 1 51 := by
  have := near_mul near_two hc (by omega) (by omega)
  rw [show (2 : Rat) * |c| = |2 * c| by rw [abs_mul]; norm_num] at this
  exact near_mono this (by omega) (by omega)

section steps
variable {x y : Dbl} {r s S T : Rat} {k n : Nat} (hx : Near x r S k n) (hy : Near y s T k n)
include hx hy

theorem nadd (hk : k ≤ 90) (hn : n ≤ 950) : Near (binary64.add x y) (r + s) (S + T) (k + 1) (n + 1) := by
  have := near_add hx hy (by omega) (by omega)
  rwa [max_self, max_self] at this

theorem nsub (hk : k ≤ 90) (hn : n ≤ 950) : Near (binary64.sub x y) (r - s) (S + T) (k + 1) (n + 1) := by
  have := near_sub hx hy (by omega) (by omega)
  rwa [max_self, max_self] at this

variable {c d e : Rat} (hk : k ≤ 40) (hn : n ≤ 800) (hc : Moderate c) (hd : Moderate d) (he : Moderate e)
include hc hd he hk hn

/-- `(x / c ± y / d) / (2 * e)`. -/
theorem n_half : Near (binary64.div (binary64.add (binary64.div x (.fin c)) (binary64.div y (.fin d))) (binary64.mul (.fin 2) (.fin e)))
      ((r / c + s / d) / (2 * e)) ((S / |c| + T / |d|) / |2 * e|) (k + 7) (n + 102) ∧
    Near (binary64.div (binary64.sub (binary64.div x (.fin c)) (binary64.div y (.fin d))) (binary64.mul (.fin 2) (.fin e)))
      ((r / c - s / d) / (2 * e)) ((S / |c| + T / |d|) / |2 * e|) (k + 7) (n + 102) := by
  have h1 := near_div hx hc (by omega) (by omega)
  have h2 := near_div hy hd (by omega) (by omega)
  have a := nadd h1 h2 (by omega) (by omega)
  have b := nsub h1 h2 (by omega) (by omega)
  have a' := near_div' a (near_twice he) (by omega) (by omega)
  have b' := near_div' b (near_twice he) (by omega) (by omega)
  exact ⟨near_mono a' (by omega) (by omega), near_mono b' (by omega) (by omega)⟩

/-- `(x * c ± y * d) * e` and `e * (x * c ± y * d)`. -/
theorem n_lin : Near (binary64.mul (binary64.add (binary64.mul x (.fin c)) (binary64.mul y (.fin d))) (.fin e))
      ((r * c + s * d) * e) ((S * |c| + T * |d|) * |e|) (k + 3) (n + 101) ∧
    Near (binary64.mul (binary64.sub (binary64.mul x (.fin c)) (binary64.mul y (.fin d))) (.fin e))
      ((r * c - s * d) * e) ((S * |c| + T * |d|) * |e|) (k + 3) (n + 101) ∧
    Near (binary64.mul (.fin e) (binary64.add (binary64.mul x (.fin c)) (binary64.mul y (.fin d))))
      (e * (r * c + s * d)) (|e| * (S * |c| + T * |d|)) (k + 3) (n + 101) ∧
    Near (binary64.mul (.fin e) (binary64.sub (binary64.mul x (.fin c)) (binary64.mul y (.fin d))))
      (e * (r * c - s * d)) (|e| * (S * |c| + T * |d|)) (k + 3) (n + 101) := by
  have h1 := near_mul hx hc (by omega) (by omega)
  have h2 := near_mul hy hd (by omega) (by omega)
  have a := nadd h1 h2 (by omega) (by omega)
  have b := nsub h1 h2 (by omega) (by omega)
  have c1 := near_mul a he (by omega) (by omega)
  have c2 := near_mul b he (by omega) (by omega)
  have c3 := near_mul' a he (by omega) (by omega)
  have c4 := near_mul' b he (by omega) (by omega)
  exact ⟨near_mono c1 (by omega) (by omega), near_mono c2 (by omega) (by omega), near_mono c3 (by omega) (by omega),
    near_mono c4 (by omega) (by omega)⟩

end steps

/-- Adding or subtracting an offset. -/
theorem n_off {x : Dbl} {r S o : Rat} {k n : Nat} (hx : Near x r S k n) (ho : |o| ≤ 2 ^ 399) (hk : k ≤ 40) (h4 : 400 ≤ n) (hn : n ≤ 900) :
    Near (binary64.add x (.fin o)) (r + o) (S + sz o) (k + 1) (n + 1) ∧ Near (binary64.sub x (.fin o)) (r - o) (S + sz o) (k + 1) (n + 1) := by
  have a := near_add hx (near_fin ho) (by omega) (by omega)
  have b := near_sub hx (near_fin ho) (by omega) (by omega)
  rw [show max k 0 + 1 = k + 1 by omega, show max n 400 + 1 = n + 1 by omega] at a b
  exact ⟨a, b⟩

/-! ### Differential -/

section differential
variable {t : Two Rat} (ht : ModerateTwo t) (hs : t.Separate) (m : Mem Rat) {x0 x1 y0 y1 : Nat}
include ht hs

/-- The magnitude of the terms of the joint values of the differential transmission; `d` is 0 or the offset's size. -/
def Transm.Two.diffJointSize (t : Two Rat) (k : Kind) (jr off a0 a1 : Rat) : Rat :=
  match k with
  | .position | .absPosition => (sz a0 / |t.ar0| + sz a1 / |t.ar1|) / |2 * jr| + sz off
  | .velocity => (sz a0 / |t.ar0| + sz a1 / |t.ar1|) / |2 * jr|
  | _ => |jr| * (sz a0 * |t.ar0| + sz a1 * |t.ar1|)

/-- The magnitude of the terms of the actuator values of the differential transmission. -/
def Transm.Two.diffActSize (t : Two Rat) (k : Kind) (ar j0 j1 : Rat) : Rat :=
  match k with
  | .position | .absPosition => ((sz j0 + sz t.off0) * |t.jr0| + (sz j1 + sz t.off1) * |t.jr1|) * |ar|
  | .velocity => (sz j0 * |t.jr0| + sz j1 * |t.jr1|) * |ar|
  | _ => (sz j0 / |t.jr0| + sz j1 / |t.jr1|) / |2 * ar|

/-- **C72 (differential, accuracy).** -/
theorem C72_differential_accuracy (k : Kind) (hk : k ∈ kinds) (hx : t.joint k = [x0, x1]) (hy : t.act k = [y0, y1])
    (m0 : |m y0| ≤ 2 ^ 399) (m1 : |m y1| ≤ 2 ^ 399) :
    Err ((t.fl binary64).diffActToJoint (m.fl binary64) x0) (t.diffActToJoint m x0) (t.diffJointSize k t.jr0 t.off0 (m y0) (m y1)) ∧
    Err ((t.fl binary64).diffActToJoint (m.fl binary64) x1) (t.diffActToJoint m x1) (t.diffJointSize k t.jr1 t.off1 (m y0) (m y1)) := by
  obtain ⟨q1, q2, q3, q4, q5, q6⟩ := quad hs hk hx hy
  have f0 := near_fin m0
  have f1 := near_fin m1
  have v0 := (n_half f0 f1 (by omega) (by omega) ht.ar0 ht.ar1 ht.jr0).1
  have v1 := (n_half f0 f1 (by omega) (by omega) ht.ar0 ht.ar1 ht.jr1).2
  have p0 := (n_off v0 ht.off0 (by omega) (by omega) (by omega)).1
  have p1 := (n_off v1 ht.off1 (by omega) (by omega) (by omega)).1
  have e0 := (n_lin f0 f1 (by omega) (by omega) ht.ar0 ht.ar1 ht.jr0).2.2.1
  have e1 := (n_lin f0 f1 (by omega) (by omega) ht.ar0 ht.ar1 ht.jr1).2.2.2
  rw [(diff_a t hs m).1 k hk x0 (by simp [hx]), (diff_a t hs m).1 k hk x1 (by simp [hx]),
    (diff_a (t.fl binary64) hs _).1 k hk x0 (by simp [hx, Two.fl]), (diff_a (t.fl binary64) hs _).1 k hk x1 (by simp [hx, Two.fl])]
  cases k <;> simp only [dA, Two.fl, hx, hy, two_0 _ _ _ _ _ _ _ q1, two_1 _ _ _ _ _ _ _ q3.symm q4.symm, Two.diffJointSize] <;>
    first
    | exact ⟨p0.err (by omega) rfl rfl, p1.err (by omega) rfl rfl⟩
    | exact ⟨v0.err (by omega) rfl rfl, v1.err (by omega) rfl rfl⟩
    | exact ⟨e0.err (by omega) rfl rfl, e1.err (by omega) rfl rfl⟩
    | (exfalso; revert hk; simp [kinds]; done)

/-- **C72 (differential, accuracy).** -/
theorem C72_differential_accuracy_actuator (k : Kind) (hk : k ∈ kinds) (ha : k ≠ .absPosition) (hx : t.joint k = [x0, x1])
    (hy : t.act k = [y0, y1]) (m0 : |m x0| ≤ 2 ^ 399) (m1 : |m x1| ≤ 2 ^ 399) :
    Err ((t.fl binary64).diffJointToAct (m.fl binary64) y0) (t.diffJointToAct m y0) (t.diffActSize k t.ar0 (m x0) (m x1)) ∧
    Err ((t.fl binary64).diffJointToAct (m.fl binary64) y1) (t.diffJointToAct m y1) (t.diffActSize k t.ar1 (m x0) (m x1)) := by
  obtain ⟨q1, q2, q3, q4, q5, q6⟩ := quad hs hk hx hy
  have f0 := near_fin m0
  have f1 := near_fin m1
  have g0 := (n_off f0 ht.off0 (by omega) (by omega) (by omega)).2
  have g1 := (n_off f1 ht.off1 (by omega) (by omega) (by omega)).2
  have e0 := (n_half f0 f1 (by omega) (by omega) ht.jr0 ht.jr1 ht.ar0).1
  have e1 := (n_half f0 f1 (by omega) (by omega) ht.jr0 ht.jr1 ht.ar1).2
  have v0 := (n_lin f0 f1 (by omega) (by omega) ht.jr0 ht.jr1 ht.ar0).1
  have v1 := (n_lin f0 f1 (by omega) (by omega) ht.jr0 ht.jr1 ht.ar1).2.1
  have p0 := (n_lin g0 g1 (by omega) (by omega) ht.jr0 ht.jr1 ht.ar0).1
  have p1 := (n_lin g0 g1 (by omega) (by omega) ht.jr0 ht.jr1 ht.ar1).2.1
  rw [(diff_j t hs m).1 k hk ha y0 (by simp [hy]), (diff_j t hs m).1 k hk ha y1 (by simp [hy]),
    (diff_j (t.fl binary64) hs _).1 k hk ha y0 (by simp [hy, Two.fl]), (diff_j (t.fl binary64) hs _).1 k hk ha y1 (by simp [hy, Two.fl])]
  cases k <;> simp only [dJ, Two.fl, hx, hy, two_0 _ _ _ _ _ _ _ q2, two_1 _ _ _ _ _ _ _ q3 q5, twoPre_0 _ _ _ _ _ _ _ q2, twoPre_1, Two.diffActSize] <;>
    first
    | exact ⟨p0.err (by omega) rfl rfl, p1.err (by omega) rfl rfl⟩
    | exact ⟨v0.err (by omega) rfl rfl, v1.err (by omega) rfl rfl⟩
    | exact ⟨e0.err (by omega) rfl rfl, e1.err (by omega) rfl rfl⟩
    | (exfalso; revert hk; simp [kinds]; done)
    | exact absurd rfl ha

/-- The magnitude of the terms of an actuator value mapped to the joints and back. -/
def Transm.Two.diffActTrip (t : Two Rat) (k : Kind) (ar a0 a1 : Rat) : Rat :=
  match k with
  | .position => |ar| * (sz a0 / |t.ar0| + sz a1 / |t.ar1| + 2 * |t.jr0| * sz t.off0 + 2 * |t.jr1| * sz t.off1)
  | .velocity => |ar| * (sz a0 / |t.ar0| + sz a1 / |t.ar1|)
  | _ => (sz a0 * |t.ar0| + sz a1 * |t.ar1|) / |ar|

/-- The magnitude of the terms of a joint value mapped to the actuators and back. -/
def Transm.Two.diffJointTrip (t : Two Rat) (k : Kind) (jr off j0 j1 : Rat) : Rat :=
  match k with
  | .position => ((sz j0 + sz t.off0) * |t.jr0| + (sz j1 + sz t.off1) * |t.jr1|) / |jr| + sz off
  | .velocity => (sz j0 * |t.jr0| + sz j1 * |t.jr1|) / |jr|
  | _ => |jr| * (sz j0 / |t.jr0| + sz j1 / |t.jr1|)

/-- **C72 (differential, actuators → joints → actuators).** -/
theorem C72_differential_actuator_round_trip (k : Kind) (hk : k ∈ kinds) (ha : k ≠ .absPosition) (hx : t.joint k = [x0, x1])
    (hy : t.act k = [y0, y1]) (m0 : |m y0| ≤ 2 ^ 399) (m1 : |m y1| ≤ 2 ^ 399) :
    Err ((t.fl binary64).diffJointToAct ((t.fl binary64).diffActToJoint (m.fl binary64)) y0) (m y0) (t.diffActTrip k t.ar0 (m y0) (m y1)) ∧
    Err ((t.fl binary64).diffJointToAct ((t.fl binary64).diffActToJoint (m.fl binary64)) y1) (m y1) (t.diffActTrip k t.ar1 (m y0) (m y1)) := by
  obtain ⟨q1, q2, q3, q4, q5, q6⟩ := quad hs hk hx hy
  have f0 := near_fin m0
  have f1 := near_fin m1
  have v0 := (n_half f0 f1 (by omega) (by omega) ht.ar0 ht.ar1 ht.jr0).1
  have v1 := (n_half f0 f1 (by omega) (by omega) ht.ar0 ht.ar1 ht.jr1).2
  have p0 := (n_off (n_off v0 ht.off0 (by omega) (by omega) (by omega)).1 ht.off0 (by omega) (by omega) (by omega)).2
  have p1 := (n_off (n_off v1 ht.off1 (by omega) (by omega) (by omega)).1 ht.off1 (by omega) (by omega) (by omega)).2
  have e0 := (n_lin f0 f1 (by omega) (by omega) ht.ar0 ht.ar1 ht.jr0).2.2.1
  have e1 := (n_lin f0 f1 (by omega) (by omega) ht.ar0 ht.ar1 ht.jr1).2.2.2
  have w0 := (n_lin v0 v1 (by omega) (by omega) ht.jr0 ht.jr1 ht.ar0).1
  have w1 := (n_lin v0 v1 (by omega) (by omega) ht.jr0 ht.jr1 ht.ar1).2.1
  have o0 := (n_lin p0 p1 (by omega) (by omega) ht.jr0 ht.jr1 ht.ar0).1
  have o1 := (n_lin p0 p1 (by omega) (by omega) ht.jr0 ht.jr1 ht.ar1).2.1
  have d0 := (n_half e0 e1 (by omega) (by omega) ht.jr0 ht.jr1 ht.ar0).1
  have d1 := (n_half e0 e1 (by omega) (by omega) ht.jr0 ht.jr1 ht.ar1).2
  have z1 := ht.ar0.ne
  have z2 := ht.ar1.ne
  have z3 := ht.jr0.ne
  have z4 := ht.jr1.ne
  have a1 := ht.ar0.pos.ne'
  have a2 := ht.ar1.pos.ne'
  have a3 := ht.jr0.pos.ne'
  have a4 := ht.jr1.pos.ne'
  simp only [abs_mul, abs_two] at w0 w1 o0 o1 d0 d1
  have u0 := (diff_a (t.fl binary64) hs (m.fl binary64)).1 k hk x0 (by simp [hx, Two.fl])
  have u1 := (diff_a (t.fl binary64) hs (m.fl binary64)).1 k hk x1 (by simp [hx, Two.fl])
  rw [(diff_j (t.fl binary64) hs _).1 k hk ha y0 (by simp [hy, Two.fl]), (diff_j (t.fl binary64) hs _).1 k hk ha y1 (by simp [hy, Two.fl])]
  cases k <;> simp only [dA, dJ, Two.fl, hx, hy, two_0 _ _ _ _ _ _ _ q1, two_1 _ _ _ _ _ _ _ q3.symm q4.symm, two_0 _ _ _ _ _ _ _ q2,
    two_1 _ _ _ _ _ _ _ q3 q5, twoPre_0 _ _ _ _ _ _ _ q2, twoPre_1, Two.diffActTrip] at u0 u1 ⊢ <;> first | rw [u0, u1] | skip
  · exact ⟨o0.err (by omega) (by field_simp; ring) (by field_simp; ring), o1.err (by omega) (by field_simp; ring) (by field_simp; ring)⟩
  · exact ⟨w0.err (by omega) (by field_simp; ring) (by field_simp; ring), w1.err (by omega) (by field_simp; ring) (by field_simp; ring)⟩
  · exact ⟨d0.err (by omega) (by field_simp; ring) (by field_simp; ring), d1.err (by omega) (by field_simp; ring) (by field_simp; ring)⟩
  · exact ⟨d0.err (by omega) (by field_simp; ring) (by field_simp; ring), d1.err (by omega) (by field_simp; ring) (by field_simp; ring)⟩
  · exact ⟨d0.err (by omega) (by field_simp; ring) (by field_simp; ring), d1.err (by omega) (by field_simp; ring) (by field_simp; ring)⟩
  · exact absurd rfl ha
  · exfalso; revert hk; simp [kinds]

/-- **C72 (differential, joints → actuators → joints).** -/
theorem C72_differential_joint_round_trip (k : Kind) (hk : k ∈ kinds) (ha : k ≠ .absPosition) (hx : t.joint k = [x0, x1])
    (hy : t.act k = [y0, y1]) (m0 : |m x0| ≤ 2 ^ 399) (m1 : |m x1| ≤ 2 ^ 399) :
    Err ((t.fl binary64).diffActToJoint ((t.fl binary64).diffJointToAct (m.fl binary64)) x0) (m x0) (t.diffJointTrip k t.jr0 t.off0 (m x0) (m x1)) ∧
    Err ((t.fl binary64).diffActToJoint ((t.fl binary64).diffJointToAct (m.fl binary64)) x1) (m x1) (t.diffJointTrip k t.jr1 t.off1 (m x0) (m x1)) := by
  obtain ⟨q1, q2, q3, q4, q5, q6⟩ := quad hs hk hx hy
  have f0 := near_fin m0
  have f1 := near_fin m1
  have g0 := (n_off f0 ht.off0 (by omega) (by omega) (by omega)).2
  have g1 := (n_off f1 ht.off1 (by omega) (by omega) (by omega)).2
  have e0 := (n_half f0 f1 (by omega) (by omega) ht.jr0 ht.jr1 ht.ar0).1
  have e1 := (n_half f0 f1 (by omega) (by omega) ht.jr0 ht.jr1 ht.ar1).2
  have v0 := (n_lin f0 f1 (by omega) (by omega) ht.jr0 ht.jr1 ht.ar0).1
  have v1 := (n_lin f0 f1 (by omega) (by omega) ht.jr0 ht.jr1 ht.ar1).2.1
  have p0 := (n_lin g0 g1 (by omega) (by omega) ht.jr0 ht.jr1 ht.ar0).1
  have p1 := (n_lin g0 g1 (by omega) (by omega) ht.jr0 ht.jr1 ht.ar1).2.1
  have w0 := (n_half v0 v1 (by omega) (by omega) ht.ar0 ht.ar1 ht.jr0).1
  have w1 := (n_half v0 v1 (by omega) (by omega) ht.ar0 ht.ar1 ht.jr1).2
  have o0 := (n_off (n_half p0 p1 (by omega) (by omega) ht.ar0 ht.ar1 ht.jr0).1 ht.off0 (by omega) (by omega) (by omega)).1
  have o1 := (n_off (n_half p0 p1 (by omega) (by omega) ht.ar0 ht.ar1 ht.jr1).2 ht.off1 (by omega) (by omega) (by omega)).1
  have d0 := (n_lin e0 e1 (by omega) (by omega) ht.ar0 ht.ar1 ht.jr0).2.2.1
  have d1 := (n_lin e0 e1 (by omega) (by omega) ht.ar0 ht.ar1 ht.jr1).2.2.2
  have z1 := ht.ar0.ne
  have z2 := ht.ar1.ne
  have z3 := ht.jr0.ne
  have z4 := ht.jr1.ne
  have a1 := ht.ar0.pos.ne'
  have a2 := ht.ar1.pos.ne'
  have a3 := ht.jr0.pos.ne'
  have a4 := ht.jr1.pos.ne'
  simp only [abs_mul, abs_two] at w0 w1 o0 o1 d0 d1
  have u0 := (diff_j (t.fl binary64) hs (m.fl binary64)).1 k hk ha y0 (by simp [hy, Two.fl])
  have u1 := (diff_j (t.fl binary64) hs (m.fl binary64)).1 k hk ha y1 (by simp [hy, Two.fl])
  rw [(diff_a (t.fl binary64) hs _).1 k hk x0 (by simp [hx, Two.fl]), (diff_a (t.fl binary64) hs _).1 k hk x1 (by simp [hx, Two.fl])]
  cases k <;> simp only [dA, dJ, Two.fl, hx, hy, two_0 _ _ _ _ _ _ _ q1, two_1 _ _ _ _ _ _ _ q3.symm q4.symm, two_0 _ _ _ _ _ _ _ q2,
    two_1 _ _ _ _ _ _ _ q3 q5, twoPre_0 _ _ _ _ _ _ _ q2, twoPre_1, Two.diffJointTrip] at u0 u1 ⊢ <;> first | rw [u0, u1] | skip
  · exact ⟨o0.err (by omega) (by field_simp; ring) (by field_simp; ring), o1.err (by omega) (by field_simp; ring) (by field_simp; ring)⟩
  · exact ⟨w0.err (by omega) (by field_simp; ring) (by field_simp; ring), w1.err (by omega) (by field_simp; ring) (by field_simp; ring)⟩
  · exact ⟨d0.err (by omega) (by field_simp; ring) (by field_simp; ring), d1.err (by omega) (by field_simp; ring) (by field_simp; ring)⟩
  · exact ⟨d0.err (by omega) (by field_simp; ring) (by field_simp; ring), d1.err (by omega) (by field_simp; ring) (by field_simp; ring)⟩
  · exact ⟨d0.err (by omega) (by field_simp; ring) (by field_simp; ring), d1.err (by omega) (by field_simp; ring) (by field_simp; ring)⟩
  · exact absurd rfl ha
  · exfalso; revert hk; simp [kinds]

end differential

/-! ### Four-bar linkage -/

section fourbar
variable {t : Two Rat} (ht : ModerateTwo t)
include ht

theorem n_fourA {x y : Dbl} {r s S T : Rat} {k n : Nat} (hx : Near x r S k n) (hy : Near y s T k n) (hk : k ≤ 40) (hn : n ≤ 750) :
    Near (binary64.div x (binary64.mul (.fin t.jr0) (.fin t.ar0))) (r / (t.jr0 * t.ar0)) (S / (|t.jr0| * |t.ar0|)) (k + 7) (n + 151) ∧
    Near (binary64.div (binary64.sub (binary64.div y (.fin t.ar1)) (binary64.div x (binary64.mul (.fin t.jr0) (.fin t.ar0)))) (.fin t.jr1))
      ((s / t.ar1 - r / (t.jr0 * t.ar0)) / t.jr1) ((T / |t.ar1| + S / (|t.jr0| * |t.ar0|)) / |t.jr1|) (k + 7) (n + 151) ∧
    Near (binary64.add (binary64.mul (binary64.mul (.fin t.jr0) x) (.fin t.ar0)) (binary64.mul y (.fin t.ar1)))
      (t.jr0 * r * t.ar0 + s * t.ar1) (|t.jr0| * S * |t.ar0| + T * |t.ar1|) (k + 3) (n + 101) ∧
    Near (binary64.mul (binary64.mul (.fin t.jr1) y) (.fin t.ar1)) (t.jr1 * s * t.ar1) (|t.jr1| * T * |t.ar1|) (k + 3) (n + 101) := by
  have p := near_prod ht.jr0 ht.ar0 (by omega)
  have a := near_div' hx p (by omega) (by omega)
  rw [abs_mul] at a
  have b := near_div hy ht.ar1 (by omega) (by omega)
  have c := nsub (near_mono b (Nat.le_refl _) (show n + 50 ≤ n + (50 + 50) by omega)) a (by omega) (by omega)
  have d := near_div c ht.jr1 (by omega) (by omega)
  have e := near_mul (near_mul' hx ht.jr0 (by omega) (by omega)) ht.ar0 (by omega) (by omega)
  have f := near_mul hy ht.ar1 (by omega) (by omega)
  have g := nadd e (near_mono f (show k + 1 ≤ k + 1 + 1 by omega) (show n + 50 ≤ n + 50 + 50 by omega)) (by omega) (by omega)
  have h := near_mul (near_mul' hy ht.jr1 (by omega) (by omega)) ht.ar1 (by omega) (by omega)
  exact ⟨near_mono a (by omega) (by omega), near_mono d (by omega) (by omega), near_mono g (by omega) (by omega), near_mono h (by omega) (by omega)⟩

theorem n_fourJ {x y : Dbl} {r s S T : Rat} {k n : Nat} (hx : Near x r S k n) (hy : Near y s T k n) (hk : k ≤ 40) (hn : n ≤ 750) :
    Near (binary64.mul (binary64.mul x (.fin t.jr0)) (.fin t.ar0)) (r * t.jr0 * t.ar0) (S * |t.jr0| * |t.ar0|) (k + 3) (n + 101) ∧
    Near (binary64.mul (binary64.add x (binary64.mul y (.fin t.jr1))) (.fin t.ar1)) ((r + s * t.jr1) * t.ar1) ((S + T * |t.jr1|) * |t.ar1|) (k + 3) (n + 101) ∧
    Near (binary64.div (binary64.sub x (binary64.div y (.fin t.jr1))) (binary64.mul (.fin t.jr0) (.fin t.ar0)))
      ((r - s / t.jr1) / (t.jr0 * t.ar0)) ((S + T / |t.jr1|) / (|t.jr0| * |t.ar0|)) (k + 7) (n + 151) ∧
    Near (binary64.div y (binary64.mul (.fin t.ar1) (.fin t.jr1))) (s / (t.ar1 * t.jr1)) (T / (|t.ar1| * |t.jr1|)) (k + 7) (n + 151) := by
  have a := near_mul (near_mul hx ht.jr0 (by omega) (by omega)) ht.ar0 (by omega) (by omega)
  have b := near_mul hy ht.jr1 (by omega) (by omega)
  have c := nadd (near_mono hx (show k ≤ k + 1 by omega) (show n ≤ n + 50 by omega)) b (by omega) (by omega)
  have d := near_mul c ht.ar1 (by omega) (by omega)
  have e := near_div hy ht.jr1 (by omega) (by omega)
  have f := nsub (near_mono hx (show k ≤ k + 3 by omega) (show n ≤ n + 50 by omega)) e (by omega) (by omega)
  have g := near_div' f (near_prod ht.jr0 ht.ar0 (by omega)) (by omega) (by omega)
  have h := near_div' hy (near_prod ht.ar1 ht.jr1 (by omega)) (by omega) (by omega)
  rw [abs_mul] at g h
  exact ⟨near_mono a (by omega) (by omega), near_mono d (by omega) (by omega), near_mono g (by omega) (by omega), near_mono h (by omega) (by omega)⟩

variable (hs : t.Separate) (m : Mem Rat) {x0 x1 y0 y1 : Nat}
include hs

/-- The magnitudes of the terms of the two joint values of the four-bar linkage transmission. -/
def Transm.Two.fourJointSize (t : Two Rat) (k : Kind) (a0 a1 : Rat) : Rat × Rat :=
  match k with
  | .position => (sz a0 / (|t.jr0| * |t.ar0|) + sz t.off0, (sz a1 / |t.ar1| + sz a0 / (|t.jr0| * |t.ar0|)) / |t.jr1| + sz t.off1)
  | .velocity => (sz a0 / (|t.jr0| * |t.ar0|), (sz a1 / |t.ar1| + sz a0 / (|t.jr0| * |t.ar0|)) / |t.jr1|)
  | _ => (|t.jr0| * sz a0 * |t.ar0| + sz a1 * |t.ar1|, |t.jr1| * sz a1 * |t.ar1|)

/-- The magnitudes of the terms of the two actuator values of the four-bar linkage transmission. -/
def Transm.Two.fourActSize (t : Two Rat) (k : Kind) (j0 j1 : Rat) : Rat × Rat :=
  match k with
  | .position => ((sz j0 + sz t.off0) * |t.jr0| * |t.ar0|, ((sz j0 + sz t.off0) + (sz j1 + sz t.off1) * |t.jr1|) * |t.ar1|)
  | .velocity => (sz j0 * |t.jr0| * |t.ar0|, (sz j0 + sz j1 * |t.jr1|) * |t.ar1|)
  | _ => ((sz j0 + sz j1 / |t.jr1|) / (|t.jr0| * |t.ar0|), sz j1 / (|t.ar1| * |t.jr1|))

/-- **C72 (four-bar, accuracy).** -/
theorem C72_fourbar_accuracy (k : Kind) (hk : k ∈ fourKinds) (hx : t.joint k = [x0, x1]) (hy : t.act k = [y0, y1])
    (m0 : |m y0| ≤ 2 ^ 399) (m1 : |m y1| ≤ 2 ^ 399) :
    Err ((t.fl binary64).fourActToJoint (m.fl binary64) x0) (t.fourActToJoint m x0) (t.fourJointSize k (m y0) (m y1)).1 ∧
    Err ((t.fl binary64).fourActToJoint (m.fl binary64) x1) (t.fourActToJoint m x1) (t.fourJointSize k (m y0) (m y1)).2 := by
  obtain ⟨q1, q2, q3, q4, q5, q6⟩ := quad hs (fourKinds_sub k hk) hx hy
  obtain ⟨v0, v1, e0, e1⟩ := n_fourA ht (near_fin m0) (near_fin m1) (by omega) (by omega)
  have p0 := (n_off v0 ht.off0 (by omega) (by omega) (by omega)).1
  have p1 := (n_off v1 ht.off1 (by omega) (by omega) (by omega)).1
  rw [(four_a t hs m).1 k hk x0 (by simp [hx]), (four_a t hs m).1 k hk x1 (by simp [hx]),
    (four_a (t.fl binary64) hs _).1 k hk x0 (by simp [hx, Two.fl]), (four_a (t.fl binary64) hs _).1 k hk x1 (by simp [hx, Two.fl])]
  cases k <;> simp only [fA, Two.fl, hx, hy, two_0 _ _ _ _ _ _ _ q1, two_1 _ _ _ _ _ _ _ q3.symm q4.symm, Two.fourJointSize] <;>
    first
    | exact ⟨p0.err (by omega) rfl rfl, p1.err (by omega) rfl rfl⟩
    | exact ⟨v0.err (by omega) rfl rfl, v1.err (by omega) rfl rfl⟩
    | exact ⟨e0.err (by omega) rfl rfl, e1.err (by omega) rfl rfl⟩
    | (exfalso; revert hk; simp [fourKinds]; done)

/-- **C72 (four-bar, accuracy).** -/
theorem C72_fourbar_accuracy_actuator (k : Kind) (hk : k ∈ fourKinds) (hx : t.joint k = [x0, x1]) (hy : t.act k = [y0, y1])
    (m0 : |m x0| ≤ 2 ^ 399) (m1 : |m x1| ≤ 2 ^ 399) :
    Err ((t.fl binary64).fourJointToAct (m.fl binary64) y0) (t.fourJointToAct m y0) (t.fourActSize k (m x0) (m x1)).1 ∧
    Err ((t.fl binary64).fourJointToAct (m.fl binary64) y1) (t.fourJointToAct m y1) (t.fourActSize k (m x0) (m x1)).2 := by
  obtain ⟨q1, q2, q3, q4, q5, q6⟩ := quad hs (fourKinds_sub k hk) hx hy
  obtain ⟨v0, v1, e0, e1⟩ := n_fourJ ht (near_fin m0) (near_fin m1) (by omega) (by omega)
  have g0 := (n_off (near_fin m0) ht.off0 (by omega) (by omega) (by omega)).2
  have g1 := (n_off (near_fin m1) ht.off1 (by omega) (by omega) (by omega)).2
  obtain ⟨p0, p1, -, -⟩ := n_fourJ ht g0 g1 (by omega) (by omega)
  rw [(four_j t hs m).1 k hk y0 (by simp [hy]), (four_j t hs m).1 k hk y1 (by simp [hy]),
    (four_j (t.fl binary64) hs _).1 k hk y0 (by simp [hy, Two.fl]), (four_j (t.fl binary64) hs _).1 k hk y1 (by simp [hy, Two.fl])]
  cases k <;> simp only [fJ, Two.fl, hx, hy, two_0 _ _ _ _ _ _ _ q2, two_1 _ _ _ _ _ _ _ q3 q5, twoPre_0 _ _ _ _ _ _ _ q2, twoPre_1, Two.fourActSize] <;>
    first
    | exact ⟨p0.err (by omega) rfl rfl, p1.err (by omega) rfl rfl⟩
    | exact ⟨v0.err (by omega) rfl rfl, v1.err (by omega) rfl rfl⟩
    | exact ⟨e0.err (by omega) rfl rfl, e1.err (by omega) rfl rfl⟩
    | (exfalso; revert hk; simp [fourKinds]; done)

/-- The magnitudes of the terms of the actuator values mapped to the joints and back. -/
def Transm.Two.fourActTrip (t : Two Rat) (k : Kind) (a0 a1 : Rat) : Rat × Rat :=
  match k with
  | .position => (sz a0 + 2 * (|t.jr0| * |t.ar0|) * sz t.off0,
      sz a1 + |t.ar1| * (2 * (sz a0 / (|t.jr0| * |t.ar0|)) + 2 * sz t.off0 + 2 * |t.jr1| * sz t.off1))
  | .velocity => (sz a0, sz a1 + |t.ar1| * (2 * (sz a0 / (|t.jr0| * |t.ar0|))))
  | _ => (sz a0 + 2 * (sz a1 * |t.ar1| / (|t.jr0| * |t.ar0|)), sz a1)

/-- The magnitudes of the terms of the joint values mapped to the actuators and back. -/
def Transm.Two.fourJointTrip (t : Two Rat) (k : Kind) (j0 j1 : Rat) : Rat × Rat :=
  match k with
  | .position => (sz j0 + 2 * sz t.off0, (2 * (sz j0 + sz t.off0)) / |t.jr1| + sz j1 + 2 * sz t.off1)
  | .velocity => (sz j0, 2 * sz j0 / |t.jr1| + sz j1)
  | _ => (sz j0 + 2 * (sz j1 / |t.jr1|), sz j1)

/-- **C72 (four-bar, actuators → joints → actuators).** -/
theorem C72_fourbar_actuator_round_trip (k : Kind) (hk : k ∈ fourKinds) (hx : t.joint k = [x0, x1]) (hy : t.act k = [y0, y1])
    (m0 : |m y0| ≤ 2 ^ 399) (m1 : |m y1| ≤ 2 ^ 399) :
    Err ((t.fl binary64).fourJointToAct ((t.fl binary64).fourActToJoint (m.fl binary64)) y0) (m y0) (t.fourActTrip k (m y0) (m y1)).1 ∧
    Err ((t.fl binary64).fourJointToAct ((t.fl binary64).fourActToJoint (m.fl binary64)) y1) (m y1) (t.fourActTrip k (m y0) (m y1)).2 := by
  obtain ⟨q1, q2, q3, q4, q5, q6⟩ := quad hs (fourKinds_sub k hk) hx hy
  obtain ⟨v0, v1, e0, e1⟩ := n_fourA ht (near_fin m0) (near_fin m1) (by omega) (by omega)
  have p0 := (n_off (n_off v0 ht.off0 (by omega) (by omega) (by omega)).1 ht.off0 (by omega) (by omega) (by omega)).2
  have p1 := (n_off (n_off v1 ht.off1 (by omega) (by omega) (by omega)).1 ht.off1 (by omega) (by omega) (by omega)).2
  obtain ⟨w0, w1, -, -⟩ := n_fourJ ht v0 v1 (by omega) (by omega)
  obtain ⟨o0, o1, -, -⟩ := n_fourJ ht p0 p1 (by omega) (by omega)
  obtain ⟨-, -, d0, d1⟩ := n_fourJ ht e0 e1 (by omega) (by omega)
  have z1 := ht.ar0.ne
  have z2 := ht.ar1.ne
  have z3 := ht.jr0.ne
  have z4 := ht.jr1.ne
  have a1 := ht.ar0.pos.ne'
  have a2 := ht.ar1.pos.ne'
  have a3 := ht.jr0.pos.ne'
  have a4 := ht.jr1.pos.ne'
  have u0 := (four_a (t.fl binary64) hs (m.fl binary64)).1 k hk x0 (by simp [hx, Two.fl])
  have u1 := (four_a (t.fl binary64) hs (m.fl binary64)).1 k hk x1 (by simp [hx, Two.fl])
  rw [(four_j (t.fl binary64) hs _).1 k hk y0 (by simp [hy, Two.fl]), (four_j (t.fl binary64) hs _).1 k hk y1 (by simp [hy, Two.fl])]
  cases k <;> simp only [fA, fJ, Two.fl, hx, hy, two_0 _ _ _ _ _ _ _ q1, two_1 _ _ _ _ _ _ _ q3.symm q4.symm, two_0 _ _ _ _ _ _ _ q2,
    two_1 _ _ _ _ _ _ _ q3 q5, twoPre_0 _ _ _ _ _ _ _ q2, twoPre_1, Two.fourActTrip] at u0 u1 ⊢ <;>
    first | (exfalso; revert hk; simp [fourKinds]; done) | rw [u0, u1]
  · exact ⟨o0.err (by omega) (by field_simp; try ring) (by field_simp; try ring), o1.err (by omega) (by field_simp; try ring) (by field_simp; try ring)⟩
  · exact ⟨w0.err (by omega) (by field_simp; try ring) (by field_simp; try ring), w1.err (by omega) (by field_simp; try ring) (by field_simp; try ring)⟩
  · exact ⟨d0.err (by omega) (by field_simp; try ring) (by field_simp; try ring), d1.err (by omega) (by field_simp; try ring) (by field_simp; try ring)⟩

/-- **C72 (four-bar, joints → actuators → joints).** -/
theorem C72_fourbar_joint_round_trip (k : Kind) (hk : k ∈ fourKinds) (hx : t.joint k = [x0, x1]) (hy : t.act k = [y0, y1])
    (m0 : |m x0| ≤ 2 ^ 399) (m1 : |m x1| ≤ 2 ^ 399) :
    Err ((t.fl binary64).fourActToJoint ((t.fl binary64).fourJointToAct (m.fl binary64)) x0) (m x0) (t.fourJointTrip k (m x0) (m x1)).1 ∧
    Err ((t.fl binary64).fourActToJoint ((t.fl binary64).fourJointToAct (m.fl binary64)) x1) (m x1) (t.fourJointTrip k (m x0) (m x1)).2 := by
  obtain ⟨q1, q2, q3, q4, q5, q6⟩ := quad hs (fourKinds_sub k hk) hx hy
  obtain ⟨v0, v1, e0, e1⟩ := n_fourJ ht (near_fin m0) (near_fin m1) (by omega) (by omega)
  have g0 := (n_off (near_fin m0) ht.off0 (by omega) (by omega) (by omega)).2
  have g1 := (n_off (near_fin m1) ht.off1 (by omega) (by omega) (by omega)).2
  obtain ⟨p0, p1, -, -⟩ := n_fourJ ht g0 g1 (by omega) (by omega)
  obtain ⟨w0, w1, -, -⟩ := n_fourA ht v0 v1 (by omega) (by omega)
  obtain ⟨r0, r1, -, -⟩ := n_fourA ht p0 p1 (by omega) (by omega)
  have o0 := (n_off r0 ht.off0 (by omega) (by omega) (by omega)).1
  have o1 := (n_off r1 ht.off1 (by omega) (by omega) (by omega)).1
  obtain ⟨-, -, d0, d1⟩ := n_fourA ht e0 e1 (by omega) (by omega)
  have z1 := ht.ar0.ne
  have z2 := ht.ar1.ne
  have z3 := ht.jr0.ne
  have z4 := ht.jr1.ne
  have a1 := ht.ar0.pos.ne'
  have a2 := ht.ar1.pos.ne'
  have a3 := ht.jr0.pos.ne'
  have a4 := ht.jr1.pos.ne'
  have u0 := (four_j (t.fl binary64) hs (m.fl binary64)).1 k hk y0 (by simp [hy, Two.fl])
  have u1 := (four_j (t.fl binary64) hs (m.fl binary64)).1 k hk y1 (by simp [hy, Two.fl])
  rw [(four_a (t.fl binary64) hs _).1 k hk x0 (by simp [hx, Two.fl]), (four_a (t.fl binary64) hs _).1 k hk x1 (by simp [hx, Two.fl])]
  cases k <;> simp only [fA, fJ, Two.fl, hx, hy, two_0 _ _ _ _ _ _ _ q1, two_1 _ _ _ _ _ _ _ q3.symm q4.symm, two_0 _ _ _ _ _ _ _ q2,
    two_1 _ _ _ _ _ _ _ q3 q5, twoPre_0 _ _ _ _ _ _ _ q2, twoPre_1, Two.fourJointTrip] at u0 u1 ⊢ <;>
    first | (exfalso; revert hk; simp [fourKinds]; done) | rw [u0, u1]
  · exact ⟨o0.err (by omega) (by field_simp; try ring) (by field_simp; try ring), o1.err (by omega) (by field_simp; try ring) (by field_simp; try ring)⟩
  · exact ⟨w0.err (by omega) (by field_simp; try ring) (by field_simp; try ring), w1.err (by omega) (by field_simp; try ring) (by field_simp; try ring)⟩
  · exact ⟨d0.err (by omega) (by field_simp; try ring) (by field_simp; try ring), d1.err (by omega) (by field_simp; try ring) (by field_simp; try ring)⟩

end fourbar

/-! ## All numbers, all roundings

The following hold for every `double` (also NaN, infinities, overflow and underflow) and every rounding. -/

section order
variable {R : Rounding}

theorem le_mul {a b : Dbl} {c : Rat} (h : Dbl.le a b = true) (hc : 0 < c) : Dbl.le (R.mul a (.fin c)) (R.mul b (.fin c)) = true := by
  have hne := hc.ne'
  have n := Rounding.num R
  cases a <;> cases b <;>
    first
    | (exfalso; revert h; simp [Dbl.le]; done)
    | (rename_i p q; exact R.mono _ _ (mul_le_mul_of_nonneg_right (by simpa using h) hc.le))
    | (simp only [Rounding.mul, Dbl.mul, if_neg hne, hc, not_lt.2 hc.le, decide_true, decide_false, Dbl.infOf]
       first
       | rfl
       | (rename_i p
          have := n (p * c)
          cases e : R.rnd (p * c) <;> simp_all [Dbl.le]))

theorem le_div {a b : Dbl} {c : Rat} (h : Dbl.le a b = true) (hc : 0 < c) : Dbl.le (R.div a (.fin c)) (R.div b (.fin c)) = true := by
  have hne := hc.ne'
  have n := Rounding.num R
  cases a <;> cases b <;>
    first
    | (exfalso; revert h; simp [Dbl.le]; done)
    | (rename_i p q
       rw [div_fin _ _ _ hne, div_fin _ _ _ hne]
       exact R.mono _ _ (div_le_div_of_nonneg_right (by simpa using h) hc.le))
    | (simp only [Rounding.div, Dbl.div, if_neg hne, hc.le, not_lt.2 hc.le, decide_true, decide_false, Dbl.infOf]
       first
       | rfl
       | (rename_i p
          have := n (p / c)
          cases e : R.rnd (p / c) <;> simp_all [Dbl.le]))

theorem le_add {a b : Dbl} {c : Rat} (h : Dbl.le a b = true) : Dbl.le (R.add a (.fin c)) (R.add b (.fin c)) = true := by
  have n := Rounding.num R
  cases a <;> cases b <;>
    first
    | (exfalso; revert h; simp [Dbl.le]; done)
    | (rename_i p q; exact R.mono _ _ (add_le_add_left (by simpa using h) c))
    | (simp only [Rounding.add, Dbl.add]
       first
       | rfl
       | (rename_i p
          have := n (p + c)
          cases e : R.rnd (p + c) <;> simp_all [Dbl.le]))

end order

/-- **C72 (simple, order).** With a positive finite reduction and a finite offset a larger actuator value never gives a smaller joint value, and a
larger joint value never a smaller actuator value: rounding does not reverse a motion. -/
theorem C72_simple_monotone {R : Rounding} (t : Simple (Fl R)) (c o : Rat) (hc : 0 < c) (hr : t.red = dbl R c) (ho : t.off = dbl R o) (hs : t.Separate)
    (m m' : Mem (Fl R)) (k : Kind) (hk : k ∈ kinds) (x y : Nat) (hx : t.joint k = some x) (hy : t.act k = some y) :
    (Dbl.le (m y) (m' y) = true → Dbl.le (t.actToJoint m x) (t.actToJoint m' x) = true) ∧
    (k ≠ .absPosition → Dbl.le (m x) (m' x) = true → Dbl.le (t.jointToAct m y) (t.jointToAct m' y) = true) := by
  constructor
  · intro h
    rw [(simple_a t hs m).1 k hk x hx, (simple_a t hs m').1 k hk x hx]
    cases k <;> simp only [sA, hx, hy, one_at, hr, ho] <;>
      first
      | exact le_add (le_div h hc)
      | exact le_div h hc
      | exact le_mul h hc
      | (exfalso; revert hk; simp [kinds]; done)
  · intro ha h
    rw [(simple_j t hs m).1 k hk ha y hy, (simple_j t hs m').1 k hk ha y hy]
    cases k <;> simp only [sJ, hx, hy, one_at, hr, ho] <;>
      first
      | exact le_mul (le_add (c := -o) h) hc
      | exact le_div h hc
      | exact le_mul h hc
      | (exfalso; revert hk; simp [kinds]; done)
      | exact absurd rfl ha

/-- **C72 (simple, standstill).** Zero velocities and zero efforts are mapped to exactly zero, in both directions; an actuator at zero is a joint at
its offset, and conversely. -/
theorem C72_simple_zero {R : Rounding} (t : Simple (Fl R)) (c o : Rat) (hc : c ≠ 0) (hr : t.red = dbl R c) (ho : t.off = dbl R o) (hs : t.Separate)
    (hrep : R.Rep (.fin o)) (m : Mem (Fl R)) (k : Kind) (hk : k ∈ kinds) (x y : Nat) (hx : t.joint k = some x) (hy : t.act k = some y) :
    (m y = dbl R 0 → t.actToJoint m x = if k = .position ∨ k = .absPosition then dbl R o else dbl R 0) ∧
    (k ≠ .absPosition → m x = (if k = .position then dbl R o else dbl R 0) → t.jointToAct m y = dbl R 0) := by
  have z : R.rnd 0 = .fin 0 := R.zero
  have h1 : R.mul (.fin 0) (.fin c) = .fin 0 := by rw [mul_fin, zero_mul, z]
  have h2 : R.div (.fin 0) (.fin c) = .fin 0 := by rw [div_fin _ _ _ hc, zero_div, z]
  have h3 : R.add (.fin 0) (.fin o) = .fin o := by rw [add_fin, zero_add]; exact hrep
  have h4 : R.sub (.fin o) (.fin o) = .fin 0 := by rw [sub_fin, sub_self, z]
  constructor
  · intro h
    rw [(simple_a t hs m).1 k hk x hx]
    cases k <;> simp only [sA, hx, hy, one_at, hr, ho, h, reduceCtorEq, or_false, false_or, or_self, if_true, if_false] <;>
      first
      | exact h1
      | exact h2
      | exact (congrArg (fun v => R.add v (.fin o)) h2).trans h3
      | (exfalso; revert hk; simp [kinds]; done)
  · intro ha h
    rw [(simple_j t hs m).1 k hk ha y hy]
    cases k <;> simp only [sJ, hx, hy, one_at, hr, ho, h, reduceCtorEq, if_true, if_false] <;>
      first
      | exact h1
      | exact h2
      | exact (congrArg (fun v => R.mul v (.fin c)) h4).trans h1
      | (exfalso; revert hk; simp [kinds]; done)
      | exact absurd rfl ha

theorem zero_div_near {y : Dbl} {d : Rat} {p : Nat} (g : Near y d |d| 1 p) : binary64.div (.fin 0) y = .fin 0 := by
  obtain ⟨e, rfl, he⟩ := g.val
  have hd := g.pos
  have hu1 : uu * 1000 ≤ 1 := by unfold uu; norm_num
  have he' : |e - d| ≤ 3 * uu * |d| := by simpa using he
  have he0 : e ≠ 0 := by
    rintro rfl
    rw [zero_sub, abs_neg] at he'
    nlinarith
  rw [div_fin _ _ _ he0, zero_div]
  exact binary64.zero

/-- **C72 (standstill, two joints).** Zero velocities and zero efforts (torques, forces) of both actuators are exactly zero at both joints, and conversely. -/
theorem C72_two_zero {t : Two Rat} (ht : ModerateTwo t) (hs : t.Separate) (m : Mem (Fl binary64)) (k : Kind) (hk : k ∈ kinds)
    (hp : k ≠ .position) (ha : k ≠ .absPosition) {x0 x1 y0 y1 : Nat} (hx : t.joint k = [x0, x1]) (hy : t.act k = [y0, y1]) :
    (m y0 = dbl _ 0 → m y1 = dbl _ 0 →
      (t.fl binary64).diffActToJoint m x0 = dbl _ 0 ∧ (t.fl binary64).diffActToJoint m x1 = dbl _ 0 ∧
      (k ∈ fourKinds → (t.fl binary64).fourActToJoint m x0 = dbl _ 0 ∧ (t.fl binary64).fourActToJoint m x1 = dbl _ 0)) ∧
    (m x0 = dbl _ 0 → m x1 = dbl _ 0 →
      (t.fl binary64).diffJointToAct m y0 = dbl _ 0 ∧ (t.fl binary64).diffJointToAct m y1 = dbl _ 0 ∧
      (k ∈ fourKinds → (t.fl binary64).fourJointToAct m y0 = dbl _ 0 ∧ (t.fl binary64).fourJointToAct m y1 = dbl _ 0)) := by
  obtain ⟨q1, q2, q3, q4, q5, q6⟩ := quad hs hk hx hy
  have z : binary64.rnd 0 = .fin 0 := binary64.zero
  have mz : ∀ c : Rat, dbl binary64 0 * dbl binary64 c = dbl binary64 0 := fun c => show binary64.mul _ _ = _ by rw [dbl, dbl, mul_fin, zero_mul, z]
  have mz' : ∀ c : Rat, dbl binary64 c * dbl binary64 0 = dbl binary64 0 := fun c => show binary64.mul _ _ = _ by rw [dbl, dbl, mul_fin, mul_zero, z]
  have dz : ∀ {c : Rat}, Moderate c → dbl binary64 0 / dbl binary64 c = dbl binary64 0 := fun {c} hc =>
    show binary64.div _ _ = _ by rw [dbl, dbl, div_fin _ _ _ hc.ne, zero_div, z]
  have az : dbl binary64 0 + dbl binary64 0 = dbl binary64 0 := show binary64.add _ _ = _ by rw [dbl, add_fin, add_zero, z]
  have sz' : dbl binary64 0 - dbl binary64 0 = dbl binary64 0 := show binary64.sub _ _ = _ by rw [dbl, sub_fin, sub_zero, z]
  have t0 : dbl binary64 0 / (2 * dbl binary64 t.jr0) = dbl binary64 0 := zero_div_near (near_twice ht.jr0)
  have t1 : dbl binary64 0 / (2 * dbl binary64 t.jr1) = dbl binary64 0 := zero_div_near (near_twice ht.jr1)
  have t2 : dbl binary64 0 / (2 * dbl binary64 t.ar0) = dbl binary64 0 := zero_div_near (near_twice ht.ar0)
  have t3 : dbl binary64 0 / (2 * dbl binary64 t.ar1) = dbl binary64 0 := zero_div_near (near_twice ht.ar1)
  have t4 : dbl binary64 0 / (dbl binary64 t.jr0 * dbl binary64 t.ar0) = dbl binary64 0 := zero_div_near (near_prod ht.jr0 ht.ar0 (by omega))
  have t5 : dbl binary64 0 / (dbl binary64 t.ar1 * dbl binary64 t.jr1) = dbl binary64 0 := zero_div_near (near_prod ht.ar1 ht.jr1 (by omega))
  have d0 := dz ht.ar0
  have d1 := dz ht.ar1
  have d2 := dz ht.jr0
  have d3 := dz ht.jr1
  constructor
  · intro h0 h1
    refine ⟨?_, ?_, fun h4 => ⟨?_, ?_⟩⟩
    · rw [(diff_a (t.fl binary64) hs m).1 k hk x0 (by simp [hx, Two.fl])]
      cases k <;> simp only [dA, Two.fl, hx, hy, two_0 _ _ _ _ _ _ _ q1, h0, h1, d0, d1, mz, mz', az, sz', t0, t1] <;>
        first | exact absurd rfl hp | exact absurd rfl ha | (exfalso; revert hk; simp [kinds]; done)
    · rw [(diff_a (t.fl binary64) hs m).1 k hk x1 (by simp [hx, Two.fl])]
      cases k <;> simp only [dA, Two.fl, hx, hy, two_1 _ _ _ _ _ _ _ q3.symm q4.symm, h0, h1, d0, d1, mz, mz', az, sz', t0, t1] <;>
        first | exact absurd rfl hp | exact absurd rfl ha | (exfalso; revert hk; simp [kinds]; done)
    · rw [(four_a (t.fl binary64) hs m).1 k h4 x0 (by simp [hx, Two.fl])]
      cases k <;> simp only [fA, Two.fl, hx, hy, two_0 _ _ _ _ _ _ _ q1, h0, h1, d1, d3, mz, mz', az, sz', t4] <;>
        first | exact absurd rfl hp | (exfalso; revert h4; simp [fourKinds]; done)
    · rw [(four_a (t.fl binary64) hs m).1 k h4 x1 (by simp [hx, Two.fl])]
      cases k <;> simp only [fA, Two.fl, hx, hy, two_1 _ _ _ _ _ _ _ q3.symm q4.symm, h0, h1, d1, d3, mz, mz', az, sz', t4] <;>
        first | exact absurd rfl hp | (exfalso; revert h4; simp [fourKinds]; done)
  · intro h0 h1
    refine ⟨?_, ?_, fun h4 => ⟨?_, ?_⟩⟩
    · rw [(diff_j (t.fl binary64) hs m).1 k hk ha y0 (by simp [hy, Two.fl])]
      cases k <;> simp only [dJ, Two.fl, hx, hy, two_0 _ _ _ _ _ _ _ q2, h0, h1, d2, d3, mz, mz', az, sz', t2, t3] <;>
        first | exact absurd rfl hp | exact absurd rfl ha | (exfalso; revert hk; simp [kinds]; done)
    · rw [(diff_j (t.fl binary64) hs m).1 k hk ha y1 (by simp [hy, Two.fl])]
      cases k <;> simp only [dJ, Two.fl, hx, hy, two_1 _ _ _ _ _ _ _ q3 q5, h0, h1, d2, d3, mz, mz', az, sz', t2, t3] <;>
        first | exact absurd rfl hp | exact absurd rfl ha | (exfalso; revert hk; simp [kinds]; done)
    · rw [(four_j (t.fl binary64) hs m).1 k h4 y0 (by simp [hy, Two.fl])]
      cases k <;> simp only [fJ, Two.fl, hx, hy, two_0 _ _ _ _ _ _ _ q2, h0, h1, d3, mz, mz', az, sz', t4, t5] <;>
        first | exact absurd rfl hp | (exfalso; revert h4; simp [fourKinds]; done)
    · rw [(four_j (t.fl binary64) hs m).1 k h4 y1 (by simp [hy, Two.fl])]
      cases k <;> simp only [fJ, Two.fl, hx, hy, two_1 _ _ _ _ _ _ _ q3 q5, h0, h1, d3, mz, mz', az, sz', t4, t5] <;>
        first | exact absurd rfl hp | (exfalso; revert h4; simp [fourKinds]; done)

/-- **C72 (a NaN is not hidden).** A NaN actuator value gives a NaN joint value and conversely, whatever the parameters. -/
theorem C72_simple_nan {R : Rounding} (t : Simple (Fl R)) (hs : t.Separate) (m : Mem (Fl R)) (k : Kind) (hk : k ∈ kinds) (x y : Nat)
    (hx : t.joint k = some x) (hy : t.act k = some y) :
    (m y = Dbl.nan → t.actToJoint m x = Dbl.nan) ∧ (k ≠ .absPosition → m x = Dbl.nan → t.jointToAct m y = Dbl.nan) := by
  have h1 : ∀ b : Dbl, R.mul .nan b = .nan := fun b => by cases b <;> rfl
  have h2 : ∀ b : Dbl, R.div .nan b = .nan := fun b => by cases b <;> rfl
  have h3 : ∀ b : Dbl, R.add .nan b = .nan := fun b => by cases b <;> rfl
  constructor
  · intro h
    rw [(simple_a t hs m).1 k hk x hx]
    cases k <;> simp only [sA, hx, hy, one_at, h] <;>
      first
      | exact h1 _
      | exact h2 _
      | exact (congrArg (fun v => R.add v t.off) (h2 _)).trans (h3 _)
      | (exfalso; revert hk; simp [kinds]; done)
  · intro ha h
    rw [(simple_j t hs m).1 k hk ha y hy]
    cases k <;> simp only [sJ, hx, hy, one_at, h] <;>
      first
      | exact h1 _
      | exact h2 _
      | exact (congrArg (fun v => R.mul v t.red) (h3 _)).trans (h1 _)
      | (exfalso; revert hk; simp [kinds]; done)
      | exact absurd rfl ha

/-- **C72 (kinds do not mix).** The joint value of one kind depends on the actuator values of that kind only, so a NaN or an overflow of one kind (a
broken torque sensor) does not reach positions and velocities. -/
theorem C72_isolated {R : Rounding} (m m' : Mem (Fl R)) (k : Kind) (hk : k ∈ kinds) :
    (∀ (t : Simple (Fl R)), t.Separate → ∀ x y, t.joint k = some x → t.act k = some y → m y = m' y → t.actToJoint m x = t.actToJoint m' x) ∧
    (∀ (t : Two (Fl R)), t.Separate → ∀ x0 x1 y0 y1, t.joint k = [x0, x1] → t.act k = [y0, y1] → m y0 = m' y0 → m y1 = m' y1 →
      t.diffActToJoint m x0 = t.diffActToJoint m' x0 ∧ t.diffActToJoint m x1 = t.diffActToJoint m' x1 ∧
      (k ∈ fourKinds → t.fourActToJoint m x0 = t.fourActToJoint m' x0 ∧ t.fourActToJoint m x1 = t.fourActToJoint m' x1)) := by
  refine ⟨fun t hs x y hx hy h => ?_, fun t hs x0 x1 y0 y1 hx hy h0 h1 => ?_⟩
  · rw [(simple_a t hs m).1 k hk x hx, (simple_a t hs m').1 k hk x hx]
    cases k <;> simp only [sA, hx, hy, one_at, h] <;> (exfalso; revert hk; simp [kinds]; done)
  · obtain ⟨q1, q2, q3, q4, q5, q6⟩ := quad hs hk hx hy
    have hm0 : x0 ∈ t.joint k := by simp [hx]
    have hm1 : x1 ∈ t.joint k := by simp [hx]
    refine ⟨?_, ?_, fun h4 => ?_⟩
    · rw [(diff_a t hs m).1 k hk x0 hm0, (diff_a t hs m').1 k hk x0 hm0]
      cases k <;> simp only [dA, hx, hy, two_0 _ _ _ _ _ _ _ q1, h0, h1] <;> (exfalso; revert hk; simp [kinds]; done)
    · rw [(diff_a t hs m).1 k hk x1 hm1, (diff_a t hs m').1 k hk x1 hm1]
      cases k <;> simp only [dA, hx, hy, two_1 _ _ _ _ _ _ _ q3.symm q4.symm, h0, h1] <;> (exfalso; revert hk; simp [kinds]; done)
    · rw [(four_a t hs m).1 k h4 x0 hm0, (four_a t hs m').1 k h4 x0 hm0, (four_a t hs m).1 k h4 x1 hm1, (four_a t hs m').1 k h4 x1 hm1]
      cases k <;> simp only [fA, hx, hy, two_0 _ _ _ _ _ _ _ q1, two_1 _ _ _ _ _ _ _ q3.symm q4.symm, h0, h1, and_self] <;>
        (exfalso; revert h4; simp [fourKinds]; done)

/-! ## What is false for extreme parameters -/

/-- A simple transmission of positions (joint: cell 0, actuator: cell 1) with the reduction `red`. -/
def positionOnly (red : Fl binary64) : Simple (Fl binary64) :=
  { red := red, off := dbl _ 0, joint := fun k => if k = .position then some 0 else none, act := fun k => if k = .position then some 1 else none }

/-- **C72 (extreme numbers).** The constructor refuses a zero reduction only. A NaN reduction (`reduction_ == 0.0` is false) is accepted and makes
every joint value NaN; a tiny one turns an actuator position of 1 into an infinite joint position, which does not come back. -/
theorem C72_extreme :
    let ones : Mem (Fl binary64) := fun _ => dbl _ 1
    let tiny : Fl binary64 := dbl _ (1 / 2 ^ 1070)
    (Simple.make (K := Fl binary64) Dbl.nan (dbl _ 0)).isSome = true ∧ ((positionOnly Dbl.nan).actToJoint ones 0).val = .nan ∧
    (Simple.make (K := Fl binary64) tiny (dbl _ 0)).isSome = true ∧ ((positionOnly tiny).actToJoint ones 0).val = .pinf ∧
    ((positionOnly tiny).jointToAct ((positionOnly tiny).actToJoint ones) 1).val = .pinf := by
  refine ⟨?_, ?_, ?_, ?_, ?_⟩ <;> decide +kernel

/-! ## Cases that meet the hypotheses -/

/-- A differential transmission with reductions 50, -3 and offsets, handles for all six kinds. -/
def demoDiff : Two Rat :=
  { ar0 := 50, ar1 := -3, jr0 := 2, jr1 := 1 / 3, off0 := 1 / 10, off1 := -7,
    joint := fun | .position => [0, 1] | .velocity => [2, 3] | .effort => [4, 5] | .torque => [6, 7] | .force => [8, 9] | .absPosition => [10, 11] | _ => [],
    act := fun | .position => [20, 21] | .velocity => [22, 23] | .effort => [24, 25] | .torque => [26, 27] | .force => [28, 29] | .absPosition => [30, 31] | _ => [] }

theorem demoDiff_moderate : ModerateTwo demoDiff ∧ demoDiff.Separate := by
  refine ⟨⟨⟨?_, ?_⟩, ⟨?_, ?_⟩, ⟨?_, ?_⟩, ⟨?_, ?_⟩, ?_, ?_⟩, by unfold Two.Separate; decide +kernel⟩ <;> decide +kernel

/-- The round trip is not exact in floating point, so the error term is needed (actuator positions 1/10 and 1/5 rounded to `double`). -/
example :
    let m : Mem Rat := fun x => if x = 20 then 3602879701896397 / 36028797018963968 else 3602879701896397 / 18014398509481984
    Err ((demoDiff.fl binary64).diffJointToAct ((demoDiff.fl binary64).diffActToJoint (m.fl binary64)) 20) (m 20) (demoDiff.diffActTrip .position 50 (m 20) (m 21)) ∧
    (demoDiff.fl binary64).diffJointToAct ((demoDiff.fl binary64).diffActToJoint (m.fl binary64)) 20 ≠ dbl _ (m 20) := by
  intro m
  refine ⟨(C72_differential_actuator_round_trip demoDiff_moderate.1 demoDiff_moderate.2 m .position (by decide) (by decide) (x0 := 0) (x1 := 1)
    (y1 := 21) rfl rfl ?_ ?_).1, ?_⟩ <;> decide +kernel

/-- A simple transmission. -/
def demoSimple : Simple Rat :=
  { red := 50, off := 1 / 10, joint := fun k => if k = .position then some 0 else if k = .effort then some 1 else none,
    act := fun k => if k = .position then some 2 else if k = .effort then some 3 else none }

theorem demoSimple_separate : demoSimple.Separate := by unfold Simple.Separate; decide +kernel

example :
    let m : Mem Rat := fun _ => 3602879701896397 / 36028797018963968
    Err ((demoSimple.fl binary64).jointToAct ((demoSimple.fl binary64).actToJoint (m.fl binary64)) 2) (m 2) (sz (m 2) + 2 * |50| * sz (1 / 10)) := by
  intro m
  exact C72_simple_actuator_round_trip (t := demoSimple) ⟨by decide +kernel, by decide +kernel⟩ (by decide +kernel) demoSimple_separate m .position (by decide)
    (by decide) 0 2 rfl rfl (by decide +kernel)

example : Dbl.le ((demoSimple.fl binary64).actToJoint (fun _ => dbl _ 1) 0) ((demoSimple.fl binary64).actToJoint (fun _ => Dbl.pinf) 0) = true :=
  (C72_simple_monotone (demoSimple.fl binary64) 50 (1 / 10) (by norm_num) rfl rfl demoSimple_separate _ _ .position (by decide) 0 2 rfl rfl).1
    (by decide +kernel)

end Verif
