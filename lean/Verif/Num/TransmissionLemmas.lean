import Mathlib.Tactic.FieldSimp
import Mathlib.Tactic.Ring
import Mathlib.Data.List.Nodup
import Mathlib.Data.List.Pairwise
import Verif.Num.Transmission
/-!
# Lemmas about the transmissions: the blocks of the mappings do not disturb each other
-/
set_option linter.unusedSectionVars false
namespace Verif
namespace Transm
variable {K : Type}

theorem set_same (m : Mem K) (x : Nat) (v : K) : m.set x v x = v := by simp [Mem.set]
theorem set_other (m : Mem K) (x y : Nat) (v : K) (h : y ≠ x) : m.set x v y = m y := by simp [Mem.set, h]

/-- Running blocks for several kinds one after the other: every block behaves as if it ran alone. -/
theorem seq_at (run : Kind → Mem K → Mem K) (src dst : Kind → List Nat)
    (frame : ∀ k m x, x ∉ dst k → run k m x = m x)
    (dep : ∀ k (m m' : Mem K), (∀ y, y ∈ src k ∨ y ∈ dst k → m y = m' y) → ∀ x ∈ dst k, run k m x = run k m' x) :
    ∀ (ks : List Kind), ks.Nodup → (∀ k ∈ ks, ∀ k' ∈ ks, k ≠ k' → ∀ x ∈ dst k, x ∉ dst k') →
      (∀ k ∈ ks, ∀ k' ∈ ks, ∀ x ∈ dst k, x ∉ src k') → ∀ (m : Mem K),
      (∀ k ∈ ks, ∀ x ∈ dst k, ks.foldl (fun m k => run k m) m x = run k m x) ∧
      (∀ x, (∀ k ∈ ks, x ∉ dst k) → ks.foldl (fun m k => run k m) m x = m x)
  | [], _, _, _, m => by simp
  | a :: t, hn, dd, sd, m => by
    have hn' := List.nodup_cons.1 hn
    have ih := seq_at run src dst frame dep t hn'.2 (fun k hk k' hk' => dd k (by simp [hk]) k' (by simp [hk']))
      (fun k hk k' hk' => sd k (by simp [hk]) k' (by simp [hk'])) (run a m)
    simp only [List.foldl_cons]
    refine ⟨?_, ?_⟩
    · intro k hk x hx
      rcases List.mem_cons.1 hk with rfl | hk
      · exact ih.2 x (fun k' hk' => dd k (by simp) k' (by simp [hk']) (fun e => hn'.1 (e ▸ hk')) x hx)
      · rw [ih.1 k hk x hx]
        refine dep k _ _ ?_ x hx
        intro y hy
        refine frame a m y ?_
        intro hya
        rcases hy with hy | hy
        · exact sd a (by simp) k (by simp [hk]) y hya hy
        · exact dd a (by simp) k (by simp [hk]) (fun e => hn'.1 (e ▸ hk)) y hya hy
    · intro x hx
      rw [ih.2 x (fun k hk => hx k (by simp [hk]))]
      exact frame a m x (hx a (by simp))

/-! ## Blocks -/

theorem one_frame (s d : Option Nat) (f : K → K) (m : Mem K) (x : Nat) (h : x ∉ d.toList) : one s d f m x = m x := by
  unfold one
  split
  · exact set_other _ _ _ _ (by simpa using h)
  · rfl

theorem one_dep (s d : Option Nat) (f : K → K) (m m' : Mem K) (h : ∀ y, y ∈ s.toList ∨ y ∈ d.toList → m y = m' y) (x : Nat)
    (hx : x ∈ d.toList) : one s d f m x = one s d f m' x := by
  unfold one
  split
  · next a b =>
    simp at hx
    subst hx
    rw [set_same, set_same, h _ (by simp)]
  · exact h _ (.inr hx)

theorem two_frame (s d : List Nat) (f g : K → K → K) (m : Mem K) (x : Nat) (h : x ∉ d) : two s d f g m x = m x := by
  unfold two
  split
  · simp at h
    dsimp only
    rw [set_other _ _ _ _ h.2, set_other _ _ _ _ h.1]
  · rfl

theorem twoPre_frame (s d : List Nat) (f g : K → K → K) (m : Mem K) (x : Nat) (h : x ∉ d) : twoPre s d f g m x = m x := by
  unfold twoPre
  split
  · simp at h
    rw [set_other _ _ _ _ h.2, set_other _ _ _ _ h.1]
  · rfl

theorem two_dep (s d : List Nat) (f g : K → K → K) (m m' : Mem K) (h : ∀ y, y ∈ s ∨ y ∈ d → m y = m' y) (x : Nat) (hx : x ∈ d) :
    two s d f g m x = two s d f g m' x := by
  unfold two
  split
  · next a b c e =>
    dsimp only
    have e1 : ∀ y, y ∈ [a, b] ∨ y ∈ [c, e] → (m.set c (f (m a) (m b))) y = (m'.set c (f (m' a) (m' b))) y := by
      intro y hy
      unfold Mem.set
      rw [h a (by simp), h b (by simp)]
      split
      · rfl
      · exact h y hy
    by_cases hxe : x = e
    · subst hxe
      rw [set_same, set_same, e1 a (by simp), e1 b (by simp)]
    · rw [set_other _ _ _ _ hxe, set_other _ _ _ _ hxe]
      exact e1 x (.inr hx)
  · exact h x (.inr hx)

theorem twoPre_dep (s d : List Nat) (f g : K → K → K) (m m' : Mem K) (h : ∀ y, y ∈ s ∨ y ∈ d → m y = m' y) (x : Nat) (hx : x ∈ d) :
    twoPre s d f g m x = twoPre s d f g m' x := by
  unfold twoPre
  split
  · next a b c e =>
    unfold Mem.set
    rw [h a (by simp), h b (by simp)]
    split
    · rfl
    · split
      · rfl
      · exact h x (.inr hx)
  · exact h x (.inr hx)

/-! ## No two handles share a cell -/

/-- The cells of all handles of the transmission are pairwise different. -/
def Simple.Separate (t : Simple K) : Prop :=
  (kinds.flatMap (fun k => (t.joint k).toList) ++ kinds.flatMap (fun k => (t.act k).toList)).Nodup

/-- The cells of all handles of the transmission are pairwise different. -/
def Two.Separate (t : Two K) : Prop := (kinds.flatMap t.joint ++ kinds.flatMap t.act).Nodup

theorem sep (j a : Kind → List Nat) (h : (kinds.flatMap j ++ kinds.flatMap a).Nodup) :
    (∀ k ∈ kinds, ∀ k' ∈ kinds, k ≠ k' → ∀ x ∈ j k, x ∉ j k') ∧ (∀ k ∈ kinds, ∀ k' ∈ kinds, k ≠ k' → ∀ x ∈ a k, x ∉ a k') ∧
    (∀ k ∈ kinds, ∀ k' ∈ kinds, ∀ x ∈ j k, x ∉ a k') ∧ (∀ k ∈ kinds, (j k).Nodup) ∧ (∀ k ∈ kinds, (a k).Nodup) := by
  rw [List.nodup_append'] at h
  obtain ⟨h1, h2, h3⟩ := h
  rw [List.nodup_flatMap] at h1 h2
  refine ⟨?_, ?_, ?_, h1.1, h2.1⟩
  · intro k hk k' hk' hne x hx hx'
    have : Std.Symm (Function.onFun List.Disjoint j) := ⟨fun _ _ h _ h1 h2 => h h2 h1⟩
    exact (h1.2.forall hk hk' hne) hx hx'
  · intro k hk k' hk' hne x hx hx'
    have : Std.Symm (Function.onFun List.Disjoint a) := ⟨fun _ _ h _ h1 h2 => h h2 h1⟩
    exact (h2.2.forall hk hk' hne) hx hx'
  · intro k hk k' hk' x hx hx'
    exact h3 (List.mem_flatMap.2 ⟨k, hk, hx⟩) (List.mem_flatMap.2 ⟨k', hk', hx'⟩)

theorem two_0 (s0 s1 d0 d1 : Nat) (f g : K → K → K) (m : Mem K) (h : d0 ≠ d1) : two [s0, s1] [d0, d1] f g m d0 = f (m s0) (m s1) := by
  simp [two, Mem.set, h]

theorem two_1 (s0 s1 d0 d1 : Nat) (f g : K → K → K) (m : Mem K) (h0 : s0 ≠ d0) (h1 : s1 ≠ d0) :
    two [s0, s1] [d0, d1] f g m d1 = g (m s0) (m s1) := by
  simp [two, Mem.set, h0, h1]

theorem twoPre_0 (s0 s1 d0 d1 : Nat) (f g : K → K → K) (m : Mem K) (h : d0 ≠ d1) : twoPre [s0, s1] [d0, d1] f g m d0 = f (m s0) (m s1) := by
  simp [twoPre, Mem.set, h]

theorem twoPre_1 (s0 s1 d0 d1 : Nat) (f g : K → K → K) (m : Mem K) :
    twoPre [s0, s1] [d0, d1] f g m d1 = g (m s0) (m s1) := by
  simp [twoPre, Mem.set]

/-- All blocks of a two-joint mapping behave as if run alone; nothing else is written. -/
theorem seq_two (run : Kind → Mem K → Mem K) (src dst : Kind → List Nat) (ks : List Kind) (hn : ks.Nodup) (hk : ∀ k ∈ ks, k ∈ kinds)
    (frame : ∀ k m x, x ∉ dst k → run k m x = m x)
    (dep : ∀ k (m m' : Mem K), (∀ y, y ∈ src k ∨ y ∈ dst k → m y = m' y) → ∀ x ∈ dst k, run k m x = run k m' x)
    (dd : ∀ k ∈ kinds, ∀ k' ∈ kinds, k ≠ k' → ∀ x ∈ dst k, x ∉ dst k')
    (sd : ∀ k ∈ kinds, ∀ k' ∈ kinds, ∀ x ∈ dst k, x ∉ src k') (m : Mem K) :
    (∀ k ∈ ks, ∀ x ∈ dst k, ks.foldl (fun m k => run k m) m x = run k m x) ∧
    (∀ x, (∀ k ∈ ks, x ∉ dst k) → ks.foldl (fun m k => run k m) m x = m x) :=
  seq_at run src dst frame dep ks hn (fun k h k' h' => dd k (hk k h) k' (hk k' h')) (fun k h k' h' => sd k (hk k h) k' (hk k' h')) m

theorem one_at (s d : Nat) (f : K → K) (m : Mem K) : one (some s) (some d) f m d = f (m s) := set_same _ _ _

/-- What separate cells mean for one kind with two handles on each side. -/
theorem quad {t : Two K} (hs : t.Separate) {k : Kind} (hk : k ∈ kinds) {x0 x1 y0 y1 : Nat} (hx : t.joint k = [x0, x1])
    (hy : t.act k = [y0, y1]) : x0 ≠ x1 ∧ y0 ≠ y1 ∧ x0 ≠ y0 ∧ x0 ≠ y1 ∧ x1 ≠ y0 ∧ x1 ≠ y1 := by
  obtain ⟨_, _, s3, s4, s5⟩ := sep _ _ hs
  have h1 := s4 k hk
  have h2 := s5 k hk
  have h3 := s3 k hk k hk
  rw [hx] at h1
  rw [hy] at h2
  simp only [hx, hy] at h3
  simp at h1 h2 h3
  grind

variable [Add K] [Sub K] [Mul K] [Div K] [Zero K] [OfNat K 2] [DecidableEq K]

/-! ## The blocks of each mapping -/

/-- The block of `actuator_to_joint` for one kind. -/
def sA (t : Simple K) : Kind → Mem K → Mem K
  | .effort => one (t.act .effort) (t.joint .effort) (fun v => v * t.red)
  | .velocity => one (t.act .velocity) (t.joint .velocity) (fun v => v / t.red)
  | .position => one (t.act .position) (t.joint .position) (fun v => v / t.red + t.off)
  | .torque => one (t.act .torque) (t.joint .torque) (fun v => v * t.red)
  | .force => one (t.act .force) (t.joint .force) (fun v => v * t.red)
  | .absPosition => one (t.act .absPosition) (t.joint .absPosition) (fun v => v / t.red + t.off)
  | .other _ => id

/-- The block of `joint_to_actuator` for one kind. -/
def sJ (t : Simple K) : Kind → Mem K → Mem K
  | .effort => one (t.joint .effort) (t.act .effort) (fun v => v / t.red)
  | .velocity => one (t.joint .velocity) (t.act .velocity) (fun v => v * t.red)
  | .position => one (t.joint .position) (t.act .position) (fun v => (v - t.off) * t.red)
  | .torque => one (t.joint .torque) (t.act .torque) (fun v => v / t.red)
  | .force => one (t.joint .force) (t.act .force) (fun v => v / t.red)
  | _ => id

theorem simple_a (t : Simple K) (hs : t.Separate) (m : Mem K) :
    (∀ k ∈ kinds, ∀ x, t.joint k = some x → t.actToJoint m x = sA t k m x) ∧
    (∀ x, (∀ k ∈ kinds, t.joint k ≠ some x) → t.actToJoint m x = m x) := by
  obtain ⟨s1, s2, s3, _, _⟩ := sep _ _ hs
  have h := seq_at (sA t) (fun k => (t.act k).toList) (fun k => (t.joint k).toList)
    (by intro k m x hx; cases k <;> simp only [sA] <;> first | rfl | exact one_frame (K := K) _ _ _ _ _ hx)
    (by intro k m m' hy x hx; cases k <;> simp only [sA] <;> first | exact one_dep (K := K) _ _ _ _ _ hy _ hx | exact hy _ (.inr hx))
    [.effort, .velocity, .position, .torque, .force, .absPosition] (by decide)
    (fun k hk k' hk' => s1 k (by revert hk; simp [kinds]; grind) k' (by revert hk'; simp [kinds]; grind))
    (fun k hk k' hk' => s3 k (by revert hk; simp [kinds]; grind) k' (by revert hk'; simp [kinds]; grind)) m
  refine ⟨fun k hk x hx => h.1 k (by revert hk; simp [kinds]; grind) x (by simp [hx]), fun x hx => h.2 x ?_⟩
  intro k hk
  have := hx k (by revert hk; simp [kinds]; grind)
  simpa using this

theorem simple_j (t : Simple K) (hs : t.Separate) (m : Mem K) :
    (∀ k ∈ kinds, k ≠ .absPosition → ∀ x, t.act k = some x → t.jointToAct m x = sJ t k m x) ∧
    (∀ x, (∀ k ∈ kinds, k ≠ .absPosition → t.act k ≠ some x) → t.jointToAct m x = m x) := by
  obtain ⟨s1, s2, s3, _, _⟩ := sep _ _ hs
  have h := seq_at (sJ t) (fun k => (t.joint k).toList) (fun k => (t.act k).toList)
    (by intro k m x hx; cases k <;> simp only [sJ] <;> first | rfl | exact one_frame (K := K) _ _ _ _ _ hx)
    (by intro k m m' hy x hx; cases k <;> simp only [sJ] <;> first | exact one_dep (K := K) _ _ _ _ _ hy _ hx | exact hy _ (.inr hx))
    [.effort, .velocity, .position, .torque, .force] (by decide)
    (fun k hk k' hk' => s2 k (by revert hk; simp [kinds]; grind) k' (by revert hk'; simp [kinds]; grind))
    (fun k hk k' hk' x hx hx' => s3 k' (by revert hk'; simp [kinds]; grind) k (by revert hk; simp [kinds]; grind) x hx' hx) m
  refine ⟨fun k hk hne x hx => h.1 k (by revert hk; simp [kinds]; grind) x (by simp [hx]), fun x hx => h.2 x ?_⟩
  intro k hk
  have := hx k (by revert hk; simp [kinds]; grind) (by rintro rfl; revert hk; simp)
  simpa using this

/-- The block of the differential `actuator_to_joint` for one kind. -/
def dA (t : Two K) : Kind → Mem K → Mem K
  | .position => two (t.act .position) (t.joint .position)
    (fun a0 a1 => (a0 / t.ar0 + a1 / t.ar1) / (2 * t.jr0) + t.off0) (fun a0 a1 => (a0 / t.ar0 - a1 / t.ar1) / (2 * t.jr1) + t.off1)
  | .velocity => two (t.act .velocity) (t.joint .velocity)
    (fun a0 a1 => (a0 / t.ar0 + a1 / t.ar1) / (2 * t.jr0)) (fun a0 a1 => (a0 / t.ar0 - a1 / t.ar1) / (2 * t.jr1))
  | .effort => two (t.act .effort) (t.joint .effort)
    (fun a0 a1 => t.jr0 * (a0 * t.ar0 + a1 * t.ar1)) (fun a0 a1 => t.jr1 * (a0 * t.ar0 - a1 * t.ar1))
  | .torque => two (t.act .torque) (t.joint .torque)
    (fun a0 a1 => t.jr0 * (a0 * t.ar0 + a1 * t.ar1)) (fun a0 a1 => t.jr1 * (a0 * t.ar0 - a1 * t.ar1))
  | .force => two (t.act .force) (t.joint .force)
    (fun a0 a1 => t.jr0 * (a0 * t.ar0 + a1 * t.ar1)) (fun a0 a1 => t.jr1 * (a0 * t.ar0 - a1 * t.ar1))
  | .absPosition => two (t.act .absPosition) (t.joint .absPosition)
    (fun a0 a1 => (a0 / t.ar0 + a1 / t.ar1) / (2 * t.jr0) + t.off0) (fun a0 a1 => (a0 / t.ar0 - a1 / t.ar1) / (2 * t.jr1) + t.off1)
  | .other _ => id

/-- The block of the differential `joint_to_actuator` for one kind. -/
def dJ (t : Two K) : Kind → Mem K → Mem K
  | .position => twoPre (t.joint .position) (t.act .position)
    (fun j0 j1 => ((j0 - t.off0) * t.jr0 + (j1 - t.off1) * t.jr1) * t.ar0)
    (fun j0 j1 => ((j0 - t.off0) * t.jr0 - (j1 - t.off1) * t.jr1) * t.ar1)
  | .velocity => two (t.joint .velocity) (t.act .velocity)
    (fun j0 j1 => (j0 * t.jr0 + j1 * t.jr1) * t.ar0) (fun j0 j1 => (j0 * t.jr0 - j1 * t.jr1) * t.ar1)
  | .effort => two (t.joint .effort) (t.act .effort)
    (fun j0 j1 => (j0 / t.jr0 + j1 / t.jr1) / (2 * t.ar0)) (fun j0 j1 => (j0 / t.jr0 - j1 / t.jr1) / (2 * t.ar1))
  | .torque => two (t.joint .torque) (t.act .torque)
    (fun j0 j1 => (j0 / t.jr0 + j1 / t.jr1) / (2 * t.ar0)) (fun j0 j1 => (j0 / t.jr0 - j1 / t.jr1) / (2 * t.ar1))
  | .force => two (t.joint .force) (t.act .force)
    (fun j0 j1 => (j0 / t.jr0 + j1 / t.jr1) / (2 * t.ar0)) (fun j0 j1 => (j0 / t.jr0 - j1 / t.jr1) / (2 * t.ar1))
  | _ => id

/-- The block of the four-bar `actuator_to_joint` for one kind. -/
def fA (t : Two K) : Kind → Mem K → Mem K
  | .position => two (t.act .position) (t.joint .position)
    (fun a0 _ => a0 / (t.jr0 * t.ar0) + t.off0) (fun a0 a1 => (a1 / t.ar1 - a0 / (t.jr0 * t.ar0)) / t.jr1 + t.off1)
  | .velocity => two (t.act .velocity) (t.joint .velocity)
    (fun a0 _ => a0 / (t.jr0 * t.ar0)) (fun a0 a1 => (a1 / t.ar1 - a0 / (t.jr0 * t.ar0)) / t.jr1)
  | .effort => two (t.act .effort) (t.joint .effort)
    (fun a0 a1 => t.jr0 * a0 * t.ar0 + a1 * t.ar1) (fun _ a1 => t.jr1 * a1 * t.ar1)
  | _ => id

/-- The block of the four-bar `joint_to_actuator` for one kind. -/
def fJ (t : Two K) : Kind → Mem K → Mem K
  | .position => twoPre (t.joint .position) (t.act .position)
    (fun j0 _ => (j0 - t.off0) * t.jr0 * t.ar0) (fun j0 j1 => ((j0 - t.off0) + (j1 - t.off1) * t.jr1) * t.ar1)
  | .velocity => two (t.joint .velocity) (t.act .velocity)
    (fun j0 _ => j0 * t.jr0 * t.ar0) (fun j0 j1 => (j0 + j1 * t.jr1) * t.ar1)
  | .effort => two (t.joint .effort) (t.act .effort)
    (fun j0 j1 => (j0 - j1 / t.jr1) / (t.jr0 * t.ar0)) (fun _ j1 => j1 / (t.ar1 * t.jr1))
  | _ => id

theorem diff_a (t : Two K) (hs : t.Separate) (m : Mem K) :
    (∀ k ∈ kinds, ∀ x ∈ t.joint k, t.diffActToJoint m x = dA t k m x) ∧
    (∀ x, (∀ k ∈ kinds, x ∉ t.joint k) → t.diffActToJoint m x = m x) := by
  obtain ⟨s1, s2, s3, _, _⟩ := sep _ _ hs
  exact seq_two (dA t) t.act t.joint kinds (by decide) (fun _ h => h)
    (by intro k m x hx; cases k <;> simp only [dA] <;> first | rfl | exact two_frame (K := K) _ _ _ _ _ _ hx)
    (by intro k m m' hy x hx; cases k <;> simp only [dA] <;> first | exact two_dep (K := K) _ _ _ _ _ _ hy _ hx | exact hy _ (.inr hx))
    s1 s3 m

theorem diff_j (t : Two K) (hs : t.Separate) (m : Mem K) :
    (∀ k ∈ kinds, k ≠ .absPosition → ∀ x ∈ t.act k, t.diffJointToAct m x = dJ t k m x) ∧
    (∀ x, (∀ k ∈ kinds, k ≠ .absPosition → x ∉ t.act k) → t.diffJointToAct m x = m x) := by
  obtain ⟨s1, s2, s3, _, _⟩ := sep _ _ hs
  have h := seq_two (dJ t) t.joint t.act [.position, .velocity, .effort, .torque, .force] (by decide) (by simp [kinds])
    (by intro k m x hx; cases k <;> simp only [dJ] <;> first | rfl | exact two_frame (K := K) _ _ _ _ _ _ hx | exact twoPre_frame (K := K) _ _ _ _ _ _ hx)
    (by intro k m m' hy x hx; cases k <;> simp only [dJ] <;> first | exact two_dep (K := K) _ _ _ _ _ _ hy _ hx | exact twoPre_dep (K := K) _ _ _ _ _ _ hy _ hx | exact hy _ (.inr hx))
    s2 (fun k hk k' hk' x hx hx' => s3 k' hk' k hk x hx' hx) m
  refine ⟨fun k hk hne x hx => h.1 k (by revert hk; simp [kinds]; grind) x hx, fun x hx => h.2 x ?_⟩
  intro k hk
  exact hx k (by revert hk; simp [kinds]; grind) (by rintro rfl; revert hk; simp)

/-- The kinds of the four-bar linkage transmission. -/
def fourKinds : List Kind := [.position, .velocity, .effort]

theorem fourKinds_sub : ∀ k ∈ fourKinds, k ∈ kinds := by simp [fourKinds, kinds]

theorem four_a (t : Two K) (hs : t.Separate) (m : Mem K) :
    (∀ k ∈ fourKinds, ∀ x ∈ t.joint k, t.fourActToJoint m x = fA t k m x) ∧
    (∀ x, (∀ k ∈ fourKinds, x ∉ t.joint k) → t.fourActToJoint m x = m x) := by
  obtain ⟨s1, s2, s3, _, _⟩ := sep _ _ hs
  exact seq_two (fA t) t.act t.joint fourKinds (by decide) fourKinds_sub
    (by intro k m x hx; cases k <;> simp only [fA] <;> first | rfl | exact two_frame (K := K) _ _ _ _ _ _ hx)
    (by intro k m m' hy x hx; cases k <;> simp only [fA] <;> first | exact two_dep (K := K) _ _ _ _ _ _ hy _ hx | exact hy _ (.inr hx))
    s1 s3 m

theorem four_j (t : Two K) (hs : t.Separate) (m : Mem K) :
    (∀ k ∈ fourKinds, ∀ x ∈ t.act k, t.fourJointToAct m x = fJ t k m x) ∧
    (∀ x, (∀ k ∈ fourKinds, x ∉ t.act k) → t.fourJointToAct m x = m x) := by
  obtain ⟨s1, s2, s3, _, _⟩ := sep _ _ hs
  exact seq_two (fJ t) t.joint t.act fourKinds (by decide) fourKinds_sub
    (by intro k m x hx; cases k <;> simp only [fJ] <;> first | rfl | exact two_frame (K := K) _ _ _ _ _ _ hx | exact twoPre_frame (K := K) _ _ _ _ _ _ hx)
    (by intro k m m' hy x hx; cases k <;> simp only [fJ] <;> first | exact two_dep (K := K) _ _ _ _ _ _ hy _ hx | exact twoPre_dep (K := K) _ _ _ _ _ _ hy _ hx | exact hy _ (.inr hx))
    s2 (fun k hk k' hk' x hx hx' => s3 k' hk' k hk x hx' hx) m

/-- Joint cells are not touched by the mapping to the actuators, and conversely. -/
theorem diff_keep (t : Two K) (hs : t.Separate) (m : Mem K) (k : Kind) (hk : k ∈ kinds) :
    (∀ x ∈ t.joint k, t.diffJointToAct m x = m x) ∧ (∀ y ∈ t.act k, t.diffActToJoint m y = m y) := by
  obtain ⟨_, _, s3, _, _⟩ := sep _ _ hs
  exact ⟨fun x hx => (diff_j t hs m).2 x (fun k' hk' _ hx' => s3 k hk k' hk' x hx hx'),
    fun y hy => (diff_a t hs m).2 y (fun k' hk' hx' => s3 k' hk' k hk y hx' hy)⟩

theorem four_keep (t : Two K) (hs : t.Separate) (m : Mem K) (k : Kind) (hk : k ∈ fourKinds) :
    (∀ x ∈ t.joint k, t.fourJointToAct m x = m x) ∧ (∀ y ∈ t.act k, t.fourActToJoint m y = m y) := by
  obtain ⟨_, _, s3, _, _⟩ := sep _ _ hs
  exact ⟨fun x hx => (four_j t hs m).2 x (fun k' hk' hx' => s3 k (fourKinds_sub k hk) k' (fourKinds_sub k' hk') x hx hx'),
    fun y hy => (four_a t hs m).2 y (fun k' hk' hx' => s3 k' (fourKinds_sub k' hk') k (fourKinds_sub k hk) y hx' hy)⟩

end Transm
end Verif
