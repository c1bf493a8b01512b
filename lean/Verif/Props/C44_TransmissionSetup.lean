import Verif.Props.C30_Transmission
/-!
# C44: what a transmission is configured with is what it maps

Full statement: if `configure` succeeds, then at least one kind of interface is mapped between joints and actuators, and
the i-th reduction and offset given in the description are applied to the i-th joint (actuator) of the description.

Proved: the first half for the differential transmission. The first half is false for the simple and the four-bar
transmission, and the second half for both two-joint transmissions: handles are put in alphabetical order of the joint
names, whatever the order of the description (`C44_reductions_swapped`). Proved instead: which joint each reduction
belongs to.
-/
set_option linter.unusedSectionVars false
namespace Verif
open Transm
variable {K : Type} [Field K] [DecidableEq K]

/-! ## Sorted names -/

theorem mem_insName (x y : Name) (l : List Name) : y ∈ insName x l ↔ y = x ∨ y ∈ l := by
  induction l with
  | nil => simp [insName]
  | cons a t ih => unfold insName; grind

theorem sorted_insName (x : Name) (l : List Name) (h : l.Pairwise (· < ·)) : (insName x l).Pairwise (· < ·) := by
  induction l with
  | nil => simp [insName]
  | cons a t ih =>
    unfold insName
    rw [List.pairwise_cons] at h
    split
    · simp only [List.pairwise_cons]; grind
    · split
      · simpa [List.pairwise_cons] using h
      · rw [List.pairwise_cons]
        refine ⟨?_, ih h.2⟩
        intro y hy
        rcases (mem_insName x y t).1 hy with rfl | hy
        · grind
        · exact h.1 y hy

theorem getNames_aux (l : List Handle) : ∀ acc : List Name, acc.Pairwise (· < ·) →
    (l.foldl (fun acc h => insName h.pre acc) acc).Pairwise (· < ·) ∧
    ∀ n, n ∈ l.foldl (fun acc h => insName h.pre acc) acc ↔ n ∈ acc ∨ ∃ h ∈ l, h.pre = n := by
  induction l with
  | nil => intro acc h; simpa using h
  | cons a t ih =>
    intro acc h
    obtain ⟨h1, h2⟩ := ih (insName a.pre acc) (sorted_insName _ _ h)
    refine ⟨h1, fun n => ?_⟩
    simp only [List.foldl_cons, h2, mem_insName]
    simp only [List.mem_cons, exists_eq_or_imp]
    tauto

/-- `get_names` yields the distinct names in increasing order. -/
theorem getNames_sorted (l : List Handle) : (getNames l).Pairwise (· < ·) := (getNames_aux l [] List.Pairwise.nil).1

theorem mem_getNames (l : List Handle) (n : Name) : n ∈ getNames l ↔ ∃ h ∈ l, h.pre = n := by
  have := (getNames_aux l [] List.Pairwise.nil).2 n
  unfold getNames; simpa using this

/-! ## The differential transmission -/

theorem configureDiff_spec (t t' : Two K) (jh ah : List Handle) (h : t.configureDiff jh ah = some t') :
    t' = { t with joint := ordered jh (getNames jh), act := ordered ah (getNames ah) } ∧
    (getNames jh).length = 2 ∧ (getNames ah).length = 2 ∧
    (∀ k ∈ kinds, t'.joint k = [] ∨ (t'.joint k).length = 2) ∧ (∀ k ∈ kinds, t'.act k = [] ∨ (t'.act k).length = 2) ∧
    ∃ k ∈ kinds, (t'.joint k).length = 2 ∧ (t'.act k).length = 2 := by
  unfold Two.configureDiff at h
  split at h
  · cases h
  split at h
  · cases h
  split at h
  · cases h
  next n1 =>
  split at h
  · cases h
  next n2 =>
  dsimp only at h
  split at h
  · cases h
  next c1 =>
  split at h
  · cases h
  next c2 =>
  split at h
  · cases h
  split at h
  · cases h
  next c4 =>
  cases h
  simp only [List.any_eq_true, Bool.and_eq_true, decide_eq_true_eq, not_exists, not_and, Bool.not_eq_false] at c1 c2 c4 n1 n2
  refine ⟨rfl, by simpa using n1, by simpa using n2, ?_, ?_, ?_⟩
  · intro k hk
    have := c1 k hk
    by_cases e : ordered jh (getNames jh) k = []
    · exact .inl e
    · exact .inr (by simpa using this e)
  · intro k hk
    have := c2 k hk
    by_cases e : ordered ah (getNames ah) k = []
    · exact .inl e
    · exact .inr (by simpa using this e)
  · obtain ⟨k, hk, ⟨e1, e2⟩, e3⟩ := c4
    exact ⟨k, hk, by simpa using c1 k hk e1, by simpa using c2 k hk e2⟩

/-- **C44 (differential).** If `configure` succeeds then at least one kind is mapped between the two joints and the two
actuators, every kind is either mapped or absent on one side, and the numbers given to the constructor are kept. -/
theorem C44_differential_maps_something (t t' : Two K) (jh ah : List Handle) (h : t.configureDiff jh ah = some t') :
    (∃ k ∈ kinds, (t'.joint k).length = 2 ∧ (t'.act k).length = 2) ∧
    (∀ k ∈ kinds, ((t'.joint k).length = 2 ∧ (t'.act k).length = 2) ∨ t'.joint k = [] ∨ t'.act k = []) ∧
    t'.ar0 = t.ar0 ∧ t'.ar1 = t.ar1 ∧ t'.jr0 = t.jr0 ∧ t'.jr1 = t.jr1 ∧ t'.off0 = t.off0 ∧ t'.off1 = t.off1 := by
  obtain ⟨e, _, _, h1, h2, h3⟩ := configureDiff_spec t t' jh ah h
  refine ⟨h3, ?_, ?_⟩
  · intro k hk
    rcases h1 k hk with h1 | h1
    · exact .inr (.inl h1)
    · rcases h2 k hk with h2 | h2
      · exact .inr (.inr h2)
      · exact .inl ⟨h1, h2⟩
  · subst e; exact ⟨rfl, rfl, rfl, rfl, rfl, rfl⟩

theorem namesIdentical_iff (l : List Handle) : namesIdentical l = true ↔ ∀ h ∈ l, ∀ g ∈ l, h.pre = g.pre := by
  unfold namesIdentical
  induction l with
  | nil => simp
  | cons a t ih =>
    cases t with
    | nil => simp
    | cons b u =>
      simp only [List.map_cons, List.tail_cons, List.zip_cons_cons, List.all_cons, Bool.and_eq_true, decide_eq_true_eq] at ih ⊢
      rw [ih]
      constructor
      · rintro ⟨e, h⟩ x hx y hy
        have hb : ∀ z ∈ a :: b :: u, z.pre = b.pre := by
          intro z hz
          rcases List.mem_cons.1 hz with rfl | hz
          · exact e.symm
          · exact h z hz b (by simp)
        rw [hb x hx, hb y hy]
      · intro h
        exact ⟨h b (by simp) a (by simp), fun x hx y hy => h x (List.mem_cons_of_mem _ hx) y (List.mem_cons_of_mem _ hy)⟩

/-- **C44 (simple).** A simple transmission is configured exactly with handles of one joint and of one actuator, at least one of
a known kind each; every kind is then connected to the first handle of that kind, and the numbers given to the constructor are
kept. -/
theorem C44_simple_one_joint (t : Simple K) (jh ah : List Handle) :
    ((∃ t', t.configure jh ah = some t') ↔
      (jh ≠ [] ∧ ∀ h ∈ jh, ∀ g ∈ jh, h.pre = g.pre) ∧ (ah ≠ [] ∧ ∀ h ∈ ah, ∀ g ∈ ah, h.pre = g.pre) ∧
      (∃ k ∈ kinds, byInterface jh k ≠ none) ∧ (∃ k ∈ kinds, byInterface ah k ≠ none)) ∧
    ∀ t', t.configure jh ah = some t' → t'.red = t.red ∧ t'.off = t.off ∧
      (∀ k x, t'.joint k = some x ↔ ∃ h, jh.find? (fun h => h.itf = k) = some h ∧ h.ptr = some x) ∧
      (∀ k x, t'.act k = some x ↔ ∃ h, ah.find? (fun h => h.itf = k) = some h ∧ h.ptr = some x) := by
  have hk : ∀ l : List Handle, (kinds.all fun k => (byInterface l k).isNone) = false ↔ ∃ k ∈ kinds, byInterface l k ≠ none := by
    intro l
    rw [List.all_eq_false]
    constructor
    · rintro ⟨k, a, b⟩; exact ⟨k, a, by simpa using b⟩
    · rintro ⟨k, a, b⟩; exact ⟨k, a, by simpa using b⟩
  have hb : ∀ (l : List Handle) (k : Kind) (x : Nat), byInterface l k = some x ↔
      ∃ h, l.find? (fun h => h.itf = k) = some h ∧ h.ptr = some x := by
    intro l k x
    unfold byInterface
    split
    · rename_i e; simp [e]
    · rename_i h e; simp [e]
  rw [← namesIdentical_iff, ← namesIdentical_iff, ← hk, ← hk]
  constructor
  · unfold Simple.configure
    constructor
    · rintro ⟨t', h⟩
      split at h
      · cases h
      split at h
      · cases h
      split at h
      · cases h
      split at h
      · cases h
      split at h
      · cases h
      split at h
      · cases h
      simp_all
    · rintro ⟨⟨a, b⟩, ⟨c, d⟩, e, f⟩
      rw [if_neg a, if_neg c, if_neg (by simp [b]), if_neg (by simp [d]), if_neg (by simp [e]), if_neg (by simp [f])]
      exact ⟨_, rfl⟩
  · intro t' h
    unfold Simple.configure at h
    repeat' split at h
    all_goals first
      | cases h; done
      | (cases h; exact ⟨rfl, rfl, hb jh, hb ah⟩)

/-- No two handles have the same joint (actuator) name and interface name. -/
def NoTwins (l : List Handle) : Prop := (l.map fun h => (h.pre, h.itf)).Nodup

instance (l : List Handle) : Decidable (NoTwins l) := by unfold NoTwins; infer_instance

theorem pick_le_one (l : List Handle) (hn : NoTwins l) (n : Name) (k : Kind) :
    (l.filterMap fun h => if h.pre = n ∧ h.itf = k then h.ptr else none).length ≤ 1 := by
  induction l with
  | nil => simp
  | cons a t ih =>
    unfold NoTwins at hn ih
    rw [List.map_cons, List.nodup_cons] at hn
    have ih := ih hn.2
    by_cases c : a.pre = n ∧ a.itf = k
    · have hz : (t.filterMap fun h => if h.pre = n ∧ h.itf = k then h.ptr else none) = [] := by
        rw [List.filterMap_eq_nil_iff]
        intro h hm
        split
        · next c' =>
          exfalso
          apply hn.1
          rw [List.mem_map]
          exact ⟨h, hm, by rw [c'.1, c'.2, c.1, c.2]⟩
        · rfl
      rw [List.filterMap_cons, hz]
      split <;> simp
    · rw [List.filterMap_cons, if_neg c]
      exact ih

theorem ordered_two (l : List Handle) (hn : NoTwins l) (n0 n1 : Name) (k : Kind) (x0 x1 : Nat)
    (h : ordered l [n0, n1] k = [x0, x1]) :
    (∃ g ∈ l, g.pre = n0 ∧ g.itf = k ∧ g.ptr = some x0) ∧ (∃ g ∈ l, g.pre = n1 ∧ g.itf = k ∧ g.ptr = some x1) := by
  have a0 := pick_le_one l hn n0 k
  have a1 := pick_le_one l hn n1 k
  unfold ordered at h
  simp only [List.flatMap_cons, List.flatMap_nil, List.append_nil] at h
  have key : ∀ (n : Name) (x : Nat), (l.filterMap fun h => if h.pre = n ∧ h.itf = k then h.ptr else none) = [x] →
      ∃ g ∈ l, g.pre = n ∧ g.itf = k ∧ g.ptr = some x := by
    intro n x e
    have : x ∈ l.filterMap fun h => if h.pre = n ∧ h.itf = k then h.ptr else none := by simp [e]
    obtain ⟨g, hg, e2⟩ := List.mem_filterMap.1 this
    split at e2
    · next c => exact ⟨g, hg, c.1, c.2, e2⟩
    · cases e2
  generalize hA : (l.filterMap fun h => if h.pre = n0 ∧ h.itf = k then h.ptr else none) = A at h a0
  generalize hB : (l.filterMap fun h => if h.pre = n1 ∧ h.itf = k then h.ptr else none) = B at h a1
  match A, B, a0, a1, h with
  | [], [], _, _, h => simp at h
  | [], [_], _, _, h => simp at h
  | [_], [], _, _, h => simp at h
  | [a], [b], _, _, h =>
    simp at h
    obtain ⟨rfl, rfl⟩ := h
    exact ⟨key n0 a hA, key n1 b hB⟩
  | _ :: _ :: _, _, h, _, _ => simp at h
  | _, _ :: _ :: _, _, h, _ => simp at h

/-- **C44 (which joint a reduction belongs to), differential.** If no two handles have the same joint and interface name,
reduction and offset number 0 belong to the joint whose name comes first in alphabetical order, number 1 to the other;
likewise for the actuators. -/
theorem C44_differential_order_partial (t t' : Two K) (jh ah : List Handle) (h : t.configureDiff jh ah = some t')
    (hj : NoTwins jh) (ha : NoTwins ah) : ∃ j0 j1 a0 a1, j0 < j1 ∧ a0 < a1 ∧
      (∀ g ∈ jh, g.pre = j0 ∨ g.pre = j1) ∧ (∀ g ∈ ah, g.pre = a0 ∨ g.pre = a1) ∧
      (∀ k x0 x1, t'.joint k = [x0, x1] → ∃ g0 ∈ jh, ∃ g1 ∈ jh, g0.pre = j0 ∧ g1.pre = j1 ∧ g0.itf = k ∧ g1.itf = k ∧
        g0.ptr = some x0 ∧ g1.ptr = some x1) ∧
      (∀ k x0 x1, t'.act k = [x0, x1] → ∃ g0 ∈ ah, ∃ g1 ∈ ah, g0.pre = a0 ∧ g1.pre = a1 ∧ g0.itf = k ∧ g1.itf = k ∧
        g0.ptr = some x0 ∧ g1.ptr = some x1) := by
  obtain ⟨e, l1, l2, _⟩ := configureDiff_spec t t' jh ah h
  have key : ∀ l : List Handle, NoTwins l → (getNames l).length = 2 → ∃ j0 j1, j0 < j1 ∧ (∀ g ∈ l, g.pre = j0 ∨ g.pre = j1) ∧
      (∀ k x0 x1, ordered l (getNames l) k = [x0, x1] → ∃ g0 ∈ l, ∃ g1 ∈ l, g0.pre = j0 ∧ g1.pre = j1 ∧ g0.itf = k ∧ g1.itf = k ∧
        g0.ptr = some x0 ∧ g1.ptr = some x1) := by
    intro l hn hl
    have hs := getNames_sorted l
    have hm := mem_getNames l
    match hx : getNames l, hl with
    | [j0, j1], _ =>
      rw [hx] at hs hm
      refine ⟨j0, j1, by simpa using hs, fun g hg => by simpa using (hm g.pre).2 ⟨g, hg, rfl⟩, ?_⟩
      intro k x0 x1 ho
      obtain ⟨⟨g0, a, b, c, d⟩, ⟨g1, a', b', c', d'⟩⟩ := ordered_two l hn j0 j1 k x0 x1 ho
      exact ⟨g0, a, g1, a', b, b', c, c', d, d'⟩
  obtain ⟨j0, j1, q1, q2, q3⟩ := key jh hj l1
  obtain ⟨a0, a1, r1, r2, r3⟩ := key ah ha l2
  subst e
  exact ⟨j0, j1, a0, a1, q1, r1, q2, r2, q3, r3⟩

/-! ## Non-vacuity and witnesses -/

/-- Joints 3 and 9, actuators 1 and 2, position and velocity. -/
def demoJoints : List Handle := [⟨9, .position, some 90⟩, ⟨3, .position, some 30⟩, ⟨3, .velocity, some 31⟩, ⟨9, .velocity, some 91⟩]
/-- See `demoJoints`. -/
def demoActs : List Handle := [⟨1, .position, some 10⟩, ⟨2, .position, some 20⟩, ⟨1, .velocity, some 11⟩, ⟨2, .velocity, some 21⟩, ⟨2, .effort, none⟩]

/-- A transmission as loaded from a description with joints in the order 9, 3: joint 9 has reduction 5 and offset 100. -/
def demoTwo : Option (Two ℚ) := Two.load [(1, 0), (1, 0)] [(5, 100), (1, 0)]

/-- The hypotheses of the theorems of C30 and C44 are met: the description loads, `configure` accepts, no cell is shared. -/
example : (demoTwo.bind fun t => t.configureDiff demoJoints demoActs).isSome = true ∧
    (demoTwo.bind fun t => t.configureFour demoJoints demoActs).isSome = true ∧ NoTwins demoJoints ∧ NoTwins demoActs ∧
    ((demoTwo.bind fun t => t.configureDiff demoJoints demoActs).map fun t =>
      (decide (kinds.flatMap t.joint ++ kinds.flatMap t.act).Nodup, t.joint .position, t.act .velocity, t.joint .effort)) =
      some (true, [30, 90], [11, 21], []) := by decide +kernel

/-- Concrete numbers of the differential transmission, offset and reduction ≠ 1. -/
example : ((demoTwo.bind fun t => t.configureDiff demoJoints demoActs).map fun t =>
    let m : Mem ℚ := fun x => if x = 30 then 104 else if x = 90 then 7 else 0
    let m' := t.diffJointToAct m
    (m' 10, m' 20, t.diffActToJoint m' 30, t.diffActToJoint m' 90)) = some (27, 13, 104, 7) := by decide +kernel

/-- A simple transmission with reduction 4 and offset 1 meets the hypotheses of the theorems on simple transmissions. -/
example : ((Simple.make (4 : ℚ) 1).bind fun t => t.configure [⟨3, .position, some 30⟩, ⟨3, .velocity, some 31⟩]
      [⟨1, .velocity, some 11⟩, ⟨1, .position, some 10⟩]).map (fun t =>
    let m : Mem ℚ := fun x => if x = 30 then 3 else 0
    (t.red, t.jointToAct m 10, t.actToJoint (t.jointToAct m) 30)) = some (4, 8, 3) := by decide +kernel

/-- **C44, negation (1).** The description gives joint 9 the reduction 5 and the offset 100, joint 3 the reduction 1 and no
offset. When both actuators are at 0 the joints should be at 100 and 0; joint 3 (cell 30) is reported at 100 and
joint 9 (cell 90) at 0: the numbers are applied to the joints in alphabetical order. -/
theorem C44_reductions_swapped :
    ((demoTwo.bind fun t => t.configureDiff demoJoints demoActs).map fun t =>
      (t.diffActToJoint (fun _ => 0) 90, t.diffActToJoint (fun _ => 0) 30)) = some (0, 100) ∧
    ((demoTwo.bind fun t => t.configureFour demoJoints demoActs).map fun t =>
      (t.fourActToJoint (fun _ => 0) 90, t.fourActToJoint (fun _ => 0) 30)) = some (0, 100) := by decide +kernel

/-- **C44, negation (2).** The four-bar linkage accepts position handles of the joints and velocity handles of the
actuators (effort being absent on both sides, "sizes match"): nothing is ever mapped. -/
theorem C44_fourbar_maps_nothing :
    ∃ t' : Two ℚ, (Two.load [((2 : ℚ), 0), (2, 0)] [(5, 100), (1, 0)]).bind (fun t => t.configureFour
      [⟨3, .position, some 30⟩, ⟨9, .position, some 90⟩] [⟨1, .velocity, some 11⟩, ⟨2, .velocity, some 21⟩]) = some t' ∧
    ∀ m, t'.fourActToJoint m = m ∧ t'.fourJointToAct m = m := by
  refine ⟨_, rfl, fun m => ⟨?_, ?_⟩⟩ <;> rfl

/-- **C44, negation (3).** The simple transmission accepts a position handle of the joint and a velocity handle of the
actuator: nothing is ever mapped. -/
theorem C44_simple_maps_nothing :
    ∃ t' : Simple ℚ, (Simple.make (4 : ℚ) 1).bind (fun t => t.configure [⟨3, .position, some 30⟩] [⟨1, .velocity, some 11⟩]) = some t' ∧
    ∀ m, t'.actToJoint m = m ∧ t'.jointToAct m = m := by
  refine ⟨_, rfl, fun m => ⟨?_, ?_⟩⟩ <;> rfl

/-- **C44, negation (4).** Two position handles of the same joint are accepted as the positions of the two joints: joint 3
is mapped to both outputs (cells 30 and 32), joint 9 has no position at all. -/
theorem C44_same_joint_twice :
    ((demoTwo.bind fun t => t.configureDiff [⟨3, .position, some 30⟩, ⟨3, .position, some 32⟩, ⟨9, .velocity, some 91⟩, ⟨3, .velocity, some 31⟩]
      demoActs).map fun t => (t.joint .position, t.act .position)) = some ([30, 32], [10, 20]) := by decide +kernel

end Verif
