import Verif.Props.C52_MockDemo
/-!
# C52: what configuring the mock hardware does to its states
-/
namespace Verif.Mock
open Verif (Dbl)

/-! ## Specification -/

/-- Specification: the value of a joint state after configuring: 0 if it was not a number, and position states of a robot without custom interface are
shifted by the offset. -/
def Initial (c : Cfg) (k : Key) (old new : Dbl) : Prop :=
  new = (if k.2 = position ∧ c.custom = [] then (if old = .nan then 0 else old).add c.offset else if old = .nan then 0 else old)

/-! ## Proofs -/

theorem configure1_dbl (c : Cfg) (i : Itf) (s : St) (ht : i.ty = .dbl) (hs : c.stTy i.key = some .dbl) :
    (configure1 c i s).2 = .ok ∧ Initial c i.key (s.st i.key) ((configure1 c i s).1.st i.key) ∧
      (∀ k, k ≠ i.key → (configure1 c i s).1.st k = s.st k) ∧ (configure1 c i s).1.stb = s.stb ∧ (configure1 c i s).1.cm = s.cm ∧
      (configure1 c i s).1.cmb = s.cmb ∧ (configure1 c i s).1.modes = s.modes := by
  unfold configure1 Initial
  rw [if_pos ht]
  have hn : (s.st i.key).isNan = true ↔ s.st i.key = .nan := by cases s.st i.key <;> simp [Dbl.isNan]
  simp only [getSt, setSt, hs]
  by_cases h1 : s.st i.key = .nan
  · rw [if_pos (hn.2 h1), if_pos h1]
    simp only [andThen]
    split
    · simp only [St.put]
      refine ⟨trivial, by simp, fun k hk => by simp [hk], ?_⟩
      simp
    · simp only [St.put]
      refine ⟨trivial, by simp, fun k hk => by simp [hk], ?_⟩
      simp
  · rw [if_neg (fun h => h1 (hn.1 h)), if_neg h1]
    simp only [andThen]
    split
    · simp only [St.put]
      refine ⟨trivial, by simp, fun k hk => by simp [hk], ?_⟩
      simp
    · simp

theorem configure1_other (c : Cfg) (i : Itf) (s : St) (ht : i.ty ≠ .dbl) : configure1 c i s = (s, .ok) := by
  unfold configure1; rw [if_neg ht]

theorem loop_configure (c : Cfg) (l : List Itf) (hl : ∀ i ∈ l, c.stTy i.key = some i.ty) (hn : (l.map (·.key)).Nodup) (s : St) :
    (loop (configure1 c) l s).2 = .ok ∧ (∀ i ∈ l, i.ty = .dbl → Initial c i.key (s.st i.key) ((loop (configure1 c) l s).1.st i.key)) ∧
      (∀ k, (∀ i ∈ l, i.ty = .dbl → i.key ≠ k) → (loop (configure1 c) l s).1.st k = s.st k) ∧ (loop (configure1 c) l s).1.stb = s.stb ∧
      (loop (configure1 c) l s).1.cm = s.cm ∧ (loop (configure1 c) l s).1.cmb = s.cmb ∧ (loop (configure1 c) l s).1.modes = s.modes := by
  induction l generalizing s with
  | nil => exact ⟨rfl, fun i hi => absurd hi List.not_mem_nil, fun _ _ => rfl, rfl, rfl, rfl, rfl⟩
  | cons a l ih =>
    rw [List.map_cons, List.nodup_cons] at hn
    by_cases ht : a.ty = .dbl
    · obtain ⟨r, h1, h2, h3, h4, h5, h6⟩ := configure1_dbl c a s ht (by rw [hl a (by simp), ht])
      obtain ⟨r', g1, g2, g3, g4, g5, g6⟩ := ih (fun i hi => hl i (by simp [hi])) hn.2 (configure1 c a s).1
      have e : loop (configure1 c) (a :: l) s = loop (configure1 c) l (configure1 c a s).1 := by rw [loop, r]
      rw [e]
      refine ⟨r', ?_, ?_, g3.trans h3, g4.trans h4, g5.trans h5, g6.trans h6⟩
      · intro i hi hd
        rcases List.mem_cons.1 hi with rfl | hi
        · rw [g2 i.key fun j hj _ e => hn.1 (List.mem_map.2 ⟨j, hj, e⟩)]
          exact h1
        · have : i.key ≠ a.key := fun e => hn.1 (List.mem_map.2 ⟨i, hi, e⟩)
          rw [← h2 i.key this]
          exact g1 i hi hd
      · intro k hk
        rw [g2 k fun i hi => hk i (by simp [hi]), h2 k fun e => hk a (by simp) ht e.symm]
    · have e : loop (configure1 c) (a :: l) s = loop (configure1 c) l s := by rw [loop, configure1_other c a s ht]
      rw [e]
      obtain ⟨r', g1, g2, g3⟩ := ih (fun i hi => hl i (by simp [hi])) hn.2 s
      refine ⟨r', ?_, fun k hk => g2 k fun i hi => hk i (by simp [hi]), g3⟩
      intro i hi hd
      rcases List.mem_cons.1 hi with rfl | hi
      · exact absurd hd ht
      · exact g1 i hi hd

/-- **C52 (configuring).** Configuring succeeds; afterwards every real-valued joint state is what it was, 0 if it was not a number, and positions are shifted by
the offset unless there is a custom interface to follow; sensors, gpios, all commands and the modes already chosen stay, and there is a mode
for every joint. -/
theorem C52_configure (c : Cfg) (hc : Consistent c) (hn : (c.jointStates.map (·.key)).Nodup) (s : St) :
    (configure c s).2 = .ok ∧ (∀ i ∈ c.jointStates, i.ty = .dbl → Initial c i.key (s.st i.key) ((configure c s).1.st i.key)) ∧
      (∀ k, (∀ i ∈ c.jointStates, i.ty = .dbl → i.key ≠ k) → (configure c s).1.st k = s.st k) ∧
      (configure c s).1.stb = s.stb ∧ (configure c s).1.cm = s.cm ∧ (configure c s).1.cmb = s.cmb ∧
      (configure c s).1.modes.length = c.joints.length ∧ (∀ n, n < c.joints.length → n < s.modes.length → (configure c s).1.modes[n]? = s.modes[n]?) := by
  obtain ⟨r, h1, h2, h3, h4, h5, h6⟩ := loop_configure c c.jointStates (fun i hi => (hc.joint i hi).1) hn s
  unfold configure
  simp only [andThen, r]
  refine ⟨trivial, h1, h2, h3, h4, h5, ?_, ?_⟩
  · rw [h6]; simp; omega
  · intro n h7 h8
    rw [h6, List.getElem?_append_left (by simp; omega), List.getElem?_take_of_lt h7]

/-- The hypotheses are met, and a state that is not a number is started at the offset. -/
example : (robot.jointStates.map (·.key)).Nodup ∧ ((configure robot { fresh robot with st := fun _ => .nan }).1.st (jA, position) = .fin (1/2) ∧
    (configure robot { fresh robot with st := fun _ => .nan }).1.st (jA, velocity) = 0) := by
  refine ⟨by decide, ?_, ?_⟩
  · have := (C52_configure robot robot_consistent (by decide) { fresh robot with st := fun _ => .nan }).2.1 ⟨(jA, position), .dbl⟩ (by simp [robot]) rfl
    rw [this]; decide +kernel
  · have := (C52_configure robot robot_consistent (by decide) { fresh robot with st := fun _ => .nan }).2.1 ⟨(jA, velocity), .dbl⟩ (by simp [robot]) rfl
    rw [this]; decide +kernel

end Verif.Mock
