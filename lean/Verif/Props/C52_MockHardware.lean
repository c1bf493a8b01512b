import Verif.Mock.Lemmas
import Mathlib.Tactic.Ring
/-!
# C52: the mock hardware does what it is told
-/
namespace Verif.Mock
open Verif (Dbl)

/-! ### Mirrored interfaces -/

/-- `k` is not written as part of a mimic joint. -/
def NoMimic (c : Cfg) (k : Key) : Prop := Pva3 k.2 → ∀ m ∈ c.mimics, m.joint ≠ k.1

/-- `k` is a joint interface of type `double` with a state and a command that the mock hardware has to mirror: not a position (those have an
offset), no part of the simulated dynamics, not the custom interface with the offset, not moved by a mimic joint. -/
structure Mirrored (c : Cfg) (k : Key) : Prop where
  state : ⟨k, .dbl⟩ ∈ c.jointStates
  command : c.cmTy k = some .dbl
  notPosition : k.2 ≠ position
  notDynamic : c.dynamics = true → ¬ Pva3 k.2
  notCustom : k.2 ≠ c.custom
  noMimic : NoMimic c k

theorem mirrored_skip {c : Cfg} {k : Key} (h : Mirrored c k) : k.2 ∉ c.skip := by
  unfold Cfg.skip
  split
  · rename_i hd
    have := h.notDynamic hd
    intro hm
    simp only [List.mem_cons, List.not_mem_nil, or_false] at hm
    exact this hm
  · simpa using h.notPosition

/-- **C52 (mirror).** After a `read` that returns OK, a mirrored interface has the value of its command if that is finite, and its old value
otherwise. -/
theorem C52_mirrored (c : Cfg) (dt : Dbl) (s : St) (k : Key) (hd : c.disabled = false) (hk : Mirrored c k)
    (hok : (read c dt s).2 = .ok) :
    (read c dt s).1.st k = if (s.cm k).isFinite then s.cm k else s.st k := by
  obtain ⟨s1, s2, s3, s4, r1, e1, r2, e2, r3, e3, r4, e4, r5, e5⟩ := read_ok hd hok
  have k1 : SameIn s s1 ∧ s1.st k = s.st k := by
    rw [e1]
    refine ⟨(only_joints c dt s).1, (only_joints c dt s).2 k ?_⟩
    split
    · rename_i h; exact fun g => hk.notDynamic h g.2
    · exact hk.notPosition
  have k2 : SameIn s s2 ∧ s2.st k = latest (s.cm k) (s.st k) := by
    rw [e2]
    refine loop_reach (P := fun x => SameIn s x ∧ (x.st k = s.st k ∨ x.st k = latest (s.cm k) (s.st k)))
      (Q := fun x => SameIn s x ∧ x.st k = latest (s.cm k) (s.st k)) ?_ ?_ ?_ ⟨k1.1, .inl k1.2⟩ r2
    · intro i _ x hx
      refine ⟨hx.1.trans (only_loopback c i x).1, ?_⟩
      by_cases hik : k = i.key
      · unfold loopback
        split
        · exact hx.2
        · have hf := only_follow c i
          have hm : ∀ y : St, (if c.hasCommand i.key = true then mirror c i.key i.ty x else (x, .ok)).1 = y →
              y.st k = s.st k ∨ y.st k = latest (s.cm k) (s.st k) := by
            rintro y rfl
            split
            · rcases hx.2 with h | h
              · unfold mirror
                split
                · split
                  · exact .inl h
                  · rename_i v hv
                    split
                    · exact .inl h
                    · split
                      · rename_i hfin
                        unfold setSt
                        split
                        · right
                          rw [← hik, put_same]
                          have : v = s.cm k := by
                            have e : getCm c x k = some (s.cm k) := by unfold getCm; rw [hk.command]; dsimp only; rw [hx.1.1]
                            rw [← hik, e] at hv; injection hv with hv; exact hv.symm
                          rw [this] at hfin ⊢; unfold latest; rw [if_pos hfin]
                        · exact .inl h
                      · exact .inl h
                · split
                  · exact .inl h
                  · exact .inl h
                · exact .inl h
              · exact .inr (mirror_keeps c s k hk.command i.key i.ty x ⟨hx.1, h⟩).2
            · exact hx.2
          generalize (if c.hasCommand i.key = true then mirror c i.key i.ty x else (x, Res.ok)) = z at hm ⊢
          rw [andThen_eq]
          split
          · rw [(hf _).2 k (fun g => hk.notCustom g.2)]; exact hm _ rfl
          · exact hm _ rfl
      · rw [(only_loopback c i x).2 k (fun g => hik g.1)]; exact hx.2
    · intro i _ x hx hq
      refine ⟨hx.1.trans (only_loopback c i x).1, ?_⟩
      unfold loopback
      split
      · exact hq.2
      · have hf := only_follow c i
        have hm : (if c.hasCommand i.key = true then mirror c i.key i.ty x else (x, .ok)).1.st k = latest (s.cm k) (s.st k) := by
          split
          · exact (mirror_keeps c s k hk.command i.key i.ty x hq).2
          · exact hq.2
        generalize (if c.hasCommand i.key = true then mirror c i.key i.ty x else (x, Res.ok)) = z at hm ⊢
        rw [andThen_eq]
        split
        · rw [(hf _).2 k (fun g => hk.notCustom g.2)]; exact hm
        · exact hm
    · refine ⟨_, hk.state, ?_⟩
      intro x hx hxok
      refine ⟨hx.1.trans (only_loopback c _ x).1, ?_⟩
      have hcmd : c.hasCommand k = true := by unfold Cfg.hasCommand; rw [hk.command]; rfl
      unfold loopback at hxok ⊢
      dsimp only at hxok ⊢
      rw [if_neg (mirrored_skip hk), if_pos hcmd] at hxok ⊢
      obtain ⟨o1, o2, o3⟩ := andThen_ok hxok
      rw [o3, (only_follow c _ _).2 k (fun g => hk.notCustom g.2)]
      exact mirror_sets c s k hk.command x hx.1 hx.2 o1
  have k3 : SameIn s s3 ∧ s3.st k = latest (s.cm k) (s.st k) := by
    have h3 : Only (fun k => Pva3 k.2 ∧ ∃ m ∈ c.mimics, m.joint = k.1) (loop (mimic c) c.mimics) :=
      only_loop (fun m hm => (only_mimic c m).mono (fun k hk => ⟨hk.2, m, hm, hk.1.symm⟩))
    rw [e3]
    refine ⟨k2.1.trans (h3 s2).1, ?_⟩
    rw [(h3 s2).2 k (fun g => by obtain ⟨g1, m, gm, gk⟩ := g; exact hk.noMimic g1 m gm gk)]
    exact k2.2
  have k4 : SameIn s s4 ∧ s4.st k = latest (s.cm k) (s.st k) := by
    rw [e4]; unfold sensors
    split
    · exact loop_inv (P := fun x => SameIn s x ∧ x.st k = latest (s.cm k) (s.st k))
        (fun i _ x hx => mirror_keeps c s k hk.command i.key i.ty x hx) k3
    · exact k3
  have k5 : SameIn s (gpios c s4).1 ∧ (gpios c s4).1.st k = latest (s.cm k) (s.st k) := by
    unfold gpios
    split
    · exact loop_inv (P := fun x => SameIn s x ∧ x.st k = latest (s.cm k) (s.st k))
        (fun i _ x hx => mirror_keeps c s k hk.command i.key i.ty x hx) k4
    · refine loop_inv (P := fun x => SameIn s x ∧ x.st k = latest (s.cm k) (s.st k)) (fun i _ x hx => ?_) k4
      split
      · exact mirror_keeps c s k hk.command i.key i.ty x hx
      · exact hx
  rw [e5]; exact k5.2

/-! ### Interfaces without command -/

theorem has_of_get {c : Cfg} {s : St} {k : Key} {v : Dbl} (h : getCm c s k = some v) : c.hasCommand k = true := by
  unfold getCm at h
  unfold Cfg.hasCommand
  cases g : c.cmTy k with
  | none => rw [g] at h; cases h
  | some t => rfl

/-- Everything but interfaces with a command. -/
theorem only_mirror_cmd (c : Cfg) (k : Key) (ty : Ty) : Only (fun k => c.hasCommand k = true) (mirror c k ty) := by
  intro s
  refine ⟨(only_mirror c k ty s).1, fun k' hk' => ?_⟩
  by_cases h : k' = k
  · subst h
    unfold mirror
    split
    · split
      · rfl
      · rename_i v hv; exact absurd (has_of_get hv) hk'
    · split
      · rename_i h2
        exact absurd (show c.hasCommand k' = true by unfold Cfg.hasCommand; rw [h2.1]; rfl) hk'
      · rfl
    · rfl
  · exact (only_mirror c k ty s).2 k' h

theorem only_posMirror_cmd (c : Cfg) (i : Itf) : Only (fun k => c.hasCommand k = true) (posMirror c i) := by
  intro s
  refine ⟨(only_posMirror c i s).1, fun k' hk' => ?_⟩
  by_cases h : k' = i.key
  · subst h
    unfold posMirror
    split
    · split
      · rfl
      · rename_i v hv; exact absurd (has_of_get hv) hk'
    · rfl
  · exact (only_posMirror c i s).2 k' (fun g => h g.1)

/-- **C52 (sensors).** A state interface without a command interface, which is not part of the simulated dynamics, not the custom interface and not
part of a mimic joint, is never changed by `read`, whatever it returns. -/
theorem C52_unchanged (c : Cfg) (dt : Dbl) (s : St) (k : Key) (h1 : c.hasCommand k = false)
    (h2 : c.dynamics = true → ¬ Pva3 k.2) (h3 : k.2 ≠ c.custom) (h4 : NoMimic c k) :
    (read c dt s).1.st k = s.st k := by
  unfold read
  split
  · rfl
  · have hc : ¬ c.hasCommand k = true := by rw [h1]; decide
    have o1 : Only (· = k) (fun s => (s, Res.ok)) := only_skip _ _
    have keep : ∀ {f : St → St × Res} {w : Key → Prop}, Only w f → ¬ w k → Only (· ≠ k) f := by
      intro f w h hw s
      exact ⟨(h s).1, fun k' hk' => by
        have : k' = k := by by_contra g; exact hk' g
        subst this; exact (h s).2 _ hw⟩
    have a1 : Only (· ≠ k) (joints c dt) := by
      by_cases hd : c.dynamics = true
      · refine keep (only_joints c dt) ?_
        rw [if_pos hd]; exact fun g => h2 hd g.2
      · intro s
        unfold joints
        rw [if_neg hd]
        exact only_loop (fun _ _ => only_loop (fun i _ => keep (only_posMirror_cmd c i) hc)) s
    have a2 : Only (· ≠ k) (loop (loopback c) c.jointStates) := by
      refine only_loop (fun i _ => ?_)
      intro s
      unfold loopback
      split
      · exact ⟨SameIn.refl s, fun _ _ => rfl⟩
      · refine only_andThen (f := fun s => if c.hasCommand i.key = true then mirror c i.key i.ty s else (s, .ok)) ?_
          (keep (only_follow c i) (fun g => h3 g.2)) s
        intro s
        dsimp only
        split
        · exact keep (only_mirror_cmd c i.key i.ty) hc s
        · exact ⟨SameIn.refl s, fun _ _ => rfl⟩
    have a3 : Only (· ≠ k) (loop (mimic c) c.mimics) :=
      only_loop (fun m hm => keep (only_mimic c m) (fun g => h4 g.2 m hm g.1.symm))
    have a4 : Only (· ≠ k) (sensors c) := by
      intro s
      unfold sensors
      split
      · exact only_loop (fun i _ => keep (only_mirror_cmd c i.key i.ty) hc) s
      · exact ⟨SameIn.refl s, fun _ _ => rfl⟩
    have a5 : Only (· ≠ k) (gpios c) := by
      intro s
      unfold gpios
      split
      · exact only_loop (fun i _ => keep (only_mirror_cmd c i.key i.ty) hc) s
      · refine only_loop (fun i _ => ?_) s
        intro s
        dsimp only
        split
        · exact keep (only_mirror_cmd c i.key i.ty) hc s
        · exact ⟨SameIn.refl s, fun _ _ => rfl⟩
    exact (only_andThen (only_andThen (only_andThen (only_andThen a1 a2) a3) a4) a5 s).2 k (fun g => g rfl)

/-- **C52 (disconnected).** With `disable_commands` a `read` changes nothing and returns OK. -/
theorem C52_disabled (c : Cfg) (dt : Dbl) (s : St) (h : c.disabled = true) : read c dt s = (s, .ok) := by
  unfold read; rw [if_pos h]

/-! ### Positions without dynamics -/

/-- The interface is no sensor and no gpio. -/
def JointOnly (c : Cfg) (k : Key) : Prop := (∀ i ∈ c.sensorStates, i.key ≠ k) ∧ k ∉ c.gpioKeys

theorem rest_keeps {c : Cfg} {dt : Dbl} {s : St} {k : Key} (hd : c.disabled = false) (hok : (read c dt s).2 = .ok)
    (hs : k.2 ∈ c.skip) (hm : NoMimic c k) (hj : JointOnly c k) : (read c dt s).1.st k = (joints c dt s).1.st k := by
  obtain ⟨s1, s2, s3, s4, r1, e1, r2, e2, r3, e3, r4, e4, r5, e5⟩ := read_ok hd hok
  have b2 : s2.st k = s1.st k := by
    rw [e2]
    have : Only (fun k => k.2 ∉ c.skip) (loop (loopback c) c.jointStates) :=
      only_loop (fun i _ => (only_loopback c i).mono (fun k hk => hk.2))
    exact (this s1).2 k (fun g => g hs)
  have b3 : s3.st k = s2.st k := by
    rw [e3]
    have : Only (fun k => Pva3 k.2 ∧ ∃ m ∈ c.mimics, m.joint = k.1) (loop (mimic c) c.mimics) :=
      only_loop (fun m hm => (only_mimic c m).mono (fun k hk => ⟨hk.2, m, hm, hk.1.symm⟩))
    exact (this s2).2 k (fun g => by obtain ⟨g1, m, gm, gk⟩ := g; exact hm g1 m gm gk)
  have b4 : s4.st k = s3.st k := by
    rw [e4]; exact (only_sensors c s3).2 k (fun g => by obtain ⟨_, i, hi, hk⟩ := g; exact hj.1 i hi hk)
  rw [e5, (only_gpios c s4).2 k hj.2, b4, b3, b2, e1]

/-- **C52 (positions).** Without dynamics, after a `read` that returns OK a position state has the value of the position command, plus the offset
unless a custom interface carries it, if the command is finite, and its old value otherwise. -/
theorem C52_position (c : Cfg) (dt : Dbl) (s : St) (j : Str) (hd : c.disabled = false) (hdyn : c.dynamics = false)
    (hne : c.joints ≠ []) (h1 : ∃ i ∈ c.jointCommands, i.key = (j, position)) (h2 : c.cmTy (j, position) = some .dbl)
    (h3 : c.hasState (j, position) = true) (hm : NoMimic c (j, position)) (hj : JointOnly c (j, position))
    (hok : (read c dt s).2 = .ok) :
    (read c dt s).1.st (j, position) =
      if (s.cm (j, position)).isFinite then (s.cm (j, position)).add (if c.custom = [] then c.offset else 0) else s.st (j, position) := by
  have hskip : c.skip = [position] := by unfold Cfg.skip; rw [if_neg (by rw [hdyn]; decide)]
  rw [rest_keeps hd hok (by rw [hskip]; simp) hm hj]
  obtain ⟨_, _, _, _, r1, _⟩ := read_ok hd hok
  unfold joints at r1 ⊢
  rw [if_neg (by rw [hdyn]; decide)] at r1 ⊢
  generalize hk : ((j, position) : Key) = k at *
  have hk2 : k.2 = position := by rw [← hk]
  let goal : Dbl := if (s.cm k).isFinite then (s.cm k).add (if c.custom = [] then c.offset else 0) else s.st k
  have hget : ∀ x, SameIn s x → getCm c x k = some (s.cm k) := by
    intro x hx; unfold getCm; rw [h2]; dsimp only; rw [hx.1]
  -- one round either leaves the value or sets it
  have stepP : ∀ i : Itf, ∀ x, SameIn s x ∧ (x.st k = s.st k ∨ x.st k = goal) →
      SameIn s (posMirror c i x).1 ∧ ((posMirror c i x).1.st k = s.st k ∨ (posMirror c i x).1.st k = goal) := by
    intro i x hx
    refine ⟨hx.1.trans (only_posMirror c i x).1, ?_⟩
    by_cases hik : k = i.key
    · unfold posMirror
      split
      · rw [← hik, hget x hx.1]
        dsimp only
        split
        · rename_i hfin
          unfold setSt
          split
          · right; rw [put_same]; show _ = goal; simp only [goal, hfin, if_true]; rfl
          · exact hx.2
        · exact hx.2
      · exact hx.2
    · rw [(only_posMirror c i x).2 k (fun g => hik g.1)]; exact hx.2
  have stepQ : ∀ i : Itf, ∀ x, SameIn s x ∧ x.st k = goal → SameIn s (posMirror c i x).1 ∧ (posMirror c i x).1.st k = goal := by
    intro i x hx
    refine ⟨hx.1.trans (only_posMirror c i x).1, ?_⟩
    by_cases hik : k = i.key
    · unfold posMirror
      split
      · rw [← hik, hget x hx.1]
        dsimp only
        split
        · rename_i hfin
          unfold setSt
          split
          · rw [put_same]; show _ = goal; simp only [goal, hfin, if_true]; rfl
          · exact hx.2
        · exact hx.2
      · exact hx.2
    · rw [(only_posMirror c i x).2 k (fun g => hik g.1)]; exact hx.2
  show _ = goal
  have fin := loop_reach (f := fun (_ : Str) => loop (posMirror c) c.jointCommands) (l := c.joints) (s := s)
    (P := fun x => SameIn s x ∧ (x.st k = s.st k ∨ x.st k = goal)) (Q := fun x => SameIn s x ∧ x.st k = goal)
    (fun _ _ x hx => loop_inv (fun i _ => stepP i) hx)
    (fun _ _ x _ hq => loop_inv (fun i _ => stepQ i) hq) ?_ ⟨SameIn.refl s, .inl rfl⟩ r1
  · exact fin.2
  · obtain ⟨j0, hj0⟩ := List.exists_mem_of_ne_nil _ hne
    refine ⟨j0, hj0, fun x hx hxok => ?_⟩
    refine loop_reach (P := fun x => SameIn s x ∧ (x.st k = s.st k ∨ x.st k = goal)) (Q := fun x => SameIn s x ∧ x.st k = goal)
      (fun i _ => stepP i) (fun i _ x _ hq => stepQ i x hq) ?_ hx hxok
    obtain ⟨i, hi, hik⟩ := h1
    refine ⟨i, hi, fun y hy hyok => ⟨(stepP i y hy).1, ?_⟩⟩
    unfold posMirror at hyok ⊢
    rw [if_pos ⟨by rw [hik, hk2], by rw [hik]; exact h3⟩, hik, hget y hy.1] at hyok ⊢
    dsimp only at hyok ⊢
    by_cases hfin : (s.cm k).isFinite = true
    · rw [if_pos hfin] at hyok ⊢
      rw [(setSt_ok hyok).2, put_same]; simp only [goal, hfin, if_true]; rfl
    · rw [if_neg hfin]
      have : goal = s.st k := by simp only [goal, hfin]; rfl
      rw [this] at hy ⊢
      rcases hy.2 with h | h <;> exact h

/-! ### Histories -/

/-- Command and state of an interface under the operations of a history: a `read` takes over a finite command. -/
def follows (k : Key) (x : Dbl × Dbl) : Op → Dbl × Dbl
  | .command k' v => if k' = k then (v, x.2) else x
  | .read _ => (x.1, if x.1.isFinite then x.1 else x.2)
  | _ => x

theorem run_cons (c : Cfg) (op : Op) (ops : List Op) (s : St) (h : (run c (op :: ops) s).2 = .ok) :
    (step c s op).2 = .ok ∧ run c (op :: ops) s = run c ops (step c s op).1 := by
  unfold run at h ⊢
  rw [loop_cons] at h ⊢
  by_cases g : (step c s op).2 = .ok
  · exact ⟨g, if_pos g⟩
  · rw [if_neg g] at h; exact absurd h g

/-- **C52 (histories).** After any history in which every `read` returns OK, a mirrored interface has the last finite value its command had
at a `read`, or the value it had before if there was none. -/
theorem C52_history (c : Cfg) (k : Key) (hd : c.disabled = false) (hk : Mirrored c k) (ops : List Op) (s : St)
    (hok : (run c ops s).2 = .ok) :
    (run c ops s).1.st k = (ops.foldl (follows k) (s.cm k, s.st k)).2 := by
  suffices h : ∀ (ops : List Op) (s : St), (run c ops s).2 = .ok →
      ((run c ops s).1.cm k, (run c ops s).1.st k) = ops.foldl (follows k) (s.cm k, s.st k) by
    rw [← h ops s hok]
  intro ops
  induction ops with
  | nil => intro s _; rfl
  | cons op t ih =>
    intro s h
    obtain ⟨h1, h2⟩ := run_cons c op t s h
    rw [h2] at h ⊢
    rw [ih _ h, List.foldl_cons]
    congr 1
    cases op with
    | command k' v =>
      unfold follows step
      by_cases g : k' = k
      · subst g; simp
      · have : ¬ k = k' := fun e => g e.symm
        simp [g, this]
    | commandB k' v => rfl
    | read dt =>
      show ((read c dt s).1.cm k, (read c dt s).1.st k) = _
      rw [C52_mirrored c dt s k hd hk h1, (same_read c dt s).1]; rfl
    | switch l =>
      unfold follows step perform
      dsimp only
      split
      · split <;> rfl
      · rfl

end Verif.Mock
