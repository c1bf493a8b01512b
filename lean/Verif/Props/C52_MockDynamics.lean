import Verif.Props.C52_MockHardware
/-!
# C52: mimic joints, errors, dynamics and command modes of the mock hardware
-/
namespace Verif.Mock
open Verif (Dbl)

/-! ### Mimic joints -/

/-- **C52 (mimic).** After a `read` that returns OK, position, velocity and acceleration of a mimic joint are those of the mimicked joint, times the
multiplier, plus (for the position) the offset, if no joint is given twice as a mimic joint and the mimicked joint is none itself. -/
theorem C52_mimic_partial (c : Cfg) (dt : Dbl) (s : St) (m : Mimic) (itf : Str) (hd : c.disabled = false) (hm : m ∈ c.mimics)
    (hu : ∀ m' ∈ c.mimics, m'.joint = m.joint → m' = m) (hn : ∀ m' ∈ c.mimics, m'.joint ≠ m.mimicked)
    (hitf : itf = position ∨ itf = velocity ∨ itf = acceleration)
    (h1 : c.hasState (m.joint, itf) = true) (h2 : c.stTy (m.mimicked, itf) = some .dbl)
    (j1 : JointOnly c (m.joint, itf)) (j2 : JointOnly c (m.mimicked, itf)) (hok : (read c dt s).2 = .ok) :
    (read c dt s).1.st (m.joint, itf) =
      (if itf = position then m.offset else 0).add (m.multiplier.mul ((read c dt s).1.st (m.mimicked, itf))) := by
  obtain ⟨s1, s2, s3, s4, r1, e1, r2, e2, r3, e3, r4, e4, r5, e5⟩ := read_ok hd hok
  have keep4 : ∀ k, JointOnly c k → (read c dt s).1.st k = s3.st k := by
    intro k hk
    rw [e5, (only_gpios c s4).2 k hk.2, e4]
    exact (only_sensors c s3).2 k (fun g => by obtain ⟨_, i, hi, hk'⟩ := g; exact hk.1 i hi hk')
  rw [keep4 _ j1, keep4 _ j2]
  -- the mimicked joint does not move any more
  let v := s2.st (m.mimicked, itf)
  let goal : Dbl := (if itf = position then m.offset else 0).add (m.multiplier.mul v)
  have hP : ∀ m' ∈ c.mimics, ∀ x, x.st (m.mimicked, itf) = v → (mimic c m' x).1.st (m.mimicked, itf) = v := by
    intro m' hm' x hx
    rw [(only_mimic c m' x).2 _ (fun g => hn m' hm' g.1.symm)]; exact hx
  have one : ∀ x off, x.st (m.mimicked, itf) = v → (mimic1 c m itf off x).2 = .ok →
      (mimic1 c m itf off x).1.st (m.joint, itf) = off.add (m.multiplier.mul v) := by
    intro x off hx hxok
    unfold mimic1 at hxok ⊢
    have hg : getSt c x (m.mimicked, itf) = some v := by unfold getSt; rw [h2]; dsimp only; rw [hx]
    rw [if_pos h1, hg] at hxok ⊢
    dsimp only at hxok ⊢
    rw [(setSt_ok hxok).2, put_same]
  have other : ∀ x itf' off, itf' ≠ itf → (mimic1 c m itf' off x).1.st (m.joint, itf) = x.st (m.joint, itf) ∧
      (mimic1 c m itf' off x).1.st (m.mimicked, itf) = x.st (m.mimicked, itf) := by
    intro x itf' off hne
    constructor
    · exact (only_mimic1 c m itf' off x).2 _ (fun g => hne (by simp at g; exact g.symm))
    · exact (only_mimic1 c m itf' off x).2 _ (fun g => hne (by simp at g; exact g.2.symm))
  have vp : velocity ≠ position := by decide
  have ap : acceleration ≠ position := by decide
  have av : acceleration ≠ velocity := by decide
  have whole : ∀ x, x.st (m.mimicked, itf) = v → (mimic c m x).2 = .ok → (mimic c m x).1.st (m.joint, itf) = goal := by
    intro x hx hxok
    unfold mimic at hxok ⊢
    obtain ⟨o1, o2, o3⟩ := andThen_ok hxok
    obtain ⟨p1, p2, p3⟩ := andThen_ok o1
    rw [o3, p3]
    rw [p3] at o2
    rcases hitf with rfl | rfl | rfl
    · rw [(other _ _ _ ap).1, (other _ _ _ vp).1, one x _ hx p1]
      simp only [goal, if_true]
    · rw [(other _ _ _ av).1, one _ _ (by rw [(other _ _ _ vp.symm).2]; exact hx) p2]
      simp only [goal, if_neg vp]
    · rw [one _ _ (by rw [(other _ _ _ av.symm).2, (other _ _ _ ap.symm).2]; exact hx) o2]
      simp only [goal, if_neg ap]
  have fin := loop_reach (f := mimic c) (l := c.mimics) (s := s2) (P := fun x => x.st (m.mimicked, itf) = v)
    (Q := fun x => x.st (m.joint, itf) = goal) hP ?_ ⟨m, hm, whole⟩ rfl r3
  · rw [e3, fin]
    have : (loop (mimic c) c.mimics s2).1.st (m.mimicked, itf) = v := loop_inv (P := fun x => x.st (m.mimicked, itf) = v) hP rfl
    rw [this]
  · intro m' hm' x hx hq
    by_cases g : m'.joint = m.joint
    · have := hu m' hm' g
      subst this
      -- the same joint once more
      unfold mimic
      have keepOrSet : ∀ y, y.st (m'.mimicked, itf) = v → ∀ itf' off, (itf' = itf → off = if itf = position then m'.offset else 0) →
          y.st (m'.joint, itf) = goal → (mimic1 c m' itf' off y).1.st (m'.joint, itf) = goal ∧
            (mimic1 c m' itf' off y).1.st (m'.mimicked, itf) = v := by
        intro y hy itf' off hoff hgoal
        by_cases ne : itf' = itf
        · subst ne
          refine ⟨?_, by rw [(only_mimic1 c m' itf' off y).2 _ (fun g => hn m' hm' (by simp at g; exact g.symm))]; exact hy⟩
          by_cases ok : (mimic1 c m' itf' off y).2 = .ok
          · rw [one y off hy ok, hoff rfl]
          · unfold mimic1
            have hg : getSt c y (m'.mimicked, itf') = some v := by unfold getSt; rw [h2]; dsimp only; rw [hy]
            rw [if_pos h1, hg]
            dsimp only
            unfold setSt
            split
            · rw [put_same, hoff rfl]
            · exact hgoal
        · rw [(other y itf' off ne).1, (other y itf' off ne).2]; exact ⟨hgoal, hy⟩
      have a1 := keepOrSet x hx position m'.offset (by rintro rfl; rw [if_pos rfl]) hq
      refine (andThen_inv (P := fun y => y.st (m'.joint, itf) = goal ∧ y.st (m'.mimicked, itf) = v)
        (andThen_inv (P := fun y => y.st (m'.joint, itf) = goal ∧ y.st (m'.mimicked, itf) = v) a1 ?_) ?_).1
      · intro y hy; exact keepOrSet y hy.2 velocity 0 (by rintro rfl; rw [if_neg vp]) hy.1
      · intro y hy; exact keepOrSet y hy.2 acceleration 0 (by rintro rfl; rw [if_neg ap]) hy.1
    · rw [(only_mimic c m' x).2 _ (fun h => g h.1.symm)]; exact hq

/-! ### Errors -/

/-- The part of `read` returns ERROR only if a command is infinite. -/
def ErrInf (c : Cfg) (f : St → St × Res) : Prop :=
  ∀ s, SameIn s (f s).1 ∧ ((f s).2 = .error → ∃ k, c.hasCommand k = true ∧ (s.cm k).isInf = true)

theorem errInf_andThen {c : Cfg} {f g : St → St × Res} (hf : ErrInf c f) (hg : ErrInf c g) : ErrInf c (fun s => andThen (f s) g) := by
  intro s
  dsimp only
  rw [andThen_eq]
  split
  · refine ⟨(hf s).1.trans (hg _).1, fun h => ?_⟩
    obtain ⟨k, h1, h2⟩ := (hg _).2 h
    exact ⟨k, h1, by rw [← (hf s).1.1]; exact h2⟩
  · exact hf s

theorem errInf_loop {c : Cfg} {α : Type} {f : α → St → St × Res} : ∀ {l : List α}, (∀ a ∈ l, ErrInf c (f a)) → ErrInf c (loop f l)
  | [], _ => fun s => ⟨SameIn.refl s, fun h => by cases h⟩
  | a :: t, h => by
    intro s
    rw [loop_cons]
    have ha := h a (by simp) s
    split
    · have ht := errInf_loop (l := t) (fun b hb => h b (by simp [hb])) (f a s).1
      refine ⟨ha.1.trans ht.1, fun e => ?_⟩
      obtain ⟨k, h1, h2⟩ := ht.2 e
      exact ⟨k, h1, by rw [← ha.1.1]; exact h2⟩
    · exact ha

theorem setSt_noErr (c : Cfg) (k : Key) (d : Dbl) (s : St) : (setSt c k d s).2 ≠ .error := by
  unfold setSt; split <;> simp

theorem errInf_mirror (c : Cfg) (k : Key) (ty : Ty) : ErrInf c (mirror c k ty) := by
  intro s
  refine ⟨(only_mirror c k ty s).1, fun h => ?_⟩
  unfold mirror at h
  split at h
  · split at h
    · cases h
    · rename_i v hv
      split at h
      · rename_i hinf
        refine ⟨k, has_of_get hv, ?_⟩
        unfold getCm at hv
        split at hv
        · injection hv with hv; rw [hv]; exact hinf
        · injection hv with hv; rw [← hv] at hinf; split at hinf <;> cases hinf
        · cases hv
      · split at h
        · exact absurd h (setSt_noErr c k v s)
        · cases h
  · split at h <;> cases h
  · cases h

theorem errInf_of {c : Cfg} {w : Key → Prop} {f : St → St × Res} (h : Only w f) (hn : ∀ s, (f s).2 ≠ .error) : ErrInf c f :=
  fun s => ⟨(h s).1, fun e => absurd e (hn s)⟩

theorem andThen_noErr {x : St × Res} {f : St → St × Res} (h1 : x.2 ≠ .error) (h2 : ∀ s, (f s).2 ≠ .error) : (andThen x f).2 ≠ .error := by
  rw [andThen_eq]; split
  · exact h2 _
  · exact h1

theorem loop_noErr {α : Type} {f : α → St → St × Res} (h : ∀ a s, (f a s).2 ≠ .error) : ∀ (l : List α) (s : St), (loop f l s).2 ≠ .error
  | [], s => by rw [loop]; exact fun e => by cases e
  | a :: t, s => by
    rw [loop_cons]; split
    · exact loop_noErr h t _
    · exact h a s

theorem back_noErr (c : Cfg) (k : Key) (d : Dbl) (s : St) : (back c k d s).2 ≠ .error := by
  unfold back; split
  · exact setSt_noErr c k d s
  · exact fun e => by cases e

theorem joints_noErr (c : Cfg) (dt : Dbl) (s : St) : (joints c dt s).2 ≠ .error := by
  unfold joints
  split
  · refine andThen_noErr (loop_noErr ?_ _ _) ?_
    · intro jm s
      unfold dynJoint
      split
      · exact andThen_noErr (andThen_noErr (back_noErr _ _ _ _) (back_noErr _ _ _)) (back_noErr _ _ _)
      · exact fun e => by cases e
    · intro s'; split <;> exact fun e => by cases e
  · refine loop_noErr (fun _ => loop_noErr ?_ _) _ _
    intro i s
    unfold posMirror
    split
    · split
      · exact fun e => by cases e
      · split
        · exact setSt_noErr _ _ _ _
        · exact fun e => by cases e
    · exact fun e => by cases e

theorem mimic1_noErr (c : Cfg) (m : Mimic) (itf : Str) (off : Dbl) (s : St) : (mimic1 c m itf off s).2 ≠ .error := by
  unfold mimic1
  split
  · split
    · exact fun e => by cases e
    · exact setSt_noErr _ _ _ _
  · exact fun e => by cases e

theorem follow_noErr (c : Cfg) (i : Itf) (s : St) : (follow c i s).2 ≠ .error := by
  unfold follow
  split
  · split
    · exact fun e => by cases e
    · split
      · exact setSt_noErr _ _ _ _
      · exact fun e => by cases e
  · exact fun e => by cases e

/-- **C52 (errors).** `read` returns ERROR only if some command is infinite. -/
theorem C52_error (c : Cfg) (dt : Dbl) (s : St) (h : (read c dt s).2 = .error) :
    ∃ k, c.hasCommand k = true ∧ (s.cm k = .pinf ∨ s.cm k = .ninf) := by
  suffices g : ErrInf c (read c dt) by
    obtain ⟨k, h1, h2⟩ := (g s).2 h
    refine ⟨k, h1, ?_⟩
    cases hk : s.cm k with
    | nan => rw [hk] at h2; cases h2
    | fin q => rw [hk] at h2; cases h2
    | pinf => exact .inl rfl
    | ninf => exact .inr rfl
  intro s
  refine ⟨same_read c dt s, ?_⟩
  unfold read
  split
  · exact fun e => by cases e
  · have a1 : ErrInf c (joints c dt) := errInf_of (only_joints c dt) (joints_noErr c dt)
    have a2 : ErrInf c (loop (loopback c) c.jointStates) := by
      refine errInf_loop (fun i _ => ?_)
      intro s
      unfold loopback
      split
      · exact ⟨SameIn.refl s, fun e => by cases e⟩
      · refine errInf_andThen (f := fun s => if c.hasCommand i.key = true then mirror c i.key i.ty s else (s, .ok)) ?_
          (errInf_of (only_follow c i) (follow_noErr c i)) s
        intro s
        dsimp only
        split
        · exact errInf_mirror c i.key i.ty s
        · exact ⟨SameIn.refl s, fun e => by cases e⟩
    have a3 : ErrInf c (loop (mimic c) c.mimics) :=
      errInf_loop (fun m _ => errInf_of (only_mimic c m)
        (fun s => andThen_noErr (andThen_noErr (mimic1_noErr _ _ _ _ _) (mimic1_noErr _ _ _ _)) (mimic1_noErr _ _ _ _)))
    have a4 : ErrInf c (sensors c) := by
      intro s; unfold sensors; split
      · exact errInf_loop (fun i _ => errInf_mirror c i.key i.ty) s
      · exact ⟨SameIn.refl s, fun e => by cases e⟩
    have a5 : ErrInf c (gpios c) := by
      intro s; unfold gpios; split
      · exact errInf_loop (fun i _ => errInf_mirror c i.key i.ty) s
      · refine errInf_loop (fun i _ => ?_) s
        intro s; dsimp only; split
        · exact errInf_mirror c i.key i.ty s
        · exact ⟨SameIn.refl s, fun e => by cases e⟩
    exact (errInf_andThen (errInf_andThen (errInf_andThen (errInf_andThen a1 a2) a3) a4) a5 s).2

/-- **C52 (errors).** An infinite command of a mirrored interface makes `read` fail. -/
theorem C52_infinite (c : Cfg) (dt : Dbl) (s : St) (k : Key) (hd : c.disabled = false) (hk : Mirrored c k)
    (h : s.cm k = .pinf ∨ s.cm k = .ninf) : (read c dt s).2 ≠ .ok := by
  intro hok
  obtain ⟨s1, s2, s3, s4, r1, e1, r2, e2, _⟩ := read_ok hd hok
  have k1 : SameIn s s1 := by rw [e1]; exact (only_joints c dt s).1
  obtain ⟨x, hx, hxok⟩ := loop_ok_mem (P := fun x => SameIn s x) (fun i _ x hx => hx.trans (only_loopback c i x).1) k1 r2 _ hk.state
  have hcmd : c.hasCommand k = true := by unfold Cfg.hasCommand; rw [hk.command]; rfl
  unfold loopback at hxok
  dsimp only at hxok
  rw [if_neg (mirrored_skip hk), if_pos hcmd] at hxok
  have o1 := (andThen_ok hxok).1
  have e : getCm c x k = some (s.cm k) := by unfold getCm; rw [hk.command]; dsimp only; rw [hx.1]
  unfold mirror at o1
  dsimp only at o1
  rw [e] at o1
  rcases h with h | h <;> rw [h] at o1 <;> cases o1

/-! ### Sensors and gpios -/

/-- Once a state has the finite value of its command, mirrors keep it. -/
theorem mirror_keeps_fin (c : Cfg) (s0 : St) (k : Key) (h1 : c.cmTy k = some .dbl) (hf : (s0.cm k).isFinite = true) (k' : Key) (ty : Ty) (s : St)
    (hs : SameIn s0 s ∧ s.st k = s0.cm k) : SameIn s0 (mirror c k' ty s).1 ∧ (mirror c k' ty s).1.st k = s0.cm k := by
  have e : latest (s0.cm k) (s0.st k) = s0.cm k := by unfold latest; rw [if_pos hf]
  have := mirror_keeps c s0 k h1 k' ty s (by rw [e]; exact hs)
  rw [e] at this; exact this

theorem mirror_sets_fin (c : Cfg) (s0 : St) (k : Key) (h1 : c.cmTy k = some .dbl) (hf : (s0.cm k).isFinite = true) (s : St)
    (hs : SameIn s0 s) (hok : (mirror c k .dbl s).2 = .ok) : (mirror c k .dbl s).1.st k = s0.cm k := by
  have := mirror_sets c s k h1 s (SameIn.refl s) (.inl rfl) hok
  rw [this]
  unfold latest
  rw [hs.1, if_pos hf]

/-- `k` is an interface of type `double` that is mirrored because its sensor or gpio is: a sensor or gpio state with `mock_sensor_commands` or
`mock_gpio_commands`, or a gpio command with a state. -/
def Mocked (c : Cfg) (k : Key) : Prop :=
  (c.mockSensor = true ∧ ⟨k, .dbl⟩ ∈ c.sensorStates) ∨ (c.mockGpio = true ∧ ⟨k, .dbl⟩ ∈ c.gpioStates) ∨
    (c.mockGpio = false ∧ ⟨k, .dbl⟩ ∈ c.gpioCommands ∧ c.hasState k = true)

/-- **C52 (sensors and gpios).** After a `read` that returns OK, a sensor or gpio that is mirrored has the value of its command if that is finite. -/
theorem C52_mocked (c : Cfg) (dt : Dbl) (s : St) (k : Key) (hd : c.disabled = false) (hk : Mocked c k) (h1 : c.cmTy k = some .dbl)
    (hf : (s.cm k).isFinite = true) (hok : (read c dt s).2 = .ok) : (read c dt s).1.st k = s.cm k := by
  obtain ⟨s1, s2, s3, s4, r1, e1, r2, e2, r3, e3, r4, e4, r5, e5⟩ := read_ok hd hok
  have a1 : SameIn s s1 := by rw [e1]; exact (only_joints c dt s).1
  have a2 : SameIn s s2 := by rw [e2]; exact a1.trans (only_loop (w := fun _ => True) (fun i _ => (only_loopback c i).mono (fun _ _ => trivial)) s1).1
  have a3 : SameIn s s3 := by rw [e3]; exact a2.trans (only_loop (w := fun _ => True) (fun i _ => (only_mimic c i).mono (fun _ _ => trivial)) s2).1
  have a4 : SameIn s s4 := by rw [e4]; exact a3.trans (only_sensors c s3).1
  have keepG : ∀ i : Itf, ∀ x, SameIn s x ∧ x.st k = s.cm k →
      SameIn s (if c.hasState i.key = true then mirror c i.key i.ty x else (x, .ok)).1 ∧
      (if c.hasState i.key = true then mirror c i.key i.ty x else (x, .ok)).1.st k = s.cm k := by
    intro i x hx
    split
    · exact mirror_keeps_fin c s k h1 hf i.key i.ty x hx
    · exact hx
  have sameG : ∀ i : Itf, ∀ x, SameIn s x → SameIn s (if c.hasState i.key = true then mirror c i.key i.ty x else (x, .ok)).1 := by
    intro i x hx
    split
    · exact hx.trans (only_mirror c i.key i.ty x).1
    · exact hx
  rw [e5]
  unfold gpios at r5 ⊢
  rcases hk with ⟨g, hm⟩ | ⟨g, hm⟩ | ⟨g, hm, hst⟩
  · have b4 : SameIn s s4 ∧ s4.st k = s.cm k := by
      rw [e4]
      unfold sensors at r4 ⊢
      rw [if_pos g] at r4 ⊢
      exact loop_reach (P := fun x => SameIn s x) (Q := fun x => SameIn s x ∧ x.st k = s.cm k)
        (fun i _ x hx => hx.trans (only_mirror c i.key i.ty x).1) (fun i _ x _ hq => mirror_keeps_fin c s k h1 hf i.key i.ty x hq)
        ⟨_, hm, fun x hx hxok => ⟨hx.trans (only_mirror c k .dbl x).1, mirror_sets_fin c s k h1 hf x hx hxok⟩⟩ a3 r4
    split
    · exact (loop_inv (P := fun x => SameIn s x ∧ x.st k = s.cm k) (fun i _ x hx => mirror_keeps_fin c s k h1 hf i.key i.ty x hx) b4).2
    · exact (loop_inv (P := fun x => SameIn s x ∧ x.st k = s.cm k) (fun i _ x hx => keepG i x hx) b4).2
  · rw [if_pos g] at r5 ⊢
    exact loop_reach (P := fun x => SameIn s x) (Q := fun x => x.st k = s.cm k)
      (fun i _ x hx => hx.trans (only_mirror c i.key i.ty x).1) (fun i _ x hx hq => (mirror_keeps_fin c s k h1 hf i.key i.ty x ⟨hx, hq⟩).2)
      ⟨_, hm, fun x hx hxok => mirror_sets_fin c s k h1 hf x hx hxok⟩ a4 r5
  · rw [if_neg (by rw [g]; decide)] at r5 ⊢
    refine loop_reach (P := fun x => SameIn s x) (Q := fun x => x.st k = s.cm k)
      (fun i _ x hx => sameG i x hx) (fun i _ x hx hq => (keepG i x ⟨hx, hq⟩).2) ⟨_, hm, fun x hx hxok => ?_⟩ a4 r5
    dsimp only at hxok ⊢
    rw [if_pos hst] at hxok ⊢
    exact mirror_sets_fin c s k h1 hf x hx hxok

theorem mirror_bool (c : Cfg) (k k' : Key) (ty : Ty) (s : St) (h : s.stb k = s.cmb k) :
    (mirror c k' ty s).1.stb k = (mirror c k' ty s).1.cmb k := by
  unfold mirror
  split
  · split
    · exact h
    · split
      · exact h
      · split
        · unfold setSt; split <;> exact h
        · exact h
  · split
    · show (if k = k' then s.cmb k' else s.stb k) = s.cmb k
      split
      · rename_i e; rw [e]
      · exact h
    · exact h
  · exact h

/-- **C52 (digital outputs).** After a `read` that returns OK a boolean gpio with a state and a command has the value of its command. -/
theorem C52_digital (c : Cfg) (dt : Dbl) (s : St) (k : Key) (hd : c.disabled = false) (hg : c.mockGpio = false)
    (hk : ⟨k, .bool⟩ ∈ c.gpioCommands) (hst : c.hasState k = true) (hok : (read c dt s).2 = .ok) :
    (read c dt s).1.stb k = s.cmb k := by
  rw [← (same_read c dt s).2.1]
  obtain ⟨s1, s2, s3, s4, r1, e1, r2, e2, r3, e3, r4, e4, r5, e5⟩ := read_ok hd hok
  rw [e5]
  unfold gpios at r5 ⊢
  rw [if_neg (by rw [hg]; decide)] at r5 ⊢
  refine loop_reach (P := fun _ => True) (Q := fun x => x.stb k = x.cmb k) (fun _ _ _ _ => trivial) ?_ ⟨_, hk, fun x _ hxok => ?_⟩ trivial r5
  · intro i _ x _ hq
    split
    · exact mirror_bool c k i.key i.ty x hq
    · exact hq
  · dsimp only at hxok ⊢
    rw [if_pos hst] at hxok ⊢
    unfold mirror at hxok ⊢
    dsimp only at hxok ⊢
    by_cases g : c.cmTy k = some Ty.bool ∧ c.stTy k = some Ty.bool
    · rw [if_pos g]
      show (if k = k then x.cmb k else x.stb k) = x.cmb k
      rw [if_pos rfl]
    · rw [if_neg g] at hxok; cases hxok

end Verif.Mock
