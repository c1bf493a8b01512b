import Verif.Mock.GenericSystem
/-!
# Lemmas about the mock hardware
-/
namespace Verif.Mock
open Verif (Dbl)

/-! ### Loops -/

theorem loop_cons {α : Type} (f : α → St → St × Res) (a : α) (t : List α) (s : St) :
    loop f (a :: t) s = if (f a s).2 = .ok then loop f t (f a s).1 else f a s := by
  rw [loop]
  generalize f a s = x
  obtain ⟨x1, x2⟩ := x
  cases x2 <;> rfl

theorem andThen_eq (x : St × Res) (f : St → St × Res) : andThen x f = if x.2 = .ok then f x.1 else x := by
  obtain ⟨x1, x2⟩ := x
  cases x2 <;> rfl

theorem andThen_ok {x : St × Res} {f : St → St × Res} (h : (andThen x f).2 = .ok) :
    x.2 = .ok ∧ (f x.1).2 = .ok ∧ (andThen x f).1 = (f x.1).1 := by
  rw [andThen_eq] at h ⊢
  by_cases g : x.2 = .ok
  · rw [if_pos g] at h ⊢; exact ⟨g, h, rfl⟩
  · rw [if_neg g] at h; exact absurd h g

/-- An invariant of every round is one of the loop. -/
theorem loop_inv {α : Type} {f : α → St → St × Res} {P : St → Prop} :
    ∀ {l : List α} {s : St}, (∀ a ∈ l, ∀ s, P s → P (f a s).1) → P s → P (loop f l s).1
  | [], _, _, hs => hs
  | a :: t, s, h, hs => by
    rw [loop_cons]
    have h1 := h a (by simp) s hs
    split
    · exact loop_inv (fun b hb => h b (by simp [hb])) h1
    · exact h1

theorem andThen_inv {P : St → Prop} {x : St × Res} {f : St → St × Res} (hx : P x.1) (hf : ∀ s, P s → P (f s).1) :
    P (andThen x f).1 := by
  rw [andThen_eq]
  split
  · exact hf _ hx
  · exact hx

/-- If the loop ends normally, what one round establishes and the others keep holds at the end. -/
theorem loop_reach {α : Type} {f : α → St → St × Res} {P Q : St → Prop} :
    ∀ {l : List α} {s : St}, (∀ a ∈ l, ∀ s, P s → P (f a s).1) → (∀ a ∈ l, ∀ s, P s → Q s → Q (f a s).1) →
      (∃ a ∈ l, ∀ s, P s → (f a s).2 = .ok → Q (f a s).1) → P s → (loop f l s).2 = .ok → Q (loop f l s).1
  | [], _, _, _, ⟨_, ha, _⟩, _, _ => by cases ha
  | a :: t, s, hP, hQ, ⟨b, hb, hbq⟩, hs, hok => by
    rw [loop_cons] at hok ⊢
    by_cases g : (f a s).2 = .ok
    · rw [if_pos g] at hok ⊢
      have p1 := hP a (by simp) s hs
      rcases List.mem_cons.1 hb with rfl | hb
      · have q1 := hbq s hs g
        have : P (loop f t (f b s).1).1 ∧ Q (loop f t (f b s).1).1 :=
          loop_inv (P := fun s => P s ∧ Q s)
            (fun x hx s h => ⟨hP x (by simp [hx]) s h.1, hQ x (by simp [hx]) s h.1 h.2⟩) ⟨p1, q1⟩
        exact this.2
      · exact loop_reach (fun x hx => hP x (by simp [hx])) (fun x hx => hQ x (by simp [hx])) ⟨b, hb, hbq⟩ p1 hok
    · rw [if_neg g] at hok; exact absurd hok g

/-- Every round of a loop that ends normally ended normally. -/
theorem loop_ok_mem {α : Type} {f : α → St → St × Res} {P : St → Prop} :
    ∀ {l : List α} {s : St}, (∀ a ∈ l, ∀ s, P s → P (f a s).1) → P s → (loop f l s).2 = .ok →
      ∀ a ∈ l, ∃ s', P s' ∧ (f a s').2 = .ok
  | [], _, _, _, _, a, ha => by cases ha
  | a :: t, s, hP, hs, hok, b, hb => by
    rw [loop_cons] at hok
    by_cases g : (f a s).2 = .ok
    · rw [if_pos g] at hok
      rcases List.mem_cons.1 hb with rfl | hb
      · exact ⟨s, hs, g⟩
      · exact loop_ok_mem (fun x hx => hP x (by simp [hx])) (hP a (by simp) s hs) hok b hb
    · rw [if_neg g] at hok; exact absurd hok g

/-! ### What is not written -/

/-- Commands and modes are as in `s0`. -/
def SameIn (s0 s : St) : Prop := s.cm = s0.cm ∧ s.cmb = s0.cmb ∧ s.modes = s0.modes

/-- Commands and modes are as in `s0`, and the state `k` is too. -/
def Keeps (s0 : St) (k : Key) (s : St) : Prop := SameIn s0 s ∧ s.st k = s0.st k

/-- A function that keeps commands and modes, and all states but those in `w`. -/
def Only (w : Key → Prop) (f : St → St × Res) : Prop :=
  ∀ s, SameIn s (f s).1 ∧ ∀ k, ¬ w k → (f s).1.st k = s.st k

theorem SameIn.refl (s : St) : SameIn s s := ⟨rfl, rfl, rfl⟩

theorem SameIn.trans {a b c : St} (h : SameIn a b) (g : SameIn b c) : SameIn a c :=
  ⟨g.1.trans h.1, g.2.1.trans h.2.1, g.2.2.trans h.2.2⟩

theorem Only.mono {w w' : Key → Prop} {f : St → St × Res} (h : Only w f) (hw : ∀ k, w k → w' k) : Only w' f :=
  fun s => ⟨(h s).1, fun k hk => (h s).2 k (fun g => hk (hw k g))⟩

theorem only_skip (w : Key → Prop) (r : Res) : Only w (fun s => (s, r)) := fun s => ⟨SameIn.refl s, fun _ _ => rfl⟩

theorem only_andThen {w : Key → Prop} {f g : St → St × Res} (hf : Only w f) (hg : Only w g) :
    Only w (fun s => andThen (f s) g) := by
  intro s
  dsimp only
  rw [andThen_eq]
  split
  · exact ⟨(hf s).1.trans (hg _).1, fun k hk => ((hg _).2 k hk).trans ((hf s).2 k hk)⟩
  · exact hf s

theorem only_loop {α : Type} {w : Key → Prop} {f : α → St → St × Res} {l : List α} (h : ∀ a ∈ l, Only w (f a)) :
    Only w (loop f l) := by
  intro s
  have : SameIn s (loop f l s).1 ∧ ∀ k, ¬ w k → (loop f l s).1.st k = s.st k :=
    loop_inv (P := fun s' => SameIn s s' ∧ ∀ k, ¬ w k → s'.st k = s.st k)
      (fun a ha s' hs' => ⟨hs'.1.trans (h a ha s').1, fun k hk => ((h a ha s').2 k hk).trans (hs'.2 k hk)⟩)
      ⟨SameIn.refl s, fun _ _ => rfl⟩
  exact this

theorem put_ne (s : St) (k k' : Key) (d : Dbl) (h : k' ≠ k) : (s.put k d).st k' = s.st k' := if_neg h

theorem put_same (s : St) (k : Key) (d : Dbl) : (s.put k d).st k = d := if_pos rfl

theorem only_setSt (c : Cfg) (k : Key) (d : Dbl) : Only (· = k) (setSt c k d) := by
  intro s
  unfold setSt
  split
  · exact ⟨SameIn.refl s, fun k' hk => put_ne s k k' d hk⟩
  · exact ⟨SameIn.refl s, fun _ _ => rfl⟩

theorem setSt_ok {c : Cfg} {k : Key} {d : Dbl} {s : St} (h : (setSt c k d s).2 = .ok) :
    c.stTy k = some .dbl ∧ (setSt c k d s).1 = s.put k d := by
  unfold setSt at *
  split at h
  · rename_i g; rw [g]; exact ⟨rfl, rfl⟩
  · cases h

theorem only_mirror (c : Cfg) (k : Key) (ty : Ty) : Only (· = k) (mirror c k ty) := by
  intro s
  unfold mirror
  split
  · split
    · exact ⟨SameIn.refl s, fun _ _ => rfl⟩
    · split
      · exact ⟨SameIn.refl s, fun _ _ => rfl⟩
      · split
        · exact only_setSt c k _ s
        · exact ⟨SameIn.refl s, fun _ _ => rfl⟩
  · split
    · exact ⟨⟨rfl, rfl, rfl⟩, fun _ _ => rfl⟩
    · exact ⟨SameIn.refl s, fun _ _ => rfl⟩
  · exact ⟨SameIn.refl s, fun _ _ => rfl⟩

theorem only_back (c : Cfg) (k : Key) (d : Dbl) : Only (· = k) (back c k d) := by
  intro s
  unfold back
  split
  · exact only_setSt c k d s
  · exact ⟨SameIn.refl s, fun _ _ => rfl⟩

/-- The three standard interfaces of motion. -/
def Pva3 (itf : Str) : Prop := itf = position ∨ itf = velocity ∨ itf = acceleration

instance (itf : Str) : Decidable (Pva3 itf) := by unfold Pva3; infer_instance

theorem only_dynJoint (c : Cfg) (dt : Dbl) (jm : Str × Mode) :
    Only (fun k => k.1 = jm.1 ∧ Pva3 k.2) (dynJoint c dt jm) := by
  intro s
  unfold dynJoint
  split
  · rename_i x u _ _
    have b1 := (only_back c (jm.1, position) (dyn jm.2 c.off dt x u).p).mono
      (w' := fun k => k.1 = jm.1 ∧ Pva3 k.2) (fun k hk => by rw [hk]; exact ⟨rfl, .inl rfl⟩)
    have b2 := (only_back c (jm.1, velocity) (dyn jm.2 c.off dt x u).v).mono
      (w' := fun k => k.1 = jm.1 ∧ Pva3 k.2) (fun k hk => by rw [hk]; exact ⟨rfl, .inr (.inl rfl)⟩)
    have b3 := (only_back c (jm.1, acceleration) (dyn jm.2 c.off dt x u).a).mono
      (w' := fun k => k.1 = jm.1 ∧ Pva3 k.2) (fun k hk => by rw [hk]; exact ⟨rfl, .inr (.inr rfl)⟩)
    exact only_andThen (only_andThen b1 b2) b3 s
  · exact ⟨SameIn.refl s, fun _ _ => rfl⟩

theorem only_posMirror (c : Cfg) (i : Itf) : Only (fun k => k = i.key ∧ k.2 = position) (posMirror c i) := by
  intro s
  unfold posMirror
  split
  · rename_i h
    split
    · exact ⟨SameIn.refl s, fun _ _ => rfl⟩
    · split
      · exact (only_setSt c i.key _).mono (w' := fun k => k = i.key ∧ k.2 = position)
          (fun k hk => ⟨hk, by rw [hk]; exact h.1⟩) s
      · exact ⟨SameIn.refl s, fun _ _ => rfl⟩
  · exact ⟨SameIn.refl s, fun _ _ => rfl⟩

theorem only_follow (c : Cfg) (i : Itf) : Only (fun k => k = i.key ∧ k.2 = c.custom) (follow c i) := by
  intro s
  unfold follow
  split
  · rename_i h
    split
    · exact ⟨SameIn.refl s, fun _ _ => rfl⟩
    · split
      · exact (only_setSt c i.key _).mono (w' := fun k => k = i.key ∧ k.2 = c.custom) (fun k hk => ⟨hk, by rw [hk]; exact h.symm⟩) s
      · exact ⟨SameIn.refl s, fun _ _ => rfl⟩
  · exact ⟨SameIn.refl s, fun _ _ => rfl⟩

theorem only_loopback (c : Cfg) (i : Itf) : Only (fun k => k = i.key ∧ k.2 ∉ c.skip) (loopback c i) := by
  intro s
  unfold loopback
  split
  · exact ⟨SameIn.refl s, fun _ _ => rfl⟩
  · rename_i h
    refine only_andThen (f := fun s => if c.hasCommand i.key = true then mirror c i.key i.ty s else (s, .ok)) ?_ ?_ s
    · intro s
      dsimp only
      split
      · exact (only_mirror c i.key i.ty).mono (w' := fun k => k = i.key ∧ k.2 ∉ c.skip) (fun k hk => ⟨hk, by rw [hk]; exact h⟩) s
      · exact ⟨SameIn.refl s, fun _ _ => rfl⟩
    · exact (only_follow c i).mono (fun k hk => ⟨hk.1, by rw [hk.1]; exact h⟩)

theorem only_mimic1 (c : Cfg) (m : Mimic) (itf : Str) (off : Dbl) : Only (· = (m.joint, itf)) (mimic1 c m itf off) := by
  intro s
  unfold mimic1
  split
  · split
    · exact ⟨SameIn.refl s, fun _ _ => rfl⟩
    · exact only_setSt c _ _ s
  · exact ⟨SameIn.refl s, fun _ _ => rfl⟩

theorem only_mimic (c : Cfg) (m : Mimic) : Only (fun k => k.1 = m.joint ∧ Pva3 k.2) (mimic c m) := by
  have b1 := (only_mimic1 c m position m.offset).mono
    (w' := fun k => k.1 = m.joint ∧ Pva3 k.2) (fun k hk => by rw [hk]; exact ⟨rfl, .inl rfl⟩)
  have b2 := (only_mimic1 c m velocity 0).mono
    (w' := fun k => k.1 = m.joint ∧ Pva3 k.2) (fun k hk => by rw [hk]; exact ⟨rfl, .inr (.inl rfl)⟩)
  have b3 := (only_mimic1 c m acceleration 0).mono
    (w' := fun k => k.1 = m.joint ∧ Pva3 k.2) (fun k hk => by rw [hk]; exact ⟨rfl, .inr (.inr rfl)⟩)
  exact only_andThen (only_andThen b1 b2) b3

theorem only_joints (c : Cfg) (dt : Dbl) :
    Only (fun k => if c.dynamics then k.1 ∈ c.joints ∧ Pva3 k.2 else k.2 = position) (joints c dt) := by
  intro s
  unfold joints
  split
  · rename_i h
    have b1 : Only (fun k => k.1 ∈ c.joints ∧ Pva3 k.2) (loop (dynJoint c dt) (c.joints.zip s.modes)) :=
      only_loop (fun jm hjm => (only_dynJoint c dt jm).mono (fun k hk => ⟨by rw [hk.1]; exact (List.of_mem_zip hjm).1, hk.2⟩))
    have b2 : Only (fun k => k.1 ∈ c.joints ∧ Pva3 k.2)
        (fun s' => if s.modes.length < c.joints.length then (s', Res.thrown) else (s', .ok)) := by
      intro s'; dsimp only; split <;> exact ⟨SameIn.refl s', fun _ _ => rfl⟩
    have := only_andThen b1 b2 s
    simpa only [h, if_true] using this
  · rename_i h
    have : Only (fun k => k.2 = position) (loop (fun (_ : Str) => loop (posMirror c) c.jointCommands) c.joints) :=
      only_loop (fun _ _ => only_loop (fun i _ => (only_posMirror c i).mono (fun k hk => hk.2)))
    simpa only [h] using this s

theorem only_sensors (c : Cfg) : Only (fun k => c.mockSensor = true ∧ ∃ i ∈ c.sensorStates, i.key = k) (sensors c) := by
  intro s
  unfold sensors
  split
  · rename_i h
    exact only_loop (fun i hi => (only_mirror c i.key i.ty).mono (fun k hk => ⟨h, i, hi, hk.symm⟩)) s
  · exact ⟨SameIn.refl s, fun _ _ => rfl⟩

/-- The gpio interfaces `read` may write. -/
def Cfg.gpioKeys (c : Cfg) : List Key := if c.mockGpio then c.gpioStates.map (·.key) else c.gpioCommands.map (·.key)

theorem only_gpios (c : Cfg) : Only (fun k => k ∈ c.gpioKeys) (gpios c) := by
  intro s
  unfold gpios Cfg.gpioKeys
  split
  · exact only_loop (fun i hi => (only_mirror c i.key i.ty).mono (fun k hk => by rw [hk]; exact List.mem_map.2 ⟨i, hi, rfl⟩)) s
  · refine only_loop (fun i hi => ?_) s
    intro s
    dsimp only
    split
    · exact (only_mirror c i.key i.ty).mono (fun k hk => by rw [hk]; exact List.mem_map.2 ⟨i, hi, rfl⟩) s
    · exact ⟨SameIn.refl s, fun _ _ => rfl⟩

theorem getCm_same {c : Cfg} {s0 s : St} (h : SameIn s0 s) (k : Key) : getCm c s k = getCm c s0 k := by
  unfold getCm; rw [h.1, h.2.1]

/-- The command, or the old state if the command is not finite. -/
def latest (cmd old : Dbl) : Dbl := if cmd.isFinite then cmd else old

/-- A mirror of any interface leaves the mirrored value of `k`. -/
theorem mirror_keeps (c : Cfg) (s0 : St) (k : Key) (h1 : c.cmTy k = some .dbl) (k' : Key) (ty : Ty) (s : St)
    (hs : SameIn s0 s ∧ s.st k = latest (s0.cm k) (s0.st k)) :
    SameIn s0 (mirror c k' ty s).1 ∧ (mirror c k' ty s).1.st k = latest (s0.cm k) (s0.st k) := by
  refine ⟨hs.1.trans (only_mirror c k' ty s).1, ?_⟩
  by_cases hk : k = k'
  · subst hk
    unfold mirror
    split
    · have e : getCm c s k = some (s0.cm k) := by unfold getCm; rw [h1]; dsimp only; rw [hs.1.1]
      rw [e]
      dsimp only
      split
      · exact hs.2
      · split
        · rename_i hfin
          unfold setSt
          split
          · rw [put_same]; unfold latest; rw [if_pos hfin]
          · exact hs.2
        · exact hs.2
    · split
      · exact hs.2
      · exact hs.2
    · exact hs.2
  · rw [(only_mirror c k' ty s).2 k hk]; exact hs.2

/-- A mirror of `k` itself that ends normally. -/
theorem mirror_sets (c : Cfg) (s0 : St) (k : Key) (h1 : c.cmTy k = some .dbl) (s : St)
    (hs : SameIn s0 s) (hold : s.st k = s0.st k ∨ s.st k = latest (s0.cm k) (s0.st k)) (hok : (mirror c k .dbl s).2 = .ok) :
    (mirror c k .dbl s).1.st k = latest (s0.cm k) (s0.st k) := by
  have e : getCm c s k = some (s0.cm k) := by unfold getCm; rw [h1]; dsimp only; rw [hs.1]
  unfold mirror at hok ⊢
  dsimp only at hok ⊢
  rw [e] at hok ⊢
  dsimp only at hok ⊢
  by_cases g1 : (s0.cm k).isInf = true
  · rw [if_pos g1] at hok; cases hok
  · rw [if_neg g1] at hok ⊢
    by_cases g2 : (s0.cm k).isFinite = true
    · rw [if_pos g2] at hok ⊢
      rw [(setSt_ok hok).2, put_same]; unfold latest; rw [if_pos g2]
    · rw [if_neg g2]
      have : latest (s0.cm k) (s0.st k) = s0.st k := by unfold latest; rw [if_neg g2]
      rw [this] at hold ⊢
      rcases hold with h | h <;> exact h

theorem loop_append {α : Type} (f : α → St → St × Res) (l1 l2 : List α) (s : St) :
    loop f (l1 ++ l2) s = andThen (loop f l1 s) (loop f l2) := by
  induction l1 generalizing s with
  | nil => rfl
  | cons a t ih =>
    rw [List.cons_append, loop_cons, loop_cons]
    by_cases g : (f a s).2 = .ok
    · rw [if_pos g, if_pos g]; exact ih _
    · rw [if_neg g, if_neg g, andThen_eq, if_neg g]

/-- The phases of a `read` that ends normally. -/
theorem read_ok {c : Cfg} {dt : Dbl} {s : St} (hd : c.disabled = false) (h : (read c dt s).2 = .ok) :
    ∃ s1 s2 s3 s4, (joints c dt s).2 = .ok ∧ s1 = (joints c dt s).1 ∧
      (loop (loopback c) c.jointStates s1).2 = .ok ∧ s2 = (loop (loopback c) c.jointStates s1).1 ∧
      (loop (mimic c) c.mimics s2).2 = .ok ∧ s3 = (loop (mimic c) c.mimics s2).1 ∧
      (sensors c s3).2 = .ok ∧ s4 = (sensors c s3).1 ∧
      (gpios c s4).2 = .ok ∧ (read c dt s).1 = (gpios c s4).1 := by
  unfold read at h ⊢
  rw [if_neg (by rw [hd]; decide)] at h ⊢
  obtain ⟨h4, g4, e4⟩ := andThen_ok h
  obtain ⟨h3, g3, e3⟩ := andThen_ok h4
  obtain ⟨h2, g2, e2⟩ := andThen_ok h3
  obtain ⟨h1, g1, e1⟩ := andThen_ok h2
  rw [e4]
  rw [e3] at g4 ⊢
  rw [e2] at g3 g4 ⊢
  rw [e1] at g2 g3 g4 ⊢
  exact ⟨_, _, _, _, h1, rfl, g1, rfl, g2, rfl, g3, rfl, g4, rfl⟩

theorem same_read (c : Cfg) (dt : Dbl) (s : St) : SameIn s (read c dt s).1 := by
  unfold read
  split
  · exact SameIn.refl s
  · have h1 : Only (fun _ => True) (joints c dt) := (only_joints c dt).mono (fun _ _ => trivial)
    have h2 : Only (fun _ => True) (loop (loopback c) c.jointStates) :=
      only_loop (fun i _ => (only_loopback c i).mono (fun _ _ => trivial))
    have h3 : Only (fun _ => True) (loop (mimic c) c.mimics) :=
      only_loop (fun i _ => (only_mimic c i).mono (fun _ _ => trivial))
    have h4 : Only (fun _ => True) (sensors c) := (only_sensors c).mono (fun _ _ => trivial)
    have h5 : Only (fun _ => True) (gpios c) := (only_gpios c).mono (fun _ _ => trivial)
    exact (only_andThen (only_andThen (only_andThen (only_andThen h1 h2) h3) h4) h5 s).1

end Verif.Mock
