import Verif.CM.Recover
/-!
# The activation list of a switch comes from the request
-/
namespace Verif
namespace CM

theorem listControllers_sub (cm : CM) (s : Strictness) (l a : List Name) (h : cm.listControllers s l = some a) : ∀ n ∈ a, n ∈ l := by
  have gen : ∀ (t : List Name) (acc : Bool × Bool × List Name), ∀ n ∈ (t.foldl (cm.listStep s) acc).2.2, n ∈ acc.2.2 ∨ n ∈ t := by
    intro t
    induction t with
    | nil => intro acc n hn; exact .inl hn
    | cons m t ih =>
      intro acc n hn
      rcases ih _ n hn with h | h
      · unfold listStep at h
        split at h
        · exact .inl h
        · split at h
          · split at h <;> exact .inl h
          · simp at h; rcases h with h | h
            · exact .inl h
            · exact .inr (by simp [h])
      · exact .inr (by simp [h])
  unfold listControllers at h
  simp only at h
  split at h
  · simp at h; subst h
    intro n hn
    rcases gen l _ n hn with h | h
    · simp at h
    · exact h
  · simp at h

theorem propagate_act (l : List Ctl) : ∀ cm : CM, (cm.propagate l).sw.act = cm.sw.act := by
  induction l with
  | nil => intro cm; rfl
  | cons c t ih =>
    intro cm
    unfold propagate
    split
    · split
      · rfl
      · rw [ih]; rfl
    · exact ih cm

theorem Quiet.ctls' {a b : CM} (h : Quiet a b) : b.ctls = a.ctls := by
  obtain ⟨_, _, _, _, _, e, _⟩ := h; rw [e]

theorem actLoop_act (s : Strictness) (t : List Name) : ∀ (kept : List Name) (cm : CM),
    (∀ n ∈ cm.sw.act, n ∈ kept ++ t) → ∀ n ∈ (actLoop s t kept cm).1.sw.act, n ∈ kept ++ t := by
  induction t with
  | nil => intro kept cm h n hn; exact h n hn
  | cons m t ih =>
    intro kept cm h n hn
    have hm := (Mild.checkActivate cm m).act
    unfold actLoop at hn
    extract_lets r at hn
    have hr : r.1.sw.act = cm.sw.act := hm
    clear_value r
    split at hn
    · have := ih (kept ++ [m]) r.1 (by rw [hr]; simpa using h) n hn
      simpa using this
    · split at hn
      · rw [hr] at hn; exact h n hn
      · have := ih kept _ (by intro k hk; exact hk) n hn
        simp at this ⊢
        tauto
      · have := ih (kept ++ [m]) r.1 (by rw [hr]; simpa using h) n hn
        simpa using this

theorem deactLoop_act (s : Strictness) (t : List Name) : ∀ (kept : List Name) (cm : CM), (deactLoop s t kept cm).1.sw.act = cm.sw.act := by
  induction t with
  | nil => intro kept cm; rfl
  | cons m t ih =>
    intro kept cm
    unfold deactLoop
    extract_lets ok
    clear_value ok
    split
    · exact ih _ _
    · split
      · rfl
      · rw [ih]
      · exact ih _ _

theorem conflictOne_act_sub (s : Strictness) (cm cm' : CM) (c : Ctl) (h : cm.conflictOne s c = some cm') :
    ∀ n ∈ cm'.sw.act, n ∈ cm.sw.act ∨ (n = c.name ∧ c.lc = .active) := by
  intro n hn
  unfold conflictOne at h
  extract_lets k restart d1 a1 inD inA ds d2 inD2 da a2 inA2 ill a3 inA3 at h
  split at h
  · simp at h
  split at h
  · simp at h
  split at h
  · simp at h
  simp only [Option.some.injEq] at h
  rw [← h] at hn
  simp only at hn
  have h3 : n ∈ a2 := by
    simp only [a3] at hn
    split at hn
    · exact mem_of_mem_removeItem hn
    · exact hn
  have h2 : n ∈ a1 := by
    simp only [a2] at h3
    split at h3
    · exact mem_of_mem_removeItem h3
    · exact h3
  simp only [a1] at h2
  split at h2
  · rename_i hr
    rcases List.mem_append.1 h2 with h | h
    · exact .inl h
    · right
      simp only [restart, Bool.and_eq_true, decide_eq_true_eq] at hr
      exact ⟨by simpa using h, hr.1.2⟩
  · exact .inl h2

theorem conflictLoop_act (s : Strictness) (l : List Ctl) : ∀ cm : CM, ∀ n ∈ (conflictLoop s l cm).1.sw.act,
    n ∈ cm.sw.act ∨ ∃ c ∈ l, c.name = n ∧ c.lc = .active := by
  induction l with
  | nil => intro cm n hn; exact .inl hn
  | cons c t ih =>
    intro cm n hn
    unfold conflictLoop at hn
    split at hn
    · simp [Sw.cleared] at hn
    · rename_i cm' e
      rcases ih cm' n hn with h | ⟨d, hd, h⟩
      · rcases conflictOne_act_sub s cm cm' c e n h with h | ⟨h1, h2⟩
        · exact .inl h
        · exact .inr ⟨c, by simp, h1.symm, h2⟩
      · exact .inr ⟨d, by simp [hd], h⟩

theorem prepareDeact_sw (cm : CM) (l : List Name) : (cm.prepareDeact l).sw = cm.sw := by
  unfold prepareDeact
  exact foldl_inv (fun x : CM => x.sw = cm.sw) _ _ _ rfl (fun b a _ h => h)

/-- What a switch activates was requested, or is ACTIVE already and gets restarted. -/
theorem switchBegin_act (o : Oracle) (cm : CM) (act deact : List Name) (s : Strictness) (asap : Bool) (I : Inv cm) :
    ∀ n ∈ (cm.switchBegin o act deact s asap).1.sw.act, n ∈ act ∨ n ∈ cm.sw.act ∨ cm.lcOf n = some .active := by
  intro n hn
  unfold CM.switchBegin at hn
  extract_lets _ sw0 at hn
  split at hn
  · exact .inr (.inl hn)
  split at hn
  · simp at hn
  rename_i d hd _ a ha
  have hsub := listControllers_sub cm s act a ha
  obtain ⟨x, hx⟩ : ∃ x : CM, x = { cm with sw := { sw0 with deact := d, act := a } } := ⟨_, rfl⟩
  have xa : x.sw.act = a := by rw [hx]
  have xc : x.ctls = cm.ctls := by rw [hx]
  rw [← hx] at hn
  clear hx
  unfold CM.validate at hn
  extract_lets cm1 r1 r2 r3 cm4 p cm5 at hn
  have a1 : cm1.sw.act = a := (propagate_act _ x).trans xa
  have a2 : ∀ n ∈ r1.1.sw.act, n ∈ a := by
    intro n hn
    have := actLoop_act s cm1.sw.act [] cm1 (by simp) n hn
    rw [← a1]; simpa using this
  have c1 : cm1.ctls = cm.ctls := (Quiet.ctls' (Quiet.propagate _ _)).trans xc
  have c2 : r1.1.ctls = cm.ctls := (Quiet.ctls' (Quiet.actLoop _ _ _ _)).trans c1
  have a3 : r2.1.sw.act = r1.1.sw.act := deactLoop_act s _ _ _
  have c3 : r2.1.ctls = cm.ctls := (Quiet.ctls' (Quiet.deactLoop _ _ _ _)).trans c2
  have a4 : ∀ n ∈ r3.1.sw.act, n ∈ act ∨ cm.lcOf n = some .active := by
    intro n hn
    rcases conflictLoop_act s _ _ n hn with h | ⟨c, hc, h1, h2⟩
    · exact .inl (hsub n (a2 n (a3 ▸ h)))
    · right
      rw [c3] at hc
      have := (find_iff I.topo.names).2 ⟨hc, h1⟩
      unfold CM.lcOf; rw [this]; simp [h2]
  have a5 : cm5.sw.act = r3.1.sw.act := by
    change cm4.sw.act = _
    simp only [cm4]; rw [prepareDeact_sw]
  clear_value cm1 r1 r2 r3 cm5 cm4 p
  have fin : ∀ n ∈ r3.1.sw.act, n ∈ act ∨ n ∈ cm.sw.act ∨ cm.lcOf n = some .active := fun n h => (a4 n h).imp id .inr
  split at hn
  · simp [clear, Sw.cleared] at hn
  split at hn
  · simp [clear, Sw.cleared] at hn
  split at hn
  · simp [clear, Sw.cleared] at hn
  split at hn
  · exact fin n hn
  split at hn
  · simp [clear, Sw.cleared] at hn
  split at hn
  · simp [clear, Sw.cleared] at hn
  · simp [clear, Sw.cleared, faulted] at hn
  · split at hn
    · simp [clear, Sw.cleared] at hn
    · simp only at hn; rw [a5] at hn; exact fin n hn

/-- The activation list of the pending request. -/
theorem step_act (o : Oracle) {cm : CM} (I : Inv cm) (op : Op) : ∀ n ∈ (cm.step o op).sw.act,
    n ∈ cm.sw.act ∨ cm.lcOf n = some .active ∨ ∃ act deact s asap, op = .switchBegin act deact s asap ∧ n ∈ act := by
  intro n hn
  by_cases hs : ∃ act deact s asap, op = .switchBegin act deact s asap
  · obtain ⟨act, deact, s, asap, rfl⟩ := hs
    simp only [step] at hn
    split at hn
    · exact .inl hn
    rcases switchBegin_act o cm act deact s asap I n hn with h | h | h
    · exact .inr (.inr ⟨_, _, _, _, rfl, h⟩)
    · exact .inl h
    · exact .inr (.inl h)
  left
  cases op <;> simp only [step] at hn
  · rename_i m ch as cfg fb
    unfold CM.load at hn
    split at hn
    · exact hn
    split at hn
    · exact hn
    split at hn
    · exact hn
    extract_lets a cm1 at hn
    split at hn <;> exact hn
  · rename_i m cfg ord r
    rw [(SwSame.configure o cm m cfg ord r).1] at hn; exact hn
  · rw [(SwSame.cleanup o cm _).1] at hn; exact hn
  · rw [(SwSame.unload o cm _).1] at hn; exact hn
  · exact absurd ⟨_, _, _, _, rfl⟩ hs
  · unfold CM.switchWake at hn
    split at hn
    · exact hn
    split at hn
    · split at hn
      · exact hn
      · simp [switchFinish, clear, Sw.cleared] at hn
    · split at hn
      · simp [switchFinish, clear, Sw.cleared] at hn
      · exact hn
  · unfold CM.switchTimeout at hn
    split at hn
    · simp [clear, Sw.cleared] at hn
    · exact hn
  · rw [(Keeps.rtRead o _ cm).1] at hn; exact hn
  · rename_i due lock
    obtain ⟨d, r, h1, _⟩ := rtUpdate_sw o due lock cm
    rw [h1] at hn; exact hn
  · rw [(Keeps.rtWrite o _ cm).1] at hn; exact hn
  · unfold CM.setHw at hn
    split at hn <;> exact hn
  · rw [(Keeps.shutdownAll o cm).1] at hn; exact hn

end CM
end Verif
