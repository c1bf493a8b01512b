import Verif.CM.Accept
/-!
# The strictness of a switch request matters only if STRICT would reject it
-/
namespace Verif
namespace CM

theorem listStep_agree (cm : CM) (s : Strictness) (l : List Name) : ∀ acc : Bool × Bool × List Name, acc.1 = false →
    (l.foldl (cm.listStep .strict) acc).1 = false → l.foldl (cm.listStep s) acc = l.foldl (cm.listStep .strict) acc := by
  induction l with
  | nil => intro _ _ _; rfl
  | cons n t ih =>
    intro acc ha h
    simp only [List.foldl_cons] at h ⊢
    cases hf : cm.find n with
    | none =>
      have : cm.listStep .strict acc n = (true, false, acc.2.2) := by simp [listStep, ha, hf]
      rw [this, listStep_aborted _ _ _ _ rfl] at h
      cases h
    | some c =>
      have h1 : ∀ s, cm.listStep s acc n = (false, true, acc.2.2 ++ [n]) := by intro s; simp [listStep, ha, hf]
      rw [h1] at h
      rw [h1, h1]
      exact ih _ rfl h

theorem listStep_false (cm : CM) (l : List Name) : ∀ acc : Bool × Bool × List Name, (acc.1 = true → acc.2.1 = false) →
    (l.foldl (cm.listStep .strict) acc).2.1 = true → (l.foldl (cm.listStep .strict) acc).1 = false := by
  induction l with
  | nil =>
    intro acc ha h
    simp only [List.foldl_nil] at h ⊢
    cases hx : acc.1 with
    | false => rfl
    | true => rw [ha hx] at h; cases h
  | cons n t ih =>
    intro acc ha h
    simp only [List.foldl_cons] at h ⊢
    refine ih _ ?_ h
    unfold listStep
    split
    · exact ha
    · split
      · simp
      · simp

theorem listControllers_agree {cm : CM} {l a : List Name} (s : Strictness) (h : cm.listControllers .strict l = some a) :
    cm.listControllers s l = some a := by
  unfold listControllers at h ⊢
  extract_lets r at h
  split at h
  · rename_i hr
    rw [listStep_agree cm s l (false, true, []) rfl (listStep_false cm l _ (by simp) hr), if_pos hr]
    exact h
  · cases h

theorem actLoop_agree (s : Strictness) (l : List Name) : ∀ (kept : List Name) (cm : CM), (actLoop .strict l kept cm).2 = true →
    actLoop s l kept cm = actLoop .strict l kept cm := by
  induction l with
  | nil => intro _ _ _; rfl
  | cons n t ih =>
    intro kept cm h
    simp only [actLoop] at h ⊢
    split at h
    · rename_i hc; rw [if_pos hc, if_pos hc]; exact ih _ _ h
    · cases h

theorem deactLoop_agree (s : Strictness) (l : List Name) : ∀ (kept : List Name) (cm : CM), (deactLoop .strict l kept cm).2 = true →
    deactLoop s l kept cm = deactLoop .strict l kept cm := by
  induction l with
  | nil => intro _ _ _; rfl
  | cons n t ih =>
    intro kept cm h
    simp only [deactLoop] at h ⊢
    cases hf : cm.find n with
    | none => simp [hf] at h
    | some c =>
      simp only [hf] at h ⊢
      split at h
      · rename_i hc; rw [if_pos hc, if_pos hc]; exact ih _ _ h
      · cases h

theorem conflictOne_agree (s : Strictness) {cm cm' : CM} {c : Ctl} (h : cm.conflictOne .strict c = some cm') :
    cm.conflictOne s c = some cm' := by
  unfold conflictOne at h ⊢
  extract_lets at h ⊢
  simp only [and_true] at h
  split at h
  · cases h
  · rename_i h1
    split at h
    · cases h
    · rename_i h2
      split at h
      · cases h
      · rename_i h3
        rw [if_neg (fun k => h1 k.1), if_neg (fun k => h2 k.1), if_neg (fun k => h3 k.1)]
        exact h

theorem conflictLoop_agree (s : Strictness) (l : List Ctl) : ∀ cm : CM, (conflictLoop .strict l cm).2 = true →
    conflictLoop s l cm = conflictLoop .strict l cm := by
  induction l with
  | nil => intro _ _; rfl
  | cons c t ih =>
    intro cm h
    cases hc : cm.conflictOne .strict c with
    | none => simp [conflictLoop, hc] at h
    | some cm' =>
      simp only [conflictLoop, hc, conflictOne_agree s hc] at h ⊢
      exact ih _ h

/-- The state a request of strictness `s` leaves, given the one a STRICT request leaves. -/
def withStrictness (s : Strictness) (r : CM × SwOut) : CM × SwOut :=
  match r.2 with
  | .wait => ({ r.1 with sw := { r.1.sw with strict := s } }, .wait)
  | .done _ => r

theorem validate_agree (o : Oracle) (cm : CM) (s : Strictness) (asap : Bool) (h : (cm.validate o .strict asap).2 ≠ .done .error) :
    cm.validate o s asap = withStrictness s (cm.validate o .strict asap) := by
  simp only [validate] at h ⊢
  have e1 : (actLoop .strict (cm.propagate cm.ctls).sw.act [] (cm.propagate cm.ctls)).2 = true := by
    by_contra hx; rw [Bool.not_eq_true] at hx; simp [hx] at h
  rw [actLoop_agree s _ _ _ e1]
  generalize actLoop .strict (cm.propagate cm.ctls).sw.act [] (cm.propagate cm.ctls) = r1 at *
  simp only [e1, Bool.true_eq_false, if_false] at h ⊢
  have e2 : (deactLoop .strict r1.1.sw.deact [] r1.1).2 = true := by
    by_contra hx; rw [Bool.not_eq_true] at hx; simp [hx] at h
  rw [deactLoop_agree s _ _ _ e2]
  generalize deactLoop .strict r1.1.sw.deact [] r1.1 = r2 at *
  simp only [e2, Bool.true_eq_false, if_false] at h ⊢
  split
  · rfl
  · rename_i hne
    rw [if_neg hne] at h
    have e3 : (conflictLoop .strict r2.1.ctls r2.1).2 = true := by
      by_contra hx; rw [Bool.not_eq_true] at hx; simp [hx] at h
    rw [conflictLoop_agree s _ _ e3]
    generalize conflictLoop .strict r2.1.ctls r2.1 = r3 at *
    simp only [e3, Bool.true_eq_false, if_false] at h ⊢
    split
    · rfl
    · rename_i hne'
      rw [if_neg hne'] at h
      split
      · rename_i hx; simp [hx] at h
      · rename_i hx; simp [hx] at h
      · split <;> split <;> rfl

/-- A request that STRICT does not reject is treated alike whatever its strictness is. -/
theorem switchBegin_agree (o : Oracle) (cm : CM) (act deact : List Name) (s : Strictness) (asap : Bool)
    (h : (cm.switchBegin o act deact .strict asap).2 ≠ .done .error) :
    cm.switchBegin o act deact s asap = withStrictness s (cm.switchBegin o act deact .strict asap) := by
  unfold CM.switchBegin at h ⊢
  extract_lets at h ⊢
  cases hd : cm.listControllers .strict deact with
  | none => simp [hd] at h
  | some d =>
  cases ha : cm.listControllers .strict act with
  | none => simp [hd, ha] at h
  | some a =>
  simp only [hd, ha, listControllers_agree s hd, listControllers_agree s ha] at h ⊢
  exact validate_agree o _ s asap h

end CM
end Verif
