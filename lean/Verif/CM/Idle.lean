import Verif.CM.Chained
/-!
# Between two calls of `switch_controller` the request is empty

`switch_controller` begins with a check that the six request lists are empty and throws an exception if they are
not ("This should never happen", cm.cpp:1877-1904). They always are.
-/
namespace Verif
namespace CM

/-- The request and the waiting flag are the same. -/
def SwSame (a b : CM) : Prop := b.sw = a.sw ∧ b.pending = a.pending

theorem SwSame.refl (a : CM) : SwSame a a := ⟨rfl, rfl⟩
theorem SwSame.trans {a b c : CM} (h : SwSame a b) (k : SwSame b c) : SwSame a c := ⟨k.1.trans h.1, k.2.trans h.2⟩

theorem SwSame.foldl {α β : Type} (g : β → CM) (f : β → α → β) (l : List α) (b : β)
    (h : ∀ b a, SwSame (g b) (g (f b a))) : SwSame (g b) (g (l.foldl f b)) := by
  induction l generalizing b with
  | nil => exact .refl _
  | cons a t ih => exact (h b a).trans (ih _)

theorem SwSame.release (cm : CM) (n : Name) : SwSame cm (cm.releaseItfs n) := ⟨(Keeps.release cm n).1, (Keeps.release cm n).2.1⟩

theorem SwSame.trigger (o : Oracle) (cm : CM) (n : Name) (cb : CtlCb) : SwSame cm (cm.trigger o n cb) := by
  unfold CM.trigger
  split
  · exact .refl cm
  · split
    swap
    · exact .refl cm
    extract_lets a cm1 cm2 cm3
    have s2 : SwSame cm cm2 := by simp only [cm2]; split <;> exact ⟨rfl, rfl⟩
    have s3 : SwSame cm cm3 := by
      simp only [cm3]; split
      · exact s2.trans (SwSame.release _ _)
      · exact s2
    clear_value cm3 a
    split
    · exact s3
    · exact s3
    · exact s3.trans (SwSame.trans (b := cm3.push _) ⟨rfl, rfl⟩ (SwSame.release _ _))

theorem SwSame.setChained (o : Oracle) (cm : CM) (n : Name) (v : Bool) : SwSame cm (cm.setChained o n v) :=
  ⟨(Keeps.setChained o cm n v).1, (Keeps.setChained o cm n v).2.1⟩

theorem SwSame.cleanupExports (cm : CM) (n : Name) : SwSame cm (cm.cleanupExports n) := by
  unfold CM.cleanupExports
  split
  · exact .refl _
  · split <;> exact ⟨rfl, rfl⟩

theorem SwSame.cleanupSpec (o : Oracle) (cm : CM) (n : Name) : SwSame cm (cm.cleanupSpec o n).1 :=
  (SwSame.cleanupExports cm n).trans (SwSame.trigger o _ n .cleanup)

theorem SwSame.cleanup (o : Oracle) (cm : CM) (n : Name) : SwSame cm (cm.cleanup o n).1 := by
  unfold CM.cleanup
  split
  · exact .refl _
  split
  · exact .refl _
  split <;> first | exact .refl _ | exact SwSame.cleanupSpec o cm n

theorem SwSame.load (o : Oracle) (cm : CM) (n : Name) (ch as : Bool) (cfg : CtlCfg) (fb : List Name) :
    SwSame cm (cm.load o n ch as cfg fb).1 := by
  unfold CM.load
  split
  · exact .refl _
  split
  · exact .refl _
  split
  · exact .refl _
  simp only
  split <;> exact ⟨rfl, rfl⟩

theorem SwSame.unload (o : Oracle) (cm : CM) (n : Name) : SwSame cm (cm.unload o n).1 := by
  unfold CM.unload
  split
  · exact .refl _
  split
  · exact .refl _
  split
  · exact .refl _
  extract_lets r cm1 cm2
  have h : SwSame cm r.1 := SwSame.cleanup o cm n
  split
  · exact h
  · have h1 : SwSame cm cm1 := (h.trans (b := r.1) ⟨rfl, rfl⟩ : SwSame cm (r.1.chainCleanup n)).trans (SwSame.trigger o _ n .shutdown)
    have h2 : SwSame cm cm2 := h1.trans (SwSame.release _ n)
    exact ⟨h2.1, h2.2⟩

theorem SwSame.topology (cm : CM) : SwSame cm cm.topology := by
  unfold CM.topology
  refine SwSame.trans (b := { cm with foll := fun _ => [], prec := fun _ => [], refCache := fun _ => [], stateCache := fun _ => [] })
    ⟨rfl, rfl⟩ (SwSame.foldl id topoOne _ _ (fun b c => ?_))
  simp only [id]
  unfold topoOne
  split
  · exact .refl _
  · refine (SwSame.foldl id (topoCmd c.name) _ b (fun b i => ?_)).trans (SwSame.foldl id (topoState c.name) _ _ (fun b i => ?_))
    · simp only [id]; unfold topoCmd; split <;> exact ⟨rfl, rfl⟩
    · simp only [id]; unfold topoState; split <;> exact ⟨rfl, rfl⟩

theorem SwSame.configure (o : Oracle) (cm : CM) (n : Name) (cfg : CtlCfg) (ord : List Name) (r : Bool) :
    SwSame cm (cm.configure o n cfg ord r).1 := by
  unfold CM.configure
  split
  · exact .refl _
  split
  · exact .refl _
  split
  · exact .refl _
  extract_lets r0 cm1 cm2 ex
  have h0 : SwSame cm r0.1 := by
    simp only [r0]; split
    · exact SwSame.cleanupSpec o cm n
    · exact .refl _
  have h1 : SwSame cm cm1 := h0.trans ((SwSame.cleanupExports r0.1 n).trans ⟨rfl, rfl⟩)
  have h2 : SwSame cm cm2 := by
    simp only [cm2]; split
    · exact h1.trans (SwSame.trigger o _ _ _)
    · exact h1
  have h3 : SwSame cm ex.1 := by
    simp only [ex]
    split
    · split
      · exact h2.trans (SwSame.cleanupSpec o _ _)
      · split
        · exact h2.trans (SwSame.cleanupSpec o _ _)
        · split
          · exact h2.trans ⟨rfl, rfl⟩
          · refine h2.trans (SwSame.trans (b := CM.setChained o _ n false) (SwSame.trans ?_ (SwSame.setChained o _ n false)) ⟨rfl, rfl⟩)
            exact ⟨rfl, rfl⟩
    · exact h2
  clear_value r0 cm2 ex
  split
  · exact h0
  split
  · exact h2
  split
  · exact h3
  split
  · exact h3
  split
  · exact h3.trans (SwSame.cleanupSpec o _ _)
  · exact h3.trans ((SwSame.topology _).trans ⟨rfl, rfl⟩)

/-- No call of `switch_controller` is waiting: the request is empty and there is nothing to do for the real-time loop. -/
structure IdleSw (s : Sw) : Prop where
  deact : s.deact = []
  act : s.act = []
  toCh : s.toCh = []
  fromCh : s.fromCh = []
  actItf : s.actItf = []
  deactItf : s.deactItf = []
  idle : s.doSwitch = false

theorem IdleSw.cleared (s : Sw) : IdleSw s.cleared := ⟨rfl, rfl, rfl, rfl, rfl, rfl, rfl⟩

theorem conflictLoop_false' (s : Strictness) (l : List Ctl) : ∀ cm : CM, (conflictLoop s l cm).2 = false →
    IdleSw (conflictLoop s l cm).1.sw := by
  induction l with
  | nil => intro cm h; simp [conflictLoop] at h
  | cons c t ih =>
    intro cm h
    unfold conflictLoop at h ⊢
    split
    · exact IdleSw.cleared _
    · rename_i cm' e
      rw [e] at h
      exact ih cm' h

theorem validate_idle (o : Oracle) (x : CM) (s : Strictness) (asap : Bool) (r : Ret) (h : (x.validate o s asap).2 = .done r) :
    IdleSw (x.validate o s asap).1.sw := by
  revert h
  unfold CM.validate
  extract_lets cm1 r1 r2 r3 cm4 p cm5
  have c3 : r3.2 = false → IdleSw r3.1.sw := conflictLoop_false' s _ _
  clear_value cm1 r1 r2 r3 cm4 p
  intro h
  split
  · exact IdleSw.cleared _
  rename_i g1; rw [if_neg g1] at h
  split
  · exact IdleSw.cleared _
  rename_i g2; rw [if_neg g2] at h
  split
  · exact IdleSw.cleared _
  rename_i g3; rw [if_neg g3] at h
  split
  · rename_i g4; exact c3 g4
  rename_i g4; rw [if_neg g4] at h
  split
  · exact IdleSw.cleared _
  rename_i g5; rw [if_neg g5] at h
  split
  · exact IdleSw.cleared _
  · exact IdleSw.cleared _
  · rename_i z hz
    split
    · exact IdleSw.cleared _
    · rename_i g6
      rw [hz] at h
      simp only at h
      rw [if_neg g6] at h
      simp at h

/-- The invariant. -/
def Idle (cm : CM) : Prop := cm.pending = false → IdleSw cm.sw

theorem Idle.same {a b : CM} (h : SwSame a b) (I : Idle a) : Idle b := by
  intro hp; rw [h.1]; exact I (h.2 ▸ hp)

theorem Idle.step (o : Oracle) {cm : CM} (h : Idle cm) (op : Op) : Idle (cm.step o op) := by
  cases op <;> simp only [CM.step]
  · exact h.same (SwSame.load o cm _ _ _ _ _)
  · exact h.same (SwSame.configure o cm _ _ _ _)
  · exact h.same (SwSame.cleanup o cm _)
  · exact h.same (SwSame.unload o cm _)
  · rename_i act deact s asap
    split
    · exact h
    rename_i hp
    have h := h (by simpa using hp)
    intro hp'
    cases hout : (cm.switchBegin o act deact s asap).2 with
    | wait => rw [(switchBegin_wait hout).1] at hp'; simp at hp'
    | done r =>
      unfold CM.switchBegin at hout ⊢
      extract_lets _ sw0 at hout ⊢
      split
      · exact ⟨rfl, h.act, h.toCh, h.fromCh, h.actItf, h.deactItf, rfl⟩
      rename_i hd
      split
      · exact ⟨rfl, rfl, h.toCh, h.fromCh, h.actItf, h.deactItf, rfl⟩
      rename_i ha
      simp only [hd, ha] at hout
      exact validate_idle o _ s asap r hout
  · unfold CM.switchWake
    split
    · exact h
    split
    · split
      · exact h
      · intro _; exact IdleSw.cleared _
    · split
      · intro _; exact IdleSw.cleared _
      · exact h
  · unfold CM.switchTimeout
    split
    · intro _; exact IdleSw.cleared _
    · exact h
  · exact h.same ⟨(Keeps.rtRead o _ cm).1, (Keeps.rtRead o _ cm).2.1⟩
  · rename_i due lock
    obtain ⟨d, r, h1, h2, h3, _⟩ := rtUpdate_sw o due lock cm
    intro hp
    rw [h2] at hp
    have h := h hp
    rw [h1]
    exact ⟨h.deact, h.act, h.toCh, h.fromCh, h.actItf, h.deactItf, h3 h.idle⟩
  · exact h.same ⟨(Keeps.rtWrite o _ cm).1, (Keeps.rtWrite o _ cm).2.1⟩
  · refine h.same ?_
    unfold CM.setHw
    split <;> exact ⟨rfl, rfl⟩
  · exact h.same ⟨(Keeps.shutdownAll o cm).1, (Keeps.shutdownAll o cm).2.1⟩

theorem Reach.idle {o : Oracle} {cm : CM} (h : Reach o cm) : Idle cm := by
  refine Reach.induction (P := Idle) ?_ (fun cm op _ ih => ih.step o op) h
  intro a b specs _
  exact ⟨rfl, rfl, rfl, rfl, rfl, rfl, rfl⟩

end CM
end Verif
