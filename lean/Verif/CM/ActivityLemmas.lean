import Verif.CM.Activity
/-!
# The activity topic: lemmas
-/
namespace Verif

namespace RM

theorem ioPart_comps {rm : RM} {h : Hw} {io : Hw × List Ev × IoAns} :
    (rm.ioPart h io).1.comps = (rm.setHw io.1).comps := by
  unfold ioPart
  simp only
  split
  · rfl
  · unfold groupUpdate
    split
    · rfl
    · simp only; split <;> rfl

theorem readOne_same (o : Oracle) (sched : Name → Sched) (s : RM × Status) (n : Name) (I : s.1.Inv)
    (h : (readOne o sched s n).2.result = .ok) : (readOne o sched s n).1.comps = s.1.comps := by
  cases hf : s.1.findHw n with
  | none => unfold readOne; rw [hf]
  | some hw =>
    obtain ⟨hh, hn⟩ := findHw_some hf
    by_cases hl : sched n = .locked
    · unfold readOne; rw [hf]; simp [hl]
    · rw [readOne_eq o sched s n hf hl] at h ⊢
      dsimp only at h ⊢
      generalize hio : (if sched n = .run then hw.read o s.1.tr else (hw, s.1.tr, IoAns.ret .ok)) = io at h ⊢
      have hst : io.2.2 ≠ .ret .error → io.1 = hw := by
        subst hio; split
        · exact read_state o _ _
        · intro _; rfl
      by_cases hg : (s.1.ioPart hw io).2 = .ok
      · rw [if_neg (by simpa using hg)]
        have hne : (s.1.ioPart hw io).2 ≠ .error := by rw [hg]; simp
        show (s.1.ioPart hw io).1.comps = _
        rw [ioPart_comps, hst (ioPart_ne_error hne)]
        exact setHw_self I.names hh
      · rw [if_pos hg] at h; cases h

theorem readFold_same (o : Oracle) (sched : Name → Sched) (l : List Name) : ∀ s : RM × Status, s.1.Inv →
    (l.foldl (readOne o sched) s).2.result = .ok → (l.foldl (readOne o sched) s).1.comps = s.1.comps := by
  induction l with
  | nil => intro s _ _; rfl
  | cons n t ih =>
    intro s I h
    simp only [List.foldl_cons] at h ⊢
    have h1 : (readOne o sched s n).2.result = .ok := by
      rcases (readFold_status o sched t (readOne o sched s n)).2.2.2 with e | e
      · rw [← e.1]; exact h
      · rw [e.1] at h; cases h
    rw [ih _ (readOne_ok o sched s n I).inv h, readOne_same o sched s n I h1]

theorem writeOne_same (o : Oracle) (sched : Name → Sched) (s : RM × Status) (n : Name) (I : s.1.Inv)
    (h : (writeOne o sched s n).2.result = .ok) :
    (writeOne o sched s n).1.comps = s.1.comps ∧ writeStops o sched s n = false := by
  cases hf : s.1.findHw n with
  | none => unfold writeOne writeStops; rw [hf]; simp
  | some hw =>
    obtain ⟨hh, hn⟩ := findHw_some hf
    by_cases hl : sched n = .locked
    · unfold writeOne writeStops; rw [hf]; simp [hl]
    · have e2 : writeStops o sched s n = decide ((s.1.ioPart hw
          (if sched n = .run then hw.write o s.1.tr else (hw, s.1.tr, IoAns.ret .ok))).2 = .deactivate) := by
        unfold writeStops; rw [hf]; simp only [if_neg hl]; rfl
      rw [e2]
      rw [writeOne_eq o sched s n hf hl] at h ⊢
      dsimp only at h ⊢
      generalize hio : (if sched n = .run then hw.write o s.1.tr else (hw, s.1.tr, IoAns.ret .ok)) = io at h ⊢
      have hst : io.2.2 ≠ .ret .error → io.1 = hw := by
        subst hio; split
        · exact write_state o _ _
        · intro _; rfl
      cases hg : (s.1.ioPart hw io).2 with
      | error => rw [hg] at h; cases h
      | deactivate => rw [hg] at h; cases h
      | ok =>
        simp only
        have hne : (s.1.ioPart hw io).2 ≠ .error := by rw [hg]; simp
        refine ⟨?_, by simp⟩
        rw [ioPart_comps, hst (ioPart_ne_error hne)]
        exact setHw_self I.names hh

end RM

namespace CM

theorem mem_of_find {l : List Ctl} (h : (l.map (·.name)).Nodup) (n : Name) (s : LState) :
    (n, s) ∈ l.map (fun c => (c.name, c.lc)) ↔ (l.find? (fun c => c.name = n)).map (·.lc) = some s := by
  induction l with
  | nil => simp
  | cons a t ih =>
    simp only [List.map_cons, List.nodup_cons] at h
    rw [List.map_cons, List.mem_cons, List.find?_cons, ih h.2]
    by_cases e : a.name = n
    · simp only [e, decide_true, Option.map_some, Option.some.injEq, Prod.mk.injEq, true_and]
      constructor
      · rintro (h1 | h1)
        · exact h1.symm
        · exfalso
          rw [e] at h
          apply h.1
          have := (ih h.2).2 h1
          rw [List.mem_map] at this ⊢
          obtain ⟨c, hc, e2⟩ := this
          exact ⟨c, hc, (Prod.mk.inj e2).1⟩
      · intro h1; exact .inl h1.symm
    · simp only [e, decide_false, Prod.mk.injEq]
      constructor
      · rintro (h1 | h1)
        · exact absurd h1.1.symm e
        · exact h1
      · intro h1; exact .inr h1

theorem mem_of_findHw {l : List Hw} (h : (l.map (·.name)).Nodup) (n : Name) (s : LState) :
    (n, s) ∈ l.map (fun c => (c.name, c.lc)) ↔ (l.find? (fun c => c.name = n)).map (·.lc) = some s := by
  induction l with
  | nil => simp
  | cons a t ih =>
    simp only [List.map_cons, List.nodup_cons] at h
    rw [List.map_cons, List.mem_cons, List.find?_cons, ih h.2]
    by_cases e : a.name = n
    · simp only [e, decide_true, Option.map_some, Option.some.injEq, Prod.mk.injEq, true_and]
      constructor
      · rintro (h1 | h1)
        · exact h1.symm
        · exfalso
          rw [e] at h
          apply h.1
          have := (ih h.2).2 h1
          rw [List.mem_map] at this ⊢
          obtain ⟨c, hc, e2⟩ := this
          exact ⟨c, hc, (Prod.mk.inj e2).1⟩
      · intro h1; exact .inl h1.symm
    · simp only [e, decide_false, Prod.mk.injEq]
      constructor
      · rintro (h1 | h1)
        · exact absurd h1.1.symm e
        · exact h1
      · intro h1; exact .inr h1

theorem Inv.rmInv {cm : CM} (I : Inv cm) : cm.rm.Inv := I.sys.claims.rm

/-- `publish_activity` tells the truth. -/
theorem tells_now {cm : CM} (hc : (cm.ctls.map (·.name)).Nodup) (hh : (cm.rm.comps.map (·.name)).Nodup) :
    Tells cm.activityMsg cm := by
  refine ⟨mem_of_find hc, mem_of_findHw hh, ?_, ?_⟩
  · simpa [activityMsg, List.map_map, Function.comp_def] using hc
  · simpa [activityMsg, List.map_map, Function.comp_def] using hh

theorem Inv.tells {cm : CM} (I : Inv cm) : Tells cm.activityMsg cm := tells_now I.topo.names I.rmInv.names

theorem Tells.same {m : ActivityMsg} {a b : CM} (h : Tells m a) (k : SameStates a b) : Tells m b :=
  ⟨fun n s => by rw [h.controllers, k.1], fun n s => by rw [h.hardware, k.2], h.once, h.onceHw⟩

theorem SameStates.refl (a : CM) : SameStates a a := ⟨fun _ => rfl, fun _ => rfl⟩
theorem SameStates.trans {a b c : CM} (h : SameStates a b) (k : SameStates b c) : SameStates a c :=
  ⟨fun n => (k.1 n).trans (h.1 n), fun n => (k.2 n).trans (h.2 n)⟩

theorem SameStates.of {a b : CM} (h : b.ctls = a.ctls) (k : b.rm.comps = a.rm.comps) : SameStates a b := by
  constructor
  · intro n; unfold CM.lcOf CM.find; rw [h]
  · intro n; unfold CM.hwOf RM.findHw; rw [k]

theorem Tells.fields {m : ActivityMsg} {a b : CM} (h : Tells m a) (e : b.ctls = a.ctls) (k : b.rm.comps = a.rm.comps) :
    Tells m b := h.same (.of e k)

theorem SameStates.switchBegin (o : Oracle) (cm : CM) (a d : List Name) (s : Strictness) (asap : Bool) :
    SameStates cm (cm.switchBegin o a d s asap).1 := by
  have b := switchBegin_began o cm a d s asap
  refine ⟨fun n => b.lcOf n, fun n => ?_⟩
  unfold CM.hwOf RM.findHw; rw [b.comps]

theorem SameStates.load {o : Oracle} {cm : CM} {n : Name} {ch as : Bool} {cfg : CtlCfg} {fb : List Name}
    (h : (cm.load o n ch as cfg fb).2 ≠ .ok) : SameStates cm (cm.load o n ch as cfg fb).1 := by
  unfold CM.load at h ⊢
  split at h <;> rename_i h1
  · rw [if_pos h1]; exact .refl _
  rw [if_neg h1]
  split at h <;> rename_i h2
  · rw [if_pos h2]; exact .refl _
  rw [if_neg h2]
  split at h <;> rename_i h3
  · exact .refl _
  · simp only at h ⊢
    split at h <;> rename_i h4
    · exact absurd rfl h
    · rw [if_neg h4]; exact .of rfl rfl

theorem lc_cases {cm : CM} (I : Inv cm) {n : Name} {c : Ctl} (h : cm.find n = some c) :
    c.lc = .unconfigured ∨ c.lc = .inactive ∨ c.lc = .active ∨ c.lc = .finalized := by
  have := I.sys.trace.known n c.core (by rw [abs_k, h]; rfl)
  change c.lc ≠ .unknown at this
  cases hl : c.lc <;> simp_all

theorem SameStates.configure {o : Oracle} {cm : CM} (I : Inv cm) {n : Name} {cfg : CtlCfg} {ord : List Name} {rt : Bool}
    (h : cm.pending = true ∨ ¬ (cm.lcOf n = some .unconfigured ∨ cm.lcOf n = some .inactive)) :
    SameStates cm (cm.configure o n cfg ord rt).1 := by
  unfold CM.configure
  split
  · exact .refl _
  rename_i hp
  have h := h.resolve_left (by simpa using hp)
  split
  · exact .refl _
  rename_i c hc
  have : c.lc = .active ∨ c.lc = .finalized := by
    unfold CM.lcOf at h
    simp only [hc, Option.map_some, Option.some.injEq] at h
    rcases lc_cases I hc with e | e | e | e <;> simp_all
  rw [if_pos this]
  exact .refl _

theorem SameStates.cleanup {o : Oracle} {cm : CM} (I : Inv cm) {n : Name}
    (h : cm.pending = true ∨ ¬ cm.lcOf n = some .inactive) : SameStates cm (cm.cleanup o n).1 := by
  unfold CM.cleanup
  split
  · exact .refl _
  rename_i hp
  have h := h.resolve_left (by simpa using hp)
  split
  · exact .refl _
  rename_i c hc
  unfold CM.lcOf at h
  simp only [hc, Option.map_some, Option.some.injEq] at h
  rcases lc_cases I hc with e | e | e | e
  · simp only [e]; exact .refl _
  · exact absurd e h
  · simp only [e]; exact .refl _
  · simp only [e]; exact .refl _

theorem SameStates.unload {o : Oracle} {cm : CM} (I : Inv cm) {n : Name}
    (h : cm.pending = true ∨ ¬ cm.lcOf n = some .inactive) (he : (cm.unload o n).2 ≠ .ok) :
    SameStates cm (cm.unload o n).1 := by
  have k := SameStates.cleanup (o := o) I h
  unfold CM.unload at he ⊢
  split
  · exact .refl _
  rename_i hp
  rw [if_neg hp] at he
  split
  · exact .refl _
  rename_i c hc
  simp only [hc] at he
  split
  · exact .refl _
  rename_i ha
  rw [if_neg ha] at he
  simp only
  split
  · exact k
  · rename_i hr
    rw [if_neg hr] at he
    exact absurd rfl he

theorem hwOf_eq {cm b : CM} (h : b.rm.comps = cm.rm.comps) (n : Name) : b.hwOf n = cm.hwOf n := by
  unfold CM.hwOf RM.findHw; rw [h]

theorem SameStates.read {o : Oracle} {cm : CM} (I : Inv cm) {s : Name → RM.Sched} (h : (cm.rm.read o s).2.result = .ok) :
    SameStates cm (cm.rtRead o s) := by
  have R : cm.rm.Inv := I.rmInv
  refine .of ?_ ?_
  · unfold CM.rtRead
    simp only [h, ne_eq, not_true, if_false]
  · rw [comps_rtRead]
    exact RM.readFold_same o s _ _ R h

theorem writeFold_same (o : Oracle) (sched : Name → RM.Sched) (cm : CM) (l : List Name) : ∀ s : RM × RM.Status, s.1.Inv →
    (l.foldl (RM.writeOne o sched) s).2.result = .ok →
    (l.foldl (RM.writeOne o sched) s).1.comps = s.1.comps ∧ cm.writeMsgs o sched l s = [] := by
  induction l with
  | nil => intro s _ _; exact ⟨rfl, rfl⟩
  | cons n t ih =>
    intro s I h
    simp only [List.foldl_cons] at h ⊢
    have h1 : (RM.writeOne o sched s n).2.result = .ok := by
      by_contra hc
      exact (RM.writeFold_status o sched t (RM.writeOne o sched s n)).1 hc h
    have i1 := ih _ (RM.writeOne_ok o sched s n I).inv h
    have i2 := RM.writeOne_same o sched s n I h1
    refine ⟨i1.1.trans i2.1, ?_⟩
    simp only [writeMsgs, i2.2, i1.2]
    rfl

theorem SameStates.write {o : Oracle} {cm : CM} (I : Inv cm) {s : Name → RM.Sched} (h : (cm.rm.write o s).2.result = .ok) :
    SameStates cm (cm.rtWrite o s) ∧ cm.published o (.write s) = [] := by
  have R : cm.rm.Inv := I.rmInv
  have k := writeFold_same o s cm cm.rm.writeOrder (cm.rm, { result := .ok, failed := [] }) R h
  refine ⟨.of ?_ ?_, k.2⟩
  · unfold CM.rtWrite
    simp only [h]
  · rw [comps_rtWrite]
    exact k.1

theorem update_shape (o : Oracle) (due : Name → Bool) (lock : Bool) (cm : CM)
    (h : ¬ (cm.sw.doSwitch = true ∧ cm.sw.asap = true ∧ lock = true)) :
    (cm.rtUpdate o due lock).1.ctls =
      ((updateLoop o due cm.ctls cm [] .ok).1.handleFailed o (updateLoop o due cm.ctls cm [] .ok).2.1).ctls ∧
    (cm.rtUpdate o due lock).1.rm =
      ((updateLoop o due cm.ctls cm [] .ok).1.handleFailed o (updateLoop o due cm.ctls cm [] .ok).2.1).rm := by
  have hsw : ((updateLoop o due cm.ctls cm [] .ok).1.handleFailed o (updateLoop o due cm.ctls cm [] .ok).2.1).sw = cm.sw := by
    rw [(Keeps.handleFailed o _ _).1]
    obtain ⟨es, e⟩ := updateLoop_push o due cm.ctls cm [] .ok
    rw [e]
  unfold CM.rtUpdate
  simp only
  generalize (updateLoop o due cm.ctls cm [] .ok).1.handleFailed o (updateLoop o due cm.ctls cm [] .ok).2.1 = cm1 at hsw ⊢
  split
  · rename_i h1
    split
    · rename_i h2
      split
      · rename_i h3
        rw [hsw] at h1 h2
        exact absurd ⟨h1, h2, h3⟩ h
      · exact ⟨rfl, rfl⟩
    · exact ⟨rfl, rfl⟩
  · exact ⟨rfl, rfl⟩

/-- Every component of a message of the write loop is in its state before or after the loop. -/
theorem writeMsgs_mem (o : Oracle) (sched : Name → RM.Sched) (cm : CM) (l : List Name) : ∀ s : RM × RM.Status, s.1.Inv →
    l.Nodup → ∀ m ∈ cm.writeMsgs o sched l s, m.controllers = cm.activityMsg.controllers ∧
      (m.hardware.map (·.1)).Nodup ∧
      (∀ n, n ∈ m.hardware.map (·.1) ↔ s.1.findHw n ≠ none) ∧
      ∀ n st, (n, st) ∈ m.hardware → (s.1.findHw n).map (·.lc) = some st ∨
        ((l.foldl (RM.writeOne o sched) s).1.findHw n).map (·.lc) = some st := by
  induction l with
  | nil => intro s _ _ m hm; cases hm
  | cons n t ih =>
    intro s I hnd m hm
    rw [List.nodup_cons] at hnd
    have I1 := (RM.writeOne_ok o sched s n I).inv
    have oth : ∀ k, k ≠ n → (RM.writeOne o sched s n).1.findHw k = s.1.findHw k := fun k hk =>
      (RM.fold_other (RM.writeOne o sched) (fun s n I => RM.writeOne_ok o sched s n I) [n] k (by simpa using hk) s I).2.1
    have fin : (List.foldl (RM.writeOne o sched) (RM.writeOne o sched s n) t).1.findHw n = (RM.writeOne o sched s n).1.findHw n :=
      (RM.fold_other (RM.writeOne o sched) (fun s n I => RM.writeOne_ok o sched s n I) t n hnd.1 _ I1).2.1
    have dom : ∀ k, (RM.writeOne o sched s n).1.findHw k ≠ none ↔ s.1.findHw k ≠ none := by
      intro k
      by_cases hk : k = n
      · subst hk
        cases hf : s.1.findHw k with
        | none => rw [(RM.writeOne_ok o sched s k I).skip hf]; simp [hf]
        | some h =>
          obtain ⟨h', fr⟩ := (RM.writeOne_ok o sched s k I).frame h hf
          obtain ⟨a, b⟩ := RM.findHw_some hf
          have hm' : h' ∈ (RM.writeOne o sched s k).1.comps := fr.mem a
          have := RM.findHw_of_mem I1.names hm'
          rw [fr.good.name, b] at this
          rw [this]; simp
      · rw [oth k hk]
    simp only [List.foldl_cons]
    simp only [writeMsgs] at hm
    have key : m = ({ cm with rm := (RM.writeOne o sched s n).1 } : CM).activityMsg ∨
        m ∈ cm.writeMsgs o sched t (RM.writeOne o sched s n) := by
      split at hm
      · exact List.mem_cons.1 hm
      · exact .inr hm
    rcases key with e | e
    · subst e
      refine ⟨rfl, ?_, ?_, ?_⟩
      · simpa [activityMsg, List.map_map, Function.comp_def] using I1.names
      · intro k
        rw [← dom k]
        simp only [activityMsg, List.map_map, Function.comp_def, List.mem_map]
        constructor
        · rintro ⟨h, h1, rfl⟩
          rw [RM.findHw_of_mem I1.names h1]; simp
        · intro h
          obtain ⟨x, hx⟩ := Option.ne_none_iff_exists'.1 h
          exact ⟨x, RM.findHw_some hx⟩
      · intro k st hk
        have hk2 := (mem_of_findHw I1.names k st).1 hk
        change ((RM.writeOne o sched s n).1.findHw k).map (·.lc) = some st at hk2
        by_cases e : k = n
        · subst e; right; rw [fin]; exact hk2
        · left; rw [← oth k e]; exact hk2
    · obtain ⟨a, b, c, d⟩ := ih _ I1 hnd.2 m e
      refine ⟨a, b, fun k => (c k).trans (dom k), fun k st hk => ?_⟩
      rcases d k st hk with h | h
      · by_cases e : k = n
        · subst e; right; rw [fin]; exact h
        · left; rw [← oth k e]; exact h
      · exact .inr h

theorem names_handleFailed (o : Oracle) (cm : CM) (due : Name → Bool) (I : Inv cm) :
    ((updateLoop o due cm.ctls cm [] .ok).1.handleFailed o (updateLoop o due cm.ctls cm [] .ok).2.1).ctls.map (·.name) =
      cm.ctls.map (·.name) := by
  have f1 : Fwd o Anybody cm (updateLoop o due cm.ctls cm [] .ok).1 := Fwd.updateLoop o _ due _ _ _ _
    (fun c hc => (find_iff I.topo.names).2 ⟨hc, rfl⟩)
  exact names_of_stat (f1.trans (Fwd.handleFailed o _ _ (f1.inv I.sys)).any).stat

end CM
end Verif
