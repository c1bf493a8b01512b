import Verif.RM.Ops
/-! # Read and write cycles preserve the invariant -/
namespace Verif
namespace RM

theorem frame_set {rm : RM} {h h' : Hw} {tr' : List Ev} (g : h.Good rm.tr h' tr') :
    Frame rm h h' { rm.setHw h' with tr := tr' } :=
  ⟨rfl, g, rfl, rfl, rfl, rfl, rfl, rfl, rfl, rfl, rfl, fun _ _ => Iff.rfl, fun _ _ => Iff.rfl,
   fun _ _ => rfl⟩

theorem groupUpdate_fields (rm : RM) (g : Option Name) (v : Ret) :
    (rm.groupUpdate g v).1.comps = rm.comps ∧ (rm.groupUpdate g v).1.tr = rm.tr ∧
    (rm.groupUpdate g v).1.stateKeys = rm.stateKeys ∧ (rm.groupUpdate g v).1.cmdKeys = rm.cmdKeys ∧
    (rm.groupUpdate g v).1.claimed = rm.claimed ∧ (rm.groupUpdate g v).1.expS = rm.expS ∧
    (rm.groupUpdate g v).1.expR = rm.expR ∧ (rm.groupUpdate g v).1.usedBy = rm.usedBy ∧
    (rm.groupUpdate g v).1.allowInactive = rm.allowInactive ∧
    (rm.groupUpdate g v).1.reportDeactivated = rm.reportDeactivated ∧
    (rm.groupUpdate g v).1.fault = rm.fault ∧
    (rm.groupUpdate g v).1.availS = rm.availS ∧ (rm.groupUpdate g v).1.availC = rm.availC := by
  cases g with
  | none => simp [groupUpdate]
  | some g => simp only [groupUpdate]; split <;> simp

theorem groupUpdate_other (rm : RM) (g : Option Name) (v : Ret) (x : Name) (hx : g ≠ some x) :
    (rm.groupUpdate g v).1.groupSt x = rm.groupSt x := by
  cases g with
  | none => rfl
  | some g =>
    simp only [groupUpdate]; split
    · simp; rw [upd_ne]; intro e; exact hx (by rw [e])
    · rfl

theorem groupUpdate_val (rm : RM) (g : Option Name) (v : Ret) (hv : v ≠ .ok) :
    (rm.groupUpdate g v).2 = v := by
  cases g with
  | none => rfl
  | some g => simp [groupUpdate, hv]

theorem frame_group {rm : RM} (hn : (rm.comps.map (·.name)).Nodup) {h : Hw} (hh : h ∈ rm.comps)
    (v : Ret) : Frame rm h h (rm.groupUpdate h.group v).1 := by
  obtain ⟨a1, a2, a3, a4, a5, a6, a7, a8, a9, a10, a11, a12, a13⟩ := groupUpdate_fields rm h.group v
  refine ⟨by rw [a1, setHw_self hn hh], by rw [a2]; exact Hw.Good.refl _ _, a3, a4, a5, a6, a7, a8, a9,
    a10, a11, fun _ _ => by rw [a12], fun _ _ => by rw [a13], fun g hg => groupUpdate_other _ _ _ _ hg⟩

theorem frame_removeAvail {rm : RM} (hn : (rm.comps.map (·.name)).Nodup) {h : Hw} (hh : h ∈ rm.comps) :
    Frame rm h h (rm.removeAvail h) :=
  ⟨(setHw_self hn hh).symm, Hw.Good.refl _ _, rfl, rfl, rfl, rfl, rfl, rfl, rfl, rfl, rfl,
   fun i hi => by simp [removeAvail, mem_removeItems_of_not_mem hi],
   fun i hi => by simp [removeAvail, mem_removeItems_of_not_mem hi], fun _ _ => rfl⟩

theorem read_state (o : Oracle) (tr : List Ev) (h : Hw) (hr : (h.read o tr).2.2 ≠ .ret .error) :
    (h.read o tr).1 = h := by
  revert hr
  unfold Hw.read
  split
  · split
    · intro hr; exact absurd rfl hr
    · intro _; rfl
  · intro _; rfl

theorem write_state (o : Oracle) (tr : List Ev) (h : Hw) (hr : (h.write o tr).2.2 ≠ .ret .error) :
    (h.write o tr).1 = h := by
  revert hr
  unfold Hw.write
  split
  · intro _; rfl
  split
  · split
    · intro hr; exact absurd rfl hr
    · intro _; rfl
  · intro _; rfl

/-- The I/O part common to both loops. -/
def ioPart (rm : RM) (h : Hw) (io : Hw × List Ev × IoAns) : RM × Ret :=
  let rm1 := { rm.setHw io.1 with tr := io.2.1 }
  match io.2.2 with
  | .throws => (rm1, Ret.error)
  | .ret r => rm1.groupUpdate h.group r

/-- Error handling common to both loops. -/
def failPart (o : Oracle) (rm : RM) (h h1 : Hw) : RM :=
  let e := h1.error o rm.tr
  ({ rm.setHw e.1 with tr := e.2 }).removeAvail h

theorem frame_ioPart {rm : RM} (hn : (rm.comps.map (·.name)).Nodup) {h : Hw} (hh : h ∈ rm.comps)
    {io : Hw × List Ev × IoAns} (g : h.Good rm.tr io.1 io.2.1) :
    Frame rm h io.1 (rm.ioPart h io).1 := by
  have f1 := frame_set g
  unfold ioPart
  split
  · exact f1
  · refine f1.trans ?_
    have hg : io.1.group = h.group := by rw [g.frame]
    rw [← hg]
    refine frame_group ?_ (f1.mem hh) _
    show ((rm.setHw io.1).comps.map _).Nodup
    rw [setHw_names]; exact hn

theorem frame_failPart (o : Oracle) {rm : RM} (hn : (rm.comps.map (·.name)).Nodup) {h h1 : Hw}
    (hh : h1 ∈ rm.comps) (g : h1 = { h with lc := h1.lc }) :
    Frame rm h1 (h1.error o rm.tr).1 (rm.failPart o h h1) := by
  unfold failPart
  have ge := Hw.good_error o rm.tr h1
  have f1 := frame_set ge
  refine f1.trans ?_
  have hn' : ((rm.setHw (h1.error o rm.tr).1).comps.map (·.name)).Nodup := by rw [setHw_names]; exact hn
  have e : ∀ x : RM, x.removeAvail h = x.removeAvail (h1.error o rm.tr).1 := by
    intro x
    rw [ge.frame, g]; rfl
  simp only [e]
  refine frame_removeAvail ?_ (f1.mem hh)
  exact hn'

theorem inv_failPart (o : Oracle) {rm rm' : RM} (I : rm.Inv) {h h1 : Hw} (hh : h ∈ rm.comps)
    (f : Frame rm h h1 rm') (nS : rm'.availS.Nodup) (nC : rm'.availC.Nodup) :
    (rm'.failPart o h h1).Inv ∧ Frame rm h (h1.error o rm'.tr).1 (rm'.failPart o h h1) := by
  have hn : (rm'.comps.map (·.name)).Nodup := by rw [f.comps, setHw_names]; exact I.names
  have ff := f.trans (frame_failPart o hn (f.mem hh) f.good.frame)
  refine ⟨I.frame hh ff ?_ ?_ ?_ ?_, ff⟩
  · exact nodup_removeItems nS
  · exact nodup_removeItems nC
  · intro hc; exact absurd hc (Hw.error_not_conf o _ _)
  · intro _ _
    constructor <;> intro i hi <;> simp [failPart, removeAvail, setHw, mem_removeItems, nS, nC, hi]

theorem ioPart_avail (rm : RM) (h : Hw) (io : Hw × List Ev × IoAns) :
    (rm.ioPart h io).1.availS = rm.availS ∧ (rm.ioPart h io).1.availC = rm.availC := by
  unfold ioPart; split
  · exact ⟨rfl, rfl⟩
  · have := groupUpdate_fields { rm.setHw io.1 with tr := io.2.1 } h.group ‹_›
    exact ⟨this.2.2.2.2.2.2.2.2.2.2.2.1, this.2.2.2.2.2.2.2.2.2.2.2.2⟩

theorem ioPart_ne_error {rm : RM} {h : Hw} {io : Hw × List Ev × IoAns} (hne : (rm.ioPart h io).2 ≠ .error) :
    io.2.2 ≠ .ret .error := by
  intro e
  apply hne
  unfold ioPart; rw [e]
  exact groupUpdate_val _ _ _ (by simp)

theorem inv_ioPart {rm : RM} (I : rm.Inv) {h : Hw} (hh : h ∈ rm.comps) {tr' : List Ev} {a : IoAns}
    (g : h.Good rm.tr h tr') : (rm.ioPart h (h, tr', a)).1.Inv := by
  have f := frame_ioPart (io := (h, tr', a)) I.names hh g
  obtain ⟨e1, e2⟩ := ioPart_avail rm h (h, tr', a)
  refine I.frame hh f (by rw [e1]; exact I.nodS) (by rw [e2]; exact I.nodC) ?_ ?_
  · intro hc; rw [e1, e2]; exact I.conf h hh hc
  · intro hc hb; rw [e1, e2]
    exact I.noBad hh f.good hc hb

/-- What one iteration of a loop does to the resource manager. -/
structure IterOk (s : RM × Status) (n : Name) (r : RM × Status) : Prop where
  inv : r.1.Inv
  skip : s.1.findHw n = none → r = s
  frame : ∀ h, s.1.findHw n = some h → ∃ h', Frame s.1 h h' r.1

theorem readOne_eq (o : Oracle) (sched : Name → Sched) (s : RM × Status) (n : Name) {h : Hw}
    (hf : s.1.findHw n = some h) (hl : sched n ≠ .locked) :
    readOne o sched s n =
      (let io : Hw × List Ev × IoAns := if sched n = .run then h.read o s.1.tr else (h, s.1.tr, .ret .ok)
       let g := s.1.ioPart h io
       if g.2 ≠ .ok then (g.1.failPart o h io.1, { result := .error, failed := s.2.failed ++ [n] })
       else (g.1, s.2)) := by
  unfold readOne
  simp only [hf]
  rw [if_neg hl]
  rfl

theorem writeOne_eq (o : Oracle) (sched : Name → Sched) (s : RM × Status) (n : Name) {h : Hw}
    (hf : s.1.findHw n = some h) (hl : sched n ≠ .locked) :
    writeOne o sched s n =
      (let io : Hw × List Ev × IoAns := if sched n = .run then h.write o s.1.tr else (h, s.1.tr, .ret .ok)
       let g := s.1.ioPart h io
       match g.2 with
       | .error => (g.1.failPart o h io.1, { result := .error, failed := s.2.failed ++ [n] })
       | .deactivate =>
          ((g.1.setComponentState o n .inactive).1,
            { result := .deactivate,
              failed := if s.1.reportDeactivated then s.2.failed ++ [n] else s.2.failed })
       | .ok => (g.1, s.2)) := by
  unfold writeOne
  simp only [hf]
  rw [if_neg hl]
  rfl

theorem readOne_ok (o : Oracle) (sched : Name → Sched) (s : RM × Status) (n : Name) (I : s.1.Inv) :
    IterOk s n (readOne o sched s n) := by
  cases hf : s.1.findHw n with
  | none =>
    have : readOne o sched s n = s := by unfold readOne; rw [hf]
    rw [this]
    exact ⟨I, fun _ => rfl, fun h e => absurd e (by rw [hf]; simp)⟩
  | some h =>
    obtain ⟨hh, hn⟩ := findHw_some hf
    by_cases hl : sched n = .locked
    · have : readOne o sched s n = s := by unfold readOne; rw [hf]; simp [hl]
      rw [this]
      exact ⟨I, fun _ => rfl, fun h' e => by
        rw [hf] at e; cases e; exact ⟨h, Frame.refl I.names hh⟩⟩
    · rw [readOne_eq o sched s n hf hl]
      dsimp only
      generalize hio : (if sched n = .run then h.read o s.1.tr else (h, s.1.tr, IoAns.ret .ok)) = io
      have g : h.Good s.1.tr io.1 io.2.1 := by
        subst hio; split
        · exact Hw.good_read o _ _
        · exact Hw.Good.refl _ _
      have hst : io.2.2 ≠ .ret .error → io.1 = h := by
        subst hio; split
        · exact read_state o _ _
        · intro _; rfl
      have fr := frame_ioPart I.names hh g
      obtain ⟨e1, e2⟩ := ioPart_avail s.1 h io
      split
      · have := inv_failPart o I hh fr (by rw [e1]; exact I.nodS) (by rw [e2]; exact I.nodC)
        exact ⟨this.1, fun e => absurd e (by rw [hf]; simp), fun h' e => by
          rw [hf] at e; cases e; exact ⟨_, this.2⟩⟩
      · rename_i hg
        have hne : (s.1.ioPart h io).2 ≠ .error := by
          intro e; apply hg; rw [e]; simp
        have he := hst (ioPart_ne_error hne)
        obtain ⟨i1, i2, i3⟩ := io
        simp only at he
        subst he
        refine ⟨inv_ioPart I hh g, fun e => absurd e (by rw [hf]; simp), fun h' e => ?_⟩
        rw [hf] at e; cases e; exact ⟨_, fr⟩

theorem writeOne_ok (o : Oracle) (sched : Name → Sched) (s : RM × Status) (n : Name) (I : s.1.Inv) :
    IterOk s n (writeOne o sched s n) := by
  cases hf : s.1.findHw n with
  | none =>
    have : writeOne o sched s n = s := by unfold writeOne; rw [hf]
    rw [this]
    exact ⟨I, fun _ => rfl, fun h e => absurd e (by rw [hf]; simp)⟩
  | some h =>
    obtain ⟨hh, hn⟩ := findHw_some hf
    by_cases hl : sched n = .locked
    · have : writeOne o sched s n = s := by unfold writeOne; rw [hf]; simp [hl]
      rw [this]
      exact ⟨I, fun _ => rfl, fun h' e => by
        rw [hf] at e; cases e; exact ⟨h, Frame.refl I.names hh⟩⟩
    · rw [writeOne_eq o sched s n hf hl]
      dsimp only
      generalize hio : (if sched n = .run then h.write o s.1.tr else (h, s.1.tr, IoAns.ret .ok)) = io
      have g : h.Good s.1.tr io.1 io.2.1 := by
        subst hio; split
        · exact Hw.good_write o _ _
        · exact Hw.Good.refl _ _
      have hst : io.2.2 ≠ .ret .error → io.1 = h := by
        subst hio; split
        · exact write_state o _ _
        · intro _; rfl
      have fr := frame_ioPart I.names hh g
      obtain ⟨e1, e2⟩ := ioPart_avail s.1 h io
      split
      · have := inv_failPart o I hh fr (by rw [e1]; exact I.nodS) (by rw [e2]; exact I.nodC)
        exact ⟨this.1, fun e => absurd e (by rw [hf]; simp), fun h' e => by
          rw [hf] at e; cases e; exact ⟨_, this.2⟩⟩
      · rename_i hg
        have hne : (s.1.ioPart h io).2 ≠ .error := by rw [hg]; simp
        have he := hst (ioPart_ne_error hne)
        obtain ⟨i1, i2, i3⟩ := io
        simp only at he
        subst he
        have I2 := inv_ioPart (a := i3) I hh g
        refine ⟨inv_setComponentState o I2 n _, fun e => absurd e (by rw [hf]; simp), fun h' e => ?_⟩
        rw [hf] at e; cases e
        have hm := fr.mem hh
        have hfi : (s.1.ioPart i1 (i1, i2, i3)).1.findHw n = some i1 := by
          rw [← hn]; exact findHw_of_mem I2.names hm
        unfold setComponentState
        simp only [hfi]
        exact ⟨_, fr.trans (setHwState_ok o I2 hm .inactive).frame⟩
      · rename_i hg
        have hne : (s.1.ioPart h io).2 ≠ .error := by rw [hg]; simp
        have he := hst (ioPart_ne_error hne)
        obtain ⟨i1, i2, i3⟩ := io
        simp only at he
        subst he
        refine ⟨inv_ioPart I hh g, fun e => absurd e (by rw [hf]; simp), fun h' e => ?_⟩
        rw [hf] at e; cases e; exact ⟨_, fr⟩

theorem inv_read (o : Oracle) (sched : Name → Sched) {rm : RM} (I : rm.Inv) : (rm.read o sched).1.Inv :=
  foldl_inv (fun s : RM × Status => s.1.Inv) _ _ _ I (fun s n _ h => (readOne_ok o sched s n h).inv)

theorem inv_write (o : Oracle) (sched : Name → Sched) {rm : RM} (I : rm.Inv) : (rm.write o sched).1.Inv :=
  foldl_inv (fun s : RM × Status => s.1.Inv) _ _ _ I (fun s n _ h => (writeOne_ok o sched s n h).inv)

end RM
end Verif
