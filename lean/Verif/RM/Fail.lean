import Verif.RM.Run
/-! # What exactly one iteration of the read / write loop does -/
namespace Verif
namespace RM

/-- Answer obtained from the component in this iteration. -/
def readAns (o : Oracle) (sched : Name → Sched) (rm : RM) (h : Hw) : IoAns :=
  if sched h.name = .run then (h.read o rm.tr).2.2 else .ret .ok

def writeAns (o : Oracle) (sched : Name → Sched) (rm : RM) (h : Hw) : IoAns :=
  if sched h.name = .run then (h.write o rm.tr).2.2 else .ret .ok

theorem error_ext (o : Oracle) (tr : List Ev) (h : Hw) :
    ∃ es, (h.error o tr).2 = es ++ tr ∧ ∀ e ∈ es, ∃ a, e = Ev.hwErr h.name a := by
  unfold Hw.error
  split
  · split
    · exact ⟨[_], rfl, by simp⟩
    · exact ⟨[_], rfl, by simp⟩
    · exact ⟨[_], rfl, by simp⟩
  · exact ⟨[], rfl, by simp⟩

/-- Events of a `read` call: the only I/O event is the answer obtained. -/
theorem read_events (o : Oracle) (tr : List Ev) (h : Hw) :
    ∃ es, (h.read o tr).2.1 = es ++ tr ∧
      ∀ m io a, Ev.hwIo m io a ∈ es → m = h.name ∧ io = .read ∧ a = (h.read o tr).2.2 := by
  unfold Hw.read
  split
  · split
    · obtain ⟨es, e1, e2⟩ := error_ext o (.hwIo h.name .read (.ret .error) :: tr) h
      refine ⟨es ++ [.hwIo h.name .read (.ret .error)], by simp [e1], ?_⟩
      intro m io a hm
      rcases List.mem_append.1 hm with hm | hm
      · obtain ⟨b, hb⟩ := e2 _ hm; cases hb
      · simp at hm; exact hm
    · refine ⟨[.hwIo h.name .read (o.hwIo tr h.name .read)], rfl, ?_⟩
      intro m io a hm; simp at hm; exact hm
  · exact ⟨[], rfl, by simp⟩

theorem write_events (o : Oracle) (tr : List Ev) (h : Hw) :
    ∃ es, (h.write o tr).2.1 = es ++ tr ∧
      ∀ m io a, Ev.hwIo m io a ∈ es → m = h.name ∧ io = .write ∧ a = (h.write o tr).2.2 := by
  unfold Hw.write
  split
  · exact ⟨[], rfl, by simp⟩
  split
  · split
    · obtain ⟨es, e1, e2⟩ := error_ext o (.hwIo h.name .write (.ret .error) :: tr) h
      refine ⟨es ++ [.hwIo h.name .write (.ret .error)], by simp [e1], ?_⟩
      intro m io a hm
      rcases List.mem_append.1 hm with hm | hm
      · obtain ⟨b, hb⟩ := e2 _ hm; cases hb
      · simp at hm; exact hm
    · refine ⟨[.hwIo h.name .write (o.hwIo tr h.name .write)], rfl, ?_⟩
      intro m io a hm; simp at hm; exact hm
  · exact ⟨[], rfl, by simp⟩

/-- Trace of the I/O part. -/
theorem ioPart_tr (rm : RM) (h : Hw) (io : Hw × List Ev × IoAns) : (rm.ioPart h io).1.tr = io.2.1 := by
  unfold ioPart; split
  · rfl
  · exact (groupUpdate_fields _ _ _).2.1

theorem ioPart_group_none {rm : RM} {h : Hw} {io : Hw × List Ev × IoAns} (hg : h.group = none) :
    (rm.ioPart h io).2 = (match io.2.2 with | .throws => .error | .ret r => r) := by
  unfold ioPart; split <;> simp_all [groupUpdate]

theorem ioPart_ok_iff (rm : RM) (h : Hw) (io : Hw × List Ev × IoAns) :
    (rm.ioPart h io).2 = .ok ↔ io.2.2 = .ret .ok ∧ (∀ g, h.group = some g → rm.groupSt g = .ok) := by
  unfold ioPart
  split
  · simp_all
  · rename_i r hr
    rw [hr]
    cases hg : h.group with
    | none => simp [groupUpdate]
    | some g =>
      by_cases hv : r = .ok
      · subst hv; simp [groupUpdate, setHw]
      · simp [groupUpdate, hv]

theorem ioPart_groupSt (rm : RM) (h : Hw) (io : Hw × List Ev × IoAns) :
    (∀ g, rm.groupSt g ≠ .ok → (rm.ioPart h io).1.groupSt g ≠ .ok) ∧
    (∀ g r, h.group = some g → io.2.2 = .ret r → r ≠ .ok → (rm.ioPart h io).1.groupSt g = r) ∧
    (io.2.2 = .ret .ok → (rm.ioPart h io).1.groupSt = rm.groupSt) := by
  unfold ioPart
  split
  · refine ⟨fun g h => h, by simp_all, by simp_all⟩
  · rename_i r hr
    rw [hr]
    cases hg : h.group with
    | none => refine ⟨fun g h => h, by simp, fun _ => rfl⟩
    | some g =>
      refine ⟨?_, ?_, ?_⟩
      · intro g' hg'
        by_cases hv : r = .ok
        · subst hv; simpa [groupUpdate, setHw] using hg'
        · simp only [groupUpdate, ne_eq, hv, not_false_eq_true, if_true, setHw, upd_apply]
          split
          · exact hv
          · exact hg'
      · intro g' r' h1 h2 h3
        cases h1; cases h2
        simp [groupUpdate, h3]
      · intro h1; cases h1; simp [groupUpdate, setHw]

/-- Everything about one iteration of the read loop. -/
structure ReadIter (o : Oracle) (sched : Name → Sched) (s : RM × Status) (n : Name) (h : Hw)
    (r : RM × Status) : Prop where
  ev : ∃ es, r.1.tr = es ++ s.1.tr ∧
    ∀ m io a, Ev.hwIo m io a ∈ es → m = n ∧ io = .read ∧ a = readAns o sched s.1 h
  fail : sched n ≠ .locked →
    (readAns o sched s.1 h ≠ .ret .ok ∨ ∃ g, h.group = some g ∧ s.1.groupSt g ≠ .ok) →
    r.2 = { result := .error, failed := s.2.failed ++ [n] } ∧
    ∃ h', Frame s.1 h h' r.1 ∧ ¬ h'.Conf ∧
      (∀ i ∈ h.stateItfs, i ∉ r.1.availS) ∧ (∀ i ∈ h.cmdItfs, i ∉ r.1.availC)
  good : (sched n = .locked ∨
    (readAns o sched s.1 h = .ret .ok ∧ ∀ g, h.group = some g → s.1.groupSt g = .ok)) →
    r.2 = s.2 ∧ Frame s.1 h h r.1 ∧ r.1.groupSt = s.1.groupSt ∧ r.1.availS = s.1.availS ∧
    r.1.availC = s.1.availC
  groupKeep : ∀ g, s.1.groupSt g ≠ .ok → r.1.groupSt g ≠ .ok
  groupSet : sched n ≠ .locked → ∀ g x, h.group = some g → readAns o sched s.1 h = .ret x → x ≠ .ok →
    r.1.groupSt g = x

theorem readIter (o : Oracle) (sched : Name → Sched) (s : RM × Status) (n : Name) (I : s.1.Inv) {h : Hw}
    (hf : s.1.findHw n = some h) : ReadIter o sched s n h (readOne o sched s n) := by
  obtain ⟨hh, hn⟩ := findHw_some hf
  by_cases hl : sched n = .locked
  · have : readOne o sched s n = s := by unfold readOne; rw [hf]; simp [hl]
    rw [this]
    exact ⟨⟨[], rfl, by simp⟩, fun h => absurd hl h,
      fun _ => ⟨rfl, Frame.refl I.names hh, rfl, rfl, rfl⟩, fun _ h => h, fun h => absurd hl h⟩
  · rw [readOne_eq o sched s n hf hl]
    dsimp only
    have hans : readAns o sched s.1 h =
        (if sched n = .run then h.read o s.1.tr else (h, s.1.tr, IoAns.ret .ok)).2.2 := by
      unfold readAns; rw [hn]; split <;> rfl
    rw [← hn] at *
    generalize hio : (if sched h.name = .run then h.read o s.1.tr else (h, s.1.tr, IoAns.ret .ok)) = io at *
    have g : h.Good s.1.tr io.1 io.2.1 := by
      subst hio; split
      · exact Hw.good_read o _ _
      · exact Hw.Good.refl _ _
    have hst : io.2.2 ≠ .ret .error → io.1 = h := by
      subst hio; split
      · exact read_state o _ _
      · intro _; rfl
    have hev : ∃ es, io.2.1 = es ++ s.1.tr ∧
        ∀ m i a, Ev.hwIo m i a ∈ es → m = h.name ∧ i = .read ∧ a = io.2.2 := by
      subst hio; split
      · exact read_events o _ _
      · exact ⟨[], rfl, by simp⟩
    have fr := frame_ioPart I.names hh g
    obtain ⟨e1, e2⟩ := ioPart_avail s.1 h io
    obtain ⟨es, ev1, ev2⟩ := hev
    obtain ⟨gk, gs, go⟩ := ioPart_groupSt s.1 h io
    have hokiff := ioPart_ok_iff s.1 h io
    by_cases hg : (s.1.ioPart h io).2 = .ok
    · rw [if_neg (by simp [hg])]
      have ho := hokiff.1 hg
      have he := hst (by rw [ho.1]; simp)
      refine ⟨⟨es, by rw [ioPart_tr, ev1], ?_⟩, ?_, ?_, gk, ?_⟩
      · intro m i a hm; rw [hans]; exact ev2 m i a hm
      · intro _ hbad
        rw [hans] at hbad
        rcases hbad with hb | ⟨g', hb1, hb2⟩
        · exact absurd ho.1 hb
        · exact absurd (ho.2 g' hb1) hb2
      · intro _
        refine ⟨rfl, by rw [he] at fr; exact fr, go ho.1, e1, e2⟩
      · intro _ g' x h1 h2 h3
        rw [hans] at h2; exact gs g' x h1 h2 h3
    · rw [if_pos hg]
      have fp := inv_failPart o I hh fr (by rw [e1]; exact I.nodS) (by rw [e2]; exact I.nodC)
      obtain ⟨es', f1, f2⟩ := error_ext o (s.1.ioPart h io).1.tr io.1
      have hgrp : ((s.1.ioPart h io).1.failPart o h io.1).groupSt = (s.1.ioPart h io).1.groupSt := rfl
      refine ⟨⟨es' ++ es, ?_, ?_⟩, ?_, ?_, ?_, ?_⟩
      · show (Hw.error o (s.1.ioPart h io).1.tr io.1).2 = _
        rw [f1, ioPart_tr, ev1, List.append_assoc]
      · intro m i a hm
        rcases List.mem_append.1 hm with hm | hm
        · obtain ⟨b, hb⟩ := f2 _ hm; cases hb
        · rw [hans]; exact ev2 m i a hm
      · intro _ _
        refine ⟨rfl, _, fp.2, Hw.error_not_conf o _ _, ?_, ?_⟩
        · intro i hi
          simp [failPart, removeAvail, setHw, mem_removeItems, e1, I.nodS, hi]
        · intro i hi
          simp [failPart, removeAvail, setHw, mem_removeItems, e2, I.nodC, hi]
      · intro hgood
        exfalso
        rcases hgood with hb | ⟨hb1, hb2⟩
        · exact hl hb
        · rw [hans] at hb1; exact hg (hokiff.2 ⟨hb1, hb2⟩)
      · intro g' hg'; rw [hgrp]; exact gk g' hg'
      · intro _ g' x h1 h2 h3; rw [hgrp]; rw [hans] at h2; exact gs g' x h1 h2 h3

/-- Effect of a loop on a component it does not visit. -/
theorem fold_other (f : RM × Status → Name → RM × Status) (hf : ∀ s n, s.1.Inv → IterOk s n (f s n))
    (l : List Name) (n : Name) (hn : n ∉ l) (s : RM × Status) (I : s.1.Inv) :
    (l.foldl f s).1.Inv ∧ (l.foldl f s).1.findHw n = s.1.findHw n ∧
    (∃ es, (l.foldl f s).1.tr = es ++ s.1.tr ∧ ∀ e ∈ es, e.hwName ≠ some n) ∧
    (∀ h, s.1.findHw n = some h →
      (∀ i ∈ h.stateItfs, i ∈ (l.foldl f s).1.availS ↔ i ∈ s.1.availS) ∧
      (∀ i ∈ h.cmdItfs, i ∈ (l.foldl f s).1.availC ↔ i ∈ s.1.availC)) := by
  induction l generalizing s with
  | nil => exact ⟨I, rfl, ⟨[], rfl, by simp⟩, fun h _ => ⟨fun _ _ => Iff.rfl, fun _ _ => Iff.rfl⟩⟩
  | cons m t ih =>
    simp only [List.mem_cons, not_or] at hn
    have k := hf s m I
    obtain ⟨a1, a2, ⟨es, a3, a4⟩, a5⟩ := ih hn.2 (f s m) k.inv
    simp only [List.foldl_cons]
    cases hm : s.1.findHw m with
    | none =>
      have := k.skip hm
      rw [this] at a1 a2 a3 a5 ⊢
      exact ⟨a1, a2, ⟨es, a3, a4⟩, a5⟩
    | some h0 =>
      obtain ⟨h1, fr⟩ := k.frame h0 hm
      obtain ⟨hm1, hm2⟩ := findHw_some hm
      have hfind : (f s m).1.findHw n = s.1.findHw n := by
        cases hfn : s.1.findHw n with
        | some c =>
          obtain ⟨c1, c2⟩ := findHw_some hfn
          have : c ∈ (f s m).1.comps := by
            rw [fr.comps]; exact setHw_mem_other c1 (by rw [fr.good.name, hm2, c2]; exact hn.1)
          rw [← c2]; exact findHw_of_mem k.inv.names this
        | none =>
          cases hfn' : (f s m).1.findHw n with
          | none => rfl
          | some c =>
            obtain ⟨c1, c2⟩ := findHw_some hfn'
            rw [fr.comps] at c1
            rcases mem_setHw c1 with rfl | ⟨c1, _⟩
            · exact absurd (by rw [← c2, fr.good.name, hm2]) hn.1
            · rw [← c2, findHw_of_mem I.names c1] at hfn; cases hfn
      obtain ⟨es', b1, b2⟩ := fr.good.ext
      refine ⟨a1, by rw [a2, hfind], ⟨es ++ es', by rw [a3, b1, List.append_assoc], ?_⟩, ?_⟩
      · intro e he
        rcases List.mem_append.1 he with he | he
        · exact a4 e he
        · rw [b2 e he, hm2]; simp; exact fun h => hn.1 h.symm
      · intro h hfn
        obtain ⟨c1, c2⟩ := a5 h (by rw [hfind]; exact hfn)
        obtain ⟨d1, d2⟩ := findHw_some hfn
        have hne : h.name ≠ h0.name := by rw [d2, hm2]; exact hn.1
        refine ⟨fun i hi => ?_, fun i hi => ?_⟩
        · rw [c1 i hi, fr.keepS i]
          intro hi'
          have := I.uniS i (.hw h.name) (.hw h0.name) ⟨h, d1, rfl, hi⟩ ⟨h0, hm1, rfl, hi'⟩
          simp at this; exact hne this
        · rw [c2 i hi, fr.keepC i]
          intro hi'
          have := I.uniC i (.hw h.name) (.hw h0.name) ⟨h, d1, rfl, hi⟩ ⟨h0, hm1, rfl, hi'⟩
          simp at this; exact hne this

theorem fold_inv_names (f : RM × Status → Name → RM × Status) (hf : ∀ s n, s.1.Inv → IterOk s n (f s n))
    (l : List Name) (s : RM × Status) (I : s.1.Inv) : (l.foldl f s).1.Inv :=
  foldl_inv (fun s : RM × Status => s.1.Inv) _ _ _ I (fun s n _ h => (hf s n h).inv)

theorem ofKind_nodup {rm : RM} (I : rm.Inv) (k : HwKind) : (rm.ofKind k).Nodup := by
  unfold ofKind
  exact (List.Sublist.map _ List.filter_sublist).nodup I.names

theorem mem_ofKind {rm : RM} {k : HwKind} {n : Name} :
    n ∈ rm.ofKind k ↔ ∃ h ∈ rm.comps, h.kind = k ∧ h.name = n := by
  simp [ofKind, and_assoc]

theorem ofKind_disj {rm : RM} (I : rm.Inv) {k k' : HwKind} (hk : k ≠ k') :
    List.Disjoint (rm.ofKind k) (rm.ofKind k') := by
  intro n h1 h2
  obtain ⟨a, a1, a2, a3⟩ := mem_ofKind.1 h1
  obtain ⟨b, b1, b2, b3⟩ := mem_ofKind.1 h2
  have := eq_of_name I.names a1 b1 (by rw [a3, b3])
  subst this; exact hk (a2.symm.trans b2)

theorem readOrder_nodup {rm : RM} (I : rm.Inv) : rm.readOrder.Nodup := by
  unfold readOrder
  rw [List.nodup_append', List.nodup_append']
  refine ⟨⟨ofKind_nodup I _, ofKind_nodup I _, ofKind_disj I (by simp)⟩, ofKind_nodup I _, ?_⟩
  intro n h1 h2
  rcases List.mem_append.1 h1 with h1 | h1
  · exact ofKind_disj I (by simp) h1 h2
  · exact ofKind_disj I (by simp) h1 h2

theorem writeOrder_nodup {rm : RM} (I : rm.Inv) : rm.writeOrder.Nodup := by
  unfold writeOrder
  rw [List.nodup_append']
  exact ⟨ofKind_nodup I _, ofKind_nodup I _, ofKind_disj I (by simp)⟩

theorem mem_readOrder {rm : RM} {n : Name} : n ∈ rm.readOrder ↔ ∃ h ∈ rm.comps, h.name = n := by
  unfold readOrder
  simp only [List.mem_append, mem_ofKind]
  constructor
  · rintro ((⟨h, a, _, b⟩ | ⟨h, a, _, b⟩) | ⟨h, a, _, b⟩) <;> exact ⟨h, a, b⟩
  · rintro ⟨h, a, b⟩
    cases hk : h.kind
    · exact Or.inl (Or.inl ⟨h, a, hk, b⟩)
    · exact Or.inl (Or.inr ⟨h, a, hk, b⟩)
    · exact Or.inr ⟨h, a, hk, b⟩

theorem mem_writeOrder {rm : RM} {n : Name} :
    n ∈ rm.writeOrder ↔ ∃ h ∈ rm.comps, h.kind ≠ .sensor ∧ h.name = n := by
  unfold writeOrder
  simp only [List.mem_append, mem_ofKind]
  constructor
  · rintro (⟨h, a, c, b⟩ | ⟨h, a, c, b⟩) <;> exact ⟨h, a, by simp [c], b⟩
  · rintro ⟨h, a, c, b⟩
    cases hk : h.kind
    · exact Or.inl ⟨h, a, hk, b⟩
    · exact absurd hk c
    · exact Or.inr ⟨h, a, hk, b⟩

/-- Status of the read loop only gets worse. -/
theorem readOne_status (o : Oracle) (sched : Name → Sched) (s : RM × Status) (n : Name) :
    (readOne o sched s n).2 = s.2 ∨
    (readOne o sched s n).2 = { result := .error, failed := s.2.failed ++ [n] } := by
  cases hf : s.1.findHw n with
  | none => left; unfold readOne; rw [hf]
  | some h =>
    by_cases hl : sched n = .locked
    · left; unfold readOne; rw [hf]; simp [hl]
    · rw [readOne_eq o sched s n hf hl]
      dsimp only
      generalize (if sched n = .run then h.read o s.1.tr else (h, s.1.tr, IoAns.ret .ok)) = io
      split
      · right; rfl
      · left; rfl

theorem readFold_status (o : Oracle) (sched : Name → Sched) (l : List Name) (s : RM × Status) :
    (s.2.result = .error → (l.foldl (readOne o sched) s).2.result = .error) ∧
    (∀ n ∈ s.2.failed, n ∈ (l.foldl (readOne o sched) s).2.failed) ∧
    (∀ n ∈ (l.foldl (readOne o sched) s).2.failed, n ∈ s.2.failed ∨ n ∈ l) ∧
    ((l.foldl (readOne o sched) s).2.result = s.2.result ∧ (l.foldl (readOne o sched) s).2.failed = s.2.failed ∨
      (l.foldl (readOne o sched) s).2.result = .error ∧ (l.foldl (readOne o sched) s).2.failed ≠ []) := by
  induction l generalizing s with
  | nil => exact ⟨id, fun _ h => h, fun _ h => Or.inl h, Or.inl ⟨rfl, rfl⟩⟩
  | cons m t ih =>
    simp only [List.foldl_cons]
    obtain ⟨a, b, c, d⟩ := ih (readOne o sched s m)
    rcases readOne_status o sched s m with e | e
    · rw [e] at a b c d
      exact ⟨a, b, fun n hn => (c n hn).imp id (fun h => by simp [h]), d⟩
    · rw [e] at a b c d
      refine ⟨fun _ => a rfl, fun n hn => b n (by simp [hn]), fun n hn => ?_, ?_⟩
      · rcases c n hn with h | h
        · simp at h; rcases h with h | h
          · exact Or.inl h
          · exact Or.inr (by simp [h])
        · exact Or.inr (by simp [h])
      · right
        refine ⟨a rfl, ?_⟩
        intro hnil
        have := b m (by simp)
        rw [hnil] at this; simp at this

/-! ## The write loop -/

/-- Extension of the trace without any `read`/`write` event. -/
def NoIo (tr tr' : List Ev) : Prop := ∃ es, tr' = es ++ tr ∧ ∀ m io a, Ev.hwIo m io a ∉ es

theorem NoIo.refl (tr : List Ev) : NoIo tr tr := ⟨[], rfl, by simp⟩

theorem NoIo.trans {a b c : List Ev} (h : NoIo a b) (h' : NoIo b c) : NoIo a c := by
  obtain ⟨x, x1, x2⟩ := h
  obtain ⟨y, y1, y2⟩ := h'
  refine ⟨y ++ x, by rw [y1, x1, List.append_assoc], ?_⟩
  intro m io a hm
  rcases List.mem_append.1 hm with hm | hm
  · exact y2 m io a hm
  · exact x2 m io a hm

theorem NoIo.cb (tr : List Ev) (n : Name) (cb : HwCb) (a : CbAns) : NoIo tr (.hwCb n cb a :: tr) :=
  ⟨[_], rfl, by simp⟩

theorem noIo_error (o : Oracle) (tr : List Ev) (h : Hw) : NoIo tr (h.error o tr).2 := by
  obtain ⟨es, e1, e2⟩ := error_ext o tr h
  refine ⟨es, e1, ?_⟩
  intro m io a hm
  obtain ⟨b, hb⟩ := e2 _ hm; cases hb

theorem noIo_configure (o : Oracle) (tr : List Ev) (h : Hw) : NoIo tr (h.configure o tr).2 := by
  unfold Hw.configure
  split
  · split
    all_goals first
      | exact NoIo.cb _ _ _ _
      | exact (NoIo.cb _ _ _ _).trans (noIo_error o _ _)
  · exact NoIo.refl _

theorem noIo_deactivate (o : Oracle) (tr : List Ev) (h : Hw) : NoIo tr (h.deactivate o tr).2 := by
  unfold Hw.deactivate
  split
  · split
    all_goals first
      | exact NoIo.cb _ _ _ _
      | exact (NoIo.cb _ _ _ _).trans (noIo_error o _ _)
  · exact NoIo.refl _

theorem noIo_setInactive (o : Oracle) (rm : RM) (h : Hw) :
    NoIo rm.tr (rm.setHwState o h .inactive).1.tr := by
  unfold setHwState
  split <;> first
    | exact NoIo.refl _
    | (simp only [deactivateHw]; exact noIo_deactivate o _ _)
    | (simp only [configureHw]; simp; split <;> exact noIo_configure o _ _)
    | simp_all

/-- Everything about one iteration of the write loop. -/
structure WriteIter (o : Oracle) (sched : Name → Sched) (s : RM × Status) (n : Name) (h : Hw)
    (r : RM × Status) : Prop where
  ev : ∃ es, r.1.tr = es ++ s.1.tr ∧
    ∀ m io a, Ev.hwIo m io a ∈ es → m = n ∧ io = .write ∧ a = writeAns o sched s.1 h
  fail : sched n ≠ .locked →
    (writeAns o sched s.1 h = .ret .error ∨ writeAns o sched s.1 h = .throws ∨
      (writeAns o sched s.1 h = .ret .ok ∧ ∃ g, h.group = some g ∧ s.1.groupSt g = .error)) →
    r.2 = { result := .error, failed := s.2.failed ++ [n] } ∧
    ∃ h', Frame s.1 h h' r.1 ∧ ¬ h'.Conf ∧
      (∀ i ∈ h.stateItfs, i ∉ r.1.availS) ∧ (∀ i ∈ h.cmdItfs, i ∉ r.1.availC)
  deact : sched n ≠ .locked → writeAns o sched s.1 h = .ret .deactivate →
    r.2 = { result := .deactivate,
            failed := if s.1.reportDeactivated then s.2.failed ++ [n] else s.2.failed } ∧
    ∃ h' tr', Frame s.1 h h' r.1 ∧ h' = (h.deactivate o tr').1
  good : (sched n = .locked ∨
    (writeAns o sched s.1 h = .ret .ok ∧ ∀ g, h.group = some g → s.1.groupSt g = .ok)) →
    r.2 = s.2 ∧ Frame s.1 h h r.1 ∧ r.1.groupSt = s.1.groupSt ∧ r.1.availS = s.1.availS ∧
    r.1.availC = s.1.availC

theorem ioPart_error_iff (rm : RM) (h : Hw) (io : Hw × List Ev × IoAns) :
    (rm.ioPart h io).2 = .error ↔ io.2.2 = .ret .error ∨ io.2.2 = .throws ∨
      (io.2.2 = .ret .ok ∧ ∃ g, h.group = some g ∧ rm.groupSt g = .error) := by
  unfold ioPart
  split
  · simp_all
  · rename_i r hr
    rw [hr]
    cases hg : h.group with
    | none => simp [groupUpdate]
    | some g =>
      by_cases hv : r = .ok
      · subst hv; simp [groupUpdate, setHw]
      · simp [groupUpdate, hv]

theorem write_active (o : Oracle) (tr : List Ev) (h : Hw) (hw : (h.write o tr).2.2 = .ret .deactivate) :
    h.lc = .active := by
  unfold Hw.write at hw
  split at hw
  · simp at hw
  split at hw
  · assumption
  · simp at hw

theorem writeIter (o : Oracle) (sched : Name → Sched) (s : RM × Status) (n : Name) (I : s.1.Inv) {h : Hw}
    (hf : s.1.findHw n = some h) : WriteIter o sched s n h (writeOne o sched s n) := by
  obtain ⟨hh, hn⟩ := findHw_some hf
  by_cases hl : sched n = .locked
  · have : writeOne o sched s n = s := by unfold writeOne; rw [hf]; simp [hl]
    rw [this]
    exact ⟨⟨[], rfl, by simp⟩, fun h => absurd hl h, fun h => absurd hl h,
      fun _ => ⟨rfl, Frame.refl I.names hh, rfl, rfl, rfl⟩⟩
  · rw [writeOne_eq o sched s n hf hl]
    dsimp only
    have hans : writeAns o sched s.1 h =
        (if sched n = .run then h.write o s.1.tr else (h, s.1.tr, IoAns.ret .ok)).2.2 := by
      unfold writeAns; rw [hn]; split <;> rfl
    rw [← hn] at *
    have hact : writeAns o sched s.1 h = .ret .deactivate → h.lc = .active := by
      unfold writeAns; split
      · exact write_active o _ _
      · simp
    generalize hio : (if sched h.name = .run then h.write o s.1.tr else (h, s.1.tr, IoAns.ret .ok)) = io at *
    have g : h.Good s.1.tr io.1 io.2.1 := by
      subst hio; split
      · exact Hw.good_write o _ _
      · exact Hw.Good.refl _ _
    have hst : io.2.2 ≠ .ret .error → io.1 = h := by
      subst hio; split
      · exact write_state o _ _
      · intro _; rfl
    have hev : ∃ es, io.2.1 = es ++ s.1.tr ∧
        ∀ m i a, Ev.hwIo m i a ∈ es → m = h.name ∧ i = .write ∧ a = io.2.2 := by
      subst hio; split
      · exact write_events o _ _
      · exact ⟨[], rfl, by simp⟩
    have fr := frame_ioPart I.names hh g
    obtain ⟨e1, e2⟩ := ioPart_avail s.1 h io
    obtain ⟨es, ev1, ev2⟩ := hev
    obtain ⟨gk, gs, go⟩ := ioPart_groupSt s.1 h io
    have hokiff := ioPart_ok_iff s.1 h io
    have herriff := ioPart_error_iff s.1 h io
    rw [hans] at hact
    cases hg : (s.1.ioPart h io).2 with
    | ok =>
      have ho := hokiff.1 hg
      have he := hst (by rw [ho.1]; simp)
      refine ⟨⟨es, by simp only; rw [ioPart_tr, ev1], ?_⟩, ?_, ?_, ?_⟩
      · intro m i a hm; rw [hans]; exact ev2 m i a hm
      · intro _ hbad
        rw [hans] at hbad
        rw [herriff.2 hbad] at hg; cases hg
      · intro _ hd; rw [hans] at hd; rw [hd] at ho; simp at ho
      · intro _
        refine ⟨rfl, by rw [he] at fr; exact fr, go ho.1, e1, e2⟩
    | error =>
      have fp := inv_failPart o I hh fr (by rw [e1]; exact I.nodS) (by rw [e2]; exact I.nodC)
      obtain ⟨es', f1, f2⟩ := error_ext o (s.1.ioPart h io).1.tr io.1
      refine ⟨⟨es' ++ es, ?_, ?_⟩, ?_, ?_, ?_⟩
      · show (Hw.error o (s.1.ioPart h io).1.tr io.1).2 = _
        rw [f1, ioPart_tr, ev1, List.append_assoc]
      · intro m i a hm
        rcases List.mem_append.1 hm with hm | hm
        · obtain ⟨b, hb⟩ := f2 _ hm; cases hb
        · rw [hans]; exact ev2 m i a hm
      · intro _ _
        refine ⟨rfl, _, fp.2, Hw.error_not_conf o _ _, ?_, ?_⟩
        · intro i hi
          simp [failPart, removeAvail, setHw, mem_removeItems, e1, I.nodS, hi]
        · intro i hi
          simp [failPart, removeAvail, setHw, mem_removeItems, e2, I.nodC, hi]
      · intro _ hd; rw [hans] at hd
        rcases herriff.1 hg with h1 | h1 | h1 <;> simp [hd] at h1
      · intro hgood
        exfalso
        rcases hgood with hb | ⟨hb1, hb2⟩
        · exact hl hb
        · rw [hans] at hb1; rw [hokiff.2 ⟨hb1, hb2⟩] at hg; cases hg
    | deactivate =>
      have he := hst (by
        intro hc
        rw [herriff.2 (Or.inl hc)] at hg; cases hg)
      obtain ⟨i1, i2, i3⟩ := io
      simp only at he ev1 ev2 hans fr
      subst he
      have I2 := inv_ioPart (a := i3) I hh g
      have hm := fr.mem hh
      have hfi : (s.1.ioPart i1 (i1, i2, i3)).1.findHw i1.name = some i1 := findHw_of_mem I2.names hm
      have k := setHwState_ok o I2 hm .inactive
      obtain ⟨fs, f1, f2⟩ := noIo_setInactive o (s.1.ioPart i1 (i1, i2, i3)).1 i1
      simp only [setComponentState, hfi]
      refine ⟨⟨fs ++ es, ?_, ?_⟩, ?_, ?_, ?_⟩
      · rw [f1, ioPart_tr]; simp only; rw [ev1, List.append_assoc]
      · intro m i a hmm
        rcases List.mem_append.1 hmm with hmm | hmm
        · exact absurd hmm (f2 _ _ _)
        · rw [hans]; exact ev2 m i a hmm
      · intro _ hbad
        rw [hans] at hbad
        rw [herriff.2 hbad] at hg; cases hg
      · intro _ hd
        rw [hans] at hd
        have hla := hact hd
        refine ⟨rfl, _, (s.1.ioPart i1 (i1, i2, i3)).1.tr, fr.trans k.frame, ?_⟩
        simp [setHwState, hla, deactivateHw]
      · intro hgood
        exfalso
        rcases hgood with hb | ⟨hb1, hb2⟩
        · exact hl hb
        · rw [hans] at hb1; rw [hokiff.2 ⟨hb1, hb2⟩] at hg; cases hg

/-- Status of the write loop. -/
theorem writeOne_status (o : Oracle) (sched : Name → Sched) (s : RM × Status) (n : Name) :
    (writeOne o sched s n).2 = s.2 ∨
    ((writeOne o sched s n).2.result ≠ .ok ∧ ∀ m ∈ s.2.failed, m ∈ (writeOne o sched s n).2.failed) := by
  cases hf : s.1.findHw n with
  | none => left; unfold writeOne; rw [hf]
  | some h =>
    by_cases hl : sched n = .locked
    · left; unfold writeOne; rw [hf]; simp [hl]
    · rw [writeOne_eq o sched s n hf hl]
      dsimp only
      generalize (if sched n = .run then h.write o s.1.tr else (h, s.1.tr, IoAns.ret .ok)) = io
      split
      · right; exact ⟨by simp, fun m hm => by simp [hm]⟩
      · right; refine ⟨by simp, fun m hm => ?_⟩
        simp only; split
        · simp [hm]
        · exact hm
      · left; rfl

theorem writeFold_status (o : Oracle) (sched : Name → Sched) (l : List Name) (s : RM × Status) :
    (s.2.result ≠ .ok → (l.foldl (writeOne o sched) s).2.result ≠ .ok) ∧
    (∀ n ∈ s.2.failed, n ∈ (l.foldl (writeOne o sched) s).2.failed) := by
  induction l generalizing s with
  | nil => exact ⟨id, fun _ h => h⟩
  | cons m t ih =>
    simp only [List.foldl_cons]
    obtain ⟨a, b⟩ := ih (writeOne o sched s m)
    rcases writeOne_status o sched s m with e | ⟨e1, e2⟩
    · rw [e] at a b; exact ⟨a, b⟩
    · exact ⟨fun _ => a e1, fun n hn => b n (e2 n hn)⟩

end RM
end Verif
