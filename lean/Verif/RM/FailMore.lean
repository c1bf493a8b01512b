import Verif.RM.Fail
/-! # Read/write loops: which events they emit, group propagation, components left alone -/
namespace Verif
namespace RM

theorem read_ev_mem (o : Oracle) (tr : List Ev) (h : Hw) (hb : (h.read o tr).2.2 ≠ .ret .ok) :
    ∃ es, (h.read o tr).2.1 = es ++ tr ∧ Ev.hwIo h.name .read (h.read o tr).2.2 ∈ es := by
  unfold Hw.read at *
  split at hb
  · rename_i hc
    rw [if_pos hc]
    split at hb
    · rename_i he
      obtain ⟨es, e1, e2⟩ := error_ext o (.hwIo h.name .read (.ret .error) :: tr) h
      exact ⟨es ++ [.hwIo h.name .read (.ret .error)], by simp [e1], by simp⟩
    · exact ⟨[_], rfl, by simp⟩
  · exact absurd rfl hb

theorem write_ev_mem (o : Oracle) (tr : List Ev) (h : Hw) (hb : (h.write o tr).2.2 ≠ .ret .ok) :
    ∃ es, (h.write o tr).2.1 = es ++ tr ∧ Ev.hwIo h.name .write (h.write o tr).2.2 ∈ es := by
  unfold Hw.write at *
  split at hb
  · exact absurd rfl hb
  rename_i hs
  rw [if_neg hs]
  split at hb
  · rename_i hc
    rw [if_pos hc]
    split at hb
    · rename_i he
      obtain ⟨es, e1, e2⟩ := error_ext o (.hwIo h.name .write (.ret .error) :: tr) h
      exact ⟨es ++ [.hwIo h.name .write (.ret .error)], by simp [e1], by simp⟩
    · exact ⟨[_], rfl, by simp⟩
  · exact absurd rfl hb

/-- A non-OK answer of an iteration is visible in the trace. -/
theorem readOne_ev_mem (o : Oracle) (sched : Name → Sched) (s : RM × Status) (n : Name) {h : Hw}
    (hf : s.1.findHw n = some h) (hl : sched n ≠ .locked) (hb : readAns o sched s.1 h ≠ .ret .ok) :
    ∃ es, (readOne o sched s n).1.tr = es ++ s.1.tr ∧ Ev.hwIo n .read (readAns o sched s.1 h) ∈ es := by
  obtain ⟨hh, hn⟩ := findHw_some hf
  rw [readOne_eq o sched s n hf hl]
  have hrun : sched n = .run := by
    unfold readAns at hb
    rw [hn] at hb
    by_contra hc
    simp [hc] at hb
  have ha : readAns o sched s.1 h = (h.read o s.1.tr).2.2 := by unfold readAns; rw [hn]; simp [hrun]
  rw [ha] at hb ⊢
  obtain ⟨es, e1, e2⟩ := read_ev_mem o s.1.tr h hb
  rw [hn] at e2
  dsimp only
  rw [if_pos hrun]
  split
  · obtain ⟨es', f1, f2⟩ := error_ext o (s.1.ioPart h (h.read o s.1.tr)).1.tr (h.read o s.1.tr).1
    refine ⟨es' ++ es, ?_, by simp [e2]⟩
    show (Hw.error o (s.1.ioPart h (h.read o s.1.tr)).1.tr (h.read o s.1.tr).1).2 = _
    rw [f1, ioPart_tr, e1, List.append_assoc]
  · exact ⟨es, by rw [ioPart_tr, e1], e2⟩

/-- Splitting the read loop around one component. -/
theorem read_split {rm : RM} (I : rm.Inv) {h : Hw} (hh : h ∈ rm.comps) :
    ∃ l1 l2, rm.readOrder = l1 ++ h.name :: l2 ∧ h.name ∉ l1 ∧ h.name ∉ l2 := by
  have hm : h.name ∈ rm.readOrder := mem_readOrder.2 ⟨h, hh, rfl⟩
  obtain ⟨l1, l2, e⟩ := List.append_of_mem hm
  have nd := readOrder_nodup I
  rw [e, List.nodup_append'] at nd
  refine ⟨l1, l2, e, ?_, ?_⟩
  · intro hc; exact nd.2.2 hc (by simp)
  · have := nd.2.1; simp at this; exact this.1

theorem write_split {rm : RM} (I : rm.Inv) {h : Hw} (hh : h ∈ rm.comps)
    (hk : h.kind ≠ .sensor) :
    ∃ l1 l2, rm.writeOrder = l1 ++ h.name :: l2 ∧ h.name ∉ l1 ∧ h.name ∉ l2 := by
  have hm : h.name ∈ rm.writeOrder := mem_writeOrder.2 ⟨h, hh, hk, rfl⟩
  obtain ⟨l1, l2, e⟩ := List.append_of_mem hm
  have nd := writeOrder_nodup I
  rw [e, List.nodup_append'] at nd
  refine ⟨l1, l2, e, ?_, ?_⟩
  · intro hc; exact nd.2.2 hc (by simp)
  · have := nd.2.1; simp at this; exact this.1

theorem readFold_group (o : Oracle) (sched : Name → Sched) (l : List Name) (s : RM × Status) (I : s.1.Inv)
    (g : Name) (hg : s.1.groupSt g ≠ .ok) : (l.foldl (readOne o sched) s).1.groupSt g ≠ .ok := by
  induction l generalizing s with
  | nil => exact hg
  | cons m t ih =>
    simp only [List.foldl_cons]
    refine ih _ (readOne_ok o sched s m I).inv ?_
    cases hf : s.1.findHw m with
    | none => rw [(readOne_ok o sched s m I).skip hf]; exact hg
    | some h => exact (readIter o sched s m I hf).groupKeep g hg

/-- The I/O events of the read loop belong to the listed components. -/
theorem readFold_ext (o : Oracle) (sched : Name → Sched) (l : List Name) (s : RM × Status) (I : s.1.Inv) :
    ∃ es, (l.foldl (readOne o sched) s).1.tr = es ++ s.1.tr := by
  induction l generalizing s with
  | nil => exact ⟨[], rfl⟩
  | cons m t ih =>
    simp only [List.foldl_cons]
    obtain ⟨es, e⟩ := ih (readOne o sched s m) (readOne_ok o sched s m I).inv
    cases hf : s.1.findHw m with
    | none => rw [(readOne_ok o sched s m I).skip hf] at e ⊢; exact ⟨es, e⟩
    | some h =>
      obtain ⟨es', e', _⟩ := (readIter o sched s m I hf).ev
      exact ⟨es ++ es', by rw [e, e', List.append_assoc]⟩

/-- If every component of the group answers OK, the group stays OK through the loop. -/
theorem readFold_group_ok (o : Oracle) (sched : Name → Sched) (g : Name) (l : List Name) (hnd : l.Nodup)
    (s : RM × Status) (I : s.1.Inv) (hg : s.1.groupSt g = .ok)
    (es : List Ev) (hes : (l.foldl (readOne o sched) s).1.tr = es ++ s.1.tr)
    (hok : ∀ h ∈ s.1.comps, h.group = some g → ∀ a, Ev.hwIo h.name .read a ∈ es → a = .ret .ok) :
    (l.foldl (readOne o sched) s).1.groupSt g = .ok := by
  induction l generalizing s es with
  | nil => exact hg
  | cons m t ih =>
    simp only [List.foldl_cons] at hes ⊢
    have J := (readOne_ok o sched s m I).inv
    obtain ⟨es2, e2⟩ := readFold_ext o sched t (readOne o sched s m) J
    cases hf : s.1.findHw m with
    | none =>
      have sk := (readOne_ok o sched s m I).skip hf
      rw [sk] at hes ⊢
      exact ih (List.nodup_cons.1 hnd).2 s I hg es hes hok
    | some h =>
      have R := readIter o sched s m I hf
      obtain ⟨hh, hn⟩ := findHw_some hf
      obtain ⟨es1, e1, -⟩ := R.ev
      have hsplit : es = es2 ++ es1 := by
        rw [hes, e1, ← List.append_assoc] at e2
        exact List.append_cancel_right e2
      have hg' : (readOne o sched s m).1.groupSt g = .ok := by
        by_cases hx : h.group = some g
        · by_cases hl : sched m = .locked
          · exact (congrFun (R.good (Or.inl hl)).2.2.1 g).trans hg
          · by_cases ha : readAns o sched s.1 h = .ret .ok
            · have := R.good (Or.inr ⟨ha, fun g' hg' => by rw [hx] at hg'; cases hg'; exact hg⟩)
              exact (congrFun this.2.2.1 g).trans hg
            · obtain ⟨es1', e1', hm⟩ := readOne_ev_mem o sched s m hf hl ha
              have : es1' = es1 := List.append_cancel_right (e1'.symm.trans e1)
              subst this
              exact absurd (hok h hh hx _ (by rw [hsplit, hn]; simp [hm])) ha
        · obtain ⟨h', fr⟩ := (readOne_ok o sched s m I).frame h hf
          rw [fr.group g hx]; exact hg
      refine ih (List.nodup_cons.1 hnd).2 _ J hg' es2 (by rw [e2]) ?_
      intro c hc hcg a ha
      have hes_a : Ev.hwIo c.name .read a ∈ es := by rw [hsplit]; simp [ha]
      obtain ⟨h', fr⟩ := (readOne_ok o sched s m I).frame h hf
      have hc' := hc
      rw [fr.comps] at hc'
      rcases mem_setHw hc' with hcomp | hcomp
      · subst hcomp
        have hn2 := fr.good.name
        have hg2 : c.group = h.group := by rw [fr.good.frame]
        rw [hn2] at hes_a
        exact hok h hh (by rw [← hg2]; exact hcg) a hes_a
      · exact hok c hcomp.1 hcg a hes_a

end RM
end Verif
