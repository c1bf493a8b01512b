import Verif.Flow.Lemmas
/-! # The callbacks of the read and of the write loop -/
namespace Verif.Flow
open Verif RM

/-- One iteration of the read loop that reports no failure: at most the `read` callback. -/
theorem readOne_quiet (o : Oracle) (sched : Name → Sched) (s : RM × Status) (n : Name)
    (h : (readOne o sched s n).2.result = .ok) :
    s.2.result = .ok ∧ ∃ es, (readOne o sched s n).1.tr = es ++ s.1.tr ∧
      (es = [] ∨ ∃ a, es = [.hwIo n .read a]) := by
  cases hf : s.1.findHw n with
  | none =>
    have : readOne o sched s n = s := by unfold readOne; rw [hf]
    rw [this] at h ⊢
    exact ⟨h, [], rfl, .inl rfl⟩
  | some hw =>
    obtain ⟨hh, hn⟩ := findHw_some hf
    by_cases hl : sched n = .locked
    · have : readOne o sched s n = s := by unfold readOne; rw [hf]; simp [hl]
      rw [this] at h ⊢
      exact ⟨h, [], rfl, .inl rfl⟩
    · rw [readOne_eq o sched s n hf hl] at h ⊢
      have hev : (if sched n = .run then hw.read o s.1.tr else (hw, s.1.tr, IoAns.ret .ok)).2.2 = .ret .ok →
          ∃ es, (if sched n = .run then hw.read o s.1.tr else (hw, s.1.tr, IoAns.ret .ok)).2.1 = es ++ s.1.tr ∧
            (es = [] ∨ ∃ a, es = [.hwIo n .read a]) := by
        split
        · unfold Hw.read
          split
          · split
            · simp
            · intro _; exact ⟨[_], rfl, .inr ⟨_, by rw [hn]⟩⟩
          · intro _; exact ⟨[], rfl, .inl rfl⟩
        · intro _; exact ⟨[], rfl, .inl rfl⟩
      generalize (if sched n = .run then hw.read o s.1.tr else (hw, s.1.tr, IoAns.ret .ok)) = io at *
      dsimp only at h ⊢
      by_cases hg : (s.1.ioPart hw io).2 = .ok
      · rw [if_neg (by simp [hg])] at h ⊢
        refine ⟨h, ?_⟩
        simp only
        rw [ioPart_tr]
        exact hev ((ioPart_ok_iff _ _ _).1 hg).1
      · rw [if_pos hg] at h; simp at h

/-- A read loop that reports no failure: the `read` callbacks of some components, in order. -/
theorem read_quiet (o : Oracle) (sched : Name → Sched) : ∀ (l : List Name) (s : RM × Status),
    (l.foldl (readOne o sched) s).2.result = .ok →
    s.2.result = .ok ∧ ∃ es, (l.foldl (readOne o sched) s).1.tr = es ++ s.1.tr ∧
      (es.reverse.map Ev.hwName).Sublist (l.map some) ∧ ∀ e ∈ es, ∃ n a, e = Ev.hwIo n .read a := by
  intro l
  induction l with
  | nil => intro s h; exact ⟨h, [], rfl, by simp, by simp⟩
  | cons n t ih =>
    intro s h
    simp only [List.foldl_cons] at h ⊢
    obtain ⟨h1, es, e1, e2, e3⟩ := ih _ h
    obtain ⟨h2, fs, f1, f2⟩ := readOne_quiet o sched s n h1
    refine ⟨h2, es ++ fs, by rw [e1, f1, List.append_assoc], ?_, ?_⟩
    · rcases f2 with rfl | ⟨a, rfl⟩
      · simpa using e2.cons (some n)
      · simp only [List.reverse_append, List.reverse_cons, List.reverse_nil, List.nil_append, List.cons_append,
          List.map_cons, Ev.hwName]
        exact e2.cons_cons (some n)
    · intro e he
      rcases List.mem_append.1 he with he | he
      · exact e3 e he
      · rcases f2 with rfl | ⟨a, rfl⟩
        · simp at he
        · simp at he; exact ⟨n, a, he⟩

/-- One iteration of the write loop: only callbacks of the component, the `write` callback first. -/
theorem writeOne_events (o : Oracle) (sched : Name → Sched) (s : RM × Status) (n : Name) (I : s.1.Inv) :
    ∃ es, (writeOne o sched s n).1.tr = es ++ s.1.tr ∧ (∀ e ∈ es, e.hwName = some n) ∧
      ∃ fs gs, es = fs ++ gs ∧ gs.length ≤ 1 ∧ ∀ m io a, Ev.hwIo m io a ∉ fs := by
  cases hf : s.1.findHw n with
  | none =>
    have : writeOne o sched s n = s := by unfold writeOne; rw [hf]
    rw [this]
    exact ⟨[], rfl, by simp, [], [], by simp⟩
  | some hw =>
    obtain ⟨hh, hn⟩ := findHw_some hf
    obtain ⟨h', fr⟩ := (writeOne_ok o sched s n I).frame hw hf
    obtain ⟨es, e1, e2⟩ := fr.good.ext
    refine ⟨es, e1, fun e he => by rw [e2 e he, hn], ?_⟩
    by_cases hl : sched n = .locked
    · have : writeOne o sched s n = s := by unfold writeOne; rw [hf]; simp [hl]
      rw [this] at e1
      have : es = [] := by simpa using e1
      exact ⟨[], [], by simp [this], by simp, by simp⟩
    · -- the part before the reaction
      have hio : ∃ fs gs, (if sched n = .run then hw.write o s.1.tr else (hw, s.1.tr, IoAns.ret .ok)).2.1 = (fs ++ gs) ++ s.1.tr ∧
          gs.length ≤ 1 ∧ ∀ m io a, Ev.hwIo m io a ∉ fs := by
        split
        · unfold Hw.write
          split
          · exact ⟨[], [], rfl, by simp, by simp⟩
          split
          · split
            · obtain ⟨es, e1, e2⟩ := error_ext o (.hwIo hw.name .write (.ret .error) :: s.1.tr) hw
              refine ⟨es, [.hwIo hw.name .write (.ret .error)], by simp [e1], by simp, ?_⟩
              intro m io a hm; obtain ⟨b, hb⟩ := e2 _ hm; cases hb
            · exact ⟨[], [_], rfl, by simp, by simp⟩
          · exact ⟨[], [], rfl, by simp, by simp⟩
        · exact ⟨[], [], rfl, by simp, by simp⟩
      obtain ⟨fs, gs, a1, a2, a3⟩ := hio
      rw [writeOne_eq o sched s n hf hl] at e1
      dsimp only at e1
      generalize hio : (if sched n = .run then hw.write o s.1.tr else (hw, s.1.tr, IoAns.ret .ok)) = io at *
      have hno : ∀ tr', NoIo (s.1.ioPart hw io).1.tr tr' → tr' = es ++ s.1.tr →
          ∃ fs gs, es = fs ++ gs ∧ gs.length ≤ 1 ∧ ∀ m io a, Ev.hwIo m io a ∉ fs := by
        rintro tr' ⟨ks, k1, k2⟩ k3
        rw [ioPart_tr, a1, k3] at k1
        refine ⟨ks ++ fs, gs, ?_, a2, ?_⟩
        · have : es ++ s.1.tr = ((ks ++ fs) ++ gs) ++ s.1.tr := by rw [k1]; simp
          exact List.append_cancel_right this
        · intro m io a hm
          rcases List.mem_append.1 hm with hm | hm
          · exact k2 _ _ _ hm
          · exact a3 _ _ _ hm
      cases hg : (s.1.ioPart hw io).2 with
      | ok => rw [hg] at e1; exact hno _ (NoIo.refl _) e1
      | error =>
        rw [hg] at e1
        exact hno _ (noIo_error o _ io.1) e1
      | deactivate =>
        rw [hg] at e1
        simp only [setComponentState] at e1
        split at e1
        · exact hno _ (NoIo.refl _) e1
        · exact hno _ (noIo_setInactive o _ _) e1

/-- The write loop: before the `write` callback of a component no other callback of that component. -/
theorem write_first (o : Oracle) (sched : Name → Sched) : ∀ (l : List Name) (s : RM × Status), l.Nodup → s.1.Inv →
    ∃ es, (l.foldl (writeOne o sched) s).1.tr = es ++ s.1.tr ∧ (∀ e ∈ es, ∃ n ∈ l, e.hwName = some n) ∧
      ∀ l₁ l₂ m io a, es.reverse = l₁ ++ Ev.hwIo m io a :: l₂ → ∀ x ∈ l₁, x.hwName ≠ some m := by
  intro l
  induction l with
  | nil => intro s _ _; exact ⟨[], rfl, by simp, by simp⟩
  | cons n t ih =>
    intro s hl I
    obtain ⟨hnt, ht⟩ := List.nodup_cons.1 hl
    obtain ⟨es, e1, e2, fs, gs, e3, e4, e5⟩ := writeOne_events o sched s n I
    obtain ⟨ks, k1, k2, k3⟩ := ih (writeOne o sched s n) ht (writeOne_ok o sched s n I).inv
    simp only [List.foldl_cons]
    refine ⟨ks ++ es, by rw [k1, e1, List.append_assoc], ?_, ?_⟩
    · intro e he
      rcases List.mem_append.1 he with he | he
      · obtain ⟨m, hm, h⟩ := k2 e he; exact ⟨m, by simp [hm], h⟩
      · exact ⟨n, by simp, e2 e he⟩
    · intro l₁ l₂ m io a h x hx
      rw [List.reverse_append] at h
      rcases List.append_eq_append_iff.1 h with ⟨c, c1, c2⟩ | ⟨c, c1, c2⟩
      · -- the callback is in the rest
        rw [c1] at hx
        rcases List.mem_append.1 hx with hx | hx
        · rw [e2 x (by simpa using hx)]
          have : Ev.hwIo m io a ∈ ks := by
            have : Ev.hwIo m io a ∈ ks.reverse := by rw [c2]; simp
            simpa using this
          obtain ⟨m', hm', he⟩ := k2 _ this
          simp only [Ev.hwName, Option.some.injEq] at he
          intro hc; simp at hc
          exact hnt (by rw [hc, he]; exact hm')
        · exact k3 c l₂ m io a c2 x hx
      · cases c with
        | nil =>
          simp only [List.append_nil] at c1
          rw [← c1] at hx
          rw [e2 x (by simpa using hx)]
          have : Ev.hwIo m io a ∈ ks := by
            have : Ev.hwIo m io a ∈ ks.reverse := by
              simp only [List.nil_append] at c2; rw [← c2]; simp
            simpa using this
          obtain ⟨m', hm', he⟩ := k2 _ this
          simp only [Ev.hwName, Option.some.injEq] at he
          intro hc; simp at hc
          exact hnt (by rw [hc, he]; exact hm')
        | cons y c =>
          simp only [List.cons_append, List.cons.injEq] at c2
          obtain ⟨rfl, c2⟩ := c2
          -- it is the oldest callback of this component
          have hrev : gs.reverse ++ fs.reverse = l₁ ++ Ev.hwIo m io a :: c := by rw [← List.reverse_append, ← e3, c1]
          cases l₁ with
          | nil => simp at hx
          | cons z l₁ =>
            exfalso
            have hmem : Ev.hwIo m io a ∈ fs.reverse := by
              match hgs : gs.reverse, hrev, (by simpa using e4 : gs.reverse.length ≤ 1) with
              | [], hrev, _ => simp only [List.nil_append] at hrev; rw [hrev]; simp
              | [g], hrev, _ =>
                simp only [List.cons_append, List.nil_append, List.cons.injEq] at hrev
                rw [hrev.2]; simp
              | _ :: _ :: _, _, h => simp at h
            exact e5 m io a (by simpa using hmem)

end Verif.Flow
