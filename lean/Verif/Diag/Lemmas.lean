import Verif.Diag.Spec
/-!
# Lemmas about the diagnostics
-/
namespace Verif
namespace Diag

theorem mem_addItem {l : List Name} {n m : Name} : m ∈ addItem l n ↔ m ∈ l ∨ m = n := by
  unfold addItem; split
  · constructor
    · exact .inl
    · rintro (h | rfl)
      · exact h
      · assumption
  · simp

/-- What a step of the loop does to the accumulators. -/
structure Adds (a b : Acc) (vs : List Entry) (hi : List Name) (bd : List Name) (E W : Prop) : Prop where
  values : b.values = a.values ++ vs
  high : b.high = a.high ++ hi
  bad : b.bad = bd.foldl addItem a.bad
  err : b.level = .error ↔ a.level = .error ∨ E
  ok : b.level = .ok ↔ a.level = .ok ∧ ¬ E ∧ ¬ W

theorem Adds.refl (a : Acc) : Adds a a [] [] [] False False := by constructor <;> simp

theorem Adds.trans {a b c : Acc} {v v' h h' d d' E E' W W'} (x : Adds a b v h d E W) (y : Adds b c v' h' d' E' W') :
    Adds a c (v ++ v') (h ++ h') (d ++ d') (E ∨ E') (W ∨ W') where
  values := by rw [y.values, x.values, List.append_assoc]
  high := by rw [y.high, x.high, List.append_assoc]
  bad := by rw [y.bad, x.bad, List.foldl_append]
  err := by rw [y.err, x.err, or_assoc]
  ok := by rw [y.ok, x.ok]; tauto

theorem Adds.congr {a b : Acc} {v v' h h' d d' E E' W W'} (x : Adds a b v h d E W) (hv : v = v') (hh : h = h')
    (hd : d = d') (hE : E ↔ E') (hW : (E ∨ W) ↔ (E' ∨ W')) : Adds a b v' h' d' E' W' where
  values := hv ▸ x.values
  high := hh ▸ x.high
  bad := hd ▸ x.bad
  err := by rw [x.err, hE]
  ok := by rw [x.ok]; tauto

theorem Adds.value (a : Acc) (e : Entry) : Adds a { a with values := a.values ++ [e] } [e] [] [] False False := by
  constructor <;> simp

theorem Adds.periodicity (a : Acc) (t : Thr) (n : Name) (c : Cycle) (d : Data) (rate : Nat) :
    Adds a (a.periodicity t n c d rate) [.per n c d rate] [] (if t.Beyond (rateDev d rate) d.sd then [n] else [])
      (t.BeyondErr (rateDev d rate) d.sd) (t.Beyond (rateDev d rate) d.sd) := by
  by_cases h : t.BeyondErr (rateDev d rate) d.sd
  · have b : t.Beyond (rateDev d rate) d.sd := .inl h
    have e : (Dbl.lt t.meanErr (rateDev d rate) || Dbl.lt t.sdErr d.sd) = true := by simpa [Thr.BeyondErr] using h
    simp only [rateDev] at e
    simp only [h, b, if_true]
    unfold Acc.periodicity
    dsimp only
    rw [if_pos e]
    constructor <;> simp
  · have e : ¬ (Dbl.lt t.meanErr (rateDev d rate) || Dbl.lt t.sdErr d.sd) = true := by simpa [Thr.BeyondErr] using h
    simp only [rateDev] at e
    by_cases b : t.Beyond (rateDev d rate) d.sd
    · have e' : (Dbl.lt t.meanWarn (rateDev d rate) || Dbl.lt t.sdWarn d.sd) = true := by
        rcases b with b | b
        · exact absurd b h
        · simpa using b
      simp only [rateDev] at e'
      simp only [h, b, if_true]
      unfold Acc.periodicity
      dsimp only
      rw [if_neg e, if_pos e']
      constructor
      · simp
      · simp
      · rfl
      · cases a.level <;> simp
      · cases a.level <;> simp
    · have e' : ¬ (Dbl.lt t.meanWarn (rateDev d rate) || Dbl.lt t.sdWarn d.sd) = true := by
        intro g
        exact b (.inr (by simpa using g))
      simp only [rateDev] at e'
      simp only [h, b, if_false]
      unfold Acc.periodicity
      dsimp only
      rw [if_neg e, if_neg e']
      constructor <;> simp

theorem Adds.execTime (a : Acc) (t : Thr) (n : Name) (d : Data) (as : Bool) (rate : Nat) :
    Adds a (a.execTime t n d as rate) [] (if t.Beyond (execDev d as rate) d.sd then [n] else []) []
      (t.BeyondErr (execDev d as rate) d.sd) (t.Beyond (execDev d as rate) d.sd) := by
  by_cases h : t.BeyondErr (execDev d as rate) d.sd
  · have b : t.Beyond (execDev d as rate) d.sd := .inl h
    have e : (Dbl.lt t.meanErr (execDev d as rate) || Dbl.lt t.sdErr d.sd) = true := by simpa [Thr.BeyondErr] using h
    simp only [execDev] at e
    simp only [h, b, if_true]
    unfold Acc.execTime
    dsimp only
    rw [if_pos e]
    constructor <;> simp
  · have e : ¬ (Dbl.lt t.meanErr (execDev d as rate) || Dbl.lt t.sdErr d.sd) = true := by simpa [Thr.BeyondErr] using h
    simp only [execDev] at e
    by_cases b : t.Beyond (execDev d as rate) d.sd
    · have e' : (Dbl.lt t.meanWarn (execDev d as rate) || Dbl.lt t.sdWarn d.sd) = true := by
        rcases b with b | b
        · exact absurd b h
        · simpa using b
      simp only [execDev] at e'
      simp only [h, b, if_true]
      unfold Acc.execTime
      dsimp only
      rw [if_neg e, if_pos e']
      constructor
      · simp
      · simp
      · rfl
      · cases a.level <;> simp
      · cases a.level <;> simp
    · have e' : ¬ (Dbl.lt t.meanWarn (execDev d as rate) || Dbl.lt t.sdWarn d.sd) = true := by
        intro g
        exact b (.inr (by simpa using g))
      simp only [execDev] at e'
      simp only [h, b, if_false]
      unfold Acc.execTime
      dsimp only
      rw [if_neg e, if_neg e']
      constructor <;> simp

theorem Adds.ctl (r : Nat) (t : Thrs) (a : Acc) (c : Ctl) :
    Adds a (Acc.ctl r t a c) (c.entries r) (if c.ExecHigh t then [c.name] else []) (if c.RateBad r t then [c.name] else [])
      (c.ExecErr t ∨ c.RateErr r t) (c.ExecHigh t ∨ c.RateBad r t) := by
  unfold Acc.ctl Ctl.entries Ctl.ExecHigh Ctl.RateBad Ctl.ExecErr Ctl.RateErr
  dsimp only
  split
  · rename_i h
    simp only [h, true_and, if_true]
    by_cases w : c.Watched r
    · have w' : (c.async || c.rate != r) = true := by simpa [Ctl.Watched] using w
      simp only [w', if_true, w, true_and]
      exact ((((Adds.value a _).trans (Adds.value _ _)).trans (Adds.periodicity _ _ _ _ _ _)).trans
        (Adds.execTime _ _ _ _ _ _)).congr (by simp) (by simp) (by simp) (by tauto) (by tauto)
    · have w' : ¬ (c.async || c.rate != r) = true := by simpa [Ctl.Watched] using w
      simp only [w', if_false, w, false_and, Bool.false_eq_true]
      exact (((Adds.value a _).trans (Adds.value _ _)).trans (Adds.execTime _ _ _ _ _ _)).congr (by simp) (by simp)
        (by simp) (by tauto) (by tauto)
  · rename_i h
    simp only [h, false_and, if_false]
    exact (Adds.value a _).congr (by simp) rfl rfl (by tauto) (by tauto)

theorem Adds.ctls (r : Nat) (t : Thrs) (a : Acc) (cs : List Ctl) :
    Adds a (cs.foldl (Acc.ctl r t) a) (cs.flatMap (Ctl.entries r)) ((cs.filter fun c => c.ExecHigh t).map Ctl.name)
      ((cs.filter fun c => c.RateBad r t).map Ctl.name)
      (∃ c ∈ cs, c.ExecErr t ∨ c.RateErr r t) (∃ c ∈ cs, c.ExecHigh t ∨ c.RateBad r t) := by
  induction cs generalizing a with
  | nil => exact (Adds.refl a).congr rfl rfl rfl (by simp) (by simp)
  | cons c cs ih =>
    refine ((Adds.ctl r t a c).trans (ih _)).congr (by simp) ?_ ?_ (by simp) (by simp)
    · by_cases h : c.ExecHigh t <;> simp [h]
    · by_cases h : c.RateBad r t <;> simp [h]

open Classical in
theorem Adds.stats (r : Nat) (t : Thrs) (a : Acc) (h : Comp) (c : Cycle) (o : Option HwStats) :
    Adds a (a.stats r t h c o) ((o.map fun d => (c, d)).toList.flatMap (h.cycleEntries r))
      (((o.map fun d => (c, d)).toList.filter fun d => t.exec.Beyond (execDev d.2.exec h.async h.rate) d.2.exec.sd).map fun _ => h.name)
      (((o.map fun d => (c, d)).toList.filter fun d => decide (h.Watched r ∧ t.per.Beyond (rateDev d.2.per h.rate) d.2.per.sd)).map fun _ => h.name)
      (∃ d ∈ (o.map fun d => (c, d)).toList, t.exec.BeyondErr (execDev d.2.exec h.async h.rate) d.2.exec.sd ∨
        (h.Watched r ∧ t.per.BeyondErr (rateDev d.2.per h.rate) d.2.per.sd))
      (∃ d ∈ (o.map fun d => (c, d)).toList, t.exec.Beyond (execDev d.2.exec h.async h.rate) d.2.exec.sd ∨
        (h.Watched r ∧ t.per.Beyond (rateDev d.2.per h.rate) d.2.per.sd)) := by
  cases o with
  | none => exact (Adds.refl a).congr rfl rfl rfl (by simp) (by simp)
  | some d =>
    unfold Acc.stats
    dsimp only
    by_cases w : h.Watched r
    · have w' : (h.async || h.rate != r) = true := by simpa [Comp.Watched] using w
      simp only [w', if_true]
      refine (((Adds.value a _).trans (Adds.periodicity _ _ _ _ _ _)).trans (Adds.execTime _ _ _ _ _ _)).congr
        (by simp [Comp.cycleEntries, w]) ?_ ?_ ?_ ?_
      · by_cases e : t.exec.Beyond (execDev d.exec h.async h.rate) d.exec.sd <;> simp [e]
      · by_cases e : t.per.Beyond (rateDev d.per h.rate) d.per.sd <;> simp [e, w]
      · simp [w]; tauto
      · simp [w]; tauto
    · have w' : ¬ (h.async || h.rate != r) = true := by simpa [Comp.Watched] using w
      simp only [w', if_false, Bool.false_eq_true]
      refine ((Adds.value a _).trans (Adds.execTime _ _ _ _ _ _)).congr
        (by simp [Comp.cycleEntries, w]) ?_ ?_ ?_ ?_
      · by_cases e : t.exec.Beyond (execDev d.exec h.async h.rate) d.exec.sd <;> simp [e]
      · simp [w]
      · simp [w]
      · simp [w]

open Classical in
/-- The names a component adds to the list of slow ones (once for each slow cycle). -/
noncomputable def Comp.highNames (t : Thrs) (h : Comp) : List Name :=
  if h.state = .active then
    (h.cycles.filter fun d => t.exec.Beyond (execDev d.2.exec h.async h.rate) d.2.exec.sd).map fun _ => h.name
  else []

open Classical in
/-- The names a component offers to the list of irregular ones. -/
noncomputable def Comp.badNames (r : Nat) (t : Thrs) (h : Comp) : List Name :=
  if h.state = .active then
    (h.cycles.filter fun d => decide (h.Watched r ∧ t.per.Beyond (rateDev d.2.per h.rate) d.2.per.sd)).map fun _ => h.name
  else []

theorem mem_highNames {t : Thrs} {h : Comp} {n : Name} : n ∈ h.highNames t ↔ h.ExecHigh t ∧ n = h.name := by
  unfold Comp.highNames Comp.ExecHigh
  split
  · rename_i a
    simp only [List.mem_map, List.mem_filter, a, true_and, decide_eq_true_eq]
    constructor
    · rintro ⟨d, ⟨h1, h2⟩, rfl⟩; exact ⟨⟨d, h1, h2⟩, rfl⟩
    · rintro ⟨⟨d, h1, h2⟩, rfl⟩; exact ⟨d, ⟨h1, h2⟩, rfl⟩
  · rename_i a; simp [a]

theorem mem_badNames {r : Nat} {t : Thrs} {h : Comp} {n : Name} : n ∈ h.badNames r t ↔ h.RateBad r t ∧ n = h.name := by
  unfold Comp.badNames Comp.RateBad
  split
  · rename_i a
    simp only [List.mem_map, List.mem_filter, a, true_and, decide_eq_true_eq]
    constructor
    · rintro ⟨d, ⟨h1, h2, h3⟩, rfl⟩; exact ⟨⟨h2, d, h1, h3⟩, rfl⟩
    · rintro ⟨⟨h2, d, h1, h3⟩, rfl⟩; exact ⟨d, ⟨h1, h2, h3⟩, rfl⟩
  · rename_i a; simp [a]

theorem exists_split {α} {l : List α} {P Q : α → Prop} {W : Prop} :
    (∃ d ∈ l, P d ∨ W ∧ Q d) ↔ (∃ d ∈ l, P d) ∨ W ∧ ∃ d ∈ l, Q d := by
  constructor
  · rintro ⟨d, h, p | ⟨w, q⟩⟩
    · exact .inl ⟨d, h, p⟩
    · exact .inr ⟨w, d, h, q⟩
  · rintro (⟨d, h, p⟩ | ⟨w, d, h, q⟩)
    · exact ⟨d, h, .inl p⟩
    · exact ⟨d, h, .inr ⟨w, q⟩⟩

theorem shuffle {A B C D W : Prop} : ((False ∨ A ∨ W ∧ B) ∨ C ∨ W ∧ D) ↔ (A ∨ C) ∨ W ∧ (B ∨ D) := by tauto

theorem Adds.comp (r : Nat) (t : Thrs) (a : Acc) (h : Comp) :
    Adds a (Acc.comp r t a h) (h.entries r) (h.highNames t) (h.badNames r t)
      (h.ExecErr t ∨ h.RateErr r t) (h.ExecHigh t ∨ h.RateBad r t) := by
  unfold Acc.comp Comp.entries Comp.highNames Comp.badNames Comp.ExecHigh Comp.RateBad Comp.ExecErr Comp.RateErr
  dsimp only
  split
  · rename_i hs
    simp only [hs, true_and, if_true]
    refine (((Adds.value a _).trans (Adds.stats r t _ h .read h.read)).trans (Adds.stats r t _ h .write h.write)).congr
      ?_ ?_ ?_ ?_ ?_
    · simp [Comp.cycles]
    · simp only [Comp.cycles, List.filter_append, List.map_append, List.nil_append]
    · simp only [Comp.cycles, List.filter_append, List.map_append, List.nil_append]
    · simp only [exists_split]
      simp only [Comp.cycles, List.mem_append, or_and_right, exists_or]
      exact shuffle
    · simp only [exists_split]
      simp only [Comp.cycles, List.mem_append, or_and_right, exists_or]
      exact or_congr shuffle shuffle
  · rename_i hs
    simp only [hs, false_and, if_false]
    exact (Adds.value a _).congr (by simp) rfl rfl (by tauto) (by tauto)

theorem Adds.comps (r : Nat) (t : Thrs) (a : Acc) (hs : List Comp) :
    Adds a (hs.foldl (Acc.comp r t) a) (hs.flatMap (Comp.entries r)) (hs.flatMap (Comp.highNames t))
      (hs.flatMap (Comp.badNames r t))
      (∃ c ∈ hs, c.ExecErr t ∨ c.RateErr r t) (∃ c ∈ hs, c.ExecHigh t ∨ c.RateBad r t) := by
  induction hs generalizing a with
  | nil => exact (Adds.refl a).congr rfl rfl rfl (by simp) (by simp)
  | cons c cs ih => exact ((Adds.comp r t a c).trans (ih _)).congr (by simp) (by simp) (by simp) (by simp) (by simp)

theorem mem_foldl_addItem {l a : List Name} {n : Name} : n ∈ l.foldl addItem a ↔ n ∈ a ∨ n ∈ l := by
  induction l generalizing a with
  | nil => simp
  | cons x l ih => rw [List.foldl_cons, ih, mem_addItem]; simp [or_assoc]

theorem foldl_addItem_nodup {l a : List Name} (h : (a ++ l).Nodup) : l.foldl addItem a = a ++ l := by
  induction l generalizing a with
  | nil => simp
  | cons x l ih =>
    have hx : x ∉ a := by
      intro hx
      rw [List.nodup_append] at h
      exact h.2.2 x hx x (by simp) rfl
    rw [List.foldl_cons]
    have : addItem a x = a ++ [x] := by simp [addItem, hx]
    rw [this, ih (by simpa using h)]
    simp

theorem foldl_addItem_ndup {l a : List Name} (h : a.Nodup) : (l.foldl addItem a).Nodup := by
  induction l generalizing a with
  | nil => simpa
  | cons x l ih =>
    apply ih
    unfold addItem; split
    · exact h
    · rename_i hx
      rw [List.nodup_append]
      exact ⟨h, by simp, by rintro y hy z hz rfl; simp at hz; exact hx (hz ▸ hy)⟩

theorem merge_level (s : Status) (l : Level) (n : Note) :
    ((s.merge l n).level = .error ↔ s.level = .error ∨ l = .error) ∧
    ((s.merge l n).level = .ok ↔ s.level = .ok ∧ l = .ok) := by
  unfold Status.merge
  cases h : s.level <;> cases l <;> simp [Level.num, h]

@[simp] theorem merge_values (s : Status) (l : Level) (n : Note) : (s.merge l n).values = s.values := rfl

/-- A complaint is in the message; what was there stays if it was a complaint too. -/
theorem merge_msg (s : Status) {l : Level} (n : Note) (hl : l ≠ .ok) :
    (s.merge l n).msg = (if s.level = .ok then [] else s.msg) ++ [n] := by
  unfold Status.merge
  cases h : s.level <;> cases l <;> simp_all [Level.num]

end Diag
end Verif
