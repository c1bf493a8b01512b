import Verif.Diag.Lemmas
import Verif.Num.Statistics
/-!
# C64: the diagnostics say what is wrong

For all controllers, components, statistics (NaN and infinities included), rates and thresholds: the level of each of the
three diagnostics, the names they blame and the values they show.
-/
namespace Verif
namespace Diag

/-! ## Small facts about the closing part -/

theorem report_eq {a : Acc} {s : Status} {m : Note} (hs : s.level = .ok) (hm : s.msg = [m])
    (ha : a.level = .ok ↔ a.high = [] ∧ a.bad = []) :
    (a.report s).level = a.level ∧ (a.report s).values = s.values ∧
    (a.report s).msg = (if a.level = .ok then [m] else []) ++ (if a.high = [] then [] else [.highExec a.high]) ++
      (if a.bad = [] then [] else [.badPeriodicity a.bad]) := by
  unfold Acc.report
  dsimp only
  by_cases h : a.high = []
  · by_cases b : a.bad = []
    · have := ha.2 ⟨h, b⟩
      simp [h, b, this, hs, hm]
    · have e : a.level ≠ .ok := fun e => b (ha.1 e).2
      simp only [h, ne_eq, not_true_eq_false, if_false, b, not_false_eq_true, if_true, e]
      refine ⟨?_, rfl, ?_⟩
      · unfold Status.merge
        simp only [hs, Level.num]
        cases he : a.level <;> simp_all
      · rw [merge_msg _ _ e]; simp [hs]
  · have e : a.level ≠ .ok := fun e => h (ha.1 e).1
    have l1 : (s.merge a.level (.highExec a.high)).level = a.level := by
      unfold Status.merge
      simp only [hs, Level.num]
      cases he : a.level <;> simp_all
    have m1 := merge_msg s (.highExec a.high) e
    rw [if_pos hs] at m1
    by_cases b : a.bad = []
    · simp only [h, ne_eq, not_true_eq_false, if_false, b, not_false_eq_true, if_true, e]
      exact ⟨l1, rfl, by simpa using m1⟩
    · simp only [h, ne_eq, if_false, b, not_false_eq_true, if_true, e]
      refine ⟨?_, rfl, ?_⟩
      · have := merge_level (s.merge a.level (.highExec a.high)) a.level (.badPeriodicity a.bad)
        rw [l1] at this
        simp only [or_self, and_self] at this
        revert this e
        cases ((s.merge a.level (.highExec a.high)).merge a.level (.badPeriodicity a.bad)).level <;>
          cases a.level <;> simp
      · rw [merge_msg _ _ e, l1, if_neg e, m1]

/-- The accumulators after the loop over the controllers. -/
abbrev ctlAcc (r : Nat) (t : Thrs) (cs : List Ctl) : Acc :=
  cs.foldl (Acc.ctl r t) { values := [], level := .ok, high := [], bad := [] }

/-- The accumulators after the loop over the components. -/
abbrev compAcc (r : Nat) (t : Thrs) (hs : List Comp) : Acc :=
  hs.foldl (Acc.comp r t) { values := [], level := .ok, high := [], bad := [] }

theorem Ctl.ExecErr.high {t : Thrs} {c : Ctl} (h : c.ExecErr t) : c.ExecHigh t := ⟨h.1, .inl h.2⟩
theorem Ctl.RateErr.bad {r : Nat} {t : Thrs} {c : Ctl} (h : c.RateErr r t) : c.RateBad r t := ⟨h.1, h.2.1, .inl h.2.2⟩
theorem Comp.ExecErr.high {t : Thrs} {c : Comp} (h : c.ExecErr t) : c.ExecHigh t := by
  obtain ⟨a, d, h1, h2⟩ := h; exact ⟨a, d, h1, .inl h2⟩
theorem Comp.RateErr.bad {r : Nat} {t : Thrs} {c : Comp} (h : c.RateErr r t) : c.RateBad r t := by
  obtain ⟨a, w, d, h1, h2⟩ := h; exact ⟨a, w, d, h1, .inl h2⟩

theorem any_active {hw : List LState} : hw.any (· = .active) = true ↔ ∃ s ∈ hw, s = .active := by
  rw [List.any_eq_true]; simp only [decide_eq_true_eq]

theorem mem_opt {p : Prop} [Decidable p] {x n : Note} : n ∈ (if p then [x] else []) ↔ p ∧ n = x := by
  split <;> simp_all

theorem mem_opt' {p : Prop} [Decidable p] {x n : Note} : n ∈ (if p then [] else [x]) ↔ ¬ p ∧ n = x := by
  split <;> simp_all

theorem foldl_addItem_nil {l : List Name} : l.foldl addItem [] = [] ↔ l = [] := by
  constructor
  · intro h
    cases l with
    | nil => rfl
    | cons x l =>
      have : x ∈ (x :: l).foldl addItem [] := mem_foldl_addItem.2 (.inr (by simp))
      rw [h] at this
      simp at this
  · rintro rfl; rfl

theorem ctlAcc_ok (r : Nat) (t : Thrs) (cs : List Ctl) :
    (ctlAcc r t cs).level = .ok ↔ (ctlAcc r t cs).high = [] ∧ (ctlAcc r t cs).bad = [] := by
  have A := Adds.ctls r t { values := [], level := .ok, high := [], bad := [] } cs
  rw [A.ok, A.high, A.bad, foldl_addItem_nil]
  simp only [List.nil_append, List.map_eq_nil_iff, List.filter_eq_nil_iff, decide_eq_true_eq, true_and, not_exists,
    not_and, not_or]
  constructor
  · rintro ⟨_, h⟩; exact ⟨fun c hc => (h c hc).1, fun c hc => (h c hc).2⟩
  · rintro ⟨h, g⟩
    exact ⟨fun c hc => ⟨fun e => h c hc e.high, fun e => g c hc e.bad⟩, fun c hc => ⟨h c hc, g c hc⟩⟩

theorem compAcc_ok (r : Nat) (t : Thrs) (hs : List Comp) :
    (compAcc r t hs).level = .ok ↔ (compAcc r t hs).high = [] ∧ (compAcc r t hs).bad = [] := by
  have A := Adds.comps r t { values := [], level := .ok, high := [], bad := [] } hs
  rw [A.ok, A.high, A.bad, foldl_addItem_nil]
  have e1 : hs.flatMap (Comp.highNames t) = [] ↔ ∀ h ∈ hs, ¬ h.ExecHigh t := by
    rw [List.flatMap_eq_nil_iff]
    constructor
    · intro h c hc e
      have := mem_highNames.2 ⟨e, rfl⟩
      rw [h c hc] at this; simp at this
    · intro h c hc
      exact List.eq_nil_iff_forall_not_mem.2 fun n hn => h c hc (mem_highNames.1 hn).1
  have e2 : hs.flatMap (Comp.badNames r t) = [] ↔ ∀ h ∈ hs, ¬ h.RateBad r t := by
    rw [List.flatMap_eq_nil_iff]
    constructor
    · intro h c hc e
      have := mem_badNames.2 ⟨e, rfl⟩
      rw [h c hc] at this; simp at this
    · intro h c hc
      exact List.eq_nil_iff_forall_not_mem.2 fun n hn => h c hc (mem_badNames.1 hn).1
  simp only [List.nil_append, e1, e2, true_and, not_exists, not_and, not_or]
  constructor
  · rintro ⟨_, h⟩; exact ⟨fun c hc => (h c hc).1, fun c hc => (h c hc).2⟩
  · rintro ⟨h, g⟩
    exact ⟨fun c hc => ⟨fun e => h c hc e.high, fun e => g c hc e.bad⟩, fun c hc => ⟨h c hc, g c hc⟩⟩

/-- The whole controllers diagnostic. -/
theorem controllers_eq (r : Nat) (t : Thrs) (hw : List LState) (cs : List Ctl) :
    ∃ s : Status, s.level = (ctlAcc r t cs).level ∧ s.values = (ctlAcc r t cs).values ∧
      s.msg = (if (ctlAcc r t cs).level = .ok then [if cs.all (·.state = .active) then .allActive else .notAllActive] else [])
        ++ (if (ctlAcc r t cs).high = [] then [] else [.highExec (ctlAcc r t cs).high])
        ++ (if (ctlAcc r t cs).bad = [] then [] else [.badPeriodicity (ctlAcc r t cs).bad]) ∧
      controllers r t hw cs =
        if !hw.any (· = .active) then s.merge .error .noHardwareActive
        else if cs.isEmpty then s.merge .warn .noControllers else s := by
  refine ⟨_, ?_, ?_, ?_, rfl⟩
  · exact (report_eq rfl rfl (ctlAcc_ok r t cs)).1
  · exact (report_eq rfl rfl (ctlAcc_ok r t cs)).2.1
  · exact (report_eq rfl rfl (ctlAcc_ok r t cs)).2.2

/-! ## Controllers -/

/-- C64: the controllers diagnostic is an ERROR exactly if no hardware component is active or an active controller is
beyond an error threshold, and OK exactly if some hardware is active, some controller is loaded and no active controller is
beyond any threshold. -/
theorem controllers_level (r : Nat) (t : Thrs) (hw : List LState) (cs : List Ctl) :
    ((controllers r t hw cs).level = .error ↔
      (∀ s ∈ hw, s ≠ .active) ∨ ∃ c ∈ cs, c.ExecErr t ∨ c.RateErr r t) ∧
    ((controllers r t hw cs).level = .ok ↔
      (∃ s ∈ hw, s = .active) ∧ cs ≠ [] ∧ ∀ c ∈ cs, ¬ c.ExecHigh t ∧ ¬ c.RateBad r t) := by
  obtain ⟨s, hl, -, -, e⟩ := controllers_eq r t hw cs
  have A := Adds.ctls r t { values := [], level := .ok, high := [], bad := [] } cs
  have he : s.level = .error ↔ ∃ c ∈ cs, c.ExecErr t ∨ c.RateErr r t := by rw [hl, A.err]; simp
  have ho : s.level = .ok ↔ ∀ c ∈ cs, ¬ c.ExecHigh t ∧ ¬ c.RateBad r t := by
    rw [hl, A.ok]
    simp only [true_and, not_exists, not_and, not_or]
    constructor
    · exact fun h => h.2
    · exact fun h => ⟨fun c hc => ⟨fun e => (h c hc).1 e.high, fun e => (h c hc).2 e.bad⟩, h⟩
  rw [e]
  by_cases a : ∃ s ∈ hw, s = LState.active
  · have a' : hw.any (· = .active) = true := any_active.2 a
    have a'' : ¬ ∀ s ∈ hw, s ≠ LState.active := by rintro h; obtain ⟨x, hx, hx'⟩ := a; exact h x hx hx'
    simp only [a', Bool.not_true, Bool.false_eq_true, if_false, a'', false_or, a, true_and]
    cases cs with
    | nil =>
      simp only [List.isEmpty_nil, if_true]
      have m := merge_level s .warn .noControllers
      rw [m.1, m.2, he]
      simp
    | cons c cs =>
      simp only [List.isEmpty_cons, Bool.false_eq_true, if_false, he, ho]
      simp
  · have a' : hw.any (· = .active) = false := by
      rw [← Bool.not_eq_true, any_active]; exact a
    have a'' : ∀ s ∈ hw, s ≠ LState.active := fun x hx h => a ⟨x, hx, h⟩
    simp only [a', Bool.not_false, if_true, a, false_and, iff_false]
    have m := merge_level s .error .noHardwareActive
    exact ⟨by rw [m.1]; exact ⟨fun _ => .inl a'', fun _ => .inr rfl⟩, by rw [m.2]; simp⟩

/-- C64: the message of the controllers diagnostic blames exactly the controllers that are beyond a threshold, in their order,
says that there is no active hardware or no controller exactly if so, and "all active" only if that is all there is to say. -/
theorem controllers_message (r : Nat) (t : Thrs) (hw : List LState) (cs : List Ctl) (hn : (cs.map Ctl.name).Nodup) :
    (∀ l, .highExec l ∈ (controllers r t hw cs).msg ↔
      l ≠ [] ∧ l = (cs.filter fun c => c.ExecHigh t).map Ctl.name) ∧
    (∀ l, .badPeriodicity l ∈ (controllers r t hw cs).msg ↔
      l ≠ [] ∧ l = (cs.filter fun c => c.RateBad r t).map Ctl.name) ∧
    (.noHardwareActive ∈ (controllers r t hw cs).msg ↔ ∀ s ∈ hw, s ≠ .active) ∧
    (.noControllers ∈ (controllers r t hw cs).msg ↔ (∃ s ∈ hw, s = .active) ∧ cs = []) ∧
    (.allActive ∈ (controllers r t hw cs).msg ↔
      (controllers r t hw cs).level = .ok ∧ ∀ c ∈ cs, c.state = .active) ∧
    (.notAllActive ∈ (controllers r t hw cs).msg ↔
      (controllers r t hw cs).level = .ok ∧ ∃ c ∈ cs, c.state ≠ .active) := by
  obtain ⟨s, hl, -, hm, e⟩ := controllers_eq r t hw cs
  have A := Adds.ctls r t { values := [], level := .ok, high := [], bad := [] } cs
  have hh : (ctlAcc r t cs).high = (cs.filter fun c => c.ExecHigh t).map Ctl.name := by rw [A.high]; rfl
  have hb : (ctlAcc r t cs).bad = (cs.filter fun c => c.RateBad r t).map Ctl.name := by
    rw [A.bad, foldl_addItem_nodup]
    · rfl
    · exact hn.sublist (List.filter_sublist.map _)
  rw [← hh, ← hb]
  have ok := ctlAcc_ok r t cs
  revert hm hl ok
  generalize ctlAcc r t cs = a
  intro hl hm ok
  -- the message of the whole: complaints stay, an OK text goes
  have key : (controllers r t hw cs).msg =
      (if (controllers r t hw cs).level = .ok then [if cs.all (·.state = .active) then .allActive else .notAllActive] else [])
        ++ (if a.high = [] then [] else [.highExec a.high]) ++ (if a.bad = [] then [] else [.badPeriodicity a.bad])
        ++ (if !hw.any (· = .active) then [.noHardwareActive] else if cs.isEmpty then [.noControllers] else []) := by
    rw [e]
    have go : ∀ (l : Level) (n : Note), l ≠ .ok → (s.merge l n).msg =
        (if (s.merge l n).level = .ok then [if cs.all (·.state = .active) then .allActive else .notAllActive] else [])
        ++ (if a.high = [] then [] else [.highExec a.high]) ++ (if a.bad = [] then [] else [.badPeriodicity a.bad]) ++ [n] := by
      intro l n h
      rw [merge_msg s n h, hm, hl]
      have : ¬ (s.merge l n).level = .ok := by rw [(merge_level s l n).2]; exact fun x => h x.2
      rw [if_neg this]
      by_cases o : a.level = .ok
      · simp [o, (ok.1 o).1, (ok.1 o).2]
      · simp [o]
    split
    · rw [go _ _ (by simp)]
    · split
      · rw [go _ _ (by simp)]
      · rw [hm, ← hl, List.append_nil]
  clear e A hh hb hm hl ok
  rw [key]
  generalize hL : (controllers r t hw cs).level = L
  by_cases ha : ∃ s ∈ hw, s = LState.active
  · have a1 : hw.any (· = .active) = true := any_active.2 ha
    have a2 : ¬ ∀ s ∈ hw, s ≠ LState.active := by intro h; obtain ⟨x, hx, hx'⟩ := ha; exact h x hx hx'
    simp only [a1, a2, ha, Bool.not_true, Bool.false_eq_true, if_false, true_and, List.mem_append, mem_opt, mem_opt',
      List.isEmpty_iff]
    refine ⟨fun l => ?_, fun l => ?_, ?_, ?_, ?_, ?_⟩
    · simp only [Note.highExec.injEq, reduceCtorEq, and_false, or_false]
      constructor
      · rintro (⟨-, h⟩ | ⟨h, rfl⟩)
        · exfalso; revert h; split <;> simp
        · exact ⟨h, rfl⟩
      · rintro ⟨h, rfl⟩; exact .inr ⟨h, rfl⟩
    · simp only [Note.badPeriodicity.injEq, reduceCtorEq, and_false, or_false]
      constructor
      · rintro (⟨-, h⟩ | ⟨h, rfl⟩)
        · exfalso; revert h; split <;> simp
        · exact ⟨h, rfl⟩
      · rintro ⟨h, rfl⟩; exact .inr ⟨h, rfl⟩
    · simp only [reduceCtorEq, and_false, or_false, iff_false, not_and]
      intro _; split <;> simp
    · simp only [reduceCtorEq, and_false, or_false, and_true]
      constructor
      · rintro (⟨-, h⟩ | h)
        · exfalso; revert h; split <;> simp
        · exact h
      · exact .inr
    · simp only [reduceCtorEq, and_false, or_false]
      refine and_congr_right fun _ => ?_
      split
      · rename_i h
        simp only [true_iff]
        exact fun c hc => by simpa using List.all_eq_true.1 h c hc
      · rename_i h
        simp only [reduceCtorEq, false_iff]
        exact fun g => h (List.all_eq_true.2 fun c hc => by simpa using g c hc)
    · simp only [reduceCtorEq, and_false, or_false]
      refine and_congr_right fun _ => ?_
      split
      · rename_i h
        simp only [reduceCtorEq, false_iff]
        rintro ⟨c, hc, hc'⟩
        exact hc' (by simpa using List.all_eq_true.1 h c hc)
      · rename_i h
        simp only [true_iff]
        by_contra g
        exact h (List.all_eq_true.2 fun c hc => by
          by_contra x
          exact g ⟨c, hc, by simpa using x⟩)
  · have a1 : hw.any (· = .active) = false := by rw [← Bool.not_eq_true, any_active]; exact ha
    have a2 : ∀ s ∈ hw, s ≠ LState.active := fun x hx h => ha ⟨x, hx, h⟩
    simp only [a1, ha, Bool.not_false, if_true, false_and, List.mem_append, mem_opt, mem_opt', List.mem_singleton]
    refine ⟨fun l => ?_, fun l => ?_, ?_, ?_, ?_, ?_⟩
    · simp only [Note.highExec.injEq, reduceCtorEq, and_false, or_false]
      constructor
      · rintro (⟨-, h⟩ | ⟨h, rfl⟩)
        · exfalso; revert h; split <;> simp
        · exact ⟨h, rfl⟩
      · rintro ⟨h, rfl⟩; exact .inr ⟨h, rfl⟩
    · simp only [Note.badPeriodicity.injEq, reduceCtorEq, and_false, or_false]
      constructor
      · rintro (⟨-, h⟩ | ⟨h, rfl⟩)
        · exfalso; revert h; split <;> simp
        · exact ⟨h, rfl⟩
      · rintro ⟨h, rfl⟩; exact .inr ⟨h, rfl⟩
    · exact ⟨fun _ => a2, fun _ => .inr trivial⟩
    · simp only [reduceCtorEq, and_false, or_false, iff_false, not_and]
      intro _; split <;> simp
    · simp only [reduceCtorEq, and_false, or_false]
      refine and_congr_right fun _ => ?_
      split
      · rename_i h
        simp only [true_iff]
        exact fun c hc => by simpa using List.all_eq_true.1 h c hc
      · rename_i h
        simp only [reduceCtorEq, false_iff]
        exact fun g => h (List.all_eq_true.2 fun c hc => by simpa using g c hc)
    · simp only [reduceCtorEq, and_false, or_false]
      refine and_congr_right fun _ => ?_
      split
      · rename_i h
        simp only [reduceCtorEq, false_iff]
        rintro ⟨c, hc, hc'⟩
        exact hc' (by simpa using List.all_eq_true.1 h c hc)
      · rename_i h
        simp only [true_iff]
        by_contra g
        exact h (List.all_eq_true.2 fun c hc => by
          by_contra x
          exact g ⟨c, hc, by simpa using x⟩)

/-- C64: the values of the controllers diagnostic are, for every loaded controller in the order of the list, its lifecycle
state, its execution time if it is active and its rate if it is active and watched. -/
theorem controllers_values (r : Nat) (t : Thrs) (hw : List LState) (cs : List Ctl) :
    (controllers r t hw cs).values = cs.flatMap (Ctl.entries r) := by
  obtain ⟨s, -, hv, -, e⟩ := controllers_eq r t hw cs
  have A := Adds.ctls r t { values := [], level := .ok, high := [], bad := [] } cs
  rw [e]
  have : s.values = cs.flatMap (Ctl.entries r) := by rw [hv, A.values]; rfl
  split
  · exact this
  · split
    · exact this
    · exact this

/-! ## Hardware components -/

theorem hardware_eq (r : Nat) (t : Thrs) (hs : List Comp) (h : ∃ c ∈ hs, c.state = .active) :
    (hardware r t true hs).level = (compAcc r t hs).level ∧ (hardware r t true hs).values = (compAcc r t hs).values ∧
    (hardware r t true hs).msg =
      (if (compAcc r t hs).level = .ok then [if hs.all (·.state = .active) then .allActive else .notAllActive] else [])
        ++ (if (compAcc r t hs).high = [] then [] else [.highExec (compAcc r t hs).high])
        ++ (if (compAcc r t hs).bad = [] then [] else [.badPeriodicity (compAcc r t hs).bad]) := by
  have a : hs.any (·.state = .active) = true := by simpa using h
  have n : hs.isEmpty = false := by cases hs with
    | nil => simp at h
    | cons => rfl
  unfold hardware
  simp only [Bool.not_true, Bool.false_eq_true, if_false, a, n]
  exact report_eq rfl rfl (compAcc_ok r t hs)

/-- C64: the hardware diagnostic is an ERROR exactly if the robot description is not loaded, there is no component or an
active component is beyond an error threshold in some cycle; it is OK exactly if the description is loaded, some component
is active and none of the active ones is beyond any threshold. -/
theorem hardware_level (r : Nat) (t : Thrs) (ini : Bool) (hs : List Comp) :
    ((hardware r t ini hs).level = .error ↔ ini = false ∨ hs = [] ∨ ∃ h ∈ hs, h.ExecErr t ∨ h.RateErr r t) ∧
    ((hardware r t ini hs).level = .ok ↔
      ini = true ∧ (∃ h ∈ hs, h.state = .active) ∧ ∀ h ∈ hs, ¬ h.ExecHigh t ∧ ¬ h.RateBad r t) := by
  cases ini with
  | false => simp [hardware, Status.summary]
  | true =>
    by_cases a : ∃ h ∈ hs, h.state = .active
    · obtain ⟨hl, -, -⟩ := hardware_eq r t hs a
      have A := Adds.comps r t { values := [], level := .ok, high := [], bad := [] } hs
      have n : hs ≠ [] := by rintro rfl; simp at a
      rw [hl, A.err, A.ok]
      simp only [Bool.true_eq_false, false_or, reduceCtorEq, n, a, true_and, not_exists, not_and, not_or]
      · constructor
        · exact fun h => h.2
        · exact fun h => ⟨fun c hc => ⟨fun e => (h c hc).1 e.high, fun e => (h c hc).2 e.bad⟩, h⟩
    · have a' : hs.any (·.state = .active) = false := by simpa using a
      have noErr : ¬ ∃ h ∈ hs, h.ExecErr t ∨ h.RateErr r t := by
        rintro ⟨h, hh, e | e⟩
        · exact a ⟨h, hh, e.1⟩
        · exact a ⟨h, hh, e.1⟩
      simp only [a, noErr, false_and, and_false, iff_false, or_false, Bool.true_eq_false, false_or]
      unfold hardware
      simp only [Bool.not_true, Bool.false_eq_true, if_false, a', Bool.not_false, if_true]
      cases hs with
      | nil => simp [Status.summary]
      | cons c cs => simp [Status.summary]

/-- C64: the message of the hardware diagnostic blames exactly the active components that are beyond a threshold in some
cycle (nobody twice for the rate), and the texts about missing things are exactly true. -/
theorem hardware_message (r : Nat) (t : Thrs) (ini : Bool) (hs : List Comp) :
    (∀ n, (∃ l, .highExec l ∈ (hardware r t ini hs).msg ∧ n ∈ l) ↔
      ini = true ∧ ∃ h ∈ hs, h.ExecHigh t ∧ n = h.name) ∧
    (∀ n, (∃ l, .badPeriodicity l ∈ (hardware r t ini hs).msg ∧ n ∈ l) ↔
      ini = true ∧ ∃ h ∈ hs, h.RateBad r t ∧ n = h.name) ∧
    (∀ l, .badPeriodicity l ∈ (hardware r t ini hs).msg → l.Nodup) ∧
    (.notInitialized ∈ (hardware r t ini hs).msg ↔ ini = false) ∧
    (.noHardware ∈ (hardware r t ini hs).msg ↔ ini = true ∧ hs = []) ∧
    (.noHardwareActive ∈ (hardware r t ini hs).msg ↔ ini = true ∧ hs ≠ [] ∧ ∀ h ∈ hs, h.state ≠ .active) ∧
    (.allActive ∈ (hardware r t ini hs).msg ↔ (hardware r t ini hs).level = .ok ∧ ∀ h ∈ hs, h.state = .active) := by
  cases ini with
  | false => simp [hardware, Status.summary]
  | true =>
    by_cases a : ∃ h ∈ hs, h.state = .active
    · obtain ⟨hl, -, hm⟩ := hardware_eq r t hs a
      have A := Adds.comps r t { values := [], level := .ok, high := [], bad := [] } hs
      have n : hs ≠ [] := by rintro rfl; simp at a
      have na : ¬ ∀ h ∈ hs, h.state ≠ LState.active := by
        intro h; obtain ⟨c, hc, hc'⟩ := a; exact h c hc hc'
      have hh : ∀ n, n ∈ (compAcc r t hs).high ↔ ∃ h ∈ hs, h.ExecHigh t ∧ n = h.name := by
        intro n
        rw [A.high]
        simp only [List.nil_append, List.mem_flatMap, mem_highNames]
      have hb : ∀ n, n ∈ (compAcc r t hs).bad ↔ ∃ h ∈ hs, h.RateBad r t ∧ n = h.name := by
        intro n
        rw [A.bad, mem_foldl_addItem]
        simp only [List.not_mem_nil, false_or, List.mem_flatMap, mem_badNames]
      have hd : (compAcc r t hs).bad.Nodup := by rw [A.bad]; exact foldl_addItem_ndup (by simp)
      rw [hl, hm]
      revert hh hb hd
      generalize compAcc r t hs = x
      intro hh hb hd
      clear hl hm A
      simp only [Bool.true_eq_false, n, na, true_and, ne_eq, not_false_eq_true, and_false, iff_false, List.mem_append,
        mem_opt, mem_opt']
      have nb : ∀ l, ¬ (x.level = .ok ∧ Note.highExec l = if hs.all (·.state = .active) then .allActive else .notAllActive) := by
        rintro l ⟨-, h⟩; revert h; split <;> simp
      have nc : ∀ l, ¬ (x.level = .ok ∧
          Note.badPeriodicity l = if hs.all (·.state = .active) then .allActive else .notAllActive) := by
        rintro l ⟨-, h⟩; revert h; split <;> simp
      simp only [nb, nc, Note.highExec.injEq, Note.badPeriodicity.injEq, reduceCtorEq, and_false, or_false, false_or]
      refine ⟨fun m => ?_, fun m => ?_, fun l => ?_, ?_, ?_, ?_, ?_⟩
      · rw [← hh]
        constructor
        · rintro ⟨l, ⟨-, rfl⟩, h⟩; exact h
        · intro h
          exact ⟨_, ⟨fun e => by rw [e] at h; simp at h, rfl⟩, h⟩
      · rw [← hb]
        constructor
        · rintro ⟨l, ⟨-, rfl⟩, h⟩; exact h
        · intro h
          exact ⟨_, ⟨fun e => by rw [e] at h; simp at h, rfl⟩, h⟩
      · rintro ⟨-, rfl⟩; exact hd
      · rintro ⟨-, h⟩; revert h; split <;> simp
      · rintro ⟨-, h⟩; revert h; split <;> simp
      · rintro ⟨-, h⟩; revert h; split <;> simp
      · refine and_congr_right fun _ => ?_
        split
        · rename_i h
          simp only [true_iff]
          exact fun c hc => by simpa using List.all_eq_true.1 h c hc
        · rename_i h
          simp only [reduceCtorEq, false_iff]
          exact fun g => h (List.all_eq_true.2 fun c hc => by simpa using g c hc)
    · have a' : hs.any (·.state = .active) = false := by simpa using a
      have na : ∀ h ∈ hs, h.state ≠ LState.active := fun h hh e => a ⟨h, hh, e⟩
      have n1 : ∀ n, ¬ ∃ h ∈ hs, h.ExecHigh t ∧ n = h.name := by rintro n ⟨h, hh, e, -⟩; exact na h hh e.1
      have n2 : ∀ n, ¬ ∃ h ∈ hs, h.RateBad r t ∧ n = h.name := by rintro n ⟨h, hh, e, -⟩; exact na h hh e.1
      simp only [n1, n2, and_false, iff_false]
      unfold hardware
      simp only [Bool.not_true, Bool.false_eq_true, if_false, a', Bool.not_false, if_true]
      cases hs with
      | nil => simp [Status.summary]
      | cons c cs =>
        have := na c (by simp)
        simp only [List.isEmpty_cons, Bool.false_eq_true, if_false, Status.summary, List.mem_singleton, reduceCtorEq,
          false_and, not_false_eq_true, and_self, exists_false, false_implies, implies_true, iff_false, Bool.true_eq_false]
        simpa using na

/-- C64: the values of the hardware diagnostic are, once the description is loaded and some component is active, for every
component its lifecycle state and, if it is active, the statistics of its cycles; otherwise there is none. -/
theorem hardware_values (r : Nat) (t : Thrs) (ini : Bool) (hs : List Comp) :
    (hardware r t ini hs).values =
      if ini = true ∧ ∃ h ∈ hs, h.state = .active then hs.flatMap (Comp.entries r) else [] := by
  cases ini with
  | false => simp [hardware, Status.summary, Status.new]
  | true =>
    by_cases a : ∃ h ∈ hs, h.state = .active
    · obtain ⟨-, hv, -⟩ := hardware_eq r t hs a
      have A := Adds.comps r t { values := [], level := .ok, high := [], bad := [] } hs
      rw [if_pos ⟨rfl, a⟩, hv, A.values]
      rfl
    · have a' : hs.any (·.state = .active) = false := by simpa using a
      rw [if_neg (fun h => a h.2)]
      unfold hardware
      simp only [Bool.not_true, Bool.false_eq_true, if_false, a', Bool.not_false, if_true]
      split <;> rfl

/-! ## The controller manager itself -/

/-- C64: the diagnostic of the controller manager is an ERROR exactly if a received description could not be loaded or the
loop is beyond an error threshold, OK exactly if the description is loaded and the loop within all thresholds; it complains
about the loop exactly if that is beyond a threshold. -/
theorem manager_level (r : Nat) (t : Thr) (ini desc : Bool) (d : Data) :
    ((manager r t ini desc d).level = .error ↔ (ini = false ∧ desc = true) ∨ t.BeyondErr (rateDev d r) d.sd) ∧
    ((manager r t ini desc d).level = .ok ↔ ini = true ∧ ¬ t.Beyond (rateDev d r) d.sd) ∧
    (.badLoop ∈ (manager r t ini desc d).msg ↔ t.Beyond (rateDev d r) d.sd) := by
  by_cases h : t.BeyondErr (rateDev d r) d.sd
  · have b : t.Beyond (rateDev d r) d.sd := .inl h
    have e : (Dbl.lt t.meanErr (rateDev d r) || Dbl.lt t.sdErr d.sd) = true := by simpa [Thr.BeyondErr] using h
    simp only [rateDev] at e
    simp only [h, b]
    unfold manager
    dsimp only
    rw [if_pos e]
    cases ini <;> cases desc <;> simp [Status.merge, Status.summary, Level.num]
  · have e : ¬ (Dbl.lt t.meanErr (rateDev d r) || Dbl.lt t.sdErr d.sd) = true := by simpa [Thr.BeyondErr] using h
    simp only [rateDev] at e
    by_cases b : t.Beyond (rateDev d r) d.sd
    · have e' : (Dbl.lt t.meanWarn (rateDev d r) || Dbl.lt t.sdWarn d.sd) = true := by
        rcases b with b | b
        · exact absurd b h
        · simpa using b
      simp only [rateDev] at e'
      simp only [h, b]
      unfold manager
      dsimp only
      rw [if_neg e, if_pos e']
      cases ini <;> cases desc <;> simp [Status.merge, Status.summary, Level.num]
    · have e' : ¬ (Dbl.lt t.meanWarn (rateDev d r) || Dbl.lt t.sdWarn d.sd) = true := by
        intro g
        exact b (.inr (by simpa using g))
      simp only [rateDev] at e'
      simp only [h, b]
      unfold manager
      dsimp only
      rw [if_neg e, if_neg e']
      cases ini <;> cases desc <;> simp [Status.summary]

/-- C64: statistics without any sample blame nobody, whatever the thresholds: right after the start, and for a controller
whose update is never reached, the diagnostics are silent. -/
theorem unsampled_silent (t : Thr) (rate : Nat) (async : Bool) (d : Data) (ha : d.avg = .nan) (hs : d.sd = .nan) :
    ¬ t.Beyond (rateDev d rate) d.sd ∧ ¬ t.Beyond (execDev d async rate) d.sd := by
  have e1 : rateDev d rate = .nan := by unfold rateDev; rw [ha]; rfl
  have e2 : execDev d async rate = .nan := by
    unfold execDev; rw [ha]
    have nan_sub : ∀ x : Dbl, (Dbl.nan - x : Dbl) = .nan := by intro x; cases x <;> rfl
    exact nan_sub _
  rw [e1, e2, hs]
  simp [Thr.Beyond, Thr.BeyondErr]

/-! ## Concrete cases -/

/-- The default thresholds (controller_manager_parameters.yaml:122-192). -/
def defaults : Thrs := { per := ⟨5, 10, 5, 10⟩, exec := ⟨1000, 2000, 100, 200⟩ }

/-- An active controller at its own rate of 50 Hz that only reaches 30, a slow one, a fine one, an inactive one. -/
def someCtls : List Ctl :=
  [ { name := 1, state := .active, async := false, rate := 50, per := ⟨30, 1⟩, exec := ⟨10, 1⟩ },
    { name := 2, state := .active, async := false, rate := 100, per := ⟨30, 1⟩, exec := ⟨1500, 1⟩ },
    { name := 3, state := .active, async := true, rate := 100, per := ⟨100, 1⟩, exec := ⟨9000, 1⟩ },
    { name := 4, state := .inactive, async := true, rate := 100, per := ⟨0, 1⟩, exec := ⟨90000, 1⟩ } ]

example : (controllers 100 defaults [.inactive, .active] someCtls).level = .error ∧
    (controllers 100 defaults [.inactive, .active] someCtls).msg = [.highExec [2], .badPeriodicity [1]] := by
  decide +kernel

example : (controllers 100 defaults [.active] (someCtls.drop 1)).level = .warn ∧
    (controllers 100 defaults [.active] (someCtls.drop 2)).msg = [.notAllActive] ∧
    (controllers 100 defaults [.active] []).level = .warn ∧
    (controllers 100 defaults [.inactive] someCtls).msg = [.highExec [2], .badPeriodicity [1], .noHardwareActive] := by
  decide +kernel

example : (someCtls.map Ctl.name).Nodup := by decide

/-- A system that writes slowly and irregularly, and a sensor. -/
def someComps : List Comp :=
  [ { name := 1, state := .active, async := false, rate := 50, read := some ⟨⟨50, 1⟩, ⟨10, 1⟩⟩,
      write := some ⟨⟨44, 1⟩, ⟨10, 300⟩⟩ },
    { name := 2, state := .active, async := false, rate := 100, read := some ⟨⟨.nan, .nan⟩, ⟨.nan, .nan⟩⟩, write := none } ]

example : (hardware 100 defaults true someComps).level = .error ∧
    (hardware 100 defaults true someComps).msg = [.highExec [1], .badPeriodicity [1]] ∧
    (hardware 100 defaults true (someComps.drop 1)).msg = [.allActive] := by decide +kernel

example : (manager 100 defaults.per true true ⟨93, 1⟩).msg = [.badLoop] ∧
    (manager 100 defaults.per true true ⟨93, 1⟩).level = .warn ∧
    (manager 100 defaults.per false true ⟨93, 1⟩).msg = [.initFailed, .badLoop] ∧
    (manager 100 defaults.per false false ⟨100, 1⟩).level = .warn := by decide +kernel

/-- Statistics start without samples. -/
example : (Stat.run []).2.data.average = .nan ∧ (Stat.run [.resetCurrent, .publish]).2.data.average = .nan := by
  decide +kernel

end Diag
end Verif
