import Verif.Props.C77_Gui
/-!
# C77: the table of hardware components and the clicks on it
-/
namespace Verif
namespace Gui

/-- Specification: what became of asking managers for their hardware components. -/
abbrev HwLog := List (Mgr × Ans HwRow)

/-- Specification: the manager chosen is asked when a timer says so. -/
def askHwTick (c : Choice) (g : HwLog) : Tick → HwLog
  | .hw a => match c.chosen with
    | some m => g ++ [(m, a)]
    | none => g
  | _ => g

/-- Specification: the choice and the answers, over some timers. -/
def askHwTicks (s : Choice × HwLog) (l : List Tick) : Choice × HwLog := l.foldl (fun s t => (s.1.tick t, askHwTick s.1 s.2 t)) s

/-- Specification: a manager is asked as soon as it is chosen; in vain if it could not even be asked for its controllers. -/
def hwAnswer (a : Ans Row) (h : Ans HwRow) : Ans HwRow := if a = .gone then .gone else h

/-- Specification: a manager is asked as soon as it is chosen, and when a timer says so. -/
def askHwStep (s : Choice × HwLog) : Op → Choice × HwLog
  | .tick t => askHwTicks s [t]
  | .select m a h => (s.1.step (.select m a h), if m ∈ s.1.offered ∧ s.1.chosen ≠ some m then s.2 ++ [(m, hwAnswer a h)] else s.2)
  | .click _ during _ => askHwTicks s during
  | .hwClick _ during _ => askHwTicks s during

/-- Specification: all answers of a session. -/
def askedHw (ops : List Op) : HwLog := (ops.foldl askHwStep (⟨[], none⟩, [])).2

/-- Specification: the table for an answer; nothing for an exception. -/
def showsHw : Ans HwRow → Option (List HwRow)
  | .rows l _ => some l
  | .silent => some []
  | .gone => none

/-- Specification: the table of the last answer that was one. -/
def lastHw (g : HwLog) : List HwRow := ((g.filterMap fun p => showsHw p.2).getLast?).getD []

theorem lastHw_snoc (g : HwLog) (m : Mgr) (a : Ans HwRow) : lastHw (g ++ [(m, a)]) = (showsHw a).getD (lastHw g) := by
  unfold lastHw
  rw [List.filterMap_append]
  cases h : showsHw a <;> simp [h]

/-- What the window and the answers have to do with each other. -/
structure HwTrack (w : Window) (s : Choice × HwLog) : Prop where
  agree : Agree w s.1
  hws : w.hws = lastHw s.2
  last : ∀ m, s.1.chosen = some m → ∃ a, s.2.getLast? = some (m, a)

theorem updateHw_hws (w : Window) (a : Ans HwRow) (m : Mgr) (h : w.cm = some m) : (w.updateHw a).hws = (showsHw a).getD w.hws := by
  unfold Window.updateHw
  rw [if_neg (by simp [h])]
  cases a <;> rfl

theorem HwTrack.tick {w : Window} {s : Choice × HwLog} (g : HwTrack w s) (t : Tick) : HwTrack (w.tick t) (s.1.tick t, askHwTick s.1 s.2 t) := by
  have ga := g.agree.tick t
  cases t with
  | managers l =>
    refine ⟨ga, ?_, ?_⟩
    · show (w.updateCombo l).hws = lastHw s.2
      rw [← g.hws]
      have hr : (w.setCurrent none .silent .silent).hws = w.hws := by
        unfold Window.setCurrent Window.onChange
        split <;> simp
      unfold Window.updateCombo
      split
      · rfl
      · split
        · split
          · rfl
          · exact hr
        · exact hr
    · intro m hm
      simp only [Choice.tick] at hm
      split at hm
      · exact g.last m hm
      · cases hm
  | ctl a =>
    exact ⟨ga, (updateCtl_fields w a).2.2.2.trans g.hws, g.last⟩
  | hw a =>
    cases hc : s.1.chosen with
    | none =>
      have hcm : w.cm = none := g.agree.cm.trans hc
      refine ⟨ga, ?_, ?_⟩
      · simp only [Window.tick, Window.updateHw, hcm, if_true, askHwTick, hc]; exact g.hws
      · intro m hm; simp [Choice.tick, hc] at hm
    | some m =>
      have hcm : w.cm = some m := g.agree.cm.trans hc
      refine ⟨ga, ?_, ?_⟩
      · simp only [Window.tick, askHwTick, hc]
        rw [updateHw_hws w a m hcm, lastHw_snoc, g.hws]
      · intro x hx
        have hx : m = x := by simpa [Choice.tick, hc] using hx
        exact ⟨a, by simp [askHwTick, hc, hx]⟩

theorem HwTrack.ticks {w : Window} {s : Choice × HwLog} (g : HwTrack w s) (l : List Tick) : HwTrack (l.foldl Window.tick w) (askHwTicks s l) := by
  induction l generalizing w s with
  | nil => exact g
  | cons t l ih => exact ih (g.tick t)

theorem HwTrack.step {w : Window} {s : Choice × HwLog} (g : HwTrack w s) (o : Op) : HwTrack (w.step o).1 (askHwStep s o) := by
  cases o with
  | tick t => exact g.tick t
  | click i during e =>
    simp only [Window.step, askHwStep]
    split
    · exact g.ticks during
    · split <;> exact g.ticks during
  | hwClick i during e =>
    simp only [Window.step, askHwStep]
    split
    · exact g.ticks during
    · split <;> exact g.ticks during
  | select m a h =>
    have ga := g.agree.step (.select m a h)
    simp only [Window.step, askHwStep, Choice.step] at ga ⊢
    by_cases hm : m ∈ w.items
    · have hm' := (g.agree.items m).1 hm
      rw [if_pos hm, if_pos hm'] at ga ⊢
      by_cases hc : s.1.chosen = some m
      · rw [if_neg (by simp [hc])]
        have e : w.setCurrent (some m) a h = w := by
          unfold Window.setCurrent; rw [if_pos (g.agree.cur.trans hc)]
        rw [e] at ga ⊢
        exact ⟨ga, g.hws, fun x hx => g.last x (hc.trans hx)⟩
      · rw [if_pos ⟨hm', hc⟩]
        refine ⟨ga, ?_, ?_⟩
        · rw [lastHw_snoc, ← g.hws]
          unfold Window.setCurrent
          rw [if_neg (by rw [g.agree.cur]; exact hc)]
          unfold Window.onChange
          extract_lets w' r
          rw [if_neg (by simp)]
          obtain ⟨-, -, h3, h4⟩ := updateCtl_fields w' a
          have hr : r.2 = decide (a ≠ .gone) := by
            show (w'.updateCtl a).2 = _
            unfold Window.updateCtl
            rw [if_neg (by simp [w'])]
            cases a <;> simp
          by_cases e : a = .gone
          · rw [if_neg (by simp [hr, e])]
            simp only [hwAnswer, e, if_true, showsHw, Option.getD_none]
            exact h4
          · rw [if_pos (by simp [hr, e])]
            simp only [hwAnswer, e, if_false]
            rw [updateHw_hws r.1 h m h3]
            exact congrArg _ h4
        · intro x hx
          simp only [Option.some.injEq] at hx
          exact ⟨hwAnswer a h, by simp [hx]⟩
    · have hm' : m ∉ s.1.offered := fun h => hm ((g.agree.items m).2 h)
      rw [if_neg hm, if_neg hm'] at ga ⊢
      rw [if_neg (by simp [hm'])]
      exact ⟨ga, g.hws, g.last⟩

theorem askHwTicks_fst (s : Choice × HwLog) (l : List Tick) : (askHwTicks s l).1 = l.foldl Choice.tick s.1 := by
  induction l generalizing s with
  | nil => rfl
  | cons t l ih => exact ih _

theorem askHwStep_fst (s : Choice × HwLog) (o : Op) : (askHwStep s o).1 = s.1.step o := by
  cases o with
  | tick t => rfl
  | select m a h => rfl
  | click i during e => exact askHwTicks_fst s during
  | hwClick i during e => exact askHwTicks_fst s during

theorem hwTrack (ops : List Op) : HwTrack (session ops) (choice ops, askedHw ops) := by
  have key : ∀ ops : List Op, (ops.foldl askHwStep (⟨[], none⟩, [])).1 = choice ops := by
    intro ops
    induction ops using List.reverseRecOn with
    | nil => rfl
    | append_singleton ops o ih => rw [List.foldl_append, choice_snoc, ← ih]; exact askHwStep_fst _ o
  have e : (choice ops, askedHw ops) = ops.foldl askHwStep (⟨[], none⟩, []) := by rw [← key]; rfl
  rw [e]
  clear e
  induction ops using List.reverseRecOn with
  | nil => exact ⟨agree [], rfl, by simp⟩
  | append_singleton ops o ih =>
    rw [session_snoc, List.foldl_append]
    exact ih.step o

/-- **C77 (hardware table).** The table of hardware components always shows the last answer that was one; if a manager is chosen, it was the last one to be
asked, and unless that ended with an exception the table shows its answer. (Full statement: as `RowsStatement`; false in the same way.) -/
theorem C77_hw_rows_partial (ops : List Op) :
    (session ops).hws = lastHw (askedHw ops) ∧
    ∀ m, (choice ops).chosen = some m → ∃ a, (askedHw ops).getLast? = some (m, a) ∧ (a ≠ .gone → some (session ops).hws = showsHw a) := by
  have g := hwTrack ops
  refine ⟨g.hws, fun m hm => ?_⟩
  obtain ⟨a, ha⟩ := g.last m hm
  refine ⟨a, ha, fun hg => ?_⟩
  rw [g.hws]
  obtain ⟨l, e⟩ : ∃ l, askedHw ops = l ++ [(m, a)] := by
    rw [List.getLast?_eq_some_iff] at ha
    exact ha
  rw [e, lastHw_snoc]
  cases a with
  | rows l ps => rfl
  | silent => rfl
  | gone => exact absurd rfl hg

/-- **C77 (hardware click).** What is sent by a click on a hardware component to some manager: one request for the state named by an entry of the menu for
the state shown, about a component this manager answered last; unless asking the manager ended with an exception. -/
theorem C77_hw_click_partial (ops : List Op) (i : Nat) (during : List Tick) (e : HwEntry) (s : Sent) (m : Mgr)
    (hs : s ∈ ((session ops).step (.hwClick i during e)).2) (hm : s.dest = some m) :
    ∃ a, (askedHw ops).getLast? = some (m, a) ∧
      (a ≠ .gone → ∃ l r, showsHw a = some l ∧ l[i]? = some r ∧ e ∈ hwMenu r.state ∧ s.req = [.setHw r.name e.target]) := by
  have hd := (C77_target ops).2 _ s hs
  rw [hm, choice_snoc] at hd
  have hc := ticks_chosen during _ m hd.symm
  obtain ⟨a, h1, h2⟩ := (C77_hw_rows_partial ops).2 m hc
  refine ⟨a, h1, fun hg => ?_⟩
  simp only [Window.step] at hs
  cases hr : (session ops).hws[i]? with
  | none => rw [hr] at hs; simp at hs
  | some r =>
    rw [hr] at hs
    simp only at hs
    split at hs
    · rename_i he
      simp only [List.mem_singleton] at hs
      exact ⟨(session ops).hws, r, (h2 hg).symm, hr, he, by rw [hs]⟩
    · simp at hs

/-- Specification: the entries offered for a hardware component never ask for the state it is in, and never skip a state on the way down or up
unless they name it. -/
theorem C77_hw_menu (st : LState) (e : HwEntry) (h : e ∈ hwMenu st) :
    e.target ≠ st ∧ (st = .active ∨ st = .inactive ∨ st = .unconfigured) := by
  cases st <;> simp only [hwMenu, List.mem_cons, List.not_mem_nil, or_false] at h <;> rcases h with rfl | rfl <;> simp [HwEntry.target]

/-- Non-vacuity: the second manager is chosen; its hardware is shown, and a click asks for it. And: when the controllers of the second manager cannot be
asked, its hardware is not even asked for, until a timer does it. -/
example :
    (session (opened ++ [.select 2 .silent (.rows [⟨31, .unconfigured⟩] [])])).hws = [⟨31, .unconfigured⟩] ∧
    ((session (opened ++ [.select 2 .silent (.rows [⟨31, .unconfigured⟩] [])])).step (.hwClick 0 [] .spawn)).2 = [⟨some 2, [.setHw 31 .active]⟩] ∧
    (session (opened ++ [.select 2 .gone (.rows [⟨31, .unconfigured⟩] [])])).hws = [⟨30, .active⟩] ∧
    (session (opened ++ [.select 2 .gone (.rows [⟨31, .unconfigured⟩] []), .tick (.hw (.rows [⟨31, .unconfigured⟩] []))])).hws = [⟨31, .unconfigured⟩] := by
  decide +kernel

end Gui
end Verif
