import Verif.Gui.Model
import Verif.Props.C68_Cli
/-!
# C77: a click in rqt_controller_manager does what the menu says, to what the window shows

What is asked for goes to the selected controller manager and is about the controller (or component) of the row that was clicked; the tables show what the
selected controller manager answered; and when the last request of an entry is answered with OK, the controller was in the state the entry names.
-/
namespace Verif
namespace Gui
open Spawn (Req Resp Prog Wire Answered SentAfter)
open Cli (after Reached)

/-! ## The managers offered -/

theorem rstrip_append (cs a b : List Char) (hb : ∀ c ∈ b, cs.contains c = true) : rstrip cs (a ++ b) = rstrip cs a := by
  unfold rstrip
  rw [List.reverse_append]
  have : ∀ (x y : List Char), (∀ c ∈ x, cs.contains c = true) → (x ++ y).dropWhile (fun c => cs.contains c) = y.dropWhile (fun c => cs.contains c) := by
    intro x y hx
    induction x with
    | nil => rfl
    | cons c t ih =>
      rw [List.cons_append, List.dropWhile_cons, if_pos (hx c (by simp))]
      exact ih fun d hd => hx d (by simp [hd])
  rw [this _ _ fun c hc => hb c (by simpa using hc)]

theorem rstrip_keep (cs a : List Char) (x : Char) (hx : cs.contains x = false) : rstrip cs (a ++ [x]) = a ++ [x] := by
  have hx' : x ∉ cs := by simpa using hx
  unfold rstrip
  simp [hx']

/-- Specification: a fully qualified name of a node: not empty, no slash at the end. -/
def NodeName (m : List Char) : Prop := ∃ a x, m = a ++ [x] ∧ x ≠ '/'

theorem strip_service (m : List Char) (hm : NodeName m) : rstrip ['/'] (rstrip listSrv (m ++ '/' :: listSrv)) = m := by
  obtain ⟨a, x, rfl, hx⟩ := hm
  have e : (a ++ [x]) ++ '/' :: listSrv = ((a ++ [x]) ++ ['/']) ++ listSrv := by simp
  rw [e, rstrip_append listSrv _ _ (by intro c hc; simpa using hc), rstrip_keep listSrv _ '/' (by decide), rstrip_append ['/'] _ ['/'] (by decide),
    rstrip_keep ['/'] a x (by simpa using hx)]

/-- **C77 (managers).** If all services whose names end in "list_controllers" are services of that name of some node, the combo box offers exactly these
nodes. -/
theorem C77_managers_partial (services : List (List Char))
    (h : ∀ n ∈ services, listSrv.isSuffixOf n = true → ∃ m, NodeName m ∧ n = m ++ '/' :: listSrv) (m : List Char) :
    m ∈ managersOf services ↔ NodeName m ∧ m ++ '/' :: listSrv ∈ services := by
  unfold managersOf
  rw [List.mem_map]
  constructor
  · rintro ⟨n, hn, rfl⟩
    obtain ⟨h1, h2⟩ := List.mem_filter.1 hn
    obtain ⟨m, hm, rfl⟩ := h n h1 h2
    rw [strip_service m hm]
    exact ⟨hm, h1⟩
  · rintro ⟨hm, hs⟩
    refine ⟨_, List.mem_filter.2 ⟨hs, ?_⟩, strip_service m hm⟩
    rw [List.isSuffixOf_iff_suffix]
    exact ⟨m ++ ['/'], by simp⟩

/-- Non-vacuity, and **negation (1)**: a service of another node whose name ends in "list_controllers" gives a node that does not exist. -/
theorem C77_managers_wrong :
    managersOf ["/arm/controller_manager/list_controllers".toList, "/arm/controller_manager/switch_controller".toList, "/rosout".toList] =
      ["/arm/controller_manager".toList] ∧
    managersOf ["/ui/my_list_controllers".toList] = ["/ui/my".toList] := by
  decide +kernel

/-! ## Whom the window talks to -/

/-- Specification: the managers there are, and the one the user has chosen: until it is gone, or another one is chosen. -/
structure Choice where
  offered : List Mgr
  chosen : Option Mgr

/-- Specification: a manager that is gone is no longer chosen. -/
def Choice.tick (c : Choice) : Tick → Choice
  | .managers l => { offered := l, chosen := if c.chosen.any (l.contains ·) then c.chosen else none }
  | _ => c

/-- Specification of the choice. -/
def Choice.step (c : Choice) : Op → Choice
  | .tick t => c.tick t
  | .select m _ _ => if m ∈ c.offered then { c with chosen := some m } else c
  | .click _ during _ => during.foldl Choice.tick c
  | .hwClick _ during _ => during.foldl Choice.tick c

/-- Specification: the choice after all that happened.  -/
def choice (ops : List Op) : Choice := ops.foldl Choice.step ⟨[], none⟩

structure Agree (w : Window) (c : Choice) : Prop where
  items : ∀ m, m ∈ w.items ↔ m ∈ c.offered
  cur : w.cur = c.chosen
  cm : w.cm = c.chosen
  mem : ∀ m, w.cur = some m → m ∈ w.items

theorem same_iff (a b : List Mgr) : samePermutation a b = true ↔ ∀ m, m ∈ a ↔ m ∈ b := by
  unfold samePermutation
  simp only [Bool.and_eq_true, List.all_eq_true, List.contains_iff_mem]
  exact ⟨fun ⟨h1, h2⟩ m => ⟨h1 m, h2 m⟩, fun h => ⟨fun m => (h m).1, fun m => (h m).2⟩⟩

theorem updateCtl_fields (w : Window) (a : Ans Row) :
    (w.updateCtl a).1.items = w.items ∧ (w.updateCtl a).1.cur = w.cur ∧ (w.updateCtl a).1.cm = w.cm ∧ (w.updateCtl a).1.hws = w.hws := by
  unfold Window.updateCtl
  split
  · simp
  · split <;> simp

theorem updateHw_fields (w : Window) (a : Ans HwRow) :
    (w.updateHw a).items = w.items ∧ (w.updateHw a).cur = w.cur ∧ (w.updateHw a).cm = w.cm ∧ (w.updateHw a).rows = w.rows := by
  unfold Window.updateHw
  split
  · simp
  · split <;> simp

theorem onChange_fields (w : Window) (m : Option Mgr) (a : Ans Row) (h : Ans HwRow) :
    (w.onChange m a h).items = w.items ∧ (w.onChange m a h).cur = w.cur ∧ (w.onChange m a h).cm = m := by
  unfold Window.onChange
  extract_lets w' r
  obtain ⟨a1, a2, a3, -⟩ := updateCtl_fields w' a
  obtain ⟨b1, b2, b3, -⟩ := updateHw_fields (w'.updateCtl a).1 h
  split
  · exact ⟨rfl, rfl, rfl⟩
  · split
    · exact ⟨b1.trans a1, b2.trans a2, b3.trans a3⟩
    · exact ⟨a1, a2, a3⟩

theorem setCurrent_fields (w : Window) (m : Option Mgr) (a : Ans Row) (h : Ans HwRow) (hc : w.cm = w.cur) :
    (w.setCurrent m a h).items = w.items ∧ (w.setCurrent m a h).cur = m ∧ (w.setCurrent m a h).cm = m := by
  unfold Window.setCurrent
  by_cases e : w.cur = m
  · rw [if_pos e]
    exact ⟨rfl, e, hc.trans e⟩
  · rw [if_neg e]
    exact onChange_fields _ m a h

theorem Agree.tick {w : Window} {c : Choice} (g : Agree w c) (t : Tick) : Agree (w.tick t) (c.tick t) := by
  cases t with
  | ctl a =>
    obtain ⟨h1, h2, h3, -⟩ := updateCtl_fields w a
    exact ⟨by simpa [Window.tick, Choice.tick, h1] using g.items, h2.trans g.cur, h3.trans g.cm, by simpa [Window.tick, h1, h2] using g.mem⟩
  | hw a =>
    obtain ⟨h1, h2, h3, -⟩ := updateHw_fields w a
    exact ⟨by simpa [Window.tick, Choice.tick, h1] using g.items, h2.trans g.cur, h3.trans g.cm, by simpa [Window.tick, h1, h2] using g.mem⟩
  | managers l =>
    simp only [Window.tick, Choice.tick, Window.updateCombo]
    by_cases hs : samePermutation w.items l = true
    · rw [if_pos hs]
      have hs := (same_iff _ _).1 hs
      have keep : (if c.chosen.any (l.contains ·) then c.chosen else none) = c.chosen := by
        cases hc : c.chosen with
        | none => rfl
        | some m =>
          have : m ∈ l := (hs m).1 (g.mem m (g.cur.trans hc))
          simp [this]
      rw [keep]
      exact ⟨hs, g.cur, g.cm, g.mem⟩
    · rw [if_neg hs]
      have hcm : w.cm = w.cur := g.cm.trans g.cur.symm
      have drop := setCurrent_fields w none .silent .silent hcm
      cases hw : w.cur with
      | none =>
        have hc : c.chosen = none := g.cur.symm.trans hw
        simp only [hc]
        exact ⟨fun _ => Iff.rfl, rfl, drop.2.2, by simp⟩
      | some m =>
        have hc : c.chosen = some m := g.cur.symm.trans hw
        by_cases hm : m ∈ l
        · simp only [hm, if_true, hc]
          refine ⟨fun _ => Iff.rfl, ?_, ?_, ?_⟩
          · simp [hm]
          · simp [hm, hcm, hw]
          · intro x hx
            have : m = x := by simpa [hw] using hx
            exact this ▸ hm
        · simp only [hm, if_false, hc]
          refine ⟨fun _ => Iff.rfl, ?_, ?_, by simp⟩
          · simp [hm]
          · simp [hm, drop.2.2]

theorem Agree.ticks {w : Window} {c : Choice} (g : Agree w c) (l : List Tick) : Agree (l.foldl Window.tick w) (l.foldl Choice.tick c) := by
  induction l generalizing w c with
  | nil => exact g
  | cons t l ih => exact ih (g.tick t)

theorem Agree.step {w : Window} {c : Choice} (g : Agree w c) (o : Op) : Agree (w.step o).1 (c.step o) := by
  cases o with
  | tick t => exact g.tick t
  | select m a h =>
    simp only [Window.step, Choice.step]
    by_cases hm : m ∈ w.items
    · rw [if_pos hm, if_pos ((g.items m).1 hm)]
      obtain ⟨h1, h2, h3⟩ := setCurrent_fields w (some m) a h (g.cm.trans g.cur.symm)
      refine ⟨by simpa [h1] using g.items, h2, h3, ?_⟩
      intro x hx
      rw [h2] at hx
      rw [h1, ← Option.some.inj hx]; exact hm
    · rw [if_neg hm, if_neg (fun h => hm ((g.items m).2 h))]
      exact g
  | click i during e =>
    simp only [Window.step, Choice.step]
    split
    · exact g.ticks during
    · split <;> exact g.ticks during
  | hwClick i during e =>
    simp only [Window.step, Choice.step]
    split
    · exact g.ticks during
    · split <;> exact g.ticks during

theorem session_snoc (ops : List Op) (o : Op) : session (ops ++ [o]) = ((session ops).step o).1 := by simp [session]

theorem choice_snoc (ops : List Op) (o : Op) : choice (ops ++ [o]) = (choice ops).step o := by simp [choice]

theorem agree (ops : List Op) : Agree (session ops) (choice ops) := by
  induction ops using List.reverseRecOn with
  | nil => exact ⟨by simp [session, choice, Window.init], rfl, rfl, by simp [session, Window.init]⟩
  | append_singleton ops o ih =>
    rw [session_snoc, choice_snoc]
    exact ih.step o

/-- **C77 (target).** Whatever happened: what the combo box shows as selected is the manager the user has chosen, as long as it is there, and everything a
click sends goes to that manager. -/
theorem C77_target (ops : List Op) :
    (session ops).cur = (choice ops).chosen ∧
    ∀ op, ∀ s ∈ ((session ops).step op).2, s.dest = (choice (ops ++ [op])).chosen := by
  refine ⟨(agree ops).cur, fun op s hs => ?_⟩
  have g := agree (ops ++ [op])
  rw [session_snoc] at g
  rw [← g.cm]
  cases op with
  | tick t => simp [Window.step] at hs
  | select m a h =>
    simp only [Window.step] at hs
    split at hs <;> simp at hs
  | click i during e =>
    simp only [Window.step] at hs ⊢
    split at hs
    · simp at hs
    · split at hs
      · simp only [List.mem_singleton] at hs
        rename_i hm
        simp [hs, hm]
      · simp at hs
  | hwClick i during e =>
    simp only [Window.step] at hs ⊢
    split at hs
    · simp at hs
    · split at hs
      · simp only [List.mem_singleton] at hs
        rename_i hm
        simp [hs, hm]
      · simp at hs

/-! ## What the tables show -/

/-- **C77 (table).** The table of an answer has its controllers, in the order of the answer, and then the controllers of the parameters that are not
loaded; nothing else, and nothing twice. -/
theorem C77_table (l : List Row) (ps : List Name) :
    l <+: table l ps ∧
    (∀ r, r ∈ table l ps ↔ r ∈ l ∨ (r.state = none ∧ r.name ∈ ps ∧ ∀ x ∈ l, x.name ≠ r.name)) ∧
    ((l.map (·.name)).Nodup → ((table l ps).map (·.name)).Nodup) := by
  induction ps generalizing l with
  | nil => simp [table]
  | cons n ps ih =>
    have e : table l (n :: ps) = table (if l.all (fun r => n != r.name) then l ++ [⟨n, none⟩] else l) ps := rfl
    rw [e]
    by_cases h : l.all (fun r => n != r.name) = true
    · rw [if_pos h]
      have hn : ∀ x ∈ l, x.name ≠ n := fun x hx e => by simpa [e] using List.all_eq_true.1 h x hx
      obtain ⟨i1, i2, i3⟩ := ih (l ++ [⟨n, none⟩])
      refine ⟨(List.prefix_append _ _).trans i1, fun r => ?_, fun hd => i3 ?_⟩
      · rw [i2]
        simp only [List.mem_append, List.mem_cons, List.not_mem_nil, or_false]
        constructor
        · rintro ((hr | rfl) | ⟨h1, h2, h3⟩)
          · exact .inl hr
          · exact .inr ⟨rfl, .inl rfl, hn⟩
          · exact .inr ⟨h1, .inr h2, fun x hx => h3 x (.inl hx)⟩
        · rintro (hr | ⟨h1, h2, h3⟩)
          · exact .inl (.inl hr)
          · by_cases hrn : r.name = n
            · refine .inl (.inr ?_)
              obtain ⟨rn, rs⟩ := r
              simp only at h1 hrn
              rw [h1, hrn]
            · rcases h2 with h2 | h2
              · exact absurd h2 hrn
              · refine .inr ⟨h1, h2, ?_⟩
                rintro x (hx | rfl)
                · exact h3 x hx
                · exact fun e => hrn e.symm
      · rw [List.map_append, List.nodup_append]
        refine ⟨hd, by simp, ?_⟩
        intro a ha b hb
        obtain ⟨x, hx, rfl⟩ := List.mem_map.1 ha
        have : b = n := by simpa using hb
        rw [this]; exact hn x hx
    · rw [if_neg h]
      have hn : ∃ x ∈ l, x.name = n := by
        simp only [List.all_eq_true, bne_iff_ne, ne_eq, not_forall, not_not] at h
        obtain ⟨x, hx, e⟩ := h
        exact ⟨x, hx, e.symm⟩
      obtain ⟨i1, i2, i3⟩ := ih l
      refine ⟨i1, fun r => ?_, i3⟩
      rw [i2]
      refine or_congr Iff.rfl (and_congr_right fun _ => ?_)
      simp only [List.mem_cons]
      constructor
      · exact fun ⟨h2, h3⟩ => ⟨.inr h2, h3⟩
      · rintro ⟨h2, h3⟩
        obtain ⟨x, hx, e⟩ := hn
        refine ⟨h2.resolve_left fun e' => h3 x hx (e.trans e'.symm), h3⟩

/-- Specification: what became of asking managers for their controllers, by whom they were asked. -/
abbrev Log := List (Mgr × Ans Row)

/-- Specification: the manager chosen is asked when a timer says so. -/
def askTick (c : Choice) (g : Log) : Tick → Log
  | .ctl a => match c.chosen with
    | some m => g ++ [(m, a)]
    | none => g
  | _ => g

/-- Specification: the choice and the answers, over some timers. -/
def askTicks (s : Choice × Log) (l : List Tick) : Choice × Log := l.foldl (fun s t => (s.1.tick t, askTick s.1 s.2 t)) s

/-- Specification: a manager is asked as soon as it is chosen, and when a timer says so. -/
def askStep (s : Choice × Log) : Op → Choice × Log
  | .tick t => askTicks s [t]
  | .select m a _ => (s.1.step (.select m a .silent), if m ∈ s.1.offered ∧ s.1.chosen ≠ some m then s.2 ++ [(m, a)] else s.2)
  | .click _ during _ => askTicks s during
  | .hwClick _ during _ => askTicks s during

/-- Specification: all answers of a session. -/
def asked (ops : List Op) : Log := (ops.foldl askStep (⟨[], none⟩, [])).2

/-- Specification: the table for an answer; nothing for an exception. -/
def shows : Ans Row → Option (List Row)
  | .rows l ps => some (table l ps)
  | .silent => some []
  | .gone => none

/-- Specification: the table of the last answer that was one. -/
def lastShown (g : Log) : List Row := ((g.filterMap fun p => shows p.2).getLast?).getD []

theorem lastShown_snoc (g : Log) (m : Mgr) (a : Ans Row) : lastShown (g ++ [(m, a)]) = (shows a).getD (lastShown g) := by
  unfold lastShown
  rw [List.filterMap_append]
  cases h : shows a <;> simp [h]

/-- What the window and the answers have to do with each other. -/
structure Track (w : Window) (s : Choice × Log) : Prop where
  agree : Agree w s.1
  rows : w.rows = lastShown s.2
  last : ∀ m, s.1.chosen = some m → ∃ a, s.2.getLast? = some (m, a)

theorem updateCtl_rows (w : Window) (a : Ans Row) (m : Mgr) (h : w.cm = some m) : (w.updateCtl a).1.rows = (shows a).getD w.rows := by
  unfold Window.updateCtl
  rw [if_neg (by simp [h])]
  cases a <;> rfl

theorem Track.tick {w : Window} {s : Choice × Log} (g : Track w s) (t : Tick) : Track (w.tick t) (s.1.tick t, askTick s.1 s.2 t) := by
  have ga := g.agree.tick t
  cases t with
  | managers l =>
    refine ⟨ga, ?_, ?_⟩
    · show (w.updateCombo l).rows = lastShown s.2
      rw [← g.rows]
      have hr : (w.setCurrent none .silent .silent).rows = w.rows := by
        unfold Window.setCurrent Window.onChange
        split <;> simp
      unfold Window.updateCombo
      split
      · rfl
      · split
        · split
          · rfl
          · exact hr
        · exact hr
    · intro m hm
      simp only [Choice.tick] at hm
      split at hm
      · exact g.last m hm
      · cases hm
  | hw a =>
    exact ⟨ga, (updateHw_fields w a).2.2.2.trans g.rows, g.last⟩
  | ctl a =>
    cases hc : s.1.chosen with
    | none =>
      have hcm : w.cm = none := g.agree.cm.trans hc
      refine ⟨ga, ?_, ?_⟩
      · simp only [Window.tick, Window.updateCtl, hcm, if_true, askTick, hc]; exact g.rows
      · intro m hm; simp [Choice.tick, hc] at hm
    | some m =>
      have hcm : w.cm = some m := g.agree.cm.trans hc
      refine ⟨ga, ?_, ?_⟩
      · simp only [Window.tick, askTick, hc]
        rw [updateCtl_rows w a m hcm, lastShown_snoc, g.rows]
      · intro x hx
        have hx : m = x := by simpa [Choice.tick, hc] using hx
        exact ⟨a, by simp [askTick, hc, hx]⟩

theorem Track.ticks {w : Window} {s : Choice × Log} (g : Track w s) (l : List Tick) : Track (l.foldl Window.tick w) (askTicks s l) := by
  induction l generalizing w s with
  | nil => exact g
  | cons t l ih => exact ih (g.tick t)

theorem Track.step {w : Window} {s : Choice × Log} (g : Track w s) (o : Op) : Track (w.step o).1 (askStep s o) := by
  cases o with
  | tick t => exact g.tick t
  | click i during e =>
    simp only [Window.step, askStep]
    split
    · exact g.ticks during
    · split <;> exact g.ticks during
  | hwClick i during e =>
    simp only [Window.step, askStep]
    split
    · exact g.ticks during
    · split <;> exact g.ticks during
  | select m a h =>
    have ga := g.agree.step (.select m a h)
    simp only [Window.step, askStep, Choice.step] at ga ⊢
    by_cases hm : m ∈ w.items
    · have hm' := (g.agree.items m).1 hm
      rw [if_pos hm, if_pos hm'] at ga ⊢
      by_cases hc : s.1.chosen = some m
      · rw [if_neg (by simp [hc])]
        have e : w.setCurrent (some m) a h = w := by
          unfold Window.setCurrent; rw [if_pos (g.agree.cur.trans hc)]
        rw [e] at ga ⊢
        exact ⟨ga, g.rows, fun x hx => g.last x (hc.trans hx)⟩
      · rw [if_pos ⟨hm', hc⟩]
        refine ⟨ga, ?_, ?_⟩
        · rw [lastShown_snoc, ← g.rows]
          unfold Window.setCurrent
          rw [if_neg (by rw [g.agree.cur]; exact hc)]
          unfold Window.onChange
          extract_lets w' r
          rw [if_neg (by simp)]
          have := updateCtl_rows w' a m rfl
          split
          · exact (updateHw_fields r.1 h).2.2.2.trans this
          · exact this
        · intro x hx
          simp only [Option.some.injEq] at hx
          exact ⟨a, by simp [hx]⟩
    · have hm' : m ∉ s.1.offered := fun h => hm ((g.agree.items m).2 h)
      rw [if_neg hm, if_neg hm'] at ga ⊢
      rw [if_neg (by simp [hm'])]
      exact ⟨ga, g.rows, g.last⟩

theorem askTicks_fst (s : Choice × Log) (l : List Tick) : (askTicks s l).1 = l.foldl Choice.tick s.1 := by
  induction l generalizing s with
  | nil => rfl
  | cons t l ih => exact ih _

theorem askStep_fst (s : Choice × Log) (o : Op) : (askStep s o).1 = s.1.step o := by
  cases o with
  | tick t => rfl
  | select m a h => rfl
  | click i during e => exact askTicks_fst s during
  | hwClick i during e => exact askTicks_fst s during

theorem track (ops : List Op) : Track (session ops) (choice ops, asked ops) := by
  have key : ∀ ops : List Op, (ops.foldl askStep (⟨[], none⟩, [])).1 = choice ops := by
    intro ops
    induction ops using List.reverseRecOn with
    | nil => rfl
    | append_singleton ops o ih => rw [List.foldl_append, choice_snoc, ← ih]; exact askStep_fst _ o
  have e : (choice ops, asked ops) = ops.foldl askStep (⟨[], none⟩, []) := by rw [← key]; rfl
  rw [e]
  clear e
  induction ops using List.reverseRecOn with
  | nil => exact ⟨agree [], rfl, by simp⟩
  | append_singleton ops o ih =>
    rw [session_snoc, List.foldl_append]
    exact ih.step o

/-- Full statement: the table shows the controllers the chosen manager answered last, and nothing when none is chosen. -/
def RowsStatement : Prop :=
  ∀ ops, match (choice ops).chosen with
    | none => (session ops).rows = []
    | some m => ∃ a, (m, a) ∈ asked ops ∧ (session ops).rows = (shows a).getD []

/-- **C77 (rows).** The table always shows the last answer that was one; if a manager is chosen, it was the last one to be asked. So if asking did not end
with an exception (other than `RuntimeError`), the table shows what the chosen manager answered last. -/
theorem C77_rows_partial (ops : List Op) :
    (session ops).rows = lastShown (asked ops) ∧
    ∀ m, (choice ops).chosen = some m → ∃ a, (asked ops).getLast? = some (m, a) ∧ (a ≠ .gone → some (session ops).rows = shows a) := by
  have g := track ops
  refine ⟨g.rows, fun m hm => ?_⟩
  obtain ⟨a, ha⟩ := g.last m hm
  refine ⟨a, ha, fun hg => ?_⟩
  rw [g.rows]
  obtain ⟨l, hl⟩ : ∃ l, asked ops = l ++ [(m, a)] := by
    obtain ⟨l, x, e⟩ := List.eq_nil_or_concat (asked ops) |>.resolve_left (fun h => by rw [h] at ha; cases ha)
    rw [e] at ha
    have : x = (m, a) := by simpa using ha
    exact ⟨l, by rw [e, this]; simp⟩
  show some (lastShown (asked ops)) = shows a
  rw [hl, lastShown_snoc]
  cases a with
  | rows l ps => rfl
  | silent => rfl
  | gone => exact absurd rfl hg

/-- Choosing can be lost but not gained while a menu is open. -/
theorem ticks_chosen (l : List Tick) : ∀ (c : Choice) (m : Mgr), (l.foldl Choice.tick c).chosen = some m → c.chosen = some m := by
  induction l with
  | nil => exact fun _ _ h => h
  | cons t l ih =>
    intro c m h
    have := ih _ m h
    cases t with
    | managers k =>
      simp only [Choice.tick] at this
      split at this
      · exact this
      · cases this
    | ctl a => exact this
    | hw a => exact this

/-- **C77 (click).** What is sent by a click on a controller to some manager: the requests of an entry of the menu for the state shown, about the controller in that
row of what this manager answered last or that is in its parameters; unless asking the manager ended with an exception. -/
theorem C77_click_partial (ops : List Op) (i : Nat) (during : List Tick) (e : Entry) (s : Sent) (m : Mgr)
    (hs : s ∈ ((session ops).step (.click i during e)).2) (hm : s.dest = some m) :
    ∃ a, (asked ops).getLast? = some (m, a) ∧
      (a ≠ .gone → ∃ l r, shows a = some l ∧ l[i]? = some r ∧ e ∈ menu r.state ∧ s.req = e.reqs r.name) := by
  have hd := (C77_target ops).2 _ s hs
  rw [hm, choice_snoc] at hd
  have hc := ticks_chosen during _ m hd.symm
  obtain ⟨a, h1, h2⟩ := (C77_rows_partial ops).2 m hc
  refine ⟨a, h1, fun hg => ?_⟩
  simp only [Window.step] at hs
  split at hs
  · simp at hs
  · rename_i r hr
    split at hs
    · rename_i he
      simp only [List.mem_singleton] at hs
      exact ⟨(session ops).rows, r, (h2 hg).symm, hr, he, by rw [hs]⟩
    · simp at hs

/-- A session for the examples: two managers; the first one has an active controller 7 and parameters of 8. -/
def opened : List Op := [.tick (.managers [1, 2]), .select 1 (.rows [⟨7, some .active⟩] [7, 8]) (.rows [⟨30, .active⟩] [])]

/-- Non-vacuity: the table has the loaded controller and the one of the parameters; a click on the first row deactivates it. -/
example : (session opened).rows = [⟨7, some .active⟩, ⟨8, none⟩] ∧ (session opened).cur = some 1 ∧
    ((session opened).step (.click 0 [.ctl .silent] .deactivate)).2 = [⟨some 1, [.switch [7] [] false]⟩] ∧
    ((session opened).step (.click 1 [] .load)).2 = [⟨some 1, [.load 8]⟩] ∧
    (session (opened ++ [.tick (.managers [2, 3, 1])])).cur = some 1 := by decide +kernel

/-- **C77, negation (2).** The user goes over to another manager whose service is not found in time (`ServiceNotFoundError` is no `RuntimeError`): the
table still shows the controllers of the first one, and a click stops the controller of that name of the second. -/
theorem C77_wrong_manager :
    let ops := opened ++ [.select 2 .gone (.rows [] [])]
    (choice ops).chosen = some 2 ∧ (session ops).rows = [⟨7, some .active⟩, ⟨8, none⟩] ∧ (∀ a, (2, a) ∈ asked ops → a = .gone) ∧
    ((session ops).step (.click 0 [] .kill)).2 = [⟨some 2, [.switch [7] [] false, .unload 7]⟩] ∧
    (session ops).hws = [⟨30, .active⟩] ∧ ((session ops).step (.hwClick 0 [] .deactivate)).2 = [⟨some 2, [.setHw 30 .inactive]⟩] := by
  refine ⟨by decide +kernel, by decide +kernel, ?_, by decide +kernel, by decide +kernel, by decide +kernel⟩
  have : asked (opened ++ [.select 2 .gone (.rows [] [])]) = [(1, .rows [⟨7, some .active⟩] [7, 8]), (2, .gone)] := by decide +kernel
  rw [this]
  simp

/-- **C77, negation (3).** The manager is gone: nothing is chosen, but its controllers are still shown and can be clicked; the request goes to the manager
with the empty name (whose service never comes: the window hangs). -/
theorem C77_vanished :
    let ops := opened ++ [.tick (.managers [2])]
    (choice ops).chosen = none ∧ (session ops).rows = [⟨7, some .active⟩, ⟨8, none⟩] ∧
    ((session ops).step (.click 0 [] .deactivate)).2 = [⟨none, [.switch [7] [] false]⟩] := by decide +kernel

theorem C77_rows_false : ¬ RowsStatement := by
  intro h
  have := h (opened ++ [.tick (.managers [2])])
  rw [C77_vanished.1] at this
  rw [C77_vanished.2.1] at this
  cases this

/-! ## What the entries do -/

/-- Specification: the state an entry names. -/
def Entry.Goal (n : Name) (cm : CM) : Entry → Prop
  | .deactivate => cm.lcOf n ≠ some .active
  | .kill => cm.lcOf n = none
  | .activate => cm.lcOf n = some .active
  | .cleanup => cm.lcOf n = some .unconfigured
  | .unload => cm.lcOf n = none
  | .spawn => cm.lcOf n = some .active
  | .configure => cm.lcOf n = some .inactive
  | .load => cm.lcOf n = some .unconfigured

/-- **C77 (entries).** Whatever the network, the real-time loop and other clients do: if the last request of an entry is answered with OK, then some time
after it was sent the controller was in the state the entry names (for "Deactivate (inactive)": not active). -/
theorem C77_entry_partial (o : Oracle) (cm : CM) (hr : CM.Reach o cm) (n : Name) (e : Entry) (p : Prog) (_ : p ∈ e.progs n) (s : List Spawn.Ev)
    (r : Req) (hl : (e.reqs n).getLast? = some r) (x : Resp) (hx : Answered (after p o cm s).wire r x) (ok : x.ok = true) :
    Reached p o cm s r (fun cm => e.Goal n cm) := by
  have hg := Cli.mem_gots_of_answered hx
  have sw : ∀ d l, r = .switch d l false → Reached p o cm s r (fun cm => (∀ n ∈ l, cm.lcOf n = some .active) ∧ ∀ n ∈ d, n ∉ l → cm.lcOf n ≠ some .active) := by
    rintro d l rfl
    rcases Cli.reached_switch hr hg ok with h | ⟨h, -⟩
    · exact h
    · exact absurd rfl h
  cases e <;> simp only [Entry.reqs, List.getLast?_singleton, List.getLast?_cons_cons, Option.some.injEq] at hl <;> subst hl
  · obtain ⟨s1, h1, h2, h3⟩ := sw [n] [] rfl
    exact ⟨s1, h1, h2, h3.2 n (by simp) (by simp)⟩
  · exact Cli.reached_ok hr hg fun _ _ he => he ok
  · obtain ⟨s1, h1, h2, h3⟩ := sw [] [n] rfl
    exact ⟨s1, h1, h2, h3.1 n (by simp)⟩
  · exact Cli.reached_ok hr hg fun _ _ he => he ok
  · exact Cli.reached_ok hr hg fun _ _ he => he ok
  · obtain ⟨s1, h1, h2, h3⟩ := sw [] [n] rfl
    exact ⟨s1, h1, h2, h3.1 n (by simp)⟩
  · exact Cli.reached_ok hr hg fun _ _ he => he ok
  · exact Cli.reached_ok hr hg fun _ _ he => he ok

/-- **C77 (nothing else).** An entry asks for nothing but its own requests. -/
theorem C77_asks (o : Oracle) (cm : CM) (hr : CM.Reach o cm) (n : Name) (e : Entry) (p : Prog) (hp : p ∈ e.progs n) (s : List Spawn.Ev) (r : Req)
    (before : List Wire) (h : SentAfter (after p o cm s) r before) : r ∈ e.reqs n := by
  have all : ∀ (l : List Req) (g : List (Req × Resp)), (∀ q ∈ l, q ∈ e.reqs n) → Spawn.Asks (fun g r => ∀ w, Spawn.gots w = g → r ∈ e.reqs n) g (progOf l) := by
    intro l
    induction l with
    | nil => exact fun _ _ => .exit
    | cons q l ih => exact fun g hq => .call (fun _ _ => hq q (by simp)) fun a => ih _ fun x hx => hq x (by simp [hx])
  have hl : ∃ l, p = progOf l ∧ ∀ q ∈ l, q ∈ e.reqs n := by
    cases e <;> simp only [Entry.progs, List.mem_cons, List.not_mem_nil, or_false] at hp
    case kill =>
      rcases hp with rfl | rfl
      · exact ⟨_, rfl, fun _ h => h⟩
      · exact ⟨_, rfl, by simp [Entry.reqs]⟩
    all_goals exact ⟨_, hp, fun _ h => h⟩
  obtain ⟨l, rfl, hq⟩ := hl
  exact Cli.asks_verb (P := fun _ r => r ∈ e.reqs n) (all l [] hq) hr h

/-- **C77 (a failed first step).** "Deactivate and Unload" of a controller that stays active does not unload it, and "Configure and Activate" of one that
is never configured does not activate it: the second request is not answered with OK. -/
theorem C77_failed_first (o : Oracle) (cm : CM) (hr : CM.Reach o cm) (n : Name) (s : List Spawn.Ev) (p : Prog) :
    (p ∈ Entry.kill.progs n → (∀ s1, s1 <+: s → (after p o cm s1).cm.lcOf n = some .active) →
      ∀ x, Answered (after p o cm s).wire (.unload n) x → x.ok = false) ∧
    (p ∈ Entry.spawn.progs n → (∀ s1, s1 <+: s → (after p o cm s1).cm.lcOf n = some .unconfigured) →
      ∀ x, Answered (after p o cm s).wire (.switch [] [n] false) x → x.ok = false) := by
  constructor
  · intro hp hs x hx
    by_contra h
    obtain ⟨s1, h1, -, h3⟩ := C77_entry_partial o cm hr n .kill p hp s _ rfl x hx (by simpa using h)
    have e := hs s1 h1
    simp only [Entry.Goal] at h3
    rw [show (after p o cm s1).cm = _ from rfl] at e
    exact absurd (e.symm.trans h3) (by simp)
  · intro hp hs x hx
    by_contra h
    obtain ⟨s1, h1, -, h3⟩ := C77_entry_partial o cm hr n .spawn p hp s _ rfl x hx (by simpa using h)
    have e := hs s1 h1
    simp only [Entry.Goal] at h3
    exact absurd (e.symm.trans h3) (by simp)

/-- Specification: the state in the text of an entry: "Deactivate (inactive)", "Deactivate and Clean-up (unconfigured)", "Activate (active)",
"Configure (inactive)", "Configure and Activate (active)". -/
def HwEntry.Names (e : HwEntry) : LState → Prop
  | .inactive => e = .deactivate ∨ e = .configure
  | .unconfigured => e = .cleanup
  | .active => e = .activate ∨ e = .spawn
  | _ => False

/-- **C77 (hardware).** If the request of an entry for a hardware component is answered with OK, then some time after it was sent the component was in the
state the entry names. -/
theorem C77_hw_entry (o : Oracle) (cm : CM) (hr : CM.Reach o cm) (h : Name) (e : HwEntry) (s : List Spawn.Ev) (x : Resp)
    (hx : Answered (after (progOf [.setHw h e.target]) o cm s).wire (.setHw h e.target) x) (ok : x.ok = true) :
    Reached (progOf [.setHw h e.target]) o cm s (.setHw h e.target) (fun cm => ∃ st, cm.rm.stateOf h = some st ∧ e.Names st) := by
  refine Cli.reached_ok hr (Cli.mem_gots_of_answered hx) (fun _ cm1 he => ?_)
  obtain ⟨h1, h2⟩ := he
  rw [h2 ok] at h1
  exact ⟨_, h1.symm, by cases e <;> simp [HwEntry.target, HwEntry.Names]⟩

theorem runs_progOf (l : List Req) (g : List (Req × Resp)) (n : Nat) (h : Spawn.Runs (progOf l) g (.exit n)) : g.map (·.1) = l := by
  induction l generalizing g with
  | nil => rw [h.exit.1]; rfl
  | cons r l ih =>
    obtain ⟨a, g', e, h'⟩ := Spawn.Runs.call (show Spawn.Runs (.call r (fun _ => progOf l)) g _ from h) (by simp)
    rw [e, List.map_cons, ih g' h']

/-- **C77 (done).** When a click is over without an exception and all its answers were OK, then some time during it the controller was in the state the
entry names. -/
theorem C77_done (o : Oracle) (cm : CM) (hr : CM.Reach o cm) (n : Name) (e : Entry) (s : List Spawn.Ev)
    (hd : Cli.Success (after (progOf (e.reqs n)) o cm s)) (ok : ∀ r x, Answered (after (progOf (e.reqs n)) o cm s).wire r x → x.ok = true) :
    ∃ s1, s1 <+: s ∧ e.Goal n (after (progOf (e.reqs n)) o cm s1).cm := by
  have hg := runs_progOf _ _ _ (Cli.success_runs hr hd)
  obtain ⟨r, hl⟩ : ∃ r, (e.reqs n).getLast? = some r := by cases e <;> exact ⟨_, rfl⟩
  have hm : r ∈ e.reqs n := List.mem_of_getLast? hl
  rw [← hg] at hm
  obtain ⟨⟨r', x⟩, hx, rfl⟩ := List.mem_map.1 hm
  have hx := Spawn.answered_of_gots hx
  obtain ⟨s1, h1, -, h3⟩ := C77_entry_partial o cm hr n e _ (by cases e <;> simp [Entry.progs]) s _ hl x hx (ok _ _ hx)
  exact ⟨s1, h1, h3⟩

/-- Specification: the states for which an entry makes sense. -/
def Entry.Fits : Entry → Option LState → Prop
  | .deactivate, st | .kill, st => st = some .active
  | .activate, st | .cleanup, st => st = some .inactive
  | .spawn, st | .configure, st => st = some .unconfigured
  | .unload, st => st = some .inactive ∨ st = some .unconfigured
  | .load, st => st ≠ some .active ∧ st ≠ some .inactive ∧ st ≠ some .unconfigured

/-- **C77 (menu).** The menu of a controller has exactly the entries that fit the state shown. -/
theorem C77_menu (st : Option LState) (e : Entry) : e ∈ menu st ↔ e.Fits st := by
  rcases st with _ | st
  · cases e <;> simp [menu, Entry.Fits]
  · cases st <;> cases e <;> simp [menu, Entry.Fits]

/-- **C77, negation (4).** A finalized controller is offered "Load (unconfigured)", which is always refused. -/
theorem C77_finalized (o : Oracle) (cm : CM) (n : Name) (chainable async : Bool) (cfg : CtlCfg) (fb : List Name) (h : cm.lcOf n = some .finalized) :
    menu (some .finalized) = [.load] ∧ (cm.load o n chainable async cfg fb).2 = .error := by
  refine ⟨rfl, ?_⟩
  unfold CM.lcOf at h
  unfold CM.load
  split
  · rfl
  · split
    · rfl
    · cases hf : cm.find n with
      | none => rw [hf] at h; cases h
      | some c => rfl

section Demo
open Cli.Demo Spawn.Demo Cli

/-- A switch request of the plugin: served, carried out by the next cycle, answered. -/
def rideNow (id : Nat) (d l : List Name) : List Spawn.Ev :=
  [.send, .serve ⟨id, .switch d l false⟩ x300, .env (.update (fun _ => true) true), .wake, .deliver ⟨id, .switch d l false⟩ yes]

/-- Non-vacuity: "Configure and Activate" and "Deactivate and Unload" of controller 300 of the demo robot, with all answers OK. -/
example :
    (let w := after (progOf (Entry.spawn.reqs 300)) goodOracle (demo goodOracle []) (ask 0 (.configure 300) x300 yes ++ rideNow 1 [] [300])
     code w = some 0 ∧ w.cm.lcOf 300 = some .active) ∧
    (let w := after (progOf (Entry.kill.reqs 300)) goodOracle (demo goodOracle (switchOps [300] [] .strict)) (rideNow 0 [300] [] ++ ask 1 (.unload 300) x300 yes)
     code w = some 0 ∧ w.cm.lcOf 300 = none) := by
  decide +kernel

end Demo

end Gui
end Verif
