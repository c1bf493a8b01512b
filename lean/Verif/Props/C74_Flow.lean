import Verif.Flow.HwLemmas
import Verif.Props.C06_C10_Controllers
/-!
# C74: what controllers see and what drivers get, within one cycle

The full property: in every cycle, every controller's `update` sees the hardware readings of this cycle's `read`; a controller
in a chain sees the reference its predecessor has just computed; and what a driver is given to write is what the controller
holding the interface has just computed, after the joint limiters.

The last part is false in a cycle in which controllers are switched (`C74_false_switch`): `enforce_command_limits` runs before
`manage_switch`, so what a controller commands from `on_activate` goes to the driver without having passed the limiters of the
cycle; and a command written by an `update` that then failed is sent as well (`C74_false_failed`). The theorems below are about
all cycles (`C74_readings`, `C74_last_reading`, `C74_chain`, `C74_exported`, `C74_command`) and, for the delivery, about all cycles
in which no switch is executed, and about all interfaces the executed switch has nothing to do with (`C74_bystander_partial`).
-/
namespace Verif.Flow
open Verif CM

variable {D : Type}

/-- The components after `read` are the components before, up to their lifecycle state. -/
theorem hw_after_read (o : Oracle) (rd : Name → RM.Sched) {cm : CM} (I : cm.rm.Inv) {h : Hw} (hh : h ∈ cm.rm.comps) :
    ∃ g ∈ (cm.rm.read o rd).1.comps, g.name = h.name ∧ g.stateItfs = h.stateItfs ∧ g.cmdItfs = h.cmdItfs := by
  have e := (RM.rmStep_read o rd I).comps
  have : Hw.static h ∈ (cm.rm.read o rd).1.comps.map Hw.static := by rw [e]; exact List.mem_map_of_mem hh
  obtain ⟨g, hg, eg⟩ := List.mem_map.1 this
  refine ⟨g, hg, ?_, ?_, ?_⟩
  · simpa [Hw.static] using congrArg Hw.name eg
  · simpa [Hw.static] using congrArg Hw.stateItfs eg
  · simpa [Hw.static] using congrArg Hw.cmdItfs eg

/-- The log of the update loop. -/
theorem updateLog_spec (o : Oracle) (body : Body D) (due : Name → Bool) (a : CM) (v : Vals D) :
    ∃ es, phase body false a (loopDone o due a).1 v = replay body false a a.rm.tr es v ∧
      es.map ctlName = (a.ctls.filter (fun c => a.runs due c)).map (fun c => some c.name) ∧
      ∀ e ∈ es, ∃ c r, e = Ev.ctlUpdate c r := by
  obtain ⟨es, h1, h2, h3⟩ := updateLoop_events o due a.ctls a [] .ok
  refine ⟨es.reverse, ?_, h2, fun e he => h3 e (by simpa using he)⟩
  unfold phase
  rw [newEvents_of (cm' := (loopDone o due a).1) (es := es) h1]

/-- Two `update` callbacks of one cycle belong to different controllers. -/
theorem updateLog_distinct {o : Oracle} {body : Body D} {due : Name → Bool} {a : CM} {v : Vals D} (I : CM.Inv a)
    {L1 L2 : List (Entry D)} {x : Entry D} (h : (phase body false a (loopDone o due a).1 v).2 = L1 ++ x :: L2) :
    ∀ y ∈ L1 ++ L2, ctlName y.ev ≠ ctlName x.ev := by
  obtain ⟨es, h1, h2, _⟩ := updateLog_spec o body due a v
  rw [h1] at h
  have hev : es = (L1 ++ x :: L2).map (·.ev) := by rw [← h, replay_ev]
  have hnd : (es.map ctlName).Nodup := by
    rw [h2]
    have : (a.ctls.filter (fun c => a.runs due c)).map (fun c => some c.name) =
        ((a.ctls.filter (fun c => a.runs due c)).map (·.name)).map some := by simp
    rw [this]
    refine List.Nodup.map (fun _ _ h => by simpa using h) ?_
    exact I.topo.names.sublist (List.filter_sublist.map _)
  rw [hev] at hnd
  simp only [List.map_append, List.map_cons, List.map_map] at hnd
  have := (List.nodup_middle.1 hnd)
  rw [List.nodup_cons] at this
  intro y hy hc
  apply this.1
  rw [← hc, ← List.map_append]
  exact List.mem_map.2 ⟨y, hy, rfl⟩

section
variable (o : Oracle) (body : Body D) (lim : Limiter D) (rd wr : Name → RM.Sched) (due : Name → Bool) (lock : Bool)

/-! ## Readings -/

/-- **C74: one set of readings per cycle.** During the update loop no state interface of a hardware component changes: every
controller sees the values the read part of the cycle left. -/
theorem C74_readings (cm : CM) (hr : Reach o cm) (v : Vals D) (h : Hw) (hh : h ∈ cm.rm.comps) (i : Itf) (hi : i ∈ h.stateItfs) :
    let f := cycle o body lim rd wr due lock cm v
    (∀ x ∈ f.updateLog, x.pre.st i = f.afterRead.st i) ∧ f.afterUpdate.st i = f.afterRead.st i := by
  have I := (hr.step (.read rd)).inv
  change CM.Inv (cm.rtRead o rd) at I
  obtain ⟨g, hg, _, e1, _⟩ := hw_after_read o rd hr.inv.sys.claims.rm hh
  rw [← comps_rtRead] at hg
  simp only [cycle]
  obtain ⟨es, h1, _, h3⟩ := updateLog_spec o body due (cm.rtRead o rd)
    (phase body true { cm with rm := (cm.rm.read o rd).1 } (cm.rtRead o rd)
      (phase body true cm { cm with rm := (cm.rm.read o rd).1 } v).1).1
  rw [h1]
  have k := replay_keepS body false (cm.rtRead o rd) i es (cm.rtRead o rd).rm.tr
    (phase body true { cm with rm := (cm.rm.read o rd).1 } (cm.rtRead o rd)
      (phase body true cm { cm with rm := (cm.rm.read o rd).1 } v).1).1 (by
    intro e he
    obtain ⟨c, r, rfl⟩ := h3 e he
    exact maySt_ctl I.sys.claims.rm rfl hg (by rw [e1]; exact hi))
  exact ⟨fun x hx => (k.2 x hx).1, k.1⟩

/-- **C74: the readings are this cycle's.** The value of a state interface of component `h` that the controllers see is the one
left by the last callback of `h` in the read part of the cycle (its `read`; its `on_error` if the read failed; its mode-switch
callback if controllers had to be stopped because another component failed). -/
theorem C74_last_reading (cm : CM) (hr : Reach o cm) (v : Vals D) (h : Hw) (hh : h ∈ cm.rm.comps) (i : Itf) (hi : i ∈ h.stateItfs)
    (L1 L2 : List (Entry D)) (x : Entry D) :
    let f := cycle o body lim rd wr due lock cm v
    f.readLog ++ f.reactLog = L1 ++ x :: L2 → (∀ y ∈ L2, y.ev.hwName ≠ some h.name) →
    f.afterRead.st i = x.post.st i := by
  intro f hlog hlast
  have I := hr.inv.sys.claims.rm
  have I0 := (RM.rmStep_read o rd I).inv
  obtain ⟨g, hg, e0, e1, _⟩ := hw_after_read o rd I hh
  have may : ∀ y ∈ L2, maySt cm y.ev i = false ∧ maySt { cm with rm := (cm.rm.read o rd).1 } y.ev i = false := by
    intro y hy
    cases hn : y.ev.hwName with
    | none =>
      exact ⟨maySt_ctl I hn hh hi, maySt_ctl (cm := { cm with rm := (cm.rm.read o rd).1 }) I0 hn hg (by rw [e1]; exact hi)⟩
    | some n =>
      have hne : h.name ≠ n := fun e => hlast y hy (by rw [hn, e])
      exact ⟨maySt_otherHw I hn hh hne hi,
        maySt_otherHw (cm := { cm with rm := (cm.rm.read o rd).1 }) I0 hn hg (by rw [e0]; exact hne) (by rw [e1]; exact hi)⟩
  simp only [f, cycle] at hlog ⊢
  rcases List.append_eq_append_iff.1 hlog with ⟨c, c1, c2⟩ | ⟨c, c1, c2⟩
  · -- in the reaction
    exact ((replay_aroundS (h := c2) i).2 (fun y hy => (may y hy).2)).1
  · cases c with
    | nil =>
      simp only [List.nil_append] at c2
      exact ((replay_aroundS (L1 := []) (h := show _ = _ from c2.symm) i).2 (fun y hy => (may y hy).2)).1
    | cons z c =>
      simp only [List.cons_append, List.cons.injEq] at c2
      obtain ⟨rfl, c2⟩ := c2
      have k1 := ((replay_aroundS (h := c1) i).2 (fun y hy => (may y (by rw [c2]; simp [hy])).1)).1
      have k2 := (replay_keepS body true { cm with rm := (cm.rm.read o rd).1 } i
        (newEvents { cm with rm := (cm.rm.read o rd).1 } (cm.rtRead o rd)) (cm.rm.read o rd).1.tr
        (phase body true cm { cm with rm := (cm.rm.read o rd).1 } v).1 (by
          intro e he
          have : e ∈ (phase body true { cm with rm := (cm.rm.read o rd).1 } (cm.rtRead o rd)
              (phase body true cm { cm with rm := (cm.rm.read o rd).1 } v).1).2.map (·.ev) := by
            unfold phase; rw [replay_ev]; exact he
          obtain ⟨y, hy, rfl⟩ := List.mem_map.1 this
          exact (may y (by rw [c2]; simp [hy])).2)).1
      exact k2.trans k1

/-- **C74: the readings are this cycle's `read`.** In a cycle in which no component failed to read, each driver is called at most
once, by its `read`, and every controller's `update` sees what this `read` left in the state interfaces. -/
theorem C74_readings_of_read (cm : CM) (hr : Reach o cm) (v : Vals D) (hok : (cm.rm.read o rd).2.result = .ok)
    (h : Hw) (hh : h ∈ cm.rm.comps) (i : Itf) (hi : i ∈ h.stateItfs) (x : Entry D) :
    let f := cycle o body lim rd wr due lock cm v
    x ∈ f.readLog → x.ev.hwName = some h.name →
    (∃ a, x.ev = .hwIo h.name .read a) ∧ ∀ y ∈ f.updateLog, y.pre.st i = x.post.st i := by
  intro f hx hn
  have I := hr.inv.sys.claims.rm
  obtain ⟨_, es, e1, e2, e3⟩ := read_quiet o rd cm.rm.readOrder (cm.rm, { result := .ok, failed := [] }) hok
  change (cm.rm.read o rd).1.tr = es ++ cm.rm.tr at e1
  have hlog : f.readLog.map (·.ev) = es.reverse := by
    simp only [f, cycle, phase]
    rw [replay_ev, newEvents_of (cm' := { cm with rm := (cm.rm.read o rd).1 }) e1]
  have hreact : f.reactLog = [] := by
    have : cm.rtRead o rd = { cm with rm := (cm.rm.read o rd).1 } := by unfold CM.rtRead; simp [hok]
    simp only [f, cycle, phase]
    rw [this, newEvents_self]; rfl
  have hev : x.ev ∈ es := by
    have : x.ev ∈ f.readLog.map (·.ev) := List.mem_map_of_mem hx
    rw [hlog] at this; simpa using this
  refine ⟨?_, ?_⟩
  · obtain ⟨n, a, e⟩ := e3 _ hev
    rw [e] at hn ⊢
    simp only [Ev.hwName, Option.some.injEq] at hn
    subst hn; exact ⟨a, rfl⟩
  · obtain ⟨L1, L2, hs⟩ := List.append_of_mem hx
    have hnd : (f.readLog.map (fun y => y.ev.hwName)).Nodup := by
      have : f.readLog.map (fun y => y.ev.hwName) = es.reverse.map Ev.hwName := by rw [← hlog]; simp
      rw [this]
      refine List.Nodup.sublist e2 ?_
      exact (RM.readOrder_nodup I).map (fun _ _ h => by simpa using h)
    have hlast : ∀ y ∈ L2, y.ev.hwName ≠ some h.name := by
      rw [hs] at hnd
      simp only [List.map_append, List.map_cons] at hnd
      have := (List.nodup_middle.1 hnd)
      rw [List.nodup_cons] at this
      intro y hy hc
      apply this.1
      rw [hn, ← hc]
      exact List.mem_append_right _ (List.mem_map_of_mem (f := fun y : Entry D => y.ev.hwName) hy)
    have k := C74_last_reading o body lim rd wr due lock cm hr v h hh i hi L1 L2 x (by
      change f.readLog ++ f.reactLog = _
      rw [hreact, List.append_nil, hs]) hlast
    intro y hy
    rw [(C74_readings o body lim rd wr due lock cm hr v h hh i hi).1 y hy]
    exact k

/-! ## Chains -/

/-- The updates run in the order of the controller list. -/
theorem C74_order (cm : CM) (hr : Reach o cm) (v : Vals D) (x y : Entry D) (n m : Name) (A B C : List Name)
    (hl : (cm.rtRead o rd).ctls.map (·.name) = A ++ n :: B ++ m :: C) :
    let f := cycle o body lim rd wr due lock cm v
    x ∈ f.updateLog → y ∈ f.updateLog → ctlName x.ev = some n → ctlName y.ev = some m →
    ∃ L1 L2 L3, f.updateLog = L1 ++ x :: L2 ++ y :: L3 := by
  intro f hx hy hxn hym
  have I := (hr.step (.read rd)).inv
  change CM.Inv (cm.rtRead o rd) at I
  have hnd := I.topo.names
  obtain ⟨es, h1, h2, _⟩ := updateLog_spec o body due (cm.rtRead o rd)
    (phase body true { cm with rm := (cm.rm.read o rd).1 } (cm.rtRead o rd)
      (phase body true cm { cm with rm := (cm.rm.read o rd).1 } v).1).1
  have hsub : (f.updateLog.map (fun e => ctlName e.ev)).Sublist ((A ++ n :: B ++ m :: C).map some) := by
    have : f.updateLog.map (fun e => ctlName e.ev) = es.map ctlName := by
      simp only [f, cycle]
      rw [h1]
      have := replay_ev body false (cm.rtRead o rd) es (cm.rtRead o rd).rm.tr
        (phase body true { cm with rm := (cm.rm.read o rd).1 } (cm.rtRead o rd)
          (phase body true cm { cm with rm := (cm.rm.read o rd).1 } v).1).1
      rw [← congrArg (List.map ctlName) this]
      simp
    rw [this, h2, ← hl]
    have : (cm.rtRead o rd).ctls.filter (fun c => (cm.rtRead o rd).runs due c) |>.map (fun c => some c.name) |>.Sublist
        ((cm.rtRead o rd).ctls.map (fun c => some c.name)) := List.filter_sublist.map _
    rw [List.map_map]; exact this
  rw [hl] at hnd
  obtain ⟨L1, R, hs⟩ := List.append_of_mem hx
  rw [hs] at hy
  have hnm : n ≠ m := by
    intro e; subst e
    simp [List.nodup_append] at hnd
  rcases List.mem_append.1 hy with hy | hy
  · exfalso
    -- `y` before `x`: then `m` before `n` in the list
    have h2 : [some m, some n].Sublist ((A ++ n :: B ++ m :: C).map some) := by
      refine List.Sublist.trans ?_ hsub
      rw [hs, List.map_append, List.map_cons]
      have a1 : [some m].Sublist (L1.map (fun e => ctlName e.ev)) := by
        rw [List.singleton_sublist, ← hym]; exact List.mem_map_of_mem (f := fun e : Entry D => ctlName e.ev) hy
      have a2 : [some n].Sublist (ctlName x.ev :: R.map (fun e => ctlName e.ev)) := by
        rw [List.singleton_sublist, ← hxn]; simp
      exact a1.append a2
    have h3 := h2.filter (fun z => decide (z = some m ∨ z = some n))
    have hA : ∀ l : List Name, (∀ z ∈ l, z ≠ m ∧ z ≠ n) → (l.map some).filter (fun z => decide (z = some m ∨ z = some n)) = [] := by
      intro l hl
      rw [List.filter_eq_nil_iff]
      intro z hz
      obtain ⟨w, hw, rfl⟩ := List.mem_map.1 hz
      simp [hl w hw]
    have n1 : ∀ z ∈ A, z ≠ m ∧ z ≠ n := by
      intro z hz; simp only [List.append_assoc, List.cons_append] at hnd
      rw [List.nodup_append'] at hnd
      refine ⟨fun e => hnd.2.2 hz (by simp [e]), fun e => hnd.2.2 hz (by simp [e])⟩
    have n2 : ∀ z ∈ B, z ≠ m ∧ z ≠ n := by
      intro z hz; simp only [List.append_assoc, List.cons_append] at hnd
      rw [List.nodup_append', List.nodup_cons, List.nodup_append'] at hnd
      refine ⟨fun e => hnd.2.1.2.2.2 hz (by simp [e]), fun e => hnd.2.1.1 (by simp [← e, hz])⟩
    have n3 : ∀ z ∈ C, z ≠ m ∧ z ≠ n := by
      intro z hz; simp only [List.append_assoc, List.cons_append] at hnd
      rw [List.nodup_append', List.nodup_cons, List.nodup_append', List.nodup_cons] at hnd
      refine ⟨fun e => hnd.2.1.2.2.1.1 (by rw [← e]; exact hz), fun e => hnd.2.1.1 (by simp [← e, hz])⟩
    simp only [List.map_append, List.map_cons, List.filter_append] at h3
    simp only [List.filter_cons, hA A n1, hA B n2, hA C n3, List.filter_nil, true_or, or_true, decide_true, if_true,
      List.nil_append, List.cons_append] at h3
    have := h3.eq_of_length (by simp)
    simp at this
    exact hnm this.2
  · rcases List.mem_cons.1 hy with rfl | hy
    · rw [hxn] at hym; simp at hym; exact absurd hym hnm
    · obtain ⟨L2, L3, e⟩ := List.append_of_mem hy
      exact ⟨L1, L2, L3, by rw [hs, e]; simp⟩

/-- **C74: a reference is seen in the cycle in which it is computed.** Controller `k` holds the reference `i` of controller `m`, and
`k` comes before `m` in the controller list (C11 says when): if both are updated in this cycle, `m`'s `update` finds in `i`
exactly what `k`'s `update` left there. (`i ∉ dropped`: the reference was not erased under its holder, see C06.) -/
theorem C74_chain (cm : CM) (hr : Reach o cm) (v : Vals D) (k : Ctl) (hk : k ∈ (cm.rtRead o rd).ctls) (i : Itf)
    (hi : i ∈ k.held) (hd : i ∉ (cm.rtRead o rd).dropped) (m : Name) (l : List Itf) (hm : (cm.rtRead o rd).rm.expR m = some l)
    (hil : i ∈ l) (A B C : List Name) (hl : (cm.rtRead o rd).ctls.map (·.name) = A ++ k.name :: B ++ m :: C) (x y : Entry D) :
    let f := cycle o body lim rd wr due lock cm v
    x ∈ f.updateLog → y ∈ f.updateLog → ctlName x.ev = some k.name → ctlName y.ev = some m →
    y.pre.cmd i = x.post.cmd i := by
  intro f hx hy hxn hym
  have hra := hr.step (.read rd)
  change Reach o (cm.rtRead o rd) at hra
  have I := hra.inv
  obtain ⟨L1, L2, L3, hs⟩ := C74_order o body lim rd wr due lock cm hr v x y k.name m A B C hl hx hy hxn hym
  change f.updateLog = _ at hs
  have d1 := updateLog_distinct (o := o) (due := due) I (L1 := L1) (x := x) (L2 := L2 ++ y :: L3)
    (by rw [show (phase body false _ _ _).2 = f.updateLog from rfl, hs]; simp)
  have d2 := updateLog_distinct (o := o) (due := due) I (L1 := L1 ++ x :: L2) (x := y) (L2 := L3)
    (by rw [show (phase body false _ _ _).2 = f.updateLog from rfl, hs])
  -- the log up to `y` is the log of a shorter replay
  have sp := replay_split body false (cm.rtRead o rd) (L1 ++ x :: L2) y L3 _ _ _ (show _ = _ from hs)
  have hpre := sp.1
  have hev : ∀ z ∈ L2, ∃ c r, z.ev = Ev.ctlUpdate c r := by
    intro z hz
    obtain ⟨es, h1, _, h3⟩ := updateLog_spec o body due (cm.rtRead o rd)
      (phase body true { cm with rm := (cm.rm.read o rd).1 } (cm.rtRead o rd)
        (phase body true cm { cm with rm := (cm.rm.read o rd).1 } v).1).1
    apply h3
    have : f.updateLog.map (·.ev) = es := by
      simp only [f, cycle]; rw [h1, replay_ev]
    rw [← this, hs]; simp only [List.map_append, List.map_cons]
    exact List.mem_append_left _ (List.mem_append_right _ (List.mem_cons_of_mem _ (List.mem_map_of_mem hz)))
  have hno : ∀ z ∈ L2, mayC false (cm.rtRead o rd) z.ev i = false := by
    intro z hz
    obtain ⟨c, r, e⟩ := hev z hz
    rw [e]
    by_contra hc
    rw [Bool.not_eq_false] at hc
    rcases mayC_update_ref I.sys.claims.rm hm hil hc with rfl | ⟨k', hk', e1, e2⟩
    · exact d2 z (by simp [hz]) (by rw [e, hym]; rfl)
    · have := (C06_single_holder_partial o _ hra i hd).2 k' hk' k hk e2 hi
      subst this
      exact d1 z (by simp [hz]) (by rw [e, hxn, e1]; rfl)
  -- replay of the log up to `y`
  have hx2 := replay_split body false (cm.rtRead o rd) L1 x (L2 ++ y :: L3) _ _ _ (show _ = _ by
    rw [show (replay body false _ _ _ _).2 = f.updateLog from rfl, hs]; simp)
  obtain ⟨_, tr', e1, _⟩ := hx2
  have := (replay_aroundC (body := body) (sw := false) (cm := cm.rtRead o rd) (L1 := L2) (x := y) (L2 := L3) (h := e1.symm) i).1 hno
  exact this

/-- **C74: an exported state is seen in the cycle in which it is computed.** Controllers updated after controller `n` find in the
state interfaces `n` exports what `n`'s `update` left there. -/
theorem C74_exported (cm : CM) (hr : Reach o cm) (v : Vals D) (n : Name) (l : List Itf)
    (hn : (cm.rtRead o rd).rm.expS n = some l) (i : Itf) (hi : i ∈ l) (L1 L2 : List (Entry D)) (x : Entry D) :
    let f := cycle o body lim rd wr due lock cm v
    f.updateLog = L1 ++ x :: L2 → ctlName x.ev = some n → ∀ y ∈ L2, y.pre.st i = x.post.st i := by
  intro f hs hx y hy
  have I := (hr.step (.read rd)).inv
  change CM.Inv (cm.rtRead o rd) at I
  have d1 := updateLog_distinct (o := o) (due := due) I (L1 := L1) (x := x) (L2 := L2)
    (by rw [show (phase body false _ _ _).2 = f.updateLog from rfl, hs])
  have hev : ∀ z ∈ L2, ∃ c r, z.ev = Ev.ctlUpdate c r := by
    intro z hz
    obtain ⟨es, h1, _, h3⟩ := updateLog_spec o body due (cm.rtRead o rd)
      (phase body true { cm with rm := (cm.rm.read o rd).1 } (cm.rtRead o rd)
        (phase body true cm { cm with rm := (cm.rm.read o rd).1 } v).1).1
    apply h3
    have : f.updateLog.map (·.ev) = es := by
      simp only [f, cycle]; rw [h1, replay_ev]
    rw [← this, hs]; simp only [List.map_append, List.map_cons]
    exact List.mem_append_right _ (List.mem_cons_of_mem _ (List.mem_map_of_mem hz))
  have := (replay_aroundS (body := body) (sw := false) (cm := cm.rtRead o rd) (L1 := L1) (x := x) (L2 := L2)
    (h := show _ = _ from hs) i).2 (by
      intro z hz
      obtain ⟨c, r, e⟩ := hev z hz
      rw [e]
      by_contra hc
      rw [Bool.not_eq_false] at hc
      have := maySt_update_exp I.sys.claims.rm hn hi hc
      subst this
      exact d1 z (by simp [hz]) (by rw [e, hx]; rfl))
  exact (this.2 y hy).1

/-! ## Commands -/

/-- **C74: a command interface belongs to its holder.** After the update loop a hardware command interface has the value left by
the `update` of the controller holding it; if no controller holding it was updated, the value it had before the loop. -/
theorem C74_command (cm : CM) (hr : Reach o cm) (v : Vals D) (h : Hw) (hh : h ∈ cm.rm.comps) (i : Itf) (hi : i ∈ h.cmdItfs) :
    let f := cycle o body lim rd wr due lock cm v
    (∀ k ∈ (cm.rtRead o rd).ctls, i ∈ k.held → ∀ x ∈ f.updateLog, ctlName x.ev = some k.name →
      f.afterUpdate.cmd i = x.post.cmd i) ∧
    ((∀ k ∈ (cm.rtRead o rd).ctls, i ∈ k.held → ∀ x ∈ f.updateLog, ctlName x.ev ≠ some k.name) →
      f.afterUpdate.cmd i = f.afterRead.cmd i) := by
  intro f
  have hra := hr.step (.read rd)
  change Reach o (cm.rtRead o rd) at hra
  have I := hra.inv
  obtain ⟨g, hg, _, _, e2⟩ := hw_after_read o rd hr.inv.sys.claims.rm hh
  rw [← comps_rtRead] at hg
  have hig : i ∈ g.cmdItfs := by rw [e2]; exact hi
  obtain ⟨es, h1, _, h3⟩ := updateLog_spec o body due (cm.rtRead o rd) f.afterRead
  have hlog : f.updateLog.map (·.ev) = es := by
    rw [show f.updateLog = (phase body false (cm.rtRead o rd) _ f.afterRead).2 from rfl, h1, replay_ev]
  have hev : ∀ z ∈ f.updateLog, ∃ c r, z.ev = Ev.ctlUpdate c r := by
    intro z hz; apply h3; rw [← hlog]; exact List.mem_map_of_mem hz
  constructor
  · intro k hk hik x hx hxn
    obtain ⟨L1, L2, hs⟩ := List.append_of_mem hx
    have d1 := updateLog_distinct (o := o) (due := due) I (L1 := L1) (x := x) (L2 := L2)
      (by rw [show (phase body false _ _ _).2 = f.updateLog from rfl, hs])
    refine ((replay_aroundC (body := body) (sw := false) (cm := cm.rtRead o rd) (h := show _ = _ from hs) i).2 ?_).1
    intro z hz
    obtain ⟨c, r, e⟩ := hev z (by rw [hs]; simp [hz])
    rw [e]
    by_contra hc
    rw [Bool.not_eq_false] at hc
    obtain ⟨k', hk', e1, e2⟩ := mayC_update_hw I.sys.claims.rm hg hig hc
    have := (C06_hardware_single_holder o _ hra g hg i hig).2.1 k' hk' k hk e2 hik
    subst this
    exact d1 z (by simp [hz]) (by rw [e, hxn, e1]; rfl)
  · intro hno
    rw [show f.afterUpdate = (phase body false (cm.rtRead o rd) _ f.afterRead).1 from rfl, h1]
    refine (replay_keepC body false (cm.rtRead o rd) i es _ _ ?_).1
    intro e he
    obtain ⟨c, r, rfl⟩ := h3 e he
    by_contra hc
    rw [Bool.not_eq_false] at hc
    obtain ⟨k', hk', e1, e2⟩ := mayC_update_hw I.sys.claims.rm hg hig hc
    rw [← hlog] at he
    obtain ⟨x, hx, ex⟩ := List.mem_map.1 he
    exact hno k' hk' e2 x hx (by rw [ex, e1]; rfl)

/-- `manage_switch` is not executed in this `update`: nothing is requested, or the request is not to be executed here
(`activate_asap` false), or the switch mutex is taken. -/
def NoSwitch (o : Oracle) (due : Name → Bool) (lock : Bool) (a : CM) : Prop :=
  let b := (loopDone o due a).1.handleFailed o (loopDone o due a).2.1
  ¬ (b.sw.doSwitch = true ∧ b.sw.asap = true ∧ lock = true)

theorem noSwitch_tr {o : Oracle} {due : Name → Bool} {lock : Bool} {a : CM} (hns : NoSwitch o due lock a) :
    (a.rtUpdate o due lock).1.rm.tr = ((loopDone o due a).1.handleFailed o (loopDone o due a).2.1).rm.tr := by
  unfold NoSwitch at hns
  unfold CM.rtUpdate
  simp only at hns ⊢
  unfold loopDone at hns ⊢
  generalize CM.updateLoop o due a.ctls a [] .ok = r at *
  generalize r.1.handleFailed o r.2.1 = b at *
  split
  · split
    · split
      · rename_i p q r; exact absurd ⟨p, q, r⟩ hns
      · rfl
    · rfl
  · rfl

/-- The `write` callback of a component finds in its command interfaces what was there when `ResourceManager::write` began. -/
theorem write_sees {o : Oracle} {body : Body D} {wr : Name → RM.Sched} {b : CM} (Ib : b.rm.Inv) {v : Vals D} {g : Hw}
    (hg : g ∈ b.rm.comps) {i : Itf} (hig : i ∈ g.cmdItfs) {x : Entry D} {r : IoAns}
    (hx : x ∈ (phase body true b { b with rm := (b.rm.write o wr).1 } v).2) (hxe : x.ev = .hwIo g.name .write r) :
    x.pre.cmd i = v.cmd i := by
  obtain ⟨L1, L2, hs⟩ := List.append_of_mem hx
  obtain ⟨es, k1, k2, k3⟩ := write_first o wr b.rm.writeOrder (b.rm, { result := .ok, failed := [] })
    (RM.writeOrder_nodup Ib) Ib
  change (b.rm.write o wr).1.tr = es ++ b.rm.tr at k1
  have hlog : (phase body true b { b with rm := (b.rm.write o wr).1 } v).2.map (·.ev) = es.reverse := by
    unfold phase
    rw [replay_ev, newEvents_of (cm := b) (cm' := { b with rm := (b.rm.write o wr).1 }) k1]
  have hfirst := k3 (L1.map (·.ev)) (L2.map (·.ev)) g.name .write r (by rw [← hlog, hs]; simp [hxe])
  refine (replay_aroundC (body := body) (sw := true) (cm := b) (h := show _ = _ from hs) i).1 ?_
  intro z hz
  have hzn := hfirst z.ev (List.mem_map_of_mem hz)
  have hze : z.ev ∈ es := by
    have : z.ev ∈ (L1 ++ x :: L2).map (·.ev) := List.mem_map_of_mem (by simp [hz])
    rw [← hs, hlog] at this; simpa using this
  obtain ⟨n, _, hn⟩ := k2 _ hze
  exact mayC_otherHw Ib hn hg (by intro e; exact hzn (by rw [hn, e])) hig

/-- **C74: what the driver is given is what the limiters left.** In a cycle without an executed switch, the `write` of component
`h` finds in its command interfaces exactly what `enforce_command_limits` left there. Missing: false of cycles with an executed
switch (`C74_false_switch`). -/
theorem C74_limited_partial (cm : CM) (hr : Reach o cm) (v : Vals D) (hns : NoSwitch o due lock (cm.rtRead o rd))
    (h : Hw) (hh : h ∈ cm.rm.comps) (i : Itf) (hi : i ∈ h.cmdItfs) (x : Entry D) (r : IoAns) :
    let f := cycle o body lim rd wr due lock cm v
    x ∈ f.writeLog → x.ev = .hwIo h.name .write r → x.pre.cmd i = f.afterLimits.cmd i := by
  intro f hx hxe
  have hra := hr.step (.read rd)
  change Reach o (cm.rtRead o rd) at hra
  have hrb := hra.step (.update due lock)
  change Reach o ((cm.rtRead o rd).rtUpdate o due lock).1 at hrb
  have Ib := hrb.inv.sys.claims.rm
  obtain ⟨g, hg, e0, _, e2⟩ := hw_after_read o rd hr.inv.sys.claims.rm hh
  rw [← comps_rtRead, ← SameHw.rtUpdate o due lock (cm.rtRead o rd)] at hg
  have hig : i ∈ g.cmdItfs := by rw [e2]; exact hi
  -- nothing runs between the limiters and `write`
  have htr := noSwitch_tr hns
  have hsw : (phase body true ((loopDone o due (cm.rtRead o rd)).1.handleFailed o (loopDone o due (cm.rtRead o rd)).2.1)
      ((cm.rtRead o rd).rtUpdate o due lock).1 f.afterLimits).1 = f.afterLimits := by
    unfold phase newEvents
    rw [htr]; simp [replay]
  have := write_sees (o := o) (wr := wr) (b := ((cm.rtRead o rd).rtUpdate o due lock).1) Ib hg hig hx (by rw [e0]; exact hxe)
  exact this.trans (congrArg (fun w : Vals D => w.cmd i) hsw)

/-- **C74: what a controller commands is what the driver gets, limited, in the same cycle.** In a cycle in which every `update`
returned OK and no switch was executed, the `write` of component `h` finds in its command interface `i` the limited value of what
the `update` of the controller holding `i` left there; and, if no controller holding `i` was updated, of the value `i` had when
the update loop began. Missing: the cycles of `C74_false_switch` and `C74_false_failed`. -/
theorem C74_delivered_partial (cm : CM) (hr : Reach o cm) (v : Vals D) (hns : NoSwitch o due lock (cm.rtRead o rd))
    (h : Hw) (hh : h ∈ cm.rm.comps) (i : Itf) (hi : i ∈ h.cmdItfs) (x : Entry D) (r : IoAns) :
    let f := cycle o body lim rd wr due lock cm v
    (∀ y ∈ f.updateLog, ∀ c a, y.ev = .ctlUpdate c a → a = .ret .ok) →
    x ∈ f.writeLog → x.ev = .hwIo h.name .write r →
    ∃ w : Vals D, x.pre.cmd i = (limited lim (loopDone o due (cm.rtRead o rd)).1.rm.tr w).cmd i ∧
      (∀ k ∈ (cm.rtRead o rd).ctls, i ∈ k.held → ∀ y ∈ f.updateLog, ctlName y.ev = some k.name → w.cmd i = y.post.cmd i) ∧
      ((∀ k ∈ (cm.rtRead o rd).ctls, i ∈ k.held → ∀ y ∈ f.updateLog, ctlName y.ev ≠ some k.name) →
        w.cmd i = f.afterRead.cmd i) := by
  intro f hok hx hxe
  refine ⟨f.afterUpdate, ?_, C74_command o body lim rd wr due lock cm hr v h hh i hi⟩
  rw [C74_limited_partial o body lim rd wr due lock cm hr v hns h hh i hi x r hx hxe]
  have hq : (loopDone o due (cm.rtRead o rd)).2.1 = [] := by
    refine updateLoop_quiet o due _ _ _ ?_
    intro es he c a hm
    have hlog : f.updateLog.map (·.ev) = es.reverse := by
      simp only [f, cycle, phase]
      rw [replay_ev, newEvents_of (cm' := (loopDone o due (cm.rtRead o rd)).1) he]
    have : Ev.ctlUpdate c a ∈ f.updateLog.map (·.ev) := by rw [hlog]; simpa using hm
    obtain ⟨y, hy, ey⟩ := List.mem_map.1 this
    exact hok y hy c a ey
  have hb : (loopDone o due (cm.rtRead o rd)).1.handleFailed o (loopDone o due (cm.rtRead o rd)).2.1 =
      (loopDone o due (cm.rtRead o rd)).1 := by rw [hq]; unfold CM.handleFailed; simp
  have : f.afterLimits = limited lim (loopDone o due (cm.rtRead o rd)).1.rm.tr f.afterUpdate := by
    simp only [f, cycle, phase]
    rw [hb, newEvents_self]
    rfl
  rw [← this]

theorem cycle_failed_ev (cm : CM) (v : Vals D) :
    (cycle o body lim rd wr due lock cm v).failedLog.map (·.ev) = newEvents (loopDone o due (cm.rtRead o rd)).1
      ((loopDone o due (cm.rtRead o rd)).1.handleFailed o (loopDone o due (cm.rtRead o rd)).2.1) := by
  simp only [cycle, phase]; rw [replay_ev]

theorem cycle_switch_ev (cm : CM) (v : Vals D) :
    (cycle o body lim rd wr due lock cm v).switchLog.map (·.ev) =
      newEvents ((loopDone o due (cm.rtRead o rd)).1.handleFailed o (loopDone o due (cm.rtRead o rd)).2.1)
        ((cm.rtRead o rd).rtUpdate o due lock).1 := by
  simp only [cycle, phase]; rw [replay_ev]

set_option maxHeartbeats 1000000 in
/-- **C74: a switch and a failure do not disturb the others.** In any cycle whatever (updates may fail, a switch may be executed): if no
callback of the reaction to failed updates and of the executed switch has to do with the command interface `i` of component `h` (it is none of
`h`, and none of a controller that holds `i` or can ask for it), then the `write` of `h` finds in `i` the limited value of what the `update` of the
controller holding `i` left there, or, if no such controller was updated, of the value `i` had when the update loop began. Missing: interfaces of
the components and controllers that are switched (`C74_false_switch`) or stopped (`C74_false_failed`). -/
theorem C74_bystander_partial (cm : CM) (hr : Reach o cm) (v : Vals D)
    (h : Hw) (hh : h ∈ cm.rm.comps) (i : Itf) (hi : i ∈ h.cmdItfs) (x : Entry D) (r : IoAns) :
    let f := cycle o body lim rd wr due lock cm v
    let b0 := (loopDone o due (cm.rtRead o rd)).1
    let b1 := b0.handleFailed o (loopDone o due (cm.rtRead o rd)).2.1
    (∀ y ∈ f.failedLog, ¬ Touches b0 h.name i y.ev) → (∀ y ∈ f.switchLog, ¬ Touches b1 h.name i y.ev) →
    x ∈ f.writeLog → x.ev = .hwIo h.name .write r →
    ∃ w : Vals D, x.pre.cmd i = (limited lim b1.rm.tr w).cmd i ∧
      (∀ k ∈ (cm.rtRead o rd).ctls, i ∈ k.held → ∀ y ∈ f.updateLog, ctlName y.ev = some k.name → w.cmd i = y.post.cmd i) ∧
      ((∀ k ∈ (cm.rtRead o rd).ctls, i ∈ k.held → ∀ y ∈ f.updateLog, ctlName y.ev ≠ some k.name) →
        w.cmd i = f.afterRead.cmd i) := by
  intro f b0 b1 hf hs hx hxe
  have hra := hr.step (.read rd)
  change Reach o (cm.rtRead o rd) at hra
  have Ia := hra.inv
  have hrb := hra.step (.update due lock)
  change Reach o ((cm.rtRead o rd).rtUpdate o due lock).1 at hrb
  have Ib := hrb.inv.sys.claims.rm
  have F0 : Fwd o Anybody (cm.rtRead o rd) b0 := Fwd.updateLoop o _ due _ _ _ _
    (fun c hc => (find_iff Ia.topo.names).2 ⟨hc, rfl⟩)
  have J0 := F0.inv Ia.sys
  have J1 : b1.abs.Inv := (Fwd.handleFailed o b0 (loopDone o due (cm.rtRead o rd)).2.1 J0).inv J0
  obtain ⟨g, hg, e0, _, e2⟩ := hw_after_read o rd hr.inv.sys.claims.rm hh
  rw [← comps_rtRead] at hg
  have hig : i ∈ g.cmdItfs := by rw [e2]; exact hi
  have hg0 : g ∈ b0.rm.comps := by
    obtain ⟨es, he⟩ := updateLoop_push o due (cm.rtRead o rd).ctls (cm.rtRead o rd) [] .ok
    have : b0.rm.comps = (cm.rtRead o rd).rm.comps := by
      show (CM.updateLoop o due (cm.rtRead o rd).ctls (cm.rtRead o rd) [] .ok).1.rm.comps = _
      rw [he]
    rw [this]; exact hg
  have hg1 : g ∈ b1.rm.comps := by
    rw [show b1.rm.comps = b0.rm.comps from SameHw.handleFailed o b0 _]; exact hg0
  have hgb : g ∈ ((cm.rtRead o rd).rtUpdate o due lock).1.rm.comps := by
    rw [show _ = (cm.rtRead o rd).rm.comps from SameHw.rtUpdate o due lock (cm.rtRead o rd)]; exact hg
  -- the values between the updates and the limiters
  let w : Vals D := (phase body true b0 b1 f.afterUpdate).1
  have hw : w.cmd i = f.afterUpdate.cmd i := by
    refine (replay_keepC body true b0 i _ _ _ ?_).1
    intro e he
    have : e ∈ f.failedLog.map (·.ev) := by
      rw [cycle_failed_ev]; exact he
    obtain ⟨y, hy, rfl⟩ := List.mem_map.1 this
    exact mayC_of_not_touches J0.claims.rm hg0 hig (by rw [e0]; exact hf y hy)
  -- the values between the limiters and `write`
  have hsw : (phase body true b1 ((cm.rtRead o rd).rtUpdate o due lock).1 f.afterLimits).1.cmd i = f.afterLimits.cmd i := by
    refine (replay_keepC body true b1 i _ _ _ ?_).1
    intro e he
    have : e ∈ f.switchLog.map (·.ev) := by
      rw [cycle_switch_ev]; exact he
    obtain ⟨y, hy, rfl⟩ := List.mem_map.1 this
    exact mayC_of_not_touches J1.claims.rm hg1 hig (by rw [e0]; exact hs y hy)
  have hwrite := write_sees (o := o) (wr := wr) (b := ((cm.rtRead o rd).rtUpdate o due lock).1) Ib hgb hig hx (by rw [e0]; exact hxe)
  refine ⟨w, hwrite.trans hsw, ?_⟩
  rw [hw]
  exact C74_command o body lim rd wr due lock cm hr v h hh i hi

end

/-! ## Witnesses and non-vacuity

The demo robot with all three controllers running: 200 commands the reference 100/0 of controller 100, which drives 10/0 of
component 1; 300 drives 20/0 of component 2 and reads 10/1 of component 1. -/

/-- Demo user code: `read` of component `n` leaves 40 + `n`; 200 commands 11; 100 commands its reference plus one; 300 commands what it
reads in 10/1; its `on_activate` commands 99 (in 20/0, which it holds); the other callbacks write nothing. -/
def demoBody : Body Nat := fun _ e v =>
  match e with
  | .hwIo n .read _ => { v with st := fun _ => 40 + n }
  | .ctlUpdate 200 _ => { v with cmd := fun _ => 11 }
  | .ctlUpdate 100 _ => { cmd := fun _ => v.cmd ⟨100, 0⟩ + 1, st := fun _ => v.cmd ⟨100, 0⟩ }
  | .ctlUpdate 300 _ => { v with cmd := fun _ => v.st ⟨10, 1⟩ }
  | .ctlCb 300 .activate _ => { v with cmd := fun i => if i = ⟨20, 0⟩ then 99 else v.cmd i }
  | _ => v

/-- Demo limiter: no command above 30. -/
def demoLim : Limiter Nat := fun _ v => { v with cmd := fun i => min (v.cmd i) 30 }

/-- All interfaces are 0. -/
def zero : Vals Nat := { cmd := fun _ => 0, st := fun _ => 0 }

/-- A cycle of the demo robot in which everything is due. -/
def demoCycle (o : Oracle) (ops : List CM.Op) : Cycle Nat :=
  cycle o demoBody demoLim runAll runAll (fun _ => true) true (demo o ops) zero

/-- What each callback of a log found in four interfaces: 10/0, 20/0, 100/0 (commands) and 10/1 (state). -/
def sees (l : List (Entry Nat)) : List (Ev × Nat × Nat × Nat × Nat) :=
  l.map (fun x => (x.ev, x.pre.cmd ⟨10, 0⟩, x.pre.cmd ⟨20, 0⟩, x.pre.cmd ⟨100, 0⟩, x.pre.st ⟨10, 1⟩))

/-- Non-vacuity of `C74_readings`, `C74_readings_of_read`, `C74_order`, `C74_chain`, `C74_command`, `C74_limited_partial` and
`C74_delivered_partial`: a cycle with reads, three updates (the second sees the reference 11 of the first), and two writes of
limited commands (12, and 30 instead of 41). -/
example :
    let f := demoCycle goodOracle (switchOps [100, 200, 300] [] .strict)
    let cm := demo goodOracle (switchOps [100, 200, 300] [] .strict)
    f.readLog.map (·.ev) = [.hwIo 1 .read (.ret .ok), .hwIo 2 .read (.ret .ok)] ∧
    (cm.rm.read goodOracle runAll).2.result = .ok ∧
    (cm.rtRead goodOracle runAll).ctls.map (·.name) = [] ++ 200 :: [400] ++ 100 :: [300] ∧
    (cm.rtRead goodOracle runAll).heldBy 200 = some [⟨100, 0⟩] ∧ (cm.rtRead goodOracle runAll).rm.expR 100 = some [⟨100, 0⟩] ∧
    (cm.rtRead goodOracle runAll).dropped = [] ∧
    sees f.updateLog = [(.ctlUpdate 200 (.ret .ok), 0, 0, 0, 41), (.ctlUpdate 100 (.ret .ok), 0, 0, 11, 41),
      (.ctlUpdate 300 (.ret .ok), 12, 0, 12, 41)] ∧
    sees f.writeLog = [(.hwIo 1 .write (.ret .ok), 12, 30, 12, 41), (.hwIo 2 .write (.ret .ok), 12, 30, 12, 41)] ∧
    (cm.rtRead goodOracle runAll).sw.doSwitch = false := by
  decide +kernel

/-- Non-vacuity of `NoSwitch`. -/
example : NoSwitch goodOracle (fun _ => true) true
    ((demo goodOracle (switchOps [100, 200, 300] [] .strict)).rtRead goodOracle runAll) := by
  unfold NoSwitch
  intro b h
  exact absurd h.1 (by decide +kernel)

/-- Non-vacuity of `C74_exported`: controller 100 exports the state 100/1, and 300, updated after it, sees what it left there. -/
example :
    let f := demoCycle goodOracle (switchOps [100, 200, 300] [] .strict)
    (((demo goodOracle (switchOps [100, 200, 300] [] .strict)).rtRead goodOracle runAll).rm.expS 100 = some [⟨100, 1⟩]) ∧
    f.updateLog.map (fun x => (ctlName x.ev, x.pre.st ⟨100, 1⟩, x.post.st ⟨100, 1⟩)) =
      [(some 200, 0, 0), (some 100, 0, 11), (some 300, 11, 11)] := by decide +kernel

/-- Decidable form of `¬ Touches`, for the examples below. -/
def apart (cm : CM) (h : Name) (i : Itf) (e : Ev) : Bool :=
  decide (e.hwName ≠ some h) && cm.ctls.all (fun k => !(decide (ctlName e = some k.name) && (decide (i ∈ k.held) || asks k.cfg.cmd i)))

theorem not_touches {cm : CM} {h : Name} {i : Itf} {e : Ev} (ha : apart cm h i e = true) : ¬ Touches cm h i e := by
  simp only [apart, Bool.and_eq_true, decide_eq_true_eq, List.all_eq_true, Bool.not_eq_true', Bool.and_eq_false_iff,
    decide_eq_false_iff_not, Bool.or_eq_false_iff] at ha
  rintro (h1 | ⟨k, hk, h1, h2⟩)
  · exact ha.1 h1
  · rcases ha.2 k hk with q | q
    · exact q h1
    · rcases h2 with h2 | h2
      · exact q.1 h2
      · rw [q.2] at h2; cases h2

/-- Non-vacuity of `C74_bystander_partial`: 100 and 200 run on component 1 while 300 is being activated on component 2; the two callbacks of
the switch have nothing to do with 10/0, and the `write` of component 1 finds 12 there, what 100 commanded. -/
example :
    let cm := demo goodOracle (switchOps [100, 200] [] .strict ++ [.switchBegin [300] [] .strict true])
    let f := cycle goodOracle demoBody demoLim runAll runAll (fun _ => true) true cm zero
    let b0 := (loopDone goodOracle (fun _ => true) (cm.rtRead goodOracle runAll)).1
    let b1 := b0.handleFailed goodOracle (loopDone goodOracle (fun _ => true) (cm.rtRead goodOracle runAll)).2.1
    f.switchLog.map (·.ev) = [.hwMode 2 false [⟨20, 0⟩] [] (.ret .ok), .ctlCb 300 .activate .success] ∧
    (∀ y ∈ f.switchLog, apart b1 1 ⟨10, 0⟩ y.ev = true) ∧ f.failedLog.map (·.ev) = [] ∧
    f.writeLog.map (fun x => (x.ev, x.pre.cmd ⟨10, 0⟩, x.pre.cmd ⟨20, 0⟩)) =
      [(.hwIo 1 .write (.ret .ok), 12, 99), (.hwIo 2 .write (.ret .ok), 12, 99)] := by decide +kernel

/-- Non-vacuity of `C74_bystander_partial`, a failed update: 300 fails on component 2, component 1 gets its command. -/
example :
    let cm := demo goodOracle (switchOps [100, 200, 300] [] .strict)
    let o := { goodOracle with ctlUpdate := fun _ n => if n = 300 then .ret .error else .ret .ok }
    let f := cycle o demoBody demoLim runAll runAll (fun _ => true) true cm zero
    let b0 := (loopDone o (fun _ => true) (cm.rtRead o runAll)).1
    f.failedLog.length = 3 ∧ (∀ y ∈ f.failedLog, apart b0 1 ⟨10, 0⟩ y.ev = true) ∧ f.switchLog.map (·.ev) = [] ∧
    f.writeLog.map (fun x => (x.ev, x.pre.cmd ⟨10, 0⟩)) = [(.hwIo 1 .write (.ret .ok), 12), (.hwIo 2 .write (.ret .ok), 12)] := by
  decide +kernel

/-- **C74 is false of a cycle with an executed switch.** 300 is being activated (`activate_asap`); its `on_activate` commands 99.
The limiters, which allow 30, have already run in this cycle: the driver is given 99. (A limiter bound to the handle itself,
C40, is part of what `on_activate` leaves; what is skipped is the limiting of the cycle, which alone knows the commands of the
other interfaces of the joint.) -/
theorem C74_false_switch :
    let f := demoCycle goodOracle [.switchBegin [300] [] .strict true]
    sees f.switchLog = [(.hwMode 2 false [⟨20, 0⟩] [] (.ret .ok), 0, 0, 0, 41), (.ctlCb 300 .activate .success, 0, 0, 0, 41)] ∧
    sees f.writeLog = [(.hwIo 1 .write (.ret .ok), 0, 99, 0, 41), (.hwIo 2 .write (.ret .ok), 0, 99, 0, 41)] ∧
    (∀ i, f.afterLimits.cmd i ≤ 30) := by
  refine ⟨by decide +kernel, by decide +kernel, ?_⟩
  intro i
  exact Nat.min_le_right _ _

/-- The negation of the full statement of `C74_limited_partial`. -/
theorem C74_false_limited : ¬ ∀ (o : Oracle) (body : Body Nat) (lim : Limiter Nat) (rd wr : Name → RM.Sched) (due : Name → Bool)
    (lock : Bool) (cm : CM) (v : Vals Nat), Reach o cm → ∀ h ∈ cm.rm.comps, ∀ i ∈ h.cmdItfs,
    ∀ x ∈ (cycle o body lim rd wr due lock cm v).writeLog, ∀ r, x.ev = .hwIo h.name .write r →
      x.pre.cmd i = (cycle o body lim rd wr due lock cm v).afterLimits.cmd i := by
  intro H
  have hm : ∃ h ∈ (demo goodOracle [.switchBegin [300] [] .strict true]).rm.comps, h.name = 2 ∧ (⟨20, 0⟩ : Itf) ∈ h.cmdItfs := by
    decide +kernel
  obtain ⟨h, hh, hn, hi⟩ := hm
  have w := C74_false_switch
  simp only at w
  obtain ⟨_, w, l⟩ := w
  have : (Ev.hwIo 2 .write (.ret .ok), 0, 99, 0, 41) ∈ sees (demoCycle goodOracle [.switchBegin [300] [] .strict true]).writeLog := by
    rw [w]; simp
  obtain ⟨x, hx, e⟩ := List.mem_map.1 this
  simp only [Prod.mk.injEq] at e
  have := H goodOracle demoBody demoLim runAll runAll (fun _ => true) true _ zero (demo_reach goodOracle _) h hh _ hi x hx
    (.ret .ok) (by rw [e.1, hn])
  have l := l ⟨20, 0⟩
  rw [e.2.2.1] at this
  unfold demoCycle at l
  rw [← this] at l
  omega

/-- The `update` of controller 300 fails. -/
def update300Fails : Oracle := { goodOracle with ctlUpdate := fun _ n => if n = 300 then .ret .error else .ret .ok }

/-- **C74: a command written by an `update` that failed is sent.** The `update` of 300 commands 41 and then reports an error: 300 is
stopped, but its command, limited to 30, stays in the interface, and the driver is given it. (A driver may
prevent it when it is told about the mode switch, or the controller in `on_deactivate`; the framework does not.) -/
theorem C74_false_failed :
    let cm := demo goodOracle (switchOps [100, 200, 300] [] .strict)
    let f := cycle update300Fails demoBody demoLim runAll runAll (fun _ => true) true cm zero
    f.updateLog.map (fun x => (x.ev, x.post.cmd ⟨20, 0⟩)) =
      [(.ctlUpdate 200 (.ret .ok), 0), (.ctlUpdate 100 (.ret .ok), 0), (.ctlUpdate 300 (.ret .error), 41)] ∧
    f.failedLog.map (·.ev) = [.hwMode 2 true [] [⟨20, 0⟩] (.ret .ok), .hwMode 2 false [] [⟨20, 0⟩] (.ret .ok),
      .ctlCb 300 .deactivate .success] ∧
    f.writeLog.map (fun x => (x.ev, x.pre.cmd ⟨20, 0⟩)) = [(.hwIo 1 .write (.ret .ok), 30), (.hwIo 2 .write (.ret .ok), 30)] ∧
    f.cm.lcOf 300 = some .inactive := by decide +kernel

end Verif.Flow
