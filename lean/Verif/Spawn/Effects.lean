import Verif.Spawn.Lemmas
/-!
# The answers a client accepts are about states the controller manager really was in
-/
namespace Verif
namespace Spawn
open CM

/-- A request is somewhere between the client and the acceptance of its answer. -/
def World.has (w : World) (m : Msg) : Prop := m ∈ w.inbox ∨ w.serving = some m ∨ ∃ a, (m, a) ∈ w.outbox

/-- What had been seen before the current request was sent for the first time. -/
def base (w : List Wire) : List Wire := w.rdropWhile Wire.isSent

theorem base_snoc (w : List Wire) (e : Wire) : base (w ++ [e]) = if e.isSent then base w else w ++ [e] := by
  unfold base
  rw [List.rdropWhile_concat]

theorem base_prefix (w : List Wire) : base w <+: w := List.rdropWhile_prefix _ _

theorem interrupted_mem_base {w : List Wire} (h : Wire.interrupted ∈ w) : Wire.interrupted ∈ base w := by
  induction w using List.reverseRecOn with
  | nil => simp at h
  | append_singleton l e ih =>
    rw [base_snoc]
    split
    · rename_i he
      rcases List.mem_append.1 h with h | h
      · exact ih h
      · simp at h; subst h; simp [Wire.isSent] at he
    · exact h

theorem run_snoc (c : Client) (o : Oracle) (w : World) (s : List Ev) (e : Ev) :
    run c o w (s ++ [e]) = step c o (run c o w s) e := by simp [run]

theorem next_mono (c : Client) (o : Oracle) (w : World) (e : Ev) : w.next ≤ (step c o w e).next := by
  cases e <;> simp only [step]
  all_goals (repeat' split)
  all_goals first
    | exact Nat.le_refl _
    | exact Nat.le_succ _
    | (rw [(answered_same _ _ _).2.2.1])

/-- A request under way was sent. -/
theorem inbox_sent {c : Client} {o : Oracle} {w : World} (h : ∀ m ∈ w.inbox, Wire.sent m.id m.req ∈ w.wire) (e : Ev) :
    (∀ m ∈ (step c o w e).inbox, Wire.sent m.id m.req ∈ (step c o w e).wire) := by
  obtain ⟨cm, st, next, inbox, serving, outbox, wire⟩ := w
  have er : ∀ m0, ∀ m ∈ inbox.erase m0, Wire.sent m.id m.req ∈ wire := fun m0 m hm => h m (List.mem_of_mem_erase hm)
  have snoc : ∀ w0, ∀ m ∈ inbox, Wire.sent m.id m.req ∈ wire ++ [w0] := fun w0 m hm => by simp [h m hm]
  cases e <;> simp only [step]
  case send =>
    split
    · intro m hm
      rcases List.mem_append.1 hm with hm | hm
      · exact snoc _ m hm
      · rw [List.mem_singleton] at hm; subst hm; simp
    · exact h
  case wake =>
    split
    · rw [(answered_same _ _ _).2.1]
      unfold answered; split <;> exact h
    · exact h
  case timeout =>
    split
    · rw [(answered_same _ _ _).2.1]
      unfold answered; split <;> exact h
    · exact h
  case lockTimeout => split <;> exact h
  all_goals (repeat' split)
  all_goals first
    | exact h
    | exact er _
    | exact snoc _

theorem inbox_run (c : Client) (o : Oracle) (cm : CM) (s : List Ev) :
    ∀ m ∈ (run c o (boot c cm) s).inbox, Wire.sent m.id m.req ∈ (run c o (boot c cm) s).wire := by
  induction s using List.reverseRecOn with
  | nil => intro m hm; simp [run, boot] at hm
  | append_singleton l e ih => rw [run_snoc]; exact inbox_sent ih e

theorem wire_mono (c : Client) (o : Oracle) (w : World) (e : Ev) : w.wire <+: (step c o w e).wire := by
  obtain ⟨cm, st, next, inbox, serving, outbox, wire⟩ := w
  cases e <;> simp only [step]
  case wake => split <;> first | (rw [(answered_same _ _ _).2.1]; exact List.prefix_rfl) | exact List.prefix_rfl
  case timeout => split <;> first | (rw [(answered_same _ _ _).2.1]; exact List.prefix_rfl) | exact List.prefix_rfl
  case lockTimeout => split <;> exact List.prefix_rfl
  all_goals (repeat' split)
  all_goals first
    | exact List.prefix_rfl
    | exact List.prefix_append _ _

theorem wire_run (c : Client) (o : Oracle) (w : World) (s t : List Ev) : (run c o w s).wire <+: (run c o w (s ++ t)).wire := by
  induction t using List.reverseRecOn with
  | nil => simp
  | append_singleton l e ih => rw [← List.append_assoc, run_snoc]; exact ih.trans (wire_mono _ _ _ _)

/-- After `s1` a request has been executed, which was begun earlier, after it had been sent. -/
def EffectAt (c : Client) (o : Oracle) (w0 : World) (s1 : List Ev) (r : Req) (a : Resp) : Prop :=
  ∃ s0, s0 <+: s1 ∧ (∃ id, Wire.sent id r ∈ (run c o w0 s0).wire) ∧ Effect o r a (run c o w0 s0).cm (run c o w0 s1).cm

/-- The second layer of the invariant, after the schedule `s`. -/
structure InvB (c : Client) (o : Oracle) (w0 : World) (s : List Ev) (w : World) : Prop where
  reach : Reach o w.cm
  ids : ∀ m, w.has m → m.id < w.next
  cur : ∀ p t id h, w.st = .running p t (some id) h → id < w.next ∧ (∀ m, w.has m → m.id = id → ∃ k, p = .call m.req k) ∧
    ∀ s1, s1 <+: s → id < (run c o w0 s1).next → base w.wire <+: (run c o w0 s1).wire
  out : ∀ m a, (m, a) ∈ w.outbox → ∃ s1, s1 <+: s ∧ m.id < (run c o w0 s1).next ∧ EffectAt c o w0 s1 m.req a
  srv : ∀ m, w.serving = some m → ∃ d l asap st s0 ops, m.req = .switch d l asap st ∧ s0 <+: s ∧
    (∃ id, Wire.sent id m.req ∈ (run c o w0 s0).wire) ∧ Reach o (run c o w0 s0).cm ∧
    ((run c o w0 s0).cm.switchBegin o l d st asap).2 = .wait ∧ ((run c o w0 s0).cm.switchBegin o l d st asap).1.WaitsThrough o ops ∧
    w.cm = CM.run o ((run c o w0 s0).cm.switchBegin o l d st asap).1 ops
  got : ∀ u r a v, w.wire = u ++ .got r a :: v → ∃ s1, s1 <+: s ∧ EffectAt c o w0 s1 r a ∧
    base u <+: (run c o w0 s1).wire
  mono : ∀ s1, s1 <+: s → (run c o w0 s1).next ≤ w.next

theorem waits_nil {o : Oracle} {cm : CM} (h : cm.pending = true) : cm.WaitsThrough o [] := by
  intro k hk
  have : k = 0 := by simpa using hk
  subst this; exact h

theorem waits_snoc {o : Oracle} {cm : CM} {ops : List Op} {op : Op} (h : cm.WaitsThrough o ops)
    (h' : ((CM.run o cm ops).step o op).pending = true) : cm.WaitsThrough o (ops ++ [op]) := by
  intro k hk
  by_cases e : k ≤ ops.length
  · rw [List.take_append_of_le_length e]; exact h k e
  · have : k = (ops ++ [op]).length := by simp at hk ⊢; omega
    subst this
    rw [List.take_length]
    simpa [CM.run] using h'

theorem waits_pending {o : Oracle} {cm : CM} {ops : List Op} (h : cm.WaitsThrough o ops) : (CM.run o cm ops).pending = true := by
  have := h ops.length (Nat.le_refl _)
  rwa [List.take_length] at this

theorem switchBegin_pending {o : Oracle} {cm : CM} {l d : List Name} {asap : Bool} {s : Strictness}
    (h : (cm.switchBegin o l d s asap).2 = .wait) : (cm.switchBegin o l d s asap).1.pending = true :=
  (CM.switchBegin_wait h).1

theorem InvB.step {c : Client} {o : Oracle} {w0 : World} {s : List Ev}
    (S : ∀ m ∈ (run c o w0 s).inbox, Wire.sent m.id m.req ∈ (run c o w0 s).wire) (B : InvB c o w0 s (run c o w0 s)) (e : Ev) : InvB c o w0 (s ++ [e]) (run c o w0 (s ++ [e])) := by
  -- the old facts about the longer schedule
  have hs : ∀ {s1}, s1 <+: s → s1 <+: s ++ [e] := fun h => h.trans (List.prefix_append _ _)
  have pre : ∀ {s1}, s1 <+: s ++ [e] → s1 = s ++ [e] ∨ s1 <+: s := fun h => List.prefix_concat_iff.1 h
  have hmono : ∀ s1, s1 <+: s ++ [e] → (run c o w0 s1).next ≤ (run c o w0 (s ++ [e])).next := by
    intro s1 h
    rcases pre h with rfl | h
    · exact Nat.le_refl _
    · rw [run_snoc]; exact (B.mono s1 h).trans (next_mono _ _ _ _)
  have hout : ∀ m a, (m, a) ∈ (run c o w0 s).outbox →
      ∃ s1, s1 <+: s ++ [e] ∧ m.id < (run c o w0 s1).next ∧ EffectAt c o w0 s1 m.req a := by
    intro m a h
    obtain ⟨s1, h1, h2⟩ := B.out m a h
    exact ⟨s1, hs h1, h2⟩
  have hgot : ∀ u r a v, (run c o w0 s).wire = u ++ .got r a :: v → ∃ s1, s1 <+: s ++ [e] ∧ EffectAt c o w0 s1 r a ∧
      base u <+: (run c o w0 s1).wire := by
    intro u r a v h
    obtain ⟨s1, h1, h2⟩ := B.got u r a v h
    exact ⟨s1, hs h1, h2⟩
  have hsrv : ∀ m, (run c o w0 s).serving = some m → ∃ d l asap st s0 ops, m.req = .switch d l asap st ∧ s0 <+: s ++ [e] ∧
      (∃ id, Wire.sent id m.req ∈ (run c o w0 s0).wire) ∧
      Reach o (run c o w0 s0).cm ∧ ((run c o w0 s0).cm.switchBegin o l d st asap).2 = .wait ∧
      ((run c o w0 s0).cm.switchBegin o l d st asap).1.WaitsThrough o ops ∧
      (run c o w0 s).cm = CM.run o ((run c o w0 s0).cm.switchBegin o l d st asap).1 ops := by
    intro m h
    obtain ⟨d, l, asap, st, s0, ops, h1, h0, h2⟩ := B.srv m h
    exact ⟨d, l, asap, st, s0, ops, h1, hs h0, h2⟩
  -- a step that keeps status and wire
  have hcur : (run c o w0 (s ++ [e])).st = (run c o w0 s).st → (run c o w0 (s ++ [e])).wire = (run c o w0 s).wire →
      (run c o w0 s).next ≤ (run c o w0 (s ++ [e])).next → (∀ m, (run c o w0 (s ++ [e])).has m → (run c o w0 s).has m) →
      ∀ p t id h, (run c o w0 (s ++ [e])).st = .running p t (some id) h → id < (run c o w0 (s ++ [e])).next ∧
        (∀ m, (run c o w0 (s ++ [e])).has m → m.id = id → ∃ k, p = .call m.req k) ∧
        ∀ s1, s1 <+: s ++ [e] → id < (run c o w0 s1).next → base (run c o w0 (s ++ [e])).wire <+: (run c o w0 s1).wire := by
    intro h1 h2 h3 h4 p t id h he
    rw [h1] at he
    obtain ⟨k1, k2, k3⟩ := B.cur p t id h he
    refine ⟨by omega, fun m hm => k2 m (h4 m hm), ?_⟩
    intro s1 hs1 hid
    rcases pre hs1 with rfl | hs1
    · exact base_prefix _
    · rw [h2]; exact k3 s1 hs1 hid
  have hself : s ++ [e] <+: s ++ [e] := List.prefix_refl _
  revert hmono hout hgot hcur
  generalize hW : run c o w0 (s ++ [e]) = W
  intro hmono hout hgot hcur
  have hW' : Spawn.step c o (run c o w0 s) e = W := by rw [← run_snoc]; exact hW
  generalize hws : run c o w0 s = w at *
  cases e with
  | env op =>
    simp only [Spawn.step] at hW'
    split at hW'
    · subst hW'
      exact ⟨B.reach, B.ids, hcur rfl rfl (Nat.le_refl _) (fun _ h => h), hout, hsrv, hgot, hmono⟩
    · rename_i hx
      subst hW'
      refine ⟨B.reach.step op, B.ids, hcur rfl rfl (Nat.le_refl _) (fun _ h => h), hout, ?_, hgot, hmono⟩
      intro m hm
      have hm' : w.serving = some m := hm
      obtain ⟨d, l, asap, st, s0, ops, h1, h0, hst0, h2, h3, h4, h5⟩ := B.srv m hm'
      refine ⟨d, l, asap, st, s0, ops ++ [op], h1, hs h0, hst0, h2, h3, waits_snoc h4 ?_, by simp [CM.run, h5]⟩
      refine step_keeps_pending o op (waits_pending h4) ?_
      simpa [hm'] using hx
  | loseReq m =>
    subst hW'
    have hh : ∀ m', (Spawn.step c o w (.loseReq m)).has m' → w.has m' := by
      rintro m' (h | h)
      · exact .inl (List.mem_of_mem_erase h)
      · exact .inr h
    exact ⟨B.reach, fun m' h => B.ids m' (hh m' h), hcur rfl rfl (Nat.le_refl _) hh, hout, hsrv, hgot, hmono⟩
  | loseResp m a =>
    subst hW'
    have hh : ∀ m', (Spawn.step c o w (.loseResp m a)).has m' → w.has m' := by
      rintro m' (h | h | ⟨b, h⟩)
      · exact .inl h
      · exact .inr (.inl h)
      · exact .inr (.inr ⟨b, List.mem_of_mem_erase h⟩)
    exact ⟨B.reach, fun m' h => B.ids m' (hh m' h), hcur rfl rfl (Nat.le_refl _) hh,
      fun m' b h => hout m' b (List.mem_of_mem_erase h), hsrv, hgot, hmono⟩
  | serve m x =>
    simp only [Spawn.step] at hW'
    split at hW'
    · rename_i hx
      split at hW'
      · rename_i cm' a hh
        have hhas : ∀ m', W.has m' → w.has m' := by
          subst hW'
          rintro m' (h | h | ⟨b, h⟩)
          · exact .inl (List.mem_of_mem_erase h)
          · exact .inr (.inl h)
          · rcases List.mem_append.1 h with h | h
            · exact .inr (.inr ⟨b, h⟩)
            · simp at h; rw [h.1]; exact .inl hx.1
        have hcm : W.cm = cm' := by rw [← hW']
        have hnx : W.next = w.next := by rw [← hW']
        refine ⟨by rw [hcm]; exact handle_reach B.reach hx.2 hh, fun m' h => by rw [hnx]; exact B.ids m' (hhas m' h),
          hcur (by rw [← hW']) (by rw [← hW']) (by rw [hnx]) hhas, ?_, ?_, ?_, hmono⟩
        · intro m' b hb
          rw [← hW'] at hb
          rcases List.mem_append.1 hb with hb | hb
          · exact hout m' b hb
          · simp only [List.mem_singleton, Prod.mk.injEq] at hb
            obtain ⟨rfl, rfl⟩ := hb
            refine ⟨_, hself, ?_, ?_⟩
            · rw [hW, hnx]; exact B.ids m' (.inl hx.1)
            · refine ⟨s, List.prefix_append _ _, ⟨_, by rw [hws]; exact S m' hx.1⟩, ?_⟩
              rw [hW, hcm, hws]; exact handle_effect B.reach hh
        · intro m' hm'
          rw [← hW'] at hm'
          have hm' : w.serving = some m' := hm'
          obtain ⟨d, l, asap, st, s0, ops, h1, h0, hst0, h2, h3, h4, h5⟩ := B.srv m' hm'
          have := waits_pending h4
          rw [← h5, hx.2] at this
          cases this
        · rw [← hW']; exact hgot
      · rename_i cm' hh
        have hhas : ∀ m', W.has m' → w.has m' := by
          subst hW'
          rintro m' (h | h | ⟨b, h⟩)
          · exact .inl (List.mem_of_mem_erase h)
          · simp only [Option.some.injEq] at h; rw [← h]; exact .inl hx.1
          · exact .inr (.inr ⟨b, h⟩)
        have hcm : W.cm = cm' := by rw [← hW']
        have hnx : W.next = w.next := by rw [← hW']
        refine ⟨by rw [hcm]; exact handle_reach B.reach hx.2 hh, fun m' h => by rw [hnx]; exact B.ids m' (hhas m' h),
          hcur (by rw [← hW']) (by rw [← hW']) (by rw [hnx]) hhas, ?_, ?_, ?_, hmono⟩
        · rw [← hW']; exact hout
        · intro m' hm'
          rw [← hW'] at hm'
          simp only [Option.some.injEq] at hm'
          subst hm'
          obtain ⟨d, l, asap, st, h1, h2⟩ := handle_none hh
          refine ⟨d, l, asap, st, s, [], h1, List.prefix_append _ _, ⟨_, by rw [hws]; exact S m hx.1⟩, by rw [hws]; exact B.reach, by rw [hws, h2], waits_nil (switchBegin_pending (by rw [hws, h2])), ?_⟩
          rw [hcm, hws, h2]; rfl
        · rw [← hW']; exact hgot
    · subst hW'
      exact ⟨B.reach, B.ids, hcur rfl rfl (Nat.le_refl _) (fun _ h => h), hout, hsrv, hgot, hmono⟩
  | wake =>
    simp only [Spawn.step] at hW'
    split at hW'
    · rename_i m hm
      unfold answered at hW'
      split at hW'
      · subst hW'
        exact ⟨B.reach, B.ids, hcur rfl rfl (Nat.le_refl _) (fun _ h => h), hout, hsrv, hgot, hmono⟩
      · rename_i res hres
        have hhas : ∀ m', W.has m' → w.has m' := by
          subst hW'
          rintro m' (h | h | ⟨b, h⟩)
          · exact .inl h
          · cases h
          · rcases List.mem_append.1 h with h | h
            · exact .inr (.inr ⟨b, h⟩)
            · simp at h; rw [h.1]; exact .inr (.inl hm)
        have hcm : W.cm = (w.cm.switchWake o).1 := by rw [← hW']
        have hnx : W.next = w.next := by rw [← hW']
        refine ⟨by rw [hcm]; exact B.reach.step .switchWake, fun m' h => by rw [hnx]; exact B.ids m' (hhas m' h),
          hcur (by rw [← hW']) (by rw [← hW']) (by rw [hnx]) hhas, ?_, ?_, ?_, hmono⟩
        · intro m' b hb
          rw [← hW'] at hb
          rcases List.mem_append.1 hb with hb | hb
          · exact hout m' b hb
          · simp only [List.mem_singleton, Prod.mk.injEq] at hb
            obtain ⟨rfl, rfl⟩ := hb
            refine ⟨_, hself, ?_, ?_⟩
            · rw [hW, hnx]; exact B.ids m' (.inr (.inl hm))
            · obtain ⟨d, l, asap, st, s0, ops, h1, h0, hst0, h2, h3, h4, h5⟩ := B.srv m' hm
              refine ⟨s0, hs h0, hst0, ?_⟩
              rw [hW, hcm]
              rw [h1]
              intro ok
              simp only [okOf_iff] at ok
              rw [h5] at hres ⊢
              rw [ok] at hres
              exact switch_effect h2 h3 h4 hres
        · intro m' hm'; rw [← hW'] at hm'; cases hm'
        · rw [← hW']; exact hgot
    · subst hW'
      exact ⟨B.reach, B.ids, hcur rfl rfl (Nat.le_refl _) (fun _ h => h), hout, hsrv, hgot, hmono⟩
  | timeout =>
    simp only [Spawn.step] at hW'
    split at hW'
    · rename_i m hm
      unfold answered at hW'
      split at hW'
      · subst hW'
        exact ⟨B.reach, B.ids, hcur rfl rfl (Nat.le_refl _) (fun _ h => h), hout, hsrv, hgot, hmono⟩
      · rename_i res hres
        have hhas : ∀ m', W.has m' → w.has m' := by
          subst hW'
          rintro m' (h | h | ⟨b, h⟩)
          · exact .inl h
          · cases h
          · rcases List.mem_append.1 h with h | h
            · exact .inr (.inr ⟨b, h⟩)
            · simp at h; rw [h.1]; exact .inr (.inl hm)
        have hcm : W.cm = w.cm.switchTimeout.1 := by rw [← hW']
        have hnx : W.next = w.next := by rw [← hW']
        refine ⟨by rw [hcm]; exact B.reach.step .switchTimeout, fun m' h => by rw [hnx]; exact B.ids m' (hhas m' h),
          hcur (by rw [← hW']) (by rw [← hW']) (by rw [hnx]) hhas, ?_, ?_, ?_, hmono⟩
        · intro m' b hb
          rw [← hW'] at hb
          rcases List.mem_append.1 hb with hb | hb
          · exact hout m' b hb
          · simp only [List.mem_singleton, Prod.mk.injEq] at hb
            obtain ⟨rfl, rfl⟩ := hb
            refine ⟨_, hself, ?_, ?_⟩
            · rw [hW, hnx]; exact B.ids m' (.inr (.inl hm))
            · obtain ⟨d, l, asap, st, s0, ops, h1, h0, hst0, h2, h3, h4, h5⟩ := B.srv m' hm
              refine ⟨s0, hs h0, hst0, ?_⟩
              rw [h1]
              intro ok
              simp only [okOf_iff] at ok
              unfold CM.switchTimeout at hres
              split at hres
              · simp only [Option.some.injEq] at hres; rw [ok] at hres; cases hres
              · cases hres
        · intro m' hm'; rw [← hW'] at hm'; cases hm'
        · rw [← hW']; exact hgot
    · subst hW'
      exact ⟨B.reach, B.ids, hcur rfl rfl (Nat.le_refl _) (fun _ h => h), hout, hsrv, hgot, hmono⟩
  | locked =>
    simp only [Spawn.step] at hW'
    split at hW'
    · subst hW'
      refine ⟨B.reach, B.ids, ?_, hout, hsrv, hgot, hmono⟩
      intro p t id h he
      obtain ⟨_, _, hc, _⟩ := enter_running he
      cases hc
    · subst hW'
      exact ⟨B.reach, B.ids, hcur rfl rfl (Nat.le_refl _) (fun _ h => h), hout, hsrv, hgot, hmono⟩
  | lockTimeout =>
    simp only [Spawn.step] at hW'
    split at hW'
    · subst hW'
      refine ⟨B.reach, B.ids, ?_, hout, hsrv, hgot, hmono⟩
      intro p t id h he
      simp only [Spawn.lockTimeout] at he
      split at he <;> cases he
    · subst hW'
      exact ⟨B.reach, B.ids, hcur rfl rfl (Nat.le_refl _) (fun _ h => h), hout, hsrv, hgot, hmono⟩
  | send =>
    simp only [Spawn.step] at hW'
    split at hW'
    · rename_i r k tries hd hst
      have hwire : W.wire = w.wire ++ [.sent w.next r] := by rw [← hW']
      have hnx : W.next = w.next + 1 := by rw [← hW']
      have hhas : ∀ m', W.has m' → w.has m' ∨ m' = ⟨w.next, r⟩ := by
        subst hW'
        rintro m' (h | h)
        · rcases List.mem_append.1 h with h | h
          · exact .inl (.inl h)
          · exact .inr (by simpa using h)
        · exact .inl (.inr h)
      refine ⟨by rw [← hW']; exact B.reach, ?_, ?_, by rw [← hW']; exact hout, by rw [← hW']; exact hsrv, ?_, hmono⟩
      · intro m' h
        rw [hnx]
        rcases hhas m' h with h | rfl
        · have := B.ids m' h; omega
        · exact Nat.lt_succ_self _
      · intro p t id h he
        rw [← hW'] at he
        simp only [Status.running.injEq, Option.some.injEq] at he
        obtain ⟨rfl, rfl, rfl, rfl⟩ := he
        refine ⟨by omega, ?_, ?_⟩
        · intro m' hm' hid
          rcases hhas m' hm' with h | rfl
          · have := B.ids m' h; omega
          · exact ⟨k, rfl⟩
        · intro s1 h1 h2
          rcases pre h1 with rfl | h1
          · rw [hW]; exact base_prefix _
          · have := B.mono s1 h1; omega
      · intro u r' a v hu
        rw [hwire] at hu
        rcases split_snoc hu with ⟨_, h1, _⟩ | ⟨v', _, h1⟩
        · cases h1
        · exact hgot u r' a v' h1
    · subst hW'
      exact ⟨B.reach, B.ids, hcur rfl rfl (Nat.le_refl _) (fun _ h => h), hout, hsrv, hgot, hmono⟩
  | noService =>
    simp only [Spawn.step] at hW'
    split at hW'
    · subst hW'
      exact ⟨B.reach, B.ids, (by intro p t id h he; cases he), hout, hsrv, hgot, hmono⟩
    · subst hW'
      exact ⟨B.reach, B.ids, (by intro p t id h he; cases he), hout, hsrv, hgot, hmono⟩
    · subst hW'
      exact ⟨B.reach, B.ids, hcur rfl rfl (Nat.le_refl _) (fun _ h => h), hout, hsrv, hgot, hmono⟩
  | deliver m a =>
    have hh : ∀ w' : World, w'.inbox = w.inbox → w'.serving = w.serving → w'.outbox = w.outbox.erase (m, a) →
        ∀ m', w'.has m' → w.has m' := by
      rintro w' h1 h2 h3 m' (h | h | ⟨b, h⟩)
      · rw [h1] at h; exact .inl h
      · rw [h2] at h; exact .inr (.inl h)
      · rw [h3] at h; exact .inr (.inr ⟨b, List.mem_of_mem_erase h⟩)
    simp only [Spawn.step] at hW'
    split at hW'
    · rename_i hx
      split at hW'
      · rename_i r k t id hd hst
        split at hW'
        · rename_i hid
          have hh := hh W (by rw [← hW']) (by rw [← hW']) (by rw [← hW'])
          subst hW'
          obtain ⟨k1, k2, k3⟩ := B.cur _ _ _ _ hst
          have hreq : m.req = r := by
            obtain ⟨k', hk⟩ := k2 m (.inr (.inr ⟨a, hx⟩)) hid.symm
            cases hk; rfl
          refine ⟨B.reach, fun m' h => B.ids m' (hh m' h), ?_, fun m' b h => hout m' b (List.mem_of_mem_erase h), hsrv, ?_, hmono⟩
          · intro p t id h he
            obtain ⟨_, _, hc, _⟩ := enter_running he
            cases hc
          · intro u r' a' v hu
            rcases split_snoc hu with ⟨_, h1, rfl⟩ | ⟨v', _, h1⟩
            · cases h1
              obtain ⟨s1, j1, j2, j3⟩ := B.out m a hx
              exact ⟨s1, hs j1, by rw [← hreq]; exact j3, k3 s1 j1 (by rw [hid]; exact j2)⟩
            · exact hgot u r' a' v' h1
        · have hh := hh W (by rw [← hW']) (by rw [← hW']) (by rw [← hW'])
          subst hW'
          exact ⟨B.reach, fun m' h => B.ids m' (hh m' h), hcur rfl rfl (Nat.le_refl _) hh,
            fun m' b h => hout m' b (List.mem_of_mem_erase h), hsrv, hgot, hmono⟩
      · have hh := hh W (by rw [← hW']) (by rw [← hW']) (by rw [← hW'])
        subst hW'
        exact ⟨B.reach, fun m' h => B.ids m' (hh m' h), hcur rfl rfl (Nat.le_refl _) hh,
          fun m' b h => hout m' b (List.mem_of_mem_erase h), hsrv, hgot, hmono⟩
    · subst hW'
      exact ⟨B.reach, B.ids, hcur rfl rfl (Nat.le_refl _) (fun _ h => h), hout, hsrv, hgot, hmono⟩
  | giveUp =>
    simp only [Spawn.step] at hW'
    split at hW'
    · subst hW'
      refine ⟨B.reach, B.ids, ?_, hout, hsrv, hgot, hmono⟩
      intro p t id h he
      dsimp only at he
      split at he <;> cases he
    · subst hW'
      exact ⟨B.reach, B.ids, hcur rfl rfl (Nat.le_refl _) (fun _ h => h), hout, hsrv, hgot, hmono⟩
  | interrupt =>
    have gi : ∀ u r a v, w.wire ++ [Wire.interrupted] = u ++ .got r a :: v → ∃ s1, s1 <+: s ++ [Ev.interrupt] ∧
        EffectAt c o w0 s1 r a ∧ base u <+: (run c o w0 s1).wire := by
      intro u r a v hu
      rcases split_snoc hu with ⟨_, h1, _⟩ | ⟨v', _, h1⟩
      · cases h1
      · exact hgot u r a v' h1
    simp only [Spawn.step] at hW'
    split at hW'
    · subst hW'
      refine ⟨B.reach, B.ids, ?_, hout, hsrv, gi, hmono⟩
      intro p t id h he
      dsimp only at he
      split at he <;> cases he
    · subst hW'
      refine ⟨B.reach, B.ids, ?_, hout, hsrv, gi, hmono⟩
      intro p t id h he
      obtain ⟨_, _, hc, _⟩ := enter_running he
      cases hc
    · subst hW'
      exact ⟨B.reach, B.ids, hcur rfl rfl (Nat.le_refl _) (fun _ h => h), hout, hsrv, hgot, hmono⟩

/-- Both layers hold after every schedule. -/
theorem inv_run (c : Client) (o : Oracle) (cm : CM) (hr : Reach o cm) (s : List Ev) :
    InvA c (run c o (boot c cm) s) ∧ InvB c o (boot c cm) s (run c o (boot c cm) s) := by
  induction s using List.reverseRecOn with
  | nil =>
    have hw : ∀ p t id h, (boot c cm).st ≠ .running p t (some id) h := by
      intro p t id h he
      simp only [boot] at he
      split at he
      · cases he
      · obtain ⟨_, _, hc, _⟩ := enter_running he; cases hc
    refine ⟨?_, ?_⟩
    · change InvA c (boot c cm)
      cases hl : c.lock with
      | true =>
        refine ⟨?_, ?_, ?_, ?_⟩
        · simp [boot, hl, Pos]
        · intro u id r v h; simp [boot] at h
        · intro p t cur h he; simp [boot, hl] at he
        · intro u l v h; simp [boot] at h; simp [h]
      | false =>
        refine InvA.enter (p := c.main) (b := false) ⟨by simp [boot], .nil⟩ (by simp [boot, hl]) rfl ?_ ?_
        · intro u id r v h; simp [boot] at h
        · intro u l v h; simp [boot] at h; simp [h]
    · change InvB c o (boot c cm) [] (boot c cm)
      refine ⟨hr, ?_, fun p t id h he => absurd he (hw p t id h), ?_, ?_, ?_, ?_⟩
      · rintro m (h | h | ⟨b, h⟩) <;> simp [boot] at h
      · intro m a h; simp [boot] at h
      · intro m h; simp [boot] at h
      · intro u r a v h; simp [boot] at h
      · intro s1 h
        have : s1 = [] := by simpa using h
        subst this; exact Nat.le_refl _
  | append_singleton l e ih =>
    refine ⟨?_, ih.2.step (inbox_run c o cm l) e⟩
    rw [run_snoc]; exact ih.1.step e

end Spawn
end Verif
