import Verif.Hw.Component
import Verif.Hw.Spec
import Verif.Core.Lemmas
/-! Helper lemmas for the hardware lifecycle. -/
namespace Verif

/-- The component an event belongs to (hardware events only). -/
def Ev.hwName : Ev → Option Name
  | .hwCb n _ _ => some n
  | .hwErr n _ => some n
  | .hwIo n _ _ => some n
  | .hwMode n _ _ _ _ => some n
  | _ => none

theorem lcOf_cons_other {n : Name} {e : Ev} {t : List Ev} (h : e.hwName ≠ some n) :
    lcOf n (e :: t) = lcOf n t := by
  cases e <;> simp [Ev.hwName] at h <;> simp [lcOf, h]

theorem lcOf_append_other {n : Name} {es t : List Ev} (h : ∀ e ∈ es, e.hwName ≠ some n) :
    lcOf n (es ++ t) = lcOf n t := by
  induction es with
  | nil => rfl
  | cons e es ih =>
    rw [List.cons_append, lcOf_cons_other (h e (by simp)), ih (fun e he => h e (by simp [he]))]

/-- The reported state is the state implied by the history. -/
def Hw.Sync (h : Hw) (tr : List Ev) : Prop := h.lc = lcOf h.name tr

/-- What every component operation guarantees. -/
structure Hw.Good (h : Hw) (tr : List Ev) (h' : Hw) (tr' : List Ev) : Prop where
  frame : h' = { h with lc := h'.lc }
  ext : ∃ es, tr' = es ++ tr ∧ ∀ e ∈ es, e.hwName = some h.name
  sync : h.Sync tr → h'.Sync tr'
  ok : h.Sync tr → HwTraceOk tr → HwTraceOk tr'

theorem Hw.Good.refl (h : Hw) (tr : List Ev) : h.Good tr h tr :=
  ⟨rfl, ⟨[], by simp⟩, id, fun _ => id⟩

theorem Hw.Good.name {h h' : Hw} {tr tr'} (g : h.Good tr h' tr') : h'.name = h.name := by
  rw [g.frame]

theorem Hw.Good.trans {h h' h'' : Hw} {tr tr' tr''} (g : h.Good tr h' tr') (g' : h'.Good tr' h'' tr'') :
    h.Good tr h'' tr'' := by
  refine ⟨?_, ?_, fun s => g'.sync (g.sync s), fun s k => g'.ok (g.sync s) (g.ok s k)⟩
  · have a := g.frame; have b := g'.frame
    rw [b, a]
  · obtain ⟨es, e1, e2⟩ := g.ext
    obtain ⟨fs, f1, f2⟩ := g'.ext
    refine ⟨fs ++ es, by rw [f1, e1, List.append_assoc], ?_⟩
    intro e he
    rcases List.mem_append.1 he with he | he
    · rw [f2 e he, g.name]
    · exact e2 e he

theorem Hw.Good.other {h h' : Hw} {tr tr'} (g : h.Good tr h' tr') {m : Name} (hm : m ≠ h.name) :
    lcOf m tr' = lcOf m tr := by
  obtain ⟨es, e1, e2⟩ := g.ext
  rw [e1, lcOf_append_other]
  intro e he; rw [e2 e he]; simp; exact fun h => hm h.symm

theorem Hw.good_error (o : Oracle) (tr : List Ev) (h : Hw) :
    h.Good tr (h.error o tr).1 (h.error o tr).2 := by
  unfold Hw.error
  split
  · split <;> refine ⟨rfl, ⟨[_], rfl, by simp [Ev.hwName]⟩, ?_, ?_⟩ <;>
      intro s <;> (try intro k) <;> simp_all [Hw.Sync, lcOf, HwTraceOk, HwEvOk]
  · exact Hw.Good.refl h tr

/-- A single callback event on `h` followed by the state change it implies. -/
theorem Hw.good_event (h : Hw) (tr : List Ev) (e : Ev) (lc : LState) (hn : e.hwName = some h.name)
    (hs : h.Sync tr → lc = lcOf h.name (e :: tr)) (hk : h.Sync tr → HwEvOk tr e) :
    h.Good tr { h with lc := lc } (e :: tr) :=
  ⟨rfl, ⟨[e], rfl, by simpa using hn⟩, fun s => hs s, fun s k => ⟨hk s, k⟩⟩

/-- Side goals of the per-callback lemmas: membership of the event, the implied state, legality. -/
macro "hwside" : tactic =>
  `(tactic| ((try intro s); simp_all [Hw.Sync, lcOf, HwEvOk, Ev.hwName]))

theorem Hw.good_init (o : Oracle) (tr : List Ev) (h : Hw) :
    h.Good tr (h.init o tr).1 (h.init o tr).2 := by
  unfold Hw.init
  split
  · split
    all_goals first
      | (apply Hw.good_event <;> hwside; done)
      | (exact Hw.good_event h tr _ h.lc (by hwside) (by hwside) (by hwside))
  · exact Hw.Good.refl h tr

theorem Hw.good_cb_then_error (o : Oracle) (tr : List Ev) (h : Hw) (e : Ev)
    (hn : e.hwName = some h.name) (hs : lcOf h.name (e :: tr) = lcOf h.name tr)
    (hk : h.Sync tr → HwEvOk tr e) :
    h.Good tr (h.error o (e :: tr)).1 (h.error o (e :: tr)).2 :=
  (Hw.good_event h tr e h.lc hn (fun s => by rw [hs]; exact s) hk).trans (Hw.good_error o _ _)

theorem Hw.good_configure (o : Oracle) (tr : List Ev) (h : Hw) :
    h.Good tr (h.configure o tr).1 (h.configure o tr).2 := by
  unfold Hw.configure
  split
  · split
    all_goals first
      | (apply Hw.good_event <;> hwside; done)
      | (apply Hw.good_cb_then_error <;> hwside; done)
      | (exact Hw.good_event h tr _ h.lc (by hwside) (by hwside) (by hwside))
  · exact Hw.Good.refl h tr

theorem Hw.good_cleanup (o : Oracle) (tr : List Ev) (h : Hw) :
    h.Good tr (h.cleanup o tr).1 (h.cleanup o tr).2 := by
  unfold Hw.cleanup
  split
  · split
    all_goals first
      | (apply Hw.good_event <;> hwside; done)
      | (apply Hw.good_cb_then_error <;> hwside; done)
      | (exact Hw.good_event h tr _ h.lc (by hwside) (by hwside) (by hwside))
  · exact Hw.Good.refl h tr

theorem Hw.good_shutdown (o : Oracle) (tr : List Ev) (h : Hw) :
    h.Good tr (h.shutdown o tr).1 (h.shutdown o tr).2 := by
  unfold Hw.shutdown
  split
  · split
    all_goals first
      | (apply Hw.good_event <;> hwside; done)
      | (apply Hw.good_cb_then_error <;> hwside; done)
      | (exact Hw.good_event h tr _ h.lc (by hwside) (by hwside) (by hwside))
  · exact Hw.Good.refl h tr

theorem Hw.good_activate (o : Oracle) (tr : List Ev) (h : Hw) :
    h.Good tr (h.activate o tr).1 (h.activate o tr).2 := by
  unfold Hw.activate
  split
  · split
    all_goals first
      | (apply Hw.good_event <;> hwside; done)
      | (apply Hw.good_cb_then_error <;> hwside; done)
      | (exact Hw.good_event h tr _ h.lc (by hwside) (by hwside) (by hwside))
  · exact Hw.Good.refl h tr

theorem Hw.good_deactivate (o : Oracle) (tr : List Ev) (h : Hw) :
    h.Good tr (h.deactivate o tr).1 (h.deactivate o tr).2 := by
  unfold Hw.deactivate
  split
  · split
    all_goals first
      | (apply Hw.good_event <;> hwside; done)
      | (apply Hw.good_cb_then_error <;> hwside; done)
      | (exact Hw.good_event h tr _ h.lc (by hwside) (by hwside) (by hwside))
  · exact Hw.Good.refl h tr

theorem Hw.good_read (o : Oracle) (tr : List Ev) (h : Hw) :
    h.Good tr (h.read o tr).1 (h.read o tr).2.1 := by
  unfold Hw.read
  split
  · split
    · apply Hw.good_cb_then_error <;> hwside
    · exact Hw.good_event h tr _ h.lc (by hwside) (by hwside) (by hwside)
  · exact Hw.Good.refl h tr

theorem Hw.good_write (o : Oracle) (tr : List Ev) (h : Hw) :
    h.Good tr (h.write o tr).1 (h.write o tr).2.1 := by
  unfold Hw.write
  split
  · exact Hw.Good.refl h tr
  split
  · split
    · apply Hw.good_cb_then_error <;> hwside
    · exact Hw.good_event h tr _ h.lc (by hwside) (by hwside) (by hwside)
  · exact Hw.Good.refl h tr

theorem Hw.good_step (o : Oracle) (s : Hw × List Ev) (op : HwOp) :
    s.1.Good s.2 (Hw.step o s op).1 (Hw.step o s op).2 := by
  cases op <;> simp only [Hw.step]
  · exact Hw.good_init o _ _
  · exact Hw.good_configure o _ _
  · exact Hw.good_cleanup o _ _
  · exact Hw.good_shutdown o _ _
  · exact Hw.good_activate o _ _
  · exact Hw.good_deactivate o _ _
  · exact Hw.good_error o _ _
  · exact Hw.good_read o _ _
  · exact Hw.good_write o _ _

theorem Hw.good_run (o : Oracle) (s : Hw × List Ev) (ops : List HwOp) :
    s.1.Good s.2 (Hw.run o s ops).1 (Hw.run o s ops).2 := by
  induction ops generalizing s with
  | nil => exact Hw.Good.refl _ _
  | cons op t ih => exact (Hw.good_step o s op).trans (ih (Hw.step o s op))

theorem lcOf_unknown_of_no_event {n : Name} {tr : List Ev} (h : ∀ e ∈ tr, e.hwName ≠ some n) :
    lcOf n tr = .unknown := by
  have := lcOf_append_other (t := []) h
  simpa [lcOf] using this

/-- Reading ACTIVE off the history. -/
theorem lcOf_active {n : Name} {tr : List Ev} (h : lcOf n tr = .active) :
    ∃ post pre, tr = post ++ .hwCb n .activate .success :: pre ∧
      ∀ e ∈ post, (∀ cb, e ≠ .hwCb n cb .success) ∧ (∀ a, e ≠ .hwErr n a) := by
  induction tr with
  | nil => simp [lcOf] at h
  | cons e t ih =>
    have keep : (∀ cb, e ≠ .hwCb n cb .success) → (∀ a, e ≠ .hwErr n a) →
        lcOf n t = .active → ∃ post pre, e :: t = post ++ .hwCb n .activate .success :: pre ∧
      ∀ e ∈ post, (∀ cb, e ≠ .hwCb n cb .success) ∧ (∀ a, e ≠ .hwErr n a) := by
      intro h1 h2 ha
      obtain ⟨post, pre, p1, p2⟩ := ih ha
      refine ⟨e :: post, pre, by rw [p1]; rfl, ?_⟩
      intro x hx
      rcases List.mem_cons.1 hx with hx | hx
      · subst hx; exact ⟨h1, h2⟩
      · exact p2 x hx
    cases e with
    | hwCb m cb a =>
      by_cases hm : m = n
      · subst hm
        cases cb <;> cases a <;> simp [lcOf] at h <;> first
          | (exact keep (by simp) (by simp) h)
          | (exact ⟨[], t, rfl, by simp⟩)
      · exact keep (by intro cb; simp [hm]) (by simp) (by simpa [lcOf, hm] using h)
    | hwErr m a =>
      by_cases hm : m = n
      · subst hm; cases a <;> simp [lcOf] at h
      · exact keep (by simp) (by intro a; simp [hm]) (by simpa [lcOf, hm] using h)
    | _ => exact keep (by simp) (by simp) (by simpa [lcOf] using h)

end Verif
