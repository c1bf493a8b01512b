import Verif.Spawn.Outcome
/-!
# What stays
-/
namespace Verif
namespace Spawn
open CM

/-- Only `unload_controller` makes a controller disappear. -/
theorem loaded_step {o : Oracle} {cm : CM} (hr : Reach o cm) {op : Op} {n : Name} (hop : op ≠ .unload n)
    (h : n ∈ cm.ctls.map (·.name)) : n ∈ (cm.step o op).ctls.map (·.name) := by
  have I := hr.inv
  have fwd : ∀ {T} {b : CM}, Fwd o T cm b → n ∈ b.ctls.map (·.name) := fun k => by
    rw [names_of_stat k.stat]; exact h
  cases op with
  | load m ch as cfg fb =>
    simp only [CM.step]
    rcases C07_load_result o cm m ch as cfg fb with ⟨-, e⟩ | ⟨-, -, c, -, -, -, -, e⟩
    · rw [e]; exact h
    · rw [e, List.map_append]; exact List.mem_append_left _ h
  | configure m cfg ord r => exact (C10_reorder_is_permutation o cm hr m cfg ord r).mem_iff.2 h
  | cleanup m => exact fwd (Fwd.cleanup o cm m)
  | unload m =>
    have hm : m ≠ n := fun e => hop (by rw [e])
    simp only [CM.step]
    by_cases hok : (cm.unload o m).2 = .ok
    · rw [C08_unload_ok o cm m hok]
      obtain ⟨c, hc, rfl⟩ := List.mem_map.1 h
      exact List.mem_map.2 ⟨c, List.mem_filter.2 ⟨hc, by simpa using hm.symm⟩, rfl⟩
    · rw [(C08_unload_error o cm m hok).1]; exact h
  | switchBegin a d s asap =>
    simp only [CM.step]
    split
    · exact h
    · exact fwd (Fwd.switchBegin o cm a d s asap I.sys)
  | switchWake => exact fwd (Fwd.switchWake o cm I)
  | switchTimeout => exact fwd (Fwd.switchTimeout o Anybody cm)
  | read sched => exact fwd (Fwd.rtRead o sched cm I.sys)
  | update due lock => exact fwd (Fwd.rtUpdate o due lock cm I)
  | write sched => exact fwd (Fwd.rtWrite o sched cm I.sys)
  | setHw m t => exact fwd (Fwd.setHw o Anybody cm m t I.sys)
  | shutdown => exact fwd (Fwd.shutdownAll o cm)

theorem loaded_handle {o : Oracle} {cm cm' : CM} (hr : Reach o cm) (hp : cm.pending = false) {x : Extra} {r : Req} {a : Option Resp} {n : Name}
    (hop : r ≠ .unload n) (h : n ∈ cm.ctls.map (·.name)) (e : handle o cm x r = (cm', a)) : n ∈ cm'.ctls.map (·.name) := by
  cases r with
  | list => simp only [handle, Prod.mk.injEq] at e; obtain ⟨rfl, -⟩ := e; exact h
  | listHw => simp only [handle, Prod.mk.injEq] at e; obtain ⟨rfl, -⟩ := e; exact h
  | setParam m p => simp only [handle, Prod.mk.injEq] at e; obtain ⟨rfl, -⟩ := e; exact h
  | load m =>
    simp only [handle, Prod.mk.injEq] at e; obtain ⟨rfl, -⟩ := e
    exact loaded_step hr (op := .load m x.chainable x.async x.cfg x.fallbacks) (by simp) h
  | configure m =>
    simp only [handle, Prod.mk.injEq] at e; obtain ⟨rfl, -⟩ := e
    exact loaded_step hr (op := .configure m x.cfg x.ord x.rateOk) (by simp) h
  | unload m =>
    simp only [handle, Prod.mk.injEq] at e; obtain ⟨rfl, -⟩ := e
    exact loaded_step hr (op := .unload m) (fun e => hop (by cases e; rfl)) h
  | lookup m => simp only [handle, Prod.mk.injEq] at e; obtain ⟨rfl, -⟩ := e; exact h
  | cleanup m =>
    simp only [handle, Prod.mk.injEq] at e; obtain ⟨rfl, -⟩ := e
    exact loaded_step hr (op := .cleanup m) (by simp) h
  | switch d l asap s =>
    have := loaded_step hr (op := .switchBegin l d s asap) (by simp) h
    simp only [CM.step, hp, Bool.false_eq_true, if_false] at this
    simp only [handle] at e
    split at e <;>
    · rename_i e'
      simp only [Prod.mk.injEq] at e; obtain ⟨rfl, -⟩ := e
      rw [e'] at this; exact this
  | setHw m t =>
    simp only [handle] at e
    split at e
    · simp only [Prod.mk.injEq] at e; obtain ⟨rfl, -⟩ := e; exact h
    · simp only [Prod.mk.injEq] at e; obtain ⟨rfl, -⟩ := e
      exact loaded_step hr (op := .setHw m t) (by simp) h

theorem loaded_world {c : Client} {o : Oracle} {w : World} {e : Ev} {n : Name} (hr : Reach o w.cm)
    (hin : ∀ m ∈ w.inbox, Wire.sent m.id m.req ∈ w.wire) (hs : ∀ id, Wire.sent id (.unload n) ∉ w.wire)
    (he : ∀ op, e = .env op → op ≠ .unload n) (h : n ∈ w.cm.ctls.map (·.name)) : n ∈ (step c o w e).cm.ctls.map (·.name) := by
  obtain ⟨cm, st, next, inbox, serving, outbox, wire⟩ := w
  have wk : ∀ m, n ∈ (answered ⟨cm, st, next, inbox, serving, outbox, wire⟩ m (cm.switchWake o)).cm.ctls.map (·.name) := by
    intro m
    unfold answered
    split
    · exact h
    · exact loaded_step hr (op := .switchWake) (by simp) h
  have tm : ∀ m, n ∈ (answered ⟨cm, st, next, inbox, serving, outbox, wire⟩ m cm.switchTimeout).cm.ctls.map (·.name) := by
    intro m
    unfold answered
    split
    · exact h
    · exact loaded_step hr (op := .switchTimeout) (by simp) h
  cases e with
  | env op =>
    simp only [step]
    split
    · exact h
    · exact loaded_step hr (he op rfl) h
  | serve m x =>
    simp only [step]
    split
    · rename_i hm
      have hne : m.req ≠ .unload n := fun e => hs m.id (by rw [← e]; exact hin m hm.1)
      split <;>
      · rename_i e; exact loaded_handle hr hm.2 hne h e
    · exact h
  | wake =>
    simp only [step]
    split
    · exact wk _
    · exact h
  | timeout =>
    simp only [step]
    split
    · exact tm _
    · exact h
  | lockTimeout => simp only [step]; split <;> exact h
  | loseReq m => exact h
  | loseResp m a => exact h
  | _ =>
    simp only [step]
    repeat' split
    all_goals exact h

/-- A controller that was loaded is still loaded if nobody asked for its unloading. -/
theorem loaded_run {c : Client} {o : Oracle} {cm : CM} (hr : Reach o cm) {n : Name} (s1 : List Ev) : ∀ (t : List Ev),
    (∀ id, Wire.sent id (.unload n) ∉ (run c o (boot c cm) (s1 ++ t)).wire) → (∀ e ∈ t, ∀ op, e = Ev.env op → op ≠ .unload n) →
    n ∈ (run c o (boot c cm) s1).cm.ctls.map (·.name) → n ∈ (run c o (boot c cm) (s1 ++ t)).cm.ctls.map (·.name) := by
  intro t
  induction t using List.reverseRecOn with
  | nil => intro _ _ h; simpa using h
  | append_singleton l e ih =>
    intro hs he h
    rw [← List.append_assoc] at hs ⊢
    have hs' : ∀ id, Wire.sent id (.unload n) ∉ (run c o (boot c cm) (s1 ++ l)).wire :=
      fun id hm => hs id ((wire_run c o _ (s1 ++ l) [e]).subset hm)
    rw [run_snoc]
    exact loaded_world (inv_run c o cm hr (s1 ++ l)).2.reach (inbox_run c o cm (s1 ++ l)) hs' (he e (by simp))
      (ih hs' (fun x hx => he x (by simp [hx])) h)

end Spawn
end Verif
