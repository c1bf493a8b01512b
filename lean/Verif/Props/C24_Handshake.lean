import Verif.RT.Handshake
/-!
# C24: a switch request is executed at most once, and the caller learns the outcome
-/
namespace Verif
open Handshake

/-- C24, kept in view: in every schedule of the service thread and the real-time thread, whatever `manage_switch`
executes is a completely validated request or nothing; no request is executed twice; a call that answered with an
evaluation of the controllers had its request executed (once); a call that was rejected or that timed out had, and has
later on, nothing executed. False of the code, see `C24_executed_before_validation`. -/
def C24_Full : Prop := ∀ as : List Act, C24_At (Handshake.run St.init as)
where
  /-- what is claimed of one state -/
  C24_At (s : St) : Prop :=
    (∀ k b, some (k, b) ∈ s.exec → b = true) ∧ (∀ k, s.times k ≤ 1) ∧
    (∀ k, (k, Out.evaluated) ∈ s.ret → s.times k = 1) ∧
    (∀ k, (k, Out.rejected) ∈ s.ret ∨ (k, Out.timedOut) ∈ s.ret → s.times k = 0)

theorem Handshake.Inv.claim {s : St} (I : Handshake.Inv s) : C24_Full.C24_At s := by
  obtain ⟨ok, cur, fresh, old, valid, all⟩ := I
  refine ⟨valid, ?_, ?_, ?_⟩
  · intro k
    by_cases hk : k < s.next
    · rcases all k hk with h | ⟨o, h⟩
      · cases hs : s.svc <;> rw [hs] at h <;> simp [SPc.req] at h
        all_goals
          subst h
          simp only [SvcOk, hs] at ok
          grind
      · rw [(old k o h).2.2]; split <;> omega
    · rw [fresh k (by omega)]; omega
  · intro k h; exact (old k _ h).2.2
  · intro k h
    rcases h with h | h
    · simpa using (old k _ h).2.2
    · simpa using (old k _ h).2.2

/-- **C24.** The claim holds in every schedule, including time-outs at any moment, in which no new request begins while
the real-time thread is still between its look at `do_switch` and the end of its reaction to an earlier request. -/
theorem C24_at_most_once_partial (as : List Act) (h : Calm St.init as) : C24_Full.C24_At (Handshake.run St.init as) :=
  (Inv.init.run as h).claim

/-- **C24 (no time-outs).** If no call times out, the claim holds in every schedule, and the service thread never writes
the request lists while the real-time thread reads them. -/
theorem C24_no_timeout_partial (as : List Act) (h : Act.timeout ∉ as) :
    C24_Full.C24_At (Handshake.run St.init as) ∧ (Handshake.run St.init as).race = false := by
  obtain ⟨h1, h2⟩ := calm_of_no_timeout as h Inv.init Steady.init
  exact ⟨C24_at_most_once_partial as h1, h2.noRace⟩

/-- A request executed by the real-time loop, one executed by the service thread, and one that times out. -/
example :
    let as : List Act := [.begin true, .svc, .svc, .svc, .svc, .svc, .rt, .rt, .rt, .rt, .rt, .svc, .svc, .cycle, .svc,
      .begin false, .svc, .svc, .svc, .peek, .rt, .rt, .rt, .rt, .svc, .svc, .svc, .cycle, .svc,
      .begin true, .svc, .svc, .svc, .svc, .svc, .rt, .timeout, .rt, .svc, .rt, .rt, .rt, .begin true, .reject]
    Calm St.init as ∧ (Handshake.run St.init as).exec = [none, some (1, true), some (0, true)] ∧
    (Handshake.run St.init as).ret = [(3, .rejected), (2, .timedOut), (1, .evaluated), (0, .evaluated)] := by decide

/-- C24 is false: the real-time thread sees `do_switch` of a call that then times out; the next call begins to fill in
its request lists; the real-time thread gets the mutex and executes the half-filled, not yet validated lists. When the
validation is complete, the request is executed a second time. -/
theorem C24_executed_before_validation : ¬ C24_Full := by
  intro h
  have := (h [.begin true, .svc, .svc, .svc, .svc, .svc, .rt, .rt, .timeout, .svc, .begin true, .rt, .rt]).1 1 false (by decide)
  simp at this

theorem C24_executed_twice :
    ∃ as, (Handshake.run St.init as).times 1 = 2 ∧ (Handshake.run St.init as).ret = [(1, .evaluated), (0, .timedOut)] :=
  ⟨[.begin true, .svc, .svc, .svc, .svc, .svc, .rt, .rt, .timeout, .svc, .begin true, .rt, .rt, .rt,
    .svc, .svc, .svc, .svc, .svc, .rt, .rt, .rt, .rt, .rt, .svc, .svc, .cycle, .svc], by decide⟩

/-- With time-outs the request lists are written while the real-time thread reads them: `skip_cycle` is evaluated
without the mutex. -/
theorem C24_timeout_races_with_reader : ∃ as, Calm St.init as ∧ (Handshake.run St.init as).race = true :=
  ⟨[.begin false, .svc, .svc, .svc, .peek, .timeout], by decide⟩

end Verif
