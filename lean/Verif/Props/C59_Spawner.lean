import Verif.Spawn.Still
import Verif.Props.CMDemo
/-!
# C59: the command line clients of the controller manager

`spawner`, `unspawner` and `hardware_spawner` as clients of the controller manager of `Verif.CM`. A schedule `s` is any interleaving of the steps
of the client, the executions of its requests, losses and delays of its messages, the real-time loop, the operations of other
clients, and interrupts.
-/
namespace Verif
namespace Spawn
open CM

theorem mem_gots {w : List Wire} {r : Req} {a : Resp} (h : (r, a) ∈ gots w) : ∃ u v, w = u ++ .got r a :: v := by
  unfold gots at h
  rw [List.mem_filterMap] at h
  obtain ⟨e, he, h⟩ := h
  obtain ⟨u, v, rfl⟩ := List.append_of_mem he
  cases e with
  | got r' a' =>
    simp only [Option.some.injEq, Prod.mk.injEq] at h
    obtain ⟨rfl, rfl⟩ := h
    exact ⟨u, v, rfl⟩
  | sent id r => simp at h
  | interrupted => simp at h

/-- An answer the client accepted had its effect some time during the schedule. -/
theorem got_effect {c : Client} {o : Oracle} {cm : CM} (hr : Reach o cm) {s : List Ev} {r : Req} {a : Resp}
    (h : (r, a) ∈ gots (run c o (boot c cm) s).wire) :
    Since c o (boot c cm) s r (fun cm1 => ∃ cm0, Effect o r a cm0 cm1) := by
  obtain ⟨u, v, hw⟩ := mem_gots h
  obtain ⟨s1, h1, ⟨s0, ⟨t, h0⟩, ⟨id, hid⟩, h2⟩, -⟩ := (inv_run c o cm hr s).2.got u r a v hw
  refine ⟨s1, h1, ⟨id, ?_⟩, _, h2⟩
  rw [← h0]
  exact (wire_run _ _ _ s0 t).subset hid

/-- The effect of a STRICT switch. -/
theorem switch_ok {o : Oracle} {d l : List Name} {asap : Bool} {a : Resp} {cm : CM} (h : ∃ cm0, Effect o (.switch d l asap) a cm0 cm)
    (ok : a.ok = true) : (∀ n ∈ l, cm.lcOf n = some .active) ∧ ∀ n ∈ d, n ∉ l → cm.lcOf n ≠ some .active := by
  obtain ⟨cm0, h⟩ := h
  rcases h ok with h | ⟨h, _⟩
  · exact h
  · exact absurd rfl h

theorem Sometime.imp {c : Client} {o : Oracle} {w : World} {s : List Ev} {P Q : CM → Prop} (h : Sometime c o w s P)
    (f : ∀ cm, P cm → Q cm) : Sometime c o w s Q := by
  obtain ⟨s1, h1, h2⟩ := h; exact ⟨s1, h1, f _ h2⟩

theorem Since.imp {c : Client} {o : Oracle} {w : World} {s : List Ev} {r : Req} {P Q : CM → Prop} (h : Since c o w s r P)
    (f : ∀ cm, P cm → Q cm) : Since c o w s r Q := by
  obtain ⟨s1, h1, h2, h3⟩ := h; exact ⟨s1, h1, h2, f _ h3⟩

theorem Since.some {c : Client} {o : Oracle} {w : World} {s : List Ev} {r : Req} {P : CM → Prop} (h : Since c o w s r P) :
    Sometime c o w s P := by
  obtain ⟨s1, h1, _, h3⟩ := h; exact ⟨s1, h1, h3⟩

/-- A client that has done its work got there along its program. -/
theorem succeeded_runs {c : Client} {o : Oracle} {cm : CM} (hr : Reach o cm) {s : List Ev}
    (h : (run c o (boot c cm) s).succeeded) (hi : ¬ (run c o (boot c cm) s).wasInterrupted) :
    ∃ q, Good q ∧ Runs c.main (gots (run c o (boot c cm) s).wire) q := by
  have hp := (inv_run c o cm hr s).1.pos
  rcases h with h | ⟨t, cur, h⟩
  · rw [h] at hp
    rcases hp with ⟨-, hp | ⟨hp, -⟩⟩ | ⟨u, v, hp, -⟩
    · exact ⟨_, .inl rfl, hp⟩
    · cases hp
    · exact absurd (by unfold World.wasInterrupted; rw [hp]; simp) hi
  · rw [h] at hp
    exact ⟨_, .inr rfl, hp.2⟩

theorem lcOf_listed {cm : CM} {n : Name} (h : n ∈ cm.ctls.map (·.name)) : cm.lcOf n ≠ none := by
  unfold CM.lcOf
  cases hf : cm.find n with
  | none => exact absurd h (find_none.1 hf)
  | some d => simp

theorem wasLoaded_effect {c : Client} {o : Oracle} {cm : CM} (hr : Reach o cm) {s : List Ev} {n : Name}
    (h : WasLoaded (gots (run c o (boot c cm) s).wire) n) : Since c o (boot c cm) s .list (fun cm => cm.lcOf n ≠ none) ∨
      Since c o (boot c cm) s (.load n) (fun cm => cm.lcOf n ≠ none) := by
  rcases h with ⟨x, hx, hn⟩ | ⟨x, hx, hk⟩
  · left; exact (got_effect hr hx).imp (fun cm ⟨_, he⟩ => lcOf_listed (by rw [← (show x.names = _ from he)]; exact hn))
  · right; exact (got_effect hr hx).imp (fun cm ⟨_, he⟩ => by rw [(show x.ok = true → _ from he) hk]; simp)

theorem last_split {w : List Wire} (h : Wire.interrupted ∈ w) : ∃ x y, w = x ++ .interrupted :: y ∧ Wire.interrupted ∉ y := by
  induction w using List.reverseRecOn with
  | nil => simp at h
  | append_singleton l e ih =>
    by_cases he : e = .interrupted
    · subst he; exact ⟨l, [], rfl, by simp⟩
    · have hl : Wire.interrupted ∈ l := by
        rcases List.mem_append.1 h with h | h
        · exact h
        · exact absurd (List.mem_singleton.1 h).symm he
      obtain ⟨x, y, rfl, hy⟩ := ih hl
      exact ⟨x, y ++ [e], by simp, by simp [hy, Ne.symm he]⟩

/-! ## The spawner -/

/-- **C59, exit code 0.** If the spawner was not interrupted and ends with exit code 0 (or, with `--unload-on-kill`, waits for the interrupt), every controller
of the command line was spawned some time while it worked: loaded, configured unless it is `load-only`, active unless it is `load-only` or `inactive`; each
after the spawner had asked for it. -/
theorem C59_spawned (o : Oracle) (cm : CM) (hr : Reach o cm) (a : Args) (s : List Ev)
    (h : (run (spawner a) o (boot (spawner a) cm) s).succeeded) (hi : ¬ (run (spawner a) o (boot (spawner a) cm) s).wasInterrupted) :
    ∀ c ∈ a.ctrls, Sometime (spawner a) o (boot (spawner a) cm) s (Spawned c) ∧
      (Since (spawner a) o (boot (spawner a) cm) s .list (fun cm => cm.lcOf c.name ≠ none) ∨
        Since (spawner a) o (boot (spawner a) cm) s (.load c.name) (fun cm => cm.lcOf c.name ≠ none)) ∧
      (c.loadOnly = false → Since (spawner a) o (boot (spawner a) cm) s (.configure c.name) (fun cm => cm.lcOf c.name = some .inactive)) ∧
      (c.wantsActive = true → ∃ l, c.name ∈ l ∧
        Since (spawner a) o (boot (spawner a) cm) s (.switch [] l a.asap) (fun cm => cm.lcOf c.name = some .active)) := by
  intro c hc
  obtain ⟨q, g, hq⟩ := succeeded_runs hr h hi
  obtain ⟨h1, h2⟩ := good_spawnLoop a a.ctrls [] g hq
  obtain ⟨hl, hconf, hact⟩ := h1 c hc
  have HL := wasLoaded_effect hr hl
  have HC : c.loadOnly = false → Since (spawner a) o (boot (spawner a) cm) s (.configure c.name) (fun cm => cm.lcOf c.name = some .inactive) := by
    intro hlo
    obtain ⟨r, hx, hk⟩ := hconf hlo
    exact (got_effect hr hx).imp (fun cm ⟨_, he⟩ => (show r.ok = true → _ from he) hk)
  have HA : c.wantsActive = true → ∃ l, c.name ∈ l ∧
      Since (spawner a) o (boot (spawner a) cm) s (.switch [] l a.asap) (fun cm => cm.lcOf c.name = some .active) := by
    intro hw
    cases hg : a.group with
    | false =>
      obtain ⟨r, hx, hk⟩ := hact hw hg
      exact ⟨[c.name], by simp, (got_effect hr hx).imp (fun cm he => (switch_ok he hk).1 c.name (by simp))⟩
    | true =>
      have hm : c.name ∈ [] ++ (a.ctrls.filter Ctrl.wantsActive).map (·.name) := by
        simp only [List.nil_append, List.mem_map, List.mem_filter]
        exact ⟨c, ⟨hc, hw⟩, rfl⟩
      obtain ⟨r, hx, hk⟩ := h2 hg (List.ne_nil_of_mem hm)
      exact ⟨_, hm, (got_effect hr hx).imp (fun cm he => (switch_ok he hk).1 c.name hm)⟩
  refine ⟨?_, HL, HC, HA⟩
  unfold Spawned
  cases hlo : c.loadOnly with
  | true => simpa using HL.elim Since.some Since.some
  | false =>
    cases hin : c.inactive with
    | true => simpa using (HC hlo).some
    | false =>
      have hw : c.wantsActive = true := by simp [Ctrl.wantsActive, hlo, hin]
      simp only [Bool.false_eq_true, if_false]
      obtain ⟨l, _, h⟩ := HA hw
      exact h.some

/-- **C59, groups.** With `--activate-as-group` there was a moment at which all controllers to be activated were active together. -/
theorem C59_group (o : Oracle) (cm : CM) (hr : Reach o cm) (a : Args) (hg : a.group = true) (s : List Ev)
    (h : (run (spawner a) o (boot (spawner a) cm) s).succeeded) (hi : ¬ (run (spawner a) o (boot (spawner a) cm) s).wasInterrupted) :
    Sometime (spawner a) o (boot (spawner a) cm) s (fun cm => ∀ c ∈ a.ctrls, c.wantsActive = true → cm.lcOf c.name = some .active) := by
  obtain ⟨q, g, hq⟩ := succeeded_runs hr h hi
  obtain ⟨-, h2⟩ := good_spawnLoop a a.ctrls [] g hq
  have hm : ∀ c ∈ a.ctrls, c.wantsActive = true → c.name ∈ [] ++ (a.ctrls.filter Ctrl.wantsActive).map (·.name) := by
    intro c hc hw
    simp only [List.nil_append, List.mem_map, List.mem_filter]
    exact ⟨c, ⟨hc, hw⟩, rfl⟩
  by_cases he : [] ++ (a.ctrls.filter Ctrl.wantsActive).map (·.name) = []
  · refine ⟨[], by simp, ?_⟩
    intro c hc hw
    have := hm c hc hw
    rw [he] at this
    simp at this
  · obtain ⟨r, hx, hk⟩ := h2 hg he
    exact ((got_effect hr hx).imp (fun cm he c hc hw => (switch_ok he hk).1 c.name (hm c hc hw))).some

/-- **C59, refusals.** As long as it is not interrupted, the spawner accepts no answer after a refusal: it has ended with exit code 1. -/
theorem C59_refusal_ends (o : Oracle) (cm : CM) (hr : Reach o cm) (a : Args) (s : List Ev)
    (hi : ¬ (run (spawner a) o (boot (spawner a) cm) s).wasInterrupted) (r : Req) (x : Resp) (before after : List Wire)
    (hw : (run (spawner a) o (boot (spawner a) cm) s).wire = before ++ .got r x :: after) (hx : Refusal r x) :
    after = [] ∧ (run (spawner a) o (boot (spawner a) cm) s).st = .done 1 := by
  have hinv := (inv_run (spawner a) o cm hr s).1
  have hp := hinv.pos
  have hgot : gots (run (spawner a) o (boot (spawner a) cm) s).wire = gots before ++ (r, x) :: gots after := by
    rw [hw, gots_append]; rfl
  have wary : Wary (spawner a).main := wary_spawnLoop a _ _
  -- wherever the program is, the refusal was the last answer
  have key : ∀ q, Runs (spawner a).main (gots (run (spawner a) o (boot (spawner a) cm) s).wire) q → q = .exit 1 ∧ gots after = [] := by
    intro q hq
    rcases Wary.runs hq wary with ⟨h1, -⟩ | ⟨l', r', a', h1, h2, h3, h4⟩
    · exact absurd hx (h1 (r, x) (by rw [hgot]; simp))
    · refine ⟨h3, ?_⟩
      rw [hgot] at h1
      rcases List.eq_nil_or_concat (gots after) with h5 | ⟨t, b, h5⟩
      · exact h5
      · exfalso
        rw [h5] at h1
        have h6 : gots before ++ (r, x) :: t = l' := by
          have h7 : (gots before ++ (r, x) :: t) ++ [b] = l' ++ [(r', a')] := by rw [← h1]; simp
          exact (List.append_inj' h7 rfl).1
        exact h4 (r, x) (by rw [← h6]; simp) hx
  have fin : gots after = [] → after = [] := by
    intro hg
    cases after with
    | nil => rfl
    | cons e t =>
      exfalso
      cases e with
      | got r' a' => simp [gots] at hg
      | interrupted => exact hi (by unfold World.wasInterrupted; rw [hw]; simp)
      | sent id r' =>
        have h1 := (hinv.snt (before ++ [.got r x]) id r' t (by rw [hw]; simp)).1
          (fun h => hi (by unfold World.wasInterrupted; rw [hw]; simp at h; simp [h]))
        obtain ⟨k, h1⟩ := h1
        have hg2 : gots (before ++ [.got r x]) = gots (run (spawner a) o (boot (spawner a) cm) s).wire := by
          rw [hgot, hg, gots_append]; rfl
        rw [hg2] at h1
        exact absurd (key _ h1).1 (by simp)
  cases hst : (run (spawner a) o (boot (spawner a) cm) s).st with
  | locking n =>
    rw [hst] at hp
    have hp' : (run (spawner a) o (boot (spawner a) cm) s).wire = [] := hp
    rw [hw] at hp'
    exact absurd hp' (by simp)
  | running p t cur hd =>
    rw [hst] at hp
    cases hd with
    | false =>
      obtain ⟨h1, h2⟩ := key _ hp.2
      subst h1
      exfalso
      exact (invC_run (spawner a) o cm hr s).alive _ _ _ _ hst 1 rfl
    | true =>
      obtain ⟨u, v, h1, -⟩ := hp
      exact absurd (by unfold World.wasInterrupted; rw [h1]; simp) hi
  | done n =>
    rw [hst] at hp
    rcases hp with ⟨-, hp | ⟨-, ⟨r', k, hp⟩ | hp⟩⟩ | ⟨u, v, hp, -⟩
    · obtain ⟨h1, h2⟩ := key _ hp
      cases h1
      exact ⟨fin h2, rfl⟩
    · exact absurd (key _ hp).1 (by simp)
    · rw [hw] at hp; simp at hp
    · exact absurd (by unfold World.wasInterrupted; rw [hp]; simp) hi
  | raised =>
    rw [hst] at hp
    obtain ⟨r', k, hp⟩ := hp hi
    exact absurd (key _ hp).1 (by simp)

/-- **C59, exit code 1.** If the spawner was not interrupted and has ended, its exit code is 0 or 1. If it is 1, the last it saw was a refusal, or a service was
not there, or it did not get the lock in five attempts. -/
theorem C59_exit_code (o : Oracle) (cm : CM) (hr : Reach o cm) (a : Args) (s : List Ev)
    (hi : ¬ (run (spawner a) o (boot (spawner a) cm) s).wasInterrupted) (n : Nat)
    (h : (run (spawner a) o (boot (spawner a) cm) s).st = .done n) :
    n = 0 ∨ (n = 1 ∧ ((∃ before r x, (run (spawner a) o (boot (spawner a) cm) s).wire = before ++ [.got r x] ∧ Refusal r x) ∨
      s.any Ev.isNoService = true ∨ 5 ≤ s.countP Ev.isLockTimeout)) := by
  rcases (invC_run (spawner a) o cm hr s).done n h with h1 | h1 | ⟨h1, h2⟩
  · exact absurd h1 hi
  · rcases Wary.runs h1 (wary_spawnLoop a _ _) with ⟨-, h2⟩ | ⟨l', r, x, h2, h3, h4, -⟩
    · cases h2; exact .inl rfl
    · right
      cases h4
      refine ⟨rfl, .inl ?_⟩
      obtain ⟨u, v, hw⟩ := mem_gots (r := r) (a := x) (w := (run (spawner a) o (boot (spawner a) cm) s).wire) (by rw [h2]; simp)
      obtain ⟨h5, -⟩ := C59_refusal_ends o cm hr a s hi r x u v hw h3
      subst h5
      exact ⟨u, r, x, hw, h3⟩
  · exact .inr ⟨h1, .inr (h2.imp id And.right)⟩

/-- **C59, exceptions.** If the spawner was not interrupted and ended with an exception, the last it did was to send the same request three times, and it got no
answer. -/
theorem C59_gave_up (o : Oracle) (cm : CM) (hr : Reach o cm) (a : Args) (s : List Ev)
    (hi : ¬ (run (spawner a) o (boot (spawner a) cm) s).wasInterrupted)
    (h : (run (spawner a) o (boot (spawner a) cm) s).st = .raised) :
    ∃ before r i j k, (run (spawner a) o (boot (spawner a) cm) s).wire = before ++ [.sent i r, .sent j r, .sent k r] := by
  rcases (invC_run (spawner a) o cm hr s).raised h with h1 | h1
  · exact absurd h1 hi
  · have hsplit := List.rdropWhile_append_rtakeWhile (p := Wire.isSent) (l := (run (spawner a) o (boot (spawner a) cm) s).wire)
    have hall : ∀ x ∈ List.rtakeWhile Wire.isSent (run (spawner a) o (boot (spawner a) cm) s).wire, x.isSent = true :=
      fun x hx => List.mem_rtakeWhile_imp hx
    unfold trailing at h1
    obtain ⟨x, y, z, hxyz⟩ := List.length_eq_three.1 h1
    rw [hxyz] at hsplit hall
    have sx := hall x (by simp)
    have sy := hall y (by simp)
    have sz := hall z (by simp)
    have sentOf : ∀ e : Wire, e.isSent = true → ∃ i r, e = .sent i r := by
      intro e he; cases e with
      | sent i r => exact ⟨i, r, rfl⟩
      | got r a => cases he
      | interrupted => cases he
    obtain ⟨i, r1, rfl⟩ := sentOf x sx
    obtain ⟨j, r2, rfl⟩ := sentOf y sy
    obtain ⟨k, r3, rfl⟩ := sentOf z sz
    have hinv := (inv_run (spawner a) o cm hr s).1
    generalize hb : List.rdropWhile Wire.isSent (run (spawner a) o (boot (spawner a) cm) s).wire = before at hsplit
    have hnot : Wire.interrupted ∉ before := by
      intro hm; exact hi (by unfold World.wasInterrupted; rw [← hsplit]; simp [hm])
    obtain ⟨k1, e1⟩ := (hinv.snt before i r1 [.sent j r2, .sent k r3] hsplit.symm).1 hnot
    obtain ⟨k2, e2⟩ := (hinv.snt (before ++ [.sent i r1]) j r2 [.sent k r3] (by rw [← hsplit]; simp)).1 (by simp [hnot])
    obtain ⟨k3, e3⟩ := (hinv.snt (before ++ [.sent i r1, .sent j r2]) k r3 [] (by rw [← hsplit]; simp)).1 (by simp [hnot])
    have g2 : gots (before ++ [.sent i r1]) = gots before := by rw [gots_append]; simp [gots]
    have g3 : gots (before ++ [.sent i r1, .sent j r2]) = gots before := by rw [gots_append]; simp [gots]
    rw [g2] at e2
    rw [g3] at e3
    have f1 := Runs.det e1 e2
    have f2 := Runs.det e1 e3
    cases f1
    cases f2
    exact ⟨before, r1, i, j, k, hsplit.symm⟩

theorem answered_of_gots {w : List Wire} {r : Req} {x : Resp} (h : (r, x) ∈ gots w) : Answered w r x := by
  obtain ⟨u, v, rfl⟩ := mem_gots h
  unfold Answered; simp

/-- **C59, order.** What the spawner asks for is what its command line and the answers so far allow. -/
theorem C59_requests (o : Oracle) (cm : CM) (hr : Reach o cm) (a : Args) (s : List Ev) (r : Req) (before : List Wire)
    (h : SentAfter (run (spawner a) o (boot (spawner a) cm) s) r before) :
    (Wire.interrupted ∉ before → MayAsk a before r) ∧
    ∀ x y, before = x ++ .interrupted :: y → Wire.interrupted ∉ y → MayAskKilled a y r := by
  obtain ⟨id, after, hw⟩ := h
  obtain ⟨h1, h2⟩ := (inv_run (spawner a) o cm hr s).1.snt before id r after hw
  refine ⟨fun hn => ?_, fun x y e hn => ?_⟩
  · obtain ⟨k, hk⟩ := h1 hn
    have hA := Asks.runs hk (asks_spawnLoop a a.ctrls [] [] (fun _ h => h) (by simp))
    rw [List.nil_append] at hA
    cases hA with
    | call g _ =>
      have wl : ∀ n, WasLoaded (gots before) n → KnownLoaded before n := by
        rintro n (⟨x, hx, hy⟩ | ⟨x, hx, hy⟩)
        · exact .inl ⟨x, answered_of_gots hx, hy⟩
        · exact .inr ⟨x, answered_of_gots hx, hy⟩
      cases r with
      | list => trivial
      | setParam n p => exact ⟨g.1, g.2.imp (fun x hx => ⟨answered_of_gots hx.1, hx.2⟩)⟩
      | load n => exact ⟨g.1, g.2.imp (fun x hx => ⟨answered_of_gots hx.1, hx.2⟩)⟩
      | configure n => exact ⟨g.1, wl n g.2⟩
      | lookup n => exact g
      | cleanup n => exact g
      | switch d l asap st =>
        cases st with
        | bestEffort => exact g
        | other => exact g
        | strict =>
        obtain ⟨g1, g2, g3, g4⟩ := g
        exact ⟨g1, g2, g3, fun n hn => ⟨(g4 n hn).1, (g4 n hn).2.imp (fun x hx => ⟨answered_of_gots hx.1, hx.2⟩)⟩⟩
      | unload n => exact g
      | listHw => exact g
      | setHw n t => exact g
  · obtain ⟨k, hk⟩ := h2 x y e hn
    have hA := Asks.runs hk (asks_onInterrupt a)
    rw [List.nil_append] at hA
    cases hA with
    | call g _ =>
      refine ⟨g.1, ?_⟩
      have g := g.2
      cases r with
      | lookup n => exact g
      | cleanup n => exact g
      | switch d l asap st =>
        cases st with
        | bestEffort => exact g
        | other => exact g
        | strict =>
        obtain ⟨g1, g2, g3⟩ := g
        refine ⟨g1, g2, ?_⟩
        intro q x hx
        have : (q, x) ∈ gots y := by
          unfold gots; rw [List.mem_filterMap]; exact ⟨_, hx, rfl⟩
        rw [g3] at this; simp at this
      | unload n => obtain ⟨g1, x, as, g2, g3⟩ := g; exact ⟨g1, x, as, answered_of_gots g2, g3⟩
      | list => exact g
      | setParam n p => exact g
      | load n => exact g
      | configure n => exact g
      | listHw => exact g
      | setHw n t => exact g

/-- **C59, spawned controllers stay.** If the spawner was not interrupted and succeeded, each controller of its command line that nobody else
unloaded meanwhile is loaded when it ends. -/
theorem C59_still_loaded (o : Oracle) (cm : CM) (hr : Reach o cm) (a : Args) (s : List Ev)
    (h : (run (spawner a) o (boot (spawner a) cm) s).succeeded) (hi : ¬ (run (spawner a) o (boot (spawner a) cm) s).wasInterrupted) :
    ∀ c ∈ a.ctrls, (∀ op, Ev.env op ∈ s → op ≠ .unload c.name) → (run (spawner a) o (boot (spawner a) cm) s).cm.lcOf c.name ≠ none := by
  intro c hc he
  obtain ⟨s1, ⟨t, rfl⟩, hl⟩ : Sometime (spawner a) o (boot (spawner a) cm) s (fun cm => cm.lcOf c.name ≠ none) :=
    (C59_spawned o cm hr a s h hi c hc).2.1.elim Since.some Since.some
  refine lcOf_listed (loaded_run hr s1 t ?_ ?_ ?_)
  · intro id hm
    obtain ⟨u, v, hw⟩ := List.append_of_mem hm
    exact (C59_requests o cm hr a (s1 ++ t) (.unload c.name) u ⟨id, v, hw⟩).1
      (fun hx => hi (by unfold World.wasInterrupted; rw [hw]; simp [hx]))
  · rintro e hx op rfl
    exact he op (by simp [hx])
  · by_contra hx
    apply hl
    unfold CM.lcOf
    rw [find_none.2 hx]
    rfl

/-- **C59, attempts.** No client sends more than three requests in a row without an answer or an interrupt in between. -/
theorem C59_three_attempts (c : Client) (o : Oracle) (cm : CM) (hr : Reach o cm) (s : List Ev) (before l after : List Wire)
    (h : (run c o (boot c cm) s).wire = before ++ l ++ after) (hl : ∀ e ∈ l, e.isSent = true) : l.length ≤ 3 :=
  (inv_run c o cm hr s).1.three before l after h hl

/-- **C59, `--unload-on-kill`.** If an interrupted spawner ends with exit code 0, each controller of its command line that is not `inactive` was not
loaded at some moment after the interrupt. -/
theorem C59_unload_on_kill (o : Oracle) (cm : CM) (hr : Reach o cm) (a : Args) (hu : a.unloadOnKill = true) (s : List Ev)
    (hi : (run (spawner a) o (boot (spawner a) cm) s).wasInterrupted)
    (h : (run (spawner a) o (boot (spawner a) cm) s).st = .done 0) :
    ∀ c ∈ a.ctrls, c.inactive = false → ∃ s1, s1 <+: s ∧ (run (spawner a) o (boot (spawner a) cm) s1).wasInterrupted ∧
      (run (spawner a) o (boot (spawner a) cm) s1).cm.lcOf c.name = none := by
  intro c hc hin
  have hk : c.name ∈ a.killed := by
    unfold Args.killed
    rw [List.mem_map]
    exact ⟨c, List.mem_filter.2 ⟨hc, by simp [hin]⟩, rfl⟩
  obtain ⟨A, B⟩ := inv_run (spawner a) o cm hr s
  have hp := A.pos
  rw [h] at hp
  rcases hp with ⟨hn, -⟩ | ⟨u, v, hw, -, hp | ⟨-, hp⟩⟩
  · exact absurd hi hn
  · obtain ⟨x, hx, ho⟩ := good_onInterrupt hu hp c.name hk
    obtain ⟨v1, v2, rfl⟩ := mem_gots hx
    obtain ⟨s1, h1, h2, h3⟩ := B.got (u ++ .interrupted :: v1) (.unload c.name) x v2 (by rw [hw]; simp)
    obtain ⟨_, _, _, h2⟩ := h2
    refine ⟨s1, h1, ?_, (show x.ok = true → _ from h2) ho⟩
    exact h3.subset (interrupted_mem_base (by simp))
  · exfalso
    have : a.ctrls.any (fun c => !c.inactive) = true := List.any_eq_true.2 ⟨c, hc, by simp [hin]⟩
    simp [spawner, hu, this] at hp

/-! ## The unspawner -/

/-- **C59, unspawner.** If it was not interrupted and ends with exit code 0, every controller of its command line was not loaded at some
moment after it had asked for its unloading. -/
theorem C59_unspawned (o : Oracle) (cm : CM) (hr : Reach o cm) (names : List Name) (s : List Ev)
    (hi : ¬ (run (unspawner names) o (boot (unspawner names) cm) s).wasInterrupted)
    (h : (run (unspawner names) o (boot (unspawner names) cm) s).st = .done 0) :
    ∀ n ∈ names, Since (unspawner names) o (boot (unspawner names) cm) s (.unload n) (fun cm => cm.lcOf n = none) := by
  intro n hn
  have hd := (invC_run (unspawner names) o cm hr s).done 0 h
  rcases hd with h1 | h1 | ⟨h1, -⟩
  · exact absurd h1 hi
  · have h9 := h1.call (by simp)
    obtain ⟨y, l, e0, h2⟩ := h9
    obtain ⟨x, hx, ho⟩ := good_unspawnLoop names h2 n hn
    have hx' : (Req.unload n, x) ∈ gots (run (unspawner names) o (boot (unspawner names) cm) s).wire := by rw [e0]; simp [hx]
    exact (got_effect hr hx').imp (fun cm ⟨_, he⟩ => (show x.ok = true → _ from he) ho)
  · cases h1

/-- What the unspawner may ask for: first the deactivation of the controllers; then, whatever the answer to that is, to unload one after the other. -/
def UnMayAsk (names : List Name) (seen : List Wire) (r : Req) : Prop :=
  match r with
  | .switch d l asap => d = names ∧ l = [] ∧ asap = true ∧ ∀ q x, ¬ Answered seen q x
  | .unload n => n ∈ names ∧ (∃ x, Answered seen (.switch names [] true) x) ∧ ∀ m x, Answered seen (.unload m) x → x.ok = true
  | _ => False

theorem asks_unspawnLoop (all : List Name) : ∀ (ns : List Name) (p : List (Req × Resp)), (∀ n ∈ ns, n ∈ all) →
    (∃ x, (Req.switch all [] true, x) ∈ p) → (∀ m x, (Req.unload m, x) ∈ p → x.ok = true) →
    Asks (fun h r => ∀ w, gots w = h → UnMayAsk all w r) p (unspawnLoop ns) := by
  intro ns
  induction ns with
  | nil => intro p _ _ _; exact .exit
  | cons n t ih =>
    intro p hall ⟨x, hx⟩ hok
    refine .call ?_ (fun y => ?_)
    · intro w hw
      refine ⟨hall n (by simp), ⟨x, answered_of_gots (by rw [hw]; exact hx)⟩, fun m z hz => hok m z ?_⟩
      rw [← hw]; unfold gots; rw [List.mem_filterMap]; exact ⟨_, hz, rfl⟩
    · split
      · rename_i hy
        refine ih _ (fun z hz => hall z (by simp [hz])) ⟨x, by simp [hx]⟩ ?_
        intro m z hz
        rcases List.mem_append.1 hz with hz | hz
        · exact hok m z hz
        · simp only [List.mem_singleton, Prod.mk.injEq] at hz
          rw [hz.2]; exact hy
      · exact .exit

/-- **C59, what the unspawner asks for.** It unloads only controllers of its command line, after its request to deactivate them was answered, and stops at the first
refusal. -/
theorem C59_unspawn_requests (o : Oracle) (cm : CM) (hr : Reach o cm) (names : List Name) (s : List Ev) (r : Req) (before : List Wire)
    (h : SentAfter (run (unspawner names) o (boot (unspawner names) cm) s) r before) : UnMayAsk names before r := by
  obtain ⟨id, after, hw⟩ := h
  obtain ⟨h1, h2⟩ := (inv_run (unspawner names) o cm hr s).1.snt before id r after hw
  by_cases hn : Wire.interrupted ∈ before
  · exfalso
    obtain ⟨x, y, e, hy⟩ := last_split hn
    obtain ⟨k, hk⟩ := h2 x y e hy
    have := hk.exit.2
    cases this
  · obtain ⟨k, hk⟩ := h1 hn
    have hA : Asks (fun h r => ∀ w, gots w = h → UnMayAsk names w r) [] (unspawner names).main := by
      refine .call ?_ (fun x => asks_unspawnLoop names names _ (fun _ h => h) ⟨x, by simp⟩ (by simp))
      intro w hw
      refine ⟨rfl, rfl, rfl, fun q x hx => ?_⟩
      have : (q, x) ∈ gots w := by unfold gots; rw [List.mem_filterMap]; exact ⟨_, hx, rfl⟩
      rw [hw] at this; simp at this
    have hA := Asks.runs hk hA
    rw [List.nil_append] at hA
    cases hA with
    | call g _ => exact g before rfl

/-! ## The hardware spawner -/

/-- What the hardware spawner may ask for. -/
def HwMayAsk (activate : Bool) (hs : List Name) (seen : List Wire) (r : Req) : Prop :=
  match r with
  | .listHw => True
  | .setHw h t => h ∈ hs ∧ t = (if activate then .active else .inactive) ∧ ∃ x, Answered seen .listHw x ∧ h ∈ x.names
  | _ => False

theorem asks_hwLoop (activate : Bool) (all : List Name) : ∀ (hs : List Name) (p : List (Req × Resp)), (∀ h ∈ hs, h ∈ all) →
    Asks (fun h r => ∀ w, gots w = h → HwMayAsk activate all w r) p (hwLoop (if activate then .active else .inactive) hs) := by
  intro hs
  induction hs with
  | nil => intro p _; exact .exit
  | cons h t ih =>
    intro p hall
    refine .call (fun _ _ => trivial) (fun x => ?_)
    split
    · rename_i hx
      refine .call ?_ (fun y => ih _ (fun z hz => hall z (by simp [hz])))
      intro w hw
      exact ⟨hall h (by simp), rfl, x, answered_of_gots (by rw [hw]; simp), hx⟩
    · exact ih _ (fun z hz => hall z (by simp [hz]))

/-- **C59, hardware spawner.** It asks for nothing but the list of components and, for those of its command line that are listed, the state of the command
line; unless a service is not there, its exit code is 0. -/
theorem C59_hw (o : Oracle) (cm : CM) (hr : Reach o cm) (activate : Bool) (hs : List Name) (s : List Ev) :
    (∀ r before, SentAfter (run (hwSpawner activate hs) o (boot (hwSpawner activate hs) cm) s) r before → HwMayAsk activate hs before r) ∧
    ∀ n, (run (hwSpawner activate hs) o (boot (hwSpawner activate hs) cm) s).st = .done n → n = 0 ∨ (n = 1 ∧ s.any Ev.isNoService = true) := by
  obtain ⟨A, -⟩ := inv_run (hwSpawner activate hs) o cm hr s
  refine ⟨?_, ?_⟩
  · rintro r before ⟨id, after, hw⟩
    obtain ⟨h1, h2⟩ := A.snt before id r after hw
    by_cases hn : Wire.interrupted ∈ before
    · exfalso
      obtain ⟨x, y, e, hy⟩ := last_split hn
      obtain ⟨k, hk⟩ := h2 x y e hy
      have := hk.exit.2
      cases this
    · obtain ⟨k, hk⟩ := h1 hn
      have hA := Asks.runs hk (asks_hwLoop activate hs hs [] (fun _ h => h))
      rw [List.nil_append] at hA
      cases hA with
      | call g _ => exact g before rfl
  · intro n hst
    have hp := A.pos
    rw [hst] at hp
    rcases (invC_run (hwSpawner activate hs) o cm hr s).done n hst with h1 | h1 | ⟨h1, h2 | ⟨h2, -⟩⟩
    · left
      rcases hp with ⟨hp, -⟩ | ⟨u, v, -, -, hp | ⟨-, hp⟩⟩
      · exact absurd h1 hp
      · have := hp.exit.2; cases this; rfl
      · exact (Option.some.inj hp).symm
    · exact .inl (hwLoop_code _ _ h1)
    · exact .inr ⟨h1, h2⟩
    · cases h2

/-! ## Examples -/

namespace Demo

/-- The exit code. -/
def code (w : World) : Option Nat :=
  match w.st with
  | .done n => some n
  | _ => none

theorem code_iff {w : World} {n : Nat} (h : code w = some n) : w.st = .done n := by
  unfold code at h
  split at h
  · rename_i hs; cases h; exact hs
  · cases h

/-- Ended by an exception. -/
def raised (w : World) : Bool :=
  match w.st with
  | .raised => true
  | _ => false

/-- The robot, with its hardware active and no controller. -/
def robot : CM := CM.run goodOracle (CM.start goodOracle false false demoSpecs) [.setHw 1 .active, .setHw 2 .active]

theorem robot_reach : Reach goodOracle robot := ⟨false, false, demoSpecs, _, rfl⟩

/-- The controllers: 300 drives 20/0, 500 drives 10/0. -/
def x300 : Extra := { cfg := plainCfg [⟨20, 0⟩] [⟨10, 1⟩] }
def x500 : Extra := { cfg := plainCfg [⟨10, 0⟩] [] }

/-- A request that is answered at once. -/
def ask (id : Nat) (r : Req) (x : Extra) (a : Resp) : List Ev := [.send, .serve ⟨id, r⟩ x, .deliver ⟨id, r⟩ a]

/-- A switch, with one cycle of the real-time loop. -/
def askSwitch (id : Nat) (d l : List Name) (asap : Bool) (x : Extra) (ok : Bool) : List Ev :=
  [.send, .serve ⟨id, .switch d l asap⟩ x, .env (.update (fun _ => true) true), .wake, .deliver ⟨id, .switch d l asap⟩ ⟨ok, [], none⟩]

def yes : Resp := ⟨true, [], none⟩
def no : Resp := ⟨false, [], none⟩

/-- Spawn 300 and, inactive, 500. -/
def two : Args := { ctrls := [{ name := 300 }, { name := 500, inactive := true }] }

def twoRun : List Ev :=
  .locked :: ask 0 .list x300 yes ++ ask 1 (.load 300) x300 yes ++ ask 2 (.configure 300) x300 yes ++
  askSwitch 3 [] [300] false x300 true ++ ask 4 .list x500 ⟨true, [300], none⟩ ++ ask 5 (.load 500) x500 yes ++ ask 6 (.configure 500) x500 yes

/-- The final state of a spawner. -/
def fin (a : Args) (s : List Ev) : World := run (spawner a) goodOracle (boot (spawner a) robot) s

/-- Both together. -/
def pair : Args := { ctrls := [{ name := 300 }, { name := 500 }], group := true, unloadOnKill := true }

def pairRun : List Ev :=
  .locked :: ask 0 .list x300 yes ++ ask 1 (.load 300) x300 yes ++ ask 2 (.configure 300) x300 yes ++
  ask 3 .list x500 ⟨true, [300], none⟩ ++ ask 4 (.load 500) x500 yes ++ ask 5 (.configure 500) x500 yes ++ askSwitch 6 [] [300, 500] false x300 true

/-- The interrupt afterwards. -/
def killRun : List Ev :=
  pairRun ++ .interrupt :: askSwitch 7 [300, 500] [] false x300 true ++ ask 8 (.unload 300) x300 yes ++ ask 9 (.unload 500) x500 yes

end Demo
open Demo

example : code (fin two twoRun) = some 0 ∧ ¬ (fin two twoRun).wasInterrupted ∧ (fin two twoRun).cm.lcOf 300 = some .active ∧
    (fin two twoRun).cm.lcOf 500 = some .inactive := by unfold World.wasInterrupted; decide +kernel

/-- The hypotheses of `C59_spawned` are met. -/
example : ∀ c ∈ two.ctrls, Sometime (spawner two) goodOracle (boot (spawner two) robot) twoRun (Spawned c) := fun c hc =>
  (C59_spawned goodOracle robot robot_reach two twoRun (.inl (code_iff (w := fin two twoRun) (by decide +kernel)))
    (show Wire.interrupted ∉ (fin two twoRun).wire by decide +kernel) c hc).1

/-- Does the client wait to be interrupted? -/
def Demo.sleeps (w : World) : Bool :=
  match w.st with
  | .running .sleep _ _ false => true
  | _ => false

theorem Demo.sleeps_iff {w : World} (h : sleeps w = true) : w.succeeded := by
  unfold sleeps at h
  split at h
  · rename_i t cur hs; exact .inr ⟨_, _, hs⟩
  · cases h

/-- The hypotheses of `C59_group` are met: both are active, and the spawner waits. -/
theorem C59_group_demo : sleeps (fin pair pairRun) = true ∧ (fin pair pairRun).cm.lcOf 300 = some .active ∧
    (fin pair pairRun).cm.lcOf 500 = some .active := by decide +kernel

example : Sometime (spawner pair) goodOracle (boot (spawner pair) robot) pairRun
    (fun cm => ∀ c ∈ pair.ctrls, c.wantsActive = true → cm.lcOf c.name = some .active) :=
  C59_group goodOracle robot robot_reach pair rfl pairRun (sleeps_iff C59_group_demo.1)
    (show Wire.interrupted ∉ (fin pair pairRun).wire by decide +kernel)

/-- The hypotheses of `C59_unload_on_kill` are met: after the interrupt both are gone, exit code 0. -/
theorem C59_kill_demo : code (fin pair killRun) = some 0 ∧ Wire.interrupted ∈ (fin pair killRun).wire ∧
    (fin pair killRun).cm.lcOf 300 = none ∧ (fin pair killRun).cm.lcOf 500 = none := by decide +kernel

/-- The unspawner. -/
theorem C59_unspawn_demo :
    let w := run (unspawner [300]) goodOracle (boot (unspawner [300]) (fin two twoRun).cm)
      (askSwitch 0 [300] [] true x300 true ++ ask 1 (.unload 300) x300 yes)
    code w = some 0 ∧ w.cm.lcOf 300 = none ∧ Wire.interrupted ∉ w.wire := by decide +kernel

/-- Three attempts without an answer, and the exception; a refusal; no service; no lock. -/
theorem C59_failures_demo :
    raised (fin two [.locked, .send, .giveUp, .send, .giveUp, .send, .giveUp]) = true ∧
    code (fin two (.locked :: ask 0 .list x300 yes ++ ask 1 (.load 300) x300 yes ++
      [.env (.unload 300)] ++ ask 2 (.configure 300) x300 no)) = some 1 ∧
    code (fin two [.locked, .noService]) = some 1 ∧
    code (fin two [.lockTimeout, .lockTimeout, .lockTimeout, .lockTimeout, .lockTimeout]) = some 1 ∧
    Refusal (.configure 300) no := by
  refine ⟨by decide +kernel, by decide +kernel, by decide +kernel, by decide +kernel, rfl, by simp, by simp, by simp⟩

/-! ## Findings -/

/-- **Negation: exit code 1 means that a controller could not be spawned.** If the answer to `load_controller` is late, the spawner sends the request once more; this one is refused because
the controller is loaded now, and the spawner gives up with exit code 1 although everything it asked for was done. -/
theorem C59_lost_answer_witness :
    code (fin { ctrls := [{ name := 300, loadOnly := true }] } (.locked :: ask 0 .list x300 yes ++
      [.send, .serve ⟨1, .load 300⟩ x300, .giveUp] ++ ask 2 (.load 300) x300 no)) = some 1 ∧
    (fin { ctrls := [{ name := 300, loadOnly := true }] } (.locked :: ask 0 .list x300 yes ++
      [.send, .serve ⟨1, .load 300⟩ x300, .giveUp] ++ ask 2 (.load 300) x300 no)).cm.lcOf 300 = some .unconfigured := by
  decide +kernel

/-- **Negation: spawning is idempotent.** Spawning a controller that is active already is refused with exit code 1, because an active controller cannot be configured. -/
theorem C59_respawn_witness :
    let a : Args := { ctrls := [{ name := 300 }] }
    let w := run (spawner a) goodOracle (boot (spawner a) (fin two twoRun).cm)
      (.locked :: ask 0 .list x300 ⟨true, [300, 500], none⟩ ++ ask 1 (.configure 300) x300 no)
    code w = some 1 ∧ w.cm.lcOf 300 = some .active := by decide +kernel

/-- **Negation: an interrupted spawner unloads what it has spawned.** If it is interrupted before it has loaded its last controller, the STRICT deactivation of all of them is refused: exit
code 1, and the first controller stays active. -/
theorem C59_midway_witness :
    let a : Args := { ctrls := [{ name := 300 }, { name := 500 }], unloadOnKill := true }
    let s := .locked :: ask 0 .list x300 yes ++ ask 1 (.load 300) x300 yes ++ ask 2 (.configure 300) x300 yes ++
      askSwitch 3 [] [300] false x300 true ++ [.interrupt] ++ ask 4 (.switch [300, 500] [] false) x300 no
    code (fin a s) = some 1 ∧ (fin a s).cm.lcOf 300 = some .active := by decide +kernel

/-- **Negation: `--unload-on-kill` unloads all controllers.** Controllers marked `inactive` stay loaded, with exit code 0. A `load-only` controller stays loaded too: its STRICT deactivation is refused, with exit code
1. -/
theorem C59_kept_witness :
    (let a : Args := { ctrls := [{ name := 300, inactive := true }], unloadOnKill := true }
     let s := .locked :: ask 0 .list x300 yes ++ ask 1 (.load 300) x300 yes ++ ask 2 (.configure 300) x300 yes ++ [.interrupt]
     code (fin a s) = some 0 ∧ (fin a s).cm.lcOf 300 = some .inactive) ∧
    (let a : Args := { ctrls := [{ name := 300, loadOnly := true }], unloadOnKill := true }
     let s := .locked :: ask 0 .list x300 yes ++ ask 1 (.load 300) x300 yes ++ [.interrupt] ++ ask 2 (.switch [300] [] false) x300 no
     code (fin a s) = some 1 ∧ (fin a s).cm.lcOf 300 = some .unconfigured) := by decide +kernel

/-- **Negation: exit code 0 means that the controllers were spawned.** An interrupted spawner ends with exit code 0 whatever it has done so far. -/
theorem C59_interrupt_witness :
    code (fin two [.locked, .interrupt]) = some 0 ∧ (fin two [.locked, .interrupt]).cm.lcOf 300 = none ∧
    code (fin two [.interrupt]) = some 0 := by decide +kernel

/-- **Observed: interrupt while waiting for the lock.** With `--unload-on-kill` the handler calls a service with a node that does not exist yet: an exception. -/
theorem C59_lock_interrupt_witness : raised (fin pair [.lockTimeout, .interrupt]) = true := by decide +kernel

/-- **Negation: exit code 0 of the hardware spawner means that the hardware is in the requested state.** A component that does not exist and one that
fails to activate end with exit code 0 as well. -/
theorem C59_hw_witness :
    let o : Oracle := { goodOracle with hwCb := fun _ _ cb => if cb = .activate then .failure else .success }
    let cm := CM.run o (CM.start o false false demoSpecs) []
    let c := hwSpawner true [9, 1]
    let w := run c o (boot c cm) (ask 0 .listHw x300 ⟨true, [1, 2], none⟩ ++ ask 1 .listHw x300 ⟨true, [1, 2], none⟩ ++
      ask 2 (.setHw 1 .active) x300 ⟨false, [], some .inactive⟩)
    code w = some 0 ∧ (w.cm.rm.findHw 1).map (·.lc) = some .inactive := by decide +kernel

end Spawn
end Verif
