import Verif.Cli.Model
import Verif.Props.C59_Spawner
import Verif.Props.C14_C18_Switch
/-!
# C68: the verbs of `ros2 control`

The verbs that change something, as clients of the controller manager of `Verif.CM`. As for C59, a schedule `s` is any interleaving of the steps of the
client, the executions of its requests, losses and delays of its messages, the real-time loop, the operations of other clients, and interrupts.
-/
namespace Verif
namespace Cli
open CM hiding run inv_run
open Spawn

/-! ## Specification -/

/-- A controller manager after a schedule with the verb `p`. -/
def after (p : Prog) (o : Oracle) (cm : CM) (s : List Spawn.Ev) : World := run (verb p) o (boot (verb p) cm) s

/-- The verb ended with exit code 0. -/
def Success (w : World) : Prop := w.st = .done 0

/-- Some time after the verb had sent the request `r`, the controller manager was in a state with the property. -/
def Reached (p : Prog) (o : Oracle) (cm : CM) (s : List Spawn.Ev) (r : Req) (P : CM → Prop) : Prop :=
  Since (verb p) o (boot (verb p) cm) s r P

/-- Some time after the verb had sent this switch request, a STRICT one would have been rejected. -/
def WouldBeRejected (p : Prog) (o : Oracle) (cm : CM) (s : List Spawn.Ev) (d a : List Name) (asap : Bool) (mode : Strictness) : Prop :=
  Reached p o cm s (.switch d a asap mode) (fun cm => (cm.switchBegin o a d .strict asap).2 = .done .error)

/-- What `set_controller_state n goal` may ask for, given what was seen before. -/
def SetStateAsks (n : Name) (goal : Goal) (seen : List Wire) (r : Req) : Prop :=
  (r = .lookup n ∧ ∀ q x, ¬ Answered seen q x) ∨
  ∃ x st, Answered seen (.lookup n) x ∧ x.state = some st ∧
    match goal, st with
    | .unconfigured, .inactive => r = .cleanup n
    | .inactive, .unconfigured => r = .configure n
    | .inactive, .active => r = .switch [n] [] true .bestEffort
    | .active, .inactive => r = .switch [] [n] true .bestEffort
    | _, _ => False

/-- What `load_controller` may ask for, given what was seen before. -/
def LoadAsks (c : Ctrl) (goal : Option Goal) (seen : List Wire) (r : Req) : Prop :=
  match r with
  | .list => ∀ q x, ¬ Answered seen q x
  | .setParam n _ | .load n => n = c.name ∧ ∃ x, Answered seen .list x ∧ n ∉ x.names
  | .configure n => n = c.name ∧ goal ≠ none ∧ KnownLoaded seen n
  | .switch d a asap s => goal = some .active ∧ d = [] ∧ a = [c.name] ∧ asap = true ∧ s = .bestEffort ∧
      ∃ x, Answered seen (.configure c.name) x ∧ x.ok = true
  | _ => False

/-! ## Proofs -/

theorem success_runs {p : Prog} {o : Oracle} {cm : CM} (hr : Reach o cm) {s : List Spawn.Ev} (h : Success (after p o cm s)) :
    Runs p (gots (after p o cm s).wire) (.exit 0) := by
  have hp := (inv_run (verb p) o cm hr s).1.pos
  unfold Success after at h
  rw [h] at hp
  rcases hp with ⟨-, hp | ⟨hp, -⟩⟩ | ⟨u, v, -, -, hp | ⟨-, hp⟩⟩
  · exact hp
  · cases hp
  · have := hp.exit.2; cases this
  · simp [verb] at hp

theorem must_ok {r : Req} {k : Prog} {l : List (Req × Resp)} (h : Runs (must r k) l (.exit 0)) :
    ∃ a l', l = (r, a) :: l' ∧ a.ok = true ∧ Runs k l' (.exit 0) := by
  obtain ⟨a, l', e, h'⟩ := Runs.call (show Runs (.call r (fun a => if a.ok then k else .exit 1)) l _ from h) (by simp)
  split at h'
  · exact ⟨a, l', e, ‹_›, h'⟩
  · have := h'.exit.2; cases this

theorem must_last {r : Req} {l : List (Req × Resp)} (h : Runs (must r (.exit 0)) l (.exit 0)) : ∃ a, l = [(r, a)] ∧ a.ok = true := by
  obtain ⟨a, l', e, ok, h'⟩ := must_ok h
  rw [h'.exit.1] at e
  exact ⟨a, e, ok⟩

theorem reached_switch {p : Prog} {o : Oracle} {cm : CM} (hr : Reach o cm) {s : List Spawn.Ev} {d l : List Name} {asap : Bool} {mode : Strictness}
    {a : Resp} (h : (Req.switch d l asap mode, a) ∈ gots (after p o cm s).wire) (ok : a.ok = true) :
    Reached p o cm s (.switch d l asap mode)
      (fun cm => (∀ n ∈ l, cm.lcOf n = some .active) ∧ ∀ n ∈ d, n ∉ l → cm.lcOf n ≠ some .active) ∨
    (mode ≠ .strict ∧ WouldBeRejected p o cm s d l asap mode) := by
  obtain ⟨u, v, hw⟩ := mem_gots h
  obtain ⟨s1, h1, ⟨s0, ⟨t, h0⟩, ⟨id, hid⟩, h2⟩, -⟩ := (inv_run (verb p) o cm hr s).2.got u _ a v hw
  rcases h2 ok with h2 | ⟨h2, h3⟩
  · refine .inl ⟨s1, h1, ⟨id, ?_⟩, h2⟩
    rw [← h0]
    exact (wire_run _ _ _ s0 t).subset hid
  · exact .inr ⟨h2, s0, (show s0 <+: s1 from ⟨t, h0⟩).trans h1, ⟨id, hid⟩, h3⟩

theorem reached_ok {p : Prog} {o : Oracle} {cm : CM} (hr : Reach o cm) {s : List Spawn.Ev} {r : Req} {a : Resp} {P : CM → Prop}
    (h : (r, a) ∈ gots (after p o cm s).wire) (hP : ∀ cm0 cm1, Effect o r a cm0 cm1 → P cm1) : Reached p o cm s r P :=
  (got_effect hr h).imp (fun cm1 ⟨cm0, he⟩ => hP cm0 cm1 he)

/-- **C68, unload_controller.** Exit code 0: some time after it had asked, the controller was not loaded. -/
theorem C68_unload (o : Oracle) (cm : CM) (hr : Reach o cm) (n : Name) (s : List Spawn.Ev) (h : Success (after (unloadCtl n) o cm s)) :
    Reached (unloadCtl n) o cm s (.unload n) (fun cm => cm.lcOf n = none) := by
  obtain ⟨a, e, ok⟩ := must_last (success_runs hr h)
  replace e : gots (after (unloadCtl n) o cm s).wire = _ := e
  exact reached_ok hr (a := a) (by rw [e]; simp) (fun _ _ he => he ok)

/-- **C68, cleanup_controller.** Exit code 0: some time after it had asked, the controller was UNCONFIGURED. -/
theorem C68_cleanup (o : Oracle) (cm : CM) (hr : Reach o cm) (n : Name) (s : List Spawn.Ev) (h : Success (after (cleanupCtl n) o cm s)) :
    Reached (cleanupCtl n) o cm s (.cleanup n) (fun cm => cm.lcOf n = some .unconfigured) := by
  obtain ⟨a, e, ok⟩ := must_last (success_runs hr h)
  replace e : gots (after (cleanupCtl n) o cm s).wire = _ := e
  exact reached_ok hr (a := a) (by rw [e]; simp) (fun _ _ he => he ok)

/-- **C68, set_hardware_component_state.** Exit code 0: some time after it had asked, the component was in the state that was asked for. -/
theorem C68_set_hw (o : Oracle) (cm : CM) (hr : Reach o cm) (hw : Name) (goal : Goal) (s : List Spawn.Ev)
    (h : Success (after (setHwState hw goal) o cm s)) :
    Reached (setHwState hw goal) o cm s (.setHw hw goal.state) (fun cm => cm.rm.stateOf hw = some goal.state) := by
  obtain ⟨a, e, ok⟩ := must_last (success_runs hr h)
  replace e : gots (after (setHwState hw goal) o cm s).wire = _ := e
  refine reached_ok hr (a := a) (by rw [e]; simp) (fun _ cm1 he => ?_)
  obtain ⟨h1, h2⟩ := he
  rw [h2 ok] at h1
  exact h1.symm

/-- **C68, switch_controllers.** Exit code 0 with STRICT: some time after it had asked, all controllers to activate were ACTIVE and all controllers
to deactivate only were not. -/
theorem C68_switch_strict (o : Oracle) (cm : CM) (hr : Reach o cm) (d a : List Name) (asap : Bool) (s : List Spawn.Ev)
    (h : Success (after (switchCtls d a asap .strict) o cm s)) :
    Reached (switchCtls d a asap .strict) o cm s (.switch d a asap .strict)
      (fun cm => (∀ n ∈ a, cm.lcOf n = some .active) ∧ ∀ n ∈ d, n ∉ a → cm.lcOf n ≠ some .active) := by
  obtain ⟨x, e, ok⟩ := must_last (success_runs hr h)
  replace e : gots (after (switchCtls d a asap .strict) o cm s).wire = _ := e
  rcases reached_switch hr (d := d) (l := a) (asap := asap) (mode := .strict) (a := x) (by rw [e]; simp) ok with h | ⟨h, _⟩
  · exact h
  · exact absurd rfl h

/-- **C68, switch_controllers, partial**: the same with any strictness, unless a STRICT request would have been rejected. What is missing is false: a
BEST_EFFORT request leaves out what cannot be done and is answered with OK (`C68_best_effort_witness`). -/
theorem C68_switch_partial (o : Oracle) (cm : CM) (hr : Reach o cm) (d a : List Name) (asap : Bool) (mode : Strictness) (s : List Spawn.Ev)
    (h : Success (after (switchCtls d a asap mode) o cm s)) :
    Reached (switchCtls d a asap mode) o cm s (.switch d a asap mode)
      (fun cm => (∀ n ∈ a, cm.lcOf n = some .active) ∧ ∀ n ∈ d, n ∉ a → cm.lcOf n ≠ some .active) ∨
    WouldBeRejected (switchCtls d a asap mode) o cm s d a asap mode := by
  obtain ⟨x, e, ok⟩ := must_last (success_runs hr h)
  replace e : gots (after (switchCtls d a asap mode) o cm s).wire = _ := e
  exact (reached_switch hr (a := x) (by rw [e]; simp) ok).imp id And.right

/-- **C68, set_controller_state, partial.** Exit code 0 means: some time after it had asked for the change, the controller was in the state that was asked
for - with two exceptions, both of which occur: a switch that STRICT would have rejected (`C68_activate_witness`, `C68_deactivate_witness`), and a
running controller that was deactivated is not ACTIVE but perhaps not INACTIVE either (`C68_not_inactive_witness`). -/
theorem C68_set_state_partial (o : Oracle) (cm : CM) (hr : Reach o cm) (n : Name) (goal : Goal) (s : List Spawn.Ev)
    (h : Success (after (setState n goal) o cm s)) :
    match goal with
    | .unconfigured => Reached (setState n goal) o cm s (.cleanup n) (fun cm => cm.lcOf n = some .unconfigured)
    | .inactive =>
      Reached (setState n goal) o cm s (.configure n) (fun cm => cm.lcOf n = some .inactive) ∨
      Reached (setState n goal) o cm s (.switch [n] [] true .bestEffort) (fun cm => cm.lcOf n ≠ some .active) ∨
      WouldBeRejected (setState n goal) o cm s [n] [] true .bestEffort
    | .active =>
      Reached (setState n goal) o cm s (.switch [] [n] true .bestEffort) (fun cm => cm.lcOf n = some .active) ∨
      WouldBeRejected (setState n goal) o cm s [] [n] true .bestEffort := by
  have hq := success_runs hr h
  obtain ⟨x, l, e, h1⟩ := Runs.call hq (by simp)
  split at h1
  · have := h1.exit.2; cases this
  · cases goal with
    | unconfigured =>
      simp only at h1
      split at h1
      · have := h1.exit.2; cases this
      · obtain ⟨a, e', ok⟩ := must_last h1
        exact reached_ok hr (a := a) (by rw [e, e']; simp) (fun _ _ he => he ok)
    | inactive =>
      simp only at h1
      split at h1
      · obtain ⟨a, e', ok⟩ := must_last h1
        exact .inl (reached_ok hr (a := a) (by rw [e, e']; simp) (fun _ _ he => he ok))
      · split at h1
        · obtain ⟨a, e', ok⟩ := must_last h1
          rcases reached_switch hr (d := [n]) (l := []) (asap := true) (mode := .bestEffort) (a := a) (by rw [e, e']; simp [pythonTrue]) ok with h | ⟨_, h⟩
          · exact .inr (.inl (h.imp (fun cm h => h.2 n (by simp) (by simp))))
          · exact .inr (.inr h)
        · have := h1.exit.2; cases this
    | active =>
      simp only at h1
      split at h1
      · have := h1.exit.2; cases this
      · obtain ⟨a, e', ok⟩ := must_last h1
        rcases reached_switch hr (d := []) (l := [n]) (asap := true) (mode := .bestEffort) (a := a) (by rw [e, e']; simp [pythonTrue]) ok with h | ⟨_, h⟩
        · exact .inl (h.imp (fun cm h => h.1 n (by simp)))
        · exact .inr h

/-- **C68, load_controller, partial.** Exit code 0 means: some time after it had asked, the controller was loaded; with `--set-state`, it was INACTIVE after it
had asked for its configuration; with `--set-state active`, it was ACTIVE after it had asked for that - or this switch is one that STRICT would have
rejected (what is missing is false, as for set_controller_state). -/
theorem C68_load_partial (o : Oracle) (cm : CM) (hr : Reach o cm) (c : Ctrl) (missing : Bool) (goal : Option Goal) (s : List Spawn.Ev)
    (h : Success (after (loadCtl c missing goal) o cm s)) :
    (Reached (loadCtl c missing goal) o cm s .list (fun cm => cm.lcOf c.name ≠ none) ∨
      Reached (loadCtl c missing goal) o cm s (.load c.name) (fun cm => cm.lcOf c.name ≠ none)) ∧
    (goal ≠ none → Reached (loadCtl c missing goal) o cm s (.configure c.name) (fun cm => cm.lcOf c.name = some .inactive)) ∧
    (goal = some .active →
      Reached (loadCtl c missing goal) o cm s (.switch [] [c.name] true .bestEffort) (fun cm => cm.lcOf c.name = some .active) ∨
      WouldBeRejected (loadCtl c missing goal) o cm s [] [c.name] true .bestEffort) := by
  have hq := success_runs hr h
  obtain ⟨x, l, e, h1⟩ := Runs.call hq (by simp)
  have key : ∃ l1 l2, gots (after (loadCtl c missing goal) o cm s).wire = l1 ++ l2 ∧ WasLoaded l1 c.name ∧
      Runs (afterLoad c.name goal) l2 (.exit 0) := by
    split at h1
    · rename_i hm
      exact ⟨[(.list, x)], l, e, .inl ⟨x, by simp, hm⟩, h1⟩
    · split at h1
      · have := h1.exit.2; cases this
      · obtain ⟨l1, l2, e', h2⟩ := good_setFiles (.inl rfl) h1
        obtain ⟨a, l3, e2, ok, h3⟩ := must_ok h2
        exact ⟨(.list, x) :: (l1 ++ [(.load c.name, a)]), l3, by rw [e, e', e2]; simp, .inr ⟨a, by simp, ok⟩, h3⟩
  obtain ⟨l1, l2, e1, hl, h2⟩ := key
  have hl' : WasLoaded (gots (after (loadCtl c missing goal) o cm s).wire) c.name := by
    rw [e1]
    rcases hl with ⟨a, ha, hm⟩ | ⟨a, ha, hm⟩
    · exact .inl ⟨a, by simp [ha], hm⟩
    · exact .inr ⟨a, by simp [ha], hm⟩
  have conf : ∀ a, (Req.configure c.name, a) ∈ l2 → a.ok = true →
      Reached (loadCtl c missing goal) o cm s (.configure c.name) (fun cm => cm.lcOf c.name = some .inactive) := by
    intro a ha ok
    exact reached_ok hr (a := a) (by rw [e1]; simp [ha]) (fun _ _ he => he ok)
  refine ⟨wasLoaded_effect hr hl', ?_, ?_⟩
  · intro hg
    match goal, h2 with
    | none, _ => exact absurd rfl hg
    | some .active, h2 =>
      obtain ⟨a, l3, e2, ok, _⟩ := must_ok h2
      exact conf a (by rw [e2]; simp) ok
    | some .inactive, h2 =>
      obtain ⟨a, l3, e2, ok, _⟩ := must_ok h2
      exact conf a (by rw [e2]; simp) ok
    | some .unconfigured, h2 =>
      obtain ⟨a, l3, e2, ok, _⟩ := must_ok h2
      exact conf a (by rw [e2]; simp) ok
  · intro hg
    subst hg
    obtain ⟨a, l3, e2, ok, h3⟩ := must_ok h2
    obtain ⟨b, e3, ok'⟩ := must_last h3
    rcases reached_switch hr (d := []) (l := [c.name]) (asap := true) (mode := .bestEffort) (a := b)
      (by rw [e1, e2, e3]; simp [pythonTrue]) ok' with h | ⟨_, h⟩
    · exact .inl (h.imp (fun cm h => h.1 _ (by simp)))
    · exact .inr h

/-! ### What they ask for -/

theorem asks_verb {p : Prog} {P : List Wire → Req → Prop} (hA : Asks (fun h r => ∀ w, gots w = h → P w r) [] p) {o : Oracle} {cm : CM}
    (hr : Reach o cm) {s : List Spawn.Ev} {r : Req} {before : List Wire} (h : SentAfter (after p o cm s) r before) : P before r := by
  obtain ⟨id, aft, hw⟩ := h
  obtain ⟨h1, h2⟩ := (inv_run (verb p) o cm hr s).1.snt before id r aft hw
  by_cases hn : Wire.interrupted ∈ before
  · exfalso
    obtain ⟨x, y, e, hy⟩ := last_split hn
    obtain ⟨k, hk⟩ := h2 x y e hy
    have := hk.exit.2
    cases this
  · obtain ⟨k, hk⟩ := h1 hn
    have hA := Asks.runs hk hA
    rw [List.nil_append] at hA
    cases hA with
    | call g _ => exact g before rfl

theorem not_answered {w : List Wire} (h : gots w = []) (q : Req) (x : Resp) : ¬ Answered w q x := by
  intro hx
  have : (q, x) ∈ gots w := by unfold gots; rw [List.mem_filterMap]; exact ⟨_, hx, rfl⟩
  rw [h] at this; simp at this

theorem asks_must {P : List (Req × Resp) → Req → Prop} {h : List (Req × Resp)} {r : Req} {k : Prog} (h1 : P h r)
    (h2 : ∀ a, a.ok = true → Asks P (h ++ [(r, a)]) k) : Asks P h (must r k) := by
  refine .call h1 (fun a => ?_)
  split
  · exact h2 a ‹_›
  · exact .exit

/-- **C68, one request.** These verbs ask for the one thing they are named after, and for nothing after an answer. -/
theorem C68_one_request (o : Oracle) (cm : CM) (hr : Reach o cm) (r : Req) (before : List Wire) (s : List Spawn.Ev) :
    (∀ n, SentAfter (after (unloadCtl n) o cm s) r before → r = .unload n ∧ ∀ q x, ¬ Answered before q x) ∧
    (∀ n, SentAfter (after (cleanupCtl n) o cm s) r before → r = .cleanup n ∧ ∀ q x, ¬ Answered before q x) ∧
    (∀ d a asap mode, SentAfter (after (switchCtls d a asap mode) o cm s) r before →
      r = .switch d a asap mode ∧ ∀ q x, ¬ Answered before q x) ∧
    ∀ hw goal, SentAfter (after (setHwState hw goal) o cm s) r before → r = .setHw hw goal.state ∧ ∀ q x, ¬ Answered before q x := by
  have one : ∀ q, Asks (fun h r => ∀ w, gots w = h → r = q ∧ ∀ q' x, ¬ Answered w q' x) [] (must q (.exit 0)) :=
    fun q => asks_must (fun w hw => ⟨rfl, not_answered hw⟩) (fun _ _ => .exit)
  exact ⟨fun n h => asks_verb (one _) hr h, fun n h => asks_verb (one _) hr h, fun d a asap mode h => asks_verb (one _) hr h,
    fun hw goal h => asks_verb (one _) hr h⟩

/-- **C68, what set_controller_state asks for.** First for the state of the controller; then, once, for the transition from the state it was told to the one it is
to reach, and for nothing if there is none. -/
theorem C68_set_state_requests (o : Oracle) (cm : CM) (hr : Reach o cm) (n : Name) (goal : Goal) (s : List Spawn.Ev) (r : Req) (before : List Wire)
    (h : SentAfter (after (setState n goal) o cm s) r before) : SetStateAsks n goal before r := by
  refine asks_verb (P := SetStateAsks n goal) ?_ hr h
  refine .call (fun w hw => .inl ⟨rfl, not_answered hw⟩) (fun a => ?_)
  have an : ∀ w, gots w = [] ++ [(Req.lookup n, a)] → Answered w (.lookup n) a := fun w hw => answered_of_gots (by rw [hw]; simp)
  split
  · exact .exit
  · rename_i st hst
    cases goal with
    | unconfigured =>
      simp only
      split
      · exact .exit
      · rename_i hi
        have hi : st = .inactive := by simpa using hi
        exact asks_must (fun w hw => .inr ⟨a, st, an w hw, hst, by subst hi; rfl⟩) (fun _ _ => .exit)
    | inactive =>
      simp only
      split
      · rename_i hi
        exact asks_must (fun w hw => .inr ⟨a, st, an w hw, hst, by subst hi; rfl⟩) (fun _ _ => .exit)
      · split
        · rename_i hi
          exact asks_must (fun w hw => .inr ⟨a, st, an w hw, hst, by subst hi; rfl⟩) (fun _ _ => .exit)
        · exact .exit
    | active =>
      simp only
      split
      · exact .exit
      · rename_i hi
        have hi : st = .inactive := by simpa using hi
        exact asks_must (fun w hw => .inr ⟨a, st, an w hw, hst, by subst hi; rfl⟩) (fun _ _ => .exit)

theorem mem_gots_of_answered {w : List Wire} {r : Req} {x : Resp} (h : Answered w r x) : (r, x) ∈ gots w := by
  unfold gots; rw [List.mem_filterMap]; exact ⟨_, h, rfl⟩

theorem asks_afterLoad (c : Ctrl) (goal : Option Goal) (h : List (Req × Resp)) (hl : WasLoaded h c.name) :
    Asks (fun h r => ∀ w, gots w = h → LoadAsks c goal w r) h (afterLoad c.name goal) := by
  have kl : ∀ w, gots w = h → KnownLoaded w c.name := by
    intro w hw
    rw [← hw] at hl
    rcases hl with ⟨x, hx, hy⟩ | ⟨x, hx, hy⟩
    · exact .inl ⟨x, answered_of_gots hx, hy⟩
    · exact .inr ⟨x, answered_of_gots hx, hy⟩
  match goal with
  | none => exact .exit
  | some .unconfigured => exact asks_must (fun w hw => ⟨rfl, by simp, kl w hw⟩) (fun _ _ => .exit)
  | some .inactive => exact asks_must (fun w hw => ⟨rfl, by simp, kl w hw⟩) (fun _ _ => .exit)
  | some .active =>
    refine asks_must (fun w hw => ⟨rfl, by simp, kl w hw⟩) (fun a ok => ?_)
    exact asks_must (fun w hw => ⟨rfl, rfl, rfl, rfl, rfl, a, answered_of_gots (by rw [hw]; simp), ok⟩) (fun _ _ => .exit)

/-- **C68, what load_controller asks for.** It sets parameters of and loads a controller only if it was not listed as loaded; it configures it only if asked to, and if it is known to be
loaded; it activates it only if asked to, and after its configuration was confirmed. -/
theorem C68_load_requests (o : Oracle) (cm : CM) (hr : Reach o cm) (c : Ctrl) (missing : Bool) (goal : Option Goal) (s : List Spawn.Ev) (r : Req)
    (before : List Wire) (h : SentAfter (after (loadCtl c missing goal) o cm s) r before) : LoadAsks c goal before r := by
  refine asks_verb (P := LoadAsks c goal) ?_ hr h
  refine .call (fun w hw => not_answered hw) (fun a => ?_)
  split
  · rename_i hm
    exact asks_afterLoad c goal _ (.inl ⟨a, by simp, hm⟩)
  · rename_i hm
    split
    · exact .exit
    · have ld : ∀ t, Asks (fun h r => ∀ w, gots w = h → LoadAsks c goal w r) ([(Req.list, a)] ++ t) (must (.load c.name) (afterLoad c.name goal)) := by
        intro t
        refine asks_must (fun w hw => ⟨rfl, a, answered_of_gots (by rw [hw]; simp), hm⟩) (fun b ok => ?_)
        exact asks_afterLoad c goal _ (.inr ⟨b, by simp, ok⟩)
      have ck : ∀ (want : Bool) (q : Param) (k : Prog),
          (∀ t, Asks (fun h r => ∀ w, gots w = h → LoadAsks c goal w r) ([(Req.list, a)] ++ t) k) →
          ∀ t, Asks (fun h r => ∀ w, gots w = h → LoadAsks c goal w r) ([(Req.list, a)] ++ t) (setChecked want c.name q k) := by
        intro want q k hk t
        unfold setChecked
        split
        · refine .call (fun w hw => ⟨rfl, a, answered_of_gots (by rw [hw]; simp), hm⟩) (fun b => ?_)
          split
          · rw [List.append_assoc]; exact hk _
          · exact .exit
        · exact hk t
      show Asks _ ([(Req.list, a)] ++ []) _
      unfold setFiles
      split
      · refine .call (fun w hw => ⟨rfl, a, answered_of_gots (by rw [hw]; simp), hm⟩) (fun b => ?_)
        rw [List.append_assoc]
        exact ck _ _ _ (ck _ _ _ ld) _
      · exact ld []

/-! ### Exit codes -/

/-- Exit code 0 only if nothing was refused. -/
def Minds (p : Prog) : Prop := ∀ l, Runs p l (.exit 0) → ∀ x ∈ l, ¬ Refusal x.1 x.2

theorem minds_exit (n : Nat) : Minds (.exit n) := by
  intro l h x hx
  rw [h.exit.1] at hx; simp at hx

theorem minds_must {r : Req} {k : Prog} (hk : Minds k) : Minds (must r k) := by
  intro l h x hx
  obtain ⟨a, l', e, ok, h'⟩ := must_ok h
  rw [e] at hx
  rcases List.mem_cons.1 hx with rfl | hx
  · intro hx; have h0 : a.ok = false := hx.1; rw [ok] at h0; cases h0
  · exact hk l' h' x hx

theorem minds_setFiles {c : Ctrl} {k : Prog} (hk : Minds k) : Minds (setFiles c k) := by
  have ck : ∀ (want : Bool) (q : Param) (k : Prog), Minds k → Minds (setChecked want c.name q k) := by
    intro want q k hk
    unfold setChecked
    split
    · exact minds_must hk
    · exact hk
  unfold setFiles
  split
  · intro l h x hx
    obtain ⟨a, l', e, h'⟩ := Runs.call h (by simp)
    rw [e] at hx
    rcases List.mem_cons.1 hx with rfl | hx
    · intro hx; exact hx.2.2.2 _ rfl
    · exact ck _ _ _ (ck _ _ _ hk) l' h' x hx
  · exact hk

theorem minds_afterLoad (n : Name) (goal : Option Goal) : Minds (afterLoad n goal) := by
  match goal with
  | none => exact minds_exit 0
  | some .unconfigured => exact minds_must (minds_exit 0)
  | some .inactive => exact minds_must (minds_exit 0)
  | some .active => exact minds_must (minds_must (minds_exit 0))

/-- The verbs. -/
def IsVerb (p : Prog) : Prop :=
  (∃ n, p = unloadCtl n) ∨ (∃ n, p = cleanupCtl n) ∨ (∃ d a asap mode, p = switchCtls d a asap mode) ∨ (∃ hw goal, p = setHwState hw goal) ∨
  (∃ n goal, p = setState n goal) ∨ ∃ c missing goal, p = loadCtl c missing goal

/-- **C68, refusals.** A verb that accepted a refusal does not end with exit code 0. -/
theorem C68_refused (o : Oracle) (cm : CM) (hr : Reach o cm) (p : Prog) (hp : IsVerb p) (s : List Spawn.Ev) (r : Req) (x : Resp)
    (h : Answered (after p o cm s).wire r x) (hx : Refusal r x) (hl : ∀ n, r ≠ .lookup n) : ¬ Success (after p o cm s) := by
  intro hs
  have hq := success_runs hr hs
  have hm := mem_gots_of_answered h
  rcases hp with ⟨n, rfl⟩ | ⟨n, rfl⟩ | ⟨d, a, asap, mode, rfl⟩ | ⟨hw, goal, rfl⟩ | ⟨n, goal, rfl⟩ | ⟨c, missing, goal, rfl⟩
  · exact minds_must (minds_exit 0) _ hq _ hm hx
  · exact minds_must (minds_exit 0) _ hq _ hm hx
  · exact minds_must (minds_exit 0) _ hq _ hm hx
  · exact minds_must (minds_exit 0) _ hq _ hm hx
  · obtain ⟨b, l, e, h1⟩ := Runs.call hq (by simp)
    rw [e] at hm
    rcases List.mem_cons.1 hm with hm | hm
    · cases hm; exact hl n rfl
    · split at h1
      · have := h1.exit.2; cases this
      · cases goal with
        | unconfigured =>
          simp only at h1
          split at h1
          · have := h1.exit.2; cases this
          · exact minds_must (minds_exit 0) _ h1 _ hm hx
        | inactive =>
          simp only at h1
          split at h1
          · exact minds_must (minds_exit 0) _ h1 _ hm hx
          · split at h1
            · exact minds_must (minds_exit 0) _ h1 _ hm hx
            · have := h1.exit.2; cases this
        | active =>
          simp only at h1
          split at h1
          · have := h1.exit.2; cases this
          · exact minds_must (minds_exit 0) _ h1 _ hm hx
  · obtain ⟨b, l, e, h1⟩ := Runs.call hq (by simp)
    rw [e] at hm
    rcases List.mem_cons.1 hm with hm | hm
    · cases hm; exact hx.2.1 rfl
    · split at h1
      · exact minds_afterLoad _ _ _ h1 _ hm hx
      · split at h1
        · have := h1.exit.2; cases this
        · exact minds_setFiles (minds_must (minds_afterLoad _ _)) _ h1 _ hm hx

/-- **C68, interrupts.** An interrupted verb does not end with exit code 0. -/
theorem C68_interrupted (o : Oracle) (cm : CM) (hr : Reach o cm) (p : Prog) (s : List Spawn.Ev) (h : Success (after p o cm s)) :
    ¬ (after p o cm s).wasInterrupted := by
  have hp := (inv_run (verb p) o cm hr s).1.pos
  unfold Success after at h
  rw [h] at hp
  rcases hp with ⟨hp, -⟩ | ⟨u, v, -, -, hp | ⟨-, hp⟩⟩
  · exact hp
  · have := hp.exit.2; cases this
  · simp [verb] at hp

/-! ## Examples -/

namespace Demo
open Spawn.Demo

/-- A BEST_EFFORT switch that is answered after a cycle of the real-time loop. -/
def ride (id : Nat) (d l : List Name) (ok : Bool) : List Spawn.Ev :=
  [.send, .serve ⟨id, .switch d l true .bestEffort⟩ x300, .env (.update (fun _ => true) true), .wake,
   .deliver ⟨id, .switch d l true .bestEffort⟩ ⟨ok, [], none⟩]

/-- The answer to `lookup`. -/
def found (st : LState) : Resp := ⟨true, [], some st⟩

/-- Activate 300, which is inactive. -/
def act300 : List Spawn.Ev := ask 0 (.lookup 300) x300 (found .inactive) ++ ride 1 [] [300] true

/-- Load, configure and activate 300 on the robot without controllers. -/
def load300 : List Spawn.Ev :=
  ask 0 .list x300 yes ++ ask 1 (.load 300) x300 yes ++ ask 2 (.configure 300) x300 yes ++ ride 3 [] [300] true

end Demo
open Demo Spawn.Demo

theorem success_of {w : World} (h : code w = some 0) : Success w := code_iff h

/-- The verbs do what they are named after, and the hypotheses of the theorems are met. -/
theorem C68_demo :
    (let w := after (setState 300 .active) goodOracle (demo goodOracle []) act300
     code w = some 0 ∧ w.cm.lcOf 300 = some .active) ∧
    (let w := after (loadCtl { name := 300 } false (some .active)) goodOracle robot load300
     code w = some 0 ∧ w.cm.lcOf 300 = some .active) ∧
    (let w := after (unloadCtl 300) goodOracle (demo goodOracle []) (ask 0 (.unload 300) x300 yes)
     code w = some 0 ∧ w.cm.lcOf 300 = none) ∧
    (let w := after (cleanupCtl 300) goodOracle (demo goodOracle []) (ask 0 (.cleanup 300) x300 yes)
     code w = some 0 ∧ w.cm.lcOf 300 = some .unconfigured) ∧
    (let w := after (setHwState 2 .inactive) goodOracle (demo goodOracle []) (ask 0 (.setHw 2 .inactive) x300 ⟨true, [], some .inactive⟩)
     code w = some 0 ∧ w.cm.rm.stateOf 2 = some .inactive) ∧
    (let w := after (switchCtls [] [300] true .strict) goodOracle (demo goodOracle []) (askSwitch 0 [] [300] true x300 true)
     code w = some 0 ∧ w.cm.lcOf 300 = some .active) ∧
    code (after (unloadCtl 999) goodOracle (demo goodOracle []) (ask 0 (.unload 999) x300 no)) = some 1 ∧
    code (after (unloadCtl 300) goodOracle (demo goodOracle []) [.send, .interrupt]) = some 2 := by
  decide +kernel

example : Reached (unloadCtl 300) goodOracle (demo goodOracle []) (ask 0 (.unload 300) x300 yes) (.unload 300) (fun cm => cm.lcOf 300 = none) :=
  C68_unload goodOracle _ (demo_reach _ _) 300 _ (success_of C68_demo.2.2.1.1)

example : ¬ Success (after (unloadCtl 999) goodOracle (demo goodOracle []) (ask 0 (.unload 999) x300 no)) :=
  C68_refused goodOracle _ (demo_reach _ _) _ (.inl ⟨999, rfl⟩) _ (.unload 999) no (by unfold Answered; decide +kernel)
    ⟨rfl, by simp, by simp, by simp⟩ (by simp)

/-! ## Findings -/

/-- **Negation: `set_controller_state n active` with exit code 0 has activated the controller.** 200 drives the reference of 100, which is not running. The verb passes `True` as the strictness,
which is BEST_EFFORT; 200 is left out, nothing is activated, the answer is OK, and the verb reports success. STRICT would have been rejected. -/
theorem C68_activate_witness :
    let s := ask 0 (.lookup 200) x300 (found .inactive) ++ ask 1 (.switch [] [200] true .bestEffort) x300 yes
    let w := after (setState 200 .active) goodOracle (demo goodOracle []) s
    code w = some 0 ∧ w.cm.lcOf 200 = some .inactive ∧
    ((demo goodOracle []).switchBegin goodOracle [200] [] .strict true).2 = .done .error := by
  decide +kernel

/-- **Negation: `set_controller_state n inactive` with exit code 0 has stopped the controller.** 100 runs, and 200 drives its reference: 100 is left out of the request, the answer is OK, the verb reports
success, and 100 still drives the robot. -/
theorem C68_deactivate_witness :
    let cm := demo goodOracle (switchOps [100, 200] [] .strict)
    let s := ask 0 (.lookup 100) x300 (found .active) ++ ask 1 (.switch [100] [] true .bestEffort) x300 yes
    let w := after (setState 100 .inactive) goodOracle cm s
    code w = some 0 ∧ w.cm.lcOf 100 = some .active ∧ w.cm.heldBy 100 = some [⟨10, 0⟩] := by
  decide +kernel

/-- **Negation: after `set_controller_state n inactive` with exit code 0 the controller was INACTIVE.** Its `on_deactivate` failed: it is UNCONFIGURED. -/
theorem C68_not_inactive_witness :
    let cm := demo errDeact (switchOps [100] [] .strict)
    let s := ask 0 (.lookup 100) x300 (found .active) ++ ride 1 [100] [] true
    let w := after (setState 100 .inactive) errDeact cm s
    code w = some 0 ∧ w.cm.lcOf 100 = some .unconfigured := by
  decide +kernel

/-- **Negation: a BEST_EFFORT switch_controllers with exit code 0 has activated something.** -/
theorem C68_best_effort_witness :
    let w := after (switchCtls [] [200, 999] true .bestEffort) goodOracle (demo goodOracle [])
      (ask 0 (.switch [] [200, 999] true .bestEffort) x300 yes)
    code w = some 0 ∧ w.cm.lcOf 200 = some .inactive ∧ w.cm.lcOf 999 = none := by
  decide +kernel

/-- **Negation: `load_controller --set-state active` succeeds if the controller is loaded and can be activated.** 300 is INACTIVE already: it is configured once more. If it is ACTIVE already, its configuration is refused and
the exit code is 1, although the state that was asked for is there. -/
theorem C68_load_again_witness :
    let w := after (loadCtl { name := 300 } false (some .active)) goodOracle (demo goodOracle (switchOps [300] [] .strict))
      (ask 0 .list x300 ⟨true, [200, 400, 100, 300], none⟩ ++ ask 1 (.configure 300) x300 no)
    code w = some 1 ∧ w.cm.lcOf 300 = some .active := by
  decide +kernel

/-- **Negation: `set_controller_state n active` succeeds if the controller is ACTIVE.** It ends with exit code 1. -/
theorem C68_set_state_no_transition_witness :
    code (after (setState 300 .active) goodOracle (demo goodOracle (switchOps [300] [] .strict)) (ask 0 (.lookup 300) x300 (found .active))) = some 1 := by
  decide +kernel

end Cli
end Verif
