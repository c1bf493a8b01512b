import Verif.Lc.Model
import Mathlib.Data.List.Induction
/-!
# C84: the state of a controller as the controller manager sees it

Specification. The controller manager decides by `get_lifecycle_id` whether a controller is active, inactive or unconfigured. It
should answer the state the controller is in.

It does when reads and transitions do not overlap; it does not in general: a reader that was interrupted between its read of the
node's state and its store writes back a state that is gone, and nothing corrects that until the next transition.
-/
namespace Verif
namespace Lc

/-! ## Histories in which no transition begins between a reader's read and its store -/

/-- No transition is taken up between the moment a reader reads the node's state and the moment it stores what it read. -/
def Calm (es : List Ev) : Prop :=
  ∀ (pre mid post : List Ev) (r : Nat), es = pre ++ Ev.read r :: mid ++ Ev.put r :: post → Ev.put r ∉ mid → ∀ t, Ev.enter t ∉ mid

theorem Calm.init {es : List Ev} {e : Ev} (h : Calm (es ++ [e])) : Calm es := by
  intro pre mid post r he hm
  exact h pre mid (post ++ [e]) r (by rw [he]; simp) hm

theorem run_snoc (es : List Ev) (e : Ev) : ∀ (s : St), run s (es ++ [e]) =
    (run s es).bind fun p => (step p.1 e).map fun q => (q.1, p.2 ++ q.2.toList) := by
  induction es with
  | nil =>
    intro s
    rw [List.nil_append]
    unfold run run
    cases h : step s e with
    | none => simp [h]
    | some q => simp [h]
  | cons a es ih =>
    intro s
    rw [List.cons_append]
    unfold run
    cases h : step s a with
    | none => simp
    | some q =>
      obtain ⟨s', o⟩ := q
      simp only [ih]
      cases h2 : run s' es with
      | none => simp
      | some p =>
        cases h3 : step p.1 e with
        | none => simp [h3]
        | some w => simp [h3]

/-- What holds after a calm history. -/
structure Good (es : List Ev) (s : St) : Prop where
  idle : s.phase = .idle → s.real.transitional = false ∧ (s.cache = s.real ∨ s.cache.transitional = true)
  entered : ∀ t p, s.phase = .entered t p → s.real.transitional = true ∧ (s.cache = p ∨ s.cache.transitional = true)
  running : ∀ t, s.phase = .running t → s.real.transitional = true ∧ s.cache.transitional = true
  got : ∀ r id, s.rd r = .got id → ∃ pre mid, es = pre ++ Ev.read r :: mid ∧ Ev.put r ∉ mid ∧
    ((∀ t, Ev.enter t ∉ mid) → id.transitional = true ∨ id = s.real)

theorem during_transitional (t : Tr) : t.during.transitional = true := by cases t <;> rfl

theorem goal_primary {t : Tr} {r : Ret} {g : Id} (h : t.goal r = some g) : g.transitional = false := by
  cases t <;> cases r <;> cases h <;> rfl

/-- Reader facts survive a step that keeps readers. -/
theorem got_keep {es : List Ev} {s s' : St} {e : Ev} (hrd : s'.rd = s.rd) (hp : ∀ r, e ≠ .put r)
    (hr : (∃ t, e = .enter t) ∨ ∀ id : Id, id.transitional = true ∨ id = s.real → id.transitional = true ∨ id = s'.real)
    (h : ∀ r id, s.rd r = .got id → ∃ pre mid, es = pre ++ Ev.read r :: mid ∧ Ev.put r ∉ mid ∧
      ((∀ t, Ev.enter t ∉ mid) → id.transitional = true ∨ id = s.real)) :
    ∀ r id, s'.rd r = .got id → ∃ pre mid, es ++ [e] = pre ++ Ev.read r :: mid ∧ Ev.put r ∉ mid ∧
      ((∀ t, Ev.enter t ∉ mid) → id.transitional = true ∨ id = s'.real) := by
  intro r id hg
  rw [hrd] at hg
  obtain ⟨pre, mid, he, hm, hc⟩ := h r id hg
  refine ⟨pre, mid ++ [e], by rw [he]; simp, ?_, ?_⟩
  · intro hmem
    rcases List.mem_append.mp hmem with h1 | h1
    · exact hm h1
    · exact hp r (List.mem_singleton.mp h1).symm
  · intro hn
    rcases hr with ⟨t, ht⟩ | hr
    · exact absurd (List.mem_append.mpr (Or.inr (List.mem_singleton.mpr ht.symm))) (hn t)
    · exact hr id (hc fun t hmem => hn t (List.mem_append.mpr (Or.inl hmem)))

theorem good_step {es : List Ev} {e : Ev} {s s' : St} {o : Option Id} (hc : Calm (es ++ [e])) (g : Good es s)
    (h : step s e = some (s', o)) : Good (es ++ [e]) s' := by
  cases e with
  | enter t =>
    simp only [step] at h
    split at h
    · rename_i hp
      cases h
      obtain ⟨h1, h2⟩ := g.idle hp.1
      refine ⟨fun hh => by simp at hh, ?_, fun _ hh => by simp at hh, ?_⟩
      · intro t' p hh
        simp only [Phase.entered.injEq] at hh
        refine ⟨during_transitional t, ?_⟩
        rw [← hh.2]; exact h2
      · exact got_keep (s := s) rfl (fun r => by simp) (Or.inl ⟨t, rfl⟩) g.got
    · cases h
  | store =>
    simp only [step] at h
    split at h
    · rename_i t p hp
      cases h
      obtain ⟨h1, _⟩ := g.entered t p hp
      refine ⟨fun hh => by simp at hh, fun _ _ hh => by simp at hh, fun _ _ => ⟨h1, h1⟩, ?_⟩
      exact got_keep (s := s) rfl (fun r => by simp) (Or.inr fun _ x => x) g.got
    · cases h
  | answer r =>
    simp only [step] at h
    split at h
    · rename_i t hp
      obtain ⟨h1, h2⟩ := g.running t hp
      have key : ∀ x : Id, ∀ id : Id, id.transitional = true ∨ id = s.real → id.transitional = true ∨ id = x := by
        intro x id hid
        rcases hid with hid | hid
        · exact Or.inl hid
        · exact Or.inl (by rw [hid]; exact h1)
      split at h
      · rename_i gl hg
        cases h
        refine ⟨fun _ => ⟨goal_primary hg, Or.inr h2⟩, fun _ _ hh => by simp at hh, fun _ hh => by simp at hh, ?_⟩
        exact got_keep (s := s) rfl (fun r => by simp) (Or.inr (key _)) g.got
      · cases h
        refine ⟨fun hh => by simp at hh, fun _ _ _ => ⟨rfl, Or.inr h2⟩, fun _ hh => by simp at hh, ?_⟩
        exact got_keep (s := s) rfl (fun r => by simp) (Or.inr (key _)) g.got
    · cases h
  | refresh =>
    simp only [step] at h
    split at h
    · rename_i hp
      cases h
      obtain ⟨h1, _⟩ := g.idle hp
      refine ⟨fun _ => ⟨h1, Or.inl rfl⟩, ?_, ?_, ?_⟩
      · intro t p hh; rw [hp] at hh; cases hh
      · intro t hh; rw [hp] at hh; cases hh
      · exact got_keep (s := s) rfl (fun r => by simp) (Or.inr fun _ x => x) g.got
    · cases h
  | load r =>
    simp only [step] at h
    split at h
    · split at h
      · cases h
        refine ⟨g.idle, g.entered, g.running, ?_⟩
        intro i id hi
        simp only [St.setRd] at hi
        split at hi
        · cases hi
        · exact got_keep (s := s) (s' := s) rfl (fun r => by simp) (Or.inr fun _ x => x) g.got i id hi
      · cases h
        exact ⟨g.idle, g.entered, g.running, got_keep (s := s) rfl (fun r => by simp) (Or.inr fun _ x => x) g.got⟩
    · cases h
  | read r =>
    simp only [step] at h
    split at h
    · cases h
      refine ⟨g.idle, g.entered, g.running, ?_⟩
      intro i id hi
      simp only [St.setRd] at hi
      split at hi
      · rename_i hir
        cases hi
        exact ⟨es, [], by rw [hir], by simp, fun _ => Or.inr rfl⟩
      · exact got_keep (s := s) (s' := s) rfl (fun r => by simp) (Or.inr fun _ x => x) g.got i id hi
    · cases h
  | put r =>
    simp only [step] at h
    split at h
    · rename_i id hid
      cases h
      obtain ⟨pre, mid, he, hm, hcc⟩ := g.got r id hid
      have hv : id.transitional = true ∨ id = s.real := hcc (hc pre mid [] r (by rw [he, List.append_assoc, List.cons_append]) hm)
      refine ⟨?_, ?_, ?_, ?_⟩
      · intro hp
        obtain ⟨h1, _⟩ := g.idle hp
        exact ⟨h1, hv.symm⟩
      · intro t p hp
        obtain ⟨h1, _⟩ := g.entered t p hp
        refine ⟨h1, Or.inr ?_⟩
        rcases hv with hv | hv
        · exact hv
        · show id.transitional = true
          rw [hv]; exact h1
      · intro t hp
        obtain ⟨h1, _⟩ := g.running t hp
        refine ⟨h1, ?_⟩
        rcases hv with hv | hv
        · exact hv
        · show id.transitional = true
          rw [hv]; exact h1
      · intro i id' hi
        simp only [St.setRd] at hi
        split at hi
        · cases hi
        · rename_i hir
          obtain ⟨pre', mid', he', hm', hc'⟩ := g.got i id' hi
          refine ⟨pre', mid' ++ [Ev.put r], by rw [he']; simp, ?_, ?_⟩
          · intro hmem
            rcases List.mem_append.mp hmem with h1 | h1
            · exact hm' h1
            · have := List.mem_singleton.mp h1
              cases this
              exact hir rfl
          · intro hn
            exact hc' fun t hmem => hn t (List.mem_append.mpr (Or.inl hmem))
    · cases h

theorem good_run (es : List Ev) : ∀ s os, Calm es → run init es = some (s, os) → Good es s := by
  induction es using List.reverseRecOn with
  | nil =>
    intro s os _ h
    cases h
    exact
      { idle := fun _ => ⟨rfl, Or.inl rfl⟩
        entered := fun _ _ hh => nomatch hh
        running := fun _ hh => nomatch hh
        got := fun _ _ hh => nomatch hh }
  | append_singleton es e ih =>
    intro s os hc h
    rw [run_snoc] at h
    cases h1 : run init es with
    | none => rw [h1] at h; cases h
    | some p =>
      obtain ⟨s1, o1⟩ := p
      rw [h1] at h
      cases h2 : step s1 e with
      | none => simp [h2] at h
      | some q =>
        obtain ⟨s2, o2⟩ := q
        simp only [Option.bind_some, h2, Option.map_some, Option.some.injEq, Prod.mk.injEq] at h
        rw [← h.1]
        exact good_step hc (ih s1 o1 hc.init h1) h2


/-! ## The property -/

/-- After every calm history, with no transition in progress, `get_lifecycle_id` answers the state of the controller; so the controller
manager takes it for active, inactive or unconfigured exactly if it is, and a change of its chained mode is refused exactly if it is
active (or refuses itself). -/
theorem C84_rest_partial {es : List Ev} {s : St} {os : List Id} (hc : Calm es) (h : run init es = some (s, os)) (hi : s.phase = .idle) :
    get s = s.real ∧ (isActive s = true ↔ s.real = .active) ∧ (isInactive s = true ↔ s.real = .inactive) ∧
      (isUnconfigured s = true ↔ s.real = .unconfigured) ∧ ∀ own, setChained s own = true ↔ own = true ∧ s.real ≠ .active := by
  have hg : get s = s.real := by
    obtain ⟨_, h2⟩ := (good_run es s os hc h).idle hi
    unfold get
    rcases h2 with h2 | h2
    · by_cases ht : s.cache.transitional = true
      · rw [if_pos ht]
      · rw [if_neg ht, h2]
    · rw [if_pos h2]
  refine ⟨hg, ?_, ?_, ?_, ?_⟩
  · simp [isActive, hg]
  · simp [isInactive, hg]
  · simp [isUnconfigured, hg]
  · intro own
    by_cases ha : s.real = .active
    · simp [setChained, hg, ha]
    · simp [setChained, hg, ha]

/-- Whenever a reader is answered, in a calm history: if the answer is a primary state, it is the state of the controller at that
moment, or the one a transition in progress has just left, whose callback has not begun. (The answer of a reader that was interrupted
may be a transitional state that is over.) -/
theorem C84_answers_partial {es : List Ev} {e : Ev} {s s' : St} {os : List Id} {a : Id} (hc : Calm (es ++ [e]))
    (h : run init es = some (s, os)) (ha : step s e = some (s', some a)) :
    a.transitional = true ∨ a = s.real ∨ ∃ t, s.phase = .entered t a := by
  have g := good_run es s os hc.init h
  cases e with
  | enter t => simp only [step] at ha; split at ha <;> cases ha
  | store => simp only [step] at ha; split at ha <;> cases ha
  | answer r =>
    simp only [step] at ha
    split at ha
    · split at ha <;> cases ha
    · cases ha
  | refresh => simp only [step] at ha; split at ha <;> cases ha
  | load r =>
    simp only [step] at ha
    split at ha
    · split at ha
      · cases ha
      · rename_i hn
        cases ha
        cases hp : s.phase with
        | idle =>
          rcases (g.idle hp).2 with h2 | h2
          · exact Or.inr (Or.inl h2)
          · exact Or.inl h2
        | entered t p =>
          rcases (g.entered t p hp).2 with h2 | h2
          · exact Or.inr (Or.inr ⟨t, by rw [h2]⟩)
          · exact Or.inl h2
        | running t => exact Or.inl (g.running t hp).2
    · cases ha
  | read r => simp only [step] at ha; split at ha <;> cases ha
  | put r =>
    simp only [step] at ha
    split at ha
    · rename_i id hid
      cases ha
      obtain ⟨pre, mid, he, hm, hcc⟩ := g.got r a hid
      rcases hcc (hc pre mid [] r (by rw [he, List.append_assoc, List.cons_append]) hm) with h1 | h1
      · exact Or.inl h1
      · exact Or.inr (Or.inl h1)
    · cases ha

/-- Every reader that reads the node's state stores it at once: no reads run beside the transitions. -/
def Sequential (es : List Ev) : Prop :=
  ∀ (pre post : List Ev) (r : Nat), es = pre ++ Ev.read r :: post → post = [] ∨ ∃ post', post = Ev.put r :: post'

/-- So a controller manager that reads and changes the states of its controllers in one thread, or under one lock, always sees the
states they are in. -/
theorem C84_sequential {es : List Ev} (hs : Sequential es) : Calm es := by
  intro pre mid post r he hm t ht
  rcases hs pre (mid ++ Ev.put r :: post) r (by rw [he, List.append_assoc, List.cons_append]) with h | ⟨post', h⟩
  · simp at h
  · cases mid with
    | nil => cases ht
    | cons a mid =>
      simp only [List.cons_append, List.cons.injEq] at h
      exact hm (by rw [h.1]; simp)

/-- A `get_lifecycle_id` that nothing interrupts is `get`, and leaves the state of the controller alone; a second one answers the
same. -/
theorem C84_get {s : St} {r : Nat} (h : s.rd r = .out) :
    ∃ s', (run s [.load r] = some (s', [get s]) ∨ run s [.load r, .read r, .put r] = some (s', [get s])) ∧
      s'.real = s.real ∧ s'.phase = s.phase ∧ get s' = get s := by
  by_cases ht : s.cache.transitional = true
  · refine ⟨{ (s.setRd r .loaded).setRd r (.got s.real) with cache := s.real }.setRd r .out, Or.inr ?_, rfl, rfl, ?_⟩
    · simp [run, step, h, ht, get, St.setRd]
    · simp only [get, ht, St.setRd, if_true]
      exact ite_self _
  · exact ⟨s, Or.inl (by simp [run, step, h, ht, get]), rfl, rfl, rfl⟩

/-- Whatever the copy says: after a transition that no reader interferes with, it is right again. -/
theorem C84_next_transition {s : St} {t : Tr} {r : Ret} {s' : St} {os : List Id}
    (h : run s [.enter t, .store, .answer r] = some (s', os)) (hi : s'.phase = .idle) :
    get s' = s'.real := by
  by_cases hg : s.phase = .idle ∧ t.from? s.real = true
  · cases hgo : t.goal r with
    | none =>
      simp only [run, step, if_pos hg, hgo] at h
      cases h
      cases hi
    | some g =>
      simp only [run, step, if_pos hg, hgo] at h
      cases h
      simp [get, during_transitional]
  · simp [run, step, if_neg hg] at h

/-! ## It is false in general -/

/-- The property, for all histories. -/
def C84_claim : Prop :=
  ∀ (es : List Ev) (s : St) (os : List Id), run init es = some (s, os) → s.phase = .idle → get s = s.real

/-- The controller is configured and activated; a reader loads the copy, which says `activating`, and reads that the node is active;
before it stores this, the controller is deactivated. -/
def badHistory : List Ev :=
  [.enter .configure, .store, .answer .success, .refresh, .enter .activate, .store, .answer .success, .load 0, .read 0,
   .enter .deactivate, .store, .answer .success, .put 0]

/-- Once wrong, the copy stays wrong however often it is read, by however many readers, until the next transition: every answer is the
wrong one. -/
theorem C84_stuck {s : St} (hout : ∀ r, s.rd r = .out) (hp : s.cache.transitional = false) (es : List Ev)
    (hr : ∀ e ∈ es, e.ofReader = true) : ∀ s' os, run s es = some (s', os) → s' = s ∧ ∀ a ∈ os, a = s.cache := by
  induction es with
  | nil => intro s' os h; cases h; exact ⟨rfl, fun _ ha => by cases ha⟩
  | cons e es ih =>
    intro s' os h
    unfold run at h
    have hstep : ∀ s1 o, step s e = some (s1, o) → s1 = s ∧ o = some s.cache := by
      intro s1 o h1
      have := hr e (by simp)
      cases e with
      | load r =>
        simp only [step, hout r, hp] at h1
        cases h1
        exact ⟨rfl, rfl⟩
      | read r => simp [step, hout r] at h1
      | put r => simp [step, hout r] at h1
      | enter t => simp [Ev.ofReader] at this
      | store => simp [Ev.ofReader] at this
      | answer r => simp [Ev.ofReader] at this
      | refresh => simp [Ev.ofReader] at this
    cases h1 : step s e with
    | none => rw [h1] at h; cases h
    | some q =>
      obtain ⟨s1, o⟩ := q
      obtain ⟨e1, e2⟩ := hstep s1 o h1
      rw [h1] at h
      subst e1
      subst e2
      simp only at h
      cases h2 : run s1 es with
      | none => rw [h2] at h; cases h
      | some p =>
        obtain ⟨s2, os2⟩ := p
        rw [h2] at h
        cases h
        obtain ⟨k1, k2⟩ := ih (fun e he => hr e (by simp [he])) _ _ h2
        refine ⟨k1, ?_⟩
        intro a ha
        rcases List.mem_cons.mp ha with ha | ha
        · exact ha
        · exact k2 a ha

/-- The state after `badHistory`: an inactive controller that the controller manager takes for active, whose chained mode it cannot
change, and this for any number of reads to come. -/
theorem C84_false : ¬ C84_claim ∧ ∃ s os, run init badHistory = some (s, os) ∧ s.phase = .idle ∧ s.real = .inactive ∧
    isActive s = true ∧ isInactive s = false ∧ (∀ own, setChained s own = false) ∧
    ∀ es s' os', (∀ e ∈ es, e.ofReader = true) → run s es = some (s', os') → isActive s' = true ∧ s'.real = .inactive ∧
      ∀ a ∈ os', a = Id.active := by
  obtain ⟨s, hs⟩ : ∃ s, s = (((init.setRd 0 .loaded).setRd 0 (.got .active)).setRd 0 .out) := ⟨_, rfl⟩
  have hrun : run init badHistory = some ({ s with real := .inactive, cache := .active }, [.active]) := by
    rw [hs]
    rfl
  have hout : ∀ r, s.rd r = .out := by
    intro r
    rw [hs]
    simp only [St.setRd, init]
    split <;> rfl
  have hph : s.phase = .idle := by rw [hs]; rfl
  refine ⟨?_, _, _, hrun, hph, rfl, rfl, rfl, fun _ => rfl, ?_⟩
  · intro hc
    have := hc _ _ _ hrun hph
    cases this
  · intro es s' os' hr h
    obtain ⟨k1, k2⟩ := C84_stuck (s := { s with real := .inactive, cache := .active }) hout rfl es hr s' os' h
    rw [k1]
    exact ⟨rfl, rfl, k2⟩

/-- A check for calm histories, for the example below. -/
def calmB : List Ev → Bool
  | [] => true
  | .read r :: es => (es.takeWhile (fun e => decide (e ≠ .put r))).all (fun e => match e with | .enter _ => false | _ => true) && calmB es
  | _ :: es => calmB es

theorem calmB_cons {e : Ev} {es : List Ev} (h : calmB (e :: es) = true) : calmB es = true := by
  cases e with
  | read r => unfold calmB at h; exact (Bool.and_eq_true _ _ ▸ h).2
  | _ => exact h

theorem calmB_sound (es : List Ev) (h : calmB es = true) : Calm es := by
  induction es with
  | nil => intro pre mid post r he; simp at he
  | cons e es ih =>
    intro pre mid post r he hm t ht
    cases pre with
    | cons a pre =>
      simp only [List.cons_append, List.cons.injEq] at he
      exact ih (calmB_cons h) pre mid post r (by rw [he.2]) hm t ht
    | nil =>
      simp only [List.nil_append, List.cons_append, List.cons.injEq] at he
      rw [he.1, he.2] at h
      unfold calmB at h
      have h1 := (Bool.and_eq_true _ _ ▸ h).1
      rw [List.takeWhile_append_of_pos (by intro x hx; exact decide_eq_true (fun hxe => hm (hxe ▸ hx)))] at h1
      rw [List.all_append] at h1
      have h2 := List.all_eq_true.mp (Bool.and_eq_true _ _ ▸ h1).1 _ ht
      cases h2

/-- Not vacuous: a calm history with two readers, one of which spans the end of a transition, at the end of which the controller is
active. -/
example : ∃ es s os, Calm es ∧ run init es = some (s, os) ∧ s.phase = .idle ∧ s.real = .active ∧
    os = [.unconfigured, .inactive, .activating, .active] := by
  refine ⟨[.load 0, .enter .configure, .store, .answer .success, .load 1, .read 1, .put 1, .enter .activate, .store, .load 0, .read 0,
    .answer .success, .put 0, .load 1, .read 1, .put 1], _, _, ?_, rfl, rfl, rfl, rfl⟩
  exact calmB_sound _ (by decide)

end Lc
end Verif
