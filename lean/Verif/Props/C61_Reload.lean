import Verif.CM.Reload
import Verif.Props.C06_C10_Controllers
/-!
# C61: `reload_controller_libraries`

`cm.reload o force evs` is a call that begins in the state `cm`, with the events `evs` (cycles of the real-time loop,
progress of the call, a timeout of its switch) in any order; its second component says whether the call has answered.
-/
namespace Verif
open CM

theorem CM.reloadBegin_run (o : Oracle) (cm : CM) (hp : cm.pending = false) (force : Bool) :
    ∃ ops, (cm.reloadBegin o force).1 = CM.run o cm ops := by
  unfold reloadBegin
  dsimp only
  split
  · exact ⟨[], rfl⟩
  split
  · exact ⟨[], rfl⟩
  have h1 : ∃ ops, (cm.switchBegin o [] ((cm.ctls.filter (fun c => c.lc = .active)).map (·.name)) .bestEffort false).1 =
      CM.run o cm ops :=
    ⟨[.switchBegin [] ((cm.ctls.filter (fun c => c.lc = .active)).map (·.name)) .bestEffort false],
      by simp [CM.run, CM.step, hp]⟩
  split <;> exact h1

theorem CM.reloadStep_run (o : Oracle) (s : CM × Rl) (e : RlEv) :
    ∃ ops, (reloadStep o s e).1 = CM.run o s.1 ops := by
  cases e with
  | read sc => exact ⟨[.read sc], rfl⟩
  | update due lock => exact ⟨[.update due lock], rfl⟩
  | write sc => exact ⟨[.write sc], rfl⟩
  | go =>
    unfold reloadStep
    obtain ⟨cm, r⟩ := s
    cases r with
    | done b => exact ⟨[], rfl⟩
    | stopping l =>
      simp only [reloadGo]
      have : ∃ ops, (cm.switchWake o).1 = CM.run o cm ops := ⟨[.switchWake], rfl⟩
      split <;> exact this
    | unloading l =>
      cases l with
      | nil => exact ⟨[], rfl⟩
      | cons n t =>
        simp only [reloadGo]
        have : ∃ ops, (cm.unload o n).1 = CM.run o cm ops := ⟨[.unload n], rfl⟩
        split <;> exact this
  | timeout =>
    unfold reloadStep
    dsimp only
    split
    · split
      · exact ⟨[.switchTimeout], rfl⟩
      · exact ⟨[], rfl⟩
    · exact ⟨[], rfl⟩

theorem CM.run_append (o : Oracle) (cm : CM) (a b : List Op) : CM.run o (CM.run o cm a) b = CM.run o cm (a ++ b) := by
  simp [CM.run]

/-- Whatever a call of `reload_controller_libraries` does is a history of the manager. -/
theorem CM.reload_run (o : Oracle) (cm : CM) (hp : cm.pending = false) (force : Bool) (evs : List RlEv) :
    ∃ ops, (cm.reload o force evs).1 = CM.run o cm ops := by
  unfold reload
  induction evs using List.reverseRecOn with
  | nil => exact reloadBegin_run o cm hp force
  | append_singleton t e ih =>
    obtain ⟨a, ha⟩ := ih
    obtain ⟨b, hb⟩ := reloadStep_run o (t.foldl (reloadStep o) (cm.reloadBegin o force)) e
    refine ⟨a ++ b, ?_⟩
    rw [List.foldl_append, List.foldl_cons, List.foldl_nil, hb, ha, run_append]

theorem CM.Reach.reload {o : Oracle} {cm : CM} (hr : Reach o cm) (hp : cm.pending = false) (force : Bool)
    (evs : List RlEv) : Reach o (cm.reload o force evs).1 := by
  obtain ⟨ops, h⟩ := reload_run o cm hp force evs
  rw [h]
  obtain ⟨a, b, sp, l, rfl⟩ := hr
  exact ⟨a, b, sp, l ++ ops, by rw [run_append]⟩

/-- The names that may still be loaded. -/
def CM.Rl.left : Rl → List Name → Prop
  | .stopping l, names => names ⊆ l
  | .unloading l, names => names ⊆ l
  | .done true, names => names = []
  | .done false, _ => True

theorem CM.names_calm (o : Oracle) {cm : CM} (hr : Reach o cm) (op : Op) (h : op.calm = true) :
    (cm.step o op).ctls.map (·.name) = cm.ctls.map (·.name) :=
  names_of_stat (step_stat o hr.inv op h)

theorem CM.reloadBegin_left (o : Oracle) {cm : CM} (hr : Reach o cm) (hp : cm.pending = false) (force : Bool) :
    (cm.reloadBegin o force).2.left ((cm.reloadBegin o force).1.ctls.map (·.name)) := by
  unfold reloadBegin
  dsimp only
  split
  · trivial
  split
  · rename_i h; exact h
  have h1 := names_calm o hr (.switchBegin [] ((cm.ctls.filter (fun c => c.lc = .active)).map (·.name)) .bestEffort false) rfl
  simp only [CM.step, hp, Bool.false_eq_true, if_false] at h1
  split
  · simp only [Rl.left]; rw [h1]; exact fun _ h => h
  · simp only [Rl.left]; rw [h1]; exact fun _ h => h
  · trivial

theorem CM.reloadStep_left (o : Oracle) (s : CM × Rl) (hr : Reach o s.1) (e : RlEv)
    (h : s.2.left (s.1.ctls.map (·.name))) :
    (reloadStep o s e).2.left ((reloadStep o s e).1.ctls.map (·.name)) := by
  cases e with
  | read sc => have := names_calm o hr (.read sc) rfl; simp only [reloadStep]; simp only [CM.step] at this; rw [this]; exact h
  | update due lock =>
    have := names_calm o hr (.update due lock) rfl; simp only [reloadStep]; simp only [CM.step] at this; rw [this]; exact h
  | write sc => have := names_calm o hr (.write sc) rfl; simp only [reloadStep]; simp only [CM.step] at this; rw [this]; exact h
  | go =>
    unfold reloadStep
    obtain ⟨cm, r⟩ := s
    cases r with
    | done b => exact h
    | stopping l =>
      have hn := names_calm o hr .switchWake rfl
      simp only [CM.step] at hn
      simp only [Rl.left] at h
      simp only [reloadGo]
      split
      · simp only [Rl.left]; rw [hn]; exact h
      · simp only [Rl.left]; rw [hn]; exact h
      · trivial
    | unloading l =>
      simp only [Rl.left] at h
      cases l with
      | nil => simp only [reloadGo, Rl.left]; exact List.subset_nil.1 h
      | cons n t =>
        simp only [reloadGo]
        split
        · rename_i hok
          simp only [Rl.left]
          rw [C08_unload_ok o cm n hok]
          intro m hm
          obtain ⟨c, hc, rfl⟩ := List.mem_map.1 hm
          obtain ⟨hc1, hc2⟩ := List.mem_filter.1 hc
          have := h (List.mem_map.2 ⟨c, hc1, rfl⟩)
          rcases List.mem_cons.1 this with e | e
          · simp [e] at hc2
          · exact e
        · trivial
  | timeout =>
    unfold reloadStep
    dsimp only
    split
    · split
      · trivial
      · rename_i heq _; simpa [heq] using h
    · exact h

theorem CM.reload_left (o : Oracle) {cm : CM} (hr : Reach o cm) (hp : cm.pending = false) (force : Bool) (evs : List RlEv) :
    (cm.reload o force evs).2.left ((cm.reload o force evs).1.ctls.map (·.name)) := by
  induction evs using List.reverseRecOn with
  | nil => exact reloadBegin_left o hr hp force
  | append_singleton t e ih =>
    have h1 := hr.reload hp force t
    have e1 : cm.reload o force (t ++ [e]) = reloadStep o (cm.reload o force t) e := by
      unfold CM.reload; rw [List.foldl_append, List.foldl_cons, List.foldl_nil]
    rw [e1]
    exact reloadStep_left o _ h1 e ih

/-- **C61 (`ok` means that nothing is loaded).** If `reload_controller_libraries` answers `ok = true`, whatever the
real-time loop and the plugins did meanwhile, no controller is loaded any more (the assertion before the libraries are
replaced holds) and no command interface of a hardware component is claimed. -/
theorem C61_ok_means_empty (o : Oracle) (cm : CM) (hr : Reach o cm) (hp : cm.pending = false) (force : Bool)
    (evs : List RlEv) (h : (cm.reload o force evs).2 = .done true) :
    (cm.reload o force evs).1.ctls = [] ∧
    ∀ w ∈ (cm.reload o force evs).1.rm.comps, ∀ i ∈ w.cmdItfs, (cm.reload o force evs).1.rm.claimed i ≠ some true := by
  have h1 := reload_left o hr hp force evs
  rw [h] at h1
  simp only [Rl.left, List.map_eq_nil_iff] at h1
  refine ⟨h1, ?_⟩
  intro w hw i hi hc
  obtain ⟨c, hc, _⟩ := (C06_hardware_single_holder o _ (hr.reload hp force evs) w hw i hi).1.1 hc
  rw [h1] at hc; simp at hc

/-- **C61 (without force nothing is stopped).** Without `force_kill`, if some controller is active the call answers
`ok = false` at once and changes nothing. -/
theorem C61_refused (o : Oracle) (cm : CM) (c : Ctl) (hc : c ∈ cm.ctls) (ha : c.lc = .active) :
    cm.reloadBegin o false = (cm, .done false) := by
  unfold reloadBegin
  dsimp only
  rw [if_pos]
  refine ⟨?_, rfl⟩
  intro h
  have := List.map_eq_nil_iff.1 h
  have h2 : c ∈ cm.ctls.filter (fun c => c.lc = .active) := List.mem_filter.2 ⟨hc, by simp [ha]⟩
  rw [this] at h2; simp at h2

/-- **C61 (an answer is final).** Once the call has answered, its answer does not change. -/
theorem C61_answer_final (o : Oracle) (cm : CM) (force : Bool) (evs more : List RlEv) (b : Bool)
    (h : (cm.reload o force evs).2 = .done b) : (cm.reload o force (evs ++ more)).2 = .done b := by
  have e1 : cm.reload o force (evs ++ more) = more.foldl (reloadStep o) (cm.reload o force evs) := by
    unfold CM.reload; rw [List.foldl_append]
  rw [e1]
  generalize cm.reload o force evs = s at h
  clear e1
  induction more generalizing s with
  | nil => exact h
  | cons e t ih =>
    refine ih _ ?_
    cases e <;> simp [reloadStep, reloadGo, h]

theorem CM.finalized_run (o : Oracle) {cm : CM} (I : Inv cm) (n : Name) (h : cm.lcOf n = some .finalized) (ops : List Op) :
    (CM.run o cm ops).lcOf n = some .finalized := by
  induction ops generalizing cm with
  | nil => exact h
  | cons op t ih => exact ih (inv_step o I op) (finalized_step o I n h op)

/-- **C61 (finalized controllers).** A controller that is finalized stays loaded and finalized in every later history,
and `unload_controller` of it always fails. -/
theorem C61_finalized_never_unloaded (o : Oracle) (cm : CM) (hr : Reach o cm) (n : Name)
    (h : cm.lcOf n = some .finalized) (ops : List Op) :
    (CM.run o cm ops).lcOf n = some .finalized ∧ ((CM.run o cm ops).unload o n).2 = .error := by
  have h1 := finalized_run o hr.inv n h ops
  refine ⟨h1, ?_⟩
  have hr' : Reach o (CM.run o cm ops) := by
    obtain ⟨a, b, sp, l, rfl⟩ := hr
    exact ⟨a, b, sp, l ++ ops, by rw [run_append]⟩
  generalize CM.run o cm ops = x at h1 hr'
  unfold CM.lcOf at h1
  obtain ⟨c, hf, hl⟩ := Option.map_eq_some_iff.1 h1
  unfold unload CM.cleanup
  split
  · rfl
  · rename_i hp
    simp only [hf, hl]
    simp

/-- **C61 (finalized controllers block the reload).** Once a controller is finalized, no later call of
`reload_controller_libraries` answers `ok = true`, with or without force. -/
theorem C61_finalized_blocks (o : Oracle) (cm : CM) (hr : Reach o cm) (n : Name) (h : cm.lcOf n = some .finalized)
    (ops : List Op) (hp : (CM.run o cm ops).pending = false) (force : Bool) (evs : List RlEv) :
    ((CM.run o cm ops).reload o force evs).2 ≠ .done true := by
  intro hd
  have hr' : Reach o (CM.run o cm ops) := by
    obtain ⟨a, b, sp, l, rfl⟩ := hr
    exact ⟨a, b, sp, l ++ ops, by rw [run_append]⟩
  have h0 := (C61_ok_means_empty o _ hr' hp force evs hd).1
  obtain ⟨l, hl⟩ := reload_run o (CM.run o cm ops) hp force evs
  rw [hl, run_append] at h0
  have h1 := finalized_run o hr.inv n h (ops ++ l)
  unfold CM.lcOf CM.find at h1
  rw [h0] at h1
  simp at h1


/-! ## A reload that succeeds -/

theorem CM.deactivateAll_none (o : Oracle) (cm : CM) (l : List Name) (h : ∀ c ∈ cm.ctls, c.lc ≠ .active) :
    cm.deactivateAll o l = cm := by
  unfold deactivateAll
  induction l with
  | nil => rfl
  | cons n t ih =>
    have : cm.deactivateOne o n = cm := by
      unfold deactivateOne
      split
      · rfl
      · rename_i c hc
        rw [if_neg (h c (find_some hc).1)]
    rw [List.foldl_cons, this]
    exact ih

theorem CM.modeChange_frame (o : Oracle) (cm : CM) (a d : List Name) :
    (cm.modeChange o a d).ctls = cm.ctls ∧ (cm.modeChange o a d).pending = cm.pending := by
  unfold modeChange prepareAndPerform
  dsimp only
  split
  · exact ⟨rfl, rfl⟩
  · split <;> exact ⟨rfl, rfl⟩

/-- Without active controllers, and without a waiting switch, the real-time loop does not touch the controllers. -/
theorem CM.rt_quiet (o : Oracle) {cm : CM} (hr : Reach o cm) (hp : cm.pending = false)
    (h : ∀ c ∈ cm.ctls, c.lc ≠ .active) :
    (∀ s, (cm.rtRead o s).ctls = cm.ctls ∧ (cm.rtRead o s).pending = false) ∧
    (∀ d b, ((cm.rtUpdate o d b).1).ctls = cm.ctls ∧ ((cm.rtUpdate o d b).1).pending = false) ∧
    (∀ s, (cm.rtWrite o s).ctls = cm.ctls ∧ (cm.rtWrite o s).pending = false) := by
  have hmd : ∀ (rm : RM) (l : List Name),
      ((({ cm with rm := rm } : CM).modeChange o [] l).deactivateAll o l).ctls = cm.ctls ∧
      ((({ cm with rm := rm } : CM).modeChange o [] l).deactivateAll o l).pending = false := by
    intro rm l
    obtain ⟨e1, e2⟩ := modeChange_frame o ({ cm with rm := rm } : CM) [] l
    rw [deactivateAll_none]
    · exact ⟨e1, e2.trans hp⟩
    · rw [e1]; exact h
  refine ⟨?_, ?_, ?_⟩
  · intro s
    unfold rtRead
    dsimp only
    split
    · exact hmd _ _
    · exact ⟨rfl, hp⟩
  · intro d b
    have hu : ∀ l : List Ctl, (∀ c ∈ l, c.lc ≠ .active) → updateLoop o d l cm [] .ok = (cm, [], .ok) := by
      intro l
      induction l with
      | nil => intro _; rfl
      | cons c t ih =>
        intro hl
        unfold updateLoop
        rw [if_neg]
        · exact ih (fun c hc => hl c (by simp [hc]))
        · unfold runs; simp [hl c (by simp)]
    unfold rtUpdate
    rw [hu cm.ctls h]
    simp only [handleFailed, if_true, (hr.idle hp).idle, Bool.false_eq_true, if_false]
    exact ⟨trivial, hp⟩
  · intro s
    unfold rtWrite
    dsimp only
    split
    · exact ⟨rfl, hp⟩
    · exact hmd _ _
    · exact hmd _ _

theorem CM.switchBegin_nothing (o : Oracle) (cm : CM) (asap : Bool) :
    (cm.switchBegin o [] [] .bestEffort asap).2 = .done .ok ∧
    (cm.switchBegin o [] [] .bestEffort asap).1.ctls = cm.ctls ∧
    (cm.switchBegin o [] [] .bestEffort asap).1.pending = cm.pending := by
  have hp : ∀ (l : List Ctl) (x : CM), x.sw.deact = [] → x.propagate l = x := by
    intro l
    induction l with
    | nil => intro x _; rfl
    | cons c t ih =>
      intro x hx
      unfold propagate
      rw [if_neg (by rw [hx]; simp)]
      exact ih x hx
  unfold switchBegin
  simp only [listControllers, List.foldl_nil, if_true]
  unfold validate
  dsimp only
  rw [hp _ _ rfl]
  simp only [actLoop, deactLoop, Bool.true_eq_false, if_false, and_self, if_true]
  exact ⟨trivial, rfl, rfl⟩

/-- The call is unloading controllers that can all be unloaded. -/
structure CM.Unloads (o : Oracle) (cm : CM) (todo : List Name) : Prop where
  reach : Reach o cm
  idle : cm.pending = false
  names : cm.ctls.map (·.name) = todo
  state : ∀ c ∈ cm.ctls, c.lc = .unconfigured ∨ c.lc = .inactive

theorem CM.Unloads.quiet {o : Oracle} {cm : CM} {todo : List Name} (h : cm.Unloads o todo) :
    ∀ c ∈ cm.ctls, c.lc ≠ .active := by
  intro c hc e
  rcases h.state c hc with g | g <;> rw [g] at e <;> simp at e

theorem CM.Unloads.frame {o : Oracle} {cm cm' : CM} {todo : List Name} (h : cm.Unloads o todo) (hr : Reach o cm')
    (hf : cm'.ctls = cm.ctls ∧ cm'.pending = false) : cm'.Unloads o todo :=
  ⟨hr, hf.2, by rw [hf.1]; exact h.names, by rw [hf.1]; exact h.state⟩

/-- The progress events. -/
def CM.RlEv.isGo : RlEv → Bool
  | .go => true
  | _ => false

theorem CM.Unloads.done {o : Oracle} (ho : ∀ tr n, o.ctlCb tr n .cleanup = .success) :
    ∀ (evs : List RlEv) (cm : CM) (todo : List Name), cm.Unloads o todo → todo.length < evs.countP RlEv.isGo →
      (evs.foldl (reloadStep o) (cm, .unloading todo)).2 = .done true
  | [], cm, todo, _, hl => by simp at hl
  | e :: t, cm, todo, h, hl => by
    have hq := rt_quiet o h.reach h.idle h.quiet
    rw [List.foldl_cons]
    cases e with
    | read s =>
      exact Unloads.done ho t _ todo (h.frame (h.reach.step (.read s)) (hq.1 s)) (by simpa [RlEv.isGo] using hl)
    | update d b =>
      exact Unloads.done ho t _ todo (h.frame (h.reach.step (.update d b)) (hq.2.1 d b)) (by simpa [RlEv.isGo] using hl)
    | write s =>
      exact Unloads.done ho t _ todo (h.frame (h.reach.step (.write s)) (hq.2.2 s)) (by simpa [RlEv.isGo] using hl)
    | timeout =>
      exact Unloads.done ho t cm todo h (by simpa [RlEv.isGo] using hl)
    | go =>
      cases todo with
      | nil =>
        have : ∀ (x : CM) (l : List RlEv), (l.foldl (reloadStep o) (x, .done true)).2 = .done true := by
          intro x l
          induction l generalizing x with
          | nil => rfl
          | cons e u ih => rw [List.foldl_cons]; cases e <;> simp only [reloadStep, reloadGo] <;> exact ih _
        exact this _ _
      | cons n u =>
        have hn : n ∈ cm.ctls.map (·.name) := by rw [h.names]; simp
        obtain ⟨c, hc, hcn⟩ := List.mem_map.1 hn
        have hok : (cm.unload o n).2 = .ok := by
          refine (C08_unload_ok_iff o cm h.reach n h.idle).2 ⟨c, hc, hcn, ?_⟩
          rcases h.state c hc with g | g
          · exact .inl g
          · refine .inr ⟨g, ?_⟩
            unfold cleanupSucceeds
            rw [ho]
            exact .inl rfl
        have hct := C08_unload_ok o cm n hok
        have hnd := h.reach.inv.topo.names
        rw [h.names] at hnd
        simp only [reloadStep, reloadGo, hok, if_true]
        refine Unloads.done ho t _ u ⟨h.reach.step (.unload n), ?_, ?_, ?_⟩ ?_
        · rw [(SwSame.unload o cm n).2]; exact h.idle
        · rw [hct]
          have h5 : (cm.ctls.filter (fun c => c.name ≠ n)).map (·.name) = (cm.ctls.map (·.name)).filter (· ≠ n) := by
            rw [List.filter_map]; rfl
          rw [h5, h.names]
          simp only [ne_eq, not_true_eq_false, decide_false, Bool.false_eq_true, not_false_eq_true,
            List.filter_cons_of_neg]
          apply List.filter_eq_self.2
          intro m hm
          simp only [List.nodup_cons] at hnd
          simp only [decide_not, Bool.not_eq_true', decide_eq_false_iff_not]
          rintro rfl
          exact hnd.1 hm
        · rw [hct]
          intro d hd
          exact h.state d (List.mem_filter.1 hd).1
        · rw [List.countP_cons_of_pos rfl] at hl
          simp only [List.length_cons] at hl
          omega

/-- **C61 (a reload that must succeed).** If no controller is active or finalized and no `on_cleanup` fails, the call,
with or without force, answers `ok = true` once it got to run for one step more than there are controllers, in whatever
order with the cycles of the real-time loop. -/
theorem C61_quiet_reload_succeeds (o : Oracle) (ho : ∀ tr n, o.ctlCb tr n .cleanup = .success) (cm : CM)
    (hr : Reach o cm) (hp : cm.pending = false) (hs : ∀ c ∈ cm.ctls, c.lc = .unconfigured ∨ c.lc = .inactive)
    (force : Bool) (evs : List RlEv) (hl : cm.ctls.length < evs.countP RlEv.isGo) :
    (cm.reload o force evs).2 = .done true := by
  have ha : cm.ctls.filter (fun c => c.lc = .active) = [] := by
    apply List.filter_eq_nil_iff.2
    intro c hc
    rcases hs c hc with g | g <;> simp [g]
  by_cases he : cm.ctls = []
  · have hb : cm.reload o force [] = (cm, .done true) := by
      unfold CM.reload reloadBegin
      simp [he]
    have h1 := C61_answer_final o cm force [] evs true (by rw [hb])
    simpa using h1
  · unfold CM.reload reloadBegin
    simp only [ha, List.map_nil, ne_eq, not_true_eq_false, false_and, if_false, List.map_eq_nil_iff, he]
    obtain ⟨b1, b2, b3⟩ := switchBegin_nothing o cm false
    rw [b1]
    refine Unloads.done ho evs _ _ ⟨?_, b3.trans hp, by rw [b2], by rw [b2]; exact hs⟩ (by simpa using hl)
    have := hr.step (.switchBegin [] [] .bestEffort false)
    simpa [CM.step, hp] using this

/-! ## Concrete cases and witnesses -/

/-- One cycle of the real-time loop, then `n` steps of the call. -/
def reloadRun (n : Nat) : List RlEv := .update (fun _ => true) true :: List.replicate n .go

/-- Non-vacuity: four inactive controllers; the call answers `ok` and nothing is loaded. -/
example :
    let cm := demo goodOracle []
    Reach goodOracle cm ∧ cm.pending = false ∧ (cm.ctls.map (·.lc)) = [.inactive, .inactive, .inactive, .inactive] ∧
    (cm.reload goodOracle false (reloadRun 5)).2 = .done true ∧
    (cm.reload goodOracle false (reloadRun 5)).1.ctls.map (·.name) = [] :=
  ⟨demo_reach _ _, by decide +kernel⟩

/-- Non-vacuity: with force the active controllers are stopped by the real-time loop and everything is unloaded; without
force nothing happens. -/
example :
    let cm := demo goodOracle (switchOps [100, 200, 300] [] .strict)
    (cm.reload goodOracle true (.go :: reloadRun 7)).2 = .done true ∧
    (cm.reload goodOracle true (.go :: reloadRun 7)).1.ctls.map (·.name) = [] ∧
    (cm.reload goodOracle true (.go :: reloadRun 7)).1.rm.claimed ⟨20, 0⟩ = some false ∧
    (cm.reload goodOracle false (reloadRun 7)).2 = .done false ∧
    (cm.reload goodOracle false (reloadRun 7)).1.ctls.map (·.lc) = cm.ctls.map (·.lc) := by
  decide +kernel

/-- The clean-up of controller 100 answers FAILURE. -/
def refuseCleanup100' : Oracle :=
  { goodOracle with ctlCb := fun _ n cb => if n = 100 ∧ cb = .cleanup then .failure else .success }

/-- **C61, negation: a failed reload is not undone.** One controller fails to clean up: the call answers `ok = false`, but
the active controllers have been stopped, two controllers are gone, and two others are still loaded. -/
theorem C61_failure_not_undone :
    let cm := demo refuseCleanup100' (switchOps [100, 200, 300] [] .strict)
    let s := cm.reload refuseCleanup100' true (.go :: reloadRun 7)
    Reach refuseCleanup100' cm ∧ cm.ctls.map (fun c => (c.name, c.lc)) =
      [(200, .active), (400, .inactive), (100, .active), (300, .active)] ∧
    s.2 = .done false ∧ s.1.ctls.map (fun c => (c.name, c.lc)) = [(100, .inactive), (300, .inactive)] :=
  ⟨demo_reach _ _, by decide +kernel⟩

/-- The deactivation of 300 throws and its error handling fails. -/
def finalize300 : Oracle :=
  { goodOracle with
    ctlCb := fun _ n cb => if n = 300 ∧ cb = .deactivate then .throws else .success
    ctlErr := fun _ _ => .failure }

/-- Non-vacuity of the statements about finalized controllers: a controller gets finalized by a failing deactivation;
reloading with force fails. -/
example :
    let cm := demo finalize300 (switchOps [300] [] .strict ++ switchOps [] [300] .strict)
    Reach finalize300 cm ∧ cm.pending = false ∧ cm.lcOf 300 = some .finalized ∧
    (cm.reload finalize300 true (reloadRun 7)).2 = .done false ∧
    (cm.reload finalize300 true (reloadRun 7)).1.ctls.map (·.name) = [300] :=
  ⟨demo_reach _ _, by decide +kernel⟩

end Verif
