import Verif.CM.Shutdown
/-! # The shutdown of the hardware components -/
namespace Verif
namespace RM

/-- The reasons why a component is not finalized afterwards. -/
def Excuse (n : Name) (es : List Ev) : Prop :=
  ∃ x, x ≠ .success ∧ (.hwCb n .deactivate x ∈ es ∨ .hwCb n .shutdown x ∈ es)

theorem Excuse.left {n : Name} {es : List Ev} (h : Excuse n es) (fs : List Ev) : Excuse n (fs ++ es) := by
  obtain ⟨x, h1, h | h⟩ := h
  · exact ⟨x, h1, .inl (List.mem_append_right _ h)⟩
  · exact ⟨x, h1, .inr (List.mem_append_right _ h)⟩

theorem Excuse.right {n : Name} {es : List Ev} (h : Excuse n es) (fs : List Ev) : Excuse n (es ++ fs) := by
  obtain ⟨x, h1, h | h⟩ := h
  · exact ⟨x, h1, .inl (List.mem_append_left _ h)⟩
  · exact ⟨x, h1, .inr (List.mem_append_left _ h)⟩

/-- `on_shutdown` of a component that is unconfigured or inactive. -/
theorem shutdown_evs (o : Oracle) (tr : List Ev) (h : Hw) (hl : h.lc = .unconfigured ∨ h.lc = .inactive) :
    ∃ es x, (h.shutdown o tr).2 = es ++ [.hwCb h.name .shutdown x] ++ tr ∧ (∀ e ∈ es, ∃ y, e = .hwErr h.name y) ∧
      ((h.shutdown o tr).1.lc = .finalized ∨ x ≠ .success) := by
  unfold Hw.shutdown
  rw [if_pos (by rcases hl with h | h <;> rw [h] <;> simp)]
  have he : ∀ x, ∃ es, (h.error o (.hwCb h.name .shutdown x :: tr)).2 = es ++ [.hwCb h.name .shutdown x] ++ tr ∧
      (∀ e ∈ es, ∃ y, e = .hwErr h.name y) := by
    intro x
    unfold Hw.error
    split
    · cases o.hwErr (.hwCb h.name .shutdown x :: tr) h.name with
      | success => exact ⟨[.hwErr h.name .success], rfl, by simp⟩
      | failure => exact ⟨[.hwErr h.name .failure], rfl, by simp⟩
      | error => exact ⟨[.hwErr h.name .error], rfl, by simp⟩
    · exact ⟨[], rfl, by simp⟩
  cases o.hwCb tr h.name .shutdown with
  | success => exact ⟨[], .success, rfl, by simp, .inl rfl⟩
  | failure => obtain ⟨es, h1, h2⟩ := he .failure; exact ⟨es, .failure, h1, h2, .inr (by simp)⟩
  | error => obtain ⟨es, h1, h2⟩ := he .error; exact ⟨es, .error, h1, h2, .inr (by simp)⟩
  | throws => exact ⟨[], .throws, rfl, by simp, .inr (by simp)⟩

/-- `on_deactivate` of an active component. -/
theorem deactivate_evs (o : Oracle) (tr : List Ev) (h : Hw) (hl : h.lc = .active) :
    ∃ es x, (h.deactivate o tr).2 = es ++ [.hwCb h.name .deactivate x] ++ tr ∧ (∀ e ∈ es, ∃ y, e = .hwErr h.name y) ∧
      ((h.deactivate o tr).1.lc = .inactive ↔ x = .success) ∧ (x = .success → es = []) := by
  unfold Hw.deactivate
  rw [if_pos hl]
  cases o.hwCb tr h.name .deactivate with
  | success => exact ⟨[], .success, rfl, by simp, by simp, by simp⟩
  | failure => exact ⟨[], .failure, rfl, by simp, by simp, by simp⟩
  | throws => exact ⟨[], .throws, rfl, by simp, by simp [hl], by simp⟩
  | error =>
    dsimp only
    unfold Hw.error
    rw [if_pos (by rw [hl]; simp)]
    cases o.hwErr (.hwCb h.name .deactivate .error :: tr) h.name with
    | success => exact ⟨[.hwErr h.name .success], .error, rfl, by simp, by simp, by simp⟩
    | failure => exact ⟨[.hwErr h.name .failure], .error, rfl, by simp, by simp, by simp⟩
    | error => exact ⟨[.hwErr h.name .error], .error, rfl, by simp, by simp, by simp⟩

/-- A component is asked to go to FINALIZED: what it is asked and where it ends. -/
theorem set_final (o : Oracle) {rm : RM} (I : rm.Inv) (n : Name) {a : LState} (hs : rm.stateOf n = some a) :
    ∃ b L, Eff n rm (rm.setComponentState o n .finalized).1 a b L ∧
      ((rm.setComponentState o n .finalized).2 = .ok → b = .finalized) ∧
      (b = .finalized ∨ Excuse n L) ∧
      (a = .finalized → L = []) ∧
      (a = .active → ∃ post x, L = post ++ [.hwCb n .deactivate x] ∧ ((∃ y, .hwCb n .shutdown y ∈ post) ↔ x = .success)) ∧
      (a = .unconfigured ∨ a = .inactive → ∃ post x, L = post ++ [.hwCb n .shutdown x]) := by
  obtain ⟨h, hf, hl⟩ := Option.map_eq_some_iff.1 hs
  obtain ⟨hh, hn⟩ := findHw_some hf
  have hk := I.known h hh
  have okfin : ∀ b, (rm.setHwState o h .finalized).2.1.lc = b → (rm.setComponentState o n .finalized).2 = .ok → b = .finalized := by
    intro b hb hok
    have : (rm.setHwState o h .finalized).2.2 = true := by
      unfold setComponentState at hok
      rw [hf] at hok
      simp only at hok
      by_contra hx
      rw [if_neg hx] at hok
      simp at hok
    rw [← hb]
    exact (setHwState_target o rm h .finalized this).1
  cases ha : a with
  | unknown => rw [ha] at hl; exact absurd hl hk
  | finalized =>
    have hset : rm.setHwState o h .finalized = (rm, h, true) := by unfold setHwState; rw [hl, ha]
    have T := set_self o I n .finalized hf (es := []) (by rw [hset]; rfl) (by simp)
    rw [hset, hl, ha] at T
    refine ⟨.finalized, [], ?_, fun _ => rfl, .inl rfl, fun _ => rfl, by simp, by simp⟩
    exact T.1
  | unconfigured =>
    have hset : rm.setHwState o h .finalized = rm.shutdownHw o h := by unfold setHwState; rw [hl, ha]
    obtain ⟨es, x, e1, e2, e3⟩ := shutdown_evs o rm.tr h (.inl (hl.trans ha))
    have htr : (rm.setHwState o h .finalized).1.tr = (es ++ [.hwCb n .shutdown x]) ++ rm.tr := by
      rw [hset]; unfold shutdownHw; rw [← hn, ← e1]; dsimp only; split
      · unfold resetGroup; split <;> rfl
      · rfl
    have hev : ∀ e ∈ es ++ [.hwCb n .shutdown x], e.hwName = some n := by
      intro e he
      rcases List.mem_append.1 he with he | he
      · obtain ⟨y, rfl⟩ := e2 e he; simp [Ev.hwName, hn]
      · simp at he; subst he; rfl
    have T := set_self o I n .finalized hf htr hev
    rw [hl, ha] at T
    refine ⟨_, _, T.1, okfin _ rfl, ?_, by simp, by simp, fun _ => ⟨es, x, rfl⟩⟩
    rcases e3 with h3 | h3
    · left; rw [hset]; exact h3
    · right; exact ⟨x, h3, .inr (by simp)⟩
  | inactive =>
    have hset : rm.setHwState o h .finalized = rm.shutdownHw o h := by unfold setHwState; rw [hl, ha]
    obtain ⟨es, x, e1, e2, e3⟩ := shutdown_evs o rm.tr h (.inr (hl.trans ha))
    have htr : (rm.setHwState o h .finalized).1.tr = (es ++ [.hwCb n .shutdown x]) ++ rm.tr := by
      rw [hset]; unfold shutdownHw; rw [← hn, ← e1]; dsimp only; split
      · unfold resetGroup; split <;> rfl
      · rfl
    have hev : ∀ e ∈ es ++ [.hwCb n .shutdown x], e.hwName = some n := by
      intro e he
      rcases List.mem_append.1 he with he | he
      · obtain ⟨y, rfl⟩ := e2 e he; simp [Ev.hwName, hn]
      · simp at he; subst he; rfl
    have T := set_self o I n .finalized hf htr hev
    rw [hl, ha] at T
    refine ⟨_, _, T.1, okfin _ rfl, ?_, by simp, by simp, fun _ => ⟨es, x, rfl⟩⟩
    rcases e3 with h3 | h3
    · left; rw [hset]; exact h3
    · right; exact ⟨x, h3, .inr (by simp)⟩
  | active =>
    have hset : rm.setHwState o h .finalized = andThen (rm.deactivateHw o h) (shutdownHw o) := by
      unfold setHwState; rw [hl, ha]
    obtain ⟨es, x, e1, e2, e3, e4⟩ := deactivate_evs o rm.tr h (hl.trans ha)
    by_cases hx : x = .success
    · have hd : (rm.deactivateHw o h).2.2 = true := by unfold deactivateHw; simp [e3.2 hx]
      have hset' : rm.setHwState o h .finalized = (rm.deactivateHw o h).1.shutdownHw o (rm.deactivateHw o h).2.1 := by
        rw [hset]; unfold andThen; rw [if_pos hd]
      have hdl : (rm.deactivateHw o h).2.1.lc = .inactive := e3.2 hx
      have hdn : (rm.deactivateHw o h).2.1.name = n := by rw [(frame_deactivate o rm h).good.name, hn]
      have hdt : (rm.deactivateHw o h).1.tr = [.hwCb n .deactivate .success] ++ rm.tr := by
        have : (rm.deactivateHw o h).1.tr = (h.deactivate o rm.tr).2 := rfl
        rw [this, e1, e4 hx, hx, hn]; rfl
      obtain ⟨fs, y, f1, f2, f3⟩ := shutdown_evs o (rm.deactivateHw o h).1.tr (rm.deactivateHw o h).2.1 (.inr hdl)
      have htr : (rm.setHwState o h .finalized).1.tr =
          (fs ++ [.hwCb n .shutdown y] ++ [.hwCb n .deactivate .success]) ++ rm.tr := by
        have : (rm.setHwState o h .finalized).1.tr =
            ((rm.deactivateHw o h).2.1.shutdown o (rm.deactivateHw o h).1.tr).2 := by
          rw [hset']; unfold shutdownHw; dsimp only; split
          · unfold resetGroup; split <;> rfl
          · rfl
        rw [this, f1, hdt, hdn]; simp
      have hev : ∀ e ∈ fs ++ [.hwCb n .shutdown y] ++ [.hwCb n .deactivate .success], e.hwName = some n := by
        intro e he
        rcases List.mem_append.1 he with he | he
        · rcases List.mem_append.1 he with he | he
          · obtain ⟨y, rfl⟩ := f2 e he; simp [Ev.hwName, hdn]
          · simp at he; subst he; rfl
        · simp at he; subst he; rfl
      have T := set_self o I n .finalized hf htr hev
      rw [hl, ha] at T
      refine ⟨_, _, T.1, okfin _ rfl, ?_, by simp, fun _ => ⟨_, .success, rfl, by simp⟩, by simp⟩
      rcases f3 with h3 | h3
      · left; rw [hset']; exact h3
      · right; exact ⟨y, h3, .inr (by simp)⟩
    · have hd : (rm.deactivateHw o h).2.2 = false := by
        unfold deactivateHw
        simp only [decide_eq_false_iff_not]
        exact fun h => hx (e3.1 h)
      have hset' : rm.setHwState o h .finalized = rm.deactivateHw o h := by
        rw [hset]; unfold andThen; rw [if_neg (by rw [hd]; simp)]
      have htr : (rm.setHwState o h .finalized).1.tr = (es ++ [.hwCb n .deactivate x]) ++ rm.tr := by
        have : (rm.setHwState o h .finalized).1.tr = (h.deactivate o rm.tr).2 := by rw [hset']; rfl
        rw [this, e1, hn]
      have hev : ∀ e ∈ es ++ [.hwCb n .deactivate x], e.hwName = some n := by
        intro e he
        rcases List.mem_append.1 he with he | he
        · obtain ⟨y, rfl⟩ := e2 e he; simp [Ev.hwName, hn]
        · simp at he; subst he; rfl
      have T := set_self o I n .finalized hf htr hev
      rw [hl, ha] at T
      refine ⟨_, _, T.1, okfin _ rfl, .inr ⟨x, hx, .inl (by simp)⟩, by simp, fun _ => ⟨es, x, rfl, ?_⟩, by simp⟩
      constructor
      · rintro ⟨y, hy⟩
        obtain ⟨z, hz⟩ := e2 _ hy
        simp at hz
      · intro h; exact absurd h hx

/-! ## Finalized components without a group stay finalized -/

theorem readOne_final (o : Oracle) (sched : Name → Sched) (s : RM × Status) (n : Name) {h : Hw}
    (hf : s.1.findHw n = some h) (hl : h.lc = .finalized) (hg : h.group = none) :
    (readOne o sched s n).1.findHw n = some h ∧ (readOne o sched s n).1.tr = s.1.tr := by
  obtain ⟨hh, hn⟩ := findHw_some hf
  by_cases hs : sched n = .locked
  · have : readOne o sched s n = s := by unfold readOne; rw [hf]; simp [hs]
    rw [this]; exact ⟨hf, rfl⟩
  · have hio : (if sched n = .run then h.read o s.1.tr else (h, s.1.tr, IoAns.ret .ok)) = (h, s.1.tr, IoAns.ret .ok) := by
      split
      · unfold Hw.read; rw [if_neg (by rw [hl]; simp)]
      · rfl
    rw [readOne_eq o sched s n hf hs, hio]
    dsimp only
    unfold ioPart
    simp only [hg, groupUpdate, ne_eq, not_true_eq_false, if_false]
    refine ⟨?_, trivial⟩
    exact (find_setHw s.1 _ h rfl n).trans (by rw [hf, Option.map_some, if_pos hn])

theorem writeOne_final (o : Oracle) (sched : Name → Sched) (s : RM × Status) (n : Name) {h : Hw}
    (hf : s.1.findHw n = some h) (hl : h.lc = .finalized) (hg : h.group = none) :
    (writeOne o sched s n).1.findHw n = some h ∧ (writeOne o sched s n).1.tr = s.1.tr := by
  obtain ⟨hh, hn⟩ := findHw_some hf
  by_cases hs : sched n = .locked
  · have : writeOne o sched s n = s := by unfold writeOne; rw [hf]; simp [hs]
    rw [this]; exact ⟨hf, rfl⟩
  · have hio : (if sched n = .run then h.write o s.1.tr else (h, s.1.tr, IoAns.ret .ok)) = (h, s.1.tr, IoAns.ret .ok) := by
      split
      · unfold Hw.write
        split
        · rfl
        · rw [if_neg (by rw [hl]; simp)]
      · rfl
    rw [writeOne_eq o sched s n hf hs, hio]
    dsimp only
    unfold ioPart
    simp only [hg, groupUpdate]
    refine ⟨?_, trivial⟩
    exact (find_setHw s.1 _ h rfl n).trans (by rw [hf, Option.map_some, if_pos hn])

theorem fold_final (f : RM × Status → Name → RM × Status) (hf : ∀ s n, s.1.Inv → IterOk s n (f s n)) (n : Name) {h : Hw}
    (hfin : ∀ s : RM × Status, s.1.findHw n = some h → (f s n).1.findHw n = some h) (l : List Name) :
    ∀ s : RM × Status, s.1.Inv → s.1.findHw n = some h → (l.foldl f s).1.findHw n = some h := by
  induction l with
  | nil => intro s _ h; exact h
  | cons m t ih =>
    intro s I hs
    simp only [List.foldl_cons]
    refine ih _ (hf s m I).inv ?_
    by_cases e : m = n
    · subst e; exact hfin s hs
    · have := fold_other f hf [m] n (by simp [Ne.symm e]) s I
      simp only [List.foldl_cons, List.foldl_nil] at this
      rw [this.2.1, hs]

theorem read_final (o : Oracle) (sched : Name → Sched) {rm : RM} (I : rm.Inv) (n : Name) {h : Hw} (hf : rm.findHw n = some h)
    (hl : h.lc = .finalized) (hg : h.group = none) : (rm.read o sched).1.findHw n = some h :=
  fold_final (readOne o sched) (readOne_ok o sched) n (fun s hs => (readOne_final o sched s n hs hl hg).1) _ _ I hf

theorem write_final (o : Oracle) (sched : Name → Sched) {rm : RM} (I : rm.Inv) (n : Name) {h : Hw} (hf : rm.findHw n = some h)
    (hl : h.lc = .finalized) (hg : h.group = none) : (rm.write o sched).1.findHw n = some h :=
  fold_final (writeOne o sched) (writeOne_ok o sched) n (fun s hs => (writeOne_final o sched s n hs hl hg).1) _ _ I hf

end RM

namespace CM

theorem SameHw.find {a b : CM} (h : SameHw a b) (n : Name) : b.rm.findHw n = a.rm.findHw n := by
  unfold RM.findHw; rw [h]

/-- The real-time loop leaves a finalized component without a group alone. -/
theorem late_final (o : Oracle) {cm : CM} (I : Inv cm) (op : Op) (hop : op.late = true) (n : Name) {h : Hw}
    (hf : cm.rm.findHw n = some h) (hl : h.lc = .finalized) (hg : h.group = none) : (cm.step o op).rm.findHw n = some h := by
  cases op <;> simp only [Op.late, Bool.false_eq_true] at hop <;> simp only [step]
  · rw [(SameHw.switchWake o cm).find]; exact hf
  · rw [(SameHw.switchTimeout cm).find]; exact hf
  · rename_i s
    have := RM.read_final o s I.sys.claims.rm n hf hl hg
    unfold RM.findHw at this ⊢
    rw [comps_rtRead]; exact this
  · rw [(SameHw.rtUpdate o _ _ cm).find]; exact hf
  · rename_i s
    have := RM.write_final o s I.sys.claims.rm n hf hl hg
    unfold RM.findHw at this ⊢
    rw [comps_rtWrite]; exact this

theorem run_late_final (o : Oracle) (ops : List Op) : ∀ {cm : CM}, Inv cm → (∀ op ∈ ops, op.late = true) → ∀ (n : Name) {h : Hw},
    cm.rm.findHw n = some h → h.lc = .finalized → h.group = none → (cm.run o ops).rm.findHw n = some h := by
  induction ops with
  | nil => intro cm _ _ n h hf _ _; exact hf
  | cons op t ih =>
    intro cm I hops n h hf hl hg
    exact ih (inv_step o I op) (fun x hx => hops x (by simp [hx])) n (late_final o I op (hops op (by simp)) n hf hl hg) hl hg

/-- The group of a component never changes. -/
theorem grp_static {a b : RM} (h : b.comps.map Hw.static = a.comps.map Hw.static) (n : Name) :
    (b.findHw n).map (·.group) = (a.findHw n).map (·.group) := by
  have key : ∀ x : RM, (x.findHw n).map (·.group) = ((x.comps.map Hw.static).find? (fun h => h.name = n)).map (·.group) := by
    intro x
    unfold RM.findHw
    rw [List.find?_map]
    have : ((fun h : Hw => decide (h.name = n)) ∘ Hw.static) = (fun h : Hw => decide (h.name = n)) := by funext c; rfl
    rw [this]
    cases x.comps.find? (fun h => h.name = n) <;> rfl
  rw [key, key, h]

theorem run_grp (o : Oracle) (ops : List Op) : ∀ {cm : CM}, Inv cm → ∀ n,
    ((cm.run o ops).rm.findHw n).map (·.group) = (cm.rm.findHw n).map (·.group) := by
  induction ops with
  | nil => intro cm _ n; rfl
  | cons op t ih =>
    intro cm I n
    refine (ih (inv_step o I op) n).trans ?_
    exact grp_static (step_used o I op).2 n

/-- One visit of `shutdown_components`. -/
def hookComp (o : Oracle) (s : CM × Bool) (p : Name × List Op) : CM × Bool :=
  let r := s.1.rm.setComponentState o p.1 .finalized
  (({ s.1 with rm := r.1 } : CM).run o p.2, s.2 && decide (r.2 = .ok))

theorem hookComps_eq (o : Oracle) (cm : CM) (segs : List (Name × List Op)) :
    cm.hookComps o segs = segs.foldl (hookComp o) (cm, true) := rfl

theorem hookComp_flag (o : Oracle) (l : List (Name × List Op)) : ∀ x : CM × Bool, (l.foldl (hookComp o) x).2 = true → x.2 = true := by
  induction l with
  | nil => intro x hx; exact hx
  | cons q l ih => intro x hx; have := ih _ hx; simp only [hookComp, Bool.and_eq_true] at this; exact this.1

/-- After the visit of a component, it is left alone: nothing happens, or it has no group. -/
def Alone (segs : List (Name × List Op)) (cm : CM) (n : Name) : Prop :=
  (∀ p ∈ segs, p.2 = []) ∨ (cm.rm.findHw n).map (·.group) = some none

/-- `shutdown_components` under any schedule of the real-time loop. -/
theorem hookComps_out (o : Oracle) (segs : List (Name × List Op)) : ∀ {cm : CM} (b : Bool), Inv cm →
    (∀ p ∈ segs, ∀ op ∈ p.2, op.late = true) → ∀ r, r = segs.foldl (hookComp o) (cm, b) →
    Inv r.1 ∧ r.1.ctls.map (·.name) = cm.ctls.map (·.name) ∧
    (∀ n, cm.lcOf n = some .finalized → r.1.lcOf n = some .finalized) ∧
    (∀ n, Alone segs cm n → cm.rm.stateOf n = some .finalized → r.1.rm.stateOf n = some .finalized) ∧
    (r.2 = true → ∀ n ∈ segs.map (·.1), Alone segs cm n → r.1.rm.stateOf n = some .finalized) ∧
    ∃ es, r.1.rm.tr = es ++ cm.rm.tr ∧ ∀ n ∈ segs.map (·.1), Alone segs cm n → (cm.rm.findHw n).isSome →
      (r.1.rm.stateOf n = some .finalized ∨ RM.Excuse n es) := by
  induction segs with
  | nil =>
    intro cm b I _ r hr
    subst hr
    exact ⟨I, rfl, fun _ h => h, fun _ _ h => h, by simp, [], rfl, by simp⟩
  | cons p t ih =>
    intro cm b I hops r hr
    have R : cm.rm.Inv := I.sys.claims.rm
    have st := RM.rmStep_setComponentState o R p.1 .finalized
    have F : Fwd o Anybody cm ({ cm with rm := (cm.rm.setComponentState o p.1 .finalized).1 } : CM) := Fwd.rm cm st
    have I1 := F.cmInv I
    obtain ⟨I2, N2, K2, es2, G2⟩ := run_late o p.2 I1 (hops p (by simp))
    simp only [List.foldl_cons] at hr
    obtain ⟨a1, a2, a3, a4, a5, es3, a6, a7⟩ := ih
      (cm := (CM.run o ({ cm with rm := (cm.rm.setComponentState o p.1 .finalized).1 } : CM) p.2))
      (b && decide ((cm.rm.setComponentState o p.1 .finalized).2 = .ok)) I2 (fun q hq => hops q (by simp [hq])) r hr
    have al : ∀ n, Alone (p :: t) cm n →
        Alone t (CM.run o ({ cm with rm := (cm.rm.setComponentState o p.1 .finalized).1 } : CM) p.2) n := by
      intro n h
      rcases h with h | h
      · exact .inl (fun q hq => h q (by simp [hq]))
      · right
        rw [run_grp o p.2 I1 n]
        exact (grp_static st.comps n).trans h
    -- the visit and the following operations keep what is final
    have fin1 : ∀ n, cm.rm.stateOf n = some .finalized →
        (cm.rm.setComponentState o p.1 .finalized).1.stateOf n = some .finalized := by
      intro n hn
      by_cases e : n = p.1
      · subst e
        obtain ⟨bb, L, E, h1, h2, h3, -⟩ := RM.set_final o R p.1 hn
        have hL := h3 rfl
        rcases h2 with h | ⟨x, _, h | h⟩
        · rw [h] at E; exact E.after
        · rw [hL] at h; simp at h
        · rw [hL] at h; simp at h
      · exact (RM.set_other o R p.1 n .finalized e hn).after
    have fin2 : ∀ n, Alone (p :: t) cm n → (cm.rm.setComponentState o p.1 .finalized).1.stateOf n = some .finalized →
        (CM.run o ({ cm with rm := (cm.rm.setComponentState o p.1 .finalized).1 } : CM) p.2).rm.stateOf n = some .finalized := by
      intro n h hn
      rcases h with h | h
      · rw [h p (by simp)]; exact hn
      · obtain ⟨x, hx, hlx⟩ := Option.map_eq_some_iff.1 hn
        have hg : x.group = none := by
          have := grp_static st.comps n
          rw [hx, h] at this; simpa using this
        have := run_late_final o p.2 I1 (hops p (by simp)) n hx hlx hg
        unfold RM.stateOf; rw [this]; simp [hlx]
    obtain ⟨es1, e1, -⟩ := st.ext
    refine ⟨a1, a2.trans N2, fun n hn => a3 n (K2 n hn), fun n h hn => a4 n (al n h) (fin2 n h (fin1 n hn)), ?_,
      es3 ++ es2 ++ es1, ?_, ?_⟩
    · intro h n hn hA
      have hx := hookComp_flag o t _ (by rw [← hr]; exact h)
      simp only [hookComp, Bool.and_eq_true, decide_eq_true_eq] at hx
      simp only [List.map_cons, List.mem_cons] at hn
      rcases hn with rfl | hn
      · have hs : ∃ s, cm.rm.stateOf p.1 = some s := by
          unfold RM.setComponentState at hx
          cases hf : cm.rm.findHw p.1 with
          | none => rw [hf] at hx; simp at hx
          | some c => exact ⟨c.lc, by unfold RM.stateOf; rw [hf]; rfl⟩
        obtain ⟨s, hs⟩ := hs
        obtain ⟨bb, L, E, h1, -⟩ := RM.set_final o R p.1 hs
        have := E.after
        rw [h1 hx.2] at this
        exact a4 _ (al _ hA) (fin2 _ hA this)
      · exact a5 h n hn (al n hA)
    · have e1' : ({ cm with rm := (cm.rm.setComponentState o p.1 .finalized).1 } : CM).rm.tr = es1 ++ cm.rm.tr := e1
      rw [a6, G2, e1']; simp [List.append_assoc]
    · intro n hn hA hsome
      simp only [List.map_cons, List.mem_cons] at hn
      by_cases e : n = p.1
      · subst e
        obtain ⟨c, hc⟩ := Option.isSome_iff_exists.1 hsome
        obtain ⟨bb, L, E, -, h2, -⟩ := RM.set_final o R p.1 (a := c.lc) (by unfold RM.stateOf; rw [hc]; rfl)
        rcases h2 with h | h
        · have := E.after
          rw [h] at this
          exact .inl (a4 _ (al _ hA) (fin2 _ hA this))
        · right
          obtain ⟨es', e', ho⟩ := E.trace
          have : es' = es1 := List.append_cancel_right (e'.symm.trans e1)
          subst this
          have : RM.Excuse p.1 es' := by
            obtain ⟨x, hx, h⟩ := h
            rw [← ho] at h
            refine ⟨x, hx, ?_⟩
            rcases h with h | h
            · exact .inl (List.mem_of_mem_filter h)
            · exact .inr (List.mem_of_mem_filter h)
          exact this.left _
      · have hn' : n ∈ t.map (·.1) := by
          rcases hn with h | h
          · exact absurd h e
          · exact h
        have hsome' : ((CM.run o ({ cm with rm := (cm.rm.setComponentState o p.1 .finalized).1 } : CM) p.2).rm.findHw n).isSome := by
          have h1 := run_grp o p.2 I1 n
          have h2 := grp_static st.comps n
          rw [← Option.isSome_map (f := fun h : Hw => h.group)] at hsome ⊢
          rw [h1]
          show ((Option.map _ (RM.findHw (cm.rm.setComponentState o p.1 .finalized).1 n))).isSome = true
          rw [h2]; exact hsome
        rcases a7 n hn' (al n hA) hsome' with h | h
        · exact .inl h
        · rw [List.append_assoc]; exact .inr (h.right _)

end CM
end Verif
