import Verif.CM.HwFrame
import Verif.RM.InitialLemmas
/-!
# The shutdown of the controller manager

The pre-shutdown hook of the controller manager (cm.cpp:692-715) first shuts all controllers down and then all hardware
components. It runs in the thread that shuts the context down; the real-time loop (ros2_control_node.cpp: `while (rclcpp::ok())`)
is still going during the hook, and so is a `switch_controller` call that is waiting for it.
-/
namespace Verif

/-- What can still happen while the hook runs: cycles of the real-time loop and a waiting `switch_controller` call. The executor
has been cancelled (cm.cpp:699-703), so no new service call begins. -/
def CM.Op.late : CM.Op → Bool
  | .read _ => true
  | .update _ _ => true
  | .write _ => true
  | .switchWake => true
  | .switchTimeout => true
  | _ => false

namespace CM

/-- cm.cpp:622-652 `shutdown_controllers`, with whatever happens after the visit of each controller. The status is the
conjunction of `state == FINALIZED` at the visits. -/
def hookCtls (o : Oracle) (cm : CM) (segs : List (Name × List Op)) : CM × Bool :=
  segs.foldl (fun s p =>
    let c1 := s.1.shutdownOne o p.1
    (c1.run o p.2, s.2 && decide (c1.lcOf p.1 = some .finalized))) (cm, true)

/-- resource_manager.cpp:1512-1526 `shutdown_components`, with whatever happens after the visit of each component (the
components are visited in the order of a hash map: any order). -/
def hookComps (o : Oracle) (cm : CM) (segs : List (Name × List Op)) : CM × Bool :=
  segs.foldl (fun s p =>
    let r := s.1.rm.setComponentState o p.1 .finalized
    (({ s.1 with rm := r.1 } : CM).run o p.2, s.2 && decide (r.2 = .ok))) (cm, true)

/-- cm.cpp:692-715, the hook. The answer is whether neither `Failed shutting down …` message is printed. -/
def hook (o : Oracle) (cm : CM) (ctl hw : List (Name × List Op)) : CM × Bool :=
  let r := cm.hookCtls o ctl
  let r' := r.1.hookComps o hw
  (r'.1, r.2 && r'.2)

/-! ## Specification -/

/-- The callbacks of the controller `n` while it is shut down (newest first), from its state before to its state after. -/
inductive Shut (n : Name) : LState → List Ev → LState → Prop
  /-- unconfigured and inactive controllers are shut down -/
  | stop {a : LState} {es : List Ev} {b : LState} (ha : a = .unconfigured ∨ a = .inactive) :
      Sys.TrigEvs n .shutdown es b → Shut n a es b
  /-- active controllers are deactivated, then shut down -/
  | both {es es' : List Ev} {a b : LState} (ha : a = .unconfigured ∨ a = .inactive) :
      Sys.TrigEvs n .deactivate es a → Sys.TrigEvs n .shutdown es' b → Shut n .active (es' ++ es) b
  /-- the deactivation was refused, or failed for good -/
  | stuck {es : List Ev} {a : LState} (ha : a = .active ∨ a = .finalized) :
      Sys.TrigEvs n .deactivate es a → Shut n .active es a
  /-- finalized controllers are left alone -/
  | done : Shut n .finalized [] .finalized

/-- Why a controller is not finalized afterwards: it refused to be deactivated, or it failed to shut down and recovered. -/
theorem Shut.reason {n : Name} {a : LState} {es : List Ev} {b : LState} (h : Shut n a es b) :
    b = .finalized ∨ (b = .active ∧ .ctlCb n .deactivate .failure ∈ es) ∨
    (b = .unconfigured ∧ .ctlErr n .success ∈ es ∧ (.ctlCb n .shutdown .error ∈ es ∨ .ctlCb n .shutdown .throws ∈ es)) := by
  have sh : ∀ {es b}, Sys.TrigEvs n .shutdown es b → b = .finalized ∨
      (b = .unconfigured ∧ .ctlErr n .success ∈ es ∧ (.ctlCb n .shutdown .error ∈ es ∨ .ctlCb n .shutdown .throws ∈ es)) := by
    intro es b h
    cases h with
    | success => exact .inl rfl
    | failure => exact .inl rfl
    | error a e ha =>
      cases e <;> simp only [reduceCtorEq, if_true, if_false]
      · refine .inr ⟨trivial, by simp, ?_⟩
        rcases ha with rfl | rfl
        · left; simp
        · right; simp
      · exact .inl trivial
      · exact .inl trivial
  cases h with
  | stop _ h =>
    rcases sh h with h | h
    · exact .inl h
    · exact .inr (.inr h)
  | both _ _ h =>
    rcases sh h with h | ⟨h1, h2, h3⟩
    · exact .inl h
    · refine .inr (.inr ⟨h1, List.mem_append_left _ h2, ?_⟩)
      rcases h3 with h | h
      · exact .inl (List.mem_append_left _ h)
      · exact .inr (List.mem_append_left _ h)
  | stuck ha h =>
    cases h with
    | success => simp [CtlCb.onSuccess] at ha
    | failure => exact .inr (.inl ⟨rfl, by simp⟩)
    | error a e hx =>
      cases e
      · simp at ha
      · exact .inl rfl
      · exact .inl rfl
  | done => exact .inl rfl

end CM

theorem Sys.TrigEvs.ctl {n : Name} {cb : CtlCb} {es : List Ev} {l : LState} (h : Sys.TrigEvs n cb es l) :
    ∀ e ∈ es, e.ctlName = some n := by
  cases h <;> simp [Ev.ctlName]

theorem CM.Shut.ctl {n : Name} {a : LState} {es : List Ev} {b : LState} (h : CM.Shut n a es b) :
    ∀ e ∈ es, e.ctlName = some n := by
  cases h with
  | stop _ h => exact h.ctl
  | both _ h h' =>
    intro e he
    rcases List.mem_append.1 he with he | he
    · exact h'.ctl e he
    · exact h.ctl e he
  | stuck _ h => exact h.ctl
  | done => simp

namespace CM

theorem lcOf_abs (x : CM) (n : Name) : x.lcOf n = (x.abs.k n).map (·.lc) := by
  unfold lcOf; rw [abs_k]; cases x.find n <;> rfl

/-- A legal transition: its events, the state it ends in, and the loans of the controller. -/
theorem trigger_out (o : Oracle) {cm : CM} {n : Name} {c : Core} (cb : CtlCb) (hc : cm.abs.k n = some c)
    (hl : cb.legal c.lc = true) :
    ∃ es b hd, Sys.TrigEvs n cb es b ∧ (cm.trigger o n cb).rm.tr = es ++ cm.rm.tr ∧
      (cm.trigger o n cb).abs.k n = some { c with lc := b, held := hd } ∧ (hd = [] ∨ hd = c.held ∧ cb ≠ .shutdown) := by
  obtain ⟨es, b, h, h1 | h1⟩ := Sys.trigger_spec' o cb hc hl
  · obtain ⟨h2, -, h3⟩ := h1
    have ht : (cm.trigger o n cb).rm = (cm.trigger o n cb).abs.rm := rfl
    refine ⟨es, b, c.held, h, ?_, ?_, .inr ⟨rfl, h2⟩⟩
    · rw [ht, abs_trigger, h3]; rfl
    · rw [abs_trigger, h3]; simp [Sys.set]
  · obtain ⟨-, h3⟩ := h1
    have ht : (cm.trigger o n cb).rm = (cm.trigger o n cb).abs.rm := rfl
    refine ⟨es, b, [], h, ?_, ?_, .inl rfl⟩
    · rw [ht, abs_trigger, h3]; rfl
    · rw [abs_trigger, h3]; simp [Sys.set]

theorem release_out {cm : CM} {n : Name} {c : Core} (hc : cm.abs.k n = some c) :
    (cm.releaseItfs n).rm.tr = cm.rm.tr ∧ (cm.releaseItfs n).abs.k n = some { c with held := [] } := by
  have h := abs_releaseItfs cm n
  rw [Sys.release_some hc] at h
  have ht : (cm.releaseItfs n).rm = (cm.releaseItfs n).abs.rm := rfl
  rw [ht, h]
  refine ⟨?_, by simp [Sys.set]⟩
  show (List.foldl RM.release cm.abs.rm c.held).tr = _
  rw [RM.foldl_release]; rfl

/-- One controller is shut down. -/
theorem shutdownOne_out (o : Oracle) {cm : CM} (I : Inv cm) {n : Name} {c : Core} (hc : cm.abs.k n = some c) :
    ∃ es b, Shut n c.lc es b ∧ (cm.shutdownOne o n).rm.tr = es ++ cm.rm.tr ∧
      (cm.shutdownOne o n).abs.k n = some { c with lc := b, held := [] } := by
  have hk := I.sys.trace.known n c hc
  have hlc : cm.lcOf n = some c.lc := by rw [lcOf_abs, hc]; rfl
  unfold shutdownOne
  by_cases hact : c.lc = .active
  · have h1 : cm.isActive n = true := by unfold isActive; rw [hlc, hact]; rfl
    simp only [h1, if_true]
    obtain ⟨es, a, hd, t1, t2, t3, -⟩ := trigger_out o .deactivate hc (by rw [hact]; rfl)
    obtain ⟨r1, r2⟩ := release_out t3
    generalize (cm.trigger o n .deactivate).releaseItfs n = x at r1 r2 ⊢
    have hx : x.lcOf n = some a := by rw [lcOf_abs, r2]; rfl
    rw [hx]
    by_cases ha : a = .unconfigured ∨ a = .inactive
    · rw [if_pos (by rcases ha with rfl | rfl <;> simp)]
      obtain ⟨es', b, hd', s1, s2, s3, s4⟩ := trigger_out o .shutdown r2 (by rcases ha with rfl | rfl <;> rfl)
      refine ⟨es' ++ es, b, ?_, ?_, ?_⟩
      · rw [hact]; exact .both ha t1 s1
      · rw [s2, r1, t2, List.append_assoc]
      · rw [s3]
        rcases s4 with rfl | ⟨-, h⟩
        · rfl
        · exact absurd rfl h
    · rw [if_neg (by simp only [Option.some.injEq]; exact fun h => ha h.symm)]
      refine ⟨es, a, ?_, by rw [r1, t2], r2⟩
      rw [hact]
      refine .stuck ?_ t1
      cases t1 with
      | success => simp [CtlCb.onSuccess] at ha
      | failure => exact .inl rfl
      | error x e hx =>
        cases e
        · simp at ha
        · exact .inr rfl
        · exact .inr rfl
  · have h1 : cm.isActive n = false := by
      unfold isActive; rw [hlc]; simpa using hact
    simp only [h1, Bool.false_eq_true, if_false]
    rw [hlc]
    have hidle := I.sys.claims.idle n c hc (fun h => h) hact
    by_cases ha : c.lc = .unconfigured ∨ c.lc = .inactive
    · rw [if_pos (by rcases ha with h | h <;> rw [h] <;> simp)]
      obtain ⟨es', b, hd', s1, s2, s3, s4⟩ := trigger_out o .shutdown hc (by rcases ha with h | h <;> rw [h] <;> rfl)
      refine ⟨es', b, .stop ha s1, s2, ?_⟩
      rw [s3]
      rcases s4 with rfl | ⟨-, h⟩
      · rfl
      · exact absurd rfl h
    · rw [if_neg (by simp only [Option.some.injEq]; exact fun h => ha h.symm)]
      have hf : c.lc = .finalized := by
        cases hh : c.lc <;> simp_all
      refine ⟨[], .finalized, by rw [hf]; exact .done, rfl, ?_⟩
      rw [hc]
      cases c; simp_all

theorem others_shutdownOne (o : Oracle) (cm : CM) (n : Name) : (cm.shutdownOne o n).others n = cm.others n := by
  unfold shutdownOne
  extract_lets cm1
  have f1 : cm1.others n = cm.others n := by
    simp only [cm1]; split
    · rw [others_releaseItfs, others_trigger]
    · rfl
  split
  · rw [others_trigger]; exact f1
  · exact f1

theorem Fwd.shutdownOne (o : Oracle) (cm : CM) (n : Name) : Fwd o Anybody cm (cm.shutdownOne o n) := by
  unfold CM.shutdownOne
  extract_lets cm1
  have f1 : Fwd o Anybody cm cm1 := by
    simp only [cm1]; split
    · exact Fwd.deact o cm n trivial
    · exact .refl _ _ _
  split
  · exact f1.trans (Fwd.trigger o _ n _ trivial (.inr (.inr rfl)))
  · exact f1

theorem Op.late_calm {op : Op} (h : op.late = true) : op.calm = true := by
  cases op <;> simp [Op.late, Op.calm] at h ⊢

/-! ## Controllers -/

/-- What a history keeps: finalized controllers stay finalized, no controller is loaded or unloaded. -/
theorem run_late (o : Oracle) (ops : List Op) : ∀ {cm : CM}, Inv cm → (∀ op ∈ ops, op.late = true) →
    Inv (cm.run o ops) ∧ (cm.run o ops).ctls.map (·.name) = cm.ctls.map (·.name) ∧
    (∀ n, cm.lcOf n = some .finalized → (cm.run o ops).lcOf n = some .finalized) ∧
    ∃ es, (cm.run o ops).rm.tr = es ++ cm.rm.tr := by
  induction ops with
  | nil => intro cm I _; exact ⟨I, rfl, fun _ h => h, [], rfl⟩
  | cons op t ih =>
    intro cm I hl
    obtain ⟨a1, a2, a3, es, a4⟩ := ih (inv_step o I op) (fun x hx => hl x (by simp [hx]))
    obtain ⟨fs, f⟩ := step_grows o I op
    refine ⟨a1, ?_, fun n hn => a3 n (finalized_step o I n hn op), es ++ fs, ?_⟩
    · exact a2.trans (names_of_stat (step_stat o I op (Op.late_calm (hl op (by simp)))))
    · exact a4.trans (by rw [f, List.append_assoc])

/-- A loaded controller. -/
theorem loaded_core {cm : CM} {n : Name} (h : n ∈ cm.ctls.map (·.name)) : ∃ c, cm.abs.k n = some c := by
  rw [abs_k]
  cases hf : cm.find n with
  | some c => exact ⟨_, rfl⟩
  | none =>
    unfold CM.find at hf
    rw [List.find?_eq_none] at hf
    obtain ⟨c, hc, e⟩ := List.mem_map.1 h
    exact absurd (by simpa using e) (hf c hc)

/-- Why the shutdown of `n` did not end in FINALIZED. -/
def Excuse (n : Name) (es : List Ev) : Prop :=
  .ctlCb n .deactivate .failure ∈ es ∨
  (.ctlErr n .success ∈ es ∧ (.ctlCb n .shutdown .error ∈ es ∨ .ctlCb n .shutdown .throws ∈ es))

theorem Excuse.left {n : Name} {es : List Ev} (h : Excuse n es) (fs : List Ev) : Excuse n (fs ++ es) := by
  rcases h with h | ⟨h, k | k⟩
  · exact .inl (List.mem_append_right _ h)
  · exact .inr ⟨List.mem_append_right _ h, .inl (List.mem_append_right _ k)⟩
  · exact .inr ⟨List.mem_append_right _ h, .inr (List.mem_append_right _ k)⟩

theorem Excuse.right {n : Name} {es : List Ev} (h : Excuse n es) (fs : List Ev) : Excuse n (es ++ fs) := by
  rcases h with h | ⟨h, k | k⟩
  · exact .inl (List.mem_append_left _ h)
  · exact .inr ⟨List.mem_append_left _ h, .inl (List.mem_append_left _ k)⟩
  · exact .inr ⟨List.mem_append_left _ h, .inr (List.mem_append_left _ k)⟩

/-- `shutdown_controllers` under any schedule of the real-time loop. -/
theorem hookCtls_out (o : Oracle) (segs : List (Name × List Op)) : ∀ {cm : CM} (b : Bool), Inv cm →
    (∀ p ∈ segs, ∀ op ∈ p.2, op.late = true) → (∀ p ∈ segs, p.1 ∈ cm.ctls.map (·.name)) →
    ∀ r, r = segs.foldl (fun (s : CM × Bool) p =>
      (((s.1.shutdownOne o p.1).run o p.2, s.2 && decide ((s.1.shutdownOne o p.1).lcOf p.1 = some .finalized)) : CM × Bool)) (cm, b) →
    Inv r.1 ∧ r.1.ctls.map (·.name) = cm.ctls.map (·.name) ∧
    (∀ n, cm.lcOf n = some .finalized → r.1.lcOf n = some .finalized) ∧
    (r.2 = true → ∀ n ∈ segs.map (·.1), r.1.lcOf n = some .finalized) ∧
    ∃ es, r.1.rm.tr = es ++ cm.rm.tr ∧
      (∀ n ∈ segs.map (·.1), r.1.lcOf n = some .finalized ∨ Excuse n es) := by
  induction segs with
  | nil =>
    intro cm b I _ _ r hr
    subst hr
    exact ⟨I, rfl, fun _ h => h, by simp, [], rfl, by simp⟩
  | cons p t ih =>
    intro cm b I hops hnm r hr
    have hp : p.1 ∈ cm.ctls.map (·.name) := hnm p (by simp)
    obtain ⟨c, hc⟩ := loaded_core hp
    obtain ⟨es1, b1, s1, s2, s3⟩ := shutdownOne_out o I hc
    have F := Fwd.shutdownOne o cm p.1
    have I1 := F.cmInv I
    have N1 : (cm.shutdownOne o p.1).ctls.map (·.name) = cm.ctls.map (·.name) := names_of_stat F.stat
    have K1 : ∀ n, cm.lcOf n = some .finalized → (cm.shutdownOne o p.1).lcOf n = some .finalized := by
      intro n hn
      by_cases e : n = p.1
      · subst e
        have : c.lc = .finalized := by rw [lcOf_abs, hc] at hn; simpa using hn
        rw [this] at s1
        rw [lcOf_abs, s3]
        cases s1 with
        | stop ha _ => simp at ha
        | done => rfl
      · unfold CM.lcOf at hn ⊢
        rw [find_of_others (others_shutdownOne o cm p.1) e]; exact hn
    obtain ⟨I2, N2, K2, es2, G2⟩ := run_late o p.2 I1 (hops p (by simp))
    simp only [List.foldl_cons] at hr
    obtain ⟨a1, a2, a3, a4, es3, a5, a6⟩ := ih (cm := (cm.shutdownOne o p.1).run o p.2)
      (b && decide ((cm.shutdownOne o p.1).lcOf p.1 = some .finalized)) I2
      (fun q hq => hops q (by simp [hq])) (fun q hq => by rw [N2, N1]; exact hnm q (by simp [hq])) r hr
    have hb1 : (cm.shutdownOne o p.1).lcOf p.1 = some b1 := by rw [lcOf_abs, s3]; rfl
    refine ⟨a1, a2.trans (N2.trans N1), fun n hn => a3 n (K2 n (K1 n hn)), ?_, es3 ++ es2 ++ es1, ?_, ?_⟩
    · intro h n hn
      have hmono : ∀ (l : List (Name × List Op)) (x : CM × Bool), (l.foldl (fun (s : CM × Bool) p =>
          (((s.1.shutdownOne o p.1).run o p.2, s.2 && decide ((s.1.shutdownOne o p.1).lcOf p.1 = some .finalized)) : CM × Bool)) x).2 = true →
          x.2 = true := by
        intro l
        induction l with
        | nil => intro x hx; exact hx
        | cons q l ih => intro x hx; have := ih _ hx; simp only [Bool.and_eq_true] at this; exact this.1
      have hx := hmono t _ (by rw [← hr]; exact h)
      simp only [Bool.and_eq_true, decide_eq_true_eq] at hx
      simp only [List.map_cons, List.mem_cons] at hn
      rcases hn with rfl | hn
      · exact a3 _ (K2 _ hx.2)
      · exact a4 h n hn
    · rw [a5, G2, s2]; simp [List.append_assoc]
    · intro n hn
      simp only [List.map_cons, List.mem_cons] at hn
      rcases hn with rfl | hn
      · rcases s1.reason with h | ⟨h, h'⟩ | ⟨h, h1, h2⟩
        · exact .inl (a3 _ (K2 _ (by rw [hb1, h])))
        · exact .inr ((show Excuse p.1 es1 from .inl h').left _)
        · exact .inr ((show Excuse p.1 es1 from .inr ⟨h1, h2⟩).left _)
      · rcases a6 n hn with h | h
        · exact .inl h
        · rw [List.append_assoc]; exact .inr (h.right _)

/-- `shutdown_controllers` on its own: the callbacks of each controller. -/
theorem shutdownList_out (o : Oracle) (l : List Name) : ∀ {cm : CM}, Inv cm → l.Nodup →
    (∀ n ∈ l, n ∈ cm.ctls.map (·.name)) → ∀ r, r = l.foldl (shutdownOne o) cm →
    (∀ n, n ∉ l → r.find n = cm.find n) ∧
    ∃ es, r.rm.tr = es ++ cm.rm.tr ∧ (∀ e ∈ es, ∃ n ∈ l, e.ctlName = some n) ∧
      ∀ n ∈ l, ∃ c, cm.abs.k n = some c ∧ ∃ b, Shut n c.lc (es.filter (fun e => e.ctlName = some n)) b ∧
        r.abs.k n = some { c with lc := b, held := [] } := by
  induction l with
  | nil => intro cm I _ _ r hr; subst hr; exact ⟨fun _ _ => rfl, [], rfl, by simp, by simp⟩
  | cons m t ih =>
    intro cm I hnd hnm r hr
    obtain ⟨c, hc⟩ := loaded_core (hnm m (by simp))
    obtain ⟨es1, b1, s1, s2, s3⟩ := shutdownOne_out o I hc
    have F := Fwd.shutdownOne o cm m
    have N1 : (cm.shutdownOne o m).ctls.map (·.name) = cm.ctls.map (·.name) := names_of_stat F.stat
    obtain ⟨hm, hnd⟩ := List.nodup_cons.1 hnd
    have O1 : ∀ n, n ≠ m → (cm.shutdownOne o m).find n = cm.find n := fun n hn =>
      find_of_others (others_shutdownOne o cm m) hn
    obtain ⟨a1, es2, a2, a3, a4⟩ := ih (F.cmInv I) hnd (fun n hn => by rw [N1]; exact hnm n (by simp [hn])) r hr
    refine ⟨?_, es2 ++ es1, ?_, ?_, ?_⟩
    · intro n hn
      simp only [List.mem_cons, not_or] at hn
      rw [a1 n hn.2, O1 n hn.1]
    · rw [a2, s2, List.append_assoc]
    · intro e he
      rcases List.mem_append.1 he with he | he
      · obtain ⟨n, hn, h⟩ := a3 e he
        exact ⟨n, by simp [hn], h⟩
      · exact ⟨m, by simp, s1.ctl e he⟩
    · intro n hn
      by_cases e : n = m
      · subst e
        refine ⟨c, hc, b1, ?_, ?_⟩
        · have h2 : es2.filter (fun e => e.ctlName = some n) = [] := by
            rw [List.filter_eq_nil_iff]
            intro e he hx
            obtain ⟨k, hk, h⟩ := a3 e he
            simp only [decide_eq_true_eq] at hx
            rw [hx] at h
            simp only [Option.some.injEq] at h
            exact hm (h ▸ hk)
          have h1 : es1.filter (fun e => e.ctlName = some n) = es1 := by
            rw [List.filter_eq_self]
            intro e he
            simp [s1.ctl e he]
          rw [List.filter_append, h2, h1]; exact s1
        · rw [← s3, abs_k, abs_k, a1 n hm]
      · have hn' : n ∈ t := by
          rcases List.mem_cons.1 hn with h | h
          · exact absurd h e
          · exact h
        obtain ⟨c', k1, b, k2, k3⟩ := a4 n hn'
        refine ⟨c', ?_, b, ?_, k3⟩
        · rw [← k1, abs_k, abs_k, O1 n e]
        · have h1 : es1.filter (fun e => e.ctlName = some n) = [] := by
            rw [List.filter_eq_nil_iff]
            intro x hx hy
            rw [s1.ctl x hx] at hy
            simp only [Option.some.injEq, decide_eq_true_eq] at hy
            exact e hy.symm
          rw [List.filter_append, h1, List.append_nil]; exact k2

end CM
end Verif
