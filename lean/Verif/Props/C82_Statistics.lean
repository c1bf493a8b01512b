import Verif.Pub.Lemmas
import Verif.Props.CMDemo
import Mathlib.Tactic.IntervalCases
/-!
# C82: the published statistics are those of the loaded controllers

At every publication each registered variable is read through a pointer. A user relies on every registered variable being a member of the
statistics of a loaded controller, the one in its name, and on each loaded controller's twelve variables being registered exactly once.

It is false: a load that fails after the plugin was created (the name is taken, `on_init` fails, the controller is its own fallback
controller, a parameter has a wrong type) leaves twelve pointers to statistics that are destroyed with the call.
-/
namespace Verif
namespace Pub

/-- A controller of this name is loaded. -/
def Loaded (s : State) (n : Name) : Prop := n ∈ s.cm.ctls.map (·.name)

instance (s : State) (n : Name) : Decidable (Loaded s n) := inferInstanceAs (Decidable (n ∈ _))

/-- The object exists: a loaded controller holds it. -/
def Alive (s : State) (obj : Nat) : Prop := ∃ n, Loaded s n ∧ s.owned n = some obj

/-- The published variables are exactly those of the loaded controllers: every variable that is read at a publication belongs to the
loaded controller in its name, and each variable of each loaded controller is there exactly once. -/
structure Exact (s : State) : Prop where
  valid : ∀ e ∈ s.entries, Loaded s e.key.ctl ∧ s.owned e.key.ctl = some e.obj
  once : ∀ n, Loaded s n → ∀ c f, ∃ obj, s.entries.filter (fun e => e.key = ⟨n, c, f⟩) = [⟨⟨n, c, f⟩, obj⟩]

/-- The full property. -/
def FullC82 : Prop := ∀ (all : Bool) (o : Oracle) (a b : Bool) (specs : List RM.HwSpec) (l : List Call),
  Exact (run all o (start o a b specs) l)

/-- A call that fails after the registration. -/
def Late (o : Oracle) (s : State) : Call → Prop
  | .op (.load n ch as cfg fb) => s.cm.pending = false ∧ (s.cm.load o n ch as cfg fb).2 ≠ .ok
  | .loadBadParams _ => s.cm.pending = false
  | _ => False

/-- Invariant of all histories. -/
structure Ok (s : State) : Prop where
  inv : CM.Inv s.cm
  own : ∀ n, Loaded s n ↔ (s.owned n).isSome
  lt : ∀ n i, s.owned n = some i → i < s.next
  elt : ∀ e ∈ s.entries, e.obj < s.next
  inj : ∀ n m i, s.owned n = some i → s.owned m = some i → n = m
  reg : ∀ n i, s.owned n = some i → ∀ c f, (⟨⟨n, c, f⟩, i⟩ : Entry) ∈ s.entries

theorem Ok.start (o : Oracle) (a b : Bool) (specs : List RM.HwSpec) : Ok (Pub.start o a b specs) :=
  ⟨CM.inv_start o a b specs, by intro n; simp [Loaded, Pub.start, CM.start, CM.init], by simp [Pub.start], by simp [Pub.start],
    by simp [Pub.start], by simp [Pub.start]⟩

/-- Operations that are neither `load` nor `unload` do not matter. -/
theorem Ok.cm {s : State} (h : Ok s) (cm : CM) (I : CM.Inv cm) (hn : ∀ m, m ∈ cm.ctls.map (·.name) ↔ m ∈ s.cm.ctls.map (·.name)) :
    Ok { s with cm := cm } :=
  ⟨I, fun n => (hn n).trans (h.own n), h.lt, h.elt, h.inj, h.reg⟩

theorem step_other {all : Bool} {o : Oracle} {s : State} (p : CM.Op) (h1 : ∀ n ch as cfg fb, p ≠ .load n ch as cfg fb)
    (h2 : ∀ n, p ≠ .unload n) : step all o s (.op p) = { s with cm := s.cm.step o p } := by
  cases p <;> first | rfl | exact absurd rfl (h1 _ _ _ _ _) | exact absurd rfl (h2 _)

/-- A registration that is not owned. -/
theorem Ok.registered {s : State} (h : Ok s) (n : Name) : Ok { s with entries := register n s.next s.entries, next := s.next + 1 } :=
  ⟨h.inv, h.own, fun m i hi => Nat.lt_succ_of_lt (h.lt m i hi),
    fun e he => by
      rcases mem_register.1 he with h1 | ⟨_, h1⟩
      · exact Nat.lt_succ_of_lt (h.elt e h1)
      · exact h1 ▸ Nat.lt_succ_self _,
    h.inj, fun m i hi c f => mem_register.2 (.inl (h.reg m i hi c f))⟩

theorem Ok.step {all : Bool} {o : Oracle} {s : State} (h : Ok s) (c : Call) : Ok (step all o s c) := by
  cases c with
  | loadUnknown n => exact h
  | loadBadParams n =>
    show Ok (if s.cm.pending then s else _)
    split
    · exact h
    · exact h.registered n
  | op p =>
    by_cases h1 : ∃ n ch as cfg fb, p = .load n ch as cfg fb
    · obtain ⟨n, ch, as, cfg, fb, rfl⟩ := h1
      show Ok (if s.cm.pending then s else _)
      split
      · exact h
      let r := s.cm.load o n ch as cfg fb
      have I : CM.Inv r.1 := CM.inv_step o h.inv (.load n ch as cfg fb)
      have hr := h.registered n
      rcases load_names o s.cm n ch as cfg fb with ⟨e1, e2, _, e3⟩ | ⟨e1, e2⟩
      · have hn : s.owned n = none := by
          cases hs : s.owned n with
          | none => rfl
          | some i => exact absurd ((h.own n).2 (by simp [hs])) e2
        show Ok ⟨r.1, _, if r.2 = .ok then _ else _, _⟩
        rw [if_pos e1]
        refine ⟨I, ?_, ?_, hr.elt, ?_, ?_⟩
        · intro m
          show m ∈ r.1.ctls.map (·.name) ↔ (upd s.owned n (some s.next) m).isSome
          rw [e3, List.mem_append, List.mem_singleton, upd_apply]
          by_cases hm : m = n
          · simp [hm]
          · rw [if_neg hm]; exact (or_iff_left hm).trans (h.own m)
        · intro m i hi
          have hi : upd s.owned n (some s.next) m = some i := hi
          rw [upd_apply] at hi
          split at hi
          · cases hi; exact Nat.lt_succ_self _
          · exact Nat.lt_succ_of_lt (h.lt m i hi)
        · intro m k i hm hk
          have hm : upd s.owned n (some s.next) m = some i := hm
          have hk : upd s.owned n (some s.next) k = some i := hk
          rw [upd_apply] at hm hk
          split at hm <;> split at hk
          · simp_all
          · cases hm; exact absurd (h.lt _ _ hk) (Nat.lt_irrefl _)
          · cases hk; exact absurd (h.lt _ _ hm) (Nat.lt_irrefl _)
          · exact h.inj m k i hm hk
        · intro m i hm c f
          have hm : upd s.owned n (some s.next) m = some i := hm
          rw [upd_apply] at hm
          by_cases e : m = n
          · rw [if_pos e] at hm
            exact mem_register.2 (.inr ⟨e, (Option.some.inj hm).symm⟩)
          · rw [if_neg e] at hm
            exact mem_register.2 (.inl (h.reg m i hm c f))
      · show Ok ⟨r.1, _, if r.2 = .ok then _ else _, _⟩
        rw [if_neg e1]
        exact hr.cm r.1 I (fun m => by show m ∈ r.1.ctls.map _ ↔ _; rw [e2])
    · by_cases h2 : ∃ n, p = .unload n
      · obtain ⟨n, rfl⟩ := h2
        show Ok (if (s.cm.unload o n).2 = .ok then _ else _)
        have I : CM.Inv (s.cm.unload o n).1 := CM.inv_step o h.inv (.unload n)
        rcases unload_names o s.cm n with ⟨e1, e2, e3⟩ | ⟨e1, e3⟩
        · rw [if_pos e1]
          refine ⟨I, ?_, ?_, fun e he => h.elt e (mem_of_unregister he), ?_, ?_⟩
          · intro m
            show m ∈ (s.cm.unload o n).1.ctls.map (·.name) ↔ (upd s.owned n none m).isSome
            rw [e3, List.mem_filter, upd_apply]
            by_cases hm : m = n
            · simp [hm]
            · rw [if_neg hm]
              have := h.own m
              unfold Loaded at this
              simp [hm, ← this]
          · intro m i hi
            have hi : upd s.owned n none m = some i := hi
            rw [upd_apply] at hi
            split at hi
            · cases hi
            · exact h.lt m i hi
          · intro m k i hm hk
            have hm : upd s.owned n none m = some i := hm
            have hk : upd s.owned n none k = some i := hk
            rw [upd_apply] at hm hk
            split at hm
            · cases hm
            · split at hk
              · cases hk
              · exact h.inj m k i hm hk
          · intro m i hm c f
            have hm : upd s.owned n none m = some i := hm
            rw [upd_apply] at hm
            split at hm
            · cases hm
            · rename_i hne
              exact (mem_unregister_other hne).2 (h.reg m i hm c f)
        · rw [if_neg e1]
          exact h.cm _ I (fun m => by rw [e3])
      · have h1' : ∀ n ch as cfg fb, p ≠ .load n ch as cfg fb := fun n ch as cfg fb e => h1 ⟨n, ch, as, cfg, fb, e⟩
        have h2' : ∀ n, p ≠ .unload n := fun n e => h2 ⟨n, e⟩
        rw [step_other p h1' h2']
        exact h.cm _ (CM.inv_step o h.inv p) (step_names o h.inv p h1' h2')

theorem Ok.run {all : Bool} {o : Oracle} {s : State} (h : Ok s) (l : List Call) : Ok (run all o s l) := by
  induction l generalizing s with
  | nil => exact h
  | cons c t ih => exact ih (h.step c)

/-! ## Nothing is missing, and no two controllers share their statistics -/

/-- After every history, whatever failed in it, each loaded controller has statistics of its own and each of its twelve variables is
registered with them. -/
theorem C82_registered (all : Bool) (o : Oracle) (a b : Bool) (specs : List RM.HwSpec) (l : List Call) :
    ∃ obj : Name → Nat,
      (∀ n, Loaded (run all o (start o a b specs) l) n → (run all o (start o a b specs) l).owned n = some (obj n) ∧
        ∀ c f, (⟨⟨n, c, f⟩, obj n⟩ : Entry) ∈ (run all o (start o a b specs) l).entries) ∧
      (∀ n m, Loaded (run all o (start o a b specs) l) n → Loaded (run all o (start o a b specs) l) m → obj n = obj m → n = m) ∧
      (∀ n, ¬ Loaded (run all o (start o a b specs) l) n → (run all o (start o a b specs) l).owned n = none) := by
  have h := (Ok.start o a b specs).run (all := all) (o := o) l
  generalize run all o (start o a b specs) l = s at h
  have own : ∀ n, Loaded s n → s.owned n = some ((s.owned n).getD 0) := fun n hn => by
    obtain ⟨i, hi⟩ := Option.isSome_iff_exists.1 ((h.own n).1 hn)
    simp [hi]
  refine ⟨fun n => (s.owned n).getD 0, fun n hn => ⟨own n hn, fun c f => h.reg n _ (own n hn) c f⟩, fun n m hn hm e => ?_, fun n hn => ?_⟩
  · have e : (s.owned n).getD 0 = (s.owned m).getD 0 := e
    exact h.inj n m _ (own n hn) ((own m hm).trans (by rw [← e]))
  · cases hs : s.owned n with
    | none => rfl
    | some i => exact absurd ((h.own n).2 (by simp [hs])) hn

/-! ## Without failing loads -/

theorem Exact.step {all : Bool} {o : Oracle} {s : State} (h : Ok s) (x : ∀ k, (under k s.entries).map (·.obj) = (s.owned k.ctl).toList)
    (c : Call) (hl : ¬ Late o s c) :
    ∀ k, (under k (step all o s c).entries).map (·.obj) = ((step all o s c).owned k.ctl).toList := by
  cases c with
  | loadUnknown n => exact x
  | loadBadParams n =>
    show ∀ k, (under k (if s.cm.pending then s else _ : State).entries).map _ = ((if s.cm.pending then s else _ : State).owned _).toList
    split
    · exact x
    · rename_i hp; exact absurd (show s.cm.pending = false by simpa using hp) hl
  | op p =>
    by_cases h1 : ∃ n ch as cfg fb, p = .load n ch as cfg fb
    · obtain ⟨n, ch, as, cfg, fb, rfl⟩ := h1
      by_cases hp : s.cm.pending
      · have e : Pub.step all o s (.op (.load n ch as cfg fb)) = s := if_pos hp
        rw [e]; exact x
      have ok : (s.cm.load o n ch as cfg fb).2 = .ok := by
        by_contra hne; exact hl ⟨by simpa using hp, hne⟩
      have e : Pub.step all o s (.op (.load n ch as cfg fb)) =
          ⟨(s.cm.load o n ch as cfg fb).1, register n s.next s.entries, upd s.owned n (some s.next), s.next + 1⟩ := by
        refine (if_neg hp).trans ?_
        show State.mk _ _ (if (s.cm.load o n ch as cfg fb).2 = .ok then _ else _) _ = _
        rw [if_pos ok]
      rw [e]
      have hn : s.owned n = none := by
        rcases load_names o s.cm n ch as cfg fb with ⟨_, e2, _⟩ | ⟨e1, _⟩
        · cases hs : s.owned n with
          | none => rfl
          | some i => exact absurd ((h.own n).2 (by simp [hs])) e2
        · exact absurd ok e1
      intro k
      show (under k (register n s.next s.entries)).map _ = (upd s.owned n (some s.next) k.ctl).toList
      rw [under_register, List.map_append, x k, upd_apply]
      by_cases hk : k.ctl = n
      · simp [hk, hn]
      · simp [hk]
    · by_cases h2 : ∃ n, p = .unload n
      · obtain ⟨n, rfl⟩ := h2
        by_cases ok : (s.cm.unload o n).2 = .ok
        · have e : Pub.step all o s (.op (.unload n)) =
              { s with cm := (s.cm.unload o n).1, entries := unregister all n s.entries, owned := upd s.owned n none } := if_pos ok
          rw [e]
          intro k
          show (under k (unregister all n s.entries)).map _ = (upd s.owned n none k.ctl).toList
          rw [under_unregister, upd_apply]
          by_cases hk : k.ctl = n
          · rw [if_pos hk, if_pos hk]
            split
            · rfl
            · rw [List.map_tail, x k]
              cases s.owned k.ctl <;> rfl
          · rw [if_neg hk, if_neg hk]; exact x k
        · have e : Pub.step all o s (.op (.unload n)) = { s with cm := (s.cm.unload o n).1 } := if_neg ok
          rw [e]; exact x
      · rw [step_other p (fun n ch as cfg fb e => h1 ⟨n, ch, as, cfg, fb, e⟩) (fun n e => h2 ⟨n, e⟩)]
        exact x

/-- What is missing in full `FullC82`: the histories with a load that fails late. In all others the published variables are exactly those
of the loaded controllers, after every prefix. -/
theorem C82_exact_partial (all : Bool) (o : Oracle) (a b : Bool) (specs : List RM.HwSpec) (l : List Call)
    (hl : ∀ l1 c l2, l = l1 ++ c :: l2 → ¬ Late o (run all o (start o a b specs) l1) c) :
    Exact (run all o (start o a b specs) l) := by
  have key : Ok (run all o (start o a b specs) l) ∧
      ∀ k, (under k (run all o (start o a b specs) l).entries).map (·.obj) = ((run all o (start o a b specs) l).owned k.ctl).toList := by
    induction l using List.reverseRecOn with
    | nil => exact ⟨Ok.start o a b specs, fun k => rfl⟩
    | append_singleton l c ih =>
      obtain ⟨i1, i2⟩ := ih (fun l1 d l2 e => hl l1 d (l2 ++ [c]) (by simp [e]))
      have e : run all o (start o a b specs) (l ++ [c]) = step all o (run all o (start o a b specs) l) c := by simp [run]
      rw [e]
      exact ⟨i1.step c, Exact.step i1 i2 c (hl l c [] rfl)⟩
  obtain ⟨h, x⟩ := key
  generalize run all o (start o a b specs) l = s at h x
  constructor
  · intro e he
    have he' : e.obj ∈ (under e.key s.entries).map (·.obj) := List.mem_map_of_mem (mem_iff_under.1 he)
    rw [x e.key, Option.mem_toList] at he'
    exact ⟨(h.own _).2 (by rw [he']; rfl), he'⟩
  · intro n hn c f
    obtain ⟨i, hi⟩ := Option.isSome_iff_exists.1 ((h.own n).1 hn)
    refine ⟨i, ?_⟩
    have hx := x ⟨n, c, f⟩
    simp only [hi, Option.toList_some] at hx
    show under ⟨n, c, f⟩ s.entries = _
    obtain ⟨e, he, ho⟩ : ∃ e, under ⟨n, c, f⟩ s.entries = [e] ∧ e.obj = i := by
      cases hu : under ⟨n, c, f⟩ s.entries with
      | nil => rw [hu] at hx; cases hx
      | cons e t =>
        rw [hu, List.map_cons, List.cons.injEq, List.map_eq_nil_iff] at hx
        exact ⟨e, by rw [hx.2], hx.1⟩
    have hk : e.key = ⟨n, c, f⟩ := by
      have : e ∈ under ⟨n, c, f⟩ s.entries := by rw [he]; exact List.mem_singleton_self e
      simpa [under] using (List.mem_filter.1 this).2
    rw [he]
    cases e
    simp_all

/-! ## With failing loads -/

/-- An object that was allocated and that no controller holds. -/
def Dead (s : State) (j : Nat) : Prop := j < s.next ∧ ∀ m, s.owned m ≠ some j

theorem Dead.step {all : Bool} {o : Oracle} {s : State} {j : Nat} (h : Dead s j) (d : Call) : Dead (step all o s d) j := by
  cases d with
  | loadUnknown _ => exact h
  | loadBadParams q =>
    by_cases hp : s.cm.pending
    · rw [show Pub.step all o s (.loadBadParams q) = s from if_pos hp]; exact h
    · rw [show Pub.step all o s (.loadBadParams q) = { s with entries := register q s.next s.entries, next := s.next + 1 } from if_neg hp]
      exact ⟨Nat.lt_succ_of_lt h.1, h.2⟩
  | op p =>
    by_cases h1 : ∃ n ch as cfg fb, p = .load n ch as cfg fb
    · obtain ⟨q, ch, as, cfg, fb, rfl⟩ := h1
      by_cases hp : s.cm.pending
      · rw [show Pub.step all o s (.op (.load q ch as cfg fb)) = s from if_pos hp]; exact h
      · rw [show Pub.step all o s (.op (.load q ch as cfg fb)) = _ from if_neg hp]
        refine ⟨Nat.lt_succ_of_lt h.1, fun m => ?_⟩
        show (if (s.cm.load o q ch as cfg fb).2 = .ok then upd s.owned q (some s.next) else s.owned) m ≠ _
        split
        · rw [upd_apply]
          split
          · intro e; cases e; exact Nat.lt_irrefl _ h.1
          · exact h.2 m
        · exact h.2 m
    · by_cases h2 : ∃ n, p = .unload n
      · obtain ⟨q, rfl⟩ := h2
        by_cases ok : (s.cm.unload o q).2 = .ok
        · rw [show Pub.step all o s (.op (.unload q)) = { s with cm := (s.cm.unload o q).1, entries := unregister all q s.entries, owned := upd s.owned q none } from if_pos ok]
          refine ⟨h.1, fun m => ?_⟩
          show upd s.owned q none m ≠ _
          rw [upd_apply]
          split
          · simp
          · exact h.2 m
        · rw [show Pub.step all o s (.op (.unload q)) = { s with cm := (s.cm.unload o q).1 } from if_neg ok]
          exact h
      · rw [step_other p (fun n ch as cfg fb e => h1 ⟨n, ch, as, cfg, fb, e⟩) (fun n e => h2 ⟨n, e⟩)]
        exact h

theorem Dead.run {all : Bool} {o : Oracle} {s : State} {j : Nat} (h : Dead s j) (l : List Call) : Dead (run all o s l) j := by
  induction l generalizing s with
  | nil => exact h
  | cons c t ih => exact ih (h.step c)

/-- A registration stays as long as the controller is not unloaded. -/
theorem stay {all : Bool} {o : Oracle} {s : State} {e : Entry} (h : e ∈ s.entries) (d : Call)
    (hd : d = .op (.unload e.key.ctl) → (s.cm.unload o e.key.ctl).2 ≠ .ok) : e ∈ (step all o s d).entries := by
  cases d with
  | loadUnknown _ => exact h
  | loadBadParams q =>
    show e ∈ (if s.cm.pending then s else _ : State).entries
    split
    · exact h
    · exact mem_register.2 (.inl h)
  | op p =>
    by_cases h1 : ∃ n ch as cfg fb, p = .load n ch as cfg fb
    · obtain ⟨q, ch, as, cfg, fb, rfl⟩ := h1
      show e ∈ (if s.cm.pending then s else _ : State).entries
      split
      · exact h
      · exact mem_register.2 (.inl h)
    · by_cases h2 : ∃ n, p = .unload n
      · obtain ⟨q, rfl⟩ := h2
        show e ∈ (if (s.cm.unload o q).2 = .ok then _ else _ : State).entries
        split
        · rename_i ok
          have hq : e.key.ctl ≠ q := by
            rintro rfl
            exact hd rfl ok
          exact (mem_unregister_other hq).2 h
        · exact h
      · rw [step_other p (fun n ch as cfg fb e => h1 ⟨n, ch, as, cfg, fb, e⟩) (fun n e => h2 ⟨n, e⟩)]
        exact h

theorem stay_run {all : Bool} {o : Oracle} {s : State} {e : Entry} (h : e ∈ s.entries) (l : List Call)
    (hl : ∀ l1 l2, l = l1 ++ .op (.unload e.key.ctl) :: l2 → ((run all o s l1).cm.unload o e.key.ctl).2 ≠ .ok) :
    e ∈ (run all o s l).entries := by
  induction l generalizing s with
  | nil => exact h
  | cons d t ih =>
    refine ih (stay h d (fun hd => hl [] t (by rw [hd]; rfl))) (fun l1 l2 e1 => ?_)
    exact hl (d :: l1) l2 (by rw [e1]; rfl)

/-- What a call that fails late does. -/
theorem late_step {all : Bool} {o : Oracle} {s : State} {c : Call} (hc : Late o s c) :
    ∃ n, (c = .loadBadParams n ∨ ∃ ch as cfg fb, c = .op (.load n ch as cfg fb)) ∧
      (step all o s c).entries = register n s.next s.entries ∧ (step all o s c).owned = s.owned ∧
      (step all o s c).next = s.next + 1 := by
  cases c with
  | loadUnknown n => exact hc.elim
  | loadBadParams n =>
    have hp : s.cm.pending = false := hc
    have e : step all o s (.loadBadParams n) = { s with entries := register n s.next s.entries, next := s.next + 1 } :=
      if_neg (by simp [hp])
    exact ⟨n, .inl rfl, by rw [e], by rw [e], by rw [e]⟩
  | op p =>
    cases p with
    | load n ch as cfg fb =>
      obtain ⟨hp, hr⟩ := hc
      have e : step all o s (.op (.load n ch as cfg fb)) =
          ⟨(s.cm.load o n ch as cfg fb).1, register n s.next s.entries, s.owned, s.next + 1⟩ := by
        refine (if_neg (by simp [hp])).trans ?_
        show State.mk _ _ (if (s.cm.load o n ch as cfg fb).2 = .ok then _ else _) _ = _
        rw [if_neg hr]
      exact ⟨n, .inr ⟨ch, as, cfg, fb, rfl⟩, by rw [e], by rw [e], by rw [e]⟩
    | _ => exact hc.elim

/-- A load that fails late registers all twelve variables of its name, with an object that never lives: from then on, whatever happens,
it is dead, and the registrations stay until a controller of that name is unloaded successfully. -/
theorem C82_dangling (all : Bool) (o : Oracle) (a b : Bool) (specs : List RM.HwSpec) (l : List Call) (c : Call)
    (hc : Late o (run all o (start o a b specs) l) c) :
    ∃ n obj, (c = .loadBadParams n ∨ ∃ ch as cfg fb, c = .op (.load n ch as cfg fb)) ∧
      ∀ l', ¬ Alive (run all o (start o a b specs) (l ++ c :: l')) obj ∧
        ((∀ l1 l2, l' = l1 ++ .op (.unload n) :: l2 →
            ((run all o (start o a b specs) (l ++ c :: l1)).cm.unload o n).2 ≠ .ok) →
          ∀ k f, (⟨⟨n, k, f⟩, obj⟩ : Entry) ∈ (run all o (start o a b specs) (l ++ c :: l')).entries) := by
  have h := (Ok.start o a b specs).run (all := all) (o := o) l
  have er : ∀ l', run all o (start o a b specs) (l ++ c :: l') = run all o (step all o (run all o (start o a b specs) l) c) l' := by
    intro l'; simp [run]
  simp only [er]
  generalize run all o (start o a b specs) l = s at h hc
  obtain ⟨n, hn, e1, e2, e3⟩ := late_step (all := all) hc
  refine ⟨n, s.next, hn, fun l' => ⟨?_, fun hl k f => ?_⟩⟩
  · have dead0 : Dead (step all o s c) s.next := by
      refine ⟨by rw [e3]; exact Nat.lt_succ_self _, fun m hm => ?_⟩
      rw [e2] at hm
      exact absurd (h.lt _ _ hm) (Nat.lt_irrefl _)
    rintro ⟨m, _, hm⟩
    exact (dead0.run l').2 m hm
  · exact stay_run (e := ⟨⟨n, k, f⟩, s.next⟩) (by rw [e1]; exact mem_register.2 (.inr ⟨rfl, rfl⟩)) l' hl

/-- A successful unload of a controller removes all registrations of its name, dead ones included, if the library unregisters all
variables of a name; the registrations of other controllers are not touched. -/
theorem C82_unload (o : Oracle) (a b : Bool) (specs : List RM.HwSpec) (l : List Call) (n : Name)
    (ok : ((run true o (start o a b specs) l).cm.unload o n).2 = .ok) (e : Entry) :
    e ∈ (run true o (start o a b specs) (l ++ [.op (.unload n)])).entries ↔
      e ∈ (run true o (start o a b specs) l).entries ∧ e.key.ctl ≠ n := by
  have er : run true o (start o a b specs) (l ++ [.op (.unload n)]) = step true o (run true o (start o a b specs) l) (.op (.unload n)) := by
    simp [run]
  rw [er]
  generalize run true o (start o a b specs) l = s at ok
  rw [show step true o s (.op (.unload n)) = _ from if_pos ok]
  show e ∈ unregister true n s.entries ↔ _
  by_cases h : e.key.ctl = n
  · simp only [h, ne_eq, not_true_eq_false, and_false, iff_false]
    rw [mem_iff_under, under_unregister, if_pos h]
    simp
  · simp [h, mem_unregister_other h]

/-! ## The demo robot -/

/-- The calls of the demo robot. -/
def demoCalls (l : List Call) : List Call := demoSetup.map .op ++ l

/-- The demo robot with the statistics registry. -/
def demoPub (all : Bool) (l : List Call) : State := run all goodOracle (start goodOracle false false demoSpecs) (demoCalls l)

/-- Loading a second controller of the name 300. -/
def again : Call := .op (.load 300 false false (plainCfg [⟨20, 1⟩] []) [])

-- four controllers, 48 variables
example : (demoPub true []).entries.length = 48 ∧ (demoPub true []).cm.ctls.map (·.name) = [200, 400, 100, 300] ∧
    (demoPub true []).owned 300 = some 2 := by decide +kernel

-- unloading 200 and 400 leaves 24
example : (demoPub false [.op (.unload 200), .op (.unload 400)]).entries.length = 24 := by decide +kernel

-- a second load of 300 fails late: twelve more, of which none is alive
example : Late goodOracle (demoPub true []) again := ⟨by decide +kernel, by decide +kernel⟩

example : (demoPub true [again]).entries.length = 60 ∧ (demoPub true [again]).owned 300 = some 2 ∧
    (⟨⟨300, .execution, .max⟩, 4⟩ : Entry) ∈ (demoPub true [again]).entries := by decide +kernel

-- the load of a controller that is its own fallback controller, of an unknown type, with bad parameters
example : (demoPub true [.op (.load 500 false false (plainCfg [] []) [500]), .loadUnknown 600, .loadBadParams 700]).entries.length = 72 := by
  decide +kernel

-- if the library unregistered only the oldest variable of a name, not even unloading would help
example : (demoPub true [again, .op (.unload 300)]).entries.length = 36 ∧ (demoPub false [again, .op (.unload 300)]).entries.length = 48 := by
  decide +kernel

/-- The setup of the demo robot has no load that fails late. -/
theorem demo_fine : ∀ l1 c l2, demoCalls [] = l1 ++ c :: l2 → ¬ Late goodOracle (run true goodOracle (start goodOracle false false demoSpecs) l1) c := by
  have key : ∀ (l : List Call) (s : State), (∀ i, i < l.length → ∀ c, l[i]? = some c →
      ∀ n ch as cfg fb, c = .op (.load n ch as cfg fb) →
        ((run true goodOracle s (l.take i)).cm.load goodOracle n ch as cfg fb).2 = .ok) →
      (∀ c ∈ l, ∃ p, c = .op p) →
      ∀ l1 c l2, l = l1 ++ c :: l2 → ¬ Late goodOracle (run true goodOracle s l1) c := by
    intro l s h1 h2 l1 c l2 e hl
    obtain ⟨p, rfl⟩ := h2 c (by simp [e])
    cases p with
    | load n ch as cfg fb =>
      have := h1 l1.length (by simp [e]) (.op (.load n ch as cfg fb)) (by simp [e]) n ch as cfg fb rfl
      rw [e, List.take_left] at this
      exact hl.2 this
    | _ => exact hl
  refine key _ _ (fun i hi => ?_) (by simp [demoCalls, demoSetup])
  have hi : i < 10 := hi
  intro c hc n ch as cfg fb hcc
  subst hcc
  interval_cases i <;> simp [demoCalls, demoSetup] at hc
  all_goals (obtain ⟨rfl, rfl, rfl, rfl, rfl⟩ := hc; decide +kernel)

example : Exact (demoPub true []) := C82_exact_partial true goodOracle false false demoSpecs (demoCalls []) demo_fine

/-- The full property is false. -/
theorem C82_false : ¬ FullC82 := by
  intro h
  have := (h true goodOracle false false demoSpecs (demoCalls [again])).valid ⟨⟨300, .execution, .max⟩, 4⟩ (by decide +kernel)
  exact absurd this.2 (by decide +kernel)

end Pub
end Verif
