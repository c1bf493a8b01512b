import Verif.Hw.Lemmas
/-!
# C01 / C02 — hardware component lifecycle

Quantification: every oracle (all plugin answers, depending on the full history), every component,
every list of API calls.
-/
namespace Verif

/-- A component as constructed: state UNKNOWN, nothing called yet. -/
def Hw.fresh (n : Name) (k : HwKind) (g : Option Name) (s c : List Itf) : Hw :=
  { name := n, kind := k, group := g, stateItfs := s, cmdItfs := c, lc := .unknown }

/-- **C01 (refinement).** After any history of API calls the reported lifecycle state is exactly the
one implied by the callbacks that were made and what they answered. -/
theorem C01_state_is_history (o : Oracle) (n : Name) (k : HwKind) (g : Option Name)
    (s c : List Itf) (ops : List HwOp) :
    let r := Hw.run o (Hw.fresh n k g s c, []) ops
    r.1.lc = lcOf n r.2 := by
  intro r
  have g1 := Hw.good_run o (Hw.fresh n k g s c, []) ops
  have := g1.sync (by simp [Hw.Sync, Hw.fresh, lcOf])
  have hn : r.1.name = n := g1.name
  unfold Hw.Sync at this
  rw [show (Hw.run o (Hw.fresh n k g s c, []) ops) = r from rfl] at this
  rw [this, hn]

/-- **C01 + C02 (legality).** Whatever is called and answered, every plugin callback — transition
callbacks, `read`, `write` — is only ever invoked in a state that permits it: in particular `read`
only while INACTIVE or ACTIVE and `write` only while ACTIVE. -/
theorem C02_callbacks_only_in_permitted_states (o : Oracle) (n : Name) (k : HwKind)
    (g : Option Name) (s c : List Itf) (ops : List HwOp) (post pre : List Ev) (e : Ev)
    (h : (Hw.run o (Hw.fresh n k g s c, []) ops).2 = post ++ e :: pre) : HwEvOk pre e := by
  have g1 := Hw.good_run o (Hw.fresh n k g s c, []) ops
  have hk := g1.ok (by simp [Hw.Sync, Hw.fresh, lcOf]) trivial
  rw [h] at hk
  clear h g1
  induction post with
  | nil => exact hk.1
  | cons x post ih => exact ih hk.2

/-- **C02 (sensors).** `write` is never invoked on a sensor. -/
theorem C02_sensor_never_written (o : Oracle) (n : Name) (g : Option Name) (s c : List Itf)
    (ops : List HwOp) (a : IoAns) :
    Ev.hwIo n .write a ∉ (Hw.run o (Hw.fresh n .sensor g s c, []) ops).2 := by
  suffices H : ∀ (st : Hw × List Ev), st.1.kind = .sensor →
      (∀ e ∈ st.2, ∀ m a, e ≠ .hwIo m .write a) →
      ∀ e ∈ (Hw.run o st ops).2, ∀ m a, e ≠ .hwIo m .write a by
    intro hm
    exact H (Hw.fresh n .sensor g s c, []) rfl (by simp) _ hm n a rfl
  induction ops with
  | nil => intro st _ h; exact h
  | cons op t ih =>
    intro st hk h
    refine ih (Hw.step o st op) ?_ ?_
    · rw [(Hw.good_step o st op).frame]; exact hk
    · have herr : ∀ (x : Hw) (tr : List Ev), (∀ e ∈ tr, ∀ m a, e ≠ Ev.hwIo m .write a) →
          ∀ e ∈ (x.error o tr).2, ∀ m a, e ≠ Ev.hwIo m .write a := by
        intro x tr ht
        unfold Hw.error
        split
        · split <;> simp <;> exact ht
        · exact ht
      have key : ∀ (e0 : Ev), (∀ m a, e0 ≠ Ev.hwIo m .write a) →
          ∀ e ∈ e0 :: st.2, ∀ m a, e ≠ Ev.hwIo m .write a := by
        intro e0 h0 e he
        rcases List.mem_cons.1 he with he | he
        · subst he; exact h0
        · exact h e he
      cases op <;> simp only [Hw.step, Hw.init, Hw.configure, Hw.cleanup, Hw.shutdown, Hw.activate,
        Hw.deactivate, Hw.read, Hw.write, hk, if_true]
      case error => exact herr _ _ h
      case write => exact h
      all_goals
        split
        · split <;> first
            | exact key _ (by simp)
            | exact herr _ _ (key _ (by simp))
        · exact h

/-- **C01 (edges), partial.** Every API call other than one made on a FINALIZED component moves the
reported state along a documented edge or leaves it unchanged. Missing for the full claim:
FINALIZED is *not* terminal in the code, see `C01_finalized_is_not_terminal`. -/
theorem C01_edges_partial (o : Oracle) (h : Hw) (tr : List Ev) (op : HwOp)
    (hf : h.lc ≠ .finalized) :
    (Hw.step o (h, tr) op).1.lc = h.lc ∨ LegalEdge h.lc (Hw.step o (h, tr) op).1.lc := by
  have herr : ∀ tr', (h.error o tr').1.lc = h.lc ∨ LegalEdge h.lc (h.error o tr').1.lc := by
    intro tr'
    unfold Hw.error
    split
    · rename_i hh
      cases hl : h.lc <;> simp_all <;> split <;> simp <;> constructor
    · left; rfl
  cases op <;> simp only [Hw.step, Hw.init, Hw.configure, Hw.cleanup, Hw.shutdown, Hw.activate,
        Hw.deactivate, Hw.read, Hw.write]
  case error => exact herr tr
  case write =>
    split
    · left; rfl
    split
    · split
      · exact herr _
      · left; rfl
    · left; rfl
  all_goals
    split
    · rename_i hh
      split <;> first
        | exact herr _
        | (left; rfl)
        | (right; rw [hh]; constructor; done)
        | (left; simp [hh]; done)
        | (cases hl : h.lc <;> simp_all <;> constructor)
    · left; rfl

/-- **C01 (edges), terminal state.** The only way out of FINALIZED is an explicit `error()` call whose
`on_error` succeeds; the component is then UNCONFIGURED. -/
theorem C01_out_of_finalized (o : Oracle) (h : Hw) (tr : List Ev) (op : HwOp)
    (hf : h.lc = .finalized) (hne : (Hw.step o (h, tr) op).1.lc ≠ .finalized) :
    op = .error ∧ (Hw.step o (h, tr) op).1.lc = .unconfigured := by
  cases op <;> simp only [Hw.step, Hw.init, Hw.configure, Hw.cleanup, Hw.shutdown, Hw.activate,
        Hw.deactivate, Hw.read, Hw.write, Hw.error, hf] at hne ⊢
  case error =>
    simp at hne ⊢
    split at hne <;> simp_all
  all_goals simp_all
  all_goals (split at hne <;> simp_all)

/-- A plugin whose every callback succeeds. -/
def goodOracle : Oracle where
  hwCb := fun _ _ _ => .success
  hwErr := fun _ _ => .success
  hwIo := fun _ _ _ => .ret .ok
  hwMode := fun _ _ _ _ _ => .ret .ok
  ctlCb := fun _ _ _ => .success
  ctlErr := fun _ _ => .success
  ctlUpdate := fun _ _ => .ret .ok
  ctlChained := fun _ _ _ => true

/-- **C01, negation of the full claim.** In the code a FINALIZED component leaves FINALIZED when
`error()` is called and `on_error` succeeds (hardware_component.cpp:222-250 has no guard for
FINALIZED); the documented lifecycle has no such edge. -/
theorem C01_finalized_is_not_terminal :
    let st := Hw.run goodOracle (Hw.fresh 1 .system none [] [], []) [.init, .shutdown]
    st.1.lc = .finalized ∧ (Hw.step goodOracle st .error).1.lc = .unconfigured ∧
    ¬ LegalEdge .finalized .unconfigured := by
  refine ⟨by decide, by decide, ?_⟩
  intro h; cases h

/-- **C01 (ACTIVE is earned).** If a component reports ACTIVE, its `on_activate` succeeded, and since
then none of its transition callbacks succeeded and `on_error` was not run. -/
theorem C01_active_is_earned (o : Oracle) (n : Name) (k : HwKind) (g : Option Name)
    (s c : List Itf) (ops : List HwOp)
    (h : (Hw.run o (Hw.fresh n k g s c, []) ops).1.lc = .active) :
    ∃ post pre, (Hw.run o (Hw.fresh n k g s c, []) ops).2
        = post ++ .hwCb n .activate .success :: pre ∧
      ∀ e ∈ post, (∀ cb, e ≠ .hwCb n cb .success) ∧ (∀ a, e ≠ .hwErr n a) := by
  rw [C01_state_is_history] at h
  exact lcOf_active h

/-- **C01/C02.** A `read` or `write` that reports ERROR never leaves the component INACTIVE/ACTIVE: it
ends UNCONFIGURED (if `on_error` succeeds) or FINALIZED. -/
theorem C01_io_error_leaves_active (o : Oracle) (h : Hw) (tr : List Ev) :
    ((h.read o tr).2.2 = .ret .error →
      (h.read o tr).1.lc = .unconfigured ∨ (h.read o tr).1.lc = .finalized) ∧
    ((h.write o tr).2.2 = .ret .error →
      (h.write o tr).1.lc = .unconfigured ∨ (h.write o tr).1.lc = .finalized) := by
  have herr : ∀ tr, (h.lc = .inactive ∨ h.lc = .active) →
      (h.error o tr).1.lc = .unconfigured ∨ (h.error o tr).1.lc = .finalized := by
    intro tr hl
    unfold Hw.error
    rw [if_pos (by rcases hl with hl | hl <;> simp [hl])]
    split <;> simp
  constructor
  · unfold Hw.read
    split
    · rename_i hl
      split
      · intro _; exact herr _ hl
      · rename_i hne; intro hh; exact absurd hh hne
    · simp
  · unfold Hw.write
    split
    · simp
    split
    · rename_i hl
      split
      · intro _; exact herr _ (Or.inr hl)
      · rename_i hne; intro hh; exact absurd hh hne
    · simp

/-- Non-vacuity: a component driven to ACTIVE, read and written. -/
example :
    let r := Hw.run goodOracle (Hw.fresh 7 .system none [] [], [])
      [.init, .configure, .activate, .read, .write]
    r.1.lc = .active ∧ r.2.length = 5 := by decide

/-- Non-vacuity of `C01_io_error_leaves_active`: an ACTIVE component whose read fails. -/
example :
    let o : Oracle := { goodOracle with hwIo := fun _ _ _ => .ret .error }
    let h : Hw := { Hw.fresh 7 .system none [] [] with lc := .active }
    (h.read o []).2.2 = .ret .error ∧ (h.read o []).1.lc = .unconfigured := by decide

end Verif
