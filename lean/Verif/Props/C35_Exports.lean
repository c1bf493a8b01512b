import Verif.CM.Exposed
import Verif.Props.C39_Claimed
/-!
# C35: interfaces exported by a chainable controller

`RM.Shown rm n`: some reference or state interface exported by `n` is in the lists of available interfaces.
`CM.Requested cm n`: `n` is in the activation list of the switch request that is being carried out.
-/
namespace Verif
open CM

/-- **C35, full statement** (false, see the four witnesses below). -/
def C35_available_only_while_active : Prop :=
  ∀ (o : Oracle) (cm : CM), Reach o cm → ∀ n, cm.rm.Shown n → cm.lcOf n = some .active ∨ cm.Requested n

/-- Nothing is exported before the first controller is configured. -/
theorem RM.loadAll_exp (o : Oracle) (a b : Bool) (specs : List RM.HwSpec) :
    ((RM.empty a b).loadAll o specs).1.expR = (fun _ => none) ∧ ((RM.empty a b).loadAll o specs).1.expS = (fun _ => none) := by
  have one : ∀ (rm : RM) (s : RM.HwSpec), (rm.loadOne o s).1.expR = rm.expR ∧ (rm.loadOne o s).1.expS = rm.expS := by
    intro rm s
    unfold RM.loadOne
    split
    · exact ⟨rfl, rfl⟩
    split
    · exact ⟨rfl, rfl⟩
    extract_lets h0 r rm1 x h1
    have e1 : rm1.expR = rm.expR ∧ rm1.expS = rm.expS := ⟨rfl, rfl⟩
    clear_value rm1
    have e2 : x.1.expR = rm.expR ∧ x.1.expS = rm.expS := by
      simp only [x]; rw [(RM.addStateItfs_spec rm1 s.exportS).eq]; exact e1
    clear_value x h1 r
    split
    · split
      · exact e2
      · obtain ⟨ks, cl, e, _⟩ := (RM.addCmdItfs_spec x.1 s.exportC).eq
        split
        · rename_i rm2 names he
          rw [he] at e; simp only at e; rw [e]; exact e2
        · rename_i rm2 he
          rw [he] at e; simp only at e; rw [e]; exact e2
    · exact e1
  have key : ∀ (l : List RM.HwSpec) (acc : RM × Bool),
      (l.foldl (fun (acc : RM × Bool) s => if acc.2 then acc.1.loadOne o s else acc) acc).1.expR = acc.1.expR ∧
      (l.foldl (fun (acc : RM × Bool) s => if acc.2 then acc.1.loadOne o s else acc) acc).1.expS = acc.1.expS := by
    intro l
    induction l with
    | nil => intro acc; exact ⟨rfl, rfl⟩
    | cons s t ih =>
      intro acc
      simp only [List.foldl_cons]
      rw [(ih _).1, (ih _).2]
      split
      · exact one _ _
      · exact ⟨rfl, rfl⟩
  have := key specs (RM.empty a b, true)
  unfold RM.loadAll
  dsimp only
  split
  · exact this
  · exact this

/-- Invariant behind C35. -/
theorem CM.run_okay (o : Oracle) (a b : Bool) (specs : List RM.HwSpec) (n : Name) (ops : List Op) :
    (run o (start o a b specs) ops).Okay ((run o (start o a b specs) ops).Requested n) n ∨
    ∃ pre op post, ops = pre ++ op :: post ∧ (run o (start o a b specs) pre).Wanted n op ∧
      (run o (start o a b specs) (pre ++ [op])).lcOf n ≠ some .active ∧
      ¬ (run o (start o a b specs) (pre ++ [op])).Requested n := by
  induction ops using List.reverseRecOn with
  | nil =>
    left
    have hR : (start o a b specs).rm.expR = fun _ => none := (RM.loadAll_exp o a b specs).1
    have hS : (start o a b specs).rm.expS = fun _ => none := (RM.loadAll_exp o a b specs).2
    refine ⟨?_, ?_⟩
    · intro _; show (start o a b specs).rm.expR n = none; rw [hR]
    · rintro (⟨l, h, _⟩ | ⟨l, h, _⟩)
      · have h : (start o a b specs).rm.expR n = some l := h
        rw [hR] at h; simp at h
      · have h : (start o a b specs).rm.expS n = some l := h
        rw [hS] at h; simp at h
  | append_singleton ops op ih =>
    rcases ih with h | ⟨pre, q, post, e, h1, h2⟩
    swap
    · exact .inr ⟨pre, q, post ++ [op], by rw [e]; simp, h1, h2⟩
    have R : Reach o (run o (start o a b specs) ops) := ⟨a, b, specs, ops, rfl⟩
    have e : run o (start o a b specs) (ops ++ [op]) = (run o (start o a b specs) ops).step o op := by
      unfold run; rw [List.foldl_append]; rfl
    have k := step_okay o R.inv R.idle op n h
    rw [← e] at k
    by_cases hw : (run o (start o a b specs) ops).Wanted n op
    swap
    · exact .inl (k.mono (fun x => absurd x hw))
    by_cases ha : (run o (start o a b specs) (ops ++ [op])).lcOf n = some .active
    · left
      refine ⟨k.1, fun x => ?_⟩
      obtain ⟨c, h1, h2, _⟩ := k.2 x
      refine ⟨c, h1, h2, .inr ?_⟩
      unfold CM.lcOf at ha; rw [h1] at ha; simpa using ha
    by_cases hq : (run o (start o a b specs) (ops ++ [op])).Requested n
    · exact .inl (k.mono (fun _ => hq))
    · exact .inr ⟨ops, op, [], rfl, hw, ha, hq⟩

/-- **C35, partial.** In every history: if an interface exported by `n` is available, then `n` is a loaded chainable
controller that is active or in the activation list of the switch request that is being carried out, or earlier in
this history an operation at which `n` was wanted (it was in the pending or the new switch request, a fallback
during an `update`, or the program shut the controllers down) ended with `n` neither active nor still requested.
Missing: what such an unsuccessful attempt leaves behind. It can leave the interfaces available for ever, see
`C35_rejected`, `C35_not_claimed`, `C35_timeout` and `C35_shutdown`. -/
theorem C35_exports_available_partial (o : Oracle) (a b : Bool) (specs : List RM.HwSpec) (ops : List Op) (n : Name)
    (hs : (run o (start o a b specs) ops).rm.Shown n) :
    (∃ c, (run o (start o a b specs) ops).find n = some c ∧ c.chainable = true ∧
      (c.lc = .active ∨ (run o (start o a b specs) ops).Requested n)) ∨
    ∃ pre op post, ops = pre ++ op :: post ∧ (run o (start o a b specs) pre).Wanted n op ∧
      (run o (start o a b specs) (pre ++ [op])).lcOf n ≠ some .active ∧
      ¬ (run o (start o a b specs) (pre ++ [op])).Requested n := by
  rcases run_okay o a b specs n ops with h | h
  · obtain ⟨c, h1, h2, h3⟩ := h.2 hs
    exact .inl ⟨c, h1, h2, h3.symm⟩
  · exact .inr h

/-- Decidable version of `RM.Shown`, for the examples. -/
def RM.shown (rm : RM) (n : Name) : Bool :=
  ((rm.expR n).getD []).any (· ∈ rm.availC) || ((rm.expS n).getD []).any (· ∈ rm.availS)

theorem RM.shown_iff (rm : RM) (n : Name) : rm.shown n = true ↔ rm.Shown n := by
  unfold RM.shown RM.Shown
  cases rm.expR n <;> cases rm.expS n <;> simp

/-- Non-vacuity: the interfaces of 100 are not available after configuration, available while it runs, and not
available after it was stopped by a switch or by a failing hardware component. -/
example : (demo goodOracle []).rm.shown 100 = false ∧
    (demo goodOracle (switchOps [100] [] .strict)).rm.shown 100 = true ∧
    (demo goodOracle (switchOps [100] [] .strict)).lcOf 100 = some .active ∧
    (demo goodOracle (switchOps [100] [] .strict ++ switchOps [] [100] .strict)).rm.shown 100 = false ∧
    (demo read1Fails (switchOps [100] [] .strict ++ [.read runAll])).rm.shown 100 = false := by decide

/-- **C35, negation (1).** A STRICT request is refused (200 and 400 both want 100/0), nothing was started, but the
interfaces of 100 stay available. -/
theorem C35_rejected :
    let cm := demo goodOracle [.switchBegin [200, 100, 400] [] .strict true]
    Reach goodOracle cm ∧ cm.pending = false ∧ cm.rm.shown 100 = true ∧ cm.lcOf 100 = some .inactive :=
  ⟨demo_reach _ _, by decide⟩

/-- A chainable controller that drives 20/0, reads 10/1 and exports the state 900/1 and the reference 900/0. -/
def cfg900 : CtlCfg :=
  { cmd := .individual [⟨20, 0⟩], state := .individual [⟨10, 1⟩], exports := some ([⟨900, 1⟩], [⟨900, 0⟩]) }

/-- **C35, negation (2).** Hardware 1 fails after the request was accepted: 900 cannot read 10/1 any more and is not
started, but its interfaces are available after the call returned. -/
theorem C35_not_claimed :
    let cm := demo read1Fails [.load 900 true false cfg900 [], .configure 900 cfg900 [] true,
      .switchBegin [900] [] .strict true, .read runAll, .update (fun _ => true) true, .switchWake]
    Reach read1Fails cm ∧ cm.pending = false ∧ cm.rm.shown 900 = true ∧ cm.lcOf 900 = some .inactive :=
  ⟨demo_reach _ _, by decide⟩

/-- **C35, negation (3).** The request to start 100 and 200 times out before the real-time loop took it up. -/
theorem C35_timeout :
    let cm := demo goodOracle [.switchBegin [200, 100] [] .strict true, .switchTimeout]
    Reach goodOracle cm ∧ cm.pending = false ∧ cm.rm.shown 100 = true ∧ cm.lcOf 100 = some .inactive :=
  ⟨demo_reach _ _, by decide⟩

/-- **C35, negation (4).** `shutdown_controllers` finalizes 100 without making its interfaces unavailable. -/
theorem C35_shutdown :
    let cm := demo goodOracle (switchOps [100] [] .strict ++ [.shutdown])
    Reach goodOracle cm ∧ cm.pending = false ∧ cm.rm.shown 100 = true ∧ cm.lcOf 100 = some .finalized :=
  ⟨demo_reach _ _, by decide⟩

theorem C35_full_false : ¬ C35_available_only_while_active := by
  intro h
  obtain ⟨h1, h2, h3, h4⟩ := C35_rejected
  rcases h _ _ h1 100 ((RM.shown_iff _ _).1 h3) with g | g
  · rw [h4] at g; simp at g
  · have := g.1; rw [h2] at this; simp at this

end Verif
