import Verif.CM.Sys
import Verif.CM.Spec
/-!
# Elementary steps of the abstract system and their invariants
-/
namespace Verif

/-! ## Claims -/

namespace RM

theorem foldl_release (l : List Itf) (rm : RM) :
    l.foldl RM.release rm = { rm with claimed := fun i => if i ∈ l then some false else rm.claimed i } := by
  induction l generalizing rm with
  | nil => simp
  | cons a t ih =>
    simp only [List.foldl_cons]
    rw [ih]
    simp only [release]
    congr 1
    funext i
    simp only [upd_apply, List.mem_cons]
    by_cases h1 : i ∈ t <;> by_cases h2 : i = a <;> simp [h1, h2]

theorem foldl_release_append (a b : List Itf) (rm : RM) :
    (a ++ b).foldl RM.release rm = b.foldl RM.release (a.foldl RM.release rm) := List.foldl_append

/-- Result of claiming a list of interfaces. -/
theorem claimAll_some {rm rm1 : RM} {acc l loans : List Itf} (h : CM.claimAll rm acc l = (rm1, some loans)) :
    loans = acc ++ l ∧ l.Nodup ∧
    (∀ i ∈ l, rm.claimed i = some false ∧ i ∈ rm.availC ∧ i ∈ rm.cmdKeys) ∧
    rm1 = { rm with claimed := fun i => if i ∈ l then some true else rm.claimed i } := by
  induction l generalizing rm acc with
  | nil => simp [CM.claimAll] at h; obtain ⟨rfl, rfl⟩ := h; simp
  | cons i t ih =>
    unfold CM.claimAll at h
    split at h
    · simp at h
    · simp at h
    · rename_i hc
      split at h
      · rename_i rm2 h2
        unfold claim at h2
        split at h2
        swap
        · simp at h2
        rename_i hav
        split at h2
        · simp at h2
        · simp at h2
        rename_i hcl
        simp only [Prod.mk.injEq, decide_eq_true_eq] at h2
        obtain ⟨rfl, hk⟩ := h2
        obtain ⟨e1, e2, e3, e4⟩ := ih h
        simp only at e3 e4
        have hit : i ∉ t := by
          intro hi
          have := (e3 i hi).1
          simp at this
        refine ⟨by simp [e1], by simp [hit, e2], ?_, ?_⟩
        · intro j hj
          rcases List.mem_cons.1 hj with rfl | hj
          · exact ⟨hcl, hav, hk⟩
          · have := e3 j hj
            have hne : j ≠ i := fun e => hit (e ▸ hj)
            rw [upd_ne _ _ hne] at this
            exact this
        · rw [e4]
          congr 1
          funext j
          simp only [upd_apply, List.mem_cons]
          by_cases h1 : j ∈ t <;> by_cases h2 : j = i <;> simp [h1, h2]
      · simp at h

/-- A failed attempt gives everything back; only an interface that no longer exists may stay marked. -/
theorem claimAll_none {rm rm1 : RM} {acc l : List Itf} (h : CM.claimAll rm acc l = (rm1, none)) :
    ∃ g fl, rm1 = { rm with claimed := g, fault := fl } ∧ (rm.fault = true → fl = true) ∧
      (∀ i ∈ acc, g i = some false) ∧
      ∀ i, i ∉ acc → g i = rm.claimed i ∨ (rm.claimed i = some false ∧ i ∉ rm.cmdKeys ∧ g i = some true) := by
  induction l generalizing rm acc with
  | nil => simp [CM.claimAll] at h
  | cons i t ih =>
    unfold CM.claimAll at h
    split at h
    · simp only [Prod.mk.injEq, and_true] at h
      subst h
      rw [foldl_release]
      exact ⟨_, _, rfl, fun _ => rfl, fun j hj => by simp [hj], fun j hj => by simp [hj]⟩
    · simp only [Prod.mk.injEq, and_true] at h
      subst h
      rw [foldl_release]
      exact ⟨_, _, rfl, id, fun j hj => by simp [hj], fun j hj => by simp [hj]⟩
    · rename_i hc
      split at h
      · rename_i rm2 h2
        unfold claim at h2
        split at h2
        swap
        · simp at h2
        split at h2
        · simp at h2
        · simp at h2
        rename_i hav hcl
        simp only [Prod.mk.injEq, decide_eq_true_eq] at h2
        obtain ⟨rfl, hk⟩ := h2
        obtain ⟨g, fl, e, hfl, ha, hn⟩ := ih h
        refine ⟨g, fl, e, hfl, fun j hj => ha j (by simp [hj]), ?_⟩
        intro j hj
        by_cases hji : j = i
        · subst hji
          left; rw [ha j (by simp)]; exact hcl.symm
        · have := hn j (by simp [hj, hji])
          simpa only [upd_ne _ _ hji] using this
      · rename_i rm2 h2
        simp only [Prod.mk.injEq, and_true] at h
        subst h
        unfold claim at h2
        split at h2
        swap
        · simp only [Prod.mk.injEq, and_true] at h2
          subst h2
          rw [foldl_release]
          exact ⟨_, _, rfl, id, fun j hj => by simp [hj], fun j hj => by simp [hj]⟩
        split at h2
        · simp only [Prod.mk.injEq, and_true] at h2
          subst h2
          rw [foldl_release]
          exact ⟨_, _, rfl, id, fun j hj => by simp [hj], fun j hj => by simp [hj]⟩
        · simp only [Prod.mk.injEq, and_true] at h2
          subst h2
          rw [foldl_release]
          exact ⟨_, _, rfl, id, fun j hj => by simp [hj], fun j hj => by simp [hj]⟩
        · rename_i hcl
          simp only [Prod.mk.injEq, decide_eq_false_iff_not] at h2
          obtain ⟨rfl, hk⟩ := h2
          rw [foldl_release]
          refine ⟨_, _, rfl, id, fun j hj => by simp [hj], fun j hj => ?_⟩
          by_cases hji : j = i
          · subst hji
            right; exact ⟨hcl, hk, by simp [hj]⟩
          · left; simp [hj, upd_ne _ _ hji]

end RM

namespace Sys

/-- Who holds what. `ex` names controllers that are in the middle of a transition. -/
structure Claims (ex : Name → Prop) (s : Sys) : Prop where
  rm : s.rm.Inv
  idle : ∀ n c, s.k n = some c → ¬ ex n → c.lc ≠ .active → c.held = []
  nod : ∀ n c, s.k n = some c → c.held.Nodup
  uniq : ∀ n m c d i, s.k n = some c → s.k m = some d → i ∈ c.held → i ∈ d.held → i ∉ s.dropped → n = m
  mark : ∀ n c i, s.k n = some c → i ∈ c.held → i ∉ s.dropped → s.rm.claimed i = some true
  held : ∀ i, s.rm.claimed i = some true → i ∉ s.dropped → ∃ n c, s.k n = some c ∧ i ∈ c.held
  dom : ∀ i, s.rm.claimed i ≠ none → i ∉ s.dropped → i ∈ s.rm.cmdKeys
  dhw : ∀ i ∈ s.dropped, ∀ h ∈ s.rm.comps, i ∉ h.cmdItfs

theorem Claims.mono {ex ex' : Name → Prop} {s : Sys} (h : Claims ex s) (hx : ∀ n, ex n → ex' n) : Claims ex' s :=
  { h with idle := fun n c hn he => h.idle n c hn (fun e => he (hx n e)) }

theorem static_cmd {rm rm' : RM} (h : rm'.comps.map Hw.static = rm.comps.map Hw.static) {i : Itf}
    (hi : ∀ h ∈ rm.comps, i ∉ h.cmdItfs) : ∀ h ∈ rm'.comps, i ∉ h.cmdItfs := by
  intro a ha hia
  have : Hw.static a ∈ rm.comps.map Hw.static := by rw [← h]; exact List.mem_map_of_mem ha
  obtain ⟨b, hb, e⟩ := List.mem_map.1 this
  have : b.cmdItfs = a.cmdItfs := by
    have := congrArg Hw.cmdItfs e
    simpa [Hw.static] using this
  exact hi b hb (this ▸ hia)

theorem Claims.rmStep {ex} {s : Sys} (h : Claims ex s) {rm' : RM} (st : RM.RmStep s.rm rm') :
    Claims ex { s with rm := rm' } where
  rm := st.inv
  idle := h.idle
  nod := h.nod
  uniq := h.uniq
  mark := fun n c i a b d => by simp only [st.claimed]; exact h.mark n c i a b d
  held := fun i a b => by simp only [st.claimed] at a; exact h.held i a b
  dom := fun i a b => by simp only [st.claimed, st.cmdKeys] at a ⊢; exact h.dom i a b
  dhw := fun i hi => static_cmd st.comps (h.dhw i hi)

/-- Changing a controller without touching its loans. -/
theorem Claims.set {ex} {s : Sys} (h : Claims ex s) {n : Name} {c c' : Core} (hc : s.k n = some c)
    (hh : c'.held = c.held) (hi : ¬ ex n → c'.lc ≠ .active → c'.held = []) : Claims ex (s.set n c') := by
  have key : ∀ m d, (s.set n c').k m = some d → ∃ d', s.k m = some d' ∧ d'.held = d.held := by
    intro m d hd
    simp only [Sys.set, upd_apply] at hd
    split at hd
    · rename_i e; subst e; simp at hd; subst hd; exact ⟨c, hc, hh.symm⟩
    · exact ⟨d, hd, rfl⟩
  refine ⟨h.rm, ?_, ?_, ?_, ?_, ?_, h.dom, h.dhw⟩
  · intro m d hd he hl
    simp only [Sys.set, upd_apply] at hd
    split at hd
    · rename_i e; subst e; simp at hd; subst hd; exact hi he hl
    · exact h.idle m d hd he hl
  · intro m d hd
    obtain ⟨d', h1, h2⟩ := key m d hd
    rw [← h2]; exact h.nod m d' h1
  · intro m m' d d' i hd hd' a b
    obtain ⟨x, h1, h2⟩ := key m d hd
    obtain ⟨y, h3, h4⟩ := key m' d' hd'
    rw [← h2] at a; rw [← h4] at b
    exact h.uniq m m' x y i h1 h3 a b
  · intro m d i hd a
    obtain ⟨x, h1, h2⟩ := key m d hd
    rw [← h2] at a
    exact h.mark m x i h1 a
  · intro i a b
    obtain ⟨m, d, h1, h2⟩ := h.held i a b
    by_cases e : m = n
    · subst e
      refine ⟨m, c', by simp [Sys.set], ?_⟩
      rw [h1] at hc; simp at hc; subst hc; rw [hh]; exact h2
    · exact ⟨m, d, by simp [Sys.set, upd_ne _ _ e, h1], h2⟩

theorem Claims.push {ex} {s : Sys} (h : Claims ex s) (e : Ev) (he : e.hwName = none) : Claims ex (s.push e) :=
  { h with rm := RM.inv_push h.rm e he }

theorem inv_foldl_release {rm : RM} (I : rm.Inv) (l : List Itf) : RM.Inv (l.foldl RM.release rm) :=
  foldl_inv RM.Inv _ _ _ I (fun _ k _ h => RM.inv_release h k)

/-- Giving the loans of a controller back. -/
theorem Claims.drop {ex} {s : Sys} (h : Claims ex s) {n : Name} {c c' : Core} (hc : s.k n = some c)
    (hh : c'.held = []) :
    Claims (fun m => ex m ∧ m ≠ n) (({ s with rm := c.held.foldl RM.release s.rm } : Sys).set n c') := by
  have I := inv_foldl_release h.rm c.held
  rw [RM.foldl_release] at I ⊢
  have key : ∀ m d i, upd s.k n (some c') m = some d → i ∈ d.held → m ≠ n ∧ s.k m = some d := by
    intro m d i hd hi
    simp only [upd_apply] at hd
    split at hd
    · simp at hd; subst hd; rw [hh] at hi; simp at hi
    · exact ⟨by assumption, hd⟩
  refine ⟨I, ?_, ?_, ?_, ?_, ?_, ?_, ?_⟩
  · intro m d hd he hl
    simp only [Sys.set, upd_apply] at hd
    split at hd
    · simp at hd; subst hd; exact hh
    · rename_i e; exact h.idle m d hd (fun x => he ⟨x, e⟩) hl
  · intro m d hd
    simp only [Sys.set, upd_apply] at hd
    split at hd
    · simp at hd; subst hd; rw [hh]; simp
    · exact h.nod m d hd
  · intro m m' d d' i hd hd' a b x
    exact h.uniq m m' d d' i (key _ _ _ hd a).2 (key _ _ _ hd' b).2 a b x
  · intro m d i hd a x
    obtain ⟨hne, hk⟩ := key _ _ _ hd a
    have : i ∉ c.held := fun hi => hne (h.uniq m n d c i hk hc a hi x)
    simp only [Sys.set, this, if_false]
    exact h.mark m d i hk a x
  · intro i a x
    simp only [Sys.set] at a x
    split at a
    · simp at a
    · rename_i hni
      obtain ⟨m, d, h1, h2⟩ := h.held i a x
      have hne : m ≠ n := by
        intro e; subst e; rw [hc] at h1; simp at h1; subst h1; exact hni h2
      exact ⟨m, d, by simp [Sys.set, upd_ne _ _ hne, h1], h2⟩
  · intro i a x
    simp only [Sys.set] at a x ⊢
    split at a
    · rename_i hi
      exact h.dom i (by rw [h.mark n c i hc hi x]; simp) x
    · exact h.dom i a x
  · exact h.dhw

theorem Claims.release {ex} {s : Sys} (h : Claims ex s) (n : Name) :
    Claims (fun m => ex m ∧ m ≠ n) (s.release n) := by
  unfold Sys.release
  split
  · rename_i hk
    refine { h with idle := ?_ }
    intro m c hm he hl
    by_cases e : m = n
    · subst e; rw [hk] at hm; simp at hm
    · exact h.idle m c hm (fun x => he ⟨x, e⟩) hl
  · rename_i c hc
    exact h.drop hc rfl

/-- Claiming a list of interfaces for a controller whose previous loans are given back. -/
theorem Claims.take {ex} {s : Sys} (h : Claims ex s) {n : Name} {c : Core} (hc : s.k n = some c)
    {l loans : List Itf} {rm1 : RM} (hcl : CM.claimAll s.rm [] l = (rm1, some loans)) :
    Claims (fun m => ex m ∨ m = n)
      (({ s with rm := c.held.foldl RM.release rm1 } : Sys).set n { c with held := loans }) := by
  obtain ⟨e1, e2, e3, e4⟩ := RM.claimAll_some hcl
  simp only [List.nil_append] at e1
  subst e1
  have D := h.drop (c' := { c with held := [] }) hc rfl
  -- old loans and new loans are disjoint up to dropped interfaces
  have hdis : ∀ i ∈ loans, i ∈ c.held → i ∈ s.dropped := by
    intro i hi hci
    by_contra hx
    have := h.mark n c i hc hci hx
    rw [(e3 i hi).1] at this; simp at this
  have hnh : ∀ i ∈ loans, ∀ m d, s.k m = some d → i ∈ d.held → i ∈ s.dropped := by
    intro i hi m d hd hdi
    by_contra hx
    have := h.mark m d i hd hdi hx
    rw [(e3 i hi).1] at this; simp at this
  have I1 : rm1.Inv := by
    rw [e4]
    refine h.rm.congr rfl rfl rfl rfl ?_ rfl rfl rfl rfl
    intro k hk
    simp only
    split
    · simp
    · exact h.rm.claimedDom k hk
  have I := inv_foldl_release I1 c.held
  rw [RM.foldl_release] at I ⊢
  subst e4
  refine ⟨I, ?_, ?_, ?_, ?_, ?_, ?_, h.dhw⟩
  · intro m d hd he hl
    simp only [Sys.set, upd_apply] at hd
    split at hd
    · rename_i e; exact absurd (Or.inr e) he
    · exact h.idle m d hd (fun x => he (.inl x)) hl
  · intro m d hd
    simp only [Sys.set, upd_apply] at hd
    split at hd
    · simp at hd; subst hd; exact e2
    · exact h.nod m d hd
  · intro m m' d d' i hd hd' a b x
    simp only [Sys.set, upd_apply] at hd hd' x
    split at hd <;> split at hd'
    · simp_all
    · simp at hd; subst hd
      exact absurd (hnh i a m' d' hd' b) x
    · simp at hd'; subst hd'
      exact absurd (hnh i b m d hd a) x
    · exact h.uniq m m' d d' i hd hd' a b x
  · intro m d i hd a x
    simp only [Sys.set, upd_apply] at hd x ⊢
    split at hd
    · simp at hd; subst hd
      have : i ∉ c.held := fun hci => x (hdis i a hci)
      simp only at a
      simp [this, a]
    · rename_i hne
      have h1 : i ∉ c.held := fun hci => hne (h.uniq m n d c i hd hc a hci x)
      have h2 : i ∉ loans := fun hl => x (hnh i hl m d hd a)
      simp [h1, h2, h.mark m d i hd a x]
  · intro i a x
    simp only [Sys.set] at a x
    split at a
    · simp at a
    · rename_i hni
      split at a
      · rename_i hl
        exact ⟨n, { c with held := loans }, by simp [Sys.set], hl⟩
      · obtain ⟨m, d, h1, h2⟩ := h.held i a x
        have hne : m ≠ n := by
          intro e; subst e; rw [hc] at h1; simp at h1; subst h1; exact hni h2
        exact ⟨m, d, by simp [Sys.set, upd_ne _ _ hne, h1], h2⟩
  · intro i a x
    simp only [Sys.set] at a x ⊢
    split at a
    · rename_i hi
      exact h.dom i (by rw [h.mark n c i hc hi x]; simp) x
    · split at a
      · rename_i hl; exact (e3 i hl).2.2
      · exact h.dom i a x

/-! ## Lifecycle transitions -/

/-- The events of one transition of `n` and the state it ends in. -/
inductive TrigEvs (n : Name) (cb : CtlCb) : List Ev → LState → Prop
  | success : TrigEvs n cb [.ctlCb n cb .success] cb.onSuccess
  | failure : TrigEvs n cb [.ctlCb n cb .failure] cb.onFailure
  | error (a : CbAns) (e : ErrAns) (ha : a = .error ∨ a = .throws) :
      TrigEvs n cb [.ctlErr n e, .ctlCb n cb a] (if e = .success then .unconfigured else .finalized)

theorem release_some {s : Sys} {n : Name} {c : Core} (h : s.k n = some c) :
    s.release n = ({ s with rm := c.held.foldl RM.release s.rm } : Sys).set n { c with held := [] } := by
  unfold release; rw [h]

theorem upd_upd {α β : Type} [DecidableEq α] (f : α → β) (a : α) (x y : β) : upd (upd f a x) a y = upd f a y := by
  funext m; simp only [upd_apply]; split <;> rfl

theorem set_set (s : Sys) (n : Name) (a b : Core) : (s.set n a).set n b = s.set n b := by
  unfold set
  congr 1
  funext m
  simp only [upd_apply]
  split <;> rfl

/-- What a transition does: either nothing is released, or all loans of the controller are. -/
theorem trigger_spec' (o : Oracle) {s : Sys} {n : Name} {c : Core} (cb : CtlCb) (hc : s.k n = some c)
    (hl : cb.legal c.lc = true) :
    ∃ es lc', TrigEvs n cb es lc' ∧
      ((cb ≠ .shutdown ∧ es.length = 1 ∧ s.trigger o n cb =
          ({ s with rm := { s.rm with tr := es ++ s.rm.tr } } : Sys).set n { c with lc := lc' }) ∨
       (cb ≠ .shutdown → es.length = 2) ∧ s.trigger o n cb = ({ s with rm := { c.held.foldl RM.release s.rm with tr := es ++ s.rm.tr } } : Sys).set n
          { c with lc := lc', held := [] }) := by
  unfold trigger
  rw [hc]
  simp only [hl, if_true]
  generalize o.ctlCb s.rm.tr n cb = a
  by_cases hs : cb = .shutdown
  · subst hs
    simp only [if_true]
    rw [release_some (s := s.push _) (c := c) hc]
    cases a with
    | success => exact ⟨_, _, .success, .inr ⟨fun h => absurd rfl h, by simp [push, RM.foldl_release, set, upd_upd]⟩⟩
    | failure => exact ⟨_, _, .failure, .inr ⟨fun h => absurd rfl h, by simp [push, RM.foldl_release, set, upd_upd]⟩⟩
    | error =>
      refine ⟨_, _, .error .error (o.ctlErr (.ctlCb n .shutdown .error :: s.rm.tr) n) (.inl rfl), .inr ⟨fun _ => rfl, ?_⟩⟩
      simp only
      rw [release_some (c := { c with held := [] }) (by simp [push, set]), set_set]
      simp [push, RM.foldl_release, set, upd_upd]
    | throws =>
      refine ⟨_, _, .error .throws (o.ctlErr (.ctlCb n .shutdown .throws :: s.rm.tr) n) (.inr rfl), .inr ⟨fun _ => rfl, ?_⟩⟩
      simp only
      rw [release_some (c := { c with held := [] }) (by simp [push, set]), set_set]
      simp [push, RM.foldl_release, set, upd_upd]
  · simp only [hs, if_false]
    cases a with
    | success => exact ⟨_, _, .success, .inl ⟨hs, by simp, rfl⟩⟩
    | failure => exact ⟨_, _, .failure, .inl ⟨hs, by simp, rfl⟩⟩
    | error =>
      refine ⟨_, _, .error .error (o.ctlErr (.ctlCb n cb .error :: s.rm.tr) n) (.inl rfl), .inr ⟨fun _ => rfl, ?_⟩⟩
      simp only
      rw [release_some (c := c) (by exact hc), set_set]
      simp [push, RM.foldl_release, set]
      rfl
    | throws =>
      refine ⟨_, _, .error .throws (o.ctlErr (.ctlCb n cb .throws :: s.rm.tr) n) (.inr rfl), .inr ⟨fun _ => rfl, ?_⟩⟩
      simp only
      rw [release_some (c := c) (by exact hc), set_set]
      simp [push, RM.foldl_release, set]
      rfl

theorem trigger_spec (o : Oracle) {s : Sys} {n : Name} {c : Core} (cb : CtlCb) (hc : s.k n = some c)
    (hl : cb.legal c.lc = true) :
    ∃ es lc', TrigEvs n cb es lc' ∧
      ((cb ≠ .shutdown ∧ es.length = 1 ∧ s.trigger o n cb =
          ({ s with rm := { s.rm with tr := es ++ s.rm.tr } } : Sys).set n { c with lc := lc' }) ∨
       s.trigger o n cb = ({ s with rm := { c.held.foldl RM.release s.rm with tr := es ++ s.rm.tr } } : Sys).set n
          { c with lc := lc', held := [] }) := by
  obtain ⟨es, lc', h, h1 | h1⟩ := trigger_spec' o cb hc hl
  · exact ⟨es, lc', h, .inl h1⟩
  · exact ⟨es, lc', h, .inr h1.2⟩

theorem trigger_illegal (o : Oracle) {s : Sys} {n : Name} (cb : CtlCb)
    (h : ∀ c, s.k n = some c → cb.legal c.lc = false) : s.trigger o n cb = s := by
  unfold trigger
  split
  · rfl
  · rename_i c hc; simp [h c hc]

theorem TrigEvs.noHw {n cb es lc'} (h : TrigEvs n cb es lc') : ∀ e ∈ es, e.hwName = none := by
  cases h <;> simp [Ev.hwName]

theorem inv_pushAll {rm : RM} (I : rm.Inv) (es : List Ev) (h : ∀ e ∈ es, e.hwName = none) :
    RM.Inv { rm with tr := es ++ rm.tr } := by
  induction es with
  | nil => exact I
  | cons e t ih => exact RM.inv_push (ih (fun x hx => h x (by simp [hx]))) e (h e (by simp))

theorem Claims.pushAll {ex} {s : Sys} (h : Claims ex s) (es : List Ev) (he : ∀ e ∈ es, e.hwName = none) :
    Claims ex { s with rm := { s.rm with tr := es ++ s.rm.tr } } :=
  { h with rm := inv_pushAll h.rm es he }

/-- A transition leaves at most the controller itself in an intermediate state. -/
theorem Claims.trigger {ex} (o : Oracle) {s : Sys} (h : Claims ex s) (n : Name) (cb : CtlCb) :
    Claims (fun m => ex m ∨ m = n) (s.trigger o n cb) := by
  by_cases hl : ∃ c, s.k n = some c ∧ cb.legal c.lc = true
  swap
  · rw [trigger_illegal o cb (fun c hc => by
      by_contra hx; exact hl ⟨c, hc, by simpa using hx⟩)]
    exact h.mono (fun _ => .inl)
  obtain ⟨c, hc, hleg⟩ := hl
  obtain ⟨es, lc', hev, hcase⟩ := trigger_spec o cb hc hleg
  have h0 := (h.mono (ex' := fun m => ex m ∨ m = n) (fun _ => .inl)).pushAll es hev.noHw
  rcases hcase with ⟨_, _, e⟩ | e
  · rw [e]
    exact h0.set (c := c) hc rfl (fun hx => absurd (Or.inr rfl) hx)
  · rw [e]
    have := h0.drop (c := c) (c' := { c with lc := lc', held := [] }) hc rfl
    rw [RM.foldl_release] at this ⊢
    exact this.mono (fun m hm => hm.1)

/-- Transitions other than activation and deactivation end without loans. -/
theorem Claims.trigger_idle {ex} (o : Oracle) {s : Sys} (h : Claims ex s) (n : Name) (cb : CtlCb) (hn : ¬ ex n)
    (hcb : cb = .configure ∨ cb = .cleanup ∨ cb = .shutdown) : Claims ex (s.trigger o n cb) := by
  by_cases hl : ∃ c, s.k n = some c ∧ cb.legal c.lc = true
  swap
  · rw [trigger_illegal o cb (fun c hc => by
      by_contra hx; exact hl ⟨c, hc, by simpa using hx⟩)]
    exact h
  obtain ⟨c, hc, hleg⟩ := hl
  obtain ⟨es, lc', hev, hcase⟩ := trigger_spec o cb hc hleg
  have h0 := h.pushAll es hev.noHw
  rcases hcase with ⟨hs, _, e⟩ | e
  · rw [e]
    have hheld : c.held = [] := by
      refine h.idle n c hc hn ?_
      rcases hcb with rfl | rfl | rfl
      · intro e; rw [e] at hleg; simp [CtlCb.legal] at hleg
      · intro e; rw [e] at hleg; simp [CtlCb.legal] at hleg
      · exact absurd rfl hs
    exact h0.set (c := c) hc rfl (fun _ _ => hheld)
  · rw [e]
    have := h0.drop (c := c) (c' := { c with lc := lc', held := [] }) hc rfl
    rw [RM.foldl_release] at this ⊢
    exact this.mono (fun m hm => hm.1)

/-- No controller is in an intermediate state. -/
def NoEx (_ : Name) : Prop := False

theorem Claims.activate (o : Oracle) {s : Sys} (h : Claims NoEx s) (n : Name) {l loans : List Itf} {rm1 : RM}
    (hcl : CM.claimAll s.rm [] l = (rm1, some loans)) : Claims NoEx (s.activate o n rm1 loans) := by
  unfold Sys.activate
  split
  · exact h
  · rename_i c hc
    have h1 := h.take hc hcl
    have h2 := h1.trigger o n .activate
    simp only
    split
    · rename_i ha
      refine { h2 with idle := ?_ }
      intro m d hd _ hl
      by_cases e : m = n
      · subst e
        rw [hd] at ha; simp at ha; exact absurd ha hl
      · exact h2.idle m d hd (fun x => by simp [NoEx, e] at x) hl
    · exact (h2.release n).mono (fun m hm => by simp only [NoEx] at hm ⊢; obtain ⟨hm, hx⟩ := hm; simp_all)

theorem Claims.deactivate (o : Oracle) {s : Sys} (h : Claims NoEx s) (n : Name) :
    Claims NoEx ((s.trigger o n .deactivate).release n) :=
  ((h.trigger o n .deactivate).release n).mono
    (fun m hm => by simp only [NoEx] at hm ⊢; obtain ⟨hm, hx⟩ := hm; simp_all)

/-- Removing the exported interfaces of a controller. -/
def dropExports (s : Sys) (n : Name) : Sys :=
  { s with
    rm := (s.rm.removeExportedState n).removeReference n
    dropped := s.dropped ++ ((s.rm.expR n).getD []).filter (fun i => decide (s.rm.claimed i = some true)) }

theorem removeExportedState_eq (rm : RM) (n : Name) :
    ∃ sk es fl, rm.removeExportedState n = { rm with stateKeys := sk, expS := es, fault := fl } := by
  unfold RM.removeExportedState
  split
  · exact ⟨_, _, _, rfl⟩
  · rename_i l _
    obtain ⟨fl, e, _⟩ := RM.removeStateItfs_spec { rm with expS := upd rm.expS n none } l
    exact ⟨_, _, _, e⟩

theorem removeReference_eq (rm : RM) (n : Name) :
    ∃ er cl fl, rm.removeReference n =
      { rm with cmdKeys := rm.cmdKeys.filter (fun i => decide (i ∉ (rm.expR n).getD [])),
                expR := er, claimed := cl, fault := fl } ∧
      (∀ i, i ∉ (rm.expR n).getD [] → cl i = rm.claimed i) ∧ (∀ i ∈ (rm.expR n).getD [], cl i = none) := by
  unfold RM.removeReference
  split
  · rename_i h
    refine ⟨rm.expR, rm.claimed, rm.fault, ?_, fun _ _ => rfl, ?_⟩ <;> simp [h]
  · rename_i l h
    obtain ⟨fl, cl, e, _, h1, h2⟩ := RM.removeCmdItfs_spec { rm with expR := upd rm.expR n none } l
    simp only [h, Option.getD_some]
    exact ⟨_, cl, fl, e, h1, h2⟩

theorem Claims.dropExports {ex} {s : Sys} (h : Claims ex s) (n : Name) : Claims ex (s.dropExports n) := by
  have I := RM.inv_removeReference (RM.inv_removeExportedState h.rm n) n
  unfold Sys.dropExports
  obtain ⟨sk, es, fl, e1⟩ := removeExportedState_eq s.rm n
  rw [e1] at I ⊢
  obtain ⟨er, cl, fl2, e2, h1, h2⟩ := removeReference_eq { s.rm with stateKeys := sk, expS := es, fault := fl } n
  rw [e2] at I ⊢
  simp only at h1 h2 I ⊢
  -- an interface that is still held and not dropped is not one of the removed ones
  have hne : ∀ m c i, s.k m = some c → i ∈ c.held →
      i ∉ s.dropped ++ ((s.rm.expR n).getD []).filter (fun i => decide (s.rm.claimed i = some true)) →
      i ∉ (s.rm.expR n).getD [] := by
    intro m c i hm hi hx hin
    simp only [List.mem_append, List.mem_filter, decide_eq_true_eq, not_or, not_and] at hx
    exact hx.2 hin (h.mark m c i hm hi hx.1)
  have hsub : ∀ i, i ∉ s.dropped ++ ((s.rm.expR n).getD []).filter (fun i => decide (s.rm.claimed i = some true)) →
      i ∉ s.dropped := by
    intro i hx hd; exact hx (by simp [hd])
  refine ⟨I, h.idle, h.nod, ?_, ?_, ?_, ?_, ?_⟩
  · intro m m' c d i a b hi hj hx
    exact h.uniq m m' c d i a b hi hj (hsub i hx)
  · intro m c i a hi hx
    simp only
    rw [h1 i (hne m c i a hi hx)]
    exact h.mark m c i a hi (hsub i hx)
  · intro i a hx
    simp only at a
    by_cases hin : i ∈ (s.rm.expR n).getD []
    · rw [h2 i hin] at a; simp at a
    · rw [h1 i hin] at a; exact h.held i a (hsub i hx)
  · intro i a hx
    simp only at a ⊢
    by_cases hin : i ∈ (s.rm.expR n).getD []
    · rw [h2 i hin] at a; simp at a
    · rw [h1 i hin] at a
      simp only [List.mem_filter, decide_eq_true_eq]
      exact ⟨h.dom i a (hsub i hx), hin⟩
  · intro i hi c hc hci
    simp only [List.mem_append, List.mem_filter] at hi
    rcases hi with hi | ⟨hi, _⟩
    · exact h.dhw i hi c hc hci
    · cases hr : s.rm.expR n with
      | none => simp [hr] at hi
      | some l =>
        simp [hr] at hi
        have := h.rm.uniC i (.ctl n) (.hw c.name) ⟨l, hr, hi⟩ ⟨c, hc, rfl, hci⟩
        simp at this

/-- Importing reference interfaces. -/
theorem Claims.importReference {ex} {s : Sys} (h : Claims ex s) (n : Name) (rs : List Itf) :
    Claims ex { s with rm := (s.rm.importReference n rs).1 } := by
  have I := RM.inv_importReference h.rm n rs
  obtain ⟨ks, cl, e, h1, h2, h3, h4, h5, _⟩ := (RM.addCmdItfs_spec s.rm rs).eq
  have e' : ∃ er, (s.rm.importReference n rs).1 = { s.rm with cmdKeys := s.rm.cmdKeys ++ ks, claimed := cl, expR := er } := by
    unfold RM.importReference
    split
    · rename_i rm' names hh
      rw [hh] at e; simp only at e; subst e
      exact ⟨_, rfl⟩
    · rename_i rm' hh
      rw [hh] at e; simp only at e; subst e
      exact ⟨_, rfl⟩
  obtain ⟨er, e'⟩ := e'
  rw [e'] at I ⊢
  have ht : ∀ i, cl i = some true → s.rm.claimed i = some true := by
    intro i hi
    by_cases hn : s.rm.claimed i = none
    · by_cases hk : i ∈ ks
      · rw [h4 i hk hn] at hi; simp at hi
      · rw [h5 i hk] at hi; exact hi
    · rw [h3 i hn] at hi; exact hi
  refine ⟨I, h.idle, h.nod, h.uniq, ?_, ?_, ?_, h.dhw⟩
  · intro m c i a b x
    have := h.mark m c i a b x
    simp only
    rw [h3 i (by rw [this]; simp)]; exact this
  · intro i a x
    exact h.held i (ht i a) x
  · intro i a x
    simp only at a ⊢
    by_cases hk : i ∈ ks
    · simp [hk]
    · rw [h5 i hk] at a
      simp [h.dom i a x]

theorem Claims.importExportedState {ex} {s : Sys} (h : Claims ex s) (n : Name) (ss : List Itf) :
    Claims ex { s with rm := s.rm.importExportedState n ss } := by
  have I := RM.inv_importExportedState h.rm n ss
  have e : ∃ sk es, s.rm.importExportedState n ss = { s.rm with stateKeys := sk, expS := es } := by
    unfold RM.importExportedState
    have := (RM.addStateItfs_spec s.rm ss).eq
    simp only
    rw [this]
    exact ⟨_, _, rfl⟩
  obtain ⟨sk, es, e⟩ := e
  rw [e] at I ⊢
  exact { h with rm := I }

theorem Claims.claimFail {ex} {s : Sys} (h : Claims ex s) {l : List Itf} {rm1 : RM}
    (hcl : CM.claimAll s.rm [] l = (rm1, none)) : Claims ex { s with rm := rm1 } := by
  obtain ⟨g, fl, e, _, _, hg⟩ := RM.claimAll_none hcl
  have hg' : ∀ i, i ∉ s.dropped → g i = s.rm.claimed i := by
    intro i hx
    rcases hg i (by simp) with h1 | ⟨h1, h2, _⟩
    · exact h1
    · exact absurd (h.dom i (by rw [h1]; simp) hx) h2
  subst e
  refine ⟨?_, h.idle, h.nod, h.uniq, ?_, ?_, ?_, h.dhw⟩
  · refine h.rm.congr rfl rfl rfl rfl ?_ rfl rfl rfl rfl
    intro k hk
    simp only
    rcases hg k (by simp) with h1 | ⟨_, _, h1⟩
    · rw [h1]; exact h.rm.claimedDom k hk
    · rw [h1]; simp
  · intro m c i a b x
    simp only; rw [hg' i x]; exact h.mark m c i a b x
  · intro i a x
    simp only at a; rw [hg' i x] at a; exact h.held i a x
  · intro i a x
    simp only at a ⊢; rw [hg' i x] at a; exact h.dom i a x

/-- Claiming and giving everything back at once changes nothing. -/
theorem claim_abort {rm rm1 : RM} {l loans : List Itf} (hcl : CM.claimAll rm [] l = (rm1, some loans)) :
    loans.foldl RM.release rm1 = rm := by
  obtain ⟨e1, e2, e3, e4⟩ := RM.claimAll_some hcl
  simp only [List.nil_append] at e1
  subst e1
  rw [RM.foldl_release, e4]
  have : (fun i => if i ∈ loans then some false else if i ∈ loans then some true else rm.claimed i) = rm.claimed := by
    funext i
    by_cases hi : i ∈ loans
    · simp [hi, (e3 i hi).1]
    · simp [hi]
  simp only [this]

end Sys
end Verif
