import Verif.CM.SysInv
import Mathlib.Logic.Relation
/-!
# The steps of the abstract system
-/
namespace Verif

/-- The controller an event belongs to. -/
def Ev.ctlName : Ev → Option Name
  | .ctlCb n _ _ => some n
  | .ctlErr n _ => some n
  | .ctlUpdate n _ => some n
  | .ctlChained n _ _ => some n
  | _ => none

theorem ctlLc_cons_other {n : Name} {e : Ev} {t : List Ev} (h : e.ctlName ≠ some n) : ctlLc n (e :: t) = ctlLc n t := by
  cases e <;> simp [Ev.ctlName] at h <;> simp [ctlLc, h]

theorem chainedOf_cons_other {n : Name} {e : Ev} {t : List Ev} (h : e.ctlName ≠ some n) :
    chainedOf n (e :: t) = chainedOf n t := by
  cases e with
  | ctlCb m cb a => simp [Ev.ctlName] at h; cases cb <;> cases a <;> simp [chainedOf, h]
  | ctlChained m v a => simp [Ev.ctlName] at h; simp [chainedOf, h]
  | _ => simp [chainedOf]

theorem ctlLc_append_other {n : Name} {es t : List Ev} (h : ∀ e ∈ es, e.ctlName ≠ some n) :
    ctlLc n (es ++ t) = ctlLc n t := by
  induction es with
  | nil => rfl
  | cons e es ih => rw [List.cons_append, ctlLc_cons_other (h e (by simp)), ih (fun e he => h e (by simp [he]))]

theorem chainedOf_append_other {n : Name} {es t : List Ev} (h : ∀ e ∈ es, e.ctlName ≠ some n) :
    chainedOf n (es ++ t) = chainedOf n t := by
  induction es with
  | nil => rfl
  | cons e es ih => rw [List.cons_append, chainedOf_cons_other (h e (by simp)), ih (fun e he => h e (by simp [he]))]

theorem ctlName_of_hw {e : Ev} (h : e.hwName ≠ none) : e.ctlName = none := by
  cases e <;> simp [Ev.hwName] at h <;> rfl

theorem ctlTraceOk_hw {es t : List Ev} (h : ∀ e ∈ es, e.hwName ≠ none) (ok : CtlTraceOk t) : CtlTraceOk (es ++ t) := by
  induction es with
  | nil => exact ok
  | cons e es ih =>
    refine ⟨?_, ih (fun e he => h e (by simp [he]))⟩
    have := h e (by simp)
    cases e <;> simp [Ev.hwName] at this <;> simp [CtlEvOk]

namespace Sys

/-- The controllers agree with the callback history. -/
structure Trace (s : Sys) : Prop where
  ok : CtlTraceOk s.rm.tr
  lc : ∀ n c, s.k n = some c → ctlLc n s.rm.tr = c.lc
  known : ∀ n c, s.k n = some c → c.lc ≠ .unknown
  ch : ∀ n c, s.k n = some c → chainedOf n s.rm.tr = c.chained
  plain : ∀ n c, s.k n = some c → c.chainable = false → c.chained = false

theorem Trace.rmAny {s : Sys} (h : Trace s) {rm' : RM} (ht : rm'.tr = s.rm.tr) : Trace { s with rm := rm' } := by
  obtain ⟨a, b, c, d, e⟩ := h
  exact ⟨by rw [ht]; exact a, by simp only [ht]; exact b, c, by simp only [ht]; exact d, e⟩

theorem Trace.rmStep {s : Sys} (h : Trace s) {rm' : RM} (st : RM.RmStep s.rm rm') : Trace { s with rm := rm' } := by
  obtain ⟨es, e, he⟩ := st.ext
  have hne : ∀ n, ∀ e ∈ es, e.ctlName ≠ some n := fun n e hx => by rw [ctlName_of_hw (he e hx)]; simp
  refine ⟨?_, ?_, h.known, ?_, h.plain⟩
  · simp only [e]; exact ctlTraceOk_hw he h.ok
  · intro n c hc; simp only [e]; rw [ctlLc_append_other (hne n)]; exact h.lc n c hc
  · intro n c hc; simp only [e]; rw [chainedOf_append_other (hne n)]; exact h.ch n c hc

/-- Events of the controller `n` together with its new state. -/
theorem Trace.step {s : Sys} (h : Trace s) {n : Name} {c' : Core} {es : List Ev} {rm' : RM}
    (ht : rm'.tr = es ++ s.rm.tr) (hes : ∀ e ∈ es, e.ctlName = some n) (ok : CtlTraceOk (es ++ s.rm.tr))
    (hl : ctlLc n (es ++ s.rm.tr) = c'.lc) (hu : c'.lc ≠ .unknown) (hch : chainedOf n (es ++ s.rm.tr) = c'.chained)
    (hp : c'.chainable = false → c'.chained = false) :
    Trace (({ s with rm := rm' } : Sys).set n c') := by
  have hne : ∀ m, m ≠ n → ∀ e ∈ es, e.ctlName ≠ some m := by
    intro m hm e he; rw [hes e he]; simpa using fun e => hm e.symm
  refine ⟨?_, ?_, ?_, ?_, ?_⟩
  · simp only [Sys.set, ht]; exact ok
  · intro m d hd
    simp only [Sys.set, upd_apply] at hd
    simp only [Sys.set, ht]
    split at hd
    · rename_i e; subst e; simp at hd; subst hd; exact hl
    · rename_i e; rw [ctlLc_append_other (hne m e)]; exact h.lc m d hd
  · intro m d hd
    simp only [Sys.set, upd_apply] at hd
    split at hd
    · simp at hd; subst hd; exact hu
    · exact h.known m d hd
  · intro m d hd
    simp only [Sys.set, upd_apply] at hd
    simp only [Sys.set, ht]
    split at hd
    · rename_i e; subst e; simp at hd; subst hd; exact hch
    · rename_i e; rw [chainedOf_append_other (hne m e)]; exact h.ch m d hd
  · intro m d hd
    simp only [Sys.set, upd_apply] at hd
    split at hd
    · simp at hd; subst hd; exact hp
    · exact h.plain m d hd

theorem TrigEvs.name {n cb es lc'} (h : TrigEvs n cb es lc') : ∀ e ∈ es, e.ctlName = some n := by
  cases h <;> simp [Ev.ctlName]

theorem CtlEvOk_legal {n : Name} {cb : CtlCb} {a : CbAns} {t : List Ev} (h : cb.legal (ctlLc n t) = true) :
    CtlEvOk t (.ctlCb n cb a) := by
  cases cb <;> cases hl : ctlLc n t <;> rw [hl] at h <;> simp [CtlCb.legal] at h <;> simp [CtlEvOk, hl]

theorem TrigEvs.trace {n cb es lc'} (h : TrigEvs n cb es lc') {t : List Ev} (hl : cb.legal (ctlLc n t) = true)
    (ok : CtlTraceOk t) :
    CtlTraceOk (es ++ t) ∧ ctlLc n (es ++ t) = lc' ∧ lc' ≠ .unknown ∧ chainedOf n (es ++ t) = chainedOf n t := by
  have hci : cb ≠ .init := by
    intro e; subst e; cases hx : ctlLc n t <;> rw [hx] at hl <;> simp [CtlCb.legal] at hl
  cases h with
  | success =>
    refine ⟨⟨CtlEvOk_legal hl, ok⟩, ?_, ?_, ?_⟩ <;> cases cb <;> simp [ctlLc, CtlCb.onSuccess, chainedOf] at hci ⊢
  | failure =>
    refine ⟨⟨CtlEvOk_legal hl, ok⟩, ?_, ?_, ?_⟩ <;> cases cb <;> simp [ctlLc, CtlCb.onFailure, chainedOf] at hci ⊢
  | error a e ha =>
    refine ⟨⟨⟨cb, a, t, rfl, ha⟩, CtlEvOk_legal hl, ok⟩, ?_, ?_, ?_⟩
    · cases e <;> simp [ctlLc]
    · split <;> simp
    · rcases ha with rfl | rfl <;> cases cb <;> simp [chainedOf]

theorem Trace.trigger (o : Oracle) {s : Sys} (h : Trace s) (n : Name) (cb : CtlCb) : Trace (s.trigger o n cb) := by
  by_cases hl : ∃ c, s.k n = some c ∧ cb.legal c.lc = true
  swap
  · rw [trigger_illegal o cb (fun c hc => by
      by_contra hx; exact hl ⟨c, hc, by simpa using hx⟩)]
    exact h
  obtain ⟨c, hc, hleg⟩ := hl
  obtain ⟨es, lc', hev, hcase⟩ := trigger_spec o cb hc hleg
  obtain ⟨a1, a2, a3, a4⟩ := hev.trace (t := s.rm.tr) (by rw [h.lc n c hc]; exact hleg) h.ok
  rcases hcase with ⟨_, _, e⟩ | e <;> rw [e] <;>
    exact h.step (es := es) rfl hev.name a1 a2 a3 (a4.trans (h.ch n c hc)) (h.plain n c hc)

theorem Trace.release {s : Sys} (h : Trace s) (n : Name) : Trace (s.release n) := by
  unfold Sys.release
  split
  · exact h
  · rename_i c hc
    exact h.step (es := []) (by rw [RM.foldl_release]; rfl) (by simp) h.ok (h.lc n c hc) (h.known n c hc)
      (h.ch n c hc) (h.plain n c hc)

theorem Trace.setChained (o : Oracle) {s : Sys} (h : Trace s) (n : Name) (v : Bool) : Trace (s.setChained o n v) := by
  unfold Sys.setChained
  split
  · exact h
  · rename_i c hc
    split
    swap
    · exact h
    rename_i hcond
    have hlc := h.lc n c hc
    have hk := h.known n c hc
    have ok : CtlEvOk s.rm.tr (.ctlChained n v (o.ctlChained s.rm.tr n v)) := by
      simp only [CtlEvOk]
      rw [hlc]
      cases hx : c.lc <;> simp_all
    simp only
    cases ha : o.ctlChained s.rm.tr n v with
    | true =>
      rw [ha] at ok
      simp only [if_true]
      refine h.step (es := [.ctlChained n v true]) rfl (by simp [Ev.ctlName]) ⟨ok, h.ok⟩ ?_ hk ?_ (by simp [hcond.1])
      · simp [ctlLc, hlc]
      · simp [chainedOf]
    | false =>
      rw [ha] at ok
      simp only [Bool.false_eq_true, if_false]
      have := h.step (n := n) (c' := c) (es := [.ctlChained n v false]) (rm' := { s.rm with tr := .ctlChained n v false :: s.rm.tr })
        rfl (by simp [Ev.ctlName]) ⟨ok, h.ok⟩ (by simp [ctlLc, hlc]) hk (by simp [chainedOf, h.ch n c hc]) (h.plain n c hc)
      have e : ({ s with rm := { s.rm with tr := .ctlChained n v false :: s.rm.tr } } : Sys).set n c =
          s.push (.ctlChained n v false) := by
        simp only [Sys.set, Sys.push]
        congr 1
        funext m; simp only [upd_apply]; split
        · rename_i e; subst e; exact hc.symm
        · rfl
      rw [e] at this; exact this

theorem Trace.activate (o : Oracle) {s : Sys} (h : Trace s) (n : Name) (rm1 : RM) (hr : rm1.tr = s.rm.tr)
    (loans : List Itf) : Trace (s.activate o n rm1 loans) := by
  unfold Sys.activate
  split
  · exact h
  · rename_i c hc
    have h1 : Trace (({ s with rm := c.held.foldl RM.release rm1 } : Sys).set n { c with held := loans }) :=
      h.step (es := []) (by rw [RM.foldl_release]; exact hr) (by simp) h.ok (h.lc n c hc) (h.known n c hc)
        (h.ch n c hc) (h.plain n c hc)
    simp only
    split
    · exact h1.trigger o n .activate
    · exact (h1.trigger o n .activate).release n

/-- The elementary steps. `T` are the controllers that may be touched. -/
inductive AStep (o : Oracle) (T : Name → Prop) : Sys → Sys → Prop
  | rm {s rm'} (st : RM.RmStep s.rm rm') : AStep o T s { s with rm := rm' }
  | update {s n c} (a : IoAns) (hc : s.k n = some c) (hl : c.lc = .active) : AStep o T s (s.push (.ctlUpdate n a))
  | deact {s n} (hT : T n) : AStep o T s ((s.trigger o n .deactivate).release n)
  | trig {s n cb} (hT : T n) (hcb : cb = .configure ∨ cb = .cleanup ∨ cb = .shutdown) : AStep o T s (s.trigger o n cb)
  | act {s n l loans rm1} (hT : T n) (h : CM.claimAll s.rm [] l = (rm1, some loans))
      (hl : ∀ c, s.k n = some c → l = c.cmd.resolve s.rm.availC) :
      AStep o T s (s.activate o n rm1 loans)
  | claimFail {s l rm1} (h : CM.claimAll s.rm [] l = (rm1, none)) : AStep o T s { s with rm := rm1 }
  | chain {s n v} (hT : T n) : AStep o T s (s.setChained o n v)
  | load {s n} (hT : T n) (hn : s.k n = none) (ch as : Bool) (fb : List Name) (cmd : ItfCfg) :
      AStep o T s ((s.push (.ctlCb n .init .success)).set n ⟨ch, as, fb, .unconfigured, [], false, cmd⟩)
  | loadFail {s n} (hT : T n) (hn : s.k n = none) (a : CbAns) (ha : a ≠ .success) :
      AStep o T s (s.push (.ctlCb n .init a))
  | dropExports {s n c} (hT : T n) (hc : s.k n = some c) (hl : c.lc ≠ .active) : AStep o T s (s.dropExports n)
  | importR {s n c} (hT : T n) (hc : s.k n = some c) (rs : List Itf) :
      AStep o T s { s with rm := (s.rm.importReference n rs).1 }
  | importS {s n c} (hT : T n) (hc : s.k n = some c) (ss : List Itf) :
      AStep o T s { s with rm := s.rm.importExportedState n ss }
  | erase {s n c} (hT : T n) (hc : s.k n = some c) (hh : c.held = []) : AStep o T s { s with k := upd s.k n none }
  | recfg {s n c} (hT : T n) (hc : s.k n = some c) (hl : c.lc ≠ .active) (cmd : ItfCfg) :
      AStep o T s (s.set n { c with cmd := cmd })

/-- Any number of steps. -/
def Steps (o : Oracle) (T : Name → Prop) : Sys → Sys → Prop := Relation.ReflTransGen (AStep o T)

theorem AStep.mono {o T T' s s'} (h : AStep o T s s') (hT : ∀ n, T n → T' n) : AStep o T' s s' := by
  cases h with
  | rm st => exact .rm st
  | update a hc hl => exact .update a hc hl
  | deact h => exact .deact (hT _ h)
  | trig h hcb => exact .trig (hT _ h) hcb
  | act h hh hl => exact .act (hT _ h) hh hl
  | claimFail h => exact .claimFail h
  | chain h => exact .chain (hT _ h)
  | load h hn a b c d => exact .load (hT _ h) hn a b c d
  | loadFail h hn a ha => exact .loadFail (hT _ h) hn a ha
  | dropExports h hc hl => exact .dropExports (hT _ h) hc hl
  | importR h hc rs => exact .importR (hT _ h) hc rs
  | importS h hc ss => exact .importS (hT _ h) hc ss
  | erase h hc hh => exact .erase (hT _ h) hc hh
  | recfg h hc hl cmd => exact .recfg (hT _ h) hc hl cmd

theorem Steps.mono {o T T' s s'} (h : Steps o T s s') (hT : ∀ n, T n → T' n) : Steps o T' s s' :=
  Relation.ReflTransGen.mono (r := AStep o T) (fun _ _ h => AStep.mono h hT) _ _ h

/-- Full invariant of the abstract system. -/
structure Inv (s : Sys) : Prop where
  claims : Claims NoEx s
  trace : Trace s

theorem claimAll_tr {rm rm1 : RM} {l : List Itf} {x} (h : CM.claimAll rm [] l = (rm1, x)) : rm1.tr = rm.tr := by
  cases x with
  | none => obtain ⟨g, fl, e, _⟩ := RM.claimAll_none h; rw [e]
  | some loans => obtain ⟨_, _, _, e⟩ := RM.claimAll_some h; rw [e]

theorem dropExports_tr (s : Sys) (n : Name) : (s.dropExports n).rm.tr = s.rm.tr := by
  unfold dropExports
  obtain ⟨sk, es, fl, e1⟩ := removeExportedState_eq s.rm n
  simp only [e1]
  obtain ⟨er, cl, fl2, e2, _, _⟩ := removeReference_eq { s.rm with stateKeys := sk, expS := es, fault := fl } n
  rw [e2]

theorem importReference_tr (rm : RM) (n : Name) (rs : List Itf) : (rm.importReference n rs).1.tr = rm.tr := by
  obtain ⟨ks, cl, e, _⟩ := (RM.addCmdItfs_spec rm rs).eq
  unfold RM.importReference
  split
  · rename_i rm' names hh
    rw [hh] at e; simp only at e; subst e; rfl
  · rename_i rm' hh
    rw [hh] at e; simp only at e; subst e; rfl

theorem importExportedState_tr (rm : RM) (n : Name) (ss : List Itf) : (rm.importExportedState n ss).tr = rm.tr := by
  unfold RM.importExportedState
  have := (RM.addStateItfs_spec rm ss).eq
  simp only; rw [this]

theorem AStep.inv {o T s s'} (h : AStep o T s s') (I : Inv s) : Inv s' := by
  obtain ⟨C, R⟩ := I
  cases h with
  | rm st => exact ⟨C.rmStep st, R.rmStep st⟩
  | @update n c a hc hl =>
    refine ⟨C.push _ rfl, ?_⟩
    have ok : CtlEvOk s.rm.tr (.ctlUpdate n a) := by simp only [CtlEvOk]; rw [R.lc n c hc, hl]
    refine ⟨⟨ok, R.ok⟩, ?_, R.known, ?_, R.plain⟩
    · intro m d hd; simp only [Sys.push, ctlLc]; exact R.lc m d hd
    · intro m d hd; simp only [Sys.push, chainedOf]; exact R.ch m d hd
  | deact hT => exact ⟨C.deactivate o _, (R.trigger o _ _).release _⟩
  | trig hT hcb => exact ⟨C.trigger_idle o _ _ (by simp [NoEx]) hcb, R.trigger o _ _⟩
  | act hT hcl _ => exact ⟨C.activate o _ hcl, R.activate o _ _ (claimAll_tr hcl) _⟩
  | claimFail hcl => exact ⟨C.claimFail hcl, R.rmAny (claimAll_tr hcl)⟩
  | @chain n v hT =>
    refine ⟨?_, R.setChained o n v⟩
    unfold Sys.setChained
    split
    · exact C
    · rename_i c hc
      split
      swap
      · exact C
      have C1 := C.push (.ctlChained n v (o.ctlChained s.rm.tr n v)) rfl
      simp only
      split
      · exact C1.set (c := c) hc rfl (fun _ hl => C.idle n c hc (by simp [NoEx]) hl)
      · exact C1
  | @load n hT hn ch as fb cmd =>
    constructor
    · have C1 := C.push (.ctlCb n .init .success) rfl
      have key : ∀ m d i, upd s.k n (some ⟨ch, as, fb, .unconfigured, [], false, cmd⟩) m = some d → i ∈ d.held →
          s.k m = some d := by
        intro m d i hd hi
        simp only [upd_apply] at hd
        split at hd
        · simp at hd; subst hd; simp at hi
        · exact hd
      refine ⟨C1.rm, ?_, ?_, ?_, ?_, ?_, C1.dom, C1.dhw⟩
      · intro m d hd he hl
        simp only [Sys.set, upd_apply] at hd
        split at hd
        · simp at hd; subst hd; rfl
        · exact C1.idle m d hd he hl
      · intro m d hd
        simp only [Sys.set, upd_apply] at hd
        split at hd
        · simp at hd; subst hd; simp
        · exact C1.nod m d hd
      · intro m m' d d' i hd hd' a b x
        exact C1.uniq m m' d d' i (key _ _ _ hd a) (key _ _ _ hd' b) a b x
      · intro m d i hd a x
        exact C1.mark m d i (key _ _ _ hd a) a x
      · intro i a x
        obtain ⟨m, d, h1, h2⟩ := C1.held i a x
        refine ⟨m, d, ?_, h2⟩
        have hne : m ≠ n := by
          intro e; subst e
          have : s.k m = some d := h1
          rw [hn] at this; simp at this
        simp only [Sys.set, upd_ne _ _ hne]; exact h1
    · exact R.step (es := [.ctlCb n .init .success]) rfl (by simp [Ev.ctlName]) ⟨trivial, R.ok⟩
        (by simp [ctlLc]) (by simp) (by simp [chainedOf]) (by simp)
  | @loadFail n hT hn a ha =>
    refine ⟨C.push _ rfl, ⟨⟨trivial, R.ok⟩, ?_, R.known, ?_, R.plain⟩⟩
    · intro m d hd
      have : m ≠ n := by
        intro e; subst e
        have : s.k m = some d := hd
        rw [hn] at this; simp at this
      simp only [Sys.push]
      rw [ctlLc_cons_other (by simpa [Ev.ctlName] using fun e => this e.symm)]
      exact R.lc m d hd
    · intro m d hd
      have : m ≠ n := by
        intro e; subst e
        have : s.k m = some d := hd
        rw [hn] at this; simp at this
      simp only [Sys.push]
      rw [chainedOf_cons_other (by simpa [Ev.ctlName] using fun e => this e.symm)]
      exact R.ch m d hd
  | @dropExports n c hT hc hl =>
    refine ⟨C.dropExports n, ?_⟩
    have := dropExports_tr s n
    obtain ⟨a, b, c, d, e⟩ := R
    exact ⟨by rw [this]; exact a, by rw [this]; exact b, c, by rw [this]; exact d, e⟩
  | importR hT hc rs => exact ⟨C.importReference _ rs, R.rmAny (importReference_tr _ _ _)⟩
  | importS hT hc ss => exact ⟨C.importExportedState _ ss, R.rmAny (importExportedState_tr _ _ _)⟩
  | @erase n c hT hc hh =>
    have key : ∀ m d, upd s.k n none m = some d → s.k m = some d ∧ m ≠ n := by
      intro m d hd
      simp only [upd_apply] at hd
      split at hd
      · simp at hd
      · exact ⟨hd, by assumption⟩
    refine ⟨⟨C.rm, ?_, ?_, ?_, ?_, ?_, C.dom, C.dhw⟩, ⟨R.ok, ?_, ?_, ?_, ?_⟩⟩
    · intro m d hd; exact C.idle m d (key m d hd).1
    · intro m d hd; exact C.nod m d (key m d hd).1
    · intro m m' d d' i hd hd'; exact C.uniq m m' d d' i (key m d hd).1 (key m' d' hd').1
    · intro m d i hd; exact C.mark m d i (key m d hd).1
    · intro i a x
      obtain ⟨m, d, h1, h2⟩ := C.held i a x
      have hne : m ≠ n := by
        intro e; subst e; rw [hc] at h1; simp at h1; subst h1; rw [hh] at h2; simp at h2
      exact ⟨m, d, by simp only [upd_ne _ _ hne]; exact h1, h2⟩
    · intro m d hd; exact R.lc m d (key m d hd).1
    · intro m d hd; exact R.known m d (key m d hd).1
    · intro m d hd; exact R.ch m d (key m d hd).1
    · intro m d hd; exact R.plain m d (key m d hd).1
  | @recfg n c hT hc hl cmd =>
    refine ⟨C.set hc rfl (fun _ _ => C.idle n c hc (by simp [NoEx]) hl), ?_⟩
    exact R.step (es := []) rfl (by simp) R.ok (R.lc n c hc) (R.known n c hc) (R.ch n c hc) (R.plain n c hc)

theorem Steps.inv {o T s s'} (h : Steps o T s s') (I : Inv s) : Inv s' := by
  induction h with
  | refl => exact I
  | tail _ h ih => exact h.inv ih

/-! ## Frame -/

theorem release_k_ne (s : Sys) {n m : Name} (h : m ≠ n) : (s.release n).k m = s.k m := by
  unfold release; split
  · rfl
  · simp [set, upd_ne _ _ h]

theorem trigger_k_ne (o : Oracle) (s : Sys) {n m : Name} (cb : CtlCb) (h : m ≠ n) : (s.trigger o n cb).k m = s.k m := by
  by_cases hl : ∃ c, s.k n = some c ∧ cb.legal c.lc = true
  swap
  · rw [trigger_illegal o cb (fun c hc => by
      by_contra hx; exact hl ⟨c, hc, by simpa using hx⟩)]
  obtain ⟨c, hc, hleg⟩ := hl
  obtain ⟨es, lc', hev, ⟨_, _, e⟩ | e⟩ := trigger_spec o cb hc hleg <;> rw [e] <;> simp [set, upd_ne _ _ h]

theorem setChained_k_ne (o : Oracle) (s : Sys) {n m : Name} (v : Bool) (h : m ≠ n) :
    (s.setChained o n v).k m = s.k m := by
  unfold setChained; split
  · rfl
  · split
    · simp only
      split
      · simp [set, push, upd_ne _ _ h]
      · rfl
    · rfl

theorem activate_k_ne (o : Oracle) (s : Sys) {n m : Name} (rm1 : RM) (l : List Itf) (h : m ≠ n) :
    (s.activate o n rm1 l).k m = s.k m := by
  unfold activate; split
  · rfl
  · simp only
    split
    · rw [trigger_k_ne o _ _ h]; simp [set, upd_ne _ _ h]
    · rw [release_k_ne _ h, trigger_k_ne o _ _ h]; simp [set, upd_ne _ _ h]

/-- Controllers that are not touched stay exactly as they are. -/
theorem AStep.frame {o T s s'} (h : AStep o T s s') {m : Name} (hm : ¬ T m) : s'.k m = s.k m := by
  have ne : ∀ n, T n → m ≠ n := fun n hn e => hm (e ▸ hn)
  cases h with
  | rm st => rfl
  | update a hc hl => rfl
  | deact hT => rw [release_k_ne _ (ne _ hT), trigger_k_ne o _ _ (ne _ hT)]
  | trig hT hcb => exact trigger_k_ne o _ _ (ne _ hT)
  | act hT hh => exact activate_k_ne o _ _ _ (ne _ hT)
  | claimFail h => rfl
  | chain hT => exact setChained_k_ne o _ _ (ne _ hT)
  | load hT hn a b c => simp [set, push, upd_ne _ _ (ne _ hT)]
  | loadFail h hn a ha => rfl
  | dropExports h hc hl => rfl
  | importR h hc rs => rfl
  | importS h hc ss => rfl
  | erase hT hc hh => simp [upd_ne _ _ (ne _ hT)]
  | recfg hT hc hl cmd => simp [set, upd_ne _ _ (ne _ hT)]

theorem Steps.frame {o T s s'} (h : Steps o T s s') {m : Name} (hm : ¬ T m) : s'.k m = s.k m := by
  induction h with
  | refl => rfl
  | tail _ h ih => rw [h.frame hm, ih]

/-! ## What an active controller holds -/

/-- An active controller that asks for individual interfaces holds exactly those, unless it refused to be
deactivated (its loans are released anyway). -/
def Held (s : Sys) : Prop :=
  ∀ n c, s.k n = some c → c.lc = .active → stopRefused n s.rm.tr = false → ∀ l, c.cmd = .individual l → c.held = l

theorem stopRefused_cons_other {n : Name} {e : Ev} {t : List Ev} (h : e.ctlName ≠ some n) :
    stopRefused n (e :: t) = stopRefused n t := by
  cases e <;> simp [Ev.ctlName] at h <;> simp [stopRefused, h]

theorem stopRefused_append_other {n : Name} {es t : List Ev} (h : ∀ e ∈ es, e.ctlName ≠ some n) :
    stopRefused n (es ++ t) = stopRefused n t := by
  induction es with
  | nil => rfl
  | cons e es ih => rw [List.cons_append, stopRefused_cons_other (h e (by simp)), ih (fun e he => h e (by simp [he]))]

theorem Held.rmAny {s : Sys} (h : Held s) {rm' : RM} (ht : rm'.tr = s.rm.tr) : Held { s with rm := rm' } := by
  intro n c hc hl hr; simp only [ht] at hr; exact h n c hc hl hr

theorem Held.step {s : Sys} (h : Held s) {n : Name} {c' : Core} {es : List Ev} {rm' : RM}
    (ht : rm'.tr = es ++ s.rm.tr) (hes : ∀ e ∈ es, e.ctlName = some n)
    (hn : c'.lc = .active → stopRefused n (es ++ s.rm.tr) = false → ∀ l, c'.cmd = .individual l → c'.held = l) :
    Held (({ s with rm := rm' } : Sys).set n c') := by
  intro m d hd hl hr
  simp only [Sys.set, upd_apply] at hd
  simp only [Sys.set, ht] at hr
  split at hd
  · rename_i e; subst e; simp at hd; subst hd; exact hn hl hr
  · rename_i e
    rw [stopRefused_append_other (fun x hx => by rw [hes x hx]; simpa using fun y => e y.symm)] at hr
    exact h m d hd hl hr

theorem AStep.heldInv {o T s s'} (h : AStep o T s s') (I : Held s) : Held s' := by
  cases h with
  | rm st =>
    obtain ⟨es, e, he⟩ := st.ext
    intro n c hc hl hr
    simp only [e] at hr
    rw [stopRefused_append_other (fun x hx => by rw [ctlName_of_hw (he x hx)]; simp)] at hr
    exact I n c hc hl hr
  | update a hc hl => exact I
  | @deact n hT =>
    by_cases hl : ∃ c, s.k n = some c ∧ CtlCb.deactivate.legal c.lc = true
    · obtain ⟨c, hc, hleg⟩ := hl
      obtain ⟨es, lc', hev, hcase⟩ := trigger_spec o .deactivate hc hleg
      have fin : ∀ c' : Core, c'.lc = lc' → Held (({ s with rm := { (s.trigger o n .deactivate).release n with }.rm } : Sys).set n c') := by
        intro c' hc'
        refine I.step (es := es) ?_ hev.name ?_
        · rcases hcase with ⟨_, _, e⟩ | e <;> rw [e] <;> simp [Sys.release, Sys.set, RM.foldl_release]
        · intro ha hr
          rw [hc'] at ha
          cases hev with
          | success => simp [CtlCb.onSuccess] at ha
          | failure => simp [stopRefused] at hr
          | error a e ha' => split at ha <;> simp at ha
      have key : ∃ c' : Core, c'.lc = lc' ∧ (s.trigger o n .deactivate).release n =
          (({ s with rm := { (s.trigger o n .deactivate).release n with }.rm } : Sys).set n c') := by
        rcases hcase with ⟨_, _, e⟩ | e <;> rw [e] <;>
          exact ⟨{ c with lc := lc', held := [] }, rfl, by simp [Sys.release, Sys.set]; funext m; simp only [upd_apply]; split <;> rfl⟩
      obtain ⟨c', h1, h2⟩ := key
      rw [h2]; exact fin c' h1
    · rw [trigger_illegal o _ (fun c hc => by by_contra hx; exact hl ⟨c, hc, by simpa using hx⟩)]
      unfold Sys.release
      split
      · exact I
      · rename_i c hc
        refine I.step (es := []) (by rw [RM.foldl_release]; rfl) (by simp) ?_
        intro ha
        exact absurd ⟨c, hc, by change CtlCb.deactivate.legal c.lc = true; rw [show c.lc = .active from ha]; rfl⟩ hl
  | @trig n cb hT hcb =>
    by_cases hl : ∃ c, s.k n = some c ∧ cb.legal c.lc = true
    · obtain ⟨c, hc, hleg⟩ := hl
      obtain ⟨es, lc', hev, hcase⟩ := trigger_spec o cb hc hleg
      have hna : lc' ≠ .active := by
        rcases hcb with rfl | rfl | rfl <;> cases hev with
        | success => simp [CtlCb.onSuccess]
        | failure => simp [CtlCb.onFailure]
        | error a e ha' => split <;> simp
      rcases hcase with ⟨_, _, e⟩ | e <;> rw [e] <;>
        exact I.step (es := es) rfl hev.name (fun ha => absurd ha hna)
    · rw [trigger_illegal o _ (fun c hc => by by_contra hx; exact hl ⟨c, hc, by simpa using hx⟩)]; exact I
  | @act n l loans rm1 hT hcl hl =>
    have htr := claimAll_tr hcl
    obtain ⟨e1, _, _, _⟩ := RM.claimAll_some hcl
    simp only [List.nil_append] at e1
    unfold Sys.activate
    split
    · exact I
    rename_i c hc
    have hlc := hl c hc
    extract_lets s1 s2
    have hh : ∀ l', c.cmd = .individual l' → loans = l' := by
      intro l' h'; rw [e1, hlc, h']; rfl
    have h1 : Held s1 := I.step (es := []) (by rw [RM.foldl_release]; exact htr) (by simp) (fun _ _ l' h' => hh l' h')
    have hc1 : s1.k n = some { c with held := loans } := by simp [s1, Sys.set]
    have h2 : Held s2 := by
      simp only [s2]
      by_cases hl : CtlCb.activate.legal c.lc = true
      · obtain ⟨es, lc', hev, hcase⟩ := trigger_spec' o .activate hc1 hl
        rcases hcase with ⟨_, _, e⟩ | ⟨hlen, e⟩
        · rw [e]
          exact h1.step (es := es) rfl hev.name (fun _ _ l' h' => hh l' h')
        · rw [e]
          refine h1.step (es := es) rfl hev.name ?_
          intro ha _
          exfalso
          cases hev with
          | success => have := hlen (by simp); simp at this
          | failure => simp [CtlCb.onFailure] at ha
          | error a e ha' => simp only at ha; split at ha <;> simp at ha
      · rw [trigger_illegal o _ (fun c' hc' => by rw [hc1] at hc'; simp at hc'; subst hc'; simpa using hl)]; exact h1
    clear_value s2
    split
    · exact h2
    · rename_i hna
      unfold Sys.release
      split
      · exact h2
      · rename_i d hd
        refine h2.step (es := []) (by rw [RM.foldl_release]; rfl) (by simp) ?_
        intro ha
        rw [hd] at hna
        exact absurd (by simpa using ha) hna
  | claimFail hcl => exact I.rmAny (claimAll_tr hcl)
  | @chain n v hT =>
    unfold Sys.setChained
    split
    · exact I
    · rename_i c hc
      split
      · rename_i hcond
        simp only
        split
        · exact I.step (es := [.ctlChained n v _]) rfl (by simp [Ev.ctlName]) (fun ha => absurd ha hcond.2)
        · exact I
      · exact I
  | @load n hT hn ch as fb cmd =>
    exact I.step (es := [.ctlCb n .init .success]) rfl (by simp [Ev.ctlName]) (by simp)
  | @loadFail n hT hn a ha =>
    intro m d hd hl hr
    have hne : m ≠ n := by
      intro e; subst e
      have : s.k m = some d := hd
      rw [hn] at this; simp at this
    simp only [Sys.push] at hr
    rw [stopRefused_cons_other (by simpa [Ev.ctlName] using fun e => hne e.symm)] at hr
    exact I m d hd hl hr
  | @dropExports n c hT hc hl =>
    intro m d hd hl hr
    rw [dropExports_tr] at hr
    exact I m d hd hl hr
  | importR hT hc rs => exact I.rmAny (importReference_tr _ _ _)
  | importS hT hc ss => exact I.rmAny (importExportedState_tr _ _ _)
  | @erase n c hT hc hh =>
    intro m d hd
    simp only [upd_apply] at hd
    split at hd
    · simp at hd
    · exact I m d hd
  | @recfg n c hT hc hl cmd =>
    exact I.step (es := []) rfl (by simp) (fun ha => absurd ha hl)

theorem Steps.heldInv {o T s s'} (h : Steps o T s s') (I : Held s) : Held s' := by
  induction h with
  | refl => exact I
  | tail _ h ih => exact h.heldInv ih

end Sys
end Verif
