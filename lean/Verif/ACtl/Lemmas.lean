import Verif.ACtl.Spec
namespace Verif.ACtl

theorem Always.nil {P} : Always P [] := by intro n e o h; simp at h

theorem Always.cons {P e l} (h : Always P l) (he : P e l) : Always P (e :: l) := by
  intro n e' o hh
  cases n with
  | nil => simp at hh; obtain ⟨rfl, rfl⟩ := hh; exact he
  | cons a n => simp at hh; exact h n e' o hh.2

theorem Always.tail {P e l} (h : Always P (e :: l)) : Always P l := by
  intro n e' o hh
  exact h (e :: n) e' o (by simp [hh])

theorem Always.head {P e l} (h : Always P (e :: l)) : P e l := h [] e l rfl

theorem Always.cons_iff {P e l} : Always P (e :: l) ↔ P e l ∧ Always P l :=
  ⟨fun h => ⟨h.head, h.tail⟩, fun h => h.2.cons h.1⟩

theorem Orderly.cons_iff {e l} :
    Orderly (e :: l) ↔ (e = .cbCall (.cb .deactivate) → cycleOpen l = false) ∧ Orderly l := Always.cons_iff

theorem Orderly.nil : Orderly [] := Always.nil

/-- The callbacks that are called with the thread stopped. -/
def Cb.stops : Cb → Bool
  | .cb .activate | .cb .deactivate => false
  | _ => true

/-- All the facts about one event proved below. -/
structure Good (e : Ev) (older : List Ev) : Prop where
  stopCb : ∀ c, e = .cbCall c → c ≠ .cb .activate → c ≠ .cb .deactivate → cycleOpen older = false
  updIn : e = .updCall → inside older = none ∨ inside older = some (.cb .activate) ∨ inside older = some (.cb .deactivate)
  updLc : e = .updCall → stateOf older = .inactive ∨ stateOf older = .active
  updOpen : e = .updCall → cycleOpen older = true
  serial : e = .updCall → updating older = false
  serve : e = .updCall → unserved older = true
  thread : e = .updCall → stopped older = false
  updO : e = .updCall → Orderly older → stateOf older = .active ∧ inside older = none
  updL : e = .updCall → Orderly older → .cbRet (.cb .deactivate) .failure ∉ older → loaned older = true
  cbO : ∀ c, e = .cbCall c → Orderly (e :: older) → cycleOpen older = false
  retO : ∀ c a, e = .cbRet c a → Orderly older → cycleOpen older = false
  relO : e = .released → Orderly older → cycleOpen older = false
  got : ∀ r b, e = .got r b → r = lastUpdate older ∧ b = !cycleOpen older ∧ midTrigger older = true
      ∧ stateOf older = .active ∧ inside older = none ∧ stopped older = false
  threw : e = .threw → stopped older = true ∧ stateOf older = .active
  check : e = .check → announced older = false ∧ stateOf older = .active ∧ inside older = none
  skip : e = .skipped → announced older = true
  prep : e = .prepared → cycleOpen older = false
  legal : ∀ c, e = .cbCall (.cb c) → c.legal (stateOf older) = true
  one : ∀ c, e = .cbCall c → inside older = none
  endU : e = .cycEnd → updating older = false

structure Inv (s : St) : Prop where
  hist : Always Good s.log
  lcI : stateOf s.log = s.lc
  cyc : cycleOpen s.log = decide (s.w ≠ .idle)
  upd : updating s.log = decide (s.w = .updating)
  uns : unserved s.log = decide (s.w = .triggered)
  ins : inside s.log = (match s.f with | .inCb c => some c | _ => none)
  mid : midTrigger s.log = s.checked
  ann : announced s.log = s.skip
  stp : stopped s.log = !s.run
  runW : s.run = false → s.w = .idle
  wLc : s.w ≠ .idle → s.lc = .inactive ∨ s.lc = .active
  stopW : ∀ c, s.f = .inCb c → c.stops = true → s.w = .idle
  chk : s.checked = true → s.f = .free ∧ s.lc = .active
  fSt : ∀ c, s.f = .stopping c → c.stops = true
  legS : ∀ c, s.f = .stopping (.cb c) → c.legal s.lc = true
  legI : ∀ c, s.f = .inCb (.cb c) → c.legal s.lc = true
  resA : s.run = true → s.lc = .active → s.res = lastUpdate s.log
  resI : s.run = true → s.f = .inCb (.cb .activate) → s.res = lastUpdate s.log
  ord : Orderly s.log → s.w ≠ .idle → s.lc = .active ∧ ∀ c, s.f ≠ .inCb c
  loanA : .cbRet (.cb .deactivate) .failure ∉ s.log → s.lc = .active → loaned s.log = true
  loanI : s.f = .inCb (.cb .activate) → loaned s.log = true

theorem Inv.start : Inv start := by
  constructor <;> simp [ACtl.start, Always.nil, stateOf, cycleOpen, updating, unserved, inside, midTrigger, announced,
    stopped, latest]

/-- Computes the history functions on a history with a known newest event. -/
macro "evs" : tactic => `(tactic| simp_all [stateOf, cycleOpen, updating, unserved, inside, midTrigger, announced,
    stopped, lastUpdate, loaned, latest, Orderly.cons_iff, Cb.stops])

macro "stepInv" hist:ident : tactic => `(tactic| (
    constructor
    · refine Always.cons $hist ?_
      constructor <;> evs
    all_goals evs))

set_option maxHeartbeats 2000000

theorem Inv.rtCheck {s} (h : Inv s) : Inv (rtCheck s) := by
  unfold ACtl.rtCheck
  split
  · obtain ⟨hist, lcI, cyc, upd, uns, ins, mid, ann, stp, runW, wLc, stopW, chk, fSt, legS, legI, resA, resI, ord, loanA, loanI⟩ := h
    split
    · stepInv hist
    · stepInv hist
  · exact h

theorem Inv.rtTrigger {s} (h : Inv s) : Inv (rtTrigger s) := by
  unfold ACtl.rtTrigger
  split
  · obtain ⟨hist, lcI, cyc, upd, uns, ins, mid, ann, stp, runW, wLc, stopW, chk, fSt, legS, legI, resA, resI, ord, loanA, loanI⟩ := h
    split
    · stepInv hist
    · split
      · stepInv hist
      · stepInv hist
  · exact h

theorem Inv.svPrepare {s} (h : Inv s) : Inv (svPrepare s) := by
  unfold ACtl.svPrepare
  split
  · exact h
  · obtain ⟨hist, lcI, cyc, upd, uns, ins, mid, ann, stp, runW, wLc, stopW, chk, fSt, legS, legI, resA, resI, ord, loanA, loanI⟩ := h
    stepInv hist

theorem Inv.svPrepared {s} (h : Inv s) : Inv (svPrepared s) := by
  unfold ACtl.svPrepared
  split
  · rename_i g
    have gw : s.w = .idle := g.2.elim id h.runW
    obtain ⟨hist, lcI, cyc, upd, uns, ins, mid, ann, stp, runW, wLc, stopW, chk, fSt, legS, legI, resA, resI, ord, loanA, loanI⟩ := h
    stepInv hist
  · exact h

theorem Inv.wStart {s} (h : Inv s) : Inv (wStart s) := by
  unfold ACtl.wStart
  split
  · have hx : inside s.log = none ∨ inside s.log = some (.cb .activate) ∨ inside s.log = some (.cb .deactivate) := by
      have := h.ins
      have := h.stopW
      rcases hf : s.f with _ | c | c
      · simp_all
      · simp_all
      · rcases c with (_ | _ | _ | _ | _ | _) | _ <;> simp_all [Cb.stops]
    have hn : Orderly s.log → inside s.log = none := by
      intro ho
      have h1 := (h.ord ho (by simp_all)).2
      have := h.ins
      rcases hf : s.f with _ | c | c <;> simp_all
    obtain ⟨hist, lcI, cyc, upd, uns, ins, mid, ann, stp, runW, wLc, stopW, chk, fSt, legS, legI, resA, resI, ord, loanA, loanI⟩ := h
    stepInv hist
  · exact h

theorem Inv.wRet {s} (r) (h : Inv s) : Inv (wRet r s) := by
  unfold ACtl.wRet
  split
  · obtain ⟨hist, lcI, cyc, upd, uns, ins, mid, ann, stp, runW, wLc, stopW, chk, fSt, legS, legI, resA, resI, ord, loanA, loanI⟩ := h
    stepInv hist
  · exact h

theorem Inv.wEnd {s} (h : Inv s) : Inv (wEnd s) := by
  unfold ACtl.wEnd
  split
  · obtain ⟨hist, lcI, cyc, upd, uns, ins, mid, ann, stp, runW, wLc, stopW, chk, fSt, legS, legI, resA, resI, ord, loanA, loanI⟩ := h
    stepInv hist
  · exact h

theorem Inv.wDrop {s} (h : Inv s) : Inv (wDrop s) := by
  unfold ACtl.wDrop
  split
  · exact h
  · exact h
  · split
    · obtain ⟨hist, lcI, cyc, upd, uns, ins, mid, ann, stp, runW, wLc, stopW, chk, fSt, legS, legI, resA, resI, ord, loanA, loanI⟩ := h
      stepInv hist
    · exact h

theorem Inv.fCall {s} (c) (h : Inv s) : Inv (fCall c s) := by
  unfold ACtl.fCall
  split
  · rename_i g
    obtain ⟨g1, g2, g3⟩ := g
    have gi : inside s.log = none := by have := h.ins; simp_all
    cases c
    · simp [CtlCb.legal] at g3
    · obtain ⟨hist, lcI, cyc, upd, uns, ins, mid, ann, stp, runW, wLc, stopW, chk, fSt, legS, legI, resA, resI, ord, loanA, loanI⟩ := h
      constructor <;> evs
    · have g4 : s.lc = .inactive := by cases hl : s.lc <;> simp_all [CtlCb.legal]
      have hw : Orderly s.log → s.w = .idle := by
        intro ho
        cases hw : s.w <;> first | rfl | (have := (h.ord ho (by simp [hw])).1; simp_all)
      obtain ⟨hist, lcI, cyc, upd, uns, ins, mid, ann, stp, runW, wLc, stopW, chk, fSt, legS, legI, resA, resI, ord, loanA, loanI⟩ := h
      constructor
      · refine Always.cons (Always.cons hist ?_) ?_
        · constructor <;> evs
        · constructor <;> evs
      all_goals evs
    · obtain ⟨hist, lcI, cyc, upd, uns, ins, mid, ann, stp, runW, wLc, stopW, chk, fSt, legS, legI, resA, resI, ord, loanA, loanI⟩ := h
      stepInv hist
    · obtain ⟨hist, lcI, cyc, upd, uns, ins, mid, ann, stp, runW, wLc, stopW, chk, fSt, legS, legI, resA, resI, ord, loanA, loanI⟩ := h
      constructor <;> evs
    · obtain ⟨hist, lcI, cyc, upd, uns, ins, mid, ann, stp, runW, wLc, stopW, chk, fSt, legS, legI, resA, resI, ord, loanA, loanI⟩ := h
      constructor <;> evs
  · exact h

theorem Inv.fStopped {s} (h : Inv s) : Inv (fStopped s) := by
  unfold ACtl.fStopped
  split
  · rename_i c hf
    split
    · have gi : inside s.log = none := by have := h.ins; simp_all
      have hs := h.fSt c hf
      have hc : s.checked = false := by
        cases hc : s.checked
        · rfl
        · have := (h.chk hc).1; simp_all
      have hl := h.legS
      rcases c with (_ | _ | _ | _ | _ | _) | _ <;> simp [Cb.stops] at hs
      all_goals
        obtain ⟨hist, lcI, cyc, upd, uns, ins, mid, ann, stp, runW, wLc, stopW, chk, fSt, legS, legI, resA, resI, ord, loanA, loanI⟩ := h
        first
          | (have hl' := hl _ hf; clear hl; cases hlc : s.lc <;> simp_all [CtlCb.legal] <;> done)
          | (have hl' : s.lc = .unconfigured := by
               have hl' := hl _ hf; clear hl; cases hlc : s.lc <;> simp_all [CtlCb.legal]
             stepInv hist)
          | (have hl' := hl _ hf; stepInv hist)
          | stepInv hist
    · exact h
  · exact h

theorem Inv.errRet {s} (a : CbAns) (h : Inv s) (hf : s.f = .inCb .onError) :
    Inv { s with lc := if a = .success then .unconfigured else .finalized, f := .free,
                 log := .lcSet (if a = .success then .unconfigured else .finalized) :: .released :: .cbRet .onError a
                   :: s.log } := by
  have gi : inside s.log = some .onError := by have := h.ins; simp_all
  have hst := h.stopW _ hf rfl
  generalize hl : (if a = .success then LState.unconfigured else .finalized) = l
  have hn : l ≠ .active := by subst hl; split <;> simp
  clear hl
  have h1 : Always Good (.cbRet .onError a :: s.log) := by
    refine h.hist.cons ?_
    constructor <;> intros <;> simp_all [h.cyc]
  have h2 : Always Good (.released :: .cbRet .onError a :: s.log) := by
    refine h1.cons ?_
    constructor <;> intros <;> simp_all [cycleOpen, latest]
    have := h.cyc
    simp_all [cycleOpen]
  have h3 : Always Good (.lcSet l :: .released :: .cbRet .onError a :: s.log) := by
    refine h2.cons ?_
    constructor <;> intros <;> simp_all
  clear h1 h2
  obtain ⟨hist, lcI, cyc, upd, uns, ins, mid, ann, stp, runW, wLc, stopW, chk, fSt, legS, legI, resA, resI, ord, loanA, loanI⟩ := h
  constructor
  · exact h3
  all_goals clear h3 hist
  all_goals evs

theorem Inv.fRet {s} (a) (h : Inv s) : Inv (fRet a s) := by
  unfold ACtl.fRet
  split
  · rename_i c hf
    have gi : inside s.log = some (.cb c) := by have := h.ins; simp_all
    have hc : s.checked = false := by
      cases hc : s.checked
      · rfl
      · have := (h.chk hc).1; simp_all
    have hl := h.legI c hf
    have hw : Orderly s.log → s.w = .idle := by
      intro ho
      cases hw : s.w <;> first | rfl | exact absurd hf ((h.ord ho (by simp [hw])).2 _)
    have hst := h.stopW _ hf
    have hd : c = .deactivate → s.lc = .active := by
      rintro rfl; cases hlc : s.lc <;> simp_all [CtlCb.legal]
    split
    · obtain ⟨hist, lcI, cyc, upd, uns, ins, mid, ann, stp, runW, wLc, stopW, chk, fSt, legS, legI, resA, resI, ord, loanA, loanI⟩ := h
      cases c <;> simp only [doneEvs, CtlCb.onSuccess, if_pos, List.cons_append, List.nil_append]
      · simp [CtlCb.legal] at hl
      all_goals
        constructor
        · repeat' refine Always.cons ?_ ?_
          · exact hist
          all_goals
            clear hist mid ann stp upd uns runW wLc stopW chk fSt legS legI resA resI loanA loanI
            constructor <;> intros <;> simp_all [Orderly.cons_iff, cycleOpen, latest, Cb.stops]
        all_goals clear hist
        all_goals evs
    · obtain ⟨hist, lcI, cyc, upd, uns, ins, mid, ann, stp, runW, wLc, stopW, chk, fSt, legS, legI, resA, resI, ord, loanA, loanI⟩ := h
      cases c <;> simp only [doneEvs, CtlCb.onFailure, if_pos, List.cons_append, List.nil_append, reduceCtorEq, if_false]
      · simp [CtlCb.legal] at hl
      all_goals
        constructor
        · repeat' refine Always.cons ?_ ?_
          · exact hist
          all_goals
            clear hist mid ann stp upd uns runW wLc stopW chk fSt legS legI resA resI loanA loanI
            constructor <;> intros <;> simp_all [Orderly.cons_iff, cycleOpen, latest, Cb.stops]
        all_goals clear hist
        all_goals evs
    · obtain ⟨hist, lcI, cyc, upd, uns, ins, mid, ann, stp, runW, wLc, stopW, chk, fSt, legS, legI, resA, resI, ord, loanA, loanI⟩ := h
      stepInv hist
  · rename_i hf
    exact h.errRet a hf
  · exact h

theorem Inv.step {s} (a) (h : Inv s) : Inv (step s a) := by
  cases a
  · exact h.rtCheck
  · exact h.rtTrigger
  · exact h.svPrepare
  · exact h.svPrepared
  · exact h.fCall _
  · exact h.fStopped
  · exact h.fRet _
  · exact h.wStart
  · exact h.wRet _
  · exact h.wEnd
  · exact h.wDrop

theorem foldl_inv (acts : List Act) : ∀ {s}, Inv s → Inv (acts.foldl ACtl.step s) := by
  induction acts with
  | nil => intro s h; exact h
  | cons a t ih => intro s h; exact ih (h.step a)

theorem run_inv (acts : List Act) : Inv (run acts) := foldl_inv acts Inv.start

theorem upd_closed : ∀ {l : List Ev}, Always Good l → cycleOpen l = false → updating l = false
  | [], _, _ => rfl
  | e :: t, h, hc => by
    have ih := upd_closed h.tail
    have g := h.head
    clear h
    cases e
    case updCall =>
      have hg := g.updOpen rfl
      have hc : cycleOpen t = false := hc
      rw [hg] at hc; cases hc
    case cycEnd => exact g.endU rfl
    case got r b =>
      have hg := (g.got r b rfl).2.1
      cases b
      · exact ih hc
      · cases hc
    case updRet => rfl
    all_goals exact ih hc

theorem run_good (acts : List Act) : Always Good (run acts).log := (run_inv acts).hist

end Verif.ACtl
