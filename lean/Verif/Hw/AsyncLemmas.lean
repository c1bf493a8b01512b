import Verif.Hw.AsyncSpec
namespace Verif.Async

theorem Always.nil {P} : Always P [] := by intro n e o h; simp at h

theorem Always.cons {P e l} (h : Always P l) (he : P e l) : Always P (e :: l) := by
  intro n e' o hh
  cases n with
  | nil => simp at hh; obtain ⟨rfl, rfl⟩ := hh; exact he
  | cons a n => simp at hh; exact h n e' o hh.2

/-- An accepted trigger since the plugin's last answer to `read`. -/
def freshTrig : List Ev → Bool
  | [] => false
  | .rdRet _ :: _ => false
  | .gotRead _ true :: _ => true
  | _ :: t => freshTrig t

/-- All the facts about one event proved below. -/
structure Good (sensor : Bool) (e : Ev) (older : List Ev) : Prop where
  write : e = .wrCall → sensor = false ∧ lastIo older = some (.rdRet .ok) ∧ stateOf older = .active
  cbIo : e.isCb → ¬ ioOpen older
  ioCb : e.isIo → ¬ cbOpen older
  lcIo : (∃ l, e = .lcSet l) → ¬ ioOpen older
  rdErr : ∀ b, e = .gotRead .error b → .rdRet .error ∈ since older
  wrErr : e = .gotWrite .error → .wrRet .error ∈ since older
  rdVal : ∀ r b, e = .gotRead r b → cycleOpen (atCall older) = false → b = true ∧ r = lastRead older
  wrVal : ∀ r, e = .gotWrite r → cycleOpen older = false → r = lastWrite older
  pend : errPending older → e.isWorker ∨ e = .cbCall .onError
  fresh : ∀ r, e = .rdRet r → freshTrig older

structure Inv (sensor : Bool) (s : St) : Prop where
  hist : Always (Good sensor) s.log
  lcI : stateOf s.log = s.lc
  cyc : cycleOpen s.log = decide (s.w ≠ .idle)
  cb : cbOpen s.log → ∃ c, s.f = .inCb c
  io : ioOpen s.log → s.w = .reading ∨ s.w = .writing
  exclP : ∀ c, s.f = .paused c → s.w = .idle
  exclC : ∀ c, s.f = .inCb c → s.w = .idle
  wAct : s.w = .writing → s.lc = .active ∧ sensor = false
  lastIoH : ∀ r, s.w = .haveRead r → lastIo s.log = some (.rdRet r)
  lastIoS : ∀ r, s.w = .storedRead r → lastIo s.log = some (.rdRet r)
  rd : (∀ r, s.w ≠ .haveRead r) → s.rdRes = lastRead s.log
  rdH : ∀ r, s.w = .haveRead r → lastRead s.log = r
  wr : (∀ r, s.w ≠ .haveWritten r) → s.wrRes = lastWrite s.log
  wrH : ∀ r, s.w = .haveWritten r → lastWrite s.log = r
  rdE : s.rdRes = .error → .rdRet .error ∈ since s.log
  wrE : s.wrRes = .error → .wrRet .error ∈ since s.log
  ldE : s.f = .loaded .error → .rdRet .error ∈ since s.log
  ldV : ∀ r, s.f = .loaded r → cycleOpen (atCall s.log) = false → s.w = .idle ∧ r = lastRead s.log
  frT : s.w = .triggered → freshTrig s.log
  frR : s.w = .reading → freshTrig s.log
  pend : errPending s.log → s.f = .pausing .onError ∨ s.f = .paused .onError
  ldL : ∀ r, s.f = .loaded r → s.lc = .inactive ∨ s.lc = .active
  sen : sensor = true → ∀ r, s.w ≠ .haveWritten r

theorem lastRead_error : ∀ {l}, lastRead l = .error → .rdRet .error ∈ since l
  | [] => by simp [lastRead]
  | .cbCall c :: t => by
    cases c <;> simp only [lastRead, since] <;>
      first
      | (intro h; exact List.mem_cons_of_mem _ (lastRead_error h))
      | simp
  | .rdCall :: t | .rdRet _ :: t | .wrCall :: t | .wrRet _ :: t | .cycEnd :: t | .cbRet _ _ :: t
  | .lcSet _ :: t | .apiRead :: t | .gotRead _ _ :: t | .gotWrite _ :: t => by
    simp only [lastRead, since]
    first
    | (intro h; exact List.mem_cons_of_mem _ (lastRead_error h))
    | (intro h; subst h; simp)

theorem lastWrite_error : ∀ {l}, lastWrite l = .error → .wrRet .error ∈ since l
  | [] => by simp [lastWrite]
  | .cbCall c :: t => by
    cases c <;> simp only [lastWrite, since] <;>
      first
      | (intro h; exact List.mem_cons_of_mem _ (lastWrite_error h))
      | simp
  | .rdCall :: t | .rdRet _ :: t | .wrCall :: t | .wrRet _ :: t | .cycEnd :: t | .cbRet _ _ :: t
  | .lcSet _ :: t | .apiRead :: t | .gotRead _ _ :: t | .gotWrite _ :: t => by
    simp only [lastWrite, since]
    first
    | (intro h; exact List.mem_cons_of_mem _ (lastWrite_error h))
    | (intro h; subst h; simp)

theorem Inv.start (sensor : Bool) : Inv sensor start := by
  constructor <;> simp [Async.start, Always.nil, stateOf, cycleOpen, cbOpen, ioOpen, lastCb, lastIo,
    lastRead, lastWrite, errPending]

/-- Computes the history functions on a history with a known newest event. -/
macro "evs" : tactic => `(tactic| simp_all [stateOf, cycleOpen, cbOpen, ioOpen, lastCb, lastIo,
    lastRead, lastWrite, errPending, since, freshTrig, atCall, Ev.isIo, Ev.isCb, Ev.isWorker])

theorem Inv.fRead {sensor s} (h : Inv sensor s) : Inv sensor (fRead s) := by
  unfold Async.fRead
  split
  · rename_i g
    obtain ⟨g1, g2⟩ := g
    obtain ⟨hist, lcI, cyc, cb, io, exclP, exclC, wAct, lastIoH, lastIoS, rd, rdH, wr, wrH, rdE,
      wrE, ldE, ldV, frT, frR, pend, ldL, sen⟩ := h
    constructor
    · refine hist.cons ?_
      constructor <;> evs
    all_goals evs
  · exact h

/-- Entering `error()` from `read`/`write` in a state where the callback is called. -/
theorem enterError_eq {s : St} (h : s.lc = .inactive ∨ s.lc = .active) :
    enterError s = { s with f := .pausing .onError } := by
  unfold enterError; rcases h with h | h <;> simp [allowed, h]


macro "stepInv" hist:ident : tactic => `(tactic| (
    constructor
    · refine Always.cons $hist ?_
      constructor <;> evs
    all_goals evs))

theorem Inv.wStart {sensor s} (h : Inv sensor s) : Inv sensor (wStart s) := by
  unfold Async.wStart
  split
  · obtain ⟨hist, lcI, cyc, cb, io, exclP, exclC, wAct, lastIoH, lastIoS, rd, rdH, wr, wrH, rdE,
      wrE, ldE, ldV, frT, frR, pend, ldL, sen⟩ := h
    stepInv hist
  · exact h

theorem Inv.wRead {sensor s} (r) (h : Inv sensor s) : Inv sensor (wRead r s) := by
  unfold Async.wRead
  split
  · obtain ⟨hist, lcI, cyc, cb, io, exclP, exclC, wAct, lastIoH, lastIoS, rd, rdH, wr, wrH, rdE,
      wrE, ldE, ldV, frT, frR, pend, ldL, sen⟩ := h
    stepInv hist
  · exact h

theorem Inv.wWrite {sensor s} (r) (h : Inv sensor s) : Inv sensor (wWrite r s) := by
  unfold Async.wWrite
  split
  · obtain ⟨hist, lcI, cyc, cb, io, exclP, exclC, wAct, lastIoH, lastIoS, rd, rdH, wr, wrH, rdE,
      wrE, ldE, ldV, frT, frR, pend, ldL, sen⟩ := h
    stepInv hist
  · exact h

theorem Inv.wEnd {sensor s} (h : Inv sensor s) : Inv sensor (wEnd s) := by
  unfold Async.wEnd
  split
  · obtain ⟨hist, lcI, cyc, cb, io, exclP, exclC, wAct, lastIoH, lastIoS, rd, rdH, wr, wrH, rdE,
      wrE, ldE, ldV, frT, frR, pend, ldL, sen⟩ := h
    stepInv hist
  · exact h

theorem Inv.wStoreRead {sensor s} (h : Inv sensor s) : Inv sensor (wStoreRead s) := by
  unfold Async.wStoreRead
  split
  · have hh := h.rdH
    obtain ⟨hist, lcI, cyc, cb, io, exclP, exclC, wAct, lastIoH, lastIoS, rd, rdH, wr, wrH, rdE,
      wrE, ldE, ldV, frT, frR, pend, ldL, sen⟩ := h
    constructor <;> first | (evs; done) | (intro h; simp_all [lastRead_error, lastWrite_error])
  · exact h

theorem Inv.wStoreWrite {sensor s} (h : Inv sensor s) : Inv sensor (wStoreWrite s) := by
  unfold Async.wStoreWrite
  split
  · obtain ⟨hist, lcI, cyc, cb, io, exclP, exclC, wAct, lastIoH, lastIoS, rd, rdH, wr, wrH, rdE,
      wrE, ldE, ldV, frT, frR, pend, ldL, sen⟩ := h
    constructor <;> first | (evs; done) | (intro h; simp_all [lastRead_error, lastWrite_error])
  · exact h

set_option maxHeartbeats 4000000 in
theorem Inv.wDecide {sensor s} (h : Inv sensor s) : Inv sensor (wDecide sensor s) := by
  unfold Async.wDecide
  split
  · split
    · obtain ⟨hist, lcI, cyc, cb, io, exclP, exclC, wAct, lastIoH, lastIoS, rd, rdH, wr, wrH, rdE,
      wrE, ldE, ldV, frT, frR, pend, ldL, sen⟩ := h
      constructor <;> first | (evs; done) | (intro h; simp_all [lastRead_error, lastWrite_error])
    · split
      · obtain ⟨hist, lcI, cyc, cb, io, exclP, exclC, wAct, lastIoH, lastIoS, rd, rdH, wr, wrH, rdE,
      wrE, ldE, ldV, frT, frR, pend, ldL, sen⟩ := h
        stepInv hist
      · obtain ⟨hist, lcI, cyc, cb, io, exclP, exclC, wAct, lastIoH, lastIoS, rd, rdH, wr, wrH, rdE,
      wrE, ldE, ldV, frT, frR, pend, ldL, sen⟩ := h
        constructor <;> first | (evs; done) | (intro h; simp_all [lastRead_error, lastWrite_error])
  · exact h

set_option maxHeartbeats 4000000 in
theorem Inv.fCall {sensor s} (c) (h : Inv sensor s) : Inv sensor (fCall c s) := by
  unfold Async.fCall
  split
  · obtain ⟨hist, lcI, cyc, cb, io, exclP, exclC, wAct, lastIoH, lastIoS, rd, rdH, wr, wrH, rdE,
      wrE, ldE, ldV, frT, frR, pend, ldL, sen⟩ := h
    constructor <;> first | (evs; done) | (intro h; simp_all [lastRead_error, lastWrite_error])
  · exact h

set_option maxHeartbeats 4000000 in
theorem Inv.fPaused {sensor s} (h : Inv sensor s) : Inv sensor (fPaused s) := by
  unfold Async.fPaused
  split
  · split
    · obtain ⟨hist, lcI, cyc, cb, io, exclP, exclC, wAct, lastIoH, lastIoS, rd, rdH, wr, wrH, rdE,
      wrE, ldE, ldV, frT, frR, pend, ldL, sen⟩ := h
      constructor <;> first | (evs; done) | (intro h; simp_all [lastRead_error, lastWrite_error])
    · exact h
  · exact h

set_option maxHeartbeats 4000000 in
theorem Inv.fEnter {sensor s} (h : Inv sensor s) : Inv sensor (fEnter s) := by
  unfold Async.fEnter
  split
  · obtain ⟨hist, lcI, cyc, cb, io, exclP, exclC, wAct, lastIoH, lastIoS, rd, rdH, wr, wrH, rdE,
      wrE, ldE, ldV, frT, frR, pend, ldL, sen⟩ := h
    stepInv hist
  · rename_i c hc hf
    obtain ⟨hist, lcI, cyc, cb, io, exclP, exclC, wAct, lastIoH, lastIoS, rd, rdH, wr, wrH, rdE,
      wrE, ldE, ldV, frT, frR, pend, ldL, sen⟩ := h
    have hc' : c ≠ .activate := by rintro rfl; exact hc rfl
    cases c <;> first | exact absurd rfl hc' | skip
    all_goals stepInv hist
  · exact h

set_option maxHeartbeats 4000000 in
theorem Inv.fWrite {sensor s} (h : Inv sensor s) : Inv sensor (fWrite sensor s) := by
  unfold Async.fWrite
  split
  · rename_i g
    obtain ⟨g1, g2, g3⟩ := g
    dsimp only
    split
    · rw [enterError_eq (s := { s with log := .gotWrite s.wrRes :: s.log }) (Or.inr g3)]
      obtain ⟨hist, lcI, cyc, cb, io, exclP, exclC, wAct, lastIoH, lastIoS, rd, rdH, wr, wrH, rdE,
      wrE, ldE, ldV, frT, frR, pend, ldL, sen⟩ := h
      stepInv hist
    · obtain ⟨hist, lcI, cyc, cb, io, exclP, exclC, wAct, lastIoH, lastIoS, rd, rdH, wr, wrH, rdE,
      wrE, ldE, ldV, frT, frR, pend, ldL, sen⟩ := h
      stepInv hist
  · exact h

set_option maxHeartbeats 4000000 in
theorem Inv.fTrigger {sensor s} (h : Inv sensor s) :
    Inv sensor (fTrigger s) := by
  unfold Async.fTrigger
  split
  · rename_i r hf
    split
    · dsimp only
      split
      · rw [enterError_eq (s := { s with w := .triggered, f := .free, log := .gotRead r true :: s.log }) (h.ldL _ hf)]
        obtain ⟨hist, lcI, cyc, cb, io, exclP, exclC, wAct, lastIoH, lastIoS, rd, rdH, wr, wrH, rdE,
      wrE, ldE, ldV, frT, frR, pend, ldL, sen⟩ := h
        stepInv hist
      · obtain ⟨hist, lcI, cyc, cb, io, exclP, exclC, wAct, lastIoH, lastIoS, rd, rdH, wr, wrH, rdE,
      wrE, ldE, ldV, frT, frR, pend, ldL, sen⟩ := h
        stepInv hist
    · obtain ⟨hist, lcI, cyc, cb, io, exclP, exclC, wAct, lastIoH, lastIoS, rd, rdH, wr, wrH, rdE,
      wrE, ldE, ldV, frT, frR, pend, ldL, sen⟩ := h
      stepInv hist
  · exact h

set_option maxHeartbeats 4000000 in
theorem Inv.fRet {sensor s} (a) (h : Inv sensor s) : Inv sensor (fRet a s) := by
  unfold Async.fRet
  split
  · rename_i c hf
    dsimp only
    split
    · obtain ⟨hist, lcI, cyc, cb, io, exclP, exclC, wAct, lastIoH, lastIoS, rd, rdH, wr, wrH, rdE,
      wrE, ldE, ldV, frT, frR, pend, ldL, sen⟩ := h
      stepInv hist
    · split
      · obtain ⟨hist, lcI, cyc, cb, io, exclP, exclC, wAct, lastIoH, lastIoS, rd, rdH, wr, wrH, rdE,
      wrE, ldE, ldV, frT, frR, pend, ldL, sen⟩ := h
        constructor
        · refine Always.cons (Always.cons hist ?_) ?_
          · constructor <;> evs
          · constructor <;> evs
        all_goals evs
      · unfold enterError
        split
        · obtain ⟨hist, lcI, cyc, cb, io, exclP, exclC, wAct, lastIoH, lastIoS, rd, rdH, wr, wrH, rdE,
      wrE, ldE, ldV, frT, frR, pend, ldL, sen⟩ := h
          stepInv hist
        · obtain ⟨hist, lcI, cyc, cb, io, exclP, exclC, wAct, lastIoH, lastIoS, rd, rdH, wr, wrH, rdE,
      wrE, ldE, ldV, frT, frR, pend, ldL, sen⟩ := h
          stepInv hist
  · exact h

end Verif.Async
