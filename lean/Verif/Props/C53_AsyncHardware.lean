import Verif.Hw.AsyncLemmas
import Verif.Hw.Component
/-!
# C53: asynchronous hardware components

For every schedule of the real-time thread, the lifecycle services and the worker thread, and for
all answers of the plugin. The vocabulary is in `Verif/Hw/AsyncSpec.lean` and mentions events only.
-/
namespace Verif.Async

theorem Inv.step {sensor s} (a : Act) (h : Inv sensor s) : Inv sensor (step sensor s a) := by
  cases a
  case fRead => exact h.fRead
  case fTrigger => exact h.fTrigger
  case fWrite => exact h.fWrite
  case fCall c => exact h.fCall c
  case fPaused => exact h.fPaused
  case fEnter => exact h.fEnter
  case fRet a => exact h.fRet a
  case wStart => exact h.wStart
  case wRead r => exact h.wRead r
  case wStoreRead => exact h.wStoreRead
  case wDecide => exact h.wDecide
  case wWrite r => exact h.wWrite r
  case wStoreWrite => exact h.wStoreWrite
  case wEnd => exact h.wEnd

theorem Inv.run (sensor : Bool) (acts : List Act) : Inv sensor (run sensor acts) := by
  have : ∀ s, Inv sensor s → Inv sensor (acts.foldl (Async.step sensor) s) := by
    induction acts with
    | nil => exact fun _ h => h
    | cons a l ih => exact fun s h => ih _ (h.step a)
  exact this _ (Inv.start sensor)

/-- **C53a.** The plugin's `write` is called only by a component that is not a sensor, while it is
ACTIVE, and only right after a `read` of the plugin that said OK. -/
theorem async_write_only_after_ok_read (sensor : Bool) (acts : List Act) :
    Always (fun e older => e = .wrCall →
      sensor = false ∧ lastIo older = some (.rdRet .ok) ∧ stateOf older = .active)
      (run sensor acts).log :=
  fun n e o h => ((Inv.run sensor acts).hist n e o h).write

/-- **C53b.** The worker and the lifecycle never overlap: no lifecycle callback of the plugin is
called or returns, and the state of the component does not change, while the plugin is inside `read`
or `write`; and `read`/`write` are neither entered nor left while the plugin is inside a lifecycle
callback. -/
theorem async_callbacks_exclude_io (sensor : Bool) (acts : List Act) :
    Always (fun e older =>
      (e.isCb ∨ (∃ l, e = .lcSet l) → ¬ ioOpen older) ∧ (e.isIo → ¬ cbOpen older))
      (run sensor acts).log := by
  intro n e o h
  have g := (Inv.run sensor acts).hist n e o h
  exact ⟨fun h => h.elim g.cbIo g.lcIo, g.ioCb⟩

/-- The full statement of C53c: an ERROR reported by `read` (or `write`) comes from an ERROR of the
plugin's `read` (`write`) since the component was last configured or activated. -/
def ErrorsAreRecent (log : List Ev) : Prop :=
  Always (fun e older =>
    (∀ b, e = .gotRead .error b → .rdRet .error ∈ older.takeWhile
      (fun e => e != .cbCall .activate && e != .cbCall .configure)) ∧
    (e = .gotWrite .error → .wrRet .error ∈ older.takeWhile
      (fun e => e != .cbCall .activate && e != .cbCall .configure))) log

/-- **C53c (partial).** An ERROR reported by `read`/`write` comes from an ERROR the plugin's own
`read`/`write` returned since the component's last activation. Missing: a component that was only
configured again may report the ERROR of its previous life, see `stale_error_after_configure`. -/
theorem async_reported_error_is_real_partial (sensor : Bool) (acts : List Act) :
    Always (fun e older =>
      (∀ b, e = .gotRead .error b → .rdRet .error ∈ since older) ∧
      (e = .gotWrite .error → .wrRet .error ∈ since older)) (run sensor acts).log := by
  intro n e o h
  have g := (Inv.run sensor acts).hist n e o h
  exact ⟨g.rdErr, g.wrErr⟩

/-- **C53d.** If no cycle is in progress when `read` is called, its trigger is accepted and it
reports the plugin's last answer to `read` since the last activation (OK if there is none).
If no cycle is in progress when `write` is called it reports the plugin's last answer to `write`. -/
theorem async_reports_last_answer (sensor : Bool) (acts : List Act) :
    Always (fun e older =>
      (∀ r b, e = .gotRead r b → cycleOpen (atCall older) = false → b = true ∧ r = lastRead older) ∧
      (∀ r, e = .gotWrite r → cycleOpen older = false → r = lastWrite older))
      (run sensor acts).log := by
  intro n e o h
  have g := (Inv.run sensor acts).hist n e o h
  exact ⟨g.rdVal, g.wrVal⟩

theorem noAnswer_of_noTrigger {sensor older mid r0} :
    Always (Good sensor) (mid ++ .rdRet r0 :: older) →
    (∀ r, Ev.gotRead r true ∉ mid) →
    freshTrig (mid ++ .rdRet r0 :: older) = false ∧ ∀ r, Ev.rdRet r ∉ mid := by
  induction mid with
  | nil => intro _ _; exact ⟨rfl, by simp⟩
  | cons e mid ih =>
    intro h hn
    have h1 : Always (Good sensor) (mid ++ .rdRet r0 :: older) := by
      intro n e' o hh
      exact h (e :: n) e' o (by rw [List.cons_append, hh]; rfl)
    obtain ⟨i1, i2⟩ := ih h1 (fun r hr => hn r (List.mem_cons_of_mem _ hr))
    have hg : Good sensor e (mid ++ .rdRet r0 :: older) := h [] e _ rfl
    have hne : ∀ r, e ≠ .rdRet r := fun r he => by
      have := hg.fresh r he; rw [i1] at this; simp at this
    have hnt : ∀ r, e ≠ .gotRead r true := fun r he => hn r (he ▸ List.mem_cons_self)
    refine ⟨?_, fun r hr => ?_⟩
    · cases e
      case rdRet r => exact absurd rfl (hne r)
      case gotRead r b =>
        cases b
        · exact i1
        · exact absurd rfl (hnt r)
      all_goals exact i1
    · rcases List.mem_cons.mp hr with hr | hr
      · exact hne r hr.symm
      · exact i2 r hr

theorem lastRead_skip {older r0} : ∀ mid : List Ev, (∀ r, Ev.rdRet r ∉ mid) →
    Ev.cbCall .activate ∉ mid → lastRead (mid ++ .rdRet r0 :: older) = r0
  | [], _, _ => rfl
  | e :: mid, h1, h2 => by
    have ih := lastRead_skip (older := older) (r0 := r0) mid
      (fun r hr => h1 r (List.mem_cons_of_mem _ hr)) (fun hr => h2 (List.mem_cons_of_mem _ hr))
    cases e
    case cbCall c => cases c <;> simp_all [lastRead]
    case rdRet r => exact absurd List.mem_cons_self (h1 r)
    all_goals exact ih

/-- The full statement of C53e: whatever ERROR (or DEACTIVATE) the plugin's `read` returned, the next
`read` of the real-time thread whose trigger is accepted reports it, unless the component was
activated anew in between. -/
def NoReadErrorLost (log : List Ev) : Prop :=
  ∀ newer mid older r r0, log = newer ++ .gotRead r true :: (mid ++ .rdRet r0 :: older) →
    (∀ r, Ev.gotRead r true ∉ mid) → Ev.cbCall .activate ∉ mid → r = r0

/-- **C53e (partial).** Every answer of the plugin's `read` is reported by the next `read` call of
the real-time thread, provided no cycle was in progress when that call began. Missing: a cycle that
ends between the moment the call looks at the last result and the moment it triggers the worker,
see `read_error_lost`. -/
theorem async_read_answer_reported_partial (sensor : Bool) (acts : List Act)
    (newer mid older : List Ev) (r r0 : Ret) (b : Bool)
    (h : (run sensor acts).log = newer ++ .gotRead r b :: (mid ++ .rdRet r0 :: older))
    (hmid : ∀ r, Ev.gotRead r true ∉ mid) (hact : Ev.cbCall .activate ∉ mid)
    (hidle : cycleOpen (atCall (mid ++ .rdRet r0 :: older)) = false) :
    b = true ∧ r = r0 := by
  have hist := (Inv.run sensor acts).hist
  obtain ⟨hb, hr⟩ := (hist newer _ _ h).rdVal r b rfl hidle
  refine ⟨hb, ?_⟩
  have h1 : Always (Good sensor) (mid ++ .rdRet r0 :: older) := by
    intro n e o hh
    exact hist (newer ++ .gotRead r b :: n) e o (by rw [h, hh]; simp)
  rw [hr, lastRead_skip mid (noAnswer_of_noTrigger h1 hmid).2 hact]

/-- **C53f.** Once `read` or `write` has reported ERROR, nothing but the worker finishing its cycle
happens before the plugin's `on_error` is called. -/
theorem async_error_calls_on_error (sensor : Bool) (acts : List Act) :
    Always (fun e older => errPending older → e.isWorker ∨ e = .cbCall .onError)
      (run sensor acts).log :=
  fun n e o h => ((Inv.run sensor acts).hist n e o h).pend

/-- The worker's steps with the plugin answering `r1` and `r2`. -/
def finish (r1 r2 : Ret) : List Act :=
  [.wStart, .wRead r1, .wStoreRead, .wDecide, .wWrite r2, .wStoreWrite, .wEnd]

theorem finish_idle (sensor : Bool) (s : St) (r1 r2 : Ret) :
    ((finish r1 r2).foldl (step sensor) s).w = .idle ∧
    ((finish r1 r2).foldl (step sensor) s).f = s.f ∧ ((finish r1 r2).foldl (step sensor) s).lc = s.lc := by
  obtain ⟨lc, f, w, a, b, log⟩ := s
  by_cases hr : r1 = .ok <;> by_cases hs : sensor = false ∧ lc = .active <;> cases w <;>
    simp [finish, step, wStart, wRead, wStoreRead, wDecide, wWrite, wStoreWrite, wEnd, hr, hs]
  all_goals (rename_i r; by_cases hr' : r = .ok <;> simp [hr'])

/-- **C53g.** A lifecycle call never waits forever for the worker: wherever both are, once the worker
has run its remaining steps (whatever the plugin answers) the callback is called. -/
theorem async_pause_completes (sensor : Bool) (acts : List Act) (r1 r2 : Ret) (c : Cb)
    (h : (run sensor acts).f = .pausing c) :
    ∃ t, (run sensor (acts ++ finish r1 r2 ++ [.fPaused, .fEnter])).log = .cbCall c :: t := by
  have hf := finish_idle sensor (run sensor acts) r1 r2
  have he : (run sensor (acts ++ finish r1 r2 ++ [.fPaused, .fEnter])) =
      fEnter (fPaused ((finish r1 r2).foldl (step sensor) (run sensor acts))) := by
    simp [run, List.foldl_append, step]
  rw [he]
  generalize (finish r1 r2).foldl (step sensor) (run sensor acts) = s at hf
  obtain ⟨h1, h2, _⟩ := hf
  rw [h] at h2
  simp only [fPaused, h2, h1, if_true, fEnter]
  cases c <;> exact ⟨_, rfl⟩

/-! ## The lifecycle is that of a synchronous component -/

/-- The callback of the synchronous model (`Verif/Hw/Component.lean`). -/
def hwCbOf : Cb → HwCb
  | .configure => .configure | .cleanup => .cleanup | .shutdown => .shutdown
  | .activate => .activate | .deactivate => .deactivate | .onError => .configure

def hwOpOf : Cb → HwOp
  | .configure => .configure | .cleanup => .cleanup | .shutdown => .shutdown
  | .activate => .activate | .deactivate => .deactivate | .onError => .error

def errAns : ErrAns → CbAns
  | .success => .success | .failure => .failure | .error => .error

/-- **C53h.** Undisturbed by the worker, a lifecycle call on an asynchronous component leaves it in the
same state as the same call on a synchronous component whose plugin answers the same. -/
theorem async_lifecycle_as_sync (sensor : Bool) (s : St) (c : Cb) (hc : c ≠ .onError)
    (hf : s.f = .free) (hw : s.w = .idle) (o : Oracle) (h : Hw) (tr : List Verif.Ev)
    (hlc : h.lc = s.lc) (a : CbAns) (e : ErrAns)
    (ha : o.hwCb tr h.name (hwCbOf c) = a) (he : ∀ t, o.hwErr t h.name = e) :
    ([Act.fCall c, .fPaused, .fEnter, .fRet a, .fPaused, .fEnter, .fRet (errAns e)].foldl
      (step sensor) s).lc = (Hw.step o (h, tr) (hwOpOf c)).1.lc := by
  obtain ⟨lc, f, w, r1, r2, log⟩ := s
  obtain ⟨n, k, g, si, ci, lc'⟩ := h
  simp only at hf hw hlc ha he
  subst hf hw hlc
  cases c <;> cases lc' <;> cases a <;> cases e <;>
    simp_all [step, fCall, fPaused, fEnter, fRet, allowed, after, enterError, Hw.step, hwOpOf, hwCbOf,
      Hw.configure, Hw.cleanup, Hw.shutdown, Hw.activate, Hw.deactivate, Hw.error, errAns]

/-! ## Concrete schedules -/

/-- A lifecycle call that runs to its end with answer `a`. -/
def call (c : Cb) (a : CbAns) : List Act := [.fCall c, .fPaused, .fEnter, .fRet a]

def bringUp : List Act := call .configure .success ++ call .activate .success

/-- An uneventful period followed by a failing one: ERROR is reported, `on_error` called. -/
def goodRun : List Act :=
  bringUp ++ [.fRead, .fTrigger] ++ finish .ok .ok ++ [.fWrite, .fRead, .fTrigger] ++
    finish .error .ok ++ [.fRead, .fTrigger, .wStart, .fPaused] ++ finish .ok .ok ++
    [.fPaused, .fEnter, .fRet .success]

example : (run false goodRun).log.take 13 =
    [.lcSet .unconfigured, .cbRet .onError .success, .cbCall .onError, .cycEnd, .wrRet .ok, .wrCall,
     .rdRet .ok, .rdCall, .gotRead .error true, .apiRead, .cycEnd, .rdRet .error, .rdCall] := by decide +kernel

/-- The hypotheses of C53e are met by this run, and the ERROR is reported. -/
example : (run false goodRun).log = ((run false goodRun).log.take 8) ++
      .gotRead .error true :: ([.apiRead, .cycEnd] ++ .rdRet .error :: (run false goodRun).log.drop 12) ∧
    cycleOpen (atCall ([.apiRead, .cycEnd] ++ .rdRet .error :: (run false goodRun).log.drop 12)) = false := by
  decide +kernel

/-- Hypothesis of C53g: the foreground waits while the worker is in the middle of a cycle. -/
example : (run false (goodRun.take (goodRun.length - 11))).f = .pausing .onError ∧
    (run false (goodRun.take (goodRun.length - 11))).w = .reading := by decide +kernel

/-- **Negation witness for C53c.** The hardware failed, `read` reported it, the component went
through `on_error` and was configured again; the first `read` afterwards reports ERROR although the
plugin's `read` was not called since, and the component is thrown back to UNCONFIGURED. The second
ERROR stems from the cycle that the failing `read` call itself triggered. -/
def staleRun : List Act :=
  bringUp ++ [.fRead, .fTrigger] ++ finish .error .ok ++ [.fRead, .fTrigger] ++
    finish .error .ok ++ [.fPaused, .fEnter, .fRet .success] ++ call .configure .success ++
    [.fRead, .fTrigger]

theorem stale_error_after_configure :
    (run false staleRun).log.take 3 = [.gotRead .error true, .apiRead, .lcSet .inactive] ∧
    ¬ ErrorsAreRecent (run false staleRun).log := by
  refine ⟨by decide +kernel, fun h => ?_⟩
  have := (h [] (.gotRead .error true) ((run false staleRun).log.drop 1) (by decide +kernel)).1 true rfl
  revert this; decide +kernel

/-- **Negation witness for C53e.** A cycle ends with ERROR after the real-time thread looked at the
previous result and before it triggers: the call reports OK, and the next cycle overwrites the
ERROR. It is never reported. -/
def lostRun : List Act :=
  bringUp ++ [.fRead, .fTrigger, .wStart, .fRead] ++ [.wRead .error, .wStoreRead, .wDecide, .wEnd] ++
    [.fTrigger] ++ finish .ok .ok ++ [.fWrite, .fRead, .fTrigger]

theorem read_error_lost :
    .rdRet .error ∈ (run false lostRun).log ∧
    (∀ b, Ev.gotRead .error b ∉ (run false lostRun).log) ∧
    (run false lostRun).lc = .active ∧
    ¬ NoReadErrorLost (run false lostRun).log := by
  refine ⟨by decide +kernel, by decide +kernel, by decide +kernel, fun h => ?_⟩
  have := h ((run false lostRun).log.take 8) [.cycEnd] ((run false lostRun).log.drop 11) .ok .error
    (by decide +kernel) (by intro r; cases r <;> decide +kernel) (by decide +kernel)
  revert this; decide +kernel

/-- The same statement for `write`: the ERROR of the plugin's `write` is reported by the next `write`
call of the real-time thread (unless the component is activated anew). -/
def NoWriteErrorLost (log : List Ev) : Prop :=
  ∀ newer mid older r, log = newer ++ .gotWrite r :: (mid ++ .wrRet .error :: older) →
    (∀ r, Ev.gotWrite r ∉ mid) → Ev.cbCall .activate ∉ mid → r = .error

/-- **Negation witness.** No race is needed to lose an ERROR of `write`: it is enough that the worker
is faster than the controllers, so that the next cycle is over before `write` is called. -/
def lostWriteRun : List Act :=
  bringUp ++ [.fRead, .fTrigger, .fWrite] ++ finish .ok .error ++ [.fRead, .fTrigger] ++
    finish .ok .ok ++ [.fWrite]

theorem write_error_lost :
    .wrRet .error ∈ (run false lostWriteRun).log ∧
    Ev.gotWrite .error ∉ (run false lostWriteRun).log ∧
    (run false lostWriteRun).lc = .active ∧
    ¬ NoWriteErrorLost (run false lostWriteRun).log := by
  refine ⟨by decide +kernel, by decide +kernel, by decide +kernel, fun h => ?_⟩
  have := h [] ((run false lostWriteRun).log.drop 1 |>.take 8) ((run false lostWriteRun).log.drop 10) .ok
    (by decide +kernel) (by intro r; cases r <;> decide +kernel) (by decide +kernel)
  revert this; decide +kernel

/-- **Observation.** The call of `read` that reports ERROR has already triggered another cycle: the
plugin's `read` and `write` run once more before `on_error`. -/
theorem error_triggers_another_cycle :
    ∃ acts newer older, (run false acts).log = newer ++ .gotRead .error true :: older ∧
      Ev.wrCall ∈ newer ∧ Ev.cbCall .onError ∉ newer ∧ stateOf older = .active :=
  ⟨goodRun.take (goodRun.length - 3), (run false goodRun).log.drop 3 |>.take 5,
    (run false goodRun).log.drop 9, by decide +kernel, by decide +kernel, by decide +kernel, by decide +kernel⟩

end Verif.Async
