import Verif.CM.Local
import Verif.RM.Run
import Mathlib.Data.List.Induction
/-!
# All histories of the controller manager

`CM.start` is a controller manager on a freshly loaded robot description, `CM.Op` the operations of its
API (services and the three phases of the real-time loop), `CM.Reach` the states of all histories.
-/
namespace Verif

namespace RM

/-- Nothing is claimed while the robot description is loaded. -/
structure Fresh (rm : RM) : Prop where
  noClaim : ∀ k, rm.claimed k ≠ some true
  dom : ∀ k, rm.claimed k ≠ none → k ∈ rm.cmdKeys
  ev : ∀ e ∈ rm.tr, e.hwName ≠ none

theorem Fresh.addStateItfs {rm : RM} (h : rm.Fresh) (is : List Itf) : (rm.addStateItfs is).1.Fresh := by
  induction is generalizing rm with
  | nil => exact h
  | cons i t ih =>
    unfold RM.addStateItfs
    split
    · exact ih h
    · exact ih (rm := { rm with stateKeys := rm.stateKeys ++ [i] }) ⟨h.noClaim, h.dom, h.ev⟩

theorem Fresh.addCmdItfs {rm : RM} (h : rm.Fresh) (is : List Itf) : (rm.addCmdItfs is).1.Fresh := by
  induction is generalizing rm with
  | nil => exact h
  | cons i t ih =>
    unfold RM.addCmdItfs
    split
    · exact h
    · simp only
      refine ih ⟨?_, ?_, h.ev⟩
      · intro k
        simp only
        split
        · simp only [upd_apply]; split
          · simp
          · exact h.noClaim k
        · exact h.noClaim k
      · intro k
        simp only [List.mem_append, List.mem_singleton]
        split
        · simp only [upd_apply]; split
          · rename_i e; intro _; exact .inr e
          · intro hk; exact .inl (h.dom k hk)
        · intro hk; exact .inl (h.dom k hk)

theorem Fresh.loadOne (o : Oracle) {rm : RM} (h : rm.Fresh) (s : HwSpec) : (rm.loadOne o s).1.Fresh := by
  unfold RM.loadOne
  split
  · exact h
  split
  · exact h
  extract_lets h0 r rm1 a h1
  have f1 : rm1.Fresh := by
    refine ⟨h.noClaim, h.dom, ?_⟩
    intro e he
    have he : e ∈ r.2 := he
    have : r.2 = rm.tr ∨ ∃ a, r.2 = .hwCb s.name .init a :: rm.tr := by
      simp only [r, Hw.init]
      split
      · split
        · exact .inr ⟨_, rfl⟩
        · exact .inr ⟨_, rfl⟩
        · exact .inr ⟨_, rfl⟩
        · exact .inr ⟨_, rfl⟩
      · exact .inl rfl
    rcases this with e1 | ⟨a, e1⟩
    · rw [e1] at he; exact h.ev e he
    · rw [e1] at he
      rcases List.mem_cons.1 he with he | he
      · subst he; simp [Ev.hwName]
      · exact h.ev e he
  clear_value rm1
  have f2 : a.1.Fresh := f1.addStateItfs _
  clear_value a h1
  split
  · split
    · exact ⟨f2.noClaim, f2.dom, f2.ev⟩
    · have f3 := f2.addCmdItfs s.exportC
      split
      · rename_i rm2 names he
        rw [he] at f3
        exact ⟨f3.noClaim, f3.dom, f3.ev⟩
      · rename_i rm2 he
        rw [he] at f3
        exact ⟨f3.noClaim, f3.dom, f3.ev⟩
  · exact f1

theorem Fresh.loadAll (o : Oracle) (a b : Bool) (specs : List HwSpec) :
    ((RM.empty a b).loadAll o specs).1.Fresh := by
  have key : ∀ (l : List HwSpec) (acc : RM × Bool), acc.1.Fresh →
      (l.foldl (fun (acc : RM × Bool) s => if acc.2 then acc.1.loadOne o s else acc) acc).1.Fresh := by
    intro l
    induction l with
    | nil => intro acc h; exact h
    | cons s t ih =>
      intro acc h
      simp only [List.foldl_cons]
      apply ih
      split
      · exact h.loadOne o s
      · exact h
  have h0 : (RM.empty a b).Fresh := ⟨by simp [RM.empty], by simp [RM.empty], by simp [RM.empty]⟩
  have := key specs (RM.empty a b, true) h0
  unfold RM.loadAll
  dsimp only
  split
  · exact this
  · exact ⟨by simp, by simp, this.ev⟩

end RM

namespace CM

/-- A controller manager on a freshly loaded robot description (cm.cpp:654-800: constructor and
`init_resource_manager`; the initial hardware states are later `setHw` operations). -/
def start (o : Oracle) (a b : Bool) (specs : List RM.HwSpec) : CM := init ((RM.empty a b).loadAll o specs).1

/-- The operations of the controller manager. -/
inductive Op
  /-- `load_controller` -/
  | load (n : Name) (chainable async : Bool) (cfg : CtlCfg) (fallbacks : List Name)
  /-- `configure_controller` -/
  | configure (n : Name) (cfg : CtlCfg) (ord : List Name) (rateOk : Bool)
  /-- `cleanup_controller` -/
  | cleanup (n : Name)
  /-- `unload_controller` -/
  | unload (n : Name)
  /-- `switch_controller` up to the point where it waits for the real-time loop -/
  | switchBegin (act deact : List Name) (s : Strictness) (asap : Bool)
  /-- the waiting `switch_controller` call makes progress -/
  | switchWake
  /-- the waiting `switch_controller` call times out -/
  | switchTimeout
  /-- `read` of the real-time loop -/
  | read (sched : Name → RM.Sched)
  /-- `update` of the real-time loop -/
  | update (due : Name → Bool) (lock : Bool)
  /-- `write` of the real-time loop -/
  | write (sched : Name → RM.Sched)
  /-- `set_hardware_component_state` -/
  | setHw (h : Name) (target : LState)
  /-- `shutdown_controllers` -/
  | shutdown

/-- One operation. The services share `services_lock_`, so a second `switch_controller` cannot begin
while one is waiting (cm.cpp:3001-3020 and the other service callbacks). -/
def step (o : Oracle) (cm : CM) : Op → CM
  | .load n ch as cfg fb => (cm.load o n ch as cfg fb).1
  | .configure n cfg ord r => (cm.configure o n cfg ord r).1
  | .cleanup n => (cm.cleanup o n).1
  | .unload n => (cm.unload o n).1
  | .switchBegin a d s asap => if cm.pending then cm else (cm.switchBegin o a d s asap).1
  | .switchWake => (cm.switchWake o).1
  | .switchTimeout => cm.switchTimeout.1
  | .read s => cm.rtRead o s
  | .update due lock => (cm.rtUpdate o due lock).1
  | .write s => cm.rtWrite o s
  | .setHw h t => (cm.setHw o h t).1
  | .shutdown => (cm.shutdownAll o).1

/-- A history. -/
def run (o : Oracle) (cm : CM) (ops : List Op) : CM := ops.foldl (step o) cm

/-- The states of all histories on any robot description. -/
def Reach (o : Oracle) (cm : CM) : Prop :=
  ∃ (a b : Bool) (specs : List RM.HwSpec) (ops : List Op), cm = run o (start o a b specs) ops

theorem inv_start (o : Oracle) (a b : Bool) (specs : List RM.HwSpec) : Inv (start o a b specs) := by
  have F := RM.Fresh.loadAll o a b specs
  have I := (RM.loadAll_ok o a b specs).1
  refine ⟨⟨?_, ?_⟩, ?_⟩
  · exact
    { rm := I
      idle := by intro n c h; simp [start, init, abs, find] at h
      nod := by intro n c h; simp [start, init, abs, find] at h
      uniq := by intro n m c d i h; simp [start, init, abs, find] at h
      mark := by intro n c i h; simp [start, init, abs, find] at h
      held := by intro i h; exact absurd h (F.noClaim i)
      dom := by intro i h _; exact F.dom i h
      dhw := by intro i h; simp [start, init, abs] at h }
  · refine ⟨?_, ?_, ?_, ?_, ?_⟩
    · have := ctlTraceOk_hw (t := []) F.ev trivial
      simpa [start, init, abs] using this
    all_goals (intro n c h; simp [start, init, abs, find] at h)
  · constructor <;> simp [start, init]

/-- What every operation does to the controllers it is not about. -/
theorem inv_step (o : Oracle) {cm : CM} (I : Inv cm) (op : Op) : Inv (cm.step o op) := by
  cases op <;> simp only [step]
  · rename_i n ch as cfg fb
    obtain ⟨h1, h2⟩ := load_ok o cm n ch as cfg fb I
    exact ⟨h1.inv I.sys, h2⟩
  · rename_i n cfg ord r
    obtain ⟨h1, h2⟩ := configure_ok o cm n cfg ord r I
    exact ⟨h1.inv I.sys, h2⟩
  · exact (Fwd.cleanup o cm _).cmInv I
  · rename_i n
    obtain ⟨h1, h2⟩ := unload_ok o cm n I
    exact ⟨h1.inv I.sys, h2⟩
  · split
    · exact I
    · exact (Fwd.switchBegin o cm _ _ _ _ I.sys).cmInv I
  · exact (Fwd.switchWake o cm I).cmInv I
  · exact (Fwd.switchTimeout o Anybody cm).cmInv I
  · exact (Fwd.rtRead o _ cm I.sys).cmInv I
  · exact (Fwd.rtUpdate o _ _ cm I).cmInv I
  · exact (Fwd.rtWrite o _ cm I.sys).cmInv I
  · exact (Fwd.setHw o Anybody cm _ _ I.sys).cmInv I
  · exact (Fwd.shutdownAll o cm).cmInv I

theorem inv_run (o : Oracle) {cm : CM} (I : Inv cm) (ops : List Op) : Inv (run o cm ops) :=
  foldl_inv Inv _ _ _ I (fun _ op _ h => inv_step o h op)

theorem Reach.inv {o : Oracle} {cm : CM} (h : Reach o cm) : Inv cm := by
  obtain ⟨a, b, specs, ops, rfl⟩ := h
  exact inv_run o (inv_start o a b specs) ops

theorem Reach.step {o : Oracle} {cm : CM} (h : Reach o cm) (op : Op) : Reach o (cm.step o op) := by
  obtain ⟨a, b, specs, ops, rfl⟩ := h
  exact ⟨a, b, specs, ops ++ [op], by simp [run]⟩

/-- Induction over histories. -/
theorem Reach.induction {o : Oracle} {P : CM → Prop} (h0 : ∀ a b specs, P (start o a b specs))
    (hs : ∀ cm op, Reach o cm → P cm → P (cm.step o op)) {cm : CM} (h : Reach o cm) : P cm := by
  obtain ⟨a, b, specs, ops, rfl⟩ := h
  induction ops using List.reverseRecOn with
  | nil => exact h0 a b specs
  | append_singleton l op ih =>
    have : run o (start o a b specs) (l ++ [op]) = (run o (start o a b specs) l).step o op := by simp [run]
    rw [this]
    exact hs _ _ ⟨a, b, specs, l, rfl⟩ ih

/-- Every operation is a sequence of elementary steps. -/
theorem step_steps (o : Oracle) {cm : CM} (I : Inv cm) (op : Op) : Sys.Steps o Anybody cm.abs (cm.step o op).abs := by
  cases op <;> simp only [step]
  · exact (load_ok o cm _ _ _ _ _ I).1.mono (fun _ _ => trivial)
  · exact (configure_ok o cm _ _ _ _ I).1.mono (fun _ _ => trivial)
  · exact (Fwd.cleanup o cm _).any.steps
  · exact (unload_ok o cm _ I).1.mono (fun _ _ => trivial)
  · split
    · exact .refl
    · exact (Fwd.switchBegin o cm _ _ _ _ I.sys).any.steps
  · exact (Fwd.switchWake o cm I).any.steps
  · exact (Fwd.switchTimeout o Anybody cm).steps
  · exact (Fwd.rtRead o _ cm I.sys).any.steps
  · exact (Fwd.rtUpdate o _ _ cm I).steps
  · exact (Fwd.rtWrite o _ cm I.sys).any.steps
  · exact (Fwd.setHw o Anybody cm _ _ I.sys).steps
  · exact (Fwd.shutdownAll o cm).steps

/-- In every history: an active controller that asks for individual interfaces holds them, unless it
refused to be deactivated. -/
theorem Reach.held {o : Oracle} {cm : CM} (h : Reach o cm) : cm.abs.Held := by
  refine Reach.induction (P := fun cm => cm.abs.Held) ?_ ?_ h
  · intro a b specs n c hc
    simp [start, init, abs, find] at hc
  · intro cm op hr ih
    exact (step_steps o hr.inv op).heldInv ih

end CM
end Verif
