import Verif.CM.Run
import Verif.CM.Exposed
/-!
# The published statistics of the controllers

`load_controller` allocates two moving-average statistics for the new controller and registers pointers into them with the registry of
the topic `~/statistics`; the registry reads through the pointers at each publication. `unload_controller` unregisters them by name.
-/
namespace Verif
namespace Pub

/-- The two statistics of a controller (cm.cpp:1303-1308). -/
inductive Clock | execution | periodicity
  deriving DecidableEq, Repr

/-- The published variables of a statistic (introspection.hpp:28-43 and cm.cpp:1312-1314, 1318-1320). -/
inductive Field | max | min | average | deviation | count | current
  deriving DecidableEq, Repr

/-- The name of a published variable, `<controller>.stats/<clock>/<field>`. -/
structure Key where
  ctl : Name
  clock : Clock
  field : Field
  deriving DecidableEq, Repr

/-- A registration: a name and the statistics object the pointer goes to. The objects are numbered by the loads that allocated them; the
clock of the key selects the object among the two of a load, the field the member. -/
structure Entry where
  key : Key
  obj : Nat
  deriving DecidableEq, Repr

/-- introspection.hpp:28-43 `customRegister`, cm.cpp:498-503: the five members of one statistic. -/
def registerStatistic (n : Name) (c : Clock) (obj : Nat) (l : List Entry) : List Entry :=
  l ++ [⟨⟨n, c, .max⟩, obj⟩, ⟨⟨n, c, .min⟩, obj⟩, ⟨⟨n, c, .average⟩, obj⟩, ⟨⟨n, c, .deviation⟩, obj⟩, ⟨⟨n, c, .count⟩, obj⟩]

/-- `REGISTER_ENTITY` of the current value. -/
def registerCurrent (n : Name) (c : Clock) (obj : Nat) (l : List Entry) : List Entry := l ++ [⟨⟨n, c, .current⟩, obj⟩]

/-- cm.cpp:1309-1320: the registrations of a load. -/
def register (n : Name) (obj : Nat) (l : List Entry) : List Entry :=
  registerCurrent n .periodicity obj (registerStatistic n .periodicity obj
    (registerCurrent n .execution obj (registerStatistic n .execution obj l)))

/-- `UNREGISTER_ENTITY` of the library pal_statistics, which is not in this repository. Several variables may have the same name; the
theorems hold whether unregistering a name removes all of them (`all`) or only the oldest. -/
def remove (all : Bool) (k : Key) (l : List Entry) : List Entry :=
  if all then l.filter (fun e => e.key ≠ k) else l.eraseP (fun e => e.key = k)

/-- cm.cpp:505-513 `unregister_controller_manager_statistics`. -/
def unregisterStatistic (all : Bool) (n : Name) (c : Clock) (l : List Entry) : List Entry :=
  remove all ⟨n, c, .current⟩ (remove all ⟨n, c, .count⟩ (remove all ⟨n, c, .deviation⟩
    (remove all ⟨n, c, .average⟩ (remove all ⟨n, c, .min⟩ (remove all ⟨n, c, .max⟩ l)))))

/-- cm.cpp:1466-1467. -/
def unregister (all : Bool) (n : Name) (l : List Entry) : List Entry :=
  unregisterStatistic all n .periodicity (unregisterStatistic all n .execution l)

/-- The controller manager, the registry, the statistics held by the loaded controllers (`ControllerSpec` holds them by shared pointer,
controller_spec.hpp; nothing else does), and the number of objects allocated so far. -/
structure State where
  cm : CM
  entries : List Entry
  owned : Name → Option Nat
  next : Nat

/-- Before any controller is loaded. The registrations of the hardware components and of the controller manager itself are not modelled. -/
def start (o : Oracle) (a b : Bool) (specs : List RM.HwSpec) : State := ⟨CM.start o a b specs, [], fun _ => none, 0⟩

/-- What can happen. -/
inductive Call
  /-- any operation of the controller manager; for `load` the plugin exists and its constructor returns -/
  | op (p : CM.Op)
  /-- `load_controller` of a type that is not available or whose constructor throws (cm.cpp:1248-1298) -/
  | loadUnknown (n : Name)
  /-- `load_controller` when a parameter of the controller has a wrong type and `get_parameter` throws (cm.cpp:1352-1381) -/
  | loadBadParams (n : Name)

/-- cm.cpp:1243-1385 `load_controller`, 1415-1482 `unload_controller`; the other operations do not touch the registry. While a switch is
waiting the services are locked and the call has not begun. The statistics of a controller that is not added die with the local
`ControllerSpec`. -/
def step (all : Bool) (o : Oracle) (s : State) : Call → State
  | .op (.load n ch as cfg fb) =>
    if s.cm.pending then s
    else
      let r := s.cm.load o n ch as cfg fb
      { cm := r.1
        entries := register n s.next s.entries
        owned := if r.2 = .ok then upd s.owned n (some s.next) else s.owned
        next := s.next + 1 }
  | .op (.unload n) =>
    let r := s.cm.unload o n
    if r.2 = .ok then { s with cm := r.1, entries := unregister all n s.entries, owned := upd s.owned n none }
    else { s with cm := r.1 }
  | .op p => { s with cm := s.cm.step o p }
  | .loadUnknown _ => s
  | .loadBadParams n => if s.cm.pending then s else { s with entries := register n s.next s.entries, next := s.next + 1 }

/-- A history. -/
def run (all : Bool) (o : Oracle) (s : State) (l : List Call) : State := l.foldl (step all o) s

/-! ## The names of the loaded controllers -/

theorem load_names (o : Oracle) (cm : CM) (n : Name) (ch as : Bool) (cfg : CtlCfg) (fb : List Name) :
    ((cm.load o n ch as cfg fb).2 = .ok ∧ n ∉ cm.ctls.map (·.name) ∧ cm.pending = false ∧
      (cm.load o n ch as cfg fb).1.ctls.map (·.name) = cm.ctls.map (·.name) ++ [n]) ∨
    ((cm.load o n ch as cfg fb).2 ≠ .ok ∧ (cm.load o n ch as cfg fb).1.ctls = cm.ctls) := by
  unfold CM.load
  split
  · exact .inr ⟨by simp, rfl⟩
  rename_i hp
  split
  · exact .inr ⟨by simp, rfl⟩
  split
  · exact .inr ⟨by simp, rfl⟩
  rename_i hf
  extract_lets a cm1
  split
  · exact .inl ⟨rfl, CM.find_none.1 hf, by simpa using hp, by simp [cm1, CM.push]⟩
  · exact .inr ⟨by simp, rfl⟩

theorem unload_names (o : Oracle) (cm : CM) (n : Name) :
    ((cm.unload o n).2 = .ok ∧ n ∈ cm.ctls.map (·.name) ∧
      (cm.unload o n).1.ctls.map (·.name) = (cm.ctls.map (·.name)).filter (· ≠ n)) ∨
    ((cm.unload o n).2 ≠ .ok ∧ (cm.unload o n).1.ctls.map (·.name) = cm.ctls.map (·.name)) := by
  unfold CM.unload
  split
  · exact .inr ⟨by simp, rfl⟩
  split
  · exact .inr ⟨by simp, rfl⟩
  rename_i c hc
  split
  · exact .inr ⟨by simp, rfl⟩
  extract_lets r cm1 cm2
  have fr : CM.Fwd o (· = n) cm r.1 := CM.Fwd.cleanup o cm n
  split
  · exact .inr ⟨by simp, CM.names_of_stat fr.stat⟩
  refine .inl ⟨rfl, ?_, ?_⟩
  · have := CM.find_some hc
    rw [← this.2]; exact List.mem_map_of_mem this.1
  · have f1 : CM.Fwd o (· = n) (r.1.chainCleanup n) cm1 := CM.Fwd.trigger o _ n _ rfl (.inr (.inr rfl))
    have sm : CM.Same (r.1.chainCleanup n) cm2 := f1.same.trans (CM.Same.release _ n)
    have hnames := CM.names_of_stat sm.stat
    have hcn : (r.1.chainCleanup n).ctls = r.1.ctls := rfl
    rw [← CM.names_of_stat fr.stat, ← hcn, ← hnames, List.filter_map]; rfl

/-- Operations other than loading and unloading keep the set of the loaded controllers. -/
theorem step_names (o : Oracle) {cm : CM} (I : CM.Inv cm) (p : CM.Op) (h1 : ∀ n ch as cfg fb, p ≠ .load n ch as cfg fb)
    (h2 : ∀ n, p ≠ .unload n) (m : Name) : m ∈ (cm.step o p).ctls.map (·.name) ↔ m ∈ cm.ctls.map (·.name) := by
  have nm : ∀ {T} {b : CM}, CM.Fwd o T cm b → (m ∈ b.ctls.map (·.name) ↔ m ∈ cm.ctls.map (·.name)) :=
    fun f => by rw [CM.names_of_stat f.stat]
  cases p <;> simp only [CM.step]
  · exact absurd rfl (h1 _ _ _ _ _)
  · rename_i n cfg ord r
    rcases CM.configure_spec o cm n cfg ord r I with ⟨_, h⟩ | ⟨y, d, e, h, _⟩
    · rw [h.names]
    · rw [e]
      have t : CM.Topo y.topology := CM.Topo.topology h.topo
      rw [(CM.reorder_perm t ord).mem_iff]
      have : y.topology.ctls = y.ctls := (CM.topology_rm y).2
      rw [this, h.names]
  · exact nm (CM.Fwd.cleanup o cm _)
  · exact absurd rfl (h2 _)
  · split
    · exact Iff.rfl
    · exact nm (CM.Fwd.switchBegin o cm _ _ _ _ I.sys)
  · exact nm (CM.Fwd.switchWake o cm I)
  · exact nm (CM.Fwd.switchTimeout o CM.Anybody cm)
  · exact nm (CM.Fwd.rtRead o _ cm I.sys)
  · exact nm (CM.Fwd.rtUpdate o _ _ cm I)
  · exact nm (CM.Fwd.rtWrite o _ cm I.sys)
  · exact nm (CM.Fwd.setHw o CM.Anybody cm _ _ I.sys)
  · exact nm (CM.Fwd.shutdownAll o cm)

end Pub
end Verif
