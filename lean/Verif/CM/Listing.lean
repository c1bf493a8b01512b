import Verif.CM.Told
/-!
# The services that list controllers, hardware components and interfaces

Simplification: an answer is computed in one step. (The callbacks hold `services_lock_`; the real-time loop may run
between two entries, so in the code every entry, not the whole answer, is such a snapshot.)
-/
namespace Verif

/-- `controller_manager_msgs::msg::ChainConnection`: the name of the other controller and the interfaces. -/
structure Connection where
  name : Name
  refs : List Nat
deriving DecidableEq, Repr

/-- `controller_manager_msgs::msg::ControllerState`, without the type and the update rate. -/
structure CtlEntry where
  name : Name
  state : LState
  isAsync : Bool
  claimed : List Itf
  chainable : Bool
  chained : Bool
  reqCmd : List Itf
  reqState : List Itf
  /-- names without the name of the controller -/
  refs : List Nat
  expStates : List Nat
  conns : List Connection
deriving DecidableEq, Repr

/-- `controller_manager_msgs::msg::HardwareInterface` -/
structure ItfEntry where
  name : Itf
  available : Bool
  claimed : Bool
deriving DecidableEq, Repr

/-- `controller_manager_msgs::msg::HardwareComponentState`, without the static fields. -/
structure HwEntry where
  name : Name
  state : LState
  cmd : List ItfEntry
  states : List ItfEntry
deriving DecidableEq, Repr

namespace CM

/-- The required command interfaces whose prefix is a loaded controller (cm.cpp:2884-2895). -/
def listChained (cm : CM) (c : Ctl) : List Itf := (cm.cmdItfs c).filter (fun i => (cm.find i.pre).isSome)

/-- cm.cpp:2925-2941: for every controller of `controller_chain_map[name]` (a `std::set`, here in the order of the first
occurrence) one connection, with `controller_chain_interface_map[name]`. -/
def listConns (l : List Itf) : List Connection :=
  (addItems [] (l.map (·.pre))).map (fun m => { name := m, refs := l.map (·.suf) })

/-- cm.cpp:2840-2925 `list_controllers_srv_cb`: one controller. `none` is the exception of the two `at` calls
(resource_manager.cpp:1700-1704, 1767-1771). The names are cut at the length of the name of the controller, which is
their prefix (chainable_controller_interface.cpp:60-205). -/
def listOne (cm : CM) (c : Ctl) : Option CtlEntry :=
  let e : CtlEntry :=
    { name := c.name, state := c.lc, isAsync := c.async, claimed := c.claimedInfo, chainable := c.chainable,
      chained := c.chained, reqCmd := [], reqState := [], refs := [], expStates := [], conns := [] }
  if c.lc = .active ∨ c.lc = .inactive then
    let e1 := { e with reqCmd := cm.cmdItfs c, reqState := cm.stateItfs c, conns := listConns (cm.listChained c) }
    if c.chainable then
      match cm.rm.expR c.name with
      | none => none
      | some rs =>
        match cm.rm.expS c.name with
        | none => none
        | some ss => some { e1 with refs := rs.map (·.suf), expStates := ss.map (·.suf) }
    else some e1
  else some e

/-- One answer, if none of the parts throws. -/
def listAll {α β : Type} (f : α → Option β) : List α → Option (List β)
  | [] => some []
  | a :: t =>
    match f a with
    | none => none
    | some b =>
      match listAll f t with
      | none => none
      | some bs => some (b :: bs)

/-- cm.cpp:2840-2944 `list_controllers_srv_cb`; `none`: an exception escapes. -/
def listSrv (cm : CM) : Option (List CtlEntry) := listAll cm.listOne cm.ctls

/-- cm.cpp:3162-3184 and 3226-3236: one command interface; the data type look-up throws without a key
(resource_manager.cpp:1936-1950), `command_interface_is_claimed` without a mark (1870-1879). -/
def listCmdItf (cm : CM) (i : Itf) : Option ItfEntry :=
  if i ∈ cm.rm.cmdKeys then
    match cm.rm.isClaimed i with
    | none => none
    | some b => some { name := i, available := decide (i ∈ cm.rm.availC), claimed := b }
  else none

/-- cm.cpp:3186-3195 and 3216-3225: one state interface (resource_manager.cpp:1675-1688). -/
def listStateItf (cm : CM) (i : Itf) : Option ItfEntry :=
  if i ∈ cm.rm.stateKeys then some { name := i, available := decide (i ∈ cm.rm.availS), claimed := false } else none

/-- cm.cpp:3150-3198: one component, with the state of resource_manager.cpp:1984-2000. -/
def listHwOne (cm : CM) (h : Hw) : Option HwEntry :=
  match listAll cm.listCmdItf h.cmdItfs with
  | none => none
  | some cs =>
    match listAll cm.listStateItf h.stateItfs with
    | none => none
    | some ss => some { name := h.name, state := h.lc, cmd := cs, states := ss }

/-- cm.cpp:3138-3205 `list_hardware_components_srv_cb`. -/
def listHwSrv (cm : CM) : Option (List HwEntry) := listAll cm.listHwOne cm.rm.comps

/-- cm.cpp:3203-3233 `list_hardware_interfaces_srv_cb`: (state interfaces, command interfaces). -/
def listItfSrv (cm : CM) : Option (List ItfEntry × List ItfEntry) :=
  match listAll cm.listStateItf cm.rm.stateKeys with
  | none => none
  | some ss =>
    match listAll cm.listCmdItf cm.rm.cmdKeys with
    | none => none
    | some cs => some (ss, cs)

/-! ## Facts -/

theorem listAll_some {α β : Type} {f : α → Option β} : ∀ {l : List α} {r : List β}, listAll f l = some r →
    (∀ a ∈ l, ∃ b ∈ r, f a = some b) ∧ (∀ b ∈ r, ∃ a ∈ l, f a = some b)
  | [], r, h => by
    simp only [listAll, Option.some.injEq] at h; subst h; simp
  | a :: t, r, h => by
    simp only [listAll] at h
    split at h
    · simp at h
    · rename_i b hb
      split at h
      · simp at h
      · rename_i bs hbs
        simp only [Option.some.injEq] at h; subst h
        obtain ⟨h1, h2⟩ := listAll_some hbs
        constructor
        · intro x hx
          rcases List.mem_cons.1 hx with rfl | hx
          · exact ⟨b, by simp, hb⟩
          · obtain ⟨y, hy, e⟩ := h1 x hx; exact ⟨y, by simp [hy], e⟩
        · intro y hy
          rcases List.mem_cons.1 hy with rfl | hy
          · exact ⟨a, by simp, hb⟩
          · obtain ⟨x, hx, e⟩ := h2 y hy; exact ⟨x, by simp [hx], e⟩

theorem listAll_none {α β : Type} {f : α → Option β} : ∀ {l : List α}, listAll f l = none ↔ ∃ a ∈ l, f a = none
  | [] => by simp [listAll]
  | a :: t => by
    simp only [listAll]
    cases ha : f a with
    | none => simp [ha]
    | some b =>
      have ih := listAll_none (f := f) (l := t)
      cases ht : listAll f t with
      | none => simp [ha, ← ih, ht]
      | some bs => simp only [reduceCtorEq, List.mem_cons, exists_eq_or_imp, ha, false_or, false_iff]; rw [← ih, ht]; simp

theorem listAll_map {α β γ : Type} {f : α → Option β} {g : β → γ} {k : α → γ}
    (hf : ∀ a b, f a = some b → g b = k a) : ∀ {l : List α} {r : List β}, listAll f l = some r → r.map g = l.map k
  | [], r, h => by simp only [listAll, Option.some.injEq] at h; subst h; rfl
  | a :: t, r, h => by
    simp only [listAll] at h
    split at h
    · simp at h
    · rename_i b hb
      split at h
      · simp at h
      · rename_i bs hbs
        simp only [Option.some.injEq] at h; subst h
        simp [hf a b hb, listAll_map hf hbs]

end CM
end Verif
