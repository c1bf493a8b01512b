import Verif.CM.Chained
import Verif.Props.C06_C10_Controllers
import Verif.Props.C14_C18_Switch
/-!
# C39: the claimed interfaces that `list_controllers` reports

`Ctl.claimedInfo` is what `list_controllers` shows as `claimed_interfaces`; `Ctl.held` are the loans that the controller
really has. The statements are about the state right after a call of `switch_controller` came back from the real-time
loop (`switchWake` answered something).
-/
namespace Verif
open CM

/-- What `list_controllers` shows as the claimed interfaces of `n`. -/
def CM.listed (cm : CM) (n : Name) : Option (List Itf) := (cm.find n).map (·.claimedInfo)

/-- The pending `switch_controller` of `cm` comes back with the result `r`, in the state `cm'`. -/
def CM.Completes (o : Oracle) (cm cm' : CM) (r : Ret) : Prop := cm.switchWake o = (cm', some r)

theorem CM.Completes.finish {o : Oracle} {cm cm' : CM} {r : Ret} (h : cm.Completes o cm' r) :
    ∃ x : CM, cm' = (x.switchFinish).1 := by
  unfold Completes switchWake at h
  split at h
  · simp at h
  split at h
  · split at h
    · simp at h
    · simp only [Prod.mk.injEq] at h; exact ⟨cm, h.1.symm⟩
  split at h
  · simp only [Prod.mk.injEq] at h; exact ⟨_, h.1.symm⟩
  · simp at h

theorem CM.Completes.reach {o : Oracle} {cm cm' : CM} {r : Ret} (hr : Reach o cm) (h : cm.Completes o cm' r) :
    Reach o cm' := by
  have := hr.step .switchWake
  have e : cm.step o .switchWake = cm' := by
    show (cm.switchWake o).1 = cm'
    rw [h]
  rw [e] at this; exact this

/-- **C39 (what is listed after a switch).** After every completed call, successful or not, for every loaded controller:
nothing is listed for a controller that is not active, and for an active one exactly the command interfaces that its
`command_interface_configuration` asks for among the available ones. -/
theorem C39_listed_after_switch (o : Oracle) (cm cm' : CM) (r : Ret) (h : cm.Completes o cm' r) (c : Ctl)
    (hc : cm'.find c.name = some c) :
    (c.lc ≠ .active → cm'.listed c.name = some []) ∧
    (c.lc = .active → cm'.listed c.name = some (c.cfg.cmd.resolve cm'.rm.availC)) := by
  obtain ⟨x, rfl⟩ := h.finish
  have hx := hc
  rw [find_switchFinish] at hx
  obtain ⟨d, hd, rfl⟩ := Option.map_eq_some_iff.1 hx
  unfold CM.listed
  rw [hc]
  refine ⟨fun g => ?_, fun g => ?_⟩
  · have : d.lc ≠ .active := g
    simp [evalOne, if_neg this]
  · have : d.lc = .active := g
    simp only [evalOne, if_pos this, Option.map_some]
    rfl

/-- **C39, partial.** After every completed call of `switch_controller`, successful or not, the list of a controller
that names its command interfaces individually and did not refuse its last deactivation is exactly the list of
the interfaces it has on loan (none if it is not active). Missing: controllers that ask for interfaces in another way
(`C39_all_lists_foreign`), controllers that refused to be deactivated (`C39_refused_lists_lost`), and the time between
switches (`C39_stale_between_switches`). -/
theorem C39_listed_are_held_partial (o : Oracle) (cm cm' : CM) (r : Ret) (hr : Reach o cm) (h : cm.Completes o cm' r)
    (c : Ctl) (hc : c ∈ cm'.ctls) (l : List Itf) (hl : c.cfg.cmd = .individual l)
    (hs : stopRefused c.name cm'.rm.tr = false) : c.claimedInfo = c.held := by
  have hr' := h.reach hr
  have hf := (find_iff hr'.inv.topo.names).2 ⟨hc, rfl⟩
  obtain ⟨h1, h2⟩ := C39_listed_after_switch o cm cm' r h c hf
  unfold CM.listed at h1 h2
  rw [hf] at h1 h2
  by_cases ha : c.lc = .active
  · have hh := hr'.held c.name c.core (by rw [abs_k, hf]; rfl) ha hs l hl
    have h2 := h2 ha
    simp only [Option.map_some, Option.some.injEq] at h2
    rw [h2, hl]
    exact hh.symm
  · have h1 := h1 ha
    simp only [Option.map_some, Option.some.injEq] at h1
    rw [h1]
    exact (C06_inactive_holds_nothing o cm' hr' c hc ha).symm

/-- **C39 (hardware interfaces are listed once).** After every completed call: a command interface of a hardware
component that is listed for such a controller is marked claimed and is listed for no other such controller. -/
theorem C39_hardware_listed_once (o : Oracle) (cm cm' : CM) (r : Ret) (hr : Reach o cm) (h : cm.Completes o cm' r)
    (hw : Hw) (hh : hw ∈ cm'.rm.comps) (i : Itf) (hi : i ∈ hw.cmdItfs)
    (c : Ctl) (hc : c ∈ cm'.ctls) (l : List Itf) (hl : c.cfg.cmd = .individual l)
    (hs : stopRefused c.name cm'.rm.tr = false) (hic : i ∈ c.claimedInfo) :
    cm'.rm.claimed i = some true ∧
    ∀ d ∈ cm'.ctls, ∀ k, d.cfg.cmd = .individual k → stopRefused d.name cm'.rm.tr = false →
      i ∈ d.claimedInfo → d = c := by
  have hr' := h.reach hr
  obtain ⟨h1, h2, _⟩ := C06_hardware_single_holder o cm' hr' hw hh i hi
  rw [C39_listed_are_held_partial o cm cm' r hr h c hc l hl hs] at hic
  refine ⟨h1.2 ⟨c, hc, hic⟩, ?_⟩
  intro d hd k hk hs' hid
  rw [C39_listed_are_held_partial o cm cm' r hr h d hd k hk hs'] at hid
  exact h2 d hd c hc hid hic

/-- The state in which the demo switch waits for its answer. -/
def demoBusy (o : Oracle) (ops : List CM.Op) (act deact : List Name) : CM :=
  demo o (ops ++ [.switchBegin act deact .strict true, .update (fun _ => true) true])

/-- Non-vacuity: a completed switch; two active controllers with what they hold, an inactive one with nothing. -/
example : ∃ cm', (demoBusy goodOracle [] [100, 200] []).Completes goodOracle cm' .ok ∧
    Reach goodOracle (demoBusy goodOracle [] [100, 200] []) ∧
    cm'.listed 100 = some [⟨10, 0⟩] ∧ cm'.heldBy 100 = some [⟨10, 0⟩] ∧ stopRefused 100 cm'.rm.tr = false ∧
    cm'.listed 200 = some [⟨100, 0⟩] ∧ cm'.heldBy 200 = some [⟨100, 0⟩] ∧
    cm'.lcOf 300 = some .inactive ∧ cm'.listed 300 = some [] ∧ cm'.heldBy 300 = some [] ∧
    cm'.rm.comps.any (fun h => decide ((⟨10, 0⟩ : Itf) ∈ h.cmdItfs)) = true :=
  ⟨((demoBusy goodOracle [] [100, 200] []).switchWake goodOracle).1, Prod.ext rfl (by decide), demo_reach _ _, by decide⟩

/-- Oracle of the witness: controller 300 refuses to be deactivated (`on_deactivate` answers FAILURE). -/
def refuseStop300 : Oracle :=
  { goodOracle with ctlCb := fun _ n cb => if n = 300 ∧ cb = .deactivate then .failure else .success }

/-- **C39, negation (1).** A controller that refuses to be deactivated stays active without its interfaces, but they are
still listed as claimed by it. -/
theorem C39_refused_lists_lost :
    ∃ cm', (demoBusy refuseStop300 (switchOps [300] [] .strict) [] [300]).Completes refuseStop300 cm' .error ∧
      cm'.lcOf 300 = some .active ∧ cm'.heldBy 300 = some [] ∧ cm'.listed 300 = some [⟨20, 0⟩] ∧
      cm'.rm.claimed ⟨20, 0⟩ = some false := by
  refine ⟨((demoBusy refuseStop300 (switchOps [300] [] .strict) [] [300]).switchWake refuseStop300).1,
    Prod.ext rfl (by decide), by decide⟩

/-- A controller 800 that asks by regular expression for all available command interfaces of hardware. -/
def cfg800 : CtlCfg := { cmd := .regex [fun i => decide (i.pre < 100)], state := .none, exports := none }

/-- 800 is started while hardware 2 is unconfigured, then hardware 2 is switched on. -/
def run800 : List CM.Op :=
  [.setHw 2 .unconfigured, .load 800 false false cfg800 [], .configure 800 cfg800 [] true] ++
  switchOps [800] [] .strict ++ [.setHw 2 .active]

/-- **C39, negation (2).** For a controller that does not name its interfaces individually the configuration is resolved
again at every switch: 800 holds 10/0 only, but after 300 was started with 20/0, that interface is listed for both. -/
theorem C39_all_lists_foreign :
    ∃ cm', (demoBusy goodOracle run800 [300] []).Completes goodOracle cm' .ok ∧
      cm'.heldBy 800 = some [⟨10, 0⟩] ∧ cm'.listed 800 = some [⟨10, 0⟩, ⟨20, 0⟩, ⟨20, 1⟩] ∧
      cm'.heldBy 300 = some [⟨20, 0⟩] ∧ cm'.listed 300 = some [⟨20, 0⟩] := by
  refine ⟨((demoBusy goodOracle run800 [300] []).switchWake goodOracle).1, Prod.ext rfl (by decide), by decide⟩

/-- **C39, negation (3).** The list is only brought up to date by a completed switch: after the `read` of hardware 1
failed, 100 is stopped and has given back 10/0, but it is still listed. -/
theorem C39_stale_between_switches :
    let cm := demo read1Fails (switchOps [100] [] .strict ++ [.read runAll])
    Reach read1Fails cm ∧ cm.lcOf 100 = some .inactive ∧ cm.heldBy 100 = some [] ∧ cm.listed 100 = some [⟨10, 0⟩] ∧
    cm.rm.claimed ⟨10, 0⟩ = some false := ⟨demo_reach _ _, by decide⟩

end Verif
