import Verif.CM.Model
import Verif.RM.FailMore
/-!
# What a resource manager operation may change behind the controller manager's back
-/
namespace Verif

/-- The fixed part of a hardware component. -/
def Hw.static (h : Hw) : Hw := { h with lc := .unknown }

namespace RM

/-- `rm'` results from `rm` by hardware activity or by changing the available lists. -/
structure RmStep (rm rm' : RM) : Prop where
  inv : rm'.Inv
  claimed : rm'.claimed = rm.claimed
  stateKeys : rm'.stateKeys = rm.stateKeys
  cmdKeys : rm'.cmdKeys = rm.cmdKeys
  expS : rm'.expS = rm.expS
  expR : rm'.expR = rm.expR
  ext : ∃ es, rm'.tr = es ++ rm.tr ∧ ∀ e ∈ es, e.hwName ≠ none
  comps : rm'.comps.map Hw.static = rm.comps.map Hw.static
  fault : rm.fault = true → rm'.fault = true
  used : ∀ h, rm.usedBy h ⊆ rm'.usedBy h

theorem RmStep.refl {rm : RM} (I : rm.Inv) : RmStep rm rm :=
  ⟨I, rfl, rfl, rfl, rfl, rfl, ⟨[], by simp⟩, rfl, id, fun _ => List.Subset.refl _⟩

theorem RmStep.trans {a b c : RM} (h : RmStep a b) (k : RmStep b c) : RmStep a c := by
  obtain ⟨es, e1, e2⟩ := h.ext
  obtain ⟨fs, f1, f2⟩ := k.ext
  refine ⟨k.inv, k.claimed.trans h.claimed, k.stateKeys.trans h.stateKeys, k.cmdKeys.trans h.cmdKeys,
    k.expS.trans h.expS, k.expR.trans h.expR, ⟨fs ++ es, by rw [f1, e1, List.append_assoc], ?_⟩,
    k.comps.trans h.comps, fun f => k.fault (h.fault f), fun x => List.Subset.trans (h.used x) (k.used x)⟩
  intro e he
  rcases List.mem_append.1 he with he | he
  · exact f2 e he
  · exact e2 e he

theorem Frame.rmStep {rm rm' : RM} (I : rm.Inv) {h h' : Hw} (hh : h ∈ rm.comps) (f : Frame rm h h' rm')
    (I' : rm'.Inv) : RmStep rm rm' := by
  obtain ⟨es, e1, e2⟩ := f.good.ext
  refine ⟨I', f.claimed, f.stateKeys, f.cmdKeys, f.expS, f.expR,
    ⟨es, e1, fun e he => by rw [e2 e he]; simp⟩, ?_, fun k => by rw [f.fault]; exact k, fun x => by rw [f.usedBy]; exact List.Subset.refl _⟩
  rw [f.comps]
  simp only [setHw, List.map_map]
  apply List.map_congr_left
  intro c hc
  simp only [Function.comp]
  split
  · rename_i hn
    have : c = h := eq_of_name I.names hc hh (by rw [hn, f.good.name])
    subst this
    rw [f.good.frame]; rfl
  · rfl

theorem rmStep_setComponentState (o : Oracle) {rm : RM} (I : rm.Inv) (n : Name) (t : LState) :
    RmStep rm (rm.setComponentState o n t).1 := by
  unfold setComponentState
  split
  · exact .refl I
  · rename_i h hf
    have := setHwState_ok o I (findHw_some hf).1 t
    exact this.frame.rmStep I (findHw_some hf).1 this.inv

theorem IterOk.rmStep {s r : RM × Status} {n : Name} (I : s.1.Inv) (h : IterOk s n r) : RmStep s.1 r.1 := by
  cases hf : s.1.findHw n with
  | none => rw [h.skip hf]; exact .refl I
  | some c =>
    obtain ⟨c', f⟩ := h.frame c hf
    exact f.rmStep I (findHw_some hf).1 h.inv

theorem rmStep_read (o : Oracle) (sched : Name → Sched) {rm : RM} (I : rm.Inv) : RmStep rm (rm.read o sched).1 := by
  unfold read
  exact foldl_inv (fun s : RM × Status => RmStep rm s.1) _ _ _ (.refl I)
    (fun s n _ h => h.trans ((readOne_ok o sched s n h.inv).rmStep h.inv))

theorem rmStep_write (o : Oracle) (sched : Name → Sched) {rm : RM} (I : rm.Inv) : RmStep rm (rm.write o sched).1 := by
  unfold write
  exact foldl_inv (fun s : RM × Status => RmStep rm s.1) _ _ _ (.refl I)
    (fun s n _ h => h.trans ((writeOne_ok o sched s n h.inv).rmStep h.inv))

theorem rmStep_modeSwitch (o : Oracle) (prep : Bool) {rm : RM} (I : rm.Inv) (start stop : List Itf) :
    RmStep rm (rm.modeSwitch o prep start stop).1 := by
  have I' := inv_modeSwitch o prep I start stop
  obtain ⟨es, e, he⟩ := modeSwitch_ext o prep rm start stop
  rw [e] at I' ⊢
  refine ⟨I', rfl, rfl, rfl, rfl, rfl, ⟨es, rfl, ?_⟩, rfl, id, fun _ => List.Subset.refl _⟩
  intro x hx
  obtain ⟨c, _, _, _, a, rfl⟩ := he x hx
  simp [Ev.hwName]

theorem rmStep_prepareSwitch (o : Oracle) {rm : RM} (I : rm.Inv) (start stop : List Itf) :
    RmStep rm (rm.prepareSwitch o start stop).1 := by
  unfold prepareSwitch
  split
  · exact .refl I
  split
  · exact .refl I
  split
  · exact .refl I
  · exact rmStep_modeSwitch o true I _ _

theorem rmStep_performSwitch (o : Oracle) {rm : RM} (I : rm.Inv) (start stop : List Itf) :
    RmStep rm (rm.performSwitch o start stop).1 := by
  unfold performSwitch
  split
  · exact .refl I
  · exact rmStep_modeSwitch o false I _ _

theorem cacheController_used (rm : RM) (c : Name) (is : List Itf) : ∀ h, rm.usedBy h ⊆ (rm.cacheController c is).usedBy h := by
  unfold cacheController
  induction is generalizing rm with
  | nil => intro h; exact List.Subset.refl _
  | cons i t ih =>
    intro h
    refine List.Subset.trans ?_ (ih (cacheOne c rm i) h)
    unfold cacheOne
    split
    · exact List.Subset.refl _
    · simp only [upd_apply]
      split
      · rename_i e; subst e; intro x hx; exact (mem_addItem).2 (.inl hx)
      · exact List.Subset.refl _

theorem rmStep_cache {rm : RM} (I : rm.Inv) (c : Name) (is : List Itf) : RmStep rm (rm.cacheController c is) := by
  have I' := inv_cacheController I c is
  obtain ⟨u, e⟩ := cacheController_eq rm c is
  have hu := cacheController_used rm c is
  rw [e] at I' hu ⊢
  exact ⟨I', rfl, rfl, rfl, rfl, rfl, ⟨[], by simp⟩, rfl, id, hu⟩

theorem rmStep_fault {rm : RM} (I : rm.Inv) : RmStep rm { rm with fault := true } :=
  ⟨inv_fault I true, rfl, rfl, rfl, rfl, rfl, ⟨[], by simp⟩, rfl, fun _ => rfl, fun _ => List.Subset.refl _⟩

theorem rmStep_expSAvail {rm : RM} (I : rm.Inv) (c : Name) : RmStep rm (rm.exportedStateAvailable c) := by
  refine ⟨inv_exportedStateAvailable I c, ?_, ?_, ?_, ?_, ?_, ⟨[], ?_⟩, ?_, ?_, ?_⟩ <;>
    unfold exportedStateAvailable <;> split <;> simp

theorem rmStep_expSUnavail {rm : RM} (I : rm.Inv) (c : Name) : RmStep rm (rm.exportedStateUnavailable c) := by
  refine ⟨inv_exportedStateUnavailable I c, ?_, ?_, ?_, ?_, ?_, ⟨[], ?_⟩, ?_, ?_, ?_⟩ <;>
    unfold exportedStateUnavailable <;> split <;> simp

theorem rmStep_refAvail {rm : RM} (I : rm.Inv) (c : Name) : RmStep rm (rm.referenceAvailable c) := by
  refine ⟨inv_referenceAvailable I c, ?_, ?_, ?_, ?_, ?_, ⟨[], ?_⟩, ?_, ?_, ?_⟩ <;>
    unfold referenceAvailable <;> split <;> simp

theorem rmStep_refUnavail {rm : RM} (I : rm.Inv) (c : Name) : RmStep rm (rm.referenceUnavailable c) := by
  refine ⟨inv_referenceUnavailable I c, ?_, ?_, ?_, ?_, ?_, ⟨[], ?_⟩, ?_, ?_, ?_⟩ <;>
    unfold referenceUnavailable <;> split <;> simp

/-- Events that are not hardware events do not concern the resource manager. -/
theorem inv_push {rm : RM} (I : rm.Inv) (e : Ev) (he : e.hwName = none) : RM.Inv { rm with tr := e :: rm.tr } := by
  have hl : ∀ n, lcOf n (e :: rm.tr) = lcOf n rm.tr := fun n => lcOf_cons_other (by rw [he]; simp)
  have hb : ∀ n, ¬ BadEv n e := by
    intro n; cases e <;> simp [Ev.hwName] at he <;> simp [BadEv]
  have hk : HwEvOk rm.tr e := by
    cases e <;> simp [Ev.hwName] at he <;> simp [HwEvOk]
  exact
  { names := I.names
    sync := fun c hc => by
      have := I.sync c hc
      unfold Hw.Sync at *
      rw [hl]; exact this
    ok := ⟨hk, I.ok⟩
    known := I.known
    nodS := I.nodS, nodC := I.nodC, keyS := I.keyS, keyC := I.keyC, uniS := I.uniS, uniC := I.uniC
    nodExpS := I.nodExpS, nodExpR := I.nodExpR, claimedDom := I.claimedDom, sensor := I.sensor
    conf := I.conf
    clean := fun c hc hcf hb => I.clean c hc hcf (fun e he => hb e (by simp [he])) }

end RM
end Verif
