import Verif.RM.Model
import Verif.Hw.Lemmas
/-!
# Invariant of the resource manager
-/
namespace Verif

/-- The component is configured. -/
def Hw.Conf (h : Hw) : Prop := h.lc = .inactive ∨ h.lc = .active

instance (h : Hw) : Decidable h.Conf := inferInstanceAs (Decidable (_ ∨ _))

/-- Transition callbacks of component `n` that failed in a way that leaves its interfaces listed
(finding 14): ERROR from `on_activate`/`on_deactivate`, FAILURE or ERROR from
`on_cleanup`/`on_shutdown`. -/
def BadEv (n : Name) : Ev → Prop
  | .hwCb m .activate .error => m = n
  | .hwCb m .deactivate .error => m = n
  | .hwCb m .cleanup .error => m = n
  | .hwCb m .cleanup .failure => m = n
  | .hwCb m .shutdown .error => m = n
  | .hwCb m .shutdown .failure => m = n
  | _ => False

/-- Who registered an interface. -/
inductive Owner | hw (n : Name) | ctl (c : Name)
deriving DecidableEq, Repr

def RM.OwnS (rm : RM) (i : Itf) : Owner → Prop
  | .hw n => ∃ h ∈ rm.comps, h.name = n ∧ i ∈ h.stateItfs
  | .ctl c => ∃ l, rm.expS c = some l ∧ i ∈ l

def RM.OwnC (rm : RM) (i : Itf) : Owner → Prop
  | .hw n => ∃ h ∈ rm.comps, h.name = n ∧ i ∈ h.cmdItfs
  | .ctl c => ∃ l, rm.expR c = some l ∧ i ∈ l

structure RM.Inv (rm : RM) : Prop where
  names : (rm.comps.map (·.name)).Nodup
  sync : ∀ h ∈ rm.comps, h.Sync rm.tr
  ok : HwTraceOk rm.tr
  known : ∀ h ∈ rm.comps, h.lc ≠ .unknown
  nodS : rm.availS.Nodup
  nodC : rm.availC.Nodup
  keyS : ∀ i w, rm.OwnS i w → i ∈ rm.stateKeys
  keyC : ∀ i w, rm.OwnC i w → i ∈ rm.cmdKeys
  uniS : ∀ i w w', rm.OwnS i w → rm.OwnS i w' → w = w'
  uniC : ∀ i w w', rm.OwnC i w → rm.OwnC i w' → w = w'
  nodExpS : ∀ c l, rm.expS c = some l → l.Nodup
  nodExpR : ∀ c l, rm.expR c = some l → l.Nodup
  claimedDom : ∀ k ∈ rm.cmdKeys, rm.claimed k ≠ none
  sensor : ∀ h ∈ rm.comps, h.kind = .sensor → h.cmdItfs = []
  conf : ∀ h ∈ rm.comps, h.Conf → (∀ i ∈ h.stateItfs, i ∈ rm.availS) ∧ (∀ i ∈ h.cmdItfs, i ∈ rm.availC)
  clean : ∀ h ∈ rm.comps, ¬ h.Conf → (∀ e ∈ rm.tr, ¬ BadEv h.name e) →
    (∀ i ∈ h.stateItfs, i ∉ rm.availS) ∧ (∀ i ∈ h.cmdItfs, i ∉ rm.availC)

namespace RM

theorem eq_of_name {rm : RM} (hn : (rm.comps.map (·.name)).Nodup) {h h' : Hw}
    (hh : h ∈ rm.comps) (hh' : h' ∈ rm.comps) (e : h.name = h'.name) : h = h' :=
  List.inj_on_of_nodup_map hn hh hh' e

theorem findHw_some {rm : RM} {n : Name} {h : Hw} (hf : rm.findHw n = some h) :
    h ∈ rm.comps ∧ h.name = n := by
  unfold findHw at hf
  refine ⟨List.mem_of_find?_eq_some hf, ?_⟩
  have := List.find?_some hf
  simpa using this

theorem findHw_of_mem {rm : RM} (hn : (rm.comps.map (·.name)).Nodup) {h : Hw}
    (hh : h ∈ rm.comps) : rm.findHw h.name = some h := by
  cases hf : rm.findHw h.name with
  | none =>
    unfold findHw at hf
    have := List.find?_eq_none.1 hf h hh
    simp at this
  | some h' =>
    obtain ⟨a, b⟩ := findHw_some hf
    rw [eq_of_name hn a hh b]

theorem mem_setHw {rm : RM} {h' c : Hw} (hc : c ∈ (rm.setHw h').comps) :
    c = h' ∨ (c ∈ rm.comps ∧ c.name ≠ h'.name) := by
  simp only [setHw, List.mem_map] at hc
  obtain ⟨d, hd, e⟩ := hc
  split at e
  · left; exact e.symm
  · right; subst e; exact ⟨hd, by assumption⟩

theorem setHw_mem_self {rm : RM} {h h' : Hw} (hh : h ∈ rm.comps) (e : h'.name = h.name) :
    h' ∈ (rm.setHw h').comps := by
  simp only [setHw, List.mem_map]
  exact ⟨h, hh, by simp [e]⟩

theorem setHw_mem_other {rm : RM} {h' c : Hw} (hc : c ∈ rm.comps) (e : c.name ≠ h'.name) :
    c ∈ (rm.setHw h').comps := by
  simp only [setHw, List.mem_map]
  exact ⟨c, hc, by simp [e]⟩

theorem setHw_names (rm : RM) (h' : Hw) : (rm.setHw h').comps.map (·.name) = rm.comps.map (·.name) := by
  simp only [setHw, List.map_map]
  apply List.map_congr_left
  intro c _
  simp only [Function.comp]
  split
  · rename_i h; exact h.symm
  · rfl

theorem lcOf_unknown_cons {n : Name} {e : Ev} {t : List Ev} (h : lcOf n (e :: t) = .unknown) :
    lcOf n t = .unknown := by
  cases e with
  | hwCb m cb a =>
    simp only [lcOf] at h
    split at h
    · split at h <;> first | exact h | simp at h
    · exact h
  | hwErr m a =>
    simp only [lcOf] at h
    split at h
    · split at h <;> simp at h
    · exact h
  | _ => simpa [lcOf] using h

theorem lcOf_unknown_append {n : Name} {es t : List Ev} (h : lcOf n (es ++ t) = .unknown) :
    lcOf n t = .unknown := by
  induction es with
  | nil => exact h
  | cons e es ih => exact ih (lcOf_unknown_cons h)

/-- One component changes state, the available lists change only in its own interfaces. -/
theorem Inv.replace {rm rm' : RM} (I : rm.Inv) {h h' : Hw} {tr' : List Ev} (hh : h ∈ rm.comps)
    (g : h.Good rm.tr h' tr')
    (hcomps : rm'.comps = (rm.setHw h').comps) (htr : rm'.tr = tr')
    (hsk : rm'.stateKeys = rm.stateKeys) (hck : rm'.cmdKeys = rm.cmdKeys)
    (hcl : rm'.claimed = rm.claimed) (hes : rm'.expS = rm.expS) (her : rm'.expR = rm.expR)
    (nS : rm'.availS.Nodup) (nC : rm'.availC.Nodup)
    (keepS : ∀ i, i ∉ h.stateItfs → (i ∈ rm'.availS ↔ i ∈ rm.availS))
    (keepC : ∀ i, i ∉ h.cmdItfs → (i ∈ rm'.availC ↔ i ∈ rm.availC))
    (cf : h'.Conf → (∀ i ∈ h.stateItfs, i ∈ rm'.availS) ∧ (∀ i ∈ h.cmdItfs, i ∈ rm'.availC))
    (cl : ¬ h'.Conf → (∀ e ∈ tr', ¬ BadEv h.name e) →
      (∀ i ∈ h.stateItfs, i ∉ rm'.availS) ∧ (∀ i ∈ h.cmdItfs, i ∉ rm'.availC)) :
    rm'.Inv := by
  have hname := g.name
  have hS : h'.stateItfs = h.stateItfs := by rw [g.frame]
  have hC : h'.cmdItfs = h.cmdItfs := by rw [g.frame]
  have hK : h'.kind = h.kind := by rw [g.frame]
  have ownS : ∀ i w, rm'.OwnS i w → rm.OwnS i w := by
    intro i w hw
    cases w with
    | hw n =>
      obtain ⟨c, hc, hcn, hi⟩ := hw
      rw [hcomps] at hc
      rcases mem_setHw hc with rfl | ⟨hc, _⟩
      · exact ⟨h, hh, by rw [← hname]; exact hcn, by rw [← hS]; exact hi⟩
      · exact ⟨c, hc, hcn, hi⟩
    | ctl c => simpa [OwnS, hes] using hw
  have ownC : ∀ i w, rm'.OwnC i w → rm.OwnC i w := by
    intro i w hw
    cases w with
    | hw n =>
      obtain ⟨c, hc, hcn, hi⟩ := hw
      rw [hcomps] at hc
      rcases mem_setHw hc with rfl | ⟨hc, _⟩
      · exact ⟨h, hh, by rw [← hname]; exact hcn, by rw [← hC]; exact hi⟩
      · exact ⟨c, hc, hcn, hi⟩
    | ctl c => simpa [OwnC, her] using hw
  have notS : ∀ c ∈ rm.comps, c.name ≠ h'.name → ∀ i ∈ c.stateItfs, i ∉ h.stateItfs := by
    intro c hc hne i hi hi'
    have := I.uniS i (.hw c.name) (.hw h.name) ⟨c, hc, rfl, hi⟩ ⟨h, hh, rfl, hi'⟩
    simp at this; exact hne (by rw [this, hname])
  have notC : ∀ c ∈ rm.comps, c.name ≠ h'.name → ∀ i ∈ c.cmdItfs, i ∉ h.cmdItfs := by
    intro c hc hne i hi hi'
    have := I.uniC i (.hw c.name) (.hw h.name) ⟨c, hc, rfl, hi⟩ ⟨h, hh, rfl, hi'⟩
    simp at this; exact hne (by rw [this, hname])
  refine
    { names := by rw [hcomps, setHw_names]; exact I.names
      sync := ?_
      ok := by rw [htr]; exact g.ok (I.sync h hh) I.ok
      known := by
        intro c hc
        rw [hcomps] at hc
        rcases mem_setHw hc with rfl | ⟨hc, hne⟩
        · intro hu
          have s1 := g.sync (I.sync h hh)
          unfold Hw.Sync at s1
          obtain ⟨es, e1, _⟩ := g.ext
          rw [s1, e1, hname] at hu
          exact I.known h hh (by rw [I.sync h hh]; exact lcOf_unknown_append hu)
        · exact I.known c hc
      nodS := nS
      nodC := nC
      keyS := fun i w hw => by rw [hsk]; exact I.keyS i w (ownS i w hw)
      keyC := fun i w hw => by rw [hck]; exact I.keyC i w (ownC i w hw)
      uniS := fun i w w' a b => I.uniS i w w' (ownS i w a) (ownS i w' b)
      uniC := fun i w w' a b => I.uniC i w w' (ownC i w a) (ownC i w' b)
      nodExpS := by rw [hes]; exact I.nodExpS
      nodExpR := by rw [her]; exact I.nodExpR
      claimedDom := by rw [hck, hcl]; exact I.claimedDom
      sensor := ?_
      conf := ?_
      clean := ?_ }
  · intro c hc
    rw [hcomps] at hc; rw [htr]
    rcases mem_setHw hc with rfl | ⟨hc, hne⟩
    · exact g.sync (I.sync h hh)
    · have := I.sync c hc
      unfold Hw.Sync at *
      rw [g.other (by rw [← hname]; exact hne)]; exact this
  · intro c hc hk
    rw [hcomps] at hc
    rcases mem_setHw hc with rfl | ⟨hc, hne⟩
    · rw [hC]; exact I.sensor h hh (by rw [← hK]; exact hk)
    · exact I.sensor c hc hk
  · intro c hc hk
    rw [hcomps] at hc
    rcases mem_setHw hc with rfl | ⟨hc, hne⟩
    · rw [hS, hC]; exact cf hk
    · have := I.conf c hc hk
      refine ⟨fun i hi => (keepS i (notS c hc hne i hi)).2 (this.1 i hi),
              fun i hi => (keepC i (notC c hc hne i hi)).2 (this.2 i hi)⟩
  · intro c hc hk hb
    rw [hcomps] at hc; rw [htr] at hb
    rcases mem_setHw hc with rfl | ⟨hc, hne⟩
    · rw [hS, hC]; exact cl hk (by rw [← hname]; exact hb)
    · have hb' : ∀ e ∈ rm.tr, ¬ BadEv c.name e := by
        intro e he
        obtain ⟨es, e1, _⟩ := g.ext
        exact hb e (by rw [e1]; exact List.mem_append_right _ he)
      have := I.clean c hc hk hb'
      refine ⟨fun i hi h2 => this.1 i hi ((keepS i (notS c hc hne i hi)).1 h2),
              fun i hi h2 => this.2 i hi ((keepC i (notC c hc hne i hi)).1 h2)⟩

/-- Changes that touch neither components nor interfaces. -/
theorem Inv.congr {rm rm' : RM} (I : rm.Inv) (hcomps : rm'.comps = rm.comps) (htr : rm'.tr = rm.tr)
    (hsk : rm'.stateKeys = rm.stateKeys) (hck : rm'.cmdKeys = rm.cmdKeys)
    (hcl : ∀ k ∈ rm.cmdKeys, rm'.claimed k ≠ none)
    (hes : rm'.expS = rm.expS) (her : rm'.expR = rm.expR)
    (hS : rm'.availS = rm.availS) (hC : rm'.availC = rm.availC) : rm'.Inv := by
  have oS : ∀ i w, rm'.OwnS i w ↔ rm.OwnS i w := by
    intro i w; cases w <;> simp [OwnS, hcomps, hes]
  have oC : ∀ i w, rm'.OwnC i w ↔ rm.OwnC i w := by
    intro i w; cases w <;> simp [OwnC, hcomps, her]
  constructor
  · rw [hcomps]; exact I.names
  · rw [hcomps, htr]; exact I.sync
  · rw [htr]; exact I.ok
  · rw [hcomps]; exact I.known
  · rw [hS]; exact I.nodS
  · rw [hC]; exact I.nodC
  · intro i w h; rw [hsk]; exact I.keyS i w ((oS i w).1 h)
  · intro i w h; rw [hck]; exact I.keyC i w ((oC i w).1 h)
  · intro i w w' a b; exact I.uniS i w w' ((oS _ _).1 a) ((oS _ _).1 b)
  · intro i w w' a b; exact I.uniC i w w' ((oC _ _).1 a) ((oC _ _).1 b)
  · rw [hes]; exact I.nodExpS
  · rw [her]; exact I.nodExpR
  · rw [hck]; exact hcl
  · rw [hcomps]; exact I.sensor
  · rw [hcomps, hS, hC]; exact I.conf
  · rw [hcomps, hS, hC, htr]; exact I.clean

end RM
end Verif
