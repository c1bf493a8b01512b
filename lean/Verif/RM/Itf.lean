import Verif.RM.Cycle
/-! # Interface storage, claims, mode switch and loading preserve the invariant -/
namespace Verif
namespace RM

/-- `addStateItfs` registers a duplicate-free list of names that were not registered before. -/
structure AddedS (rm : RM) (is : List Itf) (r : RM × List Itf) : Prop where
  eq : r.1 = { rm with stateKeys := rm.stateKeys ++ r.2 }
  nodup : r.2.Nodup
  fresh : ∀ i ∈ r.2, i ∉ rm.stateKeys
  sub : ∀ i ∈ r.2, i ∈ is
  all : ∀ i ∈ is, i ∈ rm.stateKeys ++ r.2

theorem addStateItfs_spec (rm : RM) (is : List Itf) : AddedS rm is (rm.addStateItfs is) := by
  induction is generalizing rm with
  | nil => exact ⟨by simp [addStateItfs], by simp [addStateItfs], by simp [addStateItfs], by simp [addStateItfs], by simp⟩
  | cons i t ih =>
    unfold addStateItfs
    split
    · rename_i hi
      have := ih rm
      exact ⟨this.eq, this.nodup, this.fresh, fun j hj => by simp [this.sub j hj], fun j hj => by
        rcases List.mem_cons.1 hj with rfl | hj
        · simp [hi]
        · exact this.all j hj⟩
    · rename_i hi
      have := ih { rm with stateKeys := rm.stateKeys ++ [i] }
      obtain ⟨e, n, f, s, a⟩ := this
      refine ⟨?_, ?_, ?_, ?_, ?_⟩
      · rw [e]; simp
      · simp only [List.nodup_cons]
        exact ⟨fun hm => f i hm (by simp), n⟩
      · intro j hj
        rcases List.mem_cons.1 hj with rfl | hj
        · exact hi
        · have := f j hj; simp at this; exact this.1
      · intro j hj
        rcases List.mem_cons.1 hj with rfl | hj
        · simp
        · simp [s j hj]
      · intro j hj
        rcases List.mem_cons.1 hj with rfl | hj
        · simp
        · have := a j hj; simpa [or_assoc] using this

/-- `addCmdItfs`: keys grow, claims of existing keys are unchanged, new keys are unclaimed if they were
unknown. -/
structure AddedC (rm : RM) (is : List Itf) (r : RM × Option (List Itf)) : Prop where
  eq : ∃ ks cl, r.1 = { rm with cmdKeys := rm.cmdKeys ++ ks, claimed := cl } ∧
    ks.Nodup ∧ (∀ i ∈ ks, i ∉ rm.cmdKeys ∧ i ∈ is) ∧ (∀ i, rm.claimed i ≠ none → cl i = rm.claimed i) ∧
    (∀ i ∈ ks, rm.claimed i = none → cl i = some false) ∧ (∀ i, i ∉ ks → cl i = rm.claimed i) ∧
    (∀ l, r.2 = some l → l = ks ∧ ks = is)

theorem addCmdItfs_spec (rm : RM) (is : List Itf) : AddedC rm is (rm.addCmdItfs is) := by
  induction is generalizing rm with
  | nil => exact ⟨[], rm.claimed, by simp [addCmdItfs], by simp, by simp, by simp, by simp, by simp,
      by simp [addCmdItfs]⟩
  | cons i t ih =>
    unfold addCmdItfs
    split
    · exact ⟨[], rm.claimed, by simp, by simp, by simp, by simp, by simp, by simp, by simp⟩
    · rename_i hi
      obtain ⟨ks, cl, e, n, f, c1, c2, c3, r⟩ := (ih { rm with
          cmdKeys := rm.cmdKeys ++ [i]
          claimed := if rm.claimed i = none then upd rm.claimed i (some false) else rm.claimed }).eq
      simp only at f c1 c2 c3
      refine ⟨i :: ks, cl, ?_, ?_, ?_, ?_, ?_, ?_, ?_⟩
      · rw [e]; simp
      · simp only [List.nodup_cons]
        exact ⟨fun hm => (f i hm).1 (by simp), n⟩
      · intro j hj
        rcases List.mem_cons.1 hj with rfl | hj
        · exact ⟨hi, by simp⟩
        · have := f j hj; simp at this; exact ⟨this.1.1, by simp [this.2]⟩
      · intro j hj
        have hcl : (if rm.claimed i = none then upd rm.claimed i (some false) else rm.claimed) j
            = rm.claimed j := by
          split
          · rename_i hn
            by_cases hji : j = i
            · subst hji; exact absurd hn hj
            · exact upd_ne _ _ hji
          · rfl
        rw [c1 j (by rw [hcl]; exact hj), hcl]
      · intro j hj hn
        by_cases hji : j = i
        · subst hji
          rw [c1 j (by simp [hn])]
          simp [hn]
        · have hj' : j ∈ ks := by simpa [hji] using hj
          refine c2 j hj' ?_
          split
          · rw [upd_ne _ _ hji]; exact hn
          · exact hn
      · intro j hj
        simp at hj
        rw [c3 j hj.2]
        split
        · exact upd_ne _ _ hj.1
        · rfl
      · intro l hl
        simp only [Option.map_eq_some_iff] at hl
        obtain ⟨l', hl', e2⟩ := hl
        obtain ⟨r1, r2⟩ := r l' hl'
        subst e2; exact ⟨by rw [r1], by rw [r2]⟩

theorem inv_importExportedState {rm : RM} (I : rm.Inv) (c : Name) (is : List Itf) :
    (rm.importExportedState c is).Inv := by
  obtain ⟨e, n, f, s, a⟩ := addStateItfs_spec rm is
  unfold importExportedState
  generalize rm.addStateItfs is = r at *
  obtain ⟨r1, names⟩ := r
  simp only at e n f; subst e
  simp only
  have own : ∀ i w, RM.OwnS { rm with
      stateKeys := rm.stateKeys ++ names, expS := upd rm.expS c (some names) } i w →
      (w = .ctl c ∧ i ∈ names) ∨ (w ≠ .ctl c ∧ rm.OwnS i w) := by
    intro i w hw
    cases w with
    | hw n => right; exact ⟨by simp, hw⟩
    | ctl d =>
      obtain ⟨l, h1, h2⟩ := hw
      simp only [upd_apply] at h1
      split at h1
      · rename_i hd; subst hd; left; cases h1; exact ⟨rfl, h2⟩
      · rename_i hd; right; exact ⟨by simpa using hd, l, h1, h2⟩
  exact
  { names := I.names, sync := I.sync, ok := I.ok, known := I.known, nodS := I.nodS, nodC := I.nodC
    keyS := by
      intro i w hw
      rcases own i w hw with ⟨_, h⟩ | ⟨_, h⟩
      · simp [h]
      · simp [I.keyS i w h]
    keyC := I.keyC
    uniS := by
      intro i w w' h h'
      rcases own i w h with ⟨e1, h1⟩ | ⟨e1, h1⟩ <;> rcases own i w' h' with ⟨e2, h2⟩ | ⟨e2, h2⟩
      · rw [e1, e2]
      · exact absurd (I.keyS i w' h2) (f i h1)
      · exact absurd (I.keyS i w h1) (f i h2)
      · exact I.uniS i w w' h1 h2
    uniC := I.uniC
    nodExpS := by
      intro d l hd
      simp only [upd_apply] at hd
      split at hd
      · cases hd; exact n
      · exact I.nodExpS d l hd
    nodExpR := I.nodExpR
    claimedDom := I.claimedDom, sensor := I.sensor, conf := I.conf, clean := I.clean }

theorem inv_importReference {rm : RM} (I : rm.Inv) (c : Name) (is : List Itf) :
    (rm.importReference c is).1.Inv := by
  obtain ⟨ks, cl, e, n, f, c1, c2, c3, rr⟩ := (addCmdItfs_spec rm is).eq
  unfold importReference
  generalize rm.addCmdItfs is = r at *
  obtain ⟨r1, o⟩ := r
  simp only at e rr; subst e
  have dom : ∀ k ∈ rm.cmdKeys ++ ks, cl k ≠ none := by
    intro k hk
    rcases List.mem_append.1 hk with hk | hk
    · rw [c1 k (I.claimedDom k hk)]; exact I.claimedDom k hk
    · by_cases hn : rm.claimed k = none
      · rw [c2 k hk hn]; simp
      · rw [c1 k hn]; exact hn
  cases o with
  | none =>
    exact
    { names := I.names, sync := I.sync, ok := I.ok, known := I.known, nodS := I.nodS, nodC := I.nodC, keyS := I.keyS
      keyC := fun i w h => by simp [I.keyC i w h]
      uniS := I.uniS, uniC := I.uniC, nodExpS := I.nodExpS, nodExpR := I.nodExpR, claimedDom := dom
      sensor := I.sensor, conf := I.conf, clean := I.clean }
  | some names =>
    simp only
    obtain ⟨e1, e2⟩ := rr names rfl
    subst e1
    have own : ∀ i w, RM.OwnC { rm with
        cmdKeys := rm.cmdKeys ++ names, claimed := cl, expR := upd rm.expR c (some names) } i w →
        (w = .ctl c ∧ i ∈ names) ∨ (w ≠ .ctl c ∧ rm.OwnC i w) := by
      intro i w hw
      cases w with
      | hw n => right; exact ⟨by simp, hw⟩
      | ctl d =>
        obtain ⟨l, h1, h2⟩ := hw
        simp only [upd_apply] at h1
        split at h1
        · rename_i hd; subst hd; left; cases h1; exact ⟨rfl, h2⟩
        · rename_i hd; right; exact ⟨by simpa using hd, l, h1, h2⟩
    exact
    { names := I.names, sync := I.sync, ok := I.ok, known := I.known, nodS := I.nodS, nodC := I.nodC
      keyC := by
        intro i w hw
        rcases own i w hw with ⟨_, h⟩ | ⟨_, h⟩
        · simp [h]
        · simp [I.keyC i w h]
      keyS := I.keyS
      uniC := by
        intro i w w' h h'
        rcases own i w h with ⟨e1, h1⟩ | ⟨e1, h1⟩ <;> rcases own i w' h' with ⟨e2, h2⟩ | ⟨e2, h2⟩
        · rw [e1, e2]
        · exact absurd (I.keyC i w' h2) (f i h1).1
        · exact absurd (I.keyC i w h1) (f i h2).1
        · exact I.uniC i w w' h1 h2
      uniS := I.uniS
      nodExpR := by
        intro d l hd
        simp only [upd_apply] at hd
        split at hd
        · cases hd; exact n
        · exact I.nodExpR d l hd
      nodExpS := I.nodExpS
      claimedDom := dom, sensor := I.sensor, conf := I.conf, clean := I.clean }

theorem inv_avail {rm : RM} (I : rm.Inv) (aS aC : List Itf) (fl : Bool) (nS : aS.Nodup) (nC : aC.Nodup)
    (kS : ∀ i n, rm.OwnS i (.hw n) → (i ∈ aS ↔ i ∈ rm.availS))
    (kC : ∀ i n, rm.OwnC i (.hw n) → (i ∈ aC ↔ i ∈ rm.availC)) :
    RM.Inv { rm with availS := aS, availC := aC, fault := fl } :=
  { names := I.names, sync := I.sync, ok := I.ok, known := I.known, nodS := nS, nodC := nC, keyS := I.keyS, keyC := I.keyC
    uniS := I.uniS, uniC := I.uniC, nodExpS := I.nodExpS, nodExpR := I.nodExpR
    claimedDom := I.claimedDom, sensor := I.sensor
    conf := fun h hh hc =>
      ⟨fun i hi => (kS i h.name ⟨h, hh, rfl, hi⟩).2 ((I.conf h hh hc).1 i hi),
       fun i hi => (kC i h.name ⟨h, hh, rfl, hi⟩).2 ((I.conf h hh hc).2 i hi)⟩
    clean := fun h hh hc hb =>
      ⟨fun i hi h2 => (I.clean h hh hc hb).1 i hi ((kS i h.name ⟨h, hh, rfl, hi⟩).1 h2),
       fun i hi h2 => (I.clean h hh hc hb).2 i hi ((kC i h.name ⟨h, hh, rfl, hi⟩).1 h2)⟩ }

theorem inv_fault {rm : RM} (I : rm.Inv) (fl : Bool) : RM.Inv { rm with fault := fl } :=
  inv_avail I rm.availS rm.availC fl I.nodS I.nodC (fun _ _ _ => Iff.rfl) (fun _ _ _ => Iff.rfl)

theorem inv_exportedStateAvailable {rm : RM} (I : rm.Inv) (c : Name) : (rm.exportedStateAvailable c).Inv := by
  unfold exportedStateAvailable
  split
  · rename_i l hl
    refine inv_avail I _ rm.availC rm.fault (nodup_addItems I.nodS) I.nodC ?_ (fun _ _ _ => Iff.rfl)
    intro i n hi
    have : i ∉ l := fun h => by have := I.uniS i _ (.ctl c) hi ⟨l, hl, h⟩; simp at this
    simp [this]
  · exact inv_fault I _

theorem inv_exportedStateUnavailable {rm : RM} (I : rm.Inv) (c : Name) :
    (rm.exportedStateUnavailable c).Inv := by
  unfold exportedStateUnavailable
  split
  · rename_i l hl
    refine inv_avail I _ rm.availC rm.fault (nodup_removeItems I.nodS) I.nodC ?_ (fun _ _ _ => Iff.rfl)
    intro i n hi
    have : i ∉ l := fun h => by have := I.uniS i _ (.ctl c) hi ⟨l, hl, h⟩; simp at this
    rw [mem_removeItems_of_not_mem this]
  · exact inv_fault I _

theorem inv_referenceAvailable {rm : RM} (I : rm.Inv) (c : Name) : (rm.referenceAvailable c).Inv := by
  unfold referenceAvailable
  split
  · rename_i l hl
    refine inv_avail I rm.availS _ rm.fault I.nodS (nodup_addItems I.nodC) (fun _ _ _ => Iff.rfl) ?_
    intro i n hi
    have : i ∉ l := fun h => by have := I.uniC i _ (.ctl c) hi ⟨l, hl, h⟩; simp at this
    simp [this]
  · exact inv_fault I _

theorem inv_referenceUnavailable {rm : RM} (I : rm.Inv) (c : Name) : (rm.referenceUnavailable c).Inv := by
  unfold referenceUnavailable
  split
  · rename_i l hl
    refine inv_avail I rm.availS _ rm.fault I.nodS (nodup_removeItems I.nodC) (fun _ _ _ => Iff.rfl) ?_
    intro i n hi
    have : i ∉ l := fun h => by have := I.uniC i _ (.ctl c) hi ⟨l, hl, h⟩; simp at this
    rw [mem_removeItems_of_not_mem this]
  · exact inv_fault I _

theorem removeStateItfs_spec (rm : RM) (l : List Itf) :
    ∃ fl, rm.removeStateItfs l =
      { rm with stateKeys := rm.stateKeys.filter (fun i => decide (i ∉ l)), fault := fl } ∧
      (l.Nodup → (∀ i ∈ l, i ∈ rm.stateKeys) → fl = rm.fault) := by
  induction l generalizing rm with
  | nil => exact ⟨rm.fault, by simp [removeStateItfs], fun _ _ => rfl⟩
  | cons i t ih =>
    unfold removeStateItfs
    obtain ⟨fl, e, hfl⟩ := ih { rm with
        fault := rm.fault || !(hasItem rm.stateKeys i)
        stateKeys := rm.stateKeys.filter (· ≠ i) }
    refine ⟨fl, ?_, ?_⟩
    · rw [e]
      simp only [List.filter_filter]
      congr 1
      apply List.filter_congr
      intro x _
      simp only [List.mem_cons, not_or, ne_eq, decide_not]
      by_cases h1 : x = i <;> by_cases h2 : x ∈ t <;> simp [h1, h2]
    · intro hn hk
      simp only [List.nodup_cons] at hn
      have hik : i ∈ rm.stateKeys := hk i (by simp)
      rw [hfl hn.2]
      · simp [hasItem, hik]
      · intro j hj
        simp only [List.mem_filter]
        exact ⟨hk j (by simp [hj]), by simp; intro e; subst e; exact hn.1 hj⟩

theorem removeCmdItfs_spec (rm : RM) (l : List Itf) :
    ∃ fl cl, rm.removeCmdItfs l =
      { rm with cmdKeys := rm.cmdKeys.filter (fun i => decide (i ∉ l)), claimed := cl, fault := fl } ∧
      (l.Nodup → (∀ i ∈ l, i ∈ rm.cmdKeys) → fl = rm.fault) ∧
      (∀ i, i ∉ l → cl i = rm.claimed i) ∧ (∀ i ∈ l, cl i = none) := by
  induction l generalizing rm with
  | nil => exact ⟨rm.fault, rm.claimed, by simp [removeCmdItfs], fun _ _ => rfl, fun _ _ => rfl, by simp⟩
  | cons i t ih =>
    unfold removeCmdItfs
    obtain ⟨fl, cl, e, hfl, hcl, hcn⟩ := ih { rm with
        fault := rm.fault || !(hasItem rm.cmdKeys i)
        cmdKeys := rm.cmdKeys.filter (· ≠ i)
        claimed := upd rm.claimed i none }
    refine ⟨fl, cl, ?_, ?_, ?_, ?_⟩
    · rw [e]
      simp only [List.filter_filter]
      congr 1
      apply List.filter_congr
      intro x _
      simp only [List.mem_cons, not_or, ne_eq, decide_not]
      by_cases h1 : x = i <;> by_cases h2 : x ∈ t <;> simp [h1, h2]
    · intro hn hk
      simp only [List.nodup_cons] at hn
      have hik : i ∈ rm.cmdKeys := hk i (by simp)
      rw [hfl hn.2]
      · simp [hasItem, hik]
      · intro j hj
        simp only [List.mem_filter]
        exact ⟨hk j (by simp [hj]), by simp; intro e; subst e; exact hn.1 hj⟩
    · intro j hj
      simp at hj
      rw [hcl j hj.2]; exact upd_ne _ _ hj.1
    · intro j hj
      by_cases hjt : j ∈ t
      · exact hcn j hjt
      · have : j = i := by simpa [hjt] using hj
        subst this; rw [hcl j hjt]; simp

theorem inv_removeExportedState {rm : RM} (I : rm.Inv) (c : Name) : (rm.removeExportedState c).Inv := by
  unfold removeExportedState
  split
  · exact I
  · rename_i l hl
    obtain ⟨fl, e, _⟩ := removeStateItfs_spec { rm with expS := upd rm.expS c none } l
    rw [e]
    have own : ∀ i w, RM.OwnS { rm with expS := upd rm.expS c none } i w → w ≠ .ctl c ∧ rm.OwnS i w := by
      intro i w hw
      cases w with
      | hw n => exact ⟨by simp, hw⟩
      | ctl d =>
        obtain ⟨l, h1, h2⟩ := hw
        simp only [upd_apply] at h1
        split at h1
        · cases h1
        · rename_i hd; exact ⟨by simpa using hd, l, h1, h2⟩
    exact
    { names := I.names, sync := I.sync, ok := I.ok, known := I.known, nodS := I.nodS, nodC := I.nodC
      keyS := by
        intro i w hw
        obtain ⟨h1, h2⟩ := own i w hw
        simp only [List.mem_filter, decide_eq_true_eq]
        refine ⟨I.keyS i w h2, fun hi => h1 (I.uniS i w (.ctl c) h2 ⟨l, hl, hi⟩)⟩
      keyC := I.keyC
      uniS := fun i w w' a b => I.uniS i w w' (own i w a).2 (own i w' b).2
      uniC := I.uniC
      nodExpS := by
        intro d l' hd
        simp only [upd_apply] at hd
        split at hd
        · cases hd
        · exact I.nodExpS d l' hd
      nodExpR := I.nodExpR
      claimedDom := I.claimedDom, sensor := I.sensor, conf := I.conf, clean := I.clean }

theorem inv_removeReference {rm : RM} (I : rm.Inv) (c : Name) : (rm.removeReference c).Inv := by
  unfold removeReference
  split
  · exact I
  · rename_i l hl
    obtain ⟨fl, cl, e, _, hcl, _⟩ := removeCmdItfs_spec { rm with expR := upd rm.expR c none } l
    rw [e]
    have own : ∀ i w, RM.OwnC { rm with expR := upd rm.expR c none } i w → w ≠ .ctl c ∧ rm.OwnC i w := by
      intro i w hw
      cases w with
      | hw n => exact ⟨by simp, hw⟩
      | ctl d =>
        obtain ⟨l, h1, h2⟩ := hw
        simp only [upd_apply] at h1
        split at h1
        · cases h1
        · rename_i hd; exact ⟨by simpa using hd, l, h1, h2⟩
    exact
    { names := I.names, sync := I.sync, ok := I.ok, known := I.known, nodS := I.nodS, nodC := I.nodC
      keyC := by
        intro i w hw
        obtain ⟨h1, h2⟩ := own i w hw
        simp only [List.mem_filter, decide_eq_true_eq]
        refine ⟨I.keyC i w h2, fun hi => h1 (I.uniC i w (.ctl c) h2 ⟨l, hl, hi⟩)⟩
      keyS := I.keyS
      uniC := fun i w w' a b => I.uniC i w w' (own i w a).2 (own i w' b).2
      uniS := I.uniS
      nodExpR := by
        intro d l' hd
        simp only [upd_apply] at hd
        split at hd
        · cases hd
        · exact I.nodExpR d l' hd
      nodExpS := I.nodExpS
      claimedDom := by
        intro k hk
        simp only [List.mem_filter, decide_eq_true_eq] at hk
        simp only
        rw [hcl k hk.2]; exact I.claimedDom k hk.1
      sensor := I.sensor, conf := I.conf, clean := I.clean }

theorem inv_claim {rm : RM} (I : rm.Inv) (k : Itf) : (rm.claim k).1.Inv := by
  unfold claim
  split
  · split
    · exact I
    · exact I
    · refine I.congr rfl rfl rfl rfl ?_ rfl rfl rfl rfl
      intro j hj
      simp only [upd_apply]
      split
      · simp
      · exact I.claimedDom j hj
  · exact I

theorem inv_release {rm : RM} (I : rm.Inv) (k : Itf) : (rm.release k).Inv := by
  refine I.congr rfl rfl rfl rfl ?_ rfl rfl rfl rfl
  intro j hj
  simp only [release, upd_apply]
  split
  · simp
  · exact I.claimedDom j hj

theorem cacheOne_eq (c : Name) (rm : RM) (i : Itf) : ∃ u, cacheOne c rm i = { rm with usedBy := u } := by
  unfold cacheOne
  split
  · exact ⟨rm.usedBy, rfl⟩
  · exact ⟨_, rfl⟩

theorem cacheController_eq (rm : RM) (c : Name) (is : List Itf) :
    ∃ u, rm.cacheController c is = { rm with usedBy := u } := by
  unfold cacheController
  induction is generalizing rm with
  | nil => exact ⟨rm.usedBy, rfl⟩
  | cons i t ih =>
    obtain ⟨u, e⟩ := cacheOne_eq c rm i
    obtain ⟨u', e'⟩ := ih { rm with usedBy := u }
    exact ⟨u', by simp only [List.foldl_cons, e, e']⟩

theorem inv_cacheController {rm : RM} (I : rm.Inv) (c : Name) (is : List Itf) :
    (rm.cacheController c is).Inv := by
  obtain ⟨u, e⟩ := cacheController_eq rm c is
  rw [e]
  exact I.congr rfl rfl rfl rfl I.claimedDom rfl rfl rfl rfl

/-- What the mode-switch loop does to the trace. -/
theorem modeLoop_ext (o : Oracle) (prep : Bool) (start stop : List Itf) (allow : Bool) (l : List Hw)
    (tr : List Ev) (ret : Bool) :
    ∃ es, (modeLoop o prep start stop allow l tr ret).2 = es ++ tr ∧
      ∀ e ∈ es, ∃ h ∈ l, h.Conf ∧ ∃ a, e = .hwMode h.name prep (common h.cmdItfs start) (common h.cmdItfs stop) a := by
  induction l generalizing tr ret with
  | nil => exact ⟨[], by simp [modeLoop], by simp⟩
  | cons h t ih =>
    have lift : ∀ {es : List Ev}, (∀ e ∈ es, ∃ h ∈ t, h.Conf ∧ ∃ a, e = .hwMode h.name prep (common h.cmdItfs start) (common h.cmdItfs stop) a) →
        (∀ e ∈ es, ∃ h' ∈ h :: t, h'.Conf ∧ ∃ a, e = .hwMode h'.name prep (common h'.cmdItfs start) (common h'.cmdItfs stop) a) := by
      intro es hes e he
      obtain ⟨h', hm, r⟩ := hes e he
      exact ⟨h', by simp [hm], r⟩
    unfold modeLoop
    dsimp only
    split
    · obtain ⟨es, e1, e2⟩ := ih tr ret
      exact ⟨es, e1, lift e2⟩
    split
    · exact ⟨[], rfl, by simp⟩
    split
    · rename_i hc
      obtain ⟨es, e1, e2⟩ := ih
        (.hwMode h.name prep (common h.cmdItfs start) (common h.cmdItfs stop)
          (o.hwMode tr h.name prep (common h.cmdItfs start) (common h.cmdItfs stop)) :: tr)
        (ret && decide (o.hwMode tr h.name prep (common h.cmdItfs start) (common h.cmdItfs stop) = .ret .ok))
      refine ⟨es ++ [.hwMode h.name prep (common h.cmdItfs start) (common h.cmdItfs stop)
          (o.hwMode tr h.name prep (common h.cmdItfs start) (common h.cmdItfs stop))], by rw [e1]; simp, ?_⟩
      intro e he
      rcases List.mem_append.1 he with he | he
      · exact lift e2 e he
      · simp at he; subst he; exact ⟨h, by simp, hc, _, rfl⟩
    · obtain ⟨es, e1, e2⟩ := ih tr false
      exact ⟨es, e1, lift e2⟩

theorem lcOf_append_mode (n : Name) (es tr : List Ev)
    (h : ∀ e ∈ es, ∃ m p s t a, e = Ev.hwMode m p s t a) : lcOf n (es ++ tr) = lcOf n tr := by
  induction es with
  | nil => rfl
  | cons e t ih =>
    obtain ⟨m, p, s, q, a, rfl⟩ := h e (by simp)
    simp only [List.cons_append, lcOf]
    exact ih (fun e he => h e (by simp [he]))

theorem inv_tr_mode {rm : RM} (I : rm.Inv) (es : List Ev)
    (h : ∀ e ∈ es, ∃ c ∈ rm.comps, c.Conf ∧ ∃ p s t a, e = Ev.hwMode c.name p s t a) :
    RM.Inv { rm with tr := es ++ rm.tr } := by
  have hm : ∀ e ∈ es, ∃ m p s t a, e = Ev.hwMode m p s t a := by
    intro e he
    obtain ⟨c, _, _, p, s, t, a, r⟩ := h e he
    exact ⟨_, _, _, _, _, r⟩
  exact
  { names := I.names
    sync := fun c hc => by
      have := I.sync c hc
      unfold Hw.Sync at *
      rw [lcOf_append_mode _ _ _ hm]; exact this
    ok := by
      show HwTraceOk (es ++ rm.tr)
      clear hm
      induction es with
      | nil => exact I.ok
      | cons e t ih =>
        refine ⟨?_, ih (fun e he => h e (by simp [he]))⟩
        obtain ⟨c, hc, hcf, p, s, q, a, rfl⟩ := h e (by simp)
        show lcOf c.name (t ++ rm.tr) = .inactive ∨ lcOf c.name (t ++ rm.tr) = .active
        rw [lcOf_append_mode _ _ _ (fun e he => by
          obtain ⟨c, _, _, p, s, t, a, r⟩ := h e (by simp [he])
          exact ⟨_, _, _, _, _, r⟩)]
        rw [← I.sync c hc]; exact hcf
    known := I.known
    nodS := I.nodS, nodC := I.nodC, keyS := I.keyS, keyC := I.keyC, uniS := I.uniS, uniC := I.uniC
    nodExpS := I.nodExpS, nodExpR := I.nodExpR, claimedDom := I.claimedDom, sensor := I.sensor
    conf := I.conf
    clean := fun c hc hcf hb => I.clean c hc hcf (fun e he => hb e (by simp [he])) }

theorem modeSwitch_ext (o : Oracle) (prep : Bool) (rm : RM) (start stop : List Itf) :
    ∃ es, (rm.modeSwitch o prep start stop).1 = { rm with tr := es ++ rm.tr } ∧
      ∀ e ∈ es, ∃ c ∈ rm.comps, c.kind ≠ .sensor ∧ c.Conf ∧ ∃ a, e = Ev.hwMode c.name prep (common c.cmdItfs start) (common c.cmdItfs stop) a := by
  unfold modeSwitch
  obtain ⟨es, e1, e2⟩ := modeLoop_ext o prep start stop rm.allowInactive
    (rm.comps.filter (fun h => h.kind = .actuator)) rm.tr true
  obtain ⟨es', e1', e2'⟩ := modeLoop_ext o prep start stop rm.allowInactive
    (rm.comps.filter (fun h => h.kind = .system))
    (modeLoop o prep start stop rm.allowInactive (rm.comps.filter (fun h => h.kind = .actuator)) rm.tr true).2 true
  rw [e1] at e1'
  refine ⟨es' ++ es, by simp only [e1, e1', List.append_assoc], ?_⟩
  intro e he
  rcases List.mem_append.1 he with he | he
  · obtain ⟨c, hc, hcf, r⟩ := e2' e he
    simp at hc
    exact ⟨c, hc.1, by simp [hc.2], hcf, r⟩
  · obtain ⟨c, hc, hcf, r⟩ := e2 e he
    simp at hc
    exact ⟨c, hc.1, by simp [hc.2], hcf, r⟩

theorem inv_modeSwitch (o : Oracle) (prep : Bool) {rm : RM} (I : rm.Inv) (start stop : List Itf) :
    (rm.modeSwitch o prep start stop).1.Inv := by
  obtain ⟨es, e, he⟩ := modeSwitch_ext o prep rm start stop
  rw [e]
  refine inv_tr_mode I es ?_
  intro x hx
  obtain ⟨c, a, _, b, d, f⟩ := he x hx
  exact ⟨c, a, b, _, _, _, _, f⟩

theorem inv_prepareSwitch (o : Oracle) {rm : RM} (I : rm.Inv) (start stop : List Itf) :
    (rm.prepareSwitch o start stop).1.Inv := by
  unfold prepareSwitch
  split
  · exact I
  split
  · exact I
  split
  · exact I
  · exact inv_modeSwitch o true I _ _

theorem inv_performSwitch (o : Oracle) {rm : RM} (I : rm.Inv) (start stop : List Itf) :
    (rm.performSwitch o start stop).1.Inv := by
  unfold performSwitch
  split
  · exact I
  · exact inv_modeSwitch o false I _ _

end RM
end Verif
