import Verif.RM.FailMore
import Verif.Props.C03_C05_Resource
/-!
# C25 (command mode switch) and C26 (read/write failures)

`es` is always the list of plugin interactions of the call under discussion (newest first): the
history after the call is `es ++` the history before it.
-/
namespace Verif
open RM

/-! ## C25 -/

/-- The interfaces of `list` that belong to component `h`, as a set. -/
theorem mem_common (l list : List Itf) (i : Itf) : i ∈ common l list ↔ i ∈ l ∧ i ∈ list := by
  unfold common; split <;> simp [and_comm]

/-- The component has to take part in the mode switch: one of its command interfaces is started or
stopped. -/
def Affected (h : Hw) (start stop : List Itf) : Prop := ∃ i ∈ h.cmdItfs, i ∈ start ∨ i ∈ stop

theorem affected_iff (h : Hw) (start stop : List Itf) :
    Affected h start stop ↔ ¬ (common h.cmdItfs start = [] ∧ common h.cmdItfs stop = []) := by
  constructor
  · rintro ⟨i, hi, hs | hs⟩ ⟨a, b⟩
    · have := (mem_common h.cmdItfs start i).2 ⟨hi, hs⟩; rw [a] at this; cases this
    · have := (mem_common h.cmdItfs stop i).2 ⟨hi, hs⟩; rw [b] at this; cases this
  · intro hn
    by_cases a : common h.cmdItfs start = []
    · have b : common h.cmdItfs stop ≠ [] := fun b => hn ⟨a, b⟩
      obtain ⟨i, hi⟩ := List.exists_mem_of_ne_nil _ b
      have := (mem_common _ _ _).1 hi
      exact ⟨i, this.1, Or.inr this.2⟩
    · obtain ⟨i, hi⟩ := List.exists_mem_of_ne_nil _ a
      have := (mem_common _ _ _).1 hi
      exact ⟨i, this.1, Or.inl this.2⟩

theorem modeLoop_ret (o : Oracle) (prep : Bool) (start stop : List Itf) (allow : Bool) (l : List Hw)
    (tr : List Ev) (ret : Bool) (h : (modeLoop o prep start stop allow l tr ret).1 = true) : ret = true := by
  induction l generalizing tr ret with
  | nil => simpa [modeLoop] using h
  | cons c t ih =>
    unfold modeLoop at h
    dsimp only at h
    split at h
    · exact ih _ _ h
    split at h
    · simp at h
    split at h
    · have := ih _ _ h; simp at this; exact this.1
    · have := ih _ _ h; simp at this

theorem modeLoop_true (o : Oracle) (prep : Bool) (start stop : List Itf) (allow : Bool) (l : List Hw)
    (tr : List Ev) (ret : Bool) (h : (modeLoop o prep start stop allow l tr ret).1 = true)
    (es : List Ev) (hes : (modeLoop o prep start stop allow l tr ret).2 = es ++ tr) (c : Hw) (hc : c ∈ l)
    (ha : Affected c start stop) :
    (c.lc = .active ∨ (c.lc = .inactive ∧ (allow = true ∨ ∀ i ∈ c.cmdItfs, i ∉ start))) ∧
    Ev.hwMode c.name prep (common c.cmdItfs start) (common c.cmdItfs stop) (.ret .ok) ∈ es := by
  induction l generalizing tr ret es with
  | nil => cases hc
  | cons d t ih =>
    unfold modeLoop at h hes
    dsimp only at h hes
    split at h
    · rename_i hna
      rw [if_pos hna] at hes
      rcases List.mem_cons.1 hc with rfl | hc
      · exact absurd hna ((affected_iff _ _ _).1 ha)
      · exact ih _ _ h es hes hc
    rename_i haff
    rw [if_neg haff] at hes
    split at h
    · simp at h
    rename_i hinact
    rw [if_neg hinact] at hes
    split at h
    · rename_i hconf
      rw [if_pos hconf] at hes
      generalize hev : o.hwMode tr d.name prep (common d.cmdItfs start) (common d.cmdItfs stop) = a at h hes
      have hret := modeLoop_ret _ _ _ _ _ _ _ _ h
      simp at hret
      obtain ⟨es', e', _⟩ := modeLoop_ext o prep start stop allow t
        (.hwMode d.name prep (common d.cmdItfs start) (common d.cmdItfs stop) a :: tr) (ret && decide (a = .ret .ok))
      have hsp : es = es' ++ [Ev.hwMode d.name prep (common d.cmdItfs start) (common d.cmdItfs stop) a] := by
        rw [e'] at hes
        have : es' ++ [Ev.hwMode d.name prep (common d.cmdItfs start) (common d.cmdItfs stop) a] ++ tr = es ++ tr := by
          simpa using hes
        exact (List.append_cancel_right this).symm
      rcases List.mem_cons.1 hc with rfl | hc
      · refine ⟨?_, by rw [hsp, hret.2]; simp⟩
        rcases hconf with hi | hi
        · right; refine ⟨hi, ?_⟩
          cases hal : allow with
          | true => left; rfl
          | false =>
            right; intro i hi1 hi2
            have : common c.cmdItfs start ≠ [] := by
              intro e
              have := (mem_common c.cmdItfs start i).2 ⟨hi1, hi2⟩
              rw [e] at this; cases this
            exact hinact ⟨this, hi, hal⟩
        · left; exact hi
      · have := ih _ _ h es' e' hc
        exact ⟨this.1, by rw [hsp]; simp [this.2]⟩
    · have := modeLoop_ret _ _ _ _ _ _ _ _ h
      simp at this

/-- A component that refuses, throws, or is in a wrong state makes the switch fail; if everybody can and
does accept, it succeeds. -/
theorem modeLoop_accept (o : Oracle) (prep : Bool) (start stop : List Itf) (allow : Bool) (l : List Hw)
    (tr : List Ev)
    (hst : ∀ c ∈ l, Affected c start stop →
      c.lc = .active ∨ (c.lc = .inactive ∧ (allow = true ∨ ∀ i ∈ c.cmdItfs, i ∉ start)))
    (hok : ∀ tr c s p, o.hwMode tr c prep s p = .ret .ok) :
    (modeLoop o prep start stop allow l tr true).1 = true := by
  induction l generalizing tr with
  | nil => simp [modeLoop]
  | cons d t ih =>
    unfold modeLoop
    dsimp only
    split
    · exact ih _ (fun c hc => hst c (by simp [hc]))
    rename_i haff
    have hd := hst d (by simp) ((affected_iff _ _ _).2 haff)
    split
    · rename_i hbad
      exfalso
      rcases hd with hd | ⟨_, hd | hd⟩
      · rw [hd] at hbad; simp at hbad
      · rw [hd] at hbad; simp at hbad
      · obtain ⟨i, hi⟩ := List.exists_mem_of_ne_nil _ hbad.1
        have := (mem_common _ _ _).1 hi
        exact hd i this.1 this.2
    rw [if_pos (by rcases hd with hd | hd; exact Or.inr hd; exact Or.inl hd.1)]
    rw [hok]
    exact ih _ (fun c hc => hst c (by simp [hc]))

theorem modeSwitch_true (o : Oracle) (prep : Bool) (rm : RM) (start stop : List Itf)
    (h : (rm.modeSwitch o prep start stop).2 = true) (es : List Ev)
    (hes : (rm.modeSwitch o prep start stop).1.tr = es ++ rm.tr) (c : Hw) (hc : c ∈ rm.comps)
    (hk : c.kind ≠ .sensor) (ha : Affected c start stop) :
    (c.lc = .active ∨ (c.lc = .inactive ∧ (rm.allowInactive = true ∨ ∀ i ∈ c.cmdItfs, i ∉ start))) ∧
    Ev.hwMode c.name prep (common c.cmdItfs start) (common c.cmdItfs stop) (.ret .ok) ∈ es := by
  unfold modeSwitch at h hes
  dsimp only at h hes
  obtain ⟨e1, h1, -⟩ := modeLoop_ext o prep start stop rm.allowInactive
    (rm.comps.filter (fun h => h.kind = .actuator)) rm.tr true
  obtain ⟨e2, h2, -⟩ := modeLoop_ext o prep start stop rm.allowInactive
    (rm.comps.filter (fun h => h.kind = .system))
    (modeLoop o prep start stop rm.allowInactive
      (rm.comps.filter (fun h => h.kind = .actuator)) rm.tr true).2 true
  have hsp : es = e2 ++ e1 := by
    rw [h2, h1, ← List.append_assoc] at hes
    exact (List.append_cancel_right hes).symm
  simp only [Bool.and_eq_true] at h
  cases hkind : c.kind with
  | sensor => exact absurd hkind hk
  | actuator =>
    have := modeLoop_true o prep start stop rm.allowInactive _ _ _ h.1 e1 h1 c (by simp [hc, hkind]) ha
    exact ⟨this.1, by rw [hsp]; simp [this.2]⟩
  | system =>
    have := modeLoop_true o prep start stop rm.allowInactive _ _ _ h.2 e2 h2 c (by simp [hc, hkind]) ha
    exact ⟨this.1, by rw [hsp]; simp [this.2]⟩

/-- **C25 (acceptance means validated).** If `prepare_command_mode_switch(start, stop)` returns true, then
every named interface exists and is available, and every actuator/system owning one of them was ACTIVE,
or INACTIVE (with the parameter allowing it when something of it is started), and was asked with exactly
its own interfaces and answered OK. -/
theorem C25_prepare_true (o : Oracle) (rm : RM) (_hr : rm.Reach o) (start stop : List Itf)
    (h : (rm.prepareSwitch o start stop).2 = true) (es : List Ev)
    (hes : (rm.prepareSwitch o start stop).1.tr = es ++ rm.tr) :
    (∀ i, i ∈ start ∨ i ∈ stop → i ∈ rm.cmdKeys ∧ i ∈ rm.availC) ∧
    ∀ c ∈ rm.comps, c.kind ≠ .sensor → Affected c start stop →
      (c.lc = .active ∨ (c.lc = .inactive ∧ (rm.allowInactive = true ∨ ∀ i ∈ c.cmdItfs, i ∉ start))) ∧
      ∃ s p, Ev.hwMode c.name true s p (.ret .ok) ∈ es ∧
        (∀ i, i ∈ s ↔ i ∈ c.cmdItfs ∧ i ∈ start) ∧ (∀ i, i ∈ p ↔ i ∈ c.cmdItfs ∧ i ∈ stop) := by
  unfold prepareSwitch at h hes
  split at h
  · rename_i he
    refine ⟨by simp [he.1, he.2], ?_⟩
    rintro c _ _ ⟨i, _, hi⟩
    simp [he.1, he.2] at hi
  rename_i hne
  rw [if_neg hne] at hes
  split at h
  · simp at h
  rename_i hkeys
  rw [if_neg hkeys] at hes
  split at h
  · simp at h
  rename_i hav
  rw [if_neg hav] at hes
  simp only [not_not] at hkeys hav
  refine ⟨fun i hi => ⟨hkeys i (by simpa using hi), hav i (by simpa using hi)⟩, ?_⟩
  intro c hc hk ha
  have := modeSwitch_true o true rm start stop h es hes c hc hk ha
  exact ⟨this.1, _, _, this.2, fun i => mem_common _ _ i, fun i => mem_common _ _ i⟩

/-- **C25 (who is asked).** `prepare_…` and `perform_command_mode_switch` call nobody but actuators and
systems that are INACTIVE or ACTIVE, and change no component, claim or availability. -/
theorem C25_only_configured_asked (o : Oracle) (rm : RM) (hr : rm.Reach o) (prep : Bool)
    (start stop : List Itf) :
    let r := if prep then rm.prepareSwitch o start stop else rm.performSwitch o start stop
    r.1.comps = rm.comps ∧ r.1.availC = rm.availC ∧ r.1.availS = rm.availS ∧ r.1.claimed = rm.claimed ∧
    ∃ es, r.1.tr = es ++ rm.tr ∧ ∀ e ∈ es, ∃ c ∈ rm.comps, c.kind ≠ .sensor ∧
      (c.lc = .inactive ∨ c.lc = .active) ∧ ∃ s p a, e = .hwMode c.name prep s p a := by
  have _ := hr
  have none_case : rm.comps = rm.comps ∧ rm.availC = rm.availC ∧ rm.availS = rm.availS ∧
      rm.claimed = rm.claimed ∧ ∃ es, rm.tr = es ++ rm.tr ∧ ∀ e ∈ es, ∃ c ∈ rm.comps, c.kind ≠ .sensor ∧
      (c.lc = .inactive ∨ c.lc = .active) ∧ ∃ s p a, e = .hwMode c.name prep s p a :=
    ⟨rfl, rfl, rfl, rfl, [], rfl, by simp⟩
  have main : ∀ p, p = prep → let r := rm.modeSwitch o p start stop
      r.1.comps = rm.comps ∧ r.1.availC = rm.availC ∧ r.1.availS = rm.availS ∧ r.1.claimed = rm.claimed ∧
      ∃ es, r.1.tr = es ++ rm.tr ∧ ∀ e ∈ es, ∃ c ∈ rm.comps, c.kind ≠ .sensor ∧
        (c.lc = .inactive ∨ c.lc = .active) ∧ ∃ s p a, e = .hwMode c.name prep s p a := by
    rintro p rfl
    obtain ⟨es, e, he⟩ := modeSwitch_ext o p rm start stop
    dsimp only
    rw [e]
    refine ⟨rfl, rfl, rfl, rfl, es, rfl, ?_⟩
    intro x hx
    obtain ⟨c, h1, h2, h3, a, h4⟩ := he x hx
    exact ⟨c, h1, h2, h3, _, _, a, h4⟩
  cases prep with
  | true =>
    simp only [if_true]
    unfold prepareSwitch
    split
    · exact none_case
    split
    · exact none_case
    split
    · exact none_case
    · exact main true rfl
  | false =>
    simp only [Bool.false_eq_true, if_false]
    unfold performSwitch
    split
    · exact none_case
    · exact main false rfl

/-- **C25 (no spurious refusal).** If all interfaces exist and are available, all owning components are in
a permitted state and every plugin accepts, the call returns true. -/
theorem C25_prepare_complete (o : Oracle) (rm : RM) (_hr : rm.Reach o) (start stop : List Itf)
    (hi : ∀ i, i ∈ start ∨ i ∈ stop → i ∈ rm.cmdKeys ∧ i ∈ rm.availC)
    (hst : ∀ c ∈ rm.comps, Affected c start stop →
      c.lc = .active ∨ (c.lc = .inactive ∧ (rm.allowInactive = true ∨ ∀ i ∈ c.cmdItfs, i ∉ start)))
    (hok : ∀ tr c s p, o.hwMode tr c true s p = .ret .ok) :
    (rm.prepareSwitch o start stop).2 = true := by
  unfold prepareSwitch
  split
  · rfl
  rw [if_neg (by simp only [not_not]; intro i hi'; exact (hi i (by simpa using hi')).1)]
  rw [if_neg (by simp only [not_not]; intro i hi'; exact (hi i (by simpa using hi')).2)]
  unfold modeSwitch
  dsimp only
  rw [modeLoop_accept o true start stop rm.allowInactive _ _ (fun c hc => hst c (List.mem_filter.1 hc).1) hok,
    modeLoop_accept o true start stop rm.allowInactive _ _ (fun c hc => hst c (List.mem_filter.1 hc).1) hok]
  rfl

/-- Non-vacuity of C25: an accepted start of two interfaces of an active system; a refusal for an
unconfigured actuator's interface. -/
example :
    let rm := RM.run goodOracle false false demoSpecs [.setState 2 .active]
    (rm.prepareSwitch goodOracle [⟨20, 0⟩, ⟨20, 1⟩] []).2 = true ∧
    (rm.prepareSwitch goodOracle [⟨20, 0⟩, ⟨20, 1⟩] []).1.tr =
      [.hwMode 2 true [⟨20, 0⟩, ⟨20, 1⟩] [] (.ret .ok)] ++ rm.tr ∧
    (rm.prepareSwitch goodOracle [⟨10, 0⟩] []).2 = false := by decide

/-! ## C26 -/

/-- What a failed read does, in any state that satisfies the resource manager invariant. -/
theorem read_failure (o : Oracle) (sched : Name → Sched) (rm : RM) (I : rm.Inv) (h : Hw)
    (hh : h ∈ rm.comps) (es : List Ev) (hes : (rm.read o sched).1.tr = es ++ rm.tr) (a : IoAns)
    (ha : Ev.hwIo h.name .read a ∈ es) (hbad : a ≠ .ret .ok) :
    (rm.read o sched).2.result = .error ∧ h.name ∈ (rm.read o sched).2.failed ∧
    (∃ s, (rm.read o sched).1.stateOf h.name = some s ∧ s ≠ .inactive ∧ s ≠ .active) ∧
    (∀ i ∈ h.stateItfs, i ∉ (rm.read o sched).1.availS) ∧
    (∀ i ∈ h.cmdItfs, i ∉ (rm.read o sched).1.availC) := by
  obtain ⟨l1, l2, hl, n1, n2⟩ := read_split I hh
  have hread : rm.read o sched =
      l2.foldl (readOne o sched) (readOne o sched (l1.foldl (readOne o sched)
        (rm, { result := .ok, failed := [] })) h.name) := by
    unfold RM.read; rw [hl, List.foldl_append, List.foldl_cons]
  rw [hread] at hes ⊢
  generalize hs1 : l1.foldl (readOne o sched) (rm, ({ result := .ok, failed := [] } : Status)) = s1 at *
  obtain ⟨J1, f1, ⟨e1, t1, t1'⟩, -⟩ := fold_other (readOne o sched) (fun s n => readOne_ok o sched s n) l1
    h.name n1 (rm, { result := .ok, failed := [] }) I
  rw [hs1] at J1 f1 t1
  have hfind : s1.1.findHw h.name = some h := f1.trans (findHw_of_mem I.names hh)
  have R := readIter o sched s1 h.name J1 hfind
  generalize hs2 : readOne o sched s1 h.name = s2 at *
  have J2 : s2.1.Inv := hs2 ▸ (readOne_ok o sched s1 h.name J1).inv
  obtain ⟨J3, f3, ⟨e3, t3, t3'⟩, av⟩ := fold_other (readOne o sched) (fun s n => readOne_ok o sched s n) l2
    h.name n2 s2 J2
  obtain ⟨e2, t2, t2'⟩ := R.ev
  have hsp : es = e3 ++ (e2 ++ e1) := by
    rw [t3, t2, t1] at hes
    rw [← List.append_assoc, ← List.append_assoc] at hes
    exact (List.append_cancel_right hes).symm.trans (by simp)
  have ha2 : a = readAns o sched s1.1 h := by
    rw [hsp] at ha
    rcases List.mem_append.1 ha with ha | ha
    · exact absurd rfl (t3' _ ha)
    rcases List.mem_append.1 ha with ha | ha
    · exact (t2' _ _ _ ha).2.2
    · exact absurd rfl (t1' _ ha)
  have hnl : sched h.name ≠ .locked := by
    intro hlk
    apply hbad; rw [ha2]; unfold readAns; simp [hlk]
  obtain ⟨st, h', fr, nc, u1, u2⟩ := R.fail hnl (Or.inl (by rw [← ha2]; exact hbad))
  have S := readFold_status o sched l2 s2
  have hmem := fr.mem (findHw_some hfind).1
  have hfind2 : s2.1.findHw h.name = some h' := by
    rw [← fr.good.name]; exact findHw_of_mem J2.names hmem
  have e1' : h'.stateItfs = h.stateItfs := by rw [fr.good.frame]
  have e2' : h'.cmdItfs = h.cmdItfs := by rw [fr.good.frame]
  obtain ⟨av1, av2⟩ := av h' hfind2
  rw [e1'] at av1; rw [e2'] at av2
  refine ⟨S.1 (by rw [st]), S.2.1 _ (by rw [st]; simp), ⟨h'.lc, ?_, ?_, ?_⟩, ?_, ?_⟩
  · unfold stateOf; rw [f3, hfind2]; rfl
  · intro hc; exact nc (Or.inl hc)
  · intro hc; exact nc (Or.inr hc)
  · intro i hi; rw [av1 i hi]; exact u1 i hi
  · intro i hi; rw [av2 i hi]; exact u2 i hi

/-- **C26 (read).** If in a read cycle a component's `read` answers ERROR or DEACTIVATE or throws, the
result is ERROR, the component is reported, it is neither INACTIVE nor ACTIVE afterwards, and none of its
interfaces is available. -/
theorem C26_read_failure (o : Oracle) (sched : Name → Sched) (rm : RM) (hr : rm.Reach o) (h : Hw)
    (hh : h ∈ rm.comps) (es : List Ev) (hes : (rm.read o sched).1.tr = es ++ rm.tr) (a : IoAns)
    (ha : Ev.hwIo h.name .read a ∈ es) (hbad : a ≠ .ret .ok) :
    (rm.read o sched).2.result = .error ∧ h.name ∈ (rm.read o sched).2.failed ∧
    (∃ s, (rm.read o sched).1.stateOf h.name = some s ∧ s ≠ .inactive ∧ s ≠ .active) ∧
    (∀ i ∈ h.stateItfs, i ∉ (rm.read o sched).1.availS) ∧
    (∀ i ∈ h.cmdItfs, i ∉ (rm.read o sched).1.availC) :=
  read_failure o sched rm hr.inv h hh es hes a ha hbad

/-- **C26 (group).** If a component of a group answers ERROR or DEACTIVATE to `read`, every component of
the same group visited later in the same cycle fails with it — whatever it answers itself. -/
theorem C26_group_fails_together_partial (o : Oracle) (sched : Name → Sched) (rm : RM) (hr : rm.Reach o)
    (h k : Hw) (hh : h ∈ rm.comps) (hk : k ∈ rm.comps) (g : Name) (hg : h.group = some g)
    (hgk : k.group = some g) (l1 l2 l3 : List Name)
    (hord : rm.readOrder = l1 ++ h.name :: l2 ++ k.name :: l3) (hlk : sched k.name ≠ .locked)
    (es : List Ev) (hes : (rm.read o sched).1.tr = es ++ rm.tr) (r : Ret)
    (ha : Ev.hwIo h.name .read (.ret r) ∈ es) (hbad : r ≠ .ok) :
    (rm.read o sched).2.result = .error ∧ k.name ∈ (rm.read o sched).2.failed ∧
    (∃ s, (rm.read o sched).1.stateOf k.name = some s ∧ s ≠ .inactive ∧ s ≠ .active) ∧
    (∀ i ∈ k.stateItfs, i ∉ (rm.read o sched).1.availS) ∧
    (∀ i ∈ k.cmdItfs, i ∉ (rm.read o sched).1.availC) := by
  have I := hr.inv
  have nd := readOrder_nodup I
  rw [hord] at nd
  have nk : k.name ∉ l1 ++ h.name :: l2 ∧ k.name ∉ l3 := by
    rw [List.nodup_append'] at nd
    refine ⟨fun hc => nd.2.2 hc (by simp), ?_⟩
    have := nd.2.1; simp at this; exact this.1
  have nh : h.name ∉ l1 ∧ h.name ∉ l2 := by
    rw [List.nodup_append'] at nd
    have nd := nd.1
    rw [List.nodup_append'] at nd
    refine ⟨fun hc => nd.2.2 hc (by simp), ?_⟩
    have := nd.2.1; simp at this; exact this.1
  have nh3 : h.name ∉ l3 := by
    intro hc
    rw [List.nodup_append'] at nd
    exact nd.2.2 (show h.name ∈ l1 ++ h.name :: l2 by simp) (by simp [hc])
  have hkh : h.name ≠ k.name := by
    intro e
    rw [List.nodup_append'] at nd
    exact nd.2.2 (show h.name ∈ l1 ++ h.name :: l2 by simp) (by simp [e])
  have hread : rm.read o sched =
      l3.foldl (readOne o sched) (readOne o sched (l2.foldl (readOne o sched) (readOne o sched
        (l1.foldl (readOne o sched) (rm, { result := .ok, failed := [] })) h.name)) k.name) := by
    unfold RM.read; rw [hord]; simp [List.foldl_append]
  rw [hread] at hes ⊢
  have hko : ∀ s n, s.1.Inv → IterOk s n (readOne o sched s n) := fun s n => readOne_ok o sched s n
  generalize hs1 : l1.foldl (readOne o sched) (rm, ({ result := .ok, failed := [] } : Status)) = s1 at *
  obtain ⟨J1, f1, ⟨e1, t1, t1'⟩, -⟩ := fold_other (readOne o sched) hko l1
    h.name nh.1 (rm, { result := .ok, failed := [] }) I
  obtain ⟨-, fk1, -, -⟩ := fold_other (readOne o sched) hko l1
    k.name (fun hc => nk.1 (by simp [hc])) (rm, { result := .ok, failed := [] }) I
  rw [hs1] at J1 f1 t1 fk1
  have hfind : s1.1.findHw h.name = some h := f1.trans (findHw_of_mem I.names hh)
  have R := readIter o sched s1 h.name J1 hfind
  have Rok := readOne_ok o sched s1 h.name J1
  generalize hs2 : readOne o sched s1 h.name = s2 at *
  have J2 : s2.1.Inv := Rok.inv
  obtain ⟨e2, t2, t2'⟩ := R.ev
  obtain ⟨J3, f3, ⟨e3, t3, t3'⟩, -⟩ := fold_other (readOne o sched) hko l2 h.name nh.2 s2 J2
  obtain ⟨-, fk3, -, -⟩ := fold_other (readOne o sched) hko l2 k.name
    (fun hc => nk.1 (by simp [hc])) s2 J2
  have G2 : s2.1.groupSt g ≠ .ok → (l2.foldl (readOne o sched) s2).1.groupSt g ≠ .ok :=
    readFold_group o sched l2 s2 J2 g
  generalize hs3 : l2.foldl (readOne o sched) s2 = s3 at *
  have hfk1 : s1.1.findHw k.name = some k := fk1.trans (findHw_of_mem I.names hk)
  have hfk2 : s2.1.findHw k.name = some k := by
    obtain ⟨h', fr⟩ := Rok.frame h hfind
    have hkm : k ∈ s2.1.comps := by
      rw [fr.comps]; simp only [setHw, List.mem_map]
      refine ⟨k, (findHw_some hfk1).1, ?_⟩
      rw [fr.good.name, if_neg (fun e => hkh e.symm)]
    exact findHw_of_mem J2.names hkm
  have hfk3 : s3.1.findHw k.name = some k := fk3.trans hfk2
  have K := readIter o sched s3 k.name J3 hfk3
  have Kok := readOne_ok o sched s3 k.name J3
  generalize hs4 : readOne o sched s3 k.name = s4 at *
  obtain ⟨e4, t4, t4'⟩ := K.ev
  have J4 : s4.1.Inv := Kok.inv
  obtain ⟨J5, f5, ⟨e5, t5, t5'⟩, av⟩ := fold_other (readOne o sched) hko l3 k.name nk.2 s4 J4
  obtain ⟨-, -, ⟨e5h, t5h, t5h'⟩, -⟩ := fold_other (readOne o sched) hko l3 h.name nh3 s4 J4
  have hsp : es = e5 ++ (e4 ++ (e3 ++ (e2 ++ e1))) := by
    rw [t5, t4, t3, t2, t1] at hes
    have : (e5 ++ (e4 ++ (e3 ++ (e2 ++ e1)))) ++ rm.tr = es ++ rm.tr := by simpa using hes
    exact (List.append_cancel_right this).symm
  have h55 : e5h = e5 := List.append_cancel_right (t5h.symm.trans t5)
  subst h55
  have ha2 : IoAns.ret r = readAns o sched s1.1 h := by
    rw [hsp] at ha
    rcases List.mem_append.1 ha with ha | ha
    · exact absurd rfl (t5h' _ ha)
    rcases List.mem_append.1 ha with ha | ha
    · exact absurd (t4' _ _ _ ha).1 hkh
    rcases List.mem_append.1 ha with ha | ha
    · exact absurd rfl (t3' _ ha)
    rcases List.mem_append.1 ha with ha | ha
    · exact (t2' _ _ _ ha).2.2
    · exact absurd rfl (t1' _ ha)
  have hnl : sched h.name ≠ .locked := by
    intro hlk'
    have : readAns o sched s1.1 h = .ret .ok := by unfold readAns; simp [hlk']
    rw [this] at ha2; cases ha2; exact hbad rfl
  have hgs : s2.1.groupSt g ≠ .ok := by
    have := R.groupSet hnl g r hg ha2.symm hbad
    simpa using (this ▸ hbad)
  obtain ⟨st, k', fr, nc, u1, u2⟩ := K.fail hlk (Or.inr ⟨g, hgk, G2 hgs⟩)
  have S := readFold_status o sched l3 s4
  have hmem := fr.mem (findHw_some hfk3).1
  have hfk4 : s4.1.findHw k.name = some k' := by
    rw [← fr.good.name]; exact findHw_of_mem J4.names hmem
  have e1' : k'.stateItfs = k.stateItfs := by rw [fr.good.frame]
  have e2' : k'.cmdItfs = k.cmdItfs := by rw [fr.good.frame]
  obtain ⟨av1, av2⟩ := av k' hfk4
  rw [e1'] at av1; rw [e2'] at av2
  refine ⟨S.1 (by rw [st]), S.2.1 _ (by rw [st]; simp), ⟨k'.lc, ?_, ?_, ?_⟩, ?_, ?_⟩
  · unfold stateOf; rw [f5, hfk4]; rfl
  · intro hc; exact nc (Or.inl hc)
  · intro hc; exact nc (Or.inr hc)
  · intro i hi; rw [av1 i hi]; exact u1 i hi
  · intro i hi; rw [av2 i hi]; exact u2 i hi

/-- **C26 (isolation).** A component none of whose answers was bad in this cycle, and which is not in a
group or whose group was fine before and has no bad answer in this cycle, is untouched: same state, not
reported, same availability. -/
theorem C26_read_others_unaffected (o : Oracle) (sched : Name → Sched) (rm : RM) (hr : rm.Reach o) (h : Hw)
    (hh : h ∈ rm.comps) (es : List Ev) (hes : (rm.read o sched).1.tr = es ++ rm.tr)
    (hown : ∀ a, Ev.hwIo h.name .read a ∈ es → a = .ret .ok)
    (hgrp : ∀ g, h.group = some g → rm.groupSt g = .ok ∧
      ∀ k ∈ rm.comps, k.group = some g → ∀ a, Ev.hwIo k.name .read a ∈ es → a = .ret .ok) :
    (rm.read o sched).1.findHw h.name = some h ∧ h.name ∉ (rm.read o sched).2.failed ∧
    (∀ i ∈ h.stateItfs, i ∈ (rm.read o sched).1.availS ↔ i ∈ rm.availS) ∧
    (∀ i ∈ h.cmdItfs, i ∈ (rm.read o sched).1.availC ↔ i ∈ rm.availC) := by
  have I := hr.inv
  obtain ⟨l1, l2, hl, n1, n2⟩ := read_split I hh
  have nd1 : l1.Nodup := by
    have := readOrder_nodup I; rw [hl, List.nodup_append'] at this; exact this.1
  have hread : rm.read o sched =
      l2.foldl (readOne o sched) (readOne o sched (l1.foldl (readOne o sched)
        (rm, { result := .ok, failed := [] })) h.name) := by
    unfold RM.read; rw [hl, List.foldl_append, List.foldl_cons]
  rw [hread] at hes ⊢
  obtain ⟨J1, f1, ⟨e1, t1, t1'⟩, av1⟩ := fold_other (readOne o sched) (fun s n => readOne_ok o sched s n) l1
    h.name n1 (rm, { result := .ok, failed := [] }) I
  have S1 := readFold_status o sched l1 (rm, { result := .ok, failed := [] })
  have GG := fun g => readFold_group_ok o sched g l1 nd1 (rm, { result := .ok, failed := [] }) I
  obtain ⟨av1s, av1c⟩ := av1 h (findHw_of_mem I.names hh)
  generalize hs1 : l1.foldl (readOne o sched) (rm, ({ result := .ok, failed := [] } : Status)) = s1 at *
  have hfind : s1.1.findHw h.name = some h := f1.trans (findHw_of_mem I.names hh)
  have R := readIter o sched s1 h.name J1 hfind
  have EV := readOne_ev_mem o sched s1 h.name hfind
  have Rok := readOne_ok o sched s1 h.name J1
  generalize hs2 : readOne o sched s1 h.name = s2 at *
  have J2 : s2.1.Inv := Rok.inv
  obtain ⟨J3, f3, ⟨e3, t3, t3'⟩, av⟩ := fold_other (readOne o sched) (fun s n => readOne_ok o sched s n) l2
    h.name n2 s2 J2
  obtain ⟨e2, t2, t2'⟩ := R.ev
  have hsp : es = e3 ++ (e2 ++ e1) := by
    rw [t3, t2, t1] at hes
    rw [← List.append_assoc, ← List.append_assoc] at hes
    exact (List.append_cancel_right hes).symm.trans (by simp)
  have good : sched h.name = .locked ∨
      (readAns o sched s1.1 h = .ret .ok ∧ ∀ g, h.group = some g → s1.1.groupSt g = .ok) := by
    by_cases hlk : sched h.name = .locked
    · exact Or.inl hlk
    refine Or.inr ⟨?_, ?_⟩
    · by_contra hb
      obtain ⟨e2', t2'', hm⟩ := EV hlk hb
      have : e2' = e2 := List.append_cancel_right (t2''.symm.trans t2)
      subst this
      exact hb (hown _ (by rw [hsp]; simp [hm]))
    · intro g hg
      obtain ⟨g0, g1⟩ := hgrp g hg
      refine GG g g0 e1 t1 ?_
      intro k hk hkg a ha
      exact g1 k hk hkg a (by rw [hsp]; simp [ha])
  obtain ⟨st, fr, -, a1, a2⟩ := R.good good
  have hmem := fr.mem (findHw_some hfind).1
  have hfind2 : s2.1.findHw h.name = some h := findHw_of_mem J2.names hmem
  obtain ⟨av3s, av3c⟩ := av h hfind2
  refine ⟨f3.trans hfind2, ?_, ?_, ?_⟩
  · intro hc
    have S := (readFold_status o sched l2 s2).2.2.1 _ hc
    rcases S with S | S
    · rw [st] at S
      rcases S1.2.2.1 _ S with S | S
      · simp at S
      · exact n1 S
    · exact n2 S
  · intro i hi; rw [av3s i hi, a1]; exact av1s i hi
  · intro i hi; rw [av3c i hi, a2]; exact av1c i hi

/-- What a failed write does, in any state that satisfies the resource manager invariant. -/
theorem write_failure (o : Oracle) (sched : Name → Sched) (rm : RM) (I : rm.Inv) (h : Hw)
    (hh : h ∈ rm.comps) (es : List Ev) (hes : (rm.write o sched).1.tr = es ++ rm.tr) (a : IoAns)
    (ha : Ev.hwIo h.name .write a ∈ es) (hbad : a = .ret .error ∨ a = .throws) :
    (rm.write o sched).2.result ≠ .ok ∧ h.name ∈ (rm.write o sched).2.failed ∧
    (∃ s, (rm.write o sched).1.stateOf h.name = some s ∧ s ≠ .inactive ∧ s ≠ .active) ∧
    (∀ i ∈ h.stateItfs, i ∉ (rm.write o sched).1.availS) ∧
    (∀ i ∈ h.cmdItfs, i ∉ (rm.write o sched).1.availC) := by
  by_cases hsens : h.kind = .sensor
  · -- sensors are not visited by write
    exfalso
    have hno : h.name ∉ rm.writeOrder := by
      intro hc
      obtain ⟨k, hk, hk2, hk3⟩ := mem_writeOrder.1 hc
      have := eq_of_name I.names hk hh hk3
      subst this; exact hk2 hsens
    obtain ⟨-, -, ⟨e, t, t'⟩, -⟩ := fold_other (writeOne o sched) (fun s n => writeOne_ok o sched s n)
      rm.writeOrder h.name hno (rm, { result := .ok, failed := [] }) I
    have : es = e := List.append_cancel_right (hes.symm.trans t)
    subst this
    exact t' _ ha rfl
  obtain ⟨l1, l2, hl, n1, n2⟩ := write_split I hh hsens
  have hwrite : rm.write o sched =
      l2.foldl (writeOne o sched) (writeOne o sched (l1.foldl (writeOne o sched)
        (rm, { result := .ok, failed := [] })) h.name) := by
    unfold RM.write; rw [hl, List.foldl_append, List.foldl_cons]
  rw [hwrite] at hes ⊢
  generalize hs1 : l1.foldl (writeOne o sched) (rm, ({ result := .ok, failed := [] } : Status)) = s1 at *
  obtain ⟨J1, f1, ⟨e1, t1, t1'⟩, -⟩ := fold_other (writeOne o sched) (fun s n => writeOne_ok o sched s n) l1
    h.name n1 (rm, { result := .ok, failed := [] }) I
  rw [hs1] at J1 f1 t1
  have hfind : s1.1.findHw h.name = some h := f1.trans (findHw_of_mem I.names hh)
  have R := writeIter o sched s1 h.name J1 hfind
  generalize hs2 : writeOne o sched s1 h.name = s2 at *
  have J2 : s2.1.Inv := hs2 ▸ (writeOne_ok o sched s1 h.name J1).inv
  obtain ⟨J3, f3, ⟨e3, t3, t3'⟩, av⟩ := fold_other (writeOne o sched) (fun s n => writeOne_ok o sched s n) l2
    h.name n2 s2 J2
  obtain ⟨e2, t2, t2'⟩ := R.ev
  have hsp : es = e3 ++ (e2 ++ e1) := by
    rw [t3, t2, t1] at hes
    rw [← List.append_assoc, ← List.append_assoc] at hes
    exact (List.append_cancel_right hes).symm.trans (by simp)
  have ha2 : a = writeAns o sched s1.1 h := by
    rw [hsp] at ha
    rcases List.mem_append.1 ha with ha | ha
    · exact absurd rfl (t3' _ ha)
    rcases List.mem_append.1 ha with ha | ha
    · exact (t2' _ _ _ ha).2.2
    · exact absurd rfl (t1' _ ha)
  have hnl : sched h.name ≠ .locked := by
    intro hlk
    have : writeAns o sched s1.1 h = .ret .ok := by unfold writeAns; simp [hlk]
    rw [this] at ha2; subst ha2; simp at hbad
  obtain ⟨st, h', fr, nc, u1, u2⟩ := R.fail hnl
    (by rw [← ha2]; rcases hbad with hb | hb; exact Or.inl hb; exact Or.inr (Or.inl hb))
  have S := writeFold_status o sched l2 s2
  have hmem := fr.mem (findHw_some hfind).1
  have hfind2 : s2.1.findHw h.name = some h' := by
    rw [← fr.good.name]; exact findHw_of_mem J2.names hmem
  have e1' : h'.stateItfs = h.stateItfs := by rw [fr.good.frame]
  have e2' : h'.cmdItfs = h.cmdItfs := by rw [fr.good.frame]
  obtain ⟨av1, av2⟩ := av h' hfind2
  rw [e1'] at av1; rw [e2'] at av2
  refine ⟨S.1 (by rw [st]; simp), S.2 _ (by rw [st]; simp), ⟨h'.lc, ?_, ?_, ?_⟩, ?_, ?_⟩
  · unfold stateOf; rw [f3, hfind2]; rfl
  · intro hc; exact nc (Or.inl hc)
  · intro hc; exact nc (Or.inr hc)
  · intro i hi; rw [av1 i hi]; exact u1 i hi
  · intro i hi; rw [av2 i hi]; exact u2 i hi

/-- **C26 (write).** If in a write cycle a component's `write` answers ERROR or throws, the result is not
OK, the component is reported, it is neither INACTIVE nor ACTIVE afterwards and none of its interfaces is
available. (That the *result* is ERROR is false of the code, see `C26_write_error_masked`.) -/
theorem C26_write_failure_partial (o : Oracle) (sched : Name → Sched) (rm : RM) (hr : rm.Reach o) (h : Hw)
    (hh : h ∈ rm.comps) (es : List Ev) (hes : (rm.write o sched).1.tr = es ++ rm.tr) (a : IoAns)
    (ha : Ev.hwIo h.name .write a ∈ es) (hbad : a = .ret .error ∨ a = .throws) :
    (rm.write o sched).2.result ≠ .ok ∧ h.name ∈ (rm.write o sched).2.failed ∧
    (∃ s, (rm.write o sched).1.stateOf h.name = some s ∧ s ≠ .inactive ∧ s ≠ .active) ∧
    (∀ i ∈ h.stateItfs, i ∉ (rm.write o sched).1.availS) ∧
    (∀ i ∈ h.cmdItfs, i ∉ (rm.write o sched).1.availC) :=
  write_failure o sched rm hr.inv h hh es hes a ha hbad

/-- A robot with two ungrouped actuators and a group of two systems. -/
def groupSpecs : List HwSpec :=
  [{ name := 1, kind := .actuator, group := none, loads := true, exportS := [⟨10, 0⟩], exportC := [⟨10, 0⟩],
     declS := [], declC := [] },
   { name := 2, kind := .actuator, group := none, loads := true, exportS := [⟨20, 0⟩], exportC := [⟨20, 0⟩],
     declS := [], declC := [] },
   { name := 3, kind := .system, group := some 7, loads := true, exportS := [⟨30, 0⟩], exportC := [⟨30, 0⟩],
     declS := [], declC := [] },
   { name := 4, kind := .system, group := some 7, loads := true, exportS := [⟨40, 0⟩], exportC := [⟨40, 0⟩],
     declS := [], declC := [] }]

/-- Plugins that answer `f` to read/write. -/
def ioOracle (f : Name → HwIo → IoAns) : Oracle := { goodOracle with hwIo := fun _ n io => f n io }

/-- Everything active. -/
def allActive : List RM.Op := [.setState 1 .active, .setState 2 .active, .setState 3 .active, .setState 4 .active]

/-- Non-vacuity of C26: system 3's read fails; 3 and its group mate 4 go down, 1 and 2 are untouched. -/
example :
    let o := ioOracle (fun n _ => if n = 3 then .ret .error else .ret .ok)
    let rm := RM.run o false false groupSpecs allActive
    let r := rm.read o (fun _ => .run)
    rm.readOrder = [1, 2] ++ 3 :: [] ++ 4 :: [] ∧ r.2 = { result := .error, failed := [3, 4] } ∧
    r.1.stateOf 4 = some .unconfigured ∧ r.1.stateOf 1 = some .active ∧
    r.1.availC = [⟨10, 0⟩, ⟨20, 0⟩] ∧
    Ev.hwIo 3 .read (.ret .error) ∈ r.1.tr := by decide

/-- **C26, negation of the full claim (1).** A later component's DEACTIVATE overwrites an earlier ERROR in
the result of a write cycle (resource_manager.cpp:2571-2597 assign `result` unconditionally). -/
theorem C26_write_error_masked :
    let o := ioOracle (fun n io => if io = .write then (if n = 1 then .ret .error else .ret .deactivate) else .ret .ok)
    let rm := RM.run o false false groupSpecs allActive
    let r := rm.write o (fun n => if n = 1 ∨ n = 2 then .run else .notDue)
    Ev.hwIo 1 .write (.ret .error) ∈ r.1.tr ∧ r.2 = { result := .deactivate, failed := [1] } := by decide

/-- **C26, negation of the full claim (2).** If a group member's `read` *throws*, the rest of its group is
not failed: the exception path (resource_manager.cpp:2452-2469) bypasses the group state. -/
theorem C26_exception_skips_group :
    let o := ioOracle (fun n _ => if n = 3 then .throws else .ret .ok)
    let rm := RM.run o false false groupSpecs allActive
    let r := rm.read o (fun _ => .run)
    r.2 = { result := .error, failed := [3] } ∧ r.1.stateOf 3 = some .unconfigured ∧
    r.1.stateOf 4 = some .active := by decide

/-- **C26, negation of the full claim (3).** A DEACTIVATE request of one write cycle stays in the group
state: it *configures* an unconfigured member of the group (its target is INACTIVE), which also clears the
group state again. -/
theorem C26_deactivate_configures_group_member :
    let o := ioOracle (fun n io => if n = 3 ∧ io = .write then .ret .deactivate else .ret .ok)
    let rm := RM.run o false false groupSpecs [.setState 3 .active]
    let r := rm.write o (fun _ => .run)
    rm.stateOf 4 = some .unconfigured ∧ r.1.stateOf 4 = some .inactive := by decide

/-- **C26, negation of the full claim (4).** A DEACTIVATE answered in `write` by a component of a group
makes the next `read` fail for the whole group with ERROR although no plugin reported an error, even if
the component was activated again in between (activation does not reset the group state). -/
theorem C26_stale_group_state :
    let o := ioOracle (fun n io => if n = 3 ∧ io = .write then .ret .deactivate else .ret .ok)
    let rm := RM.run o false false groupSpecs allActive
    let w := rm.write o (fun _ => .run)
    let rm2 := (w.1.setComponentState o 3 .active).1
    let r := rm2.read o (fun _ => .run)
    w.2.result = .deactivate ∧ rm2.stateOf 3 = some .active ∧
    r.2 = { result := .error, failed := [3, 4] } ∧ r.1.stateOf 3 = some .unconfigured := by decide

end Verif
