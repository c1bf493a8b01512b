import Verif.RM.Itf
/-! # Loading, and all histories of the resource manager -/
namespace Verif
namespace RM

theorem inv_empty (a b : Bool) : (RM.empty a b).Inv := by
  constructor <;> simp [RM.empty, HwTraceOk, OwnS, OwnC]
  · intro i w h; cases w <;> simp at h
  · intro i w h; cases w <;> simp at h
  · intro i w w' h; cases w <;> simp at h
  · intro i w w' h; cases w <;> simp at h

/-- Appending a freshly initialised component. -/
theorem inv_append {rm rm' : RM} (I : rm.Inv) {h : Hw} {es : List Ev} {ks kc : List Itf} {cl : Itf → Option Bool}
    (hrm : rm' = { rm with tr := es ++ rm.tr, comps := rm.comps ++ [h], stateKeys := rm.stateKeys ++ ks,
                           cmdKeys := rm.cmdKeys ++ kc, claimed := cl })
    (hn : ∀ c ∈ rm.comps, c.name ≠ h.name)
    (hes : ∀ e ∈ es, e.hwName = some h.name)
    (hok : HwTraceOk (es ++ rm.tr))
    (hsy : h.Sync (es ++ rm.tr)) (hun : ¬ h.Conf) (hkn : h.lc ≠ .unknown)
    (hS : h.stateItfs = ks) (hC : h.cmdItfs = kc ∨ h.cmdItfs = [])
    (fS : ∀ i ∈ ks, i ∉ rm.stateKeys) (fC : ∀ i ∈ kc, i ∉ rm.cmdKeys)
    (aS : ∀ i ∈ rm.availS, i ∈ rm.stateKeys) (aC : ∀ i ∈ rm.availC, i ∈ rm.cmdKeys)
    (dom : ∀ k ∈ rm.cmdKeys ++ kc, cl k ≠ none)
    (hse : h.kind = .sensor → h.cmdItfs = []) :
    rm'.Inv := by
  have oS : ∀ i w, rm'.OwnS i w →
      (w = .hw h.name ∧ i ∈ ks) ∨ rm.OwnS i w := by
    intro i w hw
    subst hrm
    cases w with
    | hw n =>
      obtain ⟨c, hc, hcn, hi⟩ := hw
      rcases List.mem_append.1 hc with hc | hc
      · right; exact ⟨c, hc, hcn, hi⟩
      · simp at hc; subst hc; left; exact ⟨by rw [hcn], by rw [← hS]; exact hi⟩
    | ctl c => right; exact hw
  have oC : ∀ i w, rm'.OwnC i w →
      (w = .hw h.name ∧ i ∈ kc ∧ i ∈ h.cmdItfs) ∨ rm.OwnC i w := by
    intro i w hw
    subst hrm
    cases w with
    | hw n =>
      obtain ⟨c, hc, hcn, hi⟩ := hw
      rcases List.mem_append.1 hc with hc | hc
      · right; exact ⟨c, hc, hcn, hi⟩
      · simp at hc; subst hc; left
        refine ⟨by rw [hcn], ?_, hi⟩
        rcases hC with e | e
        · rw [← e]; exact hi
        · rw [e] at hi; simp at hi
    | ctl c => right; exact hw
  subst hrm
  exact
  { names := by
      simp only [List.map_append, List.map_cons, List.map_nil]
      rw [List.nodup_append]
      refine ⟨I.names, by simp, ?_⟩
      intro a ha b hb
      simp at hb; subst hb
      simp at ha
      obtain ⟨c, hc, e⟩ := ha
      rw [← e]; exact hn c hc
    sync := by
      intro c hc
      rcases List.mem_append.1 hc with hc | hc
      · have := I.sync c hc
        unfold Hw.Sync at *
        rw [this]
        exact (lcOf_append_other (fun e he => by rw [hes e he]; simp; exact fun h => hn c hc h.symm)).symm
      · simp at hc; subst hc; exact hsy
    ok := hok
    known := by
      intro c hc
      rcases List.mem_append.1 hc with hc | hc
      · exact I.known c hc
      · simp at hc; subst hc; exact hkn
    nodS := I.nodS, nodC := I.nodC
    keyS := by
      intro i w hw
      rcases oS i w hw with ⟨_, h⟩ | h
      · simp [h]
      · simp [I.keyS i w h]
    keyC := by
      intro i w hw
      rcases oC i w hw with ⟨_, h, _⟩ | h
      · simp [h]
      · simp [I.keyC i w h]
    uniS := by
      intro i w w' a b
      rcases oS i w a with ⟨e1, h1⟩ | h1 <;> rcases oS i w' b with ⟨e2, h2⟩ | h2
      · rw [e1, e2]
      · exact absurd (I.keyS i w' h2) (fS i h1)
      · exact absurd (I.keyS i w h1) (fS i h2)
      · exact I.uniS i w w' h1 h2
    uniC := by
      intro i w w' a b
      rcases oC i w a with ⟨e1, h1, _⟩ | h1 <;> rcases oC i w' b with ⟨e2, h2, _⟩ | h2
      · rw [e1, e2]
      · exact absurd (I.keyC i w' h2) (fC i h1)
      · exact absurd (I.keyC i w h1) (fC i h2)
      · exact I.uniC i w w' h1 h2
    nodExpS := I.nodExpS, nodExpR := I.nodExpR, claimedDom := dom
    sensor := by
      intro c hc hk
      rcases List.mem_append.1 hc with hc | hc
      · exact I.sensor c hc hk
      · simp at hc; subst hc; exact hse hk
    conf := by
      intro c hc hk
      rcases List.mem_append.1 hc with hc | hc
      · exact I.conf c hc hk
      · simp at hc; subst hc; exact absurd hk hun
    clean := by
      intro c hc hk hb
      rcases List.mem_append.1 hc with hc | hc
      · exact I.clean c hc hk (fun e he => hb e (by simp [he]))
      · simp at hc; subst hc
        refine ⟨fun i hi h2 => fS i (by rw [← hS]; exact hi) (aS i h2), fun i hi h2 => ?_⟩
        rcases hC with e | e
        · exact fC i (by rw [← e]; exact hi) (aC i h2)
        · rw [e] at hi; simp at hi }

/-- Invariant of the loading loop. -/
structure LoadInv (rm : RM) : Prop where
  inv : rm.Inv
  known : ∀ e ∈ rm.tr, ∀ n, e.hwName = some n → ∃ h ∈ rm.comps, h.name = n
  noS : rm.availS = []
  noC : rm.availC = []
  noClaim : ∀ k, rm.claimed k ≠ some true
  unconf : ∀ h ∈ rm.comps, h.lc = .unconfigured
  fault : rm.fault = false

theorem loadOne_ok (o : Oracle) {rm : RM} (L : rm.LoadInv) (s : HwSpec) :
    ((rm.loadOne o s).2 = true → (rm.loadOne o s).1.LoadInv) ∧ HwTraceOk (rm.loadOne o s).1.tr ∧
    (rm.loadOne o s).1.expS = rm.expS ∧ (rm.loadOne o s).1.expR = rm.expR ∧
    (rm.loadOne o s).1.fault = rm.fault := by
  have I := L.inv
  unfold loadOne
  split
  · exact ⟨by simp, I.ok, rfl, rfl, rfl⟩
  split
  · exact ⟨by simp, I.ok, rfl, rfl, rfl⟩
  rename_i hnew hloads
  dsimp only
  generalize hh0 : ({ name := s.name, kind := s.kind, group := s.group, stateItfs := [], cmdItfs := [],
                      lc := .unknown } : Hw) = h0
  have hnew' : ∀ c ∈ rm.comps, c.name ≠ s.name := by
    intro c hc e
    apply hnew
    simp only [List.any_eq_true, decide_eq_true_eq]
    exact ⟨c, hc, e⟩
  have hn0 : h0.name = s.name := by subst hh0; rfl
  have g := Hw.good_init o rm.tr h0
  have hs0 : h0.Sync rm.tr := by
    unfold Hw.Sync
    rw [lcOf_unknown_of_no_event]
    · subst hh0; rfl
    · intro e he hx
      obtain ⟨c, hc, hcn⟩ := L.known e he _ hx
      exact hnew' c hc (by rw [hcn, hn0])
  have hok := g.ok hs0 I.ok
  have hsy := g.sync hs0
  have hname := g.name
  obtain ⟨es, e1, e2⟩ := g.ext
  have hfr := g.frame
  generalize hr : h0.init o rm.tr = r at *
  obtain ⟨h1, tr1⟩ := r
  simp only at e1 hok hsy hname hfr ⊢
  subst e1
  split
  · rename_i hun
    obtain ⟨es1, n1, f1, s1, a1⟩ := addStateItfs_spec { rm with tr := es ++ rm.tr } s.exportS
    generalize RM.addStateItfs { rm with tr := es ++ rm.tr } s.exportS = ra at *
    obtain ⟨rma, ns⟩ := ra
    simp only at es1 n1 f1; subst es1
    have hk1 : h1.kind = s.kind := by rw [hfr]; subst hh0; rfl
    have hc1 : h1.cmdItfs = [] := by rw [hfr]; subst hh0; rfl
    have hname1 : h1.name = s.name := by rw [hname, hn0]
    have hL : ∀ (x : Hw) (kc : List Itf) (cl : Itf → Option Bool), x = { h1 with stateItfs := ns, cmdItfs := x.cmdItfs } →
        (x.cmdItfs = kc ∨ x.cmdItfs = []) → (∀ i ∈ kc, i ∉ rm.cmdKeys) →
        (∀ k ∈ rm.cmdKeys ++ kc, cl k ≠ none) → (s.kind = .sensor → x.cmdItfs = []) →
        (∀ k, cl k ≠ some true) →
        RM.LoadInv { rm with tr := es ++ rm.tr, comps := rm.comps ++ [x], stateKeys := rm.stateKeys ++ ns,
                             cmdKeys := rm.cmdKeys ++ kc, claimed := cl } := by
      intro x kc cl hx hxc fC dom hse hcl
      have xn : x.name = s.name := by rw [hx]; exact hname1
      have xl : x.lc = .unconfigured := by rw [hx]; exact hun
      exact
      { inv := by
          refine inv_append (h := x) (es := es) (ks := ns) (kc := kc) (cl := cl) I rfl ?_ ?_ hok ?_ ?_ ?_ ?_ hxc ?_ fC
            ?_ ?_ dom ?_
          · intro c hc; rw [xn]; exact hnew' c hc
          · intro e he; rw [xn, e2 e he, hn0]
          · unfold Hw.Sync at *
            rw [xn, xl, ← hname1, ← hsy]; exact hun.symm
          · rw [Hw.Conf, xl]; simp
          · rw [xl]; simp
          · rw [hx]
          · exact f1
          · rw [L.noS]; simp
          · rw [L.noC]; simp
          · intro hk; exact hse (by rw [hx] at hk; rw [← hk1]; exact hk)
        known := by
          intro e he n hx'
          rcases List.mem_append.1 he with he | he
          · exact ⟨x, by simp, by rw [e2 e he] at hx'; cases hx'; rw [xn, hn0]⟩
          · obtain ⟨c, hc, hcn⟩ := L.known e he n hx'
            exact ⟨c, by simp [hc], hcn⟩
        noS := L.noS, noC := L.noC, noClaim := hcl
        unconf := by
          intro c hc
          rcases List.mem_append.1 hc with hc | hc
          · exact L.unconf c hc
          · simp at hc; subst hc; exact xl
        fault := L.fault }
    split
    · rename_i hse
      refine ⟨fun _ => ?_, hok, rfl, rfl, rfl⟩
      have := hL { h1 with stateItfs := ns } [] rm.claimed rfl (Or.inr hc1) (by simp)
        (by simpa using I.claimedDom) (fun _ => hc1) L.noClaim
      simpa using this
    · rename_i hse
      obtain ⟨ks, cl, ec, n, f, c1, c2, c3, rr⟩ := (addCmdItfs_spec
        { rm with tr := es ++ rm.tr, stateKeys := rm.stateKeys ++ ns } s.exportC).eq
      generalize RM.addCmdItfs
        { rm with tr := es ++ rm.tr, stateKeys := rm.stateKeys ++ ns } s.exportC = rc at *
      obtain ⟨rm2, oo⟩ := rc
      simp only at ec rr f c1 c2 c3; subst ec
      have dom : ∀ k ∈ rm.cmdKeys ++ ks, cl k ≠ none := by
        intro k hk
        rcases List.mem_append.1 hk with hk | hk
        · rw [c1 k (I.claimedDom k hk)]; exact I.claimedDom k hk
        · by_cases hn : rm.claimed k = none
          · rw [c2 k hk hn]; simp
          · rw [c1 k hn]; exact hn
      have ncl : ∀ k, cl k ≠ some true := by
        intro k
        by_cases hk : k ∈ ks
        · by_cases hn : rm.claimed k = none
          · rw [c2 k hk hn]; simp
          · rw [c1 k hn]; exact L.noClaim k
        · rw [c3 k hk]; exact L.noClaim k
      cases oo with
      | none =>
        refine ⟨fun _ => ?_, hok, rfl, rfl, rfl⟩
        exact hL { h1 with stateItfs := ns } ks cl rfl (Or.inr hc1) (fun i hi => (f i hi).1) dom
          (fun h => absurd h hse) ncl
      | some names =>
        refine ⟨fun _ => ?_, hok, rfl, rfl, rfl⟩
        obtain ⟨r1, _⟩ := rr names rfl
        subst r1
        exact hL { h1 with stateItfs := ns, cmdItfs := names } names cl rfl (Or.inl rfl) (fun i hi => (f i hi).1) dom
          (fun h => absurd h hse) ncl
  · exact ⟨by simp, hok, rfl, rfl, rfl⟩

theorem loadInv_empty (a b : Bool) : (RM.empty a b).LoadInv :=
  ⟨inv_empty a b, by simp [RM.empty], rfl, rfl, by simp [RM.empty], by simp [RM.empty], rfl⟩

theorem loadAll_ok (o : Oracle) (a b : Bool) (specs : List HwSpec) :
    ((RM.empty a b).loadAll o specs).1.Inv ∧
    (((RM.empty a b).loadAll o specs).2 = true → ((RM.empty a b).loadAll o specs).1.LoadInv) := by
  have key : ∀ (l : List HwSpec) (acc : RM × Bool),
      (acc.2 = true → acc.1.LoadInv) → HwTraceOk acc.1.tr → (∀ c, acc.1.expS c = none) →
      (∀ c, acc.1.expR c = none) →
      let r := l.foldl (fun (acc : RM × Bool) s => if acc.2 then acc.1.loadOne o s else acc) acc
      (r.2 = true → r.1.LoadInv) ∧ HwTraceOk r.1.tr ∧ (∀ c, r.1.expS c = none) ∧ (∀ c, r.1.expR c = none) := by
    intro l
    induction l with
    | nil => intro acc h1 h2 h3 h4; exact ⟨h1, h2, h3, h4⟩
    | cons s t ih =>
      intro acc h1 h2 h3 h4
      simp only [List.foldl_cons]
      by_cases hb : acc.2 = true
      · rw [if_pos hb]
        obtain ⟨k1, k2, k3, k4, _⟩ := loadOne_ok o (h1 hb) s
        exact ih _ k1 k2 (by rw [k3]; exact h3) (by rw [k4]; exact h4)
      · rw [if_neg hb]; exact ih _ h1 h2 h3 h4
  have := key specs (RM.empty a b, true) (fun _ => loadInv_empty a b) trivial (fun _ => rfl) (fun _ => rfl)
  unfold loadAll
  dsimp only at this ⊢
  generalize specs.foldl (fun (acc : RM × Bool) s => if acc.2 then acc.1.loadOne o s else acc)
    (RM.empty a b, true) = r at *
  obtain ⟨k1, k2, k3, k4⟩ := this
  split
  · rename_i hr
    exact ⟨(k1 hr.1).inv, fun _ => k1 hr.1⟩
  · refine ⟨?_, by simp⟩
    exact
    { names := by simp, sync := by simp, ok := k2, known := by simp, nodS := by simp, nodC := by simp
      keyS := by intro i w h; cases w <;> simp [OwnS, k3] at h
      keyC := by intro i w h; cases w <;> simp [OwnC, k4] at h
      uniS := by intro i w w' h; cases w <;> simp [OwnS, k3] at h
      uniC := by intro i w w' h; cases w <;> simp [OwnC, k4] at h
      nodExpS := by intro c l h; simp [k3] at h
      nodExpR := by intro c l h; simp [k4] at h
      claimedDom := by simp, sensor := by simp, conf := by simp, clean := by simp }

/-- The public operations of the resource manager after loading. -/
inductive Op
  | setState (n : Name) (t : LState)
  | read (s : Name → Sched)
  | write (s : Name → Sched)
  | prepare (start stop : List Itf)
  | perform (start stop : List Itf)
  | claim (k : Itf)
  | release (k : Itf)
  | importState (c : Name) (is : List Itf)
  | importRef (c : Name) (is : List Itf)
  | stateAvailable (c : Name)
  | stateUnavailable (c : Name)
  | refAvailable (c : Name)
  | refUnavailable (c : Name)
  | removeState (c : Name)
  | removeRef (c : Name)
  | cache (c : Name) (is : List Itf)

/-- One API call. -/
def step (o : Oracle) (rm : RM) : Op → RM
  | .setState n t => (rm.setComponentState o n t).1
  | .read s => (rm.read o s).1
  | .write s => (rm.write o s).1
  | .prepare a b => (rm.prepareSwitch o a b).1
  | .perform a b => (rm.performSwitch o a b).1
  | .claim k => (rm.claim k).1
  | .release k => rm.release k
  | .importState c is => rm.importExportedState c is
  | .importRef c is => (rm.importReference c is).1
  | .stateAvailable c => rm.exportedStateAvailable c
  | .stateUnavailable c => rm.exportedStateUnavailable c
  | .refAvailable c => rm.referenceAvailable c
  | .refUnavailable c => rm.referenceUnavailable c
  | .removeState c => rm.removeExportedState c
  | .removeRef c => rm.removeReference c
  | .cache c is => rm.cacheController c is

/-- Any history after loading any robot description. -/
def run (o : Oracle) (a b : Bool) (specs : List HwSpec) (ops : List Op) : RM :=
  ops.foldl (step o) ((RM.empty a b).loadAll o specs).1

theorem inv_step (o : Oracle) {rm : RM} (I : rm.Inv) (op : Op) : (rm.step o op).Inv := by
  cases op <;> simp only [step]
  · exact inv_setComponentState o I _ _
  · exact inv_read o _ I
  · exact inv_write o _ I
  · exact inv_prepareSwitch o I _ _
  · exact inv_performSwitch o I _ _
  · exact inv_claim I _
  · exact inv_release I _
  · exact inv_importExportedState I _ _
  · exact inv_importReference I _ _
  · exact inv_exportedStateAvailable I _
  · exact inv_exportedStateUnavailable I _
  · exact inv_referenceAvailable I _
  · exact inv_referenceUnavailable I _
  · exact inv_removeExportedState I _
  · exact inv_removeReference I _
  · exact inv_cacheController I _ _

theorem inv_run (o : Oracle) (a b : Bool) (specs : List HwSpec) (ops : List Op) :
    (run o a b specs ops).Inv :=
  foldl_inv RM.Inv _ _ _ (loadAll_ok o a b specs).1 (fun _ op _ h => inv_step o h op)

end RM
end Verif
