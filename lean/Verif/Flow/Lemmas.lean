import Verif.Flow.Model
import Verif.RM.Fail
import Verif.CM.HwFrame
/-! # Lemmas about the value layer -/
namespace Verif.Flow
open Verif

variable {D : Type}

theorem newEvents_of {cm cm' : CM} {es : List Ev} (h : cm'.rm.tr = es ++ cm.rm.tr) : newEvents cm cm' = es.reverse := by
  simp [newEvents, h]

theorem newEvents_self (cm : CM) : newEvents cm cm = [] := by simp [newEvents]

theorem replay_ev (body : Body D) (sw : Bool) (cm : CM) : ∀ (es tr : List Ev) (v : Vals D),
    (replay body sw cm tr es v).2.map (·.ev) = es := by
  intro es
  induction es with
  | nil => intro tr v; rfl
  | cons e t ih => intro tr v; simp [replay, ih]

theorem replay_append (body : Body D) (sw : Bool) (cm : CM) : ∀ (es fs tr : List Ev) (v : Vals D),
    replay body sw cm tr (es ++ fs) v =
      ((replay body sw cm (es.reverse ++ tr) fs (replay body sw cm tr es v).1).1,
       (replay body sw cm tr es v).2 ++ (replay body sw cm (es.reverse ++ tr) fs (replay body sw cm tr es v).1).2) := by
  intro es
  induction es with
  | nil => intro fs tr v; simp [replay]
  | cons e t ih => intro fs tr v; simp [replay, ih]

/-- A command interface nobody writes keeps its value, and everybody sees it. -/
theorem replay_keepC (body : Body D) (sw : Bool) (cm : CM) (i : Itf) : ∀ (es tr : List Ev) (v : Vals D),
    (∀ e ∈ es, mayC sw cm e i = false) →
    (replay body sw cm tr es v).1.cmd i = v.cmd i ∧
    ∀ x ∈ (replay body sw cm tr es v).2, x.pre.cmd i = v.cmd i ∧ x.post.cmd i = v.cmd i := by
  intro es
  induction es with
  | nil => intro tr v _; simp [replay]
  | cons e t ih =>
    intro tr v h
    have h0 := h e (by simp)
    have h1 : (one body sw cm tr e v).cmd i = v.cmd i := by simp [one, h0]
    obtain ⟨a, b⟩ := ih (e :: tr) (one body sw cm tr e v) (fun x hx => h x (by simp [hx]))
    refine ⟨by simp only [replay]; rw [a, h1], ?_⟩
    intro x hx
    simp only [replay, List.mem_cons] at hx
    rcases hx with rfl | hx
    · exact ⟨rfl, h1⟩
    · rw [(b x hx).1, (b x hx).2, h1]; exact ⟨rfl, rfl⟩

/-- A state interface nobody writes keeps its value, and everybody sees it. -/
theorem replay_keepS (body : Body D) (sw : Bool) (cm : CM) (i : Itf) : ∀ (es tr : List Ev) (v : Vals D),
    (∀ e ∈ es, maySt cm e i = false) →
    (replay body sw cm tr es v).1.st i = v.st i ∧
    ∀ x ∈ (replay body sw cm tr es v).2, x.pre.st i = v.st i ∧ x.post.st i = v.st i := by
  intro es
  induction es with
  | nil => intro tr v _; simp [replay]
  | cons e t ih =>
    intro tr v h
    have h0 := h e (by simp)
    have h1 : (one body sw cm tr e v).st i = v.st i := by simp [one, h0]
    obtain ⟨a, b⟩ := ih (e :: tr) (one body sw cm tr e v) (fun x hx => h x (by simp [hx]))
    refine ⟨by simp only [replay]; rw [a, h1], ?_⟩
    intro x hx
    simp only [replay, List.mem_cons] at hx
    rcases hx with rfl | hx
    · exact ⟨rfl, h1⟩
    · rw [(b x hx).1, (b x hx).2, h1]; exact ⟨rfl, rfl⟩

/-- What comes after an entry starts from the values it left; what came before ended with the values it found. -/
theorem replay_split (body : Body D) (sw : Bool) (cm : CM) : ∀ (L1 : List (Entry D)) (x : Entry D) (L2 : List (Entry D))
    (es tr : List Ev) (v : Vals D), (replay body sw cm tr es v).2 = L1 ++ x :: L2 →
    x.pre = (replay body sw cm tr (L1.map (·.ev)) v).1 ∧
    ∃ tr', L2 = (replay body sw cm tr' (L2.map (·.ev)) x.post).2 ∧
      (replay body sw cm tr es v).1 = (replay body sw cm tr' (L2.map (·.ev)) x.post).1 := by
  intro L1
  induction L1 with
  | nil =>
    intro x L2 es tr v h
    cases es with
    | nil => simp [replay] at h
    | cons e t =>
      simp only [replay, List.nil_append, List.cons.injEq] at h
      obtain ⟨rfl, rfl⟩ := h
      exact ⟨rfl, e :: tr, by rw [replay_ev], by rw [replay_ev]; rfl⟩
  | cons y L1 ih =>
    intro x L2 es tr v h
    cases es with
    | nil => simp [replay] at h
    | cons e t =>
      simp only [replay, List.cons_append, List.cons.injEq] at h
      obtain ⟨rfl, h⟩ := h
      obtain ⟨a, tr', b, c⟩ := ih x L2 t (e :: tr) _ h
      exact ⟨a, tr', b, c⟩

/-- Values of a command interface around an entry of a log. -/
theorem replay_aroundC {body : Body D} {sw : Bool} {cm : CM} {es tr : List Ev} {v : Vals D} {L1 L2 : List (Entry D)}
    {x : Entry D} (h : (replay body sw cm tr es v).2 = L1 ++ x :: L2) (i : Itf) :
    ((∀ y ∈ L1, mayC sw cm y.ev i = false) → x.pre.cmd i = v.cmd i) ∧
    ((∀ y ∈ L2, mayC sw cm y.ev i = false) → (replay body sw cm tr es v).1.cmd i = x.post.cmd i ∧
      ∀ y ∈ L2, y.pre.cmd i = x.post.cmd i ∧ y.post.cmd i = x.post.cmd i) := by
  obtain ⟨a, tr', b, c⟩ := replay_split body sw cm L1 x L2 es tr v h
  refine ⟨fun hk => ?_, fun hk => ?_⟩
  · rw [a]
    refine (replay_keepC body sw cm i _ tr v ?_).1
    intro e he; obtain ⟨y, hy, rfl⟩ := List.mem_map.1 he; exact hk y hy
  · have k := replay_keepC body sw cm i (L2.map (·.ev)) tr' x.post (by
      intro e he; obtain ⟨y, hy, rfl⟩ := List.mem_map.1 he; exact hk y hy)
    exact ⟨by rw [c, k.1], fun y hy => k.2 y (by rw [← b]; exact hy)⟩

/-- Values of a state interface around an entry of a log. -/
theorem replay_aroundS {body : Body D} {sw : Bool} {cm : CM} {es tr : List Ev} {v : Vals D} {L1 L2 : List (Entry D)}
    {x : Entry D} (h : (replay body sw cm tr es v).2 = L1 ++ x :: L2) (i : Itf) :
    ((∀ y ∈ L1, maySt cm y.ev i = false) → x.pre.st i = v.st i) ∧
    ((∀ y ∈ L2, maySt cm y.ev i = false) → (replay body sw cm tr es v).1.st i = x.post.st i ∧
      ∀ y ∈ L2, y.pre.st i = x.post.st i ∧ y.post.st i = x.post.st i) := by
  obtain ⟨a, tr', b, c⟩ := replay_split body sw cm L1 x L2 es tr v h
  refine ⟨fun hk => ?_, fun hk => ?_⟩
  · rw [a]
    refine (replay_keepS body sw cm i _ tr v ?_).1
    intro e he; obtain ⟨y, hy, rfl⟩ := List.mem_map.1 he; exact hk y hy
  · have k := replay_keepS body sw cm i (L2.map (·.ev)) tr' x.post (by
      intro e he; obtain ⟨y, hy, rfl⟩ := List.mem_map.1 he; exact hk y hy)
    exact ⟨by rw [c, k.1], fun y hy => k.2 y (by rw [← b]; exact hy)⟩

/-! ## Who can write what -/

theorem hw_not_ctl {e : Ev} {n : Name} (h : e.hwName = some n) : ctlName e = none := by
  cases e <;> simp [Ev.hwName] at h <;> rfl

theorem ctl_not_hw {e : Ev} {n : Name} (h : ctlName e = some n) : e.hwName = none := by
  cases e <;> simp [ctlName] at h <;> rfl

/-- A hardware command interface is written by no other component. -/
theorem mayC_otherHw {sw : Bool} {cm : CM} (I : cm.rm.Inv) {e : Ev} {n : Name} (he : e.hwName = some n) {h : Hw}
    (hh : h ∈ cm.rm.comps) (hn : h.name ≠ n) {i : Itf} (hi : i ∈ h.cmdItfs) : mayC sw cm e i = false := by
  simp only [mayC, he, hw_not_ctl he, Bool.or_false]
  rw [List.any_eq_false]
  intro x hx
  simp only [Bool.and_eq_true, decide_eq_true_eq, not_and]
  intro h1 h2
  have := I.uniC i (.hw h.name) (.hw x.name) ⟨h, hh, rfl, hi⟩ ⟨x, hx, rfl, h2⟩
  simp at this; exact hn (this.trans h1)

/-- A hardware state interface is written by no other component. -/
theorem maySt_otherHw {cm : CM} (I : cm.rm.Inv) {e : Ev} {n : Name} (he : e.hwName = some n) {h : Hw}
    (hh : h ∈ cm.rm.comps) (hn : h.name ≠ n) {i : Itf} (hi : i ∈ h.stateItfs) : maySt cm e i = false := by
  simp only [maySt, he, hw_not_ctl he, Bool.or_false]
  rw [List.any_eq_false]
  intro x hx
  simp only [Bool.and_eq_true, decide_eq_true_eq, not_and]
  intro h1 h2
  have := I.uniS i (.hw h.name) (.hw x.name) ⟨h, hh, rfl, hi⟩ ⟨x, hx, rfl, h2⟩
  simp at this; exact hn (this.trans h1)

/-- A hardware state interface is written by no controller. -/
theorem maySt_ctl {cm : CM} (I : cm.rm.Inv) {e : Ev} (he : e.hwName = none) {h : Hw}
    (hh : h ∈ cm.rm.comps) {i : Itf} (hi : i ∈ h.stateItfs) : maySt cm e i = false := by
  simp only [maySt, he, Bool.false_or]
  cases hc : ctlName e with
  | none => rfl
  | some c =>
    simp only [decide_eq_false_iff_not]
    intro h2
    cases hx : cm.rm.expS c with
    | none => rw [hx] at h2; simp at h2
    | some l =>
      rw [hx] at h2
      have := I.uniS i (.hw h.name) (.ctl c) ⟨h, hh, rfl, hi⟩ ⟨l, hx, h2⟩
      simp at this

/-- Whoever writes a hardware command interface in the update loop holds it. -/
theorem mayC_update_hw {cm : CM} (I : cm.rm.Inv) {c : Name} {a : IoAns} {h : Hw} (hh : h ∈ cm.rm.comps) {i : Itf}
    (hi : i ∈ h.cmdItfs) (hm : mayC false cm (.ctlUpdate c a) i = true) : ∃ k ∈ cm.ctls, k.name = c ∧ i ∈ k.held := by
  simp only [mayC, Ev.hwName, ctlName, Bool.false_or, Bool.or_eq_true, decide_eq_true_eq, List.any_eq_true,
    Bool.and_eq_true] at hm
  rcases hm with hm | hm
  · simpa using hm
  · exfalso
    cases hx : cm.rm.expR c with
    | none => rw [hx] at hm; simp at hm
    | some l =>
      rw [hx] at hm
      have := I.uniC i (.hw h.name) (.ctl c) ⟨h, hh, rfl, hi⟩ ⟨l, hx, hm⟩
      simp at this

/-- Whoever writes a reference interface in the update loop holds it or is its owner. -/
theorem mayC_update_ref {cm : CM} (I : cm.rm.Inv) {c : Name} {a : IoAns} {d : Name} {l : List Itf} (hd : cm.rm.expR d = some l)
    {i : Itf} (hi : i ∈ l) (hm : mayC false cm (.ctlUpdate c a) i = true) : c = d ∨ ∃ k ∈ cm.ctls, k.name = c ∧ i ∈ k.held := by
  simp only [mayC, Ev.hwName, ctlName, Bool.false_or, Bool.or_eq_true, decide_eq_true_eq, List.any_eq_true,
    Bool.and_eq_true] at hm
  rcases hm with hm | hm
  · exact .inr (by simpa using hm)
  · left
    cases hx : cm.rm.expR c with
    | none => rw [hx] at hm; simp at hm
    | some l' =>
      rw [hx] at hm
      have := I.uniC i (.ctl c) (.ctl d) ⟨l', hx, hm⟩ ⟨l, hd, hi⟩
      simpa using this

/-- What a controller is given when it is activated is among what its configuration can ask for: justifies `asks` in `mayC`. -/
theorem asks_of_resolve {cfg : ItfCfg} {avail : List Itf} {i : Itf} (h : i ∈ cfg.resolve avail) : asks cfg i = true := by
  cases cfg with
  | all => rfl
  | individual l => simpa [ItfCfg.resolve, asks] using h
  | bestEffort l => simp [ItfCfg.resolve] at h; simpa [asks] using h.1
  | regex pats =>
    simp only [ItfCfg.resolve, List.mem_flatMap, List.mem_filter] at h
    obtain ⟨p, hp, _, hi⟩ := h
    simp only [asks, List.any_eq_true]; exact ⟨p, hp, hi⟩
  | none => simp [ItfCfg.resolve] at h

/-- The callback has to do with the command interface `i` of component `h`: it is one of `h`, or one of a controller that holds `i`
or whose configuration can ask for it. -/
def Touches (cm : CM) (h : Name) (i : Itf) (e : Ev) : Prop :=
  e.hwName = some h ∨ ∃ k ∈ cm.ctls, ctlName e = some k.name ∧ (i ∈ k.held ∨ asks k.cfg.cmd i = true)

/-- A callback that has nothing to do with the interface does not write it. -/
theorem mayC_of_not_touches {sw : Bool} {cm : CM} (I : cm.rm.Inv) {h : Hw} (hh : h ∈ cm.rm.comps) {i : Itf}
    (hi : i ∈ h.cmdItfs) {e : Ev} (ht : ¬ Touches cm h.name i e) : mayC sw cm e i = false := by
  by_contra hc
  rw [Bool.not_eq_false] at hc
  simp only [mayC, Bool.or_eq_true] at hc
  rcases hc with hc | hc
  · cases hn : e.hwName with
    | none => rw [hn] at hc; simp at hc
    | some n =>
      by_cases hne : h.name = n
      · exact ht (.inl (by rw [hn, hne]))
      · have := mayC_otherHw (sw := sw) I hn hh hne hi
        simp only [mayC, hc, Bool.true_or] at this
        cases this
  · cases hn : ctlName e with
    | none => rw [hn] at hc; simp at hc
    | some c =>
      rw [hn] at hc
      simp only [Bool.or_eq_true, decide_eq_true_eq, List.any_eq_true, Bool.and_eq_true] at hc
      rcases hc with ⟨k, hk, e1, e2⟩ | hc
      · exact ht (.inr ⟨k, hk, by rw [hn, e1], e2.imp id (·.2)⟩)
      · cases hx : cm.rm.expR c with
        | none => rw [hx] at hc; simp at hc
        | some l =>
          rw [hx] at hc
          have := I.uniC i (.hw h.name) (.ctl c) ⟨h, hh, rfl, hi⟩ ⟨l, hx, hc⟩
          simp at this

/-- An exported state interface is written by its owner only. -/
theorem maySt_update_exp {cm : CM} (I : cm.rm.Inv) {c : Name} {a : IoAns} {d : Name} {l : List Itf} (hd : cm.rm.expS d = some l)
    {i : Itf} (hi : i ∈ l) (hm : maySt cm (.ctlUpdate c a) i = true) : c = d := by
  simp only [maySt, Ev.hwName, ctlName, Bool.false_or, decide_eq_true_eq] at hm
  cases hx : cm.rm.expS c with
  | none => rw [hx] at hm; simp at hm
  | some l' =>
    rw [hx] at hm
    have := I.uniS i (.ctl c) (.ctl d) ⟨l', hx, hm⟩ ⟨l, hd, hi⟩
    simpa using this

/-! ## Which callbacks run -/

/-- The update loop calls `update` of the controllers that run, in the order of the list. -/
theorem updateLoop_events (o : Oracle) (due : Name → Bool) : ∀ (l : List Ctl) (cm : CM) (d : List Name) (r : Ret),
    ∃ es, (CM.updateLoop o due l cm d r).1.rm.tr = es ++ cm.rm.tr ∧
      es.reverse.map ctlName = (l.filter (fun c => cm.runs due c)).map (fun c => some c.name) ∧
      ∀ e ∈ es, ∃ c a, e = Ev.ctlUpdate c a := by
  intro l
  induction l with
  | nil => intro cm d r; exact ⟨[], rfl, rfl, by simp⟩
  | cons c t ih =>
    intro cm d r
    by_cases hr : cm.runs due c = true
    · have key : ∀ d' r', ∃ es, (CM.updateLoop o due t (cm.push (.ctlUpdate c.name (o.ctlUpdate cm.rm.tr c.name))) d' r').1.rm.tr
          = es ++ cm.rm.tr ∧
          es.reverse.map ctlName = ((c :: t).filter (fun c => cm.runs due c)).map (fun c => some c.name) ∧
          ∀ e ∈ es, ∃ c a, e = Ev.ctlUpdate c a := by
        intro d' r'
        obtain ⟨es, h1, h2, h3⟩ := ih (cm.push (.ctlUpdate c.name (o.ctlUpdate cm.rm.tr c.name))) d' r'
        refine ⟨es ++ [.ctlUpdate c.name (o.ctlUpdate cm.rm.tr c.name)], by rw [h1]; simp [CM.push], ?_, ?_⟩
        · rw [List.filter_cons_of_pos (by exact hr)]
          simp only [List.reverse_append, List.reverse_cons, List.reverse_nil, List.nil_append, List.cons_append,
            List.map_cons, ctlName]
          rw [h2]; rfl
        · intro e he
          rcases List.mem_append.1 he with he | he
          · exact h3 e he
          · simp at he; exact ⟨_, _, he⟩
      unfold CM.updateLoop
      rw [if_pos hr]
      simp only
      split
      · exact key _ _
      · exact key _ _
      · exact key _ _
    · unfold CM.updateLoop
      rw [if_neg hr, List.filter_cons_of_neg (by exact hr)]
      exact ih cm d r

/-- The update loop fails nobody if every `update` returned OK. -/
theorem updateLoop_quiet (o : Oracle) (due : Name → Bool) : ∀ (l : List Ctl) (cm : CM) (r : Ret),
    (∀ es, (CM.updateLoop o due l cm [] r).1.rm.tr = es ++ cm.rm.tr → ∀ c a, Ev.ctlUpdate c a ∈ es → a = .ret .ok) →
    (CM.updateLoop o due l cm [] r).2.1 = [] := by
  intro l
  induction l with
  | nil => intro cm r _; rfl
  | cons c t ih =>
    intro cm r h
    by_cases hr : cm.runs due c = true
    · unfold CM.updateLoop at h ⊢
      rw [if_pos hr] at h ⊢
      simp only at h ⊢
      have bad : ∀ d' r' a, o.ctlUpdate cm.rm.tr c.name = a → a ≠ .ret .ok →
          (∀ es, (CM.updateLoop o due t (cm.push (.ctlUpdate c.name a)) d' r').1.rm.tr = es ++ cm.rm.tr →
            ∀ c a, Ev.ctlUpdate c a ∈ es → a = .ret .ok) → False := by
        intro d' r' a _ hne hh
        obtain ⟨es, h1, _, _⟩ := updateLoop_events o due t (cm.push (.ctlUpdate c.name a)) d' r'
        exact hne (hh (es ++ [.ctlUpdate c.name a]) (by rw [h1]; simp [CM.push]) c.name a (by simp))
      split at h
      · rename_i hok
        rw [hok] at h ⊢
        apply ih
        intro es he c' a' hm
        exact h (es ++ [.ctlUpdate c.name (.ret .ok)]) (by rw [he]; simp [CM.push]) c' a' (by simp [hm])
      · rename_i e hne he
        exact (bad _ _ _ rfl (by rw [he]; intro hx; injection hx with hx; exact hne hx) h).elim
      · rename_i he
        exact (bad _ _ _ rfl (by rw [he]; simp) h).elim
    · unfold CM.updateLoop at h ⊢
      rw [if_neg hr] at h ⊢
      exact ih cm r h

end Verif.Flow
