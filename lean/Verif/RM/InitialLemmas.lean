import Verif.RM.Initial
import Verif.Props.C03_C05_Resource
/-! Helper lemmas for the bring-up: what happens to one component. -/
namespace Verif
namespace RM

/-- The interactions with one component. -/
def own (n : Name) (es : List Ev) : List Ev := es.filter (fun e => e.hwName = some n)

@[simp] theorem own_append (n : Name) (a b : List Ev) : own n (a ++ b) = own n a ++ own n b := by simp [own]

/-- From `rm` to `rm'`, component `n` goes from state `a` to state `b`; `L` is what it was asked and answered (newest first). -/
structure Eff (n : Name) (rm rm' : RM) (a b : LState) (L : List Ev) : Prop where
  before : rm.stateOf n = some a
  after : rm'.stateOf n = some b
  trace : ∃ es, rm'.tr = es ++ rm.tr ∧ own n es = L

theorem Eff.refl {n : Name} {rm : RM} {a : LState} (h : rm.stateOf n = some a) : Eff n rm rm a a [] :=
  ⟨h, h, [], rfl, rfl⟩

theorem Eff.trans {n : Name} {rm rm' rm'' : RM} {a b c : LState} {L L' : List Ev} (h : Eff n rm rm' a b L)
    (h' : Eff n rm' rm'' b c L') : Eff n rm rm'' a c (L' ++ L) := by
  obtain ⟨es, e1, e2⟩ := h.trace
  obtain ⟨fs, f1, f2⟩ := h'.trace
  exact ⟨h.before, h'.after, fs ++ es, by rw [f1, e1, List.append_assoc], by rw [own_append, e2, f2]⟩

theorem find_setHw (rm rm' : RM) (h' : Hw) (he : rm'.comps = (rm.setHw h').comps) (n : Name) :
    rm'.findHw n = (rm.findHw n).map (fun h => if h'.name = n then h' else h) := by
  unfold findHw
  rw [he]
  unfold setHw
  dsimp only
  generalize rm.comps = l
  induction l with
  | nil => rfl
  | cons c l ih =>
    simp only [List.map_cons, List.find?_cons]
    by_cases hc : c.name = h'.name
    · simp only [hc, if_true]
      by_cases hn : h'.name = n
      · simp [hn]
      · simp only [hn, decide_false]
        rw [ih]; simp [hn]
    · simp only [hc, if_false]
      by_cases hn : c.name = n
      · have : h'.name ≠ n := fun h => hc (by rw [hn, h])
        simp [hn, this]
      · simp only [hn, decide_false]
        rw [ih]

/-- A component is not concerned by the commands for others. -/
theorem set_other (o : Oracle) {rm : RM} (I : rm.Inv) (n m : Name) (t : LState) (hnm : m ≠ n) {a : LState}
    (hm : rm.stateOf m = some a) : Eff m rm (rm.setComponentState o n t).1 a a [] := by
  unfold setComponentState
  cases hf : rm.findHw n with
  | none => exact Eff.refl hm
  | some h =>
    obtain ⟨hh, hn⟩ := findHw_some hf
    have F := (setHwState_ok o I hh t).frame
    have hname : (rm.setHwState o h t).2.1.name = n := by rw [F.good.name, hn]
    dsimp only
    refine ⟨hm, ?_, ?_⟩
    · unfold stateOf at hm ⊢
      rw [find_setHw rm _ _ F.comps m, ← hm]
      cases rm.findHw m with
      | none => rfl
      | some c => rw [Option.map_some, if_neg (by rw [hname]; exact fun h => hnm h.symm)]
    · obtain ⟨es, e1, e2⟩ := F.good.ext
      refine ⟨es, e1, ?_⟩
      unfold own
      rw [List.filter_eq_nil_iff]
      intro e he
      rw [e2 e he, hn]
      simp only [Option.some.injEq, decide_eq_true_eq]
      exact fun h => hnm h.symm

/-- How a command to a component in a known state ends. -/
theorem set_self (o : Oracle) {rm : RM} (I : rm.Inv) (n : Name) (t : LState) {h : Hw} (hf : rm.findHw n = some h)
    {es : List Ev} (he : (rm.setHwState o h t).1.tr = es ++ rm.tr) (hes : ∀ e ∈ es, e.hwName = some n) :
    Eff n rm (rm.setComponentState o n t).1 h.lc (rm.setHwState o h t).2.1.lc es ∧
    (rm.setComponentState o n t).2 = (if (rm.setHwState o h t).2.2 then .ok else .error) := by
  obtain ⟨hh, hn⟩ := findHw_some hf
  have F := (setHwState_ok o I hh t).frame
  have hname : (rm.setHwState o h t).2.1.name = n := by rw [F.good.name, hn]
  unfold setComponentState
  simp only [hf]
  refine ⟨⟨by simp [stateOf, hf], ?_, es, he, ?_⟩, trivial⟩
  · unfold stateOf
    rw [find_setHw rm _ _ F.comps n, hf, Option.map_some, if_pos hname, Option.map_some]
  · unfold own
    rw [List.filter_eq_self]
    intro e h; simp [hes e h]

theorem set_unconf_unconf (o : Oracle) {rm : RM} (I : rm.Inv) (n : Name) (hs : rm.stateOf n = some .unconfigured) :
    Eff n rm (rm.setComponentState o n .unconfigured).1 .unconfigured .unconfigured [] ∧
    (rm.setComponentState o n .unconfigured).2 = .ok := by
  obtain ⟨h, hf, hl⟩ := Option.map_eq_some_iff.1 hs
  have hset : rm.setHwState o h .unconfigured = (rm, h, true) := by unfold setHwState; rw [hl]
  have := set_self o I n .unconfigured hf (es := []) (by rw [hset]; rfl) (by simp)
  rw [hset] at this
  rw [hl] at this
  exact this

theorem set_unconf_inactive (o : Oracle) {rm : RM} (I : rm.Inv) (n : Name) (hs : rm.stateOf n = some .unconfigured) :
    ∃ a, Eff n rm (rm.setComponentState o n .inactive).1 .unconfigured (if a = .success then .inactive else .unconfigured)
      [.hwCb n .configure a] ∧
    (rm.setComponentState o n .inactive).2 = (if a = .success then .ok else .error) := by
  obtain ⟨h, hf, hl⟩ := Option.map_eq_some_iff.1 hs
  obtain ⟨hh, hn⟩ := findHw_some hf
  refine ⟨o.hwCb rm.tr h.name .configure, ?_⟩
  have hset : rm.setHwState o h .inactive = rm.configureHw o h := by unfold setHwState; rw [hl]
  have hc : h.configure o rm.tr =
      ({ h with lc := if o.hwCb rm.tr h.name .configure = .success then .inactive else .unconfigured },
        .hwCb n .configure (o.hwCb rm.tr h.name .configure) :: rm.tr) := by
    unfold Hw.configure
    rw [if_pos hl]
    cases h; simp only at hl hn; subst hl; subst hn
    cases o.hwCb rm.tr _ HwCb.configure <;> simp [Hw.error]
  have := set_self o I n .inactive hf (es := [.hwCb n .configure (o.hwCb rm.tr h.name .configure)])
    (by rw [hset]; simp only [configureHw, hc]; split <;> simp) (by simp [Ev.hwName])
  rw [hset, hl] at this
  simp only [configureHw, hc] at this
  refine ⟨this.1, this.2.trans ?_⟩
  cases o.hwCb rm.tr h.name .configure <;> simp

theorem set_inactive_active (o : Oracle) {rm : RM} (I : rm.Inv) (n : Name) (hs : rm.stateOf n = some .inactive) :
    ∃ b L, Eff n rm (rm.setComponentState o n .active).1 .inactive b L ∧
    (((rm.setComponentState o n .active).2 = .ok ∧ b = .active ∧ L = [.hwCb n .activate .success]) ∨
     ((rm.setComponentState o n .active).2 = .error ∧ b ≠ .active ∧ ∃ a post, a ≠ .success ∧ L = post ++ [.hwCb n .activate a])) := by
  obtain ⟨h, hf, hl⟩ := Option.map_eq_some_iff.1 hs
  obtain ⟨hh, hn⟩ := findHw_some hf
  have hset : rm.setHwState o h .active = rm.activateHw o h := by unfold setHwState; rw [hl]
  obtain ⟨es, e1, e2⟩ : ∃ es, (h.activate o rm.tr).2 = es ++ rm.tr ∧ ((h.activate o rm.tr).1.lc = .active ∧
      es = [.hwCb n .activate .success] ∨ (h.activate o rm.tr).1.lc ≠ .active ∧
      (∀ e ∈ es, e.hwName = some n) ∧ ∃ a post, a ≠ .success ∧ es = post ++ [.hwCb n .activate a]) := by
    unfold Hw.activate
    rw [if_pos hl]
    cases ha : o.hwCb rm.tr h.name .activate with
    | success => exact ⟨[.hwCb n .activate .success], by simp [hn], .inl ⟨rfl, rfl⟩⟩
    | failure => exact ⟨[.hwCb n .activate .failure], by simp [hn], .inr ⟨by simp, by simp [Ev.hwName], .failure, [], by simp, rfl⟩⟩
    | throws => exact ⟨[.hwCb n .activate .throws], by simp [hn], .inr ⟨by simp [hl], by simp [Ev.hwName], .throws, [], by simp, rfl⟩⟩
    | error =>
      dsimp only
      unfold Hw.error
      rw [if_pos (by rw [hl]; simp)]
      cases o.hwErr (Ev.hwCb h.name .activate .error :: rm.tr) h.name with
      | success => exact ⟨[.hwErr n .success, .hwCb n .activate .error], by simp [hn], .inr ⟨by simp, by simp [Ev.hwName], .error, [_], by simp, rfl⟩⟩
      | failure => exact ⟨[.hwErr n .failure, .hwCb n .activate .error], by simp [hn], .inr ⟨by simp, by simp [Ev.hwName], .error, [_], by simp, rfl⟩⟩
      | error => exact ⟨[.hwErr n .error, .hwCb n .activate .error], by simp [hn], .inr ⟨by simp, by simp [Ev.hwName], .error, [_], by simp, rfl⟩⟩
  have hev : ∀ e ∈ es, e.hwName = some n := by
    rcases e2 with ⟨-, rfl⟩ | ⟨-, h, -⟩
    · simp [Ev.hwName]
    · exact h
  have := set_self o I n .active hf (es := es) (by rw [hset]; exact e1) hev
  rw [hset, hl] at this
  simp only [activateHw] at this
  refine ⟨_, _, this.1, ?_⟩
  rcases e2 with ⟨x, y⟩ | ⟨x, -, y⟩
  · exact .inl ⟨by rw [this.2]; simp [x], x, y⟩
  · exact .inr ⟨by rw [this.2]; simp [x], x, y⟩

theorem set_active_inactive (o : Oracle) {rm : RM} (I : rm.Inv) (n : Name) (hs : rm.stateOf n = some .active) :
    ∃ b L, Eff n rm (rm.setComponentState o n .inactive).1 .active b L ∧
    ((b = .inactive ∧ L = [.hwCb n .deactivate .success]) ∨ (∃ a post, a ≠ .success ∧ L = post ++ [.hwCb n .deactivate a])) := by
  obtain ⟨h, hf, hl⟩ := Option.map_eq_some_iff.1 hs
  obtain ⟨hh, hn⟩ := findHw_some hf
  have hset : rm.setHwState o h .inactive = rm.deactivateHw o h := by unfold setHwState; rw [hl]
  obtain ⟨es, e1, e2⟩ : ∃ es, (h.deactivate o rm.tr).2 = es ++ rm.tr ∧ ((h.deactivate o rm.tr).1.lc = .inactive ∧
      es = [.hwCb n .deactivate .success] ∨
      (∀ e ∈ es, e.hwName = some n) ∧ ∃ a post, a ≠ .success ∧ es = post ++ [.hwCb n .deactivate a]) := by
    unfold Hw.deactivate
    rw [if_pos hl]
    cases ha : o.hwCb rm.tr h.name .deactivate with
    | success => exact ⟨[.hwCb n .deactivate .success], by simp [hn], .inl ⟨rfl, rfl⟩⟩
    | failure => exact ⟨[.hwCb n .deactivate .failure], by simp [hn], .inr ⟨by simp [Ev.hwName], .failure, [], by simp, rfl⟩⟩
    | throws => exact ⟨[.hwCb n .deactivate .throws], by simp [hn], .inr ⟨by simp [Ev.hwName], .throws, [], by simp, rfl⟩⟩
    | error =>
      dsimp only
      unfold Hw.error
      rw [if_pos (by rw [hl]; simp)]
      cases o.hwErr (Ev.hwCb h.name .deactivate .error :: rm.tr) h.name with
      | success => exact ⟨[.hwErr n .success, .hwCb n .deactivate .error], by simp [hn], .inr ⟨by simp [Ev.hwName], .error, [_], by simp, rfl⟩⟩
      | failure => exact ⟨[.hwErr n .failure, .hwCb n .deactivate .error], by simp [hn], .inr ⟨by simp [Ev.hwName], .error, [_], by simp, rfl⟩⟩
      | error => exact ⟨[.hwErr n .error, .hwCb n .deactivate .error], by simp [hn], .inr ⟨by simp [Ev.hwName], .error, [_], by simp, rfl⟩⟩
  have hev : ∀ e ∈ es, e.hwName = some n := by
    rcases e2 with ⟨-, rfl⟩ | ⟨h, -⟩
    · simp [Ev.hwName]
    · exact h
  have := set_self o I n .inactive hf (es := es) (by rw [hset]; exact e1) hev
  rw [hset, hl] at this
  simp only [deactivateHw] at this
  refine ⟨_, _, this.1, ?_⟩
  rcases e2 with ⟨x, y⟩ | ⟨-, y⟩
  · exact .inl ⟨x, y⟩
  · exact .inr y

theorem set_ret (o : Oracle) (rm : RM) (n : Name) (t : LState) :
    (rm.setComponentState o n t).2 = .ok ∨ (rm.setComponentState o n t).2 = .error := by
  unfold setComponentState
  split
  · exact .inr rfl
  · dsimp only; split
    · exact .inl rfl
    · exact .inr rfl

theorem set_unconf_active_eq (o : Oracle) {rm : RM} (n : Name) (hs : rm.stateOf n = some .unconfigured) :
    rm.setComponentState o n .active =
      (if (rm.setComponentState o n .inactive).2 = .ok then (rm.setComponentState o n .inactive).1.setComponentState o n .active
       else rm.setComponentState o n .inactive) := by
  obtain ⟨h, hf, hl⟩ := Option.map_eq_some_iff.1 hs
  obtain ⟨hh, hn⟩ := findHw_some hf
  have F := frame_configure o rm h
  have hname : (rm.configureHw o h).2.1.name = n := by rw [F.good.name, hn]
  have h1 : rm.setHwState o h .inactive = rm.configureHw o h := by unfold setHwState; rw [hl]
  have h2 : rm.setHwState o h .active = andThen (rm.configureHw o h) (activateHw o) := by unfold setHwState; rw [hl]
  have h3 : (rm.configureHw o h).1.findHw n = some (rm.configureHw o h).2.1 := by
    rw [find_setHw rm _ _ F.comps n, hf, Option.map_some, if_pos hname]
  have e1 : rm.setComponentState o n .inactive =
      ((rm.configureHw o h).1, if (rm.configureHw o h).2.2 then .ok else .error) := by
    unfold setComponentState; rw [hf]; dsimp only; rw [h1]
  have e2 : rm.setComponentState o n .active = ((andThen (rm.configureHw o h) (activateHw o)).1,
      if (andThen (rm.configureHw o h) (activateHw o)).2.2 then .ok else .error) := by
    unfold setComponentState; rw [hf]; dsimp only; rw [h2]
  rw [e1, e2]
  unfold andThen
  cases hb : (rm.configureHw o h).2.2 with
  | false => simp [hb]
  | true =>
    simp only [if_true]
    have hlc : (rm.configureHw o h).2.1.lc = .inactive := by simpa [configureHw] using hb
    have h4 : (rm.configureHw o h).1.setHwState o (rm.configureHw o h).2.1 .active =
        (rm.configureHw o h).1.activateHw o (rm.configureHw o h).2.1 := by unfold setHwState; rw [hlc]
    unfold setComponentState
    rw [h3]
    dsimp only
    rw [h4]

theorem set_unconf_active (o : Oracle) {rm : RM} (I : rm.Inv) (n : Name) (hs : rm.stateOf n = some .unconfigured) :
    ∃ b L, Eff n rm (rm.setComponentState o n .active).1 .unconfigured b L ∧
    (((rm.setComponentState o n .active).2 = .ok ∧ b = .active ∧ L = [.hwCb n .activate .success, .hwCb n .configure .success]) ∨
     ((rm.setComponentState o n .active).2 = .error ∧ b ≠ .active ∧ ((∃ a, a ≠ .success ∧ L = [.hwCb n .configure a]) ∨
       ∃ a post, a ≠ .success ∧ L = post ++ [.hwCb n .activate a, .hwCb n .configure .success]))) := by
  rw [set_unconf_active_eq o n hs]
  obtain ⟨a, ha, hr⟩ := set_unconf_inactive o I n hs
  by_cases hsucc : a = .success
  · subst hsucc
    rw [if_pos rfl] at ha hr
    rw [if_pos hr]
    obtain ⟨b, L, hE, hc⟩ := set_inactive_active o (inv_setComponentState o I n .inactive) n ha.after
    refine ⟨b, L ++ _, ha.trans hE, ?_⟩
    rcases hc with ⟨x, y, z⟩ | ⟨x, y, a, post, z, w⟩
    · exact .inl ⟨x, y, by rw [z]; rfl⟩
    · exact .inr ⟨x, y, .inr ⟨a, post, z, by rw [w]; simp⟩⟩
  · rw [if_neg hsucc] at ha hr
    rw [if_neg (by rw [hr]; simp)]
    exact ⟨_, _, ha, .inr ⟨hr, by simp, .inl ⟨a, hsucc, rfl⟩⟩⟩

/-! ## Loops -/

/-- Commands to bring components to state `t`, one after the other, with their results. -/
inductive Visits (o : Oracle) (t : LState) : List (Name × Ret) → RM → RM → Prop
  | nil (rm : RM) : Visits o t [] rm rm
  | cons {rm rm' : RM} {n : Name} {vs : List (Name × Ret)} (h : Visits o t vs (rm.setComponentState o n t).1 rm') :
      Visits o t ((n, (rm.setComponentState o n t).2) :: vs) rm rm'

theorem Visits.inv {o : Oracle} {t : LState} {vs : List (Name × Ret)} {rm rm' : RM} (h : Visits o t vs rm rm') (I : rm.Inv) :
    rm'.Inv := by
  induction h with
  | nil => exact I
  | cons h ih => exact ih (inv_setComponentState o I _ _)

theorem Visits.other {o : Oracle} {t : LState} {vs : List (Name × Ret)} {rm rm' : RM} (h : Visits o t vs rm rm') (I : rm.Inv)
    {m : Name} (hm : m ∉ vs.map (·.1)) {a : LState} (ha : rm.stateOf m = some a) : Eff m rm rm' a a [] := by
  induction h with
  | nil => exact Eff.refl ha
  | @cons rm rm' n vs h ih =>
    simp only [List.map_cons, List.mem_cons, not_or] at hm
    have h1 := set_other o I n m t hm.1 ha
    have h2 := ih (inv_setComponentState o I _ _) hm.2 h1.after
    exact h1.trans h2

theorem Visits.self {o : Oracle} {t : LState} {vs : List (Name × Ret)} {rm rm' : RM} (h : Visits o t vs rm rm') (I : rm.Inv)
    (hn : (vs.map (·.1)).Nodup) {m : Name} {r : Ret} (hm : (m, r) ∈ vs) {a : LState} (ha : rm.stateOf m = some a)
    {Q : LState → List Ev → Ret → Prop}
    (hQ : ∀ rm : RM, rm.Inv → rm.stateOf m = some a →
      ∃ b L, Eff m rm (rm.setComponentState o m t).1 a b L ∧ Q b L (rm.setComponentState o m t).2) :
    ∃ b L, Eff m rm rm' a b L ∧ Q b L r := by
  induction h with
  | nil => cases hm
  | @cons rm rm' n vs h ih =>
    simp only [List.map_cons, List.nodup_cons] at hn
    rcases List.mem_cons.1 hm with he | hm
    · obtain ⟨rfl, rfl⟩ := Prod.mk.inj he
      obtain ⟨b, L, hE, hq⟩ := hQ rm I ha
      have := h.other (inv_setComponentState o I _ _) hn.1 hE.after
      exact ⟨b, [] ++ L, hE.trans this, hq⟩
    · have hne : m ≠ n := fun he => hn.1 (he ▸ List.mem_map.2 ⟨(m, r), hm, rfl⟩)
      have h1 := set_other o I n m t hne ha
      obtain ⟨b, L, hE, hq⟩ := ih (inv_setComponentState o I _ _) hn.2 hm h1.after
      exact ⟨b, L ++ [], h1.trans hE, by simpa using hq⟩

theorem initAll_visits (o : Oracle) (t : LState) (ns : List Name) (rm : RM) :
    ∃ vs, Visits o t vs rm (initAll o t ns rm).1 ∧
    ((initAll o t ns rm).2.2 = true → (initAll o t ns rm).2.1 = ns ∧ vs = ns.map (fun n => (n, Ret.ok))) ∧
    ((initAll o t ns rm).2.2 = false → ∃ k rest, ns = (initAll o t ns rm).2.1 ++ k :: rest ∧
      vs = (initAll o t ns rm).2.1.map (fun n => (n, Ret.ok)) ++ [(k, Ret.error)]) := by
  induction ns generalizing rm with
  | nil => exact ⟨[], .nil _, fun _ => ⟨rfl, rfl⟩, fun h => by cases h⟩
  | cons n ns ih =>
    unfold initAll
    dsimp only
    rcases set_ret o rm n t with hr | hr
    · rw [if_neg (by rw [hr]; simp)]
      obtain ⟨vs, hv, h1, h2⟩ := ih (rm.setComponentState o n t).1
      refine ⟨_, .cons hv, ?_, ?_⟩
      · intro h
        obtain ⟨a, b⟩ := h1 h
        exact ⟨by rw [a], by rw [b, hr]; rfl⟩
      · intro h
        obtain ⟨k, rest, a, b⟩ := h2 h
        refine ⟨k, rest, by rw [List.cons_append, ← a], by rw [b, hr]; rfl⟩
    · rw [if_pos hr]
      refine ⟨_, .cons (.nil _), fun h => (by cases h), fun _ => ⟨n, ns, rfl, by rw [hr]; rfl⟩⟩

theorem initRollback_visits (o : Oracle) (ns : List Name) (rm : RM) :
    ∃ vs, Visits o .inactive vs rm (initRollback o ns rm) ∧ vs.map (·.1) = ns := by
  induction ns generalizing rm with
  | nil => exact ⟨[], .nil _, rfl⟩
  | cons n ns ih =>
    obtain ⟨vs, hv, h1⟩ := ih (rm.setComponentState o n .inactive).1
    exact ⟨_, .cons hv, by simp [h1]⟩

theorem initSingles_visits (o : Oracle) (strict : Bool) (ns : List Name) (rm : RM) :
    ∃ vs, Visits o .active vs rm (initSingles o strict ns rm).1 ∧ vs.map (·.1) <+: ns ∧
    ((initSingles o strict ns rm).2 = false → vs.map (·.1) = ns ∧ (strict = true → ∀ v ∈ vs, v.2 = .ok)) ∧
    ((initSingles o strict ns rm).2 = true → strict = true ∧ ∃ k, (k, Ret.error) ∈ vs) := by
  induction ns generalizing rm with
  | nil => exact ⟨[], .nil _, by simp, fun _ => ⟨rfl, by simp⟩, fun h => by cases h⟩
  | cons n ns ih =>
    unfold initSingles
    dsimp only
    by_cases hr : (rm.setComponentState o n .active).2 = .error ∧ strict = true
    · rw [if_pos hr]
      refine ⟨_, .cons (.nil _), by simp, fun h => (by cases h), fun _ => ⟨hr.2, n, by rw [hr.1]; simp⟩⟩
    · rw [if_neg hr]
      obtain ⟨vs, hv, h1, h2, h3⟩ := ih (rm.setComponentState o n .active).1
      refine ⟨_, .cons hv, by simpa using h1, ?_, ?_⟩
      · intro h
        obtain ⟨a, b⟩ := h2 h
        refine ⟨by simp [a], ?_⟩
        intro hs v hv
        rcases List.mem_cons.1 hv with rfl | hv
        · rcases set_ret o rm n .active with h | h
          · exact h
          · exact absurd ⟨h, hs⟩ hr
        · exact b hs v hv
      · intro h
        obtain ⟨a, k, hk⟩ := h3 h
        exact ⟨a, k, by simp [hk]⟩

theorem initListed_visits (o : Oracle) (strict : Bool) (t : LState) (ns : List Name) (rm : RM) (rest : List Name) :
    ∃ vs, Visits o t vs rm (initListed o strict t ns rm rest).1 ∧ (vs.map (·.1)).Nodup ∧
    (∀ m ∈ vs.map (·.1), m ∈ ns ∧ m ∈ rest) ∧
    ((initListed o strict t ns rm rest).2.2 = false →
      (initListed o strict t ns rm rest).2.1 = rest.filter (fun m => m ∉ ns) ∧
      (∀ m, m ∈ ns → m ∈ rest → m ∈ vs.map (·.1)) ∧ (strict = true → ∀ v ∈ vs, v.2 = .ok)) ∧
    ((initListed o strict t ns rm rest).2.2 = true → strict = true ∧ ∃ k, (k, Ret.error) ∈ vs) := by
  induction ns generalizing rm rest with
  | nil => exact ⟨[], .nil _, by simp, by simp, fun _ => ⟨by simp [initListed], by simp, by simp⟩, fun h => by cases h⟩
  | cons n ns ih =>
    unfold initListed
    by_cases hn : n ∈ rest
    · rw [if_pos hn]
      dsimp only
      by_cases hr : (rm.setComponentState o n t).2 = .error ∧ strict = true
      · rw [if_pos hr]
        refine ⟨_, .cons (.nil _), by simp, by simp [hn], fun h => (by cases h), fun _ => ⟨hr.2, n, by rw [hr.1]; simp⟩⟩
      · rw [if_neg hr]
        obtain ⟨vs, hv, h0, h1, h2, h3⟩ := ih (rm.setComponentState o n t).1 (rest.filter (· ≠ n))
        refine ⟨_, .cons hv, ?_, ?_, ?_, ?_⟩
        · rw [List.map_cons, List.nodup_cons]
          refine ⟨?_, h0⟩
          intro hm
          have := (h1 n hm).2
          simp at this
        · intro m hm
          rcases List.mem_cons.1 hm with rfl | hm
          · exact ⟨by simp, hn⟩
          · obtain ⟨a, b⟩ := h1 m hm
            exact ⟨by simp [a], (List.mem_filter.1 b).1⟩
        · intro h
          obtain ⟨a, b, c⟩ := h2 h
          refine ⟨?_, ?_, ?_⟩
          · rw [a, List.filter_filter]
            apply List.filter_congr
            intro m _
            simp only [ne_eq, List.mem_cons, not_or, Bool.decide_and]
            rw [Bool.and_comm]
          · intro m hm hm'
            rw [List.map_cons]
            by_cases he : m = n
            · simp [he]
            · rcases List.mem_cons.1 hm with h | h
              · exact absurd h he
              · exact List.mem_cons.2 (.inr (b m h (List.mem_filter.2 ⟨hm', by simp [he]⟩)))
          · intro hs v hv
            rcases List.mem_cons.1 hv with rfl | hv
            · rcases set_ret o rm n t with h | h
              · exact h
              · exact absurd ⟨h, hs⟩ hr
            · exact c hs v hv
        · intro h
          obtain ⟨a, k, hk⟩ := h3 h
          exact ⟨a, k, by simp [hk]⟩
    · rw [if_neg hn]
      obtain ⟨vs, hv, h0, h1, h2, h3⟩ := ih rm rest
      refine ⟨vs, hv, h0, fun m hm => ⟨by simp [(h1 m hm).1], (h1 m hm).2⟩, ?_, h3⟩
      intro h
      obtain ⟨a, b, c⟩ := h2 h
      refine ⟨?_, ?_, c⟩
      · rw [a]
        apply List.filter_congr
        intro m hm
        have : m ≠ n := fun h => hn (h ▸ hm)
        simp [this]
      · intro m hm hm'
        rcases List.mem_cons.1 hm with rfl | h
        · exact absurd hm' hn
        · exact b m h hm'

/-- The outcome of configuring. -/
def QConf (m : Name) (b : LState) (L : List Ev) (r : Ret) : Prop :=
  (r = .ok ∧ b = .inactive ∧ L = [.hwCb m .configure .success]) ∨
  (r = .error ∧ b = .unconfigured ∧ ∃ a, a ≠ .success ∧ L = [.hwCb m .configure a])

/-- The outcome of activating. -/
def QAct (m : Name) (b : LState) (L : List Ev) (r : Ret) : Prop :=
  (r = .ok ∧ b = .active ∧ L = [.hwCb m .activate .success]) ∨
  (r = .error ∧ b ≠ .active ∧ ∃ a post, a ≠ .success ∧ L = post ++ [.hwCb m .activate a])

/-- A component was asked to configure or activate and did not succeed. -/
def Failed (n : Name) (rm rm' : RM) : Prop :=
  ∃ a b L ans cb, Eff n rm rm' a b L ∧ (cb = .configure ∨ cb = .activate) ∧ ans ≠ .success ∧ Ev.hwCb n cb ans ∈ L

theorem Failed.then {n : Name} {rm rm' rm'' : RM} (h : Failed n rm rm')
    (h' : ∀ a, rm'.stateOf n = some a → Eff n rm' rm'' a a []) : Failed n rm rm'' := by
  obtain ⟨a, b, L, ans, cb, hE, h1, h2, h3⟩ := h
  exact ⟨a, b, [] ++ L, ans, cb, hE.trans (h' _ hE.after), h1, h2, by simpa using h3⟩

theorem Failed.after {n : Name} {rm rm' rm'' : RM} {a : LState} (h' : Eff n rm rm' a a []) (h : Failed n rm' rm'') : Failed n rm rm'' := by
  obtain ⟨a, b, L, ans, cb, hE, h1, h2, h3⟩ := h
  have := h'.after.symm.trans hE.before
  cases this
  exact ⟨_, b, L ++ [], ans, cb, h'.trans hE, h1, h2, by simpa using h3⟩

theorem initGroup_spec (o : Oracle) (strict : Bool) (ns : List Name) {rm : RM} (I : rm.Inv) (hnd : ns.Nodup)
    (hu : ∀ n ∈ ns, rm.stateOf n = some .unconfigured) :
    (initGroup o strict ns rm).1.Inv ∧
    (∀ m a, m ∉ ns → rm.stateOf m = some a → Eff m rm (initGroup o strict ns rm).1 a a []) ∧
    ((initGroup o strict ns rm).2 = true → strict = true ∧ ∃ n ∈ ns, Failed n rm (initGroup o strict ns rm).1) ∧
    ((initGroup o strict ns rm).2 = false →
      (∀ n ∈ ns, Eff n rm (initGroup o strict ns rm).1 .unconfigured .active [.hwCb n .activate .success, .hwCb n .configure .success]) ∨
      (strict = false ∧ (∃ n ∈ ns, Failed n rm (initGroup o strict ns rm).1) ∧
        ∀ n ∈ ns, ∃ b L, Eff n rm (initGroup o strict ns rm).1 .unconfigured b L ∧
          (b = .active → ∃ a, a ≠ .success ∧ Ev.hwCb n .deactivate a ∈ L))) ∧
    ∀ n ∈ ns, ∃ b L, Eff n rm (initGroup o strict ns rm).1 .unconfigured b L := by
  have hmapfst : ∀ (l : List Name) (r : Ret), (l.map (fun n => (n, r))).map (·.1) = l := by
    intro l r; rw [List.map_map]; simp [Function.comp_def]
  unfold initGroup
  dsimp only
  obtain ⟨vs1, hv1, hok1, hbad1⟩ := initAll_visits o .inactive ns rm
  generalize initAll o .inactive ns rm = c at hv1 hok1 hbad1 ⊢
  obtain ⟨rm1, done1, ok1⟩ := c
  dsimp only at hv1 hok1 hbad1 ⊢
  have I1 := hv1.inv I
  have Q1 : ∀ m (rm : RM), rm.Inv → rm.stateOf m = some .unconfigured → ∃ b L,
      Eff m rm (rm.setComponentState o m .inactive).1 .unconfigured b L ∧
      QConf m b L (rm.setComponentState o m .inactive).2 := by
    intro m rm I h
    obtain ⟨a, hE, hr⟩ := set_unconf_inactive o I m h
    refine ⟨_, _, hE, ?_⟩
    by_cases ha : a = .success
    · subst ha; exact .inl ⟨hr, rfl, rfl⟩
    · rw [if_neg ha] at hr; exact .inr ⟨hr, by rw [if_neg ha], a, ha, rfl⟩
  cases ok1 with
  | false =>
    simp only [if_true]
    obtain ⟨k, rest, hns, hvs⟩ := hbad1 rfl
    have hfst : vs1.map (·.1) = done1 ++ [k] := by rw [hvs, List.map_append, hmapfst]; rfl
    have hnd1 : (vs1.map (·.1)).Nodup := by
      rw [hfst]
      have : (done1 ++ [k]) ++ rest = ns := by rw [hns]; simp
      rw [← this] at hnd
      exact hnd.of_append_left
    have hsub : ∀ m ∈ vs1.map (·.1), m ∈ ns := by
      intro m hm; rw [hfst] at hm; rw [hns]
      rcases List.mem_append.1 hm with h | h
      · exact List.mem_append_left _ h
      · rw [List.mem_singleton.1 h]; simp
    have hall : ∀ n ∈ ns, ∃ b L, Eff n rm rm1 .unconfigured b L ∧ b ≠ .active := by
      intro n hn
      by_cases hm : n ∈ vs1.map (·.1)
      · obtain ⟨⟨n', r⟩, hv, rfl⟩ := List.mem_map.1 hm
        obtain ⟨b, L, hE, h⟩ := hv1.self I hnd1 hv (hu _ hn) (Q1 _)
        refine ⟨b, L, hE, ?_⟩
        rcases h with ⟨-, rfl, -⟩ | ⟨-, rfl, -⟩ <;> simp
      · exact ⟨_, _, hv1.other I hm (hu n hn), by simp⟩
    have hk : k ∈ ns := by rw [hns]; simp
    have hf : Failed k rm rm1 := by
      obtain ⟨b, L, hE, h⟩ := hv1.self I hnd1 (m := k) (r := .error) (by rw [hvs]; simp) (hu k hk) (Q1 _)
      rcases h with ⟨h, -⟩ | ⟨-, -, a, ha, hL⟩
      · cases h
      · exact ⟨_, b, L, a, .configure, hE, .inl rfl, ha, by rw [hL]; simp⟩
    refine ⟨I1, fun m a hm ha => hv1.other I (fun h => hm (hsub m h)) ha, fun h => ⟨h, k, hk, hf⟩, ?_, ?_⟩
    · intro h
      refine .inr ⟨h, ⟨k, hk, hf⟩, ?_⟩
      intro n hn
      obtain ⟨b, L, hE, hb⟩ := hall n hn
      exact ⟨b, L, hE, fun h => absurd h hb⟩
    · intro n hn
      obtain ⟨b, L, hE, -⟩ := hall n hn
      exact ⟨b, L, hE⟩
  | true =>
    simp only [Bool.true_eq_false, if_false]
    obtain ⟨rfl, hvs⟩ := hok1 rfl
    have hfst : vs1.map (·.1) = done1 := by rw [hvs, hmapfst]
    have hall1 : ∀ n ∈ done1, Eff n rm rm1 .unconfigured .inactive [.hwCb n .configure .success] := by
      intro n hn
      obtain ⟨b, L, hE, h⟩ := hv1.self I (by rw [hfst]; exact hnd) (m := n) (r := .ok)
        (by rw [hvs]; exact List.mem_map.2 ⟨n, hn, rfl⟩) (hu n hn) (Q1 _)
      rcases h with ⟨-, rfl, rfl⟩ | ⟨h, -⟩
      · exact hE
      · cases h
    have hoth1 : ∀ m a, m ∉ done1 → rm.stateOf m = some a → Eff m rm rm1 a a [] :=
      fun m a hm ha => hv1.other I (by rw [hfst]; exact hm) ha
    obtain ⟨vs2, hv2, hok2, hbad2⟩ := initAll_visits o .active done1 rm1
    generalize initAll o .active done1 rm1 = c at hv2 hok2 hbad2 ⊢
    obtain ⟨rm2, done2, ok2⟩ := c
    dsimp only at hv2 hok2 hbad2 ⊢
    have I2 := hv2.inv I1
    have Q2 : ∀ m (rm : RM), rm.Inv → rm.stateOf m = some .inactive → ∃ b L,
        Eff m rm (rm.setComponentState o m .active).1 .inactive b L ∧
        QAct m b L (rm.setComponentState o m .active).2 := by
      intro m rm I h
      obtain ⟨b, L, hE, h⟩ := set_inactive_active o I m h
      exact ⟨b, L, hE, h⟩
    cases ok2 with
    | true =>
      simp only [Bool.true_eq_false, if_false]
      obtain ⟨rfl, hvs2⟩ := hok2 rfl
      have hfst2 : vs2.map (·.1) = done2 := by rw [hvs2, hmapfst]
      have hall2 : ∀ n ∈ done2, Eff n rm rm2 .unconfigured .active [.hwCb n .activate .success, .hwCb n .configure .success] := by
        intro n hn
        obtain ⟨b, L, hE, h⟩ := hv2.self I1 (by rw [hfst2]; exact hnd) (m := n) (r := .ok)
          (by rw [hvs2]; exact List.mem_map.2 ⟨n, hn, rfl⟩) (hall1 n hn).after (Q2 _)
        rcases h with ⟨-, rfl, rfl⟩ | ⟨h, -⟩
        · exact (hall1 n hn).trans hE
        · cases h
      refine ⟨I2, ?_, by simp, fun _ => .inl hall2, fun n hn => ⟨_, _, hall2 n hn⟩⟩
      intro m a hm ha
      have h1 := hoth1 m a hm ha
      exact h1.trans (hv2.other I1 (by rw [hfst2]; exact hm) h1.after)
    | false =>
      simp only [if_true]
      obtain ⟨k, rest, hns, hvs2⟩ := hbad2 rfl
      have hfst2 : vs2.map (·.1) = done2 ++ [k] := by rw [hvs2, List.map_append, hmapfst]; rfl
      have hsplit : (done2 ++ [k]) ++ rest = done1 := by rw [hns]; simp
      have hnd2 : (vs2.map (·.1)).Nodup := by
        rw [hfst2]
        have h := hnd
        rw [← hsplit] at h
        exact h.of_append_left
      have hndd : done2.Nodup := by rw [hfst2] at hnd2; exact hnd2.of_append_left
      have hkd : k ∉ done2 := by
        rw [hfst2, List.nodup_append] at hnd2
        intro h; exact hnd2.2.2 k h k (by simp) rfl
      have hsub : ∀ m ∈ vs2.map (·.1), m ∈ done1 := by
        intro m hm; rw [hfst2] at hm; rw [← hsplit]; exact List.mem_append_left _ hm
      have hd2 : ∀ n ∈ done2, n ∈ done1 := fun n hn => by rw [hns]; exact List.mem_append_left _ hn
      have hact : ∀ n ∈ done2, Eff n rm rm2 .unconfigured .active [.hwCb n .activate .success, .hwCb n .configure .success] := by
        intro n hn
        obtain ⟨b, L, hE, h⟩ := hv2.self I1 hnd2 (m := n) (r := .ok)
          (by rw [hvs2]; exact List.mem_append_left _ (List.mem_map.2 ⟨n, hn, rfl⟩)) (hall1 n (hd2 n hn)).after (Q2 _)
        rcases h with ⟨-, rfl, rfl⟩ | ⟨h, -⟩
        · exact (hall1 n (hd2 n hn)).trans hE
        · cases h
      have hk : k ∈ done1 := by rw [hns]; simp
      obtain ⟨bk, Lk, hEk, hkb, ak, postk, hak, hLk⟩ : ∃ b L, Eff k rm rm2 .unconfigured b L ∧ b ≠ .active ∧
          ∃ a post, a ≠ CbAns.success ∧ L = post ++ [.hwCb k .activate a, .hwCb k .configure .success] := by
        obtain ⟨b, L, hE, h⟩ := hv2.self I1 hnd2 (m := k) (r := .error) (by rw [hvs2]; simp) (hall1 k hk).after (Q2 _)
        rcases h with ⟨h, -⟩ | ⟨-, hb, a, post, ha, hL⟩
        · cases h
        · exact ⟨b, L ++ _, (hall1 k hk).trans hE, hb, a, post, ha, by rw [hL]; simp⟩
      have hfk : Failed k rm rm2 := ⟨_, bk, Lk, ak, .activate, hEk, .inr rfl, hak, by rw [hLk]; simp⟩
      have hrest : ∀ n ∈ done1, n ∉ done2 → n ≠ k → Eff n rm rm2 .unconfigured .inactive ([] ++ [.hwCb n .configure .success]) := by
        intro n hn h1 h2
        exact (hall1 n hn).trans (hv2.other I1 (by rw [hfst2]; simp [h1, h2]) (hall1 n hn).after)
      have hoth2 : ∀ m a, m ∉ done1 → rm.stateOf m = some a → Eff m rm rm2 a a [] := by
        intro m a hm ha
        have h1 := hoth1 m a hm ha
        exact h1.trans (hv2.other I1 (fun h => hm (hsub m h)) h1.after)
      cases strict with
      | true =>
        refine ⟨I2, hoth2, fun _ => ⟨rfl, k, hk, hfk⟩, by simp, ?_⟩
        intro n hn
        by_cases h1 : n ∈ done2
        · exact ⟨_, _, hact n h1⟩
        · by_cases h2 : n = k
          · subst h2; exact ⟨_, _, hEk⟩
          · exact ⟨_, _, hrest n hn h1 h2⟩
      | false =>
        simp only [Bool.false_eq_true, if_false]
        obtain ⟨vs3, hv3, hfst3⟩ := initRollback_visits o done2 rm2
        have hother3 : ∀ m a, m ∉ done2 → rm2.stateOf m = some a → Eff m rm2 (initRollback o done2 rm2) a a [] :=
          fun m a hm ha => hv3.other I2 (by rw [hfst3]; exact hm) ha
        have hall3 : ∀ n ∈ done1, ∃ b L, Eff n rm (initRollback o done2 rm2) .unconfigured b L ∧
            (b = .active → ∃ a, a ≠ .success ∧ Ev.hwCb n .deactivate a ∈ L) := by
          intro n hn
          by_cases h1 : n ∈ done2
          · obtain ⟨⟨n', r⟩, hv, rfl⟩ : ∃ v ∈ vs3, v.1 = n := by
              rw [← hfst3] at h1; exact List.mem_map.1 h1
            obtain ⟨b, L, hE, h⟩ := hv3.self I2 (by rw [hfst3]; exact hndd) hv (hact _ h1).after
              (Q := fun b L _ => (b = .inactive ∧ L = [.hwCb n' .deactivate .success]) ∨
                (∃ a post, a ≠ .success ∧ L = post ++ [.hwCb n' .deactivate a]))
              (fun rm I h => set_active_inactive o I n' h)
            refine ⟨b, _, (hact _ h1).trans hE, ?_⟩
            intro hb
            rcases h with ⟨rfl, -⟩ | ⟨a, post, ha, hL⟩
            · cases hb
            · exact ⟨a, ha, by rw [hL]; simp⟩
          · by_cases h2 : n = k
            · subst h2
              exact ⟨bk, _, hEk.trans (hother3 _ _ h1 hEk.after), fun h => absurd h hkb⟩
            · have h := hrest n hn h1 h2
              exact ⟨_, _, h.trans (hother3 _ _ h1 h.after), fun h => by cases h⟩
        refine ⟨hv3.inv I2, ?_, by simp, fun _ => .inr ⟨trivial, ⟨k, hk, hfk.then (fun a ha => hother3 k a hkd ha)⟩, hall3⟩, ?_⟩
        · intro m a hm ha
          have h := hoth2 m a hm ha
          exact h.trans (hother3 m a (fun h => hm (hd2 m h)) h.after)
        · intro n hn
          obtain ⟨b, L, h, -⟩ := hall3 n hn
          exact ⟨b, L, h⟩

/-- How the bring-up of a group ends. -/
def GroupDone (ns : List Name) (rm rm' : RM) (strict : Bool) : Prop :=
  (∀ n ∈ ns, Eff n rm rm' .unconfigured .active [.hwCb n .activate .success, .hwCb n .configure .success]) ∨
  (strict = false ∧ (∃ n ∈ ns, Failed n rm rm') ∧ ∀ n ∈ ns, ∃ b L, Eff n rm rm' .unconfigured b L ∧
    (b = .active → ∃ a, a ≠ .success ∧ Ev.hwCb n .deactivate a ∈ L))

theorem GroupDone.then {ns : List Name} {rm rm' rm'' : RM} {strict : Bool} (h : GroupDone ns rm rm' strict)
    (h' : ∀ n ∈ ns, ∀ a, rm'.stateOf n = some a → Eff n rm' rm'' a a []) : GroupDone ns rm rm'' strict := by
  rcases h with h | ⟨h1, ⟨n, hn, h2⟩, h3⟩
  · exact .inl fun n hn => (h n hn).trans (h' n hn _ (h n hn).after)
  · refine .inr ⟨h1, ⟨n, hn, h2.then (h' n hn)⟩, ?_⟩
    intro n hn
    obtain ⟨b, L, hE, hb⟩ := h3 n hn
    exact ⟨b, [] ++ L, hE.trans (h' n hn _ hE.after), by simpa using hb⟩

theorem GroupDone.after {ns : List Name} {rm rm' rm'' : RM} {strict : Bool}
    (h' : ∀ n ∈ ns, Eff n rm rm' .unconfigured .unconfigured []) (h : GroupDone ns rm' rm'' strict) : GroupDone ns rm rm'' strict := by
  rcases h with h | ⟨h1, ⟨n, hn, h2⟩, h3⟩
  · exact .inl fun n hn => (h' n hn).trans (h n hn)
  · refine .inr ⟨h1, ⟨n, hn, h2.after (h' n hn)⟩, ?_⟩
    intro n hn
    obtain ⟨b, L, hE, hb⟩ := h3 n hn
    exact ⟨b, L ++ [], (h' n hn).trans hE, by simpa using hb⟩

theorem initGroups_spec (o : Oracle) (strict : Bool) (members : Name → List Name) (gs : List Name) {rm : RM} (I : rm.Inv)
    (hg : gs.Nodup) (hnd : ∀ g, (members g).Nodup) (hdis : ∀ g g' n, n ∈ members g → n ∈ members g' → g = g')
    (hu : ∀ g ∈ gs, ∀ n ∈ members g, rm.stateOf n = some .unconfigured) :
    (initGroups o strict members gs rm).1.Inv ∧
    (∀ m a, (∀ g ∈ gs, m ∉ members g) → rm.stateOf m = some a → Eff m rm (initGroups o strict members gs rm).1 a a []) ∧
    ((initGroups o strict members gs rm).2 = true →
      strict = true ∧ ∃ g ∈ gs, ∃ n ∈ members g, Failed n rm (initGroups o strict members gs rm).1) ∧
    ((initGroups o strict members gs rm).2 = false →
      ∀ g ∈ gs, GroupDone (members g) rm (initGroups o strict members gs rm).1 strict) ∧
    ∀ g ∈ gs, ∀ n ∈ members g, ∃ b L, Eff n rm (initGroups o strict members gs rm).1 .unconfigured b L := by
  induction gs generalizing rm with
  | nil => exact ⟨I, fun m a _ h => Eff.refl h, fun h => (by cases h), by simp, by simp⟩
  | cons g gs ih =>
    rw [List.nodup_cons] at hg
    obtain ⟨I1, h1, h2, h3, h4⟩ := initGroup_spec o strict (members g) I (hnd g) (hu g (by simp))
    unfold initGroups
    dsimp only
    generalize hq : initGroup o strict (members g) rm = q at I1 h1 h2 h3 h4 ⊢
    obtain ⟨rm1, thrown⟩ := q
    dsimp only at I1 h1 h2 h3 h4 ⊢
    have hne : ∀ g' ∈ gs, ∀ n ∈ members g', n ∉ members g := by
      intro g' hg' n hn hn'
      exact hg.1 (hdis _ _ _ hn hn' ▸ hg')
    cases thrown with
    | true =>
      simp only [if_true]
      refine ⟨I1, fun m a hm ha => h1 m a (hm g (by simp)) ha, fun _ => ?_, by simp, ?_⟩
      · obtain ⟨a, n, hn, hf⟩ := h2 rfl
        exact ⟨a, g, by simp, n, hn, hf⟩
      · intro g' hg' n hn
        rcases List.mem_cons.1 hg' with rfl | hg'
        · exact h4 n hn
        · exact ⟨_, _, h1 n _ (hne g' hg' n hn) (hu g' (by simp [hg']) n hn)⟩
    | false =>
      simp only [Bool.false_eq_true, if_false]
      have hu1 : ∀ g' ∈ gs, ∀ n ∈ members g', Eff n rm rm1 .unconfigured .unconfigured [] := fun g' hg' n hn =>
        h1 n _ (hne g' hg' n hn) (hu g' (by simp [hg']) n hn)
      obtain ⟨I2, k1, k2, k3, k4⟩ := ih I1 hg.2 (fun g' hg' n hn => (hu1 g' hg' n hn).after)
      have hg1 : ∀ n ∈ members g, ∀ g' ∈ gs, n ∉ members g' := fun n hn g' hg' hn' => hne g' hg' n hn' hn
      refine ⟨I2, ?_, ?_, ?_, ?_⟩
      · intro m a hm ha
        have := h1 m a (hm g (by simp)) ha
        exact this.trans (k1 m a (fun g' hg' => hm g' (by simp [hg'])) this.after)
      · intro h
        obtain ⟨a, g', hg', n, hn, hf⟩ := k2 h
        exact ⟨a, g', by simp [hg'], n, hn, hf.after (hu1 g' hg' n hn)⟩
      · intro h g' hg'
        rcases List.mem_cons.1 hg' with rfl | hg'
        · exact GroupDone.then (h3 rfl) (fun n hn a ha => k1 n a (hg1 n hn) ha)
        · exact GroupDone.after (hu1 g' hg') (k3 h g' hg')
      · intro g' hg' n hn
        rcases List.mem_cons.1 hg' with rfl | hg'
        · obtain ⟨b, L, hE⟩ := h4 n hn
          exact ⟨b, _, hE.trans (k1 n b (hg1 n hn) hE.after)⟩
        · obtain ⟨b, L, hE⟩ := k4 g' hg' n hn
          exact ⟨b, _, (hu1 g' hg' n hn).trans hE⟩

end RM
end Verif
