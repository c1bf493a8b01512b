import Verif.CM.Asked
import Verif.Props.C14_C18_Switch
/-!
# C33: fallback controllers are checked before the main controller is started
-/
namespace Verif
open CM

/-- More interfaces are available, the controllers and what they export are the same. -/
structure CM.More (a b : CM) : Prop where
  ctls : b.ctls = a.ctls
  expR : b.rm.expR = a.rm.expR
  expS : b.rm.expS = a.rm.expS
  cmd : a.rm.availC ⊆ b.rm.availC
  st : a.rm.availS ⊆ b.rm.availS

namespace CM

theorem More.refl (a : CM) : More a a := ⟨rfl, rfl, rfl, List.Subset.refl _, List.Subset.refl _⟩
theorem More.trans {a b c : CM} (h : More a b) (k : More b c) : More a c :=
  ⟨k.ctls.trans h.ctls, k.expR.trans h.expR, k.expS.trans h.expS, h.cmd.trans k.cmd, h.st.trans k.st⟩
theorem More.sw (a : CM) (sw : Sw) : More a { a with sw := sw } :=
  ⟨rfl, rfl, rfl, List.Subset.refl _, List.Subset.refl _⟩
theorem Mild.more {a b : CM} (h : Mild a b) : More a b := by
  obtain ⟨_, _, _, _, _, rfl, h1, h2, _⟩ := h
  exact ⟨rfl, rfl, rfl, h2, h1⟩

theorem More.propagate (l : List Ctl) : ∀ cm : CM, More cm (cm.propagate l) := by
  induction l with
  | nil => intro cm; exact .refl _
  | cons c t ih =>
    intro cm
    unfold CM.propagate
    split
    · split
      · exact .refl _
      · exact (More.sw cm _ : More cm (cm.addFromChained c)).trans (ih _)
    · exact ih _

theorem More.deactLoop (s : Strictness) (l : List Name) : ∀ (kept : List Name) (cm : CM),
    More cm (CM.deactLoop s l kept cm).1 := by
  induction l with
  | nil => intro kept cm; exact .refl _
  | cons m t ih =>
    intro kept cm
    unfold CM.deactLoop
    extract_lets ok
    clear_value ok
    split
    · exact ih _ _
    · split
      · exact .refl _
      · exact (More.sw cm _).trans (ih _ _)
      · exact ih _ _

theorem More.conflictLoop (s : Strictness) (l : List Ctl) : ∀ cm : CM, More cm (CM.conflictLoop s l cm).1 := by
  induction l with
  | nil => intro cm; exact .refl _
  | cons c t ih =>
    intro cm
    unfold CM.conflictLoop
    split
    · exact More.sw cm _
    · rename_i cm' h
      refine More.trans ?_ (ih cm')
      unfold CM.conflictOne at h
      extract_lets k restart d1 a1 inD inA ds d2 inD2 da a2 inA2 ill a3 inA3 at h
      clear_value inA3 inD2 ill da ds
      split at h
      · simp at h
      split at h
      · simp at h
      split at h
      · simp at h
      simp only [Option.some.injEq] at h
      rw [← h]
      split
      · obtain ⟨u, e⟩ := RM.cacheController_eq cm.rm k (cm.cmdItfs c ++ cm.stateItfs c)
        constructor <;> simp only <;> rw [e] <;> exact List.Subset.refl _
      · exact More.sw cm _

/-- What stays in the activate request of a STRICT or BEST_EFFORT call passed the checks. -/
theorem actLoop_checked (s : Strictness) (hs : s ≠ .other) (l : List Name) : ∀ (kept : List Name) (x : CM),
    x.sw.act = kept ++ l → (CM.actLoop s l kept x).2 = true →
    More x (CM.actLoop s l kept x).1 ∧
    ∀ n ∈ (CM.actLoop s l kept x).1.sw.act, n ∈ kept ∨
      ∃ y, More x y ∧ (y.checkActivate n).2 = true ∧ More (y.checkActivate n).1 (CM.actLoop s l kept x).1 := by
  induction l with
  | nil => intro kept x hx _; exact ⟨.refl _, fun n hn => .inl (by
    have hn : n ∈ x.sw.act := hn
    simpa [hx] using hn)⟩
  | cons m t ih =>
    intro kept x hx h
    have hm := Mild.checkActivate x m
    unfold CM.actLoop at h ⊢
    extract_lets r at h ⊢
    have hr : Mild x r.1 := hm
    have hq : r = x.checkActivate m := rfl
    clear_value r
    split at h
    · rename_i h1
      rw [if_pos h1]
      obtain ⟨g1, g2⟩ := ih (kept ++ [m]) r.1 (by rw [hr.act, hx]; simp) h
      refine ⟨hr.more.trans g1, fun n hn => ?_⟩
      rcases g2 n hn with g | ⟨y, y1, y2, y3⟩
      · rcases List.mem_append.1 g with g | g
        · exact .inl g
        · simp only [List.mem_singleton] at g
          subst g
          exact .inr ⟨x, .refl _, by rw [← hq]; exact h1, by rw [← hq]; exact g1⟩
      · exact .inr ⟨y, hr.more.trans y1, y2, y3⟩
    · rename_i h1
      rw [if_neg h1]
      cases s with
      | strict => simp at h
      | other => exact absurd rfl hs
      | bestEffort =>
        simp only at h ⊢
        obtain ⟨g1, g2⟩ := ih kept _ (by simp) h
        refine ⟨(hr.more.trans (More.sw r.1 _)).trans g1, fun n hn => ?_⟩
        rcases g2 n hn with g | ⟨y, y1, y2, y3⟩
        · exact .inl g
        · exact .inr ⟨y, (hr.more.trans (More.sw r.1 _)).trans y1, y2, y3⟩

theorem checkActivate_fallbacks (y : CM) (n : Name) (h : (y.checkActivate n).2 = true) :
    ∃ c, y.find n = some c ∧ ∃ z, Mild y z ∧ Mild z (y.checkActivate n).1 ∧ z.FallbacksOk z.rm.availC z.rm.availS c := by
  unfold CM.checkActivate at h ⊢
  split at h
  · simp at h
  rename_i c hc
  refine ⟨c, hc, ?_⟩
  extract_lets r at h ⊢
  have hr : Mild y r.1 := by
    simp only [r]
    split
    · exact .refl _
    · exact .refl _
    · exact Mild.checkFollowing _ y c
    · exact .refl _
  clear_value r
  split at h
  · rename_i h1
    rw [if_pos h1]
    refine ⟨r.1, hr, ?_, checkFallback_ok h⟩
    unfold CM.checkFallback
    split
    · exact .refl _
    · exact .refl _
    · exact Mild.faulted _
  · rename_i h1; exact absurd h h1

theorem More.fallbacksOk {a b : CM} (h : More a b) {c : Ctl} {aC aS : List Itf} (k : b.FallbacksOk aC aS c) :
    a.FallbacksOk aC aS c := FallbacksOk.of_eq h.ctls h.expR h.expS k

theorem More.find {a b : CM} (h : More a b) (n : Name) : b.find n = a.find n := by unfold CM.find; rw [h.ctls]

end CM

/-- An interface is usable for a fallback controller of `c` when `avail` are the available ones and `exp` what each
controller exports: it is available, or it is exported by an inactive controller that is itself a fallback of `c`
(and so will be started with it). -/
def CM.Usable (cm : CM) (c : Ctl) (avail : List Itf) (exp : Name → Option (List Itf)) (i : Itf) : Prop :=
  i ∈ avail ∨ ∃ f, cm.find i.pre = some f ∧ f.lc = .inactive ∧ f.name ∈ c.fallbacks ∧ ∃ l, exp f.name = some l ∧ i ∈ l

/-- What holds for the fallback controllers of `c`, except the interfaces `X`. -/
def CM.FallbacksFit (cm : CM) (c : Ctl) (aC aS : List Itf) (X : Itf → Prop) : Prop :=
  ∀ m ∈ c.fallbacks, ∃ d, cm.find m = some d ∧ (d.lc = .inactive ∨ d.lc = .active) ∧
    (∀ i ∈ d.cfg.cmd.resolve aC, X i ∨ cm.Usable c aC cm.rm.expR i) ∧
    (∀ i ∈ d.cfg.state.resolve aS, X i ∨ cm.Usable c aS cm.rm.expS i)

/-- The interface is named after a loaded controller that is not inactive. -/
def CM.OfBusy (cm : CM) (i : Itf) : Prop := ∃ f, cm.find i.pre = some f ∧ f.lc ≠ .inactive

/-- **C33, full statement** (false, see the witnesses): whenever a request is accepted, every controller in it that
will be started has fallbacks that are loaded, configured, and whose interfaces are all usable. -/
def C33_fallbacks_checked : Prop :=
  ∀ (o : Oracle) (cm : CM) (act deact : List Name) (s : Strictness) (asap : Bool), Reach o cm →
    (cm.switchBegin o act deact s asap).2 = .wait →
    ∀ n ∈ (cm.switchBegin o act deact s asap).1.sw.act, ∀ c, cm.find n = some c → c.lc ≠ .active →
      ∃ aC aS, aC ⊆ (cm.switchBegin o act deact s asap).1.rm.availC ∧ aS ⊆ (cm.switchBegin o act deact s asap).1.rm.availS ∧
        cm.FallbacksFit c aC aS (fun _ => False)

/-- **C33, partial.** For every reachable state and every STRICT or BEST_EFFORT request that is accepted: every
controller in it that is not yet active has fallback controllers that are all loaded and inactive or active; each
interface they ask for is available when the request is accepted, or exported by an inactive controller that is in
the fallback list too, or (`OfBusy`) named after a loaded controller that is not inactive.
Missing: for interfaces of the last kind nothing is checked (`C33_unconfigured_following`,
`C33_not_exported`), and for other values of `strictness` nothing at all (`C33_other_strictness`). -/
theorem C33_fallbacks_checked_partial (o : Oracle) (cm : CM) (act deact : List Name) (s : Strictness) (asap : Bool)
    (hr : Reach o cm) (hs : s ≠ .other) (hw : (cm.switchBegin o act deact s asap).2 = .wait)
    (n : Name) (hn : n ∈ (cm.switchBegin o act deact s asap).1.sw.act) (c : Ctl) (hc : cm.find n = some c)
    (ha : c.lc ≠ .active) :
    ∃ aC aS, cm.rm.availC ⊆ aC ∧ aC ⊆ (cm.switchBegin o act deact s asap).1.rm.availC ∧
      cm.rm.availS ⊆ aS ∧ aS ⊆ (cm.switchBegin o act deact s asap).1.rm.availS ∧
      cm.FallbacksFit c aC aS cm.OfBusy := by
  have I := hr.inv
  clear hr
  unfold CM.switchBegin at hw hn ⊢
  extract_lets _ sw0 at hw hn ⊢
  split at hw
  · simp at hw
  split at hw
  · simp at hw
  rename_i d hd _ a hact
  simp only [hd, hact] at hn ⊢
  obtain ⟨x, hx⟩ : ∃ x : CM, x = { cm with sw := { sw0 with deact := d, act := a } } := ⟨_, rfl⟩
  have hx0 : More cm x := by rw [hx]; exact More.sw cm _
  rw [← hx] at hw hn ⊢
  clear hx
  obtain ⟨_, h | ⟨h1, h2, h | ⟨h3, h | W⟩⟩⟩ := CM.validate_cases o x s asap
  · rw [h.1] at hw; simp at hw
  · rw [h.1] at hw; simp at hw
  · rw [h.1] at hw; simp at hw
  have g1 : More x (x.propagate x.ctls) := More.propagate _ _
  obtain ⟨g2, k2⟩ := actLoop_checked s hs (x.propagate x.ctls).sw.act [] (x.propagate x.ctls) (by simp) h1
  have g3 : More (x.vAct s).1 (x.vDeact s).1 := More.deactLoop s _ _ _
  have g4 : More (x.vDeact s).1 (x.vConf s).1 := More.conflictLoop s _ _
  have e3 : (x.vDeact s).1.sw.act = (x.vAct s).1.sw.act := deactLoop_act s _ _ _
  rw [W.sw] at hn
  obtain ⟨es, W2⟩ := W.rm
  rw [W2]
  rcases conflictLoop_act s _ _ n hn with hn | ⟨e, he, hen, hel⟩
  swap
  · exfalso
    have : e ∈ cm.ctls := by
      rw [g3.ctls, show (x.vAct s).1.ctls = _ from g2.ctls, g1.ctls, hx0.ctls] at he; exact he
    have := (find_iff I.topo.names).2 ⟨this, hen⟩
    rw [hc] at this
    simp only [Option.some.injEq] at this
    subst this
    exact ha hel
  rw [e3] at hn
  rcases k2 n hn with h | ⟨y, y1, y2, y3⟩
  · simp at h
  obtain ⟨c', hc', z, z1, z2, z3⟩ := checkActivate_fallbacks y n y2
  have hy : More cm y := hx0.trans (g1.trans y1)
  have hz : More cm z := hy.trans z1.more
  have hend : More z (x.vConf s).1 := z2.more.trans (y3.trans (g3.trans g4))
  have : c' = c := by
    rw [hy.find, hc] at hc'; simpa using hc'.symm
  subst this
  refine ⟨z.rm.availC, z.rm.availS, hz.cmd, hend.cmd, hz.st, hend.st, ?_⟩
  intro m hm
  obtain ⟨d, hd, hl, f1, f2⟩ := hz.fallbacksOk z3 m hm
  have conv : ∀ av ex i, cm.FallbackItf av ex c' i → cm.OfBusy i ∨ cm.Usable c' av ex i := by
    intro av ex i hi
    rcases hi with hi | ⟨f, hf, hi⟩
    · exact .inr (.inl hi)
    · by_cases hb : f.lc = .inactive
      · exact .inr (.inr ⟨f, hf, hb, hi.resolve_left (fun g => g hb)⟩)
      · exact .inl ⟨f, hf, hb⟩
  exact ⟨d, hd, hl, fun i hi => conv _ _ i (f1 i hi), fun i hi => conv _ _ i (f2 i hi)⟩

/-- A controller 600 for 20/1 with the given fallback list. -/
def load600 (fb : List Name) : List CM.Op :=
  [.load 600 false false (plainCfg [⟨20, 1⟩] []) fb, .configure 600 (plainCfg [⟨20, 1⟩] []) [] true]

/-- Non-vacuity: accepted with the fallbacks 200 and 100 (200 needs the reference of 100), refused if 100 is not
in the list, if a fallback is not configured and if it is not loaded; BEST_EFFORT drops the controller then. -/
example :
    ((demo goodOracle (load600 [200, 100])).switchBegin goodOracle [600] [] .strict true).2 = .wait ∧
    ((demo goodOracle (load600 [200, 100])).switchBegin goodOracle [600] [] .strict true).1.sw.act = [600] ∧
    (demo goodOracle (load600 [200, 100])).lcOf 600 = some .inactive ∧
    ((demo goodOracle (load600 [200])).switchBegin goodOracle [600] [] .strict true).2 = .done .error ∧
    ((demo goodOracle (load600 [200, 100] ++ [.cleanup 200])).switchBegin goodOracle [600] [] .strict true).2 = .done .error ∧
    ((demo goodOracle (load600 [999])).switchBegin goodOracle [600] [] .strict true).2 = .done .error ∧
    ((demo goodOracle (load600 [999])).switchBegin goodOracle [300, 600] [] .bestEffort true).2 = .wait ∧
    ((demo goodOracle (load600 [999])).switchBegin goodOracle [300, 600] [] .bestEffort true).1.sw.act = [300] := by decide

/-- **C33, negation (1).** 100 is unconfigured, so that 100/0 does not exist, and it is not in the fallback list: the
request to start 600 with the fallback 200 (which needs 100/0) is accepted. -/
theorem C33_unconfigured_following :
    let cm := demo goodOracle (load600 [200] ++ [.cleanup 100])
    Reach goodOracle cm ∧ (cm.switchBegin goodOracle [600] [] .strict true).2 = .wait ∧
    cm.lcOf 100 = some .unconfigured ∧ cm.rm.expR 100 = none ∧
    ⟨100, 0⟩ ∉ (cm.switchBegin goodOracle [600] [] .strict true).1.rm.availC ∧
    (cm.find 200).map (·.cfg.cmd.resolve cm.rm.availC) = some [⟨100, 0⟩] := ⟨demo_reach _ _, by decide⟩

/-- **C33, negation (2).** 300 runs, is not chainable and exports nothing: a fallback 700 that needs 300/5 is accepted. -/
theorem C33_not_exported :
    let cm := demo goodOracle ([.load 700 false false (plainCfg [⟨300, 5⟩] []) [],
      .configure 700 (plainCfg [⟨300, 5⟩] []) [] true] ++ load600 [700] ++ switchOps [300] [] .strict)
    Reach goodOracle cm ∧ (cm.switchBegin goodOracle [600] [] .strict true).2 = .wait ∧
    (cm.find 300).map (·.chainable) = some false ∧
    ⟨300, 5⟩ ∉ (cm.switchBegin goodOracle [600] [] .strict true).1.rm.availC := ⟨demo_reach _ _, by decide⟩

/-- **C33, negation (3).** With another value of `strictness` a failed check has no consequence: 600 is started although its fallback
is not loaded. -/
theorem C33_other_strictness :
    let cm := demo goodOracle (load600 [999])
    Reach goodOracle cm ∧ (cm.switchBegin goodOracle [600] [] .other true).2 = .wait ∧
    (demo goodOracle (load600 [999] ++ switchOps [600] [] .other)).lcOf 600 = some .active ∧
    cm.lcOf 999 = none := ⟨demo_reach _ _, by decide⟩

theorem C33_full_false : ¬ C33_fallbacks_checked := by
  intro h
  obtain ⟨h1, h2, _, h4⟩ := C33_other_strictness
  have hn : 600 ∈ ((demo goodOracle (load600 [999])).switchBegin goodOracle [600] [] .other true).1.sw.act := by decide
  have hf : (demo goodOracle (load600 [999])).find 600 ≠ none := by decide
  obtain ⟨c, hc⟩ := Option.ne_none_iff_exists'.1 hf
  have hfb : ((demo goodOracle (load600 [999])).find 600).map (·.fallbacks) = some [999] := by decide
  have hlc : ((demo goodOracle (load600 [999])).find 600).map (·.lc) = some .inactive := by decide
  rw [hc] at hfb hlc
  simp only [Option.map_some, Option.some.injEq] at hfb hlc
  obtain ⟨aC, aS, _, _, k⟩ := h goodOracle _ [600] [] .other true h1 h2 600 hn c hc (by rw [hlc]; simp)
  obtain ⟨d, hd, _⟩ := k 999 (by rw [hfb]; simp)
  unfold CM.lcOf at h4
  rw [hd] at h4
  simp at h4

end Verif
