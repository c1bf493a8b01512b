import Verif.Boot.Model
import Verif.CM.ShutdownHw
/-!
# Lemmas about the start
-/
namespace Verif

/-- What holds of every resource manager that `set_component_state` can make holds after the bring-up. -/
theorem RM.bringUp_ind (o : Oracle) (P : RM → Prop) (hset : ∀ (rm : RM) n t, P rm → P (rm.setComponentState o n t).1)
    (cfg : RM.InitCfg) (ord gord : List Name) (rm : RM) (hr : P rm) : P (RM.bringUp o cfg ord gord rm).1 := by
  have hL : ∀ s t l (rm : RM) rest, P rm → P (RM.initListed o s t l rm rest).1 := by
    intro s t l
    induction l with
    | nil => intro rm rest h; exact h
    | cons n l ih =>
      intro rm rest h
      unfold RM.initListed
      split
      · dsimp only; split
        · exact hset _ _ _ h
        · exact ih _ _ (hset _ _ _ h)
      · exact ih _ _ h
  have hA : ∀ t l (rm : RM), P rm → P (RM.initAll o t l rm).1 := by
    intro t l
    induction l with
    | nil => intro rm h; exact h
    | cons n l ih =>
      intro rm h
      unfold RM.initAll
      dsimp only; split
      · exact hset _ _ _ h
      · exact ih _ (hset _ _ _ h)
  have hR : ∀ l (rm : RM), P rm → P (RM.initRollback o l rm) := by
    intro l
    induction l with
    | nil => intro rm h; exact h
    | cons n l ih => intro rm h; exact ih _ (hset _ _ _ h)
  have hG : ∀ s l (rm : RM), P rm → P (RM.initGroup o s l rm).1 := by
    intro s l rm h
    unfold RM.initGroup
    dsimp only
    split
    · exact hA _ _ _ h
    · split
      · split
        · exact hA _ _ _ (hA _ _ _ h)
        · exact hR _ _ (hA _ _ _ (hA _ _ _ h))
      · exact hA _ _ _ (hA _ _ _ h)
  have hGs : ∀ s m l (rm : RM), P rm → P (RM.initGroups o s m l rm).1 := by
    intro s m l
    induction l with
    | nil => intro rm h; exact h
    | cons n l ih =>
      intro rm h
      unfold RM.initGroups
      dsimp only; split
      · exact hG _ _ _ h
      · exact ih _ (hG _ _ _ h)
  have hS : ∀ s l (rm : RM), P rm → P (RM.initSingles o s l rm).1 := by
    intro s l
    induction l with
    | nil => intro rm h; exact h
    | cons n l ih =>
      intro rm h
      unfold RM.initSingles
      dsimp only; split
      · exact hset _ _ _ h
      · exact ih _ (hset _ _ _ h)
  unfold RM.bringUp
  dsimp only
  split
  · exact hL _ _ _ _ _ hr
  split
  · exact hL _ _ _ _ _ (hL _ _ _ _ _ hr)
  split
  · exact hGs _ _ _ _ (hL _ _ _ _ _ (hL _ _ _ _ _ hr))
  · exact hS _ _ _ (hGs _ _ _ _ (hL _ _ _ _ _ (hL _ _ _ _ _ hr)))

/-- Why a component cannot be loaded: its name is taken, its plugin does not exist, or `on_init` was not successful. -/
def RM.LoadFails (o : Oracle) (rm : RM) (s : RM.HwSpec) : Prop :=
  s.name ∈ rm.comps.map (·.name) ∨ s.loads = false ∨ o.hwCb rm.tr s.name .init ≠ .success

theorem RM.addStateItfs_comps (is : List Itf) (rm : RM) : (rm.addStateItfs is).1.comps = rm.comps := by
  induction is generalizing rm with
  | nil => rfl
  | cons i is ih => unfold RM.addStateItfs; split <;> simp [ih]

theorem RM.addCmdItfs_comps (is : List Itf) (rm : RM) : (rm.addCmdItfs is).1.comps = rm.comps := by
  induction is generalizing rm with
  | nil => rfl
  | cons i is ih =>
    unfold RM.addCmdItfs
    split
    · rfl
    · dsimp only; split <;> simp_all

/-- Loading one component: it is added at the end, or there is a reason. -/
theorem RM.loadOne_cases (o : Oracle) (rm : RM) (s : RM.HwSpec) :
    ((rm.loadOne o s).2 = true ∧ ¬ rm.LoadFails o s ∧
      ∃ h, (rm.loadOne o s).1.comps = rm.comps ++ [h] ∧ h.name = s.name ∧ h.kind = s.kind ∧ h.group = s.group) ∨
    ((rm.loadOne o s).2 = false ∧ rm.LoadFails o s) := by
  unfold RM.loadOne
  split
  · rename_i h
    right
    refine ⟨rfl, .inl ?_⟩
    obtain ⟨c, hc, e⟩ := List.any_eq_true.1 h
    exact List.mem_map.2 ⟨c, hc, by simpa using e⟩
  rename_i hn
  split
  · rename_i h; exact .inr ⟨rfl, .inr (.inl h)⟩
  rename_i hl
  have hn' : s.name ∉ rm.comps.map (·.name) := by
    intro hx
    obtain ⟨c, hc, e⟩ := List.mem_map.1 hx
    exact hn (List.any_eq_true.2 ⟨c, hc, by simpa using e⟩)
  dsimp only
  have hini : (Hw.init o rm.tr { name := s.name, kind := s.kind, group := s.group, stateItfs := [], cmdItfs := [], lc := .unknown }).1.lc = .unconfigured ↔
      o.hwCb rm.tr s.name .init = .success := by
    unfold Hw.init
    cases h : o.hwCb rm.tr s.name .init <;> simp
  have hinin : ∀ x : Hw, (Hw.init o rm.tr x).1.name = x.name ∧ (Hw.init o rm.tr x).1.kind = x.kind ∧ (Hw.init o rm.tr x).1.group = x.group := by
    intro x
    unfold Hw.init
    split <;> (try split) <;> exact ⟨rfl, rfl, rfl⟩
  split
  · rename_i hl2
    have hf : ¬ rm.LoadFails o s := by
      rintro (h | h | h)
      · exact hn' h
      · exact hl h
      · exact h (hini.1 hl2)
    left
    split
    · refine ⟨rfl, hf, _, by rw [RM.addStateItfs_comps], hinin _⟩
    · split
      · rename_i rm2 names he
        have := congrArg (fun q : RM × Option (List Itf) => q.1.comps) he
        rw [RM.addCmdItfs_comps, RM.addStateItfs_comps] at this
        dsimp only at this
        refine ⟨rfl, hf, _, by rw [← this], hinin _⟩
      · rename_i rm2 he
        have := congrArg (fun q : RM × Option (List Itf) => q.1.comps) he
        rw [RM.addCmdItfs_comps, RM.addStateItfs_comps] at this
        dsimp only at this
        refine ⟨rfl, hf, _, by rw [← this], hinin _⟩
  · rename_i hl2
    exact .inr ⟨rfl, .inr (.inr (fun h => hl2 (hini.2 h)))⟩

/-- The loop over the components of a description. -/
abbrev RM.loadLoop (o : Oracle) (rm : RM) (l : List RM.HwSpec) : RM × Bool :=
  l.foldl (fun (acc : RM × Bool) s => if acc.2 then acc.1.loadOne o s else acc) (rm, true)

theorem RM.loadLoop_stop (o : Oracle) (l : List RM.HwSpec) (rm : RM) :
    l.foldl (fun (acc : RM × Bool) s => if acc.2 then acc.1.loadOne o s else acc) (rm, false) = (rm, false) := by
  induction l with
  | nil => rfl
  | cons s t ih => rw [List.foldl_cons]; exact ih

theorem RM.loadLoop_cons (o : Oracle) (rm : RM) (s : RM.HwSpec) (t : List RM.HwSpec) :
    RM.loadLoop o rm (s :: t) = if (rm.loadOne o s).2 then RM.loadLoop o (rm.loadOne o s).1 t else rm.loadOne o s := by
  unfold RM.loadLoop
  rw [List.foldl_cons]
  simp only [if_true]
  split
  · rename_i h
    have : rm.loadOne o s = ((rm.loadOne o s).1, true) := Prod.ext rfl h
    rw [this]
  · rename_i h
    have : rm.loadOne o s = ((rm.loadOne o s).1, false) := Prod.ext rfl (by simpa using h)
    rw [this]
    exact RM.loadLoop_stop o t _

/-- What a component is in the description. -/
def RM.HwSpec.sig (s : RM.HwSpec) : Name × HwKind × Option Name := (s.name, s.kind, s.group)

/-- What a component is. -/
def Hw.sig (h : Hw) : Name × HwKind × Option Name := (h.name, h.kind, h.group)

theorem RM.loadLoop_ok (o : Oracle) (l : List RM.HwSpec) (rm : RM) (h : (RM.loadLoop o rm l).2 = true) :
    (RM.loadLoop o rm l).1.comps.map Hw.sig = rm.comps.map Hw.sig ++ l.map RM.HwSpec.sig ∧ ∀ s ∈ l, s.loads = true := by
  induction l generalizing rm with
  | nil => simp [RM.loadLoop]
  | cons s t ih =>
    rw [RM.loadLoop_cons] at h ⊢
    rcases RM.loadOne_cases o rm s with ⟨h1, h2, c, h3, h4, h5, h6⟩ | ⟨h1, h2⟩
    · rw [if_pos h1] at h ⊢
      obtain ⟨k1, k2⟩ := ih _ h
      refine ⟨?_, ?_⟩
      · rw [k1, h3]
        simp [Hw.sig, RM.HwSpec.sig, h4, h5, h6]
      · intro x hx
        rcases List.mem_cons.1 hx with rfl | hx
        · cases hl : x.loads with
          | true => rfl
          | false => exact absurd (.inr (.inl hl)) h2
        · exact k2 x hx
    · rw [if_neg (by simp [h1])] at h
      rw [h1] at h
      cases h

theorem RM.loadLoop_fails (o : Oracle) (l : List RM.HwSpec) (rm : RM) (h : (RM.loadLoop o rm l).2 = false) :
    ∃ pre s post, l = pre ++ s :: post ∧ (RM.loadLoop o rm pre).2 = true ∧ (RM.loadLoop o rm pre).1.LoadFails o s := by
  induction l generalizing rm with
  | nil => simp [RM.loadLoop] at h
  | cons s t ih =>
    rw [RM.loadLoop_cons] at h
    rcases RM.loadOne_cases o rm s with ⟨h1, -⟩ | ⟨h1, h2⟩
    · rw [if_pos h1] at h
      obtain ⟨pre, x, post, e, k1, k2⟩ := ih _ h
      refine ⟨s :: pre, x, post, by rw [e]; rfl, ?_, ?_⟩ <;> rw [RM.loadLoop_cons, if_pos h1]
      · exact k1
      · exact k2
    · exact ⟨[], s, t, rfl, rfl, h2⟩

/-- An interface the description declares is missing. -/
def RM.Missing (rm : RM) (specs : List RM.HwSpec) : Prop :=
  ∃ s ∈ specs, (∃ i ∈ s.declS, i ∉ rm.stateKeys) ∨ ∃ i ∈ s.declC, i ∉ rm.cmdKeys

theorem RM.loadAll_true (o : Oracle) (rm : RM) (specs : List RM.HwSpec) (h : (rm.loadAll o specs).2 = true) :
    rm.loadAll o specs = RM.loadLoop o rm specs ∧ (RM.loadLoop o rm specs).2 = true ∧ ¬ (RM.loadLoop o rm specs).1.Missing specs := by
  unfold RM.loadAll at h ⊢
  dsimp only at h ⊢
  split at h
  · rename_i hc
    rw [if_pos hc]
    refine ⟨rfl, hc.1, ?_⟩
    rintro ⟨s, hs, ⟨i, hi, hk⟩ | ⟨i, hi, hk⟩⟩
    · exact hk ((hc.2 s hs).1 i hi)
    · exact hk ((hc.2 s hs).2 i hi)
  · cases h

theorem RM.loadAll_false (o : Oracle) (rm : RM) (specs : List RM.HwSpec) (h : (rm.loadAll o specs).2 = false) :
    (RM.loadLoop o rm specs).2 = false ∨ (RM.loadLoop o rm specs).1.Missing specs := by
  unfold RM.loadAll at h
  dsimp only at h
  split at h
  · rename_i hc
    rw [hc.1] at h; cases h
  · rename_i hc
    by_contra hx
    simp only [not_or] at hx
    apply hc
    refine ⟨by simpa using hx.1, fun s hs => ⟨fun i hi => ?_, fun i hi => ?_⟩⟩
    · by_contra hk; exact hx.2 ⟨s, hs, .inl ⟨i, hi, hk⟩⟩
    · by_contra hk; exact hx.2 ⟨s, hs, .inr ⟨i, hi, hk⟩⟩

end Verif

namespace Verif.Boot
open Verif

theorem loadDesc_handled (o : Oracle) (rm : RM) (specs : List RM.HwSpec) : loadDesc true o rm specs = rm.loadAll o specs := by
  unfold loadDesc
  dsimp only
  split
  · rfl
  · simp

/-- Without controllers and hardware the real-time loop and the shutdown do nothing. -/
theorem quiet (o : Oracle) (a b : Bool) (x : CM.Op) (h : free x = true) :
    (CM.init (RM.empty a b)).step o x = CM.init (RM.empty a b) := by
  cases x <;> simp [free] at h
  · rfl
  · rename_i due lock
    cases lock <;> rfl
  · rfl
  · rfl

/-- The parameters of the resource manager object `g`. -/
def params (cfg : Cfg) (g : Nat) : Bool × Bool := if g = 0 then (cfg.allowInactive, cfg.reportDeactivated) else (false, true)

/-- The manager that waits for a description. -/
def blank (cfg : Cfg) (g : Nat) : CM := CM.init (RM.empty (params cfg g).1 (params cfg g).2)

/-- Waiting for a description. -/
structure Waits (cfg : Cfg) (s : St) : Prop where
  cm : s.cm = blank cfg s.gen
  lim : s.lim = []
  services : s.services = false
  alive : s.dead = false

/-- The description `d` is in use. -/
structure Uses (os : Nat → Oracle) (cfg : Cfg) (s : St) (d : Desc) : Prop where
  text : d.empty = false ∧ s.rmDesc = d.id
  hw : ∃ specs ops, d.parsed = some specs ∧ ((RM.empty (params cfg s.gen).1 (params cfg s.gen).2).loadAll (os s.gen) specs).2 = true ∧
    s.cm = CM.run (os s.gen) (CM.start (os s.gen) (params cfg s.gen).1 (params cfg s.gen).2 specs) ops
  lim : s.lim = if cfg.enforce then addLimits [] d.limits else []
  services : s.services = !s.dead
  dead : s.dead = true → cfg.initial.shutdownOnFailure = true

theorem bringUp_run (o : Oracle) (cm : CM) (hp : cm.pending = false) (cfg : RM.InitCfg) (ord gord : List Name) :
    ∃ ops, ({ cm with rm := (cm.rm.bringUp o cfg ord gord).1 } : CM) = cm.run o ops := by
  refine RM.bringUp_ind o (fun rm => ∃ ops, ({ cm with rm := rm } : CM) = cm.run o ops) ?_ cfg ord gord cm.rm ⟨[], rfl⟩
  rintro rm n t ⟨ops, e⟩
  refine ⟨ops ++ [.setHw n t], ?_⟩
  have : cm.run o (ops ++ [.setHw n t]) = (cm.run o ops).step o (.setHw n t) := by simp [CM.run]
  rw [this, ← e]
  simp only [CM.step, CM.setHw, hp]
  rfl

theorem bringUp_thrown (o : Oracle) (cfg : RM.InitCfg) (ord gord : List Name) (rm : RM) (h : (rm.bringUp o cfg ord gord).2 = true) :
    cfg.shutdownOnFailure = true := by
  cases hs : cfg.shutdownOnFailure with
  | true => rfl
  | false =>
    exfalso
    have hL : ∀ t l (rm : RM) rest, (RM.initListed o false t l rm rest).2.2 = false := by
      intro t l
      induction l with
      | nil => intro rm rest; rfl
      | cons n l ih =>
        intro rm rest
        unfold RM.initListed
        split
        · dsimp only; simp only [Bool.false_eq_true, and_false, if_false]; exact ih _ _
        · exact ih _ _
    have hG : ∀ m l (rm : RM), (RM.initGroups o false m l rm).2 = false := by
      intro m l
      induction l with
      | nil => intro rm; rfl
      | cons n l ih =>
        intro rm
        unfold RM.initGroups
        have : (RM.initGroup o false (m n) rm).2 = false := by
          unfold RM.initGroup
          dsimp only
          split
          · rfl
          · split <;> rfl
        simp only [this, Bool.false_eq_true, if_false]
        exact ih _
    have hS : ∀ l (rm : RM), (RM.initSingles o false l rm).2 = false := by
      intro l
      induction l with
      | nil => intro rm; rfl
      | cons n l ih =>
        intro rm
        unfold RM.initSingles
        simp only [Bool.false_eq_true, and_false, if_false]
        exact ih _
    unfold RM.bringUp at h
    simp only [hs, hL, hG, hS, Bool.false_eq_true, if_false] at h

/-- One description, when none is in use. -/
theorem callback_waits (os : Nat → Oracle) (cfg : Cfg) (hh : cfg.handle = true) (s : St) (W : Waits cfg s) (hi : s.inited = false) (d : Desc)
    (ord gord : List Name) :
    ((callback os cfg s d ord gord).inited = true ∧ Uses os cfg (callback os cfg s d ord gord) d ∧ (callback os cfg s d ord gord).gen = s.gen ∧
      (callback os cfg s d ord gord).desc = d.id) ∨
    ((callback os cfg s d ord gord) = { s with desc := d.id, gen := s.gen + 1, cm := blank cfg (s.gen + 1), rmDesc := 0 } ∧
      (d.empty = true ∨ d.parsed = none ∨
        ∃ specs, d.parsed = some specs ∧ ((RM.empty (params cfg s.gen).1 (params cfg s.gen).2).loadAll (os s.gen) specs).2 = false)) := by
  have hb : ∀ rm : RM, rm = RM.empty false true → ({ s.cm with rm := rm } : CM) = blank cfg (s.gen + 1) := by
    rintro rm rfl; rw [W.cm]; rfl
  have hlim := W.lim
  unfold callback
  rw [if_neg (by simp [hi])]
  dsimp only
  by_cases he : d.empty = true
  · right
    have e1 : initRm os cfg { s with desc := d.id } d = { s with desc := d.id } := by unfold initRm; rw [if_pos he]
    rw [e1, if_pos hi]
    refine ⟨?_, .inl he⟩
    simp only [hb _ rfl, hlim]
  have he' : d.empty = false := by simpa using he
  cases hp : d.parsed with
  | none =>
    right
    refine ⟨?_, .inr (.inl rfl)⟩
    have e1 : initRm os cfg { s with desc := d.id } d = if cfg.enforce then { s with desc := d.id } else { s with desc := d.id, rmDesc := d.id } := by
      unfold initRm; rw [if_neg he, hp]
    rw [e1]
    cases cfg.enforce <;> simp [hi, hb _ rfl, hlim]
  | some specs =>
    have e1 : initRm os cfg { s with desc := d.id } d =
        { s with desc := d.id, lim := if cfg.enforce then addLimits [] d.limits else [],
                 cm := { s.cm with rm := (s.cm.rm.loadAll (os s.gen) specs).1 },
                 inited := (s.cm.rm.loadAll (os s.gen) specs).2, rmDesc := d.id } := by
      unfold initRm
      rw [if_neg he, hp]
      simp only [hh, loadDesc_handled]
      cases cfg.enforce <;> simp [hlim]
    have erm : s.cm.rm = RM.empty (params cfg s.gen).1 (params cfg s.gen).2 := by rw [W.cm]; rfl
    rw [e1]
    rw [erm]
    dsimp only
    generalize hl : (RM.empty (params cfg s.gen).1 (params cfg s.gen).2).loadAll (os s.gen) specs = r
    cases hr : r.2 with
    | false =>
      right
      simp only [if_true]
      refine ⟨?_, .inr (.inr ⟨specs, rfl, (congrArg Prod.snd hl).trans hr⟩)⟩
      simp only [hb _ rfl, hlim, hi]
    | true =>
      left
      simp only [Bool.true_eq_false, if_false]
      refine ⟨rfl, ?_, rfl, rfl⟩
      have e2 : ({ s.cm with rm := r.1 } : CM) = CM.start (os s.gen) (params cfg s.gen).1 (params cfg s.gen).2 specs := by
        rw [W.cm, ← hl]; rfl
      obtain ⟨ops, eo⟩ := bringUp_run (os s.gen) ({ s.cm with rm := r.1 } : CM) (by rw [e2]; rfl) cfg.initial ord gord
      refine ⟨⟨he', rfl⟩, ⟨specs, ops, hp, (congrArg Prod.snd hl).trans hr, ?_⟩, rfl, rfl, ?_⟩
      · exact eo.trans (congrArg (fun x => CM.run (os s.gen) x ops) e2)
      · intro hd
        exact bringUp_thrown _ _ _ _ _ hd

end Verif.Boot
