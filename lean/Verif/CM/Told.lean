import Verif.CM.Calm
/-!
# The lists of exported interfaces belong to the configured chainable controllers
-/
namespace Verif

/-- Of the `on_configure` and `on_cleanup` callbacks of the controller `n`, the last one was an `on_cleanup` that answered
FAILURE. -/
def lastCleanupFailed (n : Name) : List Ev → Bool
  | [] => false
  | .ctlCb m cb a :: t =>
    if m = n ∧ (cb = .cleanup ∨ cb = .configure) then decide (cb = .cleanup ∧ a = .failure) else lastCleanupFailed n t
  | _ :: t => lastCleanupFailed n t

theorem Plain.last {n : Name} {a b : List Ev} (h : Plain n a b) : lastCleanupFailed n b = lastCleanupFailed n a := by
  obtain ⟨es, rfl, he⟩ := h
  induction es with
  | nil => rfl
  | cons e t ih =>
    have ih := ih (fun x hx => he x (by simp [hx]))
    have h1 := he e (by simp)
    cases e with
    | ctlCb m cb x =>
      simp only [List.cons_append, lastCleanupFailed]
      rw [if_neg, ih]
      rintro ⟨rfl, h2⟩
      obtain ⟨h3, h4⟩ := h1 cb x rfl
      rcases h2 with h2 | h2
      · exact h3 h2
      · exact h4 h2
    | _ => exact ih

namespace CM

/-- What the resource manager has on record for `n` is what the configured chainable controller `n` exports. -/
def Told (n : Name) (cm : CM) : Prop :=
  ∀ c, cm.find n = some c → c.chainable = true → (c.lc = .inactive ∨ c.lc = .active) →
    ∃ ss rs l, c.cfg.exports = some (ss, rs) ∧ cm.rm.expR n = some rs ∧ cm.rm.expS n = some l ∧ l ⊆ ss

/-- `Told`, up to exceptions and failed clean-ups. -/
def Safe (n : Name) (cm : CM) : Prop :=
  cm.rm.fault = false → lastCleanupFailed n cm.rm.tr = true ∨ Told n cm

theorem Told.notReady {n : Name} {cm : CM} (h : ¬ cm.Ready n) : Told n cm := by
  intro c hc _ hl
  refine absurd ?_ h
  unfold Ready CM.lcOf
  rw [hc]
  simpa using hl

/-- A controller found after a step that keeps the static parts was there before, with the same static part. -/
theorem find_cfg {x y : CM} (h : y.ctls.map Ctl.stat = x.ctls.map Ctl.stat) {n : Name} {d : Ctl} (hd : y.find n = some d) :
    ∃ e, x.find n = some e ∧ e.cfg = d.cfg ∧ e.chainable = d.chainable := by
  have hg : ((fun c : Ctl => decide (c.name = n)) ∘ Ctl.stat) = (fun c : Ctl => decide (c.name = n)) := by
    funext c; rfl
  have hd' : (y.ctls.map Ctl.stat).find? (fun c => c.name = n) = some d.stat := by
    rw [List.find?_map]
    unfold CM.find at hd
    rw [hg, hd]; rfl
  rw [h, List.find?_map, hg] at hd'
  unfold CM.find
  cases hx : x.ctls.find? (fun c => c.name = n) with
  | none => rw [hx] at hd'; simp at hd'
  | some e =>
    rw [hx] at hd'; simp only [Option.map_some, Option.some.injEq] at hd'
    refine ⟨e, rfl, ?_, ?_⟩
    · have h2 := congrArg Ctl.cfg hd'; simpa [Ctl.stat] using h2
    · have h2 := congrArg Ctl.chainable hd'; simpa [Ctl.stat] using h2

theorem step_stat (o : Oracle) {cm : CM} (I : Inv cm) (op : Op) (h : op.calm = true) :
    (cm.step o op).ctls.map Ctl.stat = cm.ctls.map Ctl.stat := by
  cases op <;> simp only [Op.calm, Bool.false_eq_true] at h <;> simp only [CM.step]
  · split
    · rfl
    · exact (Fwd.switchBegin o cm _ _ _ _ I.sys).stat
  · exact (Fwd.switchWake o cm I).stat
  · exact (Fwd.switchTimeout o Anybody cm).stat
  · exact (Fwd.rtRead o _ cm I.sys).stat
  · exact (Fwd.rtUpdate o _ _ cm I).stat
  · exact (Fwd.rtWrite o _ cm I.sys).stat
  · exact (Fwd.setHw o Anybody cm _ _ I.sys).stat
  · exact (Fwd.shutdownAll o cm).stat

theorem Safe.calm {n : Name} {a b : CM} (I : a.rm.Inv) (k : Calm a b) (hs : b.ctls.map Ctl.stat = a.ctls.map Ctl.stat)
    (h : Safe n a) : Safe n b := by
  intro hf
  obtain ⟨_, eS, eR, ff, pl⟩ := k.rm I
  have hfa : a.rm.fault = false := by
    cases hx : a.rm.fault with
    | false => rfl
    | true => rw [ff hx] at hf; simp at hf
  rcases h hfa with h | h
  · left; rw [(pl n).last]; exact h
  · right
    intro c hc hch hl
    obtain ⟨e, he, e1, e2⟩ := find_cfg hs hc
    have hr : b.Ready n := by unfold Ready CM.lcOf; rw [hc]; simpa using hl
    have hra := k.lc.2 n hr
    have hl' : e.lc = .inactive ∨ e.lc = .active := by
      unfold Ready CM.lcOf at hra; rw [he] at hra; simpa using hra
    rw [← e1, eR, eS]
    exact h e he (e2.trans hch) hl'

/-- Operations about another controller. -/
theorem Safe.away {n : Name} {a b : CM} (h : Safe n a) (w : Sys.Away n a.abs b.abs)
    (hf : ∀ c, b.find n = some c → ∃ d, a.find n = some d ∧ c.cfg = d.cfg ∧ c.chainable = d.chainable ∧ c.lc = d.lc) : Safe n b := by
  intro hfb
  have hfa : a.rm.fault = false := by
    cases hx : a.rm.fault with
    | false => rfl
    | true => have : b.rm.fault = true := w.fault hx; rw [this] at hfb; simp at hfb
  rcases h hfa with h | h
  · left
    have := w.plain.last
    exact this.trans h
  · right
    intro c hc hch hl
    obtain ⟨d, hd, e1, e2, e3⟩ := hf c hc
    have hS : b.rm.expS n = a.rm.expS n := w.expS
    have hR : b.rm.expR n = a.rm.expR n := w.expR
    rw [e1, hR, hS]
    exact h d hd (e2.symm.trans hch) (e3 ▸ hl)

theorem trigger_failure_tr (o : Oracle) {cm : CM} {n : Name} {c : Ctl} (hc : cm.find n = some c)
    (hl : c.lc = .inactive) (ha : o.ctlCb cm.rm.tr n .cleanup = .failure) :
    (cm.trigger o n .cleanup).rm.tr = .ctlCb n .cleanup .failure :: cm.rm.tr := by
  unfold CM.trigger
  rw [hc]
  simp only [hl, CtlCb.legal, if_true, ha]
  rfl

/-- After a clean-up the controller is not configured, or the clean-up failed. -/
theorem cleaned (o : Oracle) {cm : CM} {n : Name} (hl : cm.lcOf n ≠ some .active) :
    lastCleanupFailed n (cm.trigger o n .cleanup).rm.tr = true ∨ ¬ (cm.trigger o n .cleanup).Ready n := by
  cases hc : cm.find n with
  | none =>
    right
    have : cm.trigger o n .cleanup = cm := by unfold CM.trigger; rw [hc]
    rw [this]
    unfold Ready CM.lcOf; rw [hc]; simp
  | some c =>
    have hna : c.lc ≠ .active := by unfold CM.lcOf at hl; rw [hc] at hl; simpa using hl
    by_cases hi : c.lc = .inactive
    · have hlc := lcOf_trigger o hc .cleanup (by rw [hi]; rfl)
      cases ha : o.ctlCb cm.rm.tr n .cleanup with
      | failure =>
        left
        rw [trigger_failure_tr o hc hi ha]
        simp [lastCleanupFailed]
      | success =>
        right
        rw [ha] at hlc
        unfold Ready; rw [hlc]; simp [CtlCb.onSuccess]
      | error =>
        right
        rw [ha] at hlc
        unfold Ready; rw [hlc]; simp only; split <;> simp
      | throws =>
        right
        rw [ha] at hlc
        unfold Ready; rw [hlc]; simp only; split <;> simp
    · right
      have : cm.trigger o n .cleanup = cm := by
        unfold CM.trigger; rw [hc]
        simp only
        rw [if_neg]
        cases hcl : c.lc <;> simp_all [CtlCb.legal]
      rw [this]
      unfold Ready CM.lcOf; rw [hc]
      simp [hi, hna]

theorem cleanupExports_find (x : CM) (n m : Name) : (x.cleanupExports n).find m = x.find m := by
  unfold CM.cleanupExports
  split
  · rfl
  · split <;> rfl

theorem cleanupExports_lcOf (x : CM) (n m : Name) : (x.cleanupExports n).lcOf m = x.lcOf m := by
  unfold CM.lcOf; rw [cleanupExports_find]

theorem cleanedSpec (o : Oracle) {cm : CM} {n : Name} (hl : cm.lcOf n ≠ some .active) :
    lastCleanupFailed n (cm.cleanupSpec o n).1.rm.tr = true ∨ ¬ (cm.cleanupSpec o n).1.Ready n :=
  cleaned o (by rw [cleanupExports_lcOf]; exact hl)

theorem Safe.ofCleaned {n : Name} {cm : CM} (h : lastCleanupFailed n cm.rm.tr = true ∨ ¬ cm.Ready n) : Safe n cm :=
  fun _ => h.imp id Told.notReady

theorem cleanupSpec_chainable (o : Oracle) (cm : CM) (n : Name) (b : Bool)
    (h : ∀ d, cm.find n = some d → d.chainable = b) : ∀ d, (cm.cleanupSpec o n).1.find n = some d → d.chainable = b := by
  intro d hd
  unfold CM.cleanupSpec at hd
  simp only at hd
  obtain ⟨g, hg, _, h2, _⟩ := find_trigger o (cm.cleanupExports n) n .cleanup
  rw [hg, cleanupExports_find] at hd
  obtain ⟨e, he, rfl⟩ := Option.map_eq_some_iff.1 hd
  rw [h2]; exact h e he

theorem cfg_trigger (o : Oracle) (cm : CM) (n : Name) (cb : CtlCb) (hcb : cb = .configure ∨ cb = .cleanup ∨ cb = .shutdown)
    (d : Ctl) (hd : (cm.trigger o n cb).find n = some d) :
    ∃ e, cm.find n = some e ∧ e.cfg = d.cfg ∧ e.chainable = d.chainable :=
  find_cfg (Fwd.trigger o cm n cb (T := (· = n)) rfl hcb).stat hd

theorem Safe.configure (o : Oracle) {n : Name} {cm : CM} (I : Inv cm) (h : Safe n cm) (cfg : CtlCfg) (ord : List Name) (rt : Bool) :
    Safe n (cm.configure o n cfg ord rt).1 := by
  have R := I.sys.claims.rm
  unfold CM.configure
  split
  · exact h
  split
  · exact h
  rename_i c hc
  split
  · exact h
  rename_i hnot
  extract_lets r0 cm1 cm2 ex
  simp only [not_or] at hnot
  have hna : cm.lcOf n ≠ some .active := by unfold CM.lcOf; rw [hc]; simpa using hnot.1
  have I0 : r0.1.rm.Inv := by
    simp only [r0]; split
    · exact (Hush.cleanupSpec o n cm n R).1
    · exact R
  have ch0 : ∀ d, r0.1.find n = some d → d.chainable = c.chainable := by
    simp only [r0]; split
    · exact cleanupSpec_chainable o cm n _ (by intro d hd; rw [hc] at hd; simp at hd; rw [hd])
    · intro d hd; rw [hc] at hd; simp at hd; rw [hd]
  by_cases h0 : r0.2 = false
  · rw [if_pos h0]
    simp only [r0] at h0 ⊢
    split at h0
    · rename_i hi
      rw [if_pos hi]
      exact Safe.ofCleaned (cleanedSpec o hna)
    · simp at h0
  rw [if_neg h0]
  -- not active before `on_configure`
  have lc0 : ∀ d, r0.1.find n = some d → d.lc ≠ .active ∧ d.lc ≠ .inactive := by
    intro d hd
    simp only [r0] at hd h0
    split at hd
    · rename_i hi
      rw [if_pos hi] at h0
      unfold CM.cleanupSpec at hd h0
      simp only [decide_eq_false_iff_not, not_not] at h0
      unfold CM.lcOf at h0
      rw [hd] at h0
      simp only [Option.map_some, Option.some.injEq] at h0
      rw [h0]; simp
    · rename_i hi
      rw [hc] at hd
      simp only [Option.some.injEq] at hd; subst hd
      exact ⟨hnot.1, hi⟩
  have I1 : cm1.rm.Inv := (Hush.cleanupExports n r0.1 n I0).1
  have f1 : ∀ d, cm1.find n = some d → d.cfg = cfg ∧ d.chainable = c.chainable ∧ d.lc ≠ .active ∧ d.lc ≠ .inactive := by
    intro d hd
    simp only [cm1] at hd
    rw [find_modify _ _ _ _ (by intro _; rfl), if_pos rfl, cleanupExports_find] at hd
    obtain ⟨e, he, rfl⟩ := Option.map_eq_some_iff.1 hd
    exact ⟨rfl, ch0 e he, lc0 e he⟩
  have I2 : cm2.rm.Inv := by
    simp only [cm2]; split
    · exact (Hush.trigger o n cm1 n .configure I1).1
    · exact I1
  have f2 : ∀ d, cm2.find n = some d → d.cfg = cfg ∧ d.chainable = c.chainable ∧ d.lc ≠ .active := by
    simp only [cm2]; split
    · intro d hd
      obtain ⟨e, he, e1, e2⟩ := cfg_trigger o cm1 n .configure (.inl rfl) d hd
      obtain ⟨a1, a2, a3, _⟩ := f1 e he
      refine ⟨e1.symm.trans a1, e2.symm.trans a2, fun hx => ?_⟩
      have hlx : (cm1.trigger o n .configure).lcOf n = some .active := by unfold CM.lcOf; rw [hd]; simpa using hx
      by_cases hleg : CtlCb.configure.legal e.lc = true
      · rw [lcOf_trigger o he .configure hleg] at hlx
        simp only [Option.some.injEq] at hlx
        split at hlx <;> (try split at hlx) <;> simp [CtlCb.onSuccess, CtlCb.onFailure] at hlx
      · obtain ⟨g, hg, _, _, h3⟩ := find_trigger o cm1 n .configure
        have h4 := h3 e he (by simpa using hleg)
        rw [hg, he] at hd
        simp only [Option.map_some, Option.some.injEq] at hd
        rw [← hd, h4] at hx
        exact a3 hx
    · intro d hd
      obtain ⟨a1, a2, a3, _⟩ := f1 d hd
      exact ⟨a1, a2, a3⟩
  have na2 : cm2.lcOf n ≠ some .active := by
    intro hx
    unfold CM.lcOf at hx
    obtain ⟨d, hd, e⟩ := Option.map_eq_some_iff.1 hx
    exact (f2 d hd).2.2 e
  split
  · rename_i hlc
    refine Safe.ofCleaned (.inr ?_)
    rintro (hx | hx)
    · exact hlc hx
    · exact na2 hx
  rename_i hlc
  have hlc : cm2.lcOf n = some .inactive := by simpa using hlc
  -- the exports
  have pe : (ex.2 = false → Safe n ex.1) ∧ (ex.2 = true → Told n ex.1 ∧ ex.1.lcOf n = some .inactive) := by
    simp only [ex]
    split
    · rename_i hch
      split
      · exact ⟨fun _ => Safe.ofCleaned (cleanedSpec o na2), by simp⟩
      · rename_i ss rs hxp
        split
        · exact ⟨fun _ => Safe.ofCleaned (cleanedSpec o na2), by simp⟩
        · split
          · rename_i rm1 h1
            refine ⟨fun _ hf => ?_, by simp⟩
            simp [CM.faulted] at hf
          · rename_i rm1 h1
            refine ⟨by simp, fun _ => ?_⟩
            have J1 : rm1.Inv := by
              have := RM.inv_importReference I2 n rs; rw [h1] at this; exact this
            have J2 : (rm1.importExportedState n ss).Inv := RM.inv_importExportedState J1 n ss
            have k : Calm ({ cm2 with rm := rm1.importExportedState n ss } : CM)
                ((({ cm2 with rm := rm1.importExportedState n ss } : CM).setChained o n false).exportsUnavailable n) :=
              (Calm.setChained o _ n false).trans (Calm.exportsUnavailable _ n)
            obtain ⟨_, eS, eR, _⟩ := k.rm J2
            have hst : ((({ cm2 with rm := rm1.importExportedState n ss } : CM).setChained o n false).exportsUnavailable n).ctls.map Ctl.stat
                = cm2.ctls.map Ctl.stat := (Fwd.setChained o { cm2 with rm := rm1.importExportedState n ss } n false (T := (· = n)) rfl).stat
            refine ⟨?_, ?_⟩
            · intro d hd _ _
              obtain ⟨e, he, e1, _⟩ := find_cfg hst hd
              obtain ⟨a1, _⟩ := f2 e he
              obtain ⟨ks, cl, eq, _, _, _, _, _, hks⟩ := (RM.addCmdItfs_spec cm2.rm rs).eq
              have hR : rm1.expR n = some rs := by
                unfold RM.importReference at h1
                split at h1
                · rename_i rm' names hh
                  rw [hh] at hks
                  obtain ⟨e2, e3⟩ := hks names rfl
                  simp only [Prod.mk.injEq] at h1
                  rw [← h1.1]
                  simp [upd_apply, e2, e3]
                · simp at h1
              have hS := (RM.addStateItfs_spec rm1 ss)
              have eR2 : (rm1.importExportedState n ss).expR = rm1.expR := by
                obtain ⟨_, _, _, _, _, _, _, e8, _, _⟩ := RM.import_exp rm1 n [] ss
                exact e8
              refine ⟨ss, rs, (rm1.addStateItfs ss).2, by rw [← e1, a1]; exact hxp, ?_, ?_, hS.sub⟩
              · rw [eR]
                show (rm1.importExportedState n ss).expR n = _
                rw [eR2]; exact hR
              · rw [eS]
                show (rm1.importExportedState n ss).expS n = _
                unfold RM.importExportedState
                simp [upd_apply]
            · have : ∀ x : CM, (x.exportsUnavailable n).lcOf n = x.lcOf n := fun _ => rfl
              rw [this, lcOf_setChained]; exact hlc
    · rename_i hch
      refine ⟨by simp, fun _ => ⟨?_, hlc⟩⟩
      intro d hd hch' _
      rw [(f2 d hd).2.1] at hch'
      exact absurd hch' hch
  clear_value ex
  split
  · rename_i he; exact pe.1 he
  rename_i he
  obtain ⟨p1, p2⟩ := pe.2 (by simpa using he)
  split
  · exact fun _ => .inr p1
  split
  · exact Safe.ofCleaned (cleanedSpec o (by rw [p2]; simp))
  · intro _
    right
    -- topology and order
    rename_i d1 hd1 _
    show Told n (ex.1.topology.reorder ord)
    intro d hd hch hl
    have hrm : (ex.1.topology.reorder ord).rm = ex.1.rm := (topology_rm ex.1).1
    have hm : d ∈ (ex.1.topology.reorder ord).ctls := (find_some hd).1
    simp only [CM.reorder, List.mem_map, List.mem_filterMap] at hm
    obtain ⟨d2, ⟨m, _, hf⟩, e2⟩ := hm
    have hf : ex.1.find m = some d2 := by
      have : ex.1.topology.find m = ex.1.find m := by unfold CM.find; rw [(topology_rm ex.1).2]
      rw [← this]; exact hf
    have hmn : m = n := by
      have h1 := (find_some hf).2
      have h2 := (find_some hd).2
      rw [← h1, ← h2, ← e2]
      split <;> rfl
    subst hmn
    have q : d.cfg = d2.cfg ∧ d.chainable = d2.chainable ∧ d.lc = d2.lc := by
      rw [← e2]; split <;> exact ⟨rfl, rfl, rfl⟩
    rw [hrm, q.1]
    exact p1 d2 hf (q.2.1 ▸ hch) (q.2.2 ▸ hl)

theorem Safe.cleanup (o : Oracle) {n : Name} {cm : CM} (h : Safe n cm) : Safe n (cm.cleanup o n).1 := by
  unfold CM.cleanup
  split
  · exact h
  split
  · exact h
  rename_i c hc
  split
  · exact h
  · exact h
  · exact h
  · rename_i h1 h2 h3
    refine Safe.ofCleaned (cleanedSpec o ?_)
    unfold CM.lcOf; rw [hc]; simpa using h2

theorem Safe.unload (o : Oracle) {n : Name} {cm : CM} (h : Safe n cm) : Safe n (cm.unload o n).1 := by
  unfold CM.unload
  split
  · exact h
  split
  · exact h
  split
  · exact h
  extract_lets r cm1 cm2
  split
  · exact h.cleanup o
  · refine Safe.ofCleaned (.inr ?_)
    have : ({ cm2 with ctls := cm2.ctls.filter (fun c => c.name ≠ n) } : CM).find n = none := by
      apply find_none.2
      simp
    unfold Ready CM.lcOf
    rw [this]; simp

theorem Safe.load (o : Oracle) {n : Name} {cm : CM} (h : Safe n cm) (ch as : Bool) (cfg : CtlCfg) (fb : List Name) :
    Safe n (cm.load o n ch as cfg fb).1 := by
  unfold CM.load
  split
  · exact h
  split
  · exact h
  split
  · exact h
  · rename_i hn
    extract_lets a cm1
    have hn1 : cm1.find n = none := hn
    split
    · refine Safe.ofCleaned (.inr ?_)
      unfold Ready CM.lcOf
      rw [find_append (cm := cm1) _ rfl, hn1]
      simp
    · refine Safe.ofCleaned (.inr ?_)
      unfold Ready CM.lcOf; rw [hn1]; simp

/-- `Safe` holds throughout every history. -/
theorem Safe.step (o : Oracle) {n : Name} {cm : CM} (I : Inv cm) (h : Safe n cm) (op : Op) : Safe n (cm.step o op) := by
  by_cases hc : op.calm = true
  · exact h.calm I.sys.claims.rm (Calm.step o I op hc) (step_stat o I op hc)
  cases op <;> simp only [Op.calm, not_true, Bool.true_eq_false, not_false_eq_true] at hc <;> simp only [CM.step]
  · rename_i m ch as cfg fb
    by_cases e : n = m
    · subst e; exact h.load o ch as cfg fb
    · have w := ((load_ok o cm m ch as cfg fb I).1).away (n := n) e
      refine h.away w ?_
      intro c hc'
      refine ⟨c, ?_, rfl, rfl, rfl⟩
      have : (cm.load o m ch as cfg fb).1.find n = cm.find n := by
        unfold CM.load
        split
        · rfl
        split
        · rfl
        split
        · rfl
        · extract_lets a cm1
          split
          · rw [find_append (cm := cm1) _ rfl]
            cases hx : cm1.find n with
            | some d => rw [show cm.find n = some d from hx]; rfl
            | none =>
              rw [show cm.find n = none from hx]
              simp [Ne.symm e]
          · rfl
      rw [this] at hc'; exact hc'
  · rename_i m cfg ord r
    by_cases e : n = m
    · subst e; exact h.configure o I cfg ord r
    · have w := ((configure_ok o cm m cfg ord r I).1).away (n := n) e
      refine h.away w ?_
      intro c hc'
      rcases configure_spec o cm m cfg ord r I with ⟨_, k⟩ | ⟨y, d, he, k, _⟩
      · exact ⟨c, by rw [← find_of_others k.others e]; exact hc', rfl, rfl, rfl⟩
      · rw [he] at hc'
        simp only at hc'
        rw [reorder_find k.topo.topology] at hc'
        have : y.topology.find n = y.find n := by unfold CM.find; rw [(topology_rm y).2]
        rw [this, find_of_others k.others e] at hc'
        obtain ⟨d2, hd2, e2⟩ := Option.map_eq_some_iff.1 hc'
        exact ⟨d2, hd2, by rw [← e2], by rw [← e2], by rw [← e2]⟩
  · rename_i m
    by_cases e : n = m
    · subst e; exact h.cleanup o
    · have w := ((Fwd.cleanup o cm m).steps).away (n := n) e
      exact h.away w (fun c hc' => ⟨c, by rw [← find_of_others (others_cleanup o cm m) e]; exact hc', rfl, rfl, rfl⟩)
  · rename_i m
    by_cases e : n = m
    · subst e; exact h.unload o
    · have w := ((unload_ok o cm m I).1).away (n := n) e
      exact h.away w (fun c hc' => ⟨c, by rw [← find_of_others (others_unload o cm m) e]; exact hc', rfl, rfl, rfl⟩)

theorem Reach.safe {o : Oracle} {cm : CM} (h : Reach o cm) (n : Name) : Safe n cm := by
  refine Reach.induction (P := fun cm => Safe n cm) ?_ ?_ h
  · intro a b specs _
    right
    intro c hc
    simp [start, init, find] at hc
  · intro cm op hr ih
    exact ih.step o hr.inv op

/-! ## Finalized controllers -/

theorem finalized_cleanup (o : Oracle) (cm : CM) (m n : Name) (h : cm.lcOf n = some .finalized) :
    (cm.cleanup o m).1.lcOf n = some .finalized := by
  unfold CM.cleanup
  split
  · exact h
  split
  · exact h
  split
  · exact h
  · exact h
  · exact h
  · exact finalized_trigger o _ m .cleanup n (by rw [cleanupExports_lcOf]; exact h)

/-- A finalized controller stays loaded and finalized. -/
theorem finalized_step (o : Oracle) {cm : CM} (I : Inv cm) (n : Name) (h : cm.lcOf n = some .finalized) (op : Op) :
    (cm.step o op).lcOf n = some .finalized := by
  by_cases hc : op.calm = true
  · exact (Calm.step o I op hc).lc.1 n h
  have hk : ∀ x : CM, Sys.Away n cm.abs x.abs → x.lcOf n = some .finalized := by
    intro x w
    have h1 := w.k
    rw [abs_k, abs_k] at h1
    unfold CM.lcOf at h ⊢
    have h5 := congrArg (Option.map Core.lc) h1
    simp only [Option.map_map, Function.comp_def, Ctl.core] at h5
    exact h5.trans h
  obtain ⟨c, hf, hl⟩ : ∃ c, cm.find n = some c ∧ c.lc = .finalized := by
    unfold CM.lcOf at h
    obtain ⟨c, h1, h2⟩ := Option.map_eq_some_iff.1 h
    exact ⟨c, h1, h2⟩
  cases op <;> simp only [Op.calm, not_true, Bool.true_eq_false, not_false_eq_true] at hc <;> simp only [CM.step]
  · rename_i m ch as cfg fb
    by_cases e : n = m
    · subst e
      unfold CM.load
      split
      · exact h
      split
      · exact h
      · rw [hf]; exact h
    · exact hk _ (((load_ok o cm m ch as cfg fb I).1).away (n := n) e)
  · rename_i m cfg ord r
    by_cases e : n = m
    · subst e
      unfold CM.configure
      split
      · exact h
      · rw [hf]
        simp only [hl]
        simp [h]
    · exact hk _ (((configure_ok o cm m cfg ord r I).1).away (n := n) e)
  · exact finalized_cleanup o cm _ n h
  · rename_i m
    by_cases e : n = m
    · subst e
      have : cm.unload o n = (cm, .error) := by
        unfold CM.unload
        split
        · rfl
        · rw [hf]
          simp only [hl]
          have hcl : cm.cleanup o n = (cm, .error) := by
            unfold CM.cleanup
            split
            · rfl
            · rw [hf]; simp only [hl]
          simp [hcl]
      rw [this]; exact h
    · exact hk _ (((unload_ok o cm m I).1).away (n := n) e)

end CM
end Verif
