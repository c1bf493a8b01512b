import Verif.CM.SwFrame
/-!
# The interface availability check of a switch request
-/
namespace Verif

/-- The command interfaces the controller manager expects to become free when `c` is stopped
(cm.cpp:4326-4349). -/
def Ctl.advertised (c : Ctl) : List Itf :=
  match c.cfg.cmd with
  | .individual l => l
  | _ => c.claimedInfo

namespace CM

theorem futureAvailable_mem {cm : CM} : ∀ {l : List Name} {f : List Itf}, cm.futureAvailable l = some f → ∀ i ∈ f,
    ∃ n ∈ l, ∃ c, cm.find n = some c ∧ i ∈ c.advertised := by
  intro l
  induction l with
  | nil => intro f h i hi; simp [futureAvailable] at h; subst h; simp at hi
  | cons n t ih =>
    intro f h i hi
    unfold futureAvailable at h
    split at h
    · simp at h
    rename_i c hc
    extract_lets l' at h
    cases ht : cm.futureAvailable t with
    | none => rw [ht] at h; simp at h
    | some f' =>
      rw [ht] at h
      simp only [Option.map_some, Option.some.injEq] at h
      subst h
      rcases List.mem_append.1 hi with hi | hi
      · exact ⟨n, by simp, c, hc, hi⟩
      · obtain ⟨m, hm, d, hd⟩ := ih ht i hi
        exact ⟨m, by simp [hm], d, hd⟩

theorem availCmd_ok {rm : RM} {future : List Itf} : ∀ {l used used' : List Itf} {b : Bool},
    availCmd rm future used l = (some used', b) →
    used' = used ++ l ∧ (used.Nodup → used'.Nodup) ∧
    ∀ i ∈ l, i ∈ rm.availC ∧ (rm.claimed i = some true → i ∈ future) := by
  intro l
  induction l with
  | nil => intro used used' b h; simp [availCmd] at h; obtain ⟨rfl, _⟩ := h; simp
  | cons i t ih =>
    intro used used' b h
    unfold availCmd at h
    split at h
    · simp at h
    rename_i hav
    split at h
    · simp at h
    rename_i cl hcl
    split at h
    · simp at h
    rename_i hfu
    split at h
    · simp at h
    rename_i hus
    obtain ⟨h1, h2, h3⟩ := ih h
    refine ⟨by rw [h1]; simp, ?_, ?_⟩
    · intro hn
      apply h2
      rw [List.nodup_append]
      refine ⟨hn, by simp, ?_⟩
      intro a ha b hb
      simp at hb; subst hb
      intro e; subst e; exact hus ha
    · intro j hj
      rcases List.mem_cons.1 hj with rfl | hj
      · refine ⟨by simpa using hav, ?_⟩
        intro hc
        have : cl = true := by
          unfold RM.isClaimed at hcl
          have hav : j ∈ rm.availC := by simpa using hav
          rw [hc, if_pos hav] at hcl; simpa using hcl.symm
        by_contra hx; exact hfu ⟨this, hx⟩
      · exact h3 j hj

/-- The command interfaces of the controllers of a list, in order. -/
def wanted (cm view : CM) (l : List Name) : List Itf :=
  l.flatMap (fun n => match cm.find n with | some c => view.cmdItfs c | none => [])

theorem availLoop_ok {cm : CM} {future : List Itf} {deact : List Name} : ∀ {l : List Name} {used : List Itf},
    (cm.availLoop future deact used l).1 = true → used.Nodup →
    (used ++ cm.wanted cm (l.filter (fun n => decide (n ∉ deact)))).Nodup ∧
    ∀ n ∈ l, n ∉ deact → ∃ c, cm.find n = some c ∧
      (∀ i ∈ cm.cmdItfs c, i ∈ cm.rm.availC ∧ (cm.rm.claimed i = some true → i ∈ future)) ∧
      (∀ i ∈ cm.stateItfs c, i ∈ cm.rm.availS) := by
  intro l
  induction l with
  | nil => intro used _ hn; simp [wanted, hn]
  | cons n t ih =>
    intro used h hn
    unfold availLoop at h
    split at h
    · rename_i hd
      obtain ⟨h1, h2⟩ := ih h hn
      refine ⟨by simpa [List.filter_cons, hd] using h1, ?_⟩
      intro m hm hmd
      rcases List.mem_cons.1 hm with rfl | hm
      · exact absurd hd hmd
      · exact h2 m hm hmd
    · rename_i hd
      split at h
      · simp at h
      rename_i c hc
      split at h
      · simp at h
      rename_i used' b he
      split at h
      swap
      · simp at h
      rename_i hs
      obtain ⟨k1, k2, k3⟩ := availCmd_ok he
      obtain ⟨h1, h2⟩ := ih h (k2 hn)
      constructor
      · have e : (n :: t).filter (fun n => decide (n ∉ deact)) = n :: t.filter (fun n => decide (n ∉ deact)) := by
          simp [List.filter_cons, hd]
        rw [e]
        unfold wanted at h1 ⊢
        simp only [List.flatMap_cons, hc]
        rw [k1, List.append_assoc] at h1
        exact h1
      · intro m hm hmd
        rcases List.mem_cons.1 hm with rfl | hm
        · exact ⟨c, hc, k3, hs⟩
        · exact h2 m hm hmd

/-- What the availability check guarantees about an accepted request: `cm` is the state at the call, `r` the state
while the request waits. -/
structure AvailOk (cm r : CM) : Prop where
  /-- the interfaces of every controller to start are available, and the claimed ones will become free -/
  items : ∀ n ∈ r.sw.act, n ∉ r.sw.deact → ∃ c, cm.find n = some c ∧
    (∀ i ∈ r.cmdItfs c, i ∈ r.rm.availC ∧
      (cm.rm.claimed i = some true → ∃ m ∈ r.sw.deact, ∃ d, cm.find m = some d ∧ i ∈ d.advertised)) ∧
    (∀ i ∈ r.stateItfs c, i ∈ r.rm.availS)
  /-- no command interface is wanted twice -/
  once : (cm.wanted r (r.sw.act.filter (fun n => decide (n ∉ r.sw.deact)))).Nodup

theorem switchBegin_avail {o : Oracle} {cm : CM} {act deact : List Name} {s : Strictness} {asap : Bool}
    (h : (cm.switchBegin o act deact s asap).2 = .wait) :
    AvailOk cm (cm.switchBegin o act deact s asap).1 := by
  unfold CM.switchBegin at h ⊢
  extract_lets _ sw0 at h ⊢
  cases hd : cm.listControllers s deact with
  | none => simp [hd] at h
  | some d =>
  cases ha : cm.listControllers s act with
  | none => simp [hd, ha] at h
  | some a =>
  simp only [hd, ha] at h ⊢
  generalize hx : ({ cm with sw := { sw0 with deact := d, act := a } } : CM) = x0 at h ⊢
  have x0c : x0.ctls = cm.ctls := by rw [← hx]
  have x0cl : x0.rm.claimed = cm.rm.claimed := by rw [← hx]
  have q : Quiet x0 (x0.vConf s).1 :=
    ((Quiet.propagate x0 _).trans (Quiet.actLoop s _ _ _)).trans ((Quiet.deactLoop s _ _ _).trans (Quiet.conflictLoop s _ _))
  obtain ⟨_, hc⟩ := validate_cases o x0 s asap
  have W : Waits s asap (x0.vConf s).1 (x0.validate o s asap) := by
    rcases hc with hc | ⟨_, _, ⟨hc, _⟩ | ⟨_, ⟨hc, _⟩ | W⟩⟩
    · rw [h] at hc; simp at hc
    · rw [h] at hc; simp at hc
    · rw [h] at hc; simp at hc
    · exact W
  have qc : (x0.vConf s).1.ctls = cm.ctls := by
    rw [← x0c]; obtain ⟨_, _, _, _, _, e, _⟩ := q; rw [e]
  have qcl : (x0.vConf s).1.rm.claimed = cm.rm.claimed := by
    rw [← x0cl]; obtain ⟨_, _, _, _, _, e, _⟩ := q; rw [e]
  generalize (x0.vConf s).1 = x at W qc qcl
  have qf : ∀ n, x.find n = cm.find n := by intro n; unfold CM.find; rw [qc]
  generalize x0.validate o s asap = r at W h
  obtain ⟨es, hrm⟩ := W.rm
  have rC : r.1.rm.availC = x.rm.availC := by rw [hrm]
  have rS : r.1.rm.availS = x.rm.availS := by rw [hrm]
  have ra : r.1.sw.act = x.sw.act := by rw [W.sw]
  have rd : r.1.sw.deact = x.sw.deact := by rw [W.sw]
  have ri : ∀ c, r.1.cmdItfs c = x.cmdItfs c := by intro c; unfold CM.cmdItfs; rw [rC]
  have rs : ∀ c, r.1.stateItfs c = x.stateItfs c := by intro c; unfold CM.stateItfs; rw [rS]
  have av := W.avail
  unfold checkAvailability at av
  split at av
  · simp at av
  rename_i future hfu
  obtain ⟨h1, h2⟩ := availLoop_ok av (by simp)
  constructor
  · intro n hn hnd
    rw [ra] at hn
    rw [rd] at hnd
    obtain ⟨c, hc, k1, k2⟩ := h2 n hn hnd
    rw [qf] at hc
    refine ⟨c, hc, ?_, ?_⟩
    · intro i hi
      rw [ri] at hi
      refine ⟨by rw [rC]; exact (k1 i hi).1, ?_⟩
      intro hcl
      rw [← qcl] at hcl
      obtain ⟨m, hm, d, hd, hi'⟩ := futureAvailable_mem hfu i ((k1 i hi).2 hcl)
      rw [qf] at hd
      exact ⟨m, by rw [rd]; exact hm, d, hd, hi'⟩
    · intro i hi
      rw [rs] at hi
      rw [rS]; exact k2 i hi
  · rw [ra, rd]
    simp only [List.nil_append] at h1
    unfold wanted at h1 ⊢
    simp only [qf, ri] at h1 ⊢
    exact h1

/-- Two different controllers of a list without repetition of interfaces share none. -/
theorem wanted_disjoint {cm v : CM} {l : List Name} (h : (cm.wanted v l).Nodup) {n m : Name} {c d : Ctl} (hn : n ∈ l) (hm : m ∈ l)
    (hne : n ≠ m) (hc : cm.find n = some c) (hd : cm.find m = some d) {i : Itf} (hi : i ∈ v.cmdItfs c) : i ∉ v.cmdItfs d := by
  unfold wanted at h
  rw [List.nodup_flatMap] at h
  have := h.2
  obtain ⟨p, q, rfl⟩ := List.append_of_mem hn
  rw [List.pairwise_append] at this
  obtain ⟨_, h2, h3⟩ := this
  rw [List.pairwise_cons] at h2
  intro hi'
  rcases List.mem_append.1 hm with hm | hm
  · have := h3 m hm n (by simp)
    simp only [Function.onFun, hc, hd] at this
    exact this hi' hi
  · rcases List.mem_cons.1 hm with rfl | hm
    · exact hne rfl
    · have := h2.1 m hm
      simp only [Function.onFun, hc, hd] at this
      exact this hi hi'

/-- STRICT: the interfaces available while the request waits were available before, or are exported by a loaded
chainable controller. -/
theorem switchBegin_grow {o : Oracle} {cm : CM} {act deact : List Name} {asap : Bool}
    (h : (cm.switchBegin o act deact .strict asap).2 = .wait) :
    cm.rm.availC ⊆ (cm.switchBegin o act deact .strict asap).1.rm.availC ∧
    cm.rm.availS ⊆ (cm.switchBegin o act deact .strict asap).1.rm.availS ∧
    (∀ i ∈ (cm.switchBegin o act deact .strict asap).1.rm.availC, i ∈ cm.rm.availC ∨ ∃ n l, cm.rm.expR n = some l ∧ i ∈ l) ∧
    (∀ i ∈ (cm.switchBegin o act deact .strict asap).1.rm.availS, i ∈ cm.rm.availS ∨ ∃ n l, cm.rm.expS n = some l ∧ i ∈ l) := by
  unfold CM.switchBegin at h ⊢
  extract_lets _ sw0 at h ⊢
  cases hd : cm.listControllers .strict deact with
  | none => simp [hd] at h
  | some d =>
  cases ha : cm.listControllers .strict act with
  | none => simp [hd, ha] at h
  | some a =>
  simp only [hd, ha] at h ⊢
  generalize hx : ({ cm with sw := { sw0 with deact := d, act := a } } : CM) = x0 at h ⊢
  have x0rm : x0.rm = cm.rm := by rw [← hx]
  obtain ⟨_, hc⟩ := validate_cases o x0 .strict asap
  have : (x0.vAct .strict).2 = true ∧ (x0.vDeact .strict).2 = true ∧ (x0.vConf .strict).2 = true ∧
      Waits .strict asap (x0.vConf .strict).1 (x0.validate o .strict asap) := by
    rcases hc with hc | ⟨h1, h2, ⟨hc, _⟩ | ⟨h3, ⟨hc, _⟩ | W⟩⟩
    · rw [h] at hc; simp at hc
    · rw [h] at hc; simp at hc
    · rw [h] at hc; simp at hc
    · exact ⟨h1, h2, h3, W⟩
  obtain ⟨h1, h2, h3, W⟩ := this
  have m1 : Mild x0 (x0.vAct .strict).1 := (propagate_mild x0 x0.ctls).trans (actLoop_strict _ _ _ h1).1
  have e2 : (x0.vDeact .strict).1 = (x0.vAct .strict).1 := (deactLoop_strict _ _ _ h2).1
  rw [← e2] at m1
  obtain ⟨R, C⟩ := conflictLoop_strict _ _ h3
  obtain ⟨u, hu⟩ := C.only
  obtain ⟨es, hes⟩ := W.rm
  have eC : (x0.validate o .strict asap).1.rm.availC = (x0.vDeact .strict).1.rm.availC := by
    rw [hes]; change (x0.vConf .strict).1.rm.availC = _; rw [show (x0.vConf .strict).1 = _ from hu]
  have eS : (x0.validate o .strict asap).1.rm.availS = (x0.vDeact .strict).1.rm.availS := by
    rw [hes]; change (x0.vConf .strict).1.rm.availS = _; rw [show (x0.vConf .strict).1 = _ from hu]
  rw [eC, eS, ← x0rm]
  exact ⟨m1.availC, m1.availS, m1.growC, m1.growS⟩

end CM
end Verif
