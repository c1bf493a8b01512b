import Verif.Pub.Hardware
import Verif.Props.C65_Start
/-!
# C88: the statistics of the hardware components are published
-/
namespace Verif.Pub
open Verif Boot

/-! ## Registrations of a list of components -/

/-- The component `n` of kind `k` has this variable. -/
def HasVar (n : Name) (k : HwKind) (x : HwKey) : Prop := x.comp = n ∧ (x.dir = .write → k ≠ .sensor)

instance (n k x) : Decidable (HasVar n k x) := by unfold HasVar; infer_instance

/-- What is registered under a name. -/
def under' (x : HwKey) (l : List HwEntry) : List Nat := (l.filter (fun e => e.key = x)).map (·.obj)

theorem half_under (n : Name) (d : Dir) (c : Clock) (obj : Nat) (x : HwKey) :
    under' x (registerHalf n d c obj) = if x.comp = n ∧ x.dir = d ∧ x.clock = c then [obj] else [] := by
  obtain ⟨a, b, c', f⟩ := x
  by_cases h1 : a = n ∧ b = d ∧ c' = c
  · obtain ⟨rfl, rfl, rfl⟩ := h1
    cases f <;> simp [under', registerHalf]
  · rw [if_neg h1]
    have : (registerHalf n d c obj).filter (fun e => e.key = (⟨a, b, c', f⟩ : HwKey)) = [] := by
      rw [List.filter_eq_nil_iff]
      intro e he hk
      simp only [registerHalf, List.mem_cons, List.not_mem_nil, or_false] at he
      rcases he with rfl | rfl | rfl | rfl | rfl | rfl <;>
        (simp only [decide_eq_true_eq, HwKey.mk.injEq] at hk; exact h1 ⟨hk.1.symm, hk.2.1.symm, hk.2.2.1.symm⟩)
    rw [under', this]; rfl

theorem under_append (x : HwKey) (a b : List HwEntry) : under' x (a ++ b) = under' x a ++ under' x b := by simp [under']

theorem comp_under (anon : Bool) (n : Name) (gen : Nat) (k : HwKind) :
    ∃ l, registerComp anon n (statsOf gen k) = some l ∧ ∀ x, under' x l = if anon = false ∧ HasVar n k x then [gen] else [] := by
  cases anon with
  | true => exact ⟨[], rfl, fun x => by simp [under']⟩
  | false =>
    by_cases hk : k = .sensor
    · refine ⟨_, by simp [registerComp, statsOf, hk]; rfl, fun x => ?_⟩
      rw [under_append, half_under, half_under]
      obtain ⟨a, b, c, f⟩ := x
      by_cases h1 : a = n <;> cases b <;> cases c <;> simp [HasVar, h1, hk]
    · refine ⟨_, by simp [registerComp, statsOf, hk]; rfl, fun x => ?_⟩
      simp only [under_append, half_under]
      obtain ⟨a, b, c, f⟩ := x
      by_cases h1 : a = n <;> cases b <;> cases c <;> simp [HasVar, h1, hk]

theorem hw_under (anon : Name → Bool) (gen : Nat) (cs : List (Name × HwKind)) (hn : (cs.map (·.1)).Nodup) :
    ∃ l, registerHw anon gen cs = some l ∧
      ∀ x, under' x l = if ∃ c ∈ cs, anon c.1 = false ∧ HasVar c.1 c.2 x then [gen] else [] := by
  induction cs with
  | nil => exact ⟨[], rfl, fun x => by simp [under']⟩
  | cons c t ih =>
    obtain ⟨n, k⟩ := c
    simp only [List.map_cons, List.nodup_cons] at hn
    obtain ⟨b, hb, hb'⟩ := ih hn.2
    obtain ⟨a, ha, ha'⟩ := comp_under (anon n) n gen k
    refine ⟨a ++ b, by simp [registerHw, ha, hb], fun x => ?_⟩
    rw [under_append, ha', hb']
    by_cases h1 : anon n = false ∧ HasVar n k x
    · have h2 : ¬ ∃ c ∈ t, anon c.1 = false ∧ HasVar c.1 c.2 x := by
        rintro ⟨c, hc, -, hh⟩
        exact hn.1 (List.mem_map.mpr ⟨c, hc, hh.1.symm.trans h1.2.1⟩)
      rw [if_pos h1, if_neg h2, if_pos ⟨(n, k), by simp, h1⟩]
      rfl
    · rw [if_neg h1, List.nil_append]
      by_cases h2 : ∃ c ∈ t, anon c.1 = false ∧ HasVar c.1 c.2 x
      · obtain ⟨c, hc, hh⟩ := h2
        rw [if_pos ⟨c, hc, hh⟩, if_pos ⟨c, List.mem_cons_of_mem _ hc, hh⟩]
      · rw [if_neg h2, if_neg]
        rintro ⟨c, hc, hh⟩
        rcases List.mem_cons.mp hc with rfl | hc
        · exact h1 hh
        · exact h2 ⟨c, hc, hh⟩

/-! ## Histories -/

theorem hwRun_snoc (anon : Name → Bool) (os : Nat → Oracle) (cfg : Cfg) (is : List In) (i : In) :
    hwRun anon os cfg (is ++ [i]) = hwStep anon os cfg (hwRun anon os cfg is) i := by simp [hwRun]

theorem hwRun_st (anon : Name → Bool) (os : Nat → Oracle) (cfg : Cfg) (is : List In) : (hwRun anon os cfg is).st = boot os cfg is := by
  induction is using List.reverseRecOn with
  | nil => rfl
  | append_singleton is i ih =>
    rw [hwRun_snoc, boot_append, ← ih]
    unfold hwStep
    dsimp only
    split
    · split <;> rfl
    · rfl

/-- Once the hardware is loaded it stays. -/
theorem kinds_step (os : Nat → Oracle) (cfg : Cfg) (hh : cfg.handle = true) (is : List In) (h : (boot os cfg is).inited = true) (i : In) :
    kinds (Boot.step os cfg (boot os cfg is) i) = kinds (boot os cfg is) ∧ (Boot.step os cfg (boot os cfg is) i).gen = (boot os cfg is).gen ∧
    (Boot.step os cfg (boot os cfg is) i).inited = true ∧ (Boot.step os cfg (boot os cfg is) i).dead = (boot os cfg is).dead := by
  obtain ⟨-, -, -, -, -, -, -, -, -, -, -, -, -, -, hr, -⟩ := C65_accepted os cfg hh is h
  have hI : CM.Inv (boot os cfg is).cm := hr.inv
  unfold Boot.step
  split
  · exact ⟨rfl, rfl, h, rfl⟩
  cases i with
  | desc d ord gord =>
    dsimp only
    rw [callback_in_use os cfg _ h]
    exact ⟨rfl, rfl, h, rfl⟩
  | op x =>
    dsimp only
    split
    · refine ⟨?_, rfl, h, rfl⟩
      have hs := (CM.step_used (os (boot os cfg is).gen) hI x).2
      have hc : ∀ l : List Hw, l.map (fun h => (h.name, h.kind)) = (l.map Hw.static).map (fun h => (h.name, h.kind)) := by
        intro l; rw [List.map_map]; rfl
      exact (hc _).trans ((congrArg _ hs).trans (hc _).symm)
    · exact ⟨rfl, rfl, h, rfl⟩
  | rtEnter => dsimp only; split <;> exact ⟨rfl, rfl, h, rfl⟩
  | rtLeave => exact ⟨rfl, rfl, h, rfl⟩

theorem hw_inv (anon : Name → Bool) (os : Nat → Oracle) (cfg : Cfg) (hh : cfg.handle = true) (is : List In) :
    (hwRun anon os cfg is).null = false ∧
    ∀ x, under' x (hwRun anon os cfg is).entries =
      if (boot os cfg is).inited = true ∧ (boot os cfg is).dead = false ∧ ∃ c ∈ kinds (boot os cfg is), anon c.1 = false ∧ HasVar c.1 c.2 x
      then [(boot os cfg is).gen] else [] := by
  induction is using List.reverseRecOn with
  | nil =>
    refine ⟨rfl, fun x => ?_⟩
    have h0 : (boot os cfg []).inited = false := rfl
    rw [h0, if_neg (by simp)]
    rfl
  | append_singleton is i ih =>
    obtain ⟨h1, h2⟩ := ih
    have hst := hwRun_st anon os cfg is
    rw [hwRun_snoc]
    unfold hwStep
    dsimp only
    rw [hst, ← boot_append]
    split
    · rename_i hc
      obtain ⟨-, -, -, -, -, -, -, -, -, -, -, -, -, -, hr, -⟩ := C65_accepted os cfg hh (is ++ [i]) hc.2.1
      have hn : ((kinds (boot os cfg (is ++ [i]))).map (·.1)).Nodup := by
        have : ((boot os cfg (is ++ [i])).cm.rm.comps.map (·.name)).Nodup := hr.inv.sys.claims.rm.names
        simpa [kinds, List.map_map, Function.comp_def] using this
      obtain ⟨l, hl, hu⟩ := hw_under anon (boot os cfg (is ++ [i])).gen _ hn
      rw [hl]
      refine ⟨h1, fun x => ?_⟩
      rw [under_append, h2, hu, if_neg (by simp [hc.1]), List.nil_append]
      simp only [hc.2.1, hc.2.2, true_and]
    · rename_i hc
      refine ⟨h1, fun x => ?_⟩
      dsimp only
      rw [h2]
      cases hi : (boot os cfg is).inited with
      | true =>
        obtain ⟨k1, k2, k3, k4⟩ := kinds_step os cfg hh is hi i
        rw [← boot_append] at k1 k2 k3 k4
        rw [k1, k2, k3, k4]
      | false =>
        rw [if_neg (by simp), if_neg]
        rintro ⟨c1, c2, -⟩
        exact hc ⟨hi, c1, c2⟩

/-- **C88, published statistics of the hardware.** Whatever descriptions arrive, whatever fails and whatever happens afterwards: before the services are
offered nothing is published about hardware; from then on each component with a name has the twelve variables of its reads, and those of its writes
unless it is a sensor, each registered once, reading from the statistics of the resource manager in use; there are no others; no missing object is used. -/
theorem C88_hardware (anon : Name → Bool) (os : Nat → Oracle) (cfg : Cfg) (hh : cfg.handle = true) (is : List In) :
    (hwRun anon os cfg is).st = boot os cfg is ∧ (hwRun anon os cfg is).null = false ∧
    ((boot os cfg is).services = false → (hwRun anon os cfg is).entries = []) ∧
    ((boot os cfg is).services = true → ∀ n d c f,
      ((∃ h ∈ (boot os cfg is).cm.rm.comps, h.name = n ∧ anon n = false ∧ (d = .write → h.kind ≠ .sensor)) →
        under' ⟨n, d, c, f⟩ (hwRun anon os cfg is).entries = [(boot os cfg is).gen]) ∧
      ((¬ ∃ h ∈ (boot os cfg is).cm.rm.comps, h.name = n ∧ anon n = false ∧ (d = .write → h.kind ≠ .sensor)) →
        under' ⟨n, d, c, f⟩ (hwRun anon os cfg is).entries = [])) := by
  obtain ⟨h1, h2⟩ := hw_inv anon os cfg hh is
  have hsv : (boot os cfg is).services = ((boot os cfg is).inited && !(boot os cfg is).dead) := by
    rcases boot_inv os cfg hh is with ⟨hi, W⟩ | ⟨hi, _, _, _, _, _, _, _, _, U⟩
    · rw [W.services, hi]; rfl
    · rw [U.services, hi]; rfl
  refine ⟨hwRun_st _ _ _ _, h1, fun hs => ?_, fun hs n d c f => ?_⟩
  · refine List.eq_nil_iff_forall_not_mem.mpr (fun e he => ?_)
    have := h2 e.key
    rw [if_neg (by rintro ⟨a, b, -⟩; rw [hsv, a, b] at hs; cases hs)] at this
    have hm : e.obj ∈ under' e.key (hwRun anon os cfg is).entries := List.mem_map.mpr ⟨e, List.mem_filter.mpr ⟨he, by simp⟩, rfl⟩
    rw [this] at hm; cases hm
  · rw [hsv] at hs
    simp only [Bool.and_eq_true, Bool.not_eq_true'] at hs
    have iff : (∃ k ∈ kinds (boot os cfg is), anon k.1 = false ∧ HasVar k.1 k.2 ⟨n, d, c, f⟩) ↔
        ∃ h ∈ (boot os cfg is).cm.rm.comps, h.name = n ∧ anon n = false ∧ (d = .write → h.kind ≠ .sensor) := by
      constructor
      · rintro ⟨k, hk, ha, hx, hy⟩
        obtain ⟨h, hm, rfl⟩ := List.mem_map.mp hk
        exact ⟨h, hm, hx.symm, by rw [show n = h.name from hx]; exact ha, hy⟩
      · rintro ⟨h, hm, rfl, ha, hy⟩
        exact ⟨_, List.mem_map.mpr ⟨h, hm, rfl⟩, ha, rfl, hy⟩
    rw [h2, ← iff]
    exact ⟨fun h => by rw [if_pos ⟨hs.1, hs.2, h⟩], fun h => by rw [if_neg (fun hx => h hx.2.2)]⟩

/-! ## The texts -/

/-- All variables. -/
def allVars : List Var' :=
  [none, some Dir.read, some Dir.write].flatMap fun d => [Clock.execution, Clock.periodicity].flatMap fun c =>
    [Field.max, .min, .average, .deviation, .count, .current].map fun f => ⟨d, c, f⟩

theorem allVars_mem (v : Var') : v ∈ allVars := by
  obtain ⟨d, c, f⟩ := v
  rcases d with _ | d
  · cases c <;> cases f <;> decide
  · cases d <;> cases c <;> cases f <;> decide

theorem tails : ∀ v ∈ allVars, ∀ w ∈ allVars, (varText [] v).isSuffixOf (varText [] w) = true → v = w := by decide +kernel

/-- **C88, names.** Two published variables have the same name only if they are the same variable of the same component or controller: also those of
controllers and of hardware components never coincide, whatever the names. -/
theorem C88_names (a b : List Char) (v w : Var') (h : varText a v = varText b w) : a = b ∧ v = w := by
  have ha : varText a v = a ++ varText [] v := by simp [varText]
  have hb : varText b w = b ++ varText [] w := by simp [varText]
  rw [ha, hb] at h
  have hvw : v = w := by
    rcases List.suffix_or_suffix_of_suffix (l₃ := a ++ varText [] v) (List.suffix_append _ _) (h ▸ List.suffix_append b (varText [] w)) with s | s
    · exact tails v (allVars_mem v) w (allVars_mem w) (List.isSuffixOf_iff_suffix.mpr s)
    · exact (tails w (allVars_mem w) v (allVars_mem v) (List.isSuffixOf_iff_suffix.mpr s)).symm
  subst hvw
  exact ⟨List.append_cancel_right h, rfl⟩

/-- The demo robot: two descriptions are rejected, the third one is accepted; its system has 24 variables. -/
example :
    let x := hwRun (fun _ => false) (fun _ => goodOracle) demoCfg demoIns
    x.st.services = true ∧ x.entries.length = 48 ∧ under' ⟨2, .write, .periodicity, .count⟩ x.entries = [2] ∧
    (hwRun (fun _ => false) (fun _ => goodOracle) demoCfg (demoIns.take 4)).entries = [] := by decide +kernel

/-- A component may be called like a controller. -/
example : varText "arm".toList ⟨some .read, .execution, .max⟩ = "arm.stats/read_cycle/execution_time/max".toList ∧
    varText "arm".toList ⟨none, .execution, .max⟩ = "arm.stats/execution_time/max".toList := by decide +kernel

end Verif.Pub
