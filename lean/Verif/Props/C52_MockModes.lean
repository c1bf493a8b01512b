import Verif.Props.C52_MockDynamics
import Mathlib.Data.List.Nodup
/-!
# C52: simulated dynamics and command modes of the mock hardware
-/
namespace Verif.Mock
open Verif (Dbl)

/-! ### Dynamics -/

/-- Joint `i` is `j`, it is simulated, in mode `m`; its interfaces are of type `double`; it is no mimic joint and shares no name with sensors and gpios. -/
structure Simulated (c : Cfg) (s : St) (j : Str) (m : Mode) : Prop where
  enabled : c.disabled = false
  dynamics : c.dynamics = true
  nodup : c.joints.Nodup
  mode : ∃ i : Nat, c.joints[i]? = some j ∧ s.modes[i]? = some m
  states : ∀ itf, Pva3 itf → c.stTy (j, itf) = some .dbl ∨ c.stTy (j, itf) = none
  commands : ∀ itf, Pva3 itf → c.cmTy (j, itf) = some .dbl ∨ c.cmTy (j, itf) = none
  noMimic : ∀ itf, NoMimic c (j, itf)
  jointOnly : ∀ itf, JointOnly c (j, itf)

/-- A value, NaN if there is no such interface. -/
def valueOf (has : Bool) (d : Dbl) : Dbl := if has then d else .nan

/-- The three values of the state of a joint, and of its commands. -/
def stateOf (c : Cfg) (s : St) (j : Str) : Pva :=
  { p := valueOf (c.hasState (j, position)) (s.st (j, position)), v := valueOf (c.hasState (j, velocity)) (s.st (j, velocity)),
    a := valueOf (c.hasState (j, acceleration)) (s.st (j, acceleration)) }

def commandOf (c : Cfg) (s : St) (j : Str) : Pva :=
  { p := valueOf (c.hasCommand (j, position)) (s.cm (j, position)), v := valueOf (c.hasCommand (j, velocity)) (s.cm (j, velocity)),
    a := valueOf (c.hasCommand (j, acceleration)) (s.cm (j, acceleration)) }

theorem orNan_state (c : Cfg) (s : St) (k : Key) (h : c.stTy k = some .dbl ∨ c.stTy k = none) :
    orNan (c.hasState k) (getSt c s k) = some (valueOf (c.hasState k) (s.st k)) := by
  unfold orNan valueOf getSt Cfg.hasState
  rcases h with h | h <;> rw [h] <;> rfl

theorem orNan_command (c : Cfg) (s : St) (k : Key) (h : c.cmTy k = some .dbl ∨ c.cmTy k = none) :
    orNan (c.hasCommand k) (getCm c s k) = some (valueOf (c.hasCommand k) (s.cm k)) := by
  unfold orNan valueOf getCm Cfg.hasCommand
  rcases h with h | h <;> rw [h] <;> rfl

theorem pva_p : Pva3 position := .inl rfl
theorem pva_v : Pva3 velocity := .inr (.inl rfl)
theorem pva_a : Pva3 acceleration := .inr (.inr rfl)

theorem back_at {c : Cfg} {k : Key} {d : Dbl} {s : St} (h : (back c k d s).2 = .ok) :
    (back c k d s).1.st k = if d.isFinite ∧ c.hasState k = true then d else s.st k := by
  unfold back at h ⊢
  by_cases g : d.isFinite ∧ c.hasState k = true
  · rw [if_pos g] at h ⊢; rw [if_pos g, (setSt_ok h).2, put_same]
  · rw [if_neg g, if_neg g]

theorem dynJoint_at {c : Cfg} {dt : Dbl} {j : Str} {m : Mode} {s : St}
    (hs : ∀ itf, Pva3 itf → c.stTy (j, itf) = some .dbl ∨ c.stTy (j, itf) = none)
    (hc : ∀ itf, Pva3 itf → c.cmTy (j, itf) = some .dbl ∨ c.cmTy (j, itf) = none)
    (hok : (dynJoint c dt (j, m) s).2 = .ok) :
    let y := dyn m c.off dt (stateOf c s j) (commandOf c s j)
    (dynJoint c dt (j, m) s).1.st (j, position) = (if y.p.isFinite ∧ c.hasState (j, position) = true then y.p else s.st (j, position)) ∧
    (dynJoint c dt (j, m) s).1.st (j, velocity) = (if y.v.isFinite ∧ c.hasState (j, velocity) = true then y.v else s.st (j, velocity)) ∧
    (dynJoint c dt (j, m) s).1.st (j, acceleration) =
      (if y.a.isFinite ∧ c.hasState (j, acceleration) = true then y.a else s.st (j, acceleration)) := by
  intro y
  have t1 : three j (getSt c s) c.hasState = some (stateOf c s j) := by
    unfold three
    rw [orNan_state c s _ (hs _ pva_p), orNan_state c s _ (hs _ pva_v), orNan_state c s _ (hs _ pva_a)]; rfl
  have t2 : three j (getCm c s) c.hasCommand = some (commandOf c s j) := by
    unfold three
    rw [orNan_command c s _ (hc _ pva_p), orNan_command c s _ (hc _ pva_v), orNan_command c s _ (hc _ pva_a)]; rfl
  unfold dynJoint at hok ⊢
  dsimp only at hok ⊢
  rw [t1, t2] at hok ⊢
  dsimp only at hok ⊢
  obtain ⟨o1, o2, o3⟩ := andThen_ok hok
  obtain ⟨p1, p2, p3⟩ := andThen_ok o1
  rw [o3, p3]
  rw [p3] at o2
  have ne1 : ((j, position) : Key) ≠ (j, velocity) := fun h => absurd (show position = velocity from congrArg Prod.snd h) (by decide)
  have ne2 : ((j, position) : Key) ≠ (j, acceleration) := fun h => absurd (show position = acceleration from congrArg Prod.snd h) (by decide)
  have ne3 : ((j, velocity) : Key) ≠ (j, acceleration) := fun h => absurd (show velocity = acceleration from congrArg Prod.snd h) (by decide)
  refine ⟨?_, ?_, ?_⟩
  · rw [(only_back c _ _ _).2 _ ne2, (only_back c _ _ _).2 _ ne1, back_at p1]
  · rw [(only_back c _ _ _).2 _ ne3, back_at p2, (only_back c _ _ _).2 _ ne1.symm]
  · rw [back_at o2, (only_back c _ _ _).2 _ ne3.symm, (only_back c _ _ _).2 _ ne2.symm]

theorem zip_fst_sublist {α β : Type} : ∀ (xs : List α) (ys : List β), List.Sublist ((xs.zip ys).map (·.1)) xs
  | [], _ => by simp
  | x :: xs, [] => by simp
  | x :: xs, y :: ys => by
    rw [List.zip_cons_cons, List.map_cons]; exact (zip_fst_sublist xs ys).cons_cons x

theorem simulated_result {c : Cfg} {s : St} {j : Str} {m : Mode} {dt : Dbl} (h : Simulated c s j m) (hok : (read c dt s).2 = .ok) :
    let y := dyn m c.off dt (stateOf c s j) (commandOf c s j)
    (read c dt s).1.st (j, position) = (if y.p.isFinite ∧ c.hasState (j, position) = true then y.p else s.st (j, position)) ∧
    (read c dt s).1.st (j, velocity) = (if y.v.isFinite ∧ c.hasState (j, velocity) = true then y.v else s.st (j, velocity)) ∧
    (read c dt s).1.st (j, acceleration) =
      (if y.a.isFinite ∧ c.hasState (j, acceleration) = true then y.a else s.st (j, acceleration)) := by
  intro y
  have hskip : c.skip = [position, velocity, acceleration] := by unfold Cfg.skip; rw [if_pos h.dynamics]
  have rk : ∀ itf, itf ∈ [position, velocity, acceleration] → (read c dt s).1.st (j, itf) = (joints c dt s).1.st (j, itf) :=
    fun itf hi => rest_keeps h.enabled hok (by rw [hskip]; exact hi) (h.noMimic itf) (h.jointOnly itf)
  rw [rk position (by simp), rk velocity (by simp), rk acceleration (by simp)]
  obtain ⟨_, _, _, _, r1, _⟩ := read_ok h.enabled hok
  have ej : (joints c dt s).1 = (loop (dynJoint c dt) (c.joints.zip s.modes) s).1 ∧ (loop (dynJoint c dt) (c.joints.zip s.modes) s).2 = .ok := by
    unfold joints at r1 ⊢
    rw [if_pos h.dynamics] at r1 ⊢
    obtain ⟨o1, o2, o3⟩ := andThen_ok r1
    refine ⟨?_, o1⟩
    rw [o3]; split <;> rfl
  rw [ej.1]
  have rl := ej.2
  obtain ⟨i, hi1, hi2⟩ := h.mode
  have hmem : (j, m) ∈ c.joints.zip s.modes := by
    apply List.mem_of_getElem? (i := i)
    rw [List.getElem?_zip_eq_some]; exact ⟨hi1, hi2⟩
  obtain ⟨l1, l2, hl⟩ := List.append_of_mem hmem
  have hnd : ((c.joints.zip s.modes).map (·.1)).Nodup := by
    exact List.Sublist.nodup (zip_fst_sublist _ _) h.nodup
  rw [hl, List.map_append, List.map_cons] at hnd
  have hno1 : ∀ x ∈ l1, x.1 ≠ j := by
    intro x hx e
    rw [List.nodup_append] at hnd
    exact hnd.2.2 x.1 (List.mem_map.2 ⟨x, hx, rfl⟩) j (by simp) e
  have hno2 : ∀ x ∈ l2, x.1 ≠ j := by
    intro x hx e
    rw [List.nodup_append, List.nodup_cons] at hnd
    exact hnd.2.1.1 (List.mem_map.2 ⟨x, hx, e⟩)
  rw [hl, loop_append] at rl ⊢
  obtain ⟨o1, o2, o3⟩ := andThen_ok rl
  rw [o3]
  rw [loop_cons] at o2 ⊢
  have fr1 := only_loop (f := dynJoint c dt) (l := l1) (w := fun k => k.1 ≠ j) (fun x hx => (only_dynJoint c dt x).mono (fun k hk => by
    rw [hk.1]; exact hno1 x hx)) s
  have fr2 := only_loop (f := dynJoint c dt) (l := l2) (w := fun k => k.1 ≠ j) (fun x hx => (only_dynJoint c dt x).mono (fun k hk => by
    rw [hk.1]; exact hno2 x hx))
  generalize (loop (dynJoint c dt) l1 s).1 = s1 at o2 fr1 ⊢
  by_cases g : (dynJoint c dt (j, m) s1).2 = .ok
  · rw [if_pos g] at o2 ⊢
    have fin := dynJoint_at h.states h.commands g
    have es : stateOf c s1 j = stateOf c s j := by
      unfold stateOf; rw [fr1.2 _ (fun q => q rfl), fr1.2 _ (fun q => q rfl), fr1.2 _ (fun q => q rfl)]
    have ec : commandOf c s1 j = commandOf c s j := by
      unfold commandOf; rw [fr1.1.1]
    rw [es, ec] at fin
    rw [(fr2 _).2 _ (fun q => q rfl), (fr2 _).2 _ (fun q => q rfl), (fr2 _).2 _ (fun q => q rfl)]
    rw [fr1.2 _ (fun q => q rfl), fr1.2 _ (fun q => q rfl), fr1.2 _ (fun q => q rfl)] at fin
    exact fin
  · rw [if_neg g] at o2; exact absurd o2 g

/-- **C52 (velocity mode).** A joint in velocity mode with the finite velocity command `v` moves by `v` times the period and has the velocity `v`. -/
theorem C52_velocity_mode (c : Cfg) (s : St) (j : Str) (h : Simulated c s j .vel) (p v d : Rat)
    (hp : c.hasState (j, position) = true) (hp' : s.st (j, position) = .fin p)
    (hv : c.hasCommand (j, velocity) = true) (hv' : s.cm (j, velocity) = .fin v) (hok : (read c (.fin d) s).2 = .ok) :
    (read c (.fin d) s).1.st (j, position) = .fin (p + v * d) ∧
    (c.hasState (j, velocity) = true → (read c (.fin d) s).1.st (j, velocity) = .fin v) := by
  obtain ⟨r1, r2, _⟩ := simulated_result h hok
  rw [r1, r2]
  simp [dyn, stateOf, commandOf, valueOf, hp, hp', hv, hv', moved, Dbl.isFinite, Dbl.mul, Dbl.add]
  intro h1 h2; rw [h1] at h2; cases h2

/-- **C52 (acceleration mode).** A joint in acceleration mode with the finite command `a` gains `a` times the period of velocity and moves
with the new velocity. -/
theorem C52_acceleration_mode (c : Cfg) (s : St) (j : Str) (h : Simulated c s j .acc) (p v a d : Rat)
    (hp : c.hasState (j, position) = true) (hp' : s.st (j, position) = .fin p)
    (hv : c.hasState (j, velocity) = true) (hv' : s.st (j, velocity) = .fin v)
    (ha : c.hasCommand (j, acceleration) = true) (ha' : s.cm (j, acceleration) = .fin a) (hok : (read c (.fin d) s).2 = .ok) :
    (read c (.fin d) s).1.st (j, velocity) = .fin (v + a * d) ∧
    (read c (.fin d) s).1.st (j, position) = .fin (p + (v + a * d) * d) ∧
    (c.hasState (j, acceleration) = true → (read c (.fin d) s).1.st (j, acceleration) = .fin a) := by
  obtain ⟨r1, r2, r3⟩ := simulated_result h hok
  rw [r1, r2, r3]
  simp [dyn, stateOf, commandOf, valueOf, hp, hp', hv, hv', ha, ha', moved, Dbl.isFinite, Dbl.isNan, Dbl.mul, Dbl.add]
  intro h1 h2; rw [h1] at h2; cases h2

/-- **C52 (position mode).** A joint in position mode with a finite command is there after `read`, with the offset unless a custom interface carries
it; the velocity is the difference quotient. -/
theorem C52_position_mode (c : Cfg) (s : St) (j : Str) (h : Simulated c s j .pos) (p u o d : Rat) (hd : d ≠ 0)
    (hp : c.hasState (j, position) = true) (hp' : s.st (j, position) = .fin p)
    (hu : c.hasCommand (j, position) = true) (hu' : s.cm (j, position) = .fin u)
    (ho : (if c.custom = [] then c.offset else 0) = .fin o) (hok : (read c (.fin d) s).2 = .ok) :
    (read c (.fin d) s).1.st (j, position) = .fin (u + o) ∧
    (c.hasState (j, velocity) = true → (read c (.fin d) s).1.st (j, velocity) = .fin ((u + o - p) / d)) := by
  obtain ⟨r1, r2, _⟩ := simulated_result h hok
  rw [r1, r2]
  have ho' : c.off = .fin o := ho
  simp [dyn, stateOf, commandOf, valueOf, hp, hp', hu, hu', ho', Dbl.isFinite, Dbl.div, Dbl.add, Dbl.sub, Dbl.neg, hd, sub_eq_add_neg]
  intro h1 h2; rw [h1] at h2; cases h2

/-- `n` periods. -/
def reads (c : Cfg) (dt : Dbl) (n : Nat) (s : St) : St × Res := run c (List.replicate n (.read dt)) s

/-- **C52 (constant velocity).** A constant velocity command moves the joint by `n * v * period` in `n` periods. -/
theorem C52_constant_velocity (c : Cfg) (j : Str) (v d : Rat) (n : Nat) (s : St) (p : Rat) (h : Simulated c s j .vel)
    (hp : c.hasState (j, position) = true) (hp' : s.st (j, position) = .fin p)
    (hv : c.hasCommand (j, velocity) = true) (hv' : s.cm (j, velocity) = .fin v) (hok : (reads c (.fin d) n s).2 = .ok) :
    (reads c (.fin d) n s).1.st (j, position) = .fin (p + n * v * d) := by
  induction n generalizing s p with
  | zero =>
    show s.st _ = _
    rw [hp']; congr 1; simp
  | succ n ih =>
    unfold reads at hok ⊢
    rw [List.replicate_succ] at hok ⊢
    obtain ⟨h1, h2⟩ := run_cons c _ _ s hok
    rw [h2] at hok ⊢
    have hr : (step c s (.read (.fin d))) = read c (.fin d) s := rfl
    rw [hr] at h1 hok ⊢
    have sm := same_read c (.fin d) s
    have hsim : Simulated c (read c (.fin d) s).1 j .vel :=
      ⟨h.enabled, h.dynamics, h.nodup, by rw [sm.2.2]; exact h.mode, h.states, h.commands, h.noMimic, h.jointOnly⟩
    have := ih (read c (.fin d) s).1 (p + v * d) hsim (C52_velocity_mode c s j h p v d hp hp' hv hv' h1).1
      (by rw [sm.1]; exact hv') hok
    rw [show run c (List.replicate n (.read (.fin d))) (read c (.fin d) s).1 = reads c (.fin d) n (read c (.fin d) s).1 from rfl, this]
    congr 1
    push_cast
    ring

/-! ### Command modes -/

/-- The mode of an interface. -/
def wanted (itf : Str) : Option Mode :=
  if itf = position then some .pos else if itf = velocity then some .vel else if itf = acceleration then some .acc else none

theorem full_inj {j a b : Str} (h : full j a = full j b) : a = b := by
  unfold full at h
  have := List.append_cancel_left h
  injection this

theorem modeOf_full (j itf : Str) : modeOf j (full j itf) = wanted itf := by
  unfold modeOf wanted
  by_cases h1 : itf = position
  · subst h1; simp
  · by_cases h2 : itf = velocity
    · subst h2
      rw [if_neg (fun g => h1 (full_inj g)), if_pos rfl, if_neg h1, if_pos rfl]
    · by_cases h3 : itf = acceleration
      · subst h3
        rw [if_neg (fun g => h1 (full_inj g)), if_neg (fun g => h2 (full_inj g)), if_pos rfl, if_neg h1, if_neg h2, if_pos rfl]
      · rw [if_neg (fun g => h1 (full_inj g)), if_neg (fun g => h2 (full_inj g)), if_neg (fun g => h3 (full_inj g)), if_neg h1, if_neg h2,
          if_neg h3]

theorem modeOf_some {j key : Str} {m : Mode} (h : modeOf j key = some m) : ∃ itf, key = full j itf ∧ wanted itf = some m := by
  have : key = full j position ∨ key = full j velocity ∨ key = full j acceleration := by
    unfold modeOf at h
    split at h
    · exact .inl ‹_›
    · split at h
      · exact .inr (.inl ‹_›)
      · split at h
        · exact .inr (.inr ‹_›)
        · cases h
  rcases this with rfl | rfl | rfl <;> exact ⟨_, rfl, by rw [← modeOf_full]; exact h⟩

/-- The effect of a key on joint `i`. -/
def effect (js : List Str) (i : Nat) (key : Str) : Option Mode :=
  if jointOf js key = some i then js[i]?.bind (modeOf · key) else none

theorem perform1_get (js : List Str) (modes : List Mode) (key : Str) (i : Nat) (hi : i < modes.length) :
    (perform1 js modes key)[i]? = some ((effect js i key).getD modes[i]) ∧ (perform1 js modes key).length = modes.length := by
  unfold perform1 effect
  cases hj : jointOf js key with
  | none => simp [hi]
  | some i' =>
    dsimp only
    by_cases e : i' = i
    · subst e
      cases hm : js[i']?.bind (modeOf · key) with
      | none => simp [hi]
      | some m => simp [hi]
    · cases hm : js[i']?.bind (modeOf · key) with
      | none => simp [hi, e]
      | some m => simp [hi, e]

theorem perform_get (js : List Str) (start : List Str) (modes : List Mode) (i : Nat) (hi : i < modes.length) :
    (start.foldl (perform1 js) modes)[i]? = some (((start.filterMap (effect js i)).getLast?).getD modes[i]) := by
  induction start generalizing modes with
  | nil => simp [hi]
  | cons key t ih =>
    obtain ⟨h1, h2⟩ := perform1_get js modes key i hi
    have hi' : i < (perform1 js modes key).length := by rw [h2]; exact hi
    rw [List.foldl_cons, ih _ hi']
    have hget : (perform1 js modes key)[i] = (effect js i key).getD modes[i] := by
      rw [List.getElem?_eq_getElem hi'] at h1; injection h1
    rw [hget, List.filterMap_cons]
    cases he : effect js i key with
    | none => rfl
    | some m =>
      dsimp only
      rw [List.getLast?_cons]
      cases (List.filterMap (effect js i) t).getLast? <;> rfl

theorem count_filterMap (js : List Str) (start : List Str) (i : Nat) :
    (start.filterMap (effect js i)).length = (requests js start i).2 := by
  unfold requests
  induction start with
  | nil => rfl
  | cons key t ih =>
    dsimp only at ih ⊢
    rw [List.filterMap_cons, List.countP_cons]
    unfold effect at ih ⊢
    by_cases hj : jointOf js key = some i
    · rw [if_pos hj]
      cases hm : js[i]?.bind (modeOf · key) with
      | none => simp only [hj, beq_self_eq_true, Option.isSome_none, Bool.and_false, Bool.false_eq_true, if_false, Nat.add_zero]; exact ih
      | some m =>
        dsimp only
        rw [List.length_cons, ih]
        simp [hj]
    · rw [if_neg hj]
      simp only [Bool.false_and, Bool.false_eq_true, if_false, Nat.add_zero, beq_eq_false_iff_ne.2 hj]
      exact ih

/-- No joint name occurs in the name of a standard interface of another joint. -/
def Separate (js : List Str) : Prop :=
  ∀ j ∈ js, ∀ j' ∈ js, ∀ itf, (wanted itf).isSome = true → j <:+: full j' itf → j = j'

theorem jointOf_full {js : List Str} (hn : js.Nodup) (hs : Separate js) {i : Nat} {j itf : Str} (hi : js[i]? = some j)
    (hw : (wanted itf).isSome = true) : jointOf js (full j itf) = some i := by
  unfold jointOf
  obtain ⟨hlt, hget⟩ := List.getElem?_eq_some_iff.1 hi
  rw [List.findIdx?_eq_some_iff_getElem]
  refine ⟨hlt, ?_, ?_⟩
  · rw [hget]; simp only [decide_eq_true_eq]; unfold full; exact (List.prefix_append j _).isInfix
  · intro k hk
    simp only [decide_eq_true_eq]
    intro hin
    have := hs js[k] (List.getElem_mem _) j (by rw [← hget]; exact List.getElem_mem _) itf hw hin
    rw [← hget] at this
    have := (List.Nodup.getElem_inj_iff hn).1 this
    omega

/-- **C52 (command modes), if joint names are separate.** An accepted request puts every joint of which it names a standard interface into the mode
of that interface, and leaves the mode of the other joints. -/
theorem C52_switch_partial (c : Cfg) (start : List Str) (s : St) (hdyn : c.dynamics = true) (hn : c.joints.Nodup) (hs : Separate c.joints)
    (hl : s.modes.length = c.joints.length) (hacc : prepare c start = true) (i : Nat) (j : Str) (hi : c.joints[i]? = some j) :
    (∀ itf m, wanted itf = some m → full j itf ∈ start → (perform c start s).modes[i]? = some m) ∧
    ((∀ itf, (wanted itf).isSome = true → full j itf ∉ start) → (perform c start s).modes[i]? = s.modes[i]?) := by
  obtain ⟨hlt, hget⟩ := List.getElem?_eq_some_iff.1 hi
  have hilt : i < s.modes.length := by omega
  have hperf : (perform c start s).modes = start.foldl (perform1 c.joints) s.modes := by unfold perform; rw [if_pos hdyn]
  rw [hperf, perform_get _ _ _ _ hilt]
  constructor
  · intro itf m hw hin
    have hone : (start.filterMap (effect c.joints i)).length ≤ 1 := by
      rw [count_filterMap]
      unfold prepare at hacc
      rw [hdyn] at hacc
      simp only [Bool.not_true, Bool.false_or, List.all_eq_true, List.mem_range, Bool.and_eq_true] at hacc
      have := (hacc i hlt).2
      simp only [Bool.not_eq_true', decide_eq_false_iff_not] at this
      omega
    have hmem : m ∈ start.filterMap (effect c.joints i) := by
      rw [List.mem_filterMap]
      refine ⟨_, hin, ?_⟩
      unfold effect
      rw [if_pos (jointOf_full hn hs hi (by rw [hw]; rfl)), hi, Option.bind_some, modeOf_full]; exact hw
    match hf : start.filterMap (effect c.joints i), hone, hmem with
    | [x], _, hmem => simp only [List.mem_singleton] at hmem; subst hmem; rfl
  · intro hno
    have : start.filterMap (effect c.joints i) = [] := by
      rw [List.filterMap_eq_nil_iff]
      intro key hkey
      unfold effect
      split
      · rw [hi, Option.bind_some]
        cases hm : modeOf j key with
        | none => rfl
        | some m =>
          obtain ⟨itf, e, hw⟩ := modeOf_some hm
          exact absurd (e ▸ hkey) (hno itf (by rw [hw]; rfl))
      · rfl
    rw [this, List.getElem?_eq_getElem hilt]; rfl

/-! ### No exceptions -/

/-- A description the mock hardware can work with: motion interfaces are of type `double`; a joint interface with a command has the same type on both
sides; the custom interface is of type `double` and its joint has a position command; a mimicked joint has the interfaces of the joint that mimics it;
sensors and gpios that are mirrored have a command of the same type. -/
structure Consistent (c : Cfg) : Prop where
  motion : ∀ k : Key, Pva3 k.2 → (c.stTy k = some .dbl ∨ c.stTy k = none) ∧ (c.cmTy k = some .dbl ∨ c.cmTy k = none)
  joint : ∀ i ∈ c.jointStates, c.stTy i.key = some i.ty ∧ (c.hasCommand i.key = true → c.cmTy i.key = some i.ty)
  customItf : ∀ i ∈ c.jointStates, i.key.2 = c.custom → i.ty = .dbl ∧ c.hasCommand (i.key.1, position) = true
  mimicked : ∀ m ∈ c.mimics, ∀ itf, Pva3 itf → c.hasState (m.joint, itf) = true → c.hasState (m.mimicked, itf) = true
  commanded : ∀ i ∈ c.jointCommands, i.key.2 = position → c.hasCommand i.key = true
  sensor : c.mockSensor = true → ∀ i ∈ c.sensorStates, c.stTy i.key = some i.ty ∧ c.cmTy i.key = some i.ty
  gpio : c.mockGpio = true → ∀ i ∈ c.gpioStates, c.stTy i.key = some i.ty ∧ c.cmTy i.key = some i.ty
  gpioC : c.mockGpio = false → ∀ i ∈ c.gpioCommands, c.hasState i.key = true → c.stTy i.key = some i.ty ∧ c.cmTy i.key = some i.ty

theorem andThen_noThrow {x : St × Res} {f : St → St × Res} (h1 : x.2 ≠ .thrown) (h2 : ∀ s, (f s).2 ≠ .thrown) : (andThen x f).2 ≠ .thrown := by
  rw [andThen_eq]; split
  · exact h2 _
  · exact h1

theorem loop_noThrow {α : Type} {f : α → St → St × Res} : ∀ (l : List α) (_ : ∀ a ∈ l, ∀ s, (f a s).2 ≠ .thrown) (s : St), (loop f l s).2 ≠ .thrown
  | [], _, s => by rw [loop]; exact fun e => by cases e
  | a :: t, h, s => by
    rw [loop_cons]; split
    · exact loop_noThrow t (fun b hb => h b (by simp [hb])) _
    · exact h a (by simp) s

theorem setSt_noThrow {c : Cfg} {k : Key} (h : c.stTy k = some .dbl) (d : Dbl) (s : St) : (setSt c k d s).2 ≠ .thrown := by
  unfold setSt; rw [h]; exact fun e => by cases e

theorem mirror_noThrow {c : Cfg} {k : Key} {ty : Ty} (h1 : c.stTy k = some ty) (h2 : c.cmTy k = some ty) (s : St) :
    (mirror c k ty s).2 ≠ .thrown := by
  unfold mirror
  cases ty with
  | dbl =>
    dsimp only
    have : getCm c s k = some (s.cm k) := by unfold getCm; rw [h2]
    rw [this]
    dsimp only
    split
    · exact fun e => by cases e
    · split
      · exact setSt_noThrow h1 _ s
      · exact fun e => by cases e
  | bool => dsimp only; rw [if_pos ⟨h2, h1⟩]; exact fun e => by cases e
  | other => exact fun e => by cases e

theorem dbl_of_has {c : Cfg} {k : Key} (h : c.stTy k = some .dbl ∨ c.stTy k = none) (hs : c.hasState k = true) : c.stTy k = some .dbl := by
  rcases h with h | h
  · exact h
  · unfold Cfg.hasState at hs; rw [h] at hs; cases hs

theorem dbl_of_hasC {c : Cfg} {k : Key} (h : c.cmTy k = some .dbl ∨ c.cmTy k = none) (hs : c.hasCommand k = true) : c.cmTy k = some .dbl := by
  rcases h with h | h
  · exact h
  · unfold Cfg.hasCommand at hs; rw [h] at hs; cases hs

theorem back_noThrow {c : Cfg} {k : Key} (h : c.stTy k = some .dbl ∨ c.stTy k = none) (d : Dbl) (s : St) : (back c k d s).2 ≠ .thrown := by
  unfold back
  split
  · rename_i g; exact setSt_noThrow (dbl_of_has h g.2) d s
  · exact fun e => by cases e

theorem mimic1_noThrow {c : Cfg} (hc : Consistent c) {m : Mimic} (hm : m ∈ c.mimics) {itf : Str} (hi : Pva3 itf) (off : Dbl) (s : St) :
    (mimic1 c m itf off s).2 ≠ .thrown := by
  unfold mimic1
  split
  · rename_i h
    have h2 := hc.mimicked m hm itf hi h
    have t2 := dbl_of_has (hc.motion (m.mimicked, itf) hi).1 h2
    have : getSt c s (m.mimicked, itf) = some (s.st (m.mimicked, itf)) := by unfold getSt; rw [t2]
    rw [this]
    exact setSt_noThrow (dbl_of_has (hc.motion (m.joint, itf) hi).1 h) _ s
  · exact fun e => by cases e

/-- **C52 (no exceptions).** For a consistent description `read` does not throw after `on_configure` (which makes a mode for every joint). -/
theorem C52_no_throw (c : Cfg) (hc : Consistent c) (dt : Dbl) (s : St) (hl : c.joints.length ≤ s.modes.length) :
    (read c dt s).2 ≠ .thrown := by
  unfold read
  split
  · exact fun e => by cases e
  · refine andThen_noThrow (andThen_noThrow (andThen_noThrow (andThen_noThrow ?_ (loop_noThrow _ ?_)) (loop_noThrow _ ?_)) ?_) ?_
    · unfold joints
      split
      · refine andThen_noThrow (loop_noThrow _ ?_ s) ?_
        · intro jm _ s
          unfold dynJoint
          have t1 : three jm.1 (getSt c s) c.hasState = some (stateOf c s jm.1) := by
            unfold three
            rw [orNan_state c s _ (hc.motion (jm.1, position) pva_p).1, orNan_state c s _ (hc.motion (jm.1, velocity) pva_v).1,
              orNan_state c s _ (hc.motion (jm.1, acceleration) pva_a).1]; rfl
          have t2 : three jm.1 (getCm c s) c.hasCommand = some (commandOf c s jm.1) := by
            unfold three
            rw [orNan_command c s _ (hc.motion (jm.1, position) pva_p).2, orNan_command c s _ (hc.motion (jm.1, velocity) pva_v).2,
              orNan_command c s _ (hc.motion (jm.1, acceleration) pva_a).2]; rfl
          rw [t1, t2]
          exact andThen_noThrow (andThen_noThrow (back_noThrow (hc.motion _ pva_p).1 _ _) (back_noThrow (hc.motion _ pva_v).1 _))
            (back_noThrow (hc.motion _ pva_a).1 _)
        · intro s'; rw [if_neg (by omega)]; exact fun e => by cases e
      · refine loop_noThrow _ (fun _ _ => loop_noThrow _ (fun i hi s => ?_)) s
        unfold posMirror
        split
        · rename_i h
          have hcm := dbl_of_hasC (hc.motion i.key (by rw [h.1]; exact pva_p)).2 (hc.commanded i hi h.1)
          have : getCm c s i.key = some (s.cm i.key) := by unfold getCm; rw [hcm]
          rw [this]
          dsimp only
          split
          · exact setSt_noThrow (dbl_of_has (hc.motion i.key (by rw [h.1]; exact pva_p)).1 h.2) _ s
          · exact fun e => by cases e
        · exact fun e => by cases e
    · intro i hi s
      unfold loopback
      split
      · exact fun e => by cases e
      · refine andThen_noThrow ?_ ?_
        · split
          · rename_i h; exact mirror_noThrow (hc.joint i hi).1 ((hc.joint i hi).2 h) s
          · exact fun e => by cases e
        · intro s
          unfold follow
          split
          · rename_i h
            obtain ⟨h1, h2⟩ := hc.customItf i hi h.symm
            have hcm := dbl_of_hasC (hc.motion (i.key.1, position) pva_p).2 h2
            have : getCm c s (i.key.1, position) = some (s.cm (i.key.1, position)) := by unfold getCm; rw [hcm]
            rw [this]
            dsimp only
            split
            · exact setSt_noThrow (by rw [(hc.joint i hi).1, h1]) _ s
            · exact fun e => by cases e
          · exact fun e => by cases e
    · intro m hm s
      exact andThen_noThrow (andThen_noThrow (mimic1_noThrow hc hm pva_p _ s) (mimic1_noThrow hc hm pva_v _)) (mimic1_noThrow hc hm pva_a _)
    · intro s
      unfold sensors
      split
      · rename_i h; exact loop_noThrow _ (fun i hi s => mirror_noThrow (hc.sensor h i hi).1 (hc.sensor h i hi).2 s) s
      · exact fun e => by cases e
    · intro s
      unfold gpios
      split
      · rename_i h; exact loop_noThrow _ (fun i hi s => mirror_noThrow (hc.gpio h i hi).1 (hc.gpio h i hi).2 s) s
      · rename_i h
        refine loop_noThrow _ (fun i hi s => ?_) s
        split
        · rename_i g
          have := hc.gpioC (by simpa using h) i hi g
          exact mirror_noThrow this.1 this.2 s
        · exact fun e => by cases e

/-- **C52 (OK).** For a consistent description `read` returns OK as long as no command is infinite. -/
theorem C52_ok (c : Cfg) (hc : Consistent c) (dt : Dbl) (s : St) (hl : c.joints.length ≤ s.modes.length)
    (h : ∀ k, s.cm k ≠ .pinf ∧ s.cm k ≠ .ninf) : (read c dt s).2 = .ok := by
  cases hr : (read c dt s).2 with
  | ok => rfl
  | thrown => exact absurd hr (C52_no_throw c hc dt s hl)
  | error =>
    obtain ⟨k, _, hk⟩ := C52_error c dt s hr
    rcases hk with hk | hk
    · exact absurd hk (h k).1
    · exact absurd hk (h k).2

end Verif.Mock
