import Verif.Desc.AcceptLemmas
import Verif.Props.C28_SoftLimits
/-!
# C55: the limits of a joint are the tightest ones its description gives

A description is a URDF (`urdf`) with `<ros2_control>` tags (`Hw`). `round` rounds a number to the nearest double. `limitsOf`
and `softOf` are what `parse_control_resources_from_urdf` stores for a joint, `limitersOf` the limiters the resource manager
makes.
-/
namespace Verif.Desc
open Verif (Dbl)
open Verif.Lim (Limits Soft Limiter)
open Dbl

variable {round : Rat → Option Rat}

theorem limitsOf_enabled {u : UJoint} {j : Joint} (h : j.enable = true) :
    limitsOf round u j = j.cmds.foldl (onItf round) (urdfLimits u) := by
  unfold limitsOf update; rw [h]; rfl

/-! ## Exactly the tightest bounds -/

/-- **C55, positions.** A joint has position limits if and only if the URDF or a position command interface gives some; its
lower limit is then the greatest of all lower bounds given and its upper limit the least of all upper bounds (or the largest
double, if there is a bound on the other side only). -/
theorem C55_position_limits (hr : Rounds round) (u : UJoint) (j : Joint) (he : j.enable = true)
    (hd : NoneDisabled .position j.cmds) :
    ((limitsOf round u j).hasPos = true ↔
      (∃ l, u.PosLimit l) ∨ ∃ i ∈ j.cmds, i.name = .position ∧ i.Usable round) ∧
    ((limitsOf round u j).hasPos = true → ∃ m M, (limitsOf round u j).minPos = fin m ∧ (limitsOf round u j).maxPos = fin M ∧
      Greatest (Lower round u j.cmds) (-dblMax) m ∧ Least (Upper round u j.cmds) dblMax M) := by
  rw [limitsOf_enabled he]
  have h := posInv_fold hr u j.cmds hd
  refine ⟨h.has, fun g => ?_⟩
  obtain ⟨m, e1, h1⟩ := h.lo
  obtain ⟨M, e2, h2⟩ := h.hi
  rw [if_pos g] at e1 e2
  exact ⟨m, M, e1, e2, h1, h2⟩

/-- **C55, velocities.** ... and its maximal velocity is the least of: the absolute value of the one in the URDF, the absolute value
of the `min` of each velocity command interface, and the `max` of each. -/
theorem C55_velocity_limit (hr : Rounds round) (u : UJoint) (j : Joint) (he : j.enable = true)
    (hd : NoneDisabled .velocity j.cmds) :
    ((limitsOf round u j).hasVel = true ↔ u.limit ≠ none ∨ ∃ i ∈ j.cmds, i.name = .velocity ∧ i.Usable round) ∧
    ((limitsOf round u j).hasVel = true → ∃ q, (limitsOf round u j).maxVel = fin q ∧
      Least (Speed round u j.cmds) dblMax q) := by
  rw [limitsOf_enabled he]
  have h := velInv_fold hr u j.cmds hd
  refine ⟨by rw [h.has]; cases u.limit <;> simp, fun g => ?_⟩
  obtain ⟨q, e, hq⟩ := h.val
  rw [if_pos g] at e
  refine ⟨q, e, hq.same fun x => ?_⟩
  unfold Speed Bounds
  refine or_congr ?_ Iff.rfl
  cases u.limit <;> simp [eq_comm]

/-- **C55, efforts.** ... and so is its maximal effort. -/
theorem C55_effort_limit (hr : Rounds round) (u : UJoint) (j : Joint) (he : j.enable = true)
    (hd : NoneDisabled .effort j.cmds) :
    ((limitsOf round u j).hasEff = true ↔ u.limit ≠ none ∨ ∃ i ∈ j.cmds, i.name = .effort ∧ i.Usable round) ∧
    ((limitsOf round u j).hasEff = true → ∃ q, (limitsOf round u j).maxEff = fin q ∧
      Least (Force round u j.cmds) dblMax q) := by
  rw [limitsOf_enabled he]
  have h := effInv_fold hr u j.cmds hd
  refine ⟨by rw [h.has]; cases u.limit <;> simp, fun g => ?_⟩
  obtain ⟨q, e, hq⟩ := h.val
  rw [if_pos g] at e
  refine ⟨q, e, hq.same fun x => ?_⟩
  unfold Force Bounds
  refine or_congr ?_ Iff.rfl
  cases u.limit <;> simp [eq_comm]

/-- **C55, accelerations.** Accelerations (decelerations) are limited if and only if the acceleration command interface is
enabled and gives a `max` (a `min`) - then to that number (to its absolute value). -/
theorem C55_acceleration_limits (u : UJoint) (j : Joint) (he : j.enable = true) (pre post : List Itf) (i : Itf)
    (hc : j.cmds = pre ++ i :: post) (hi : i.name = .acceleration) (h1 : ∀ k ∈ pre, k.name ≠ .acceleration)
    (h2 : ∀ k ∈ post, k.name ≠ .acceleration) :
    ((limitsOf round u j).hasAcc = true ↔ i.enable = true ∧ i.Usable round ∧ i.max ≠ []) ∧
    ((limitsOf round u j).hasDec = true ↔ i.enable = true ∧ i.Usable round ∧ i.min ≠ []) ∧
    (∀ q, i.Usable round → Reads round i.max q → (limitsOf round u j).maxAcc = fin q) ∧
    (∀ q, i.Usable round → Reads round i.min q → (limitsOf round u j).maxDec = fin |q|) := by
  rw [limitsOf_enabled he, hc, List.foldl_append, List.foldl_cons]
  obtain ⟨a1, a2, a3, a4⟩ := (fold_frame round pre (urdfLimits u)).2.2.2.1 h1
  generalize pre.foldl (onItf round) (urdfLimits u) = l at a1 a2 a3 a4 ⊢
  obtain ⟨b1, b2, b3, b4⟩ := (fold_frame round post (onItf round l i)).2.2.2.1 h2
  rw [b1, b2, b3, b4]
  have e : onItf round l i = onAcceleration round i l := by unfold onItf; rw [hi]
  rw [e]
  exact onAcceleration_spec (a1.trans (urdf_acc u).1) (a3.trans (urdf_acc u).2.2.1)

/-- **C55, jerks.** ... and likewise for jerks (absolute value of the `max`). -/
theorem C55_jerk_limit (u : UJoint) (j : Joint) (he : j.enable = true) (pre post : List Itf) (i : Itf)
    (hc : j.cmds = pre ++ i :: post) (hi : i.name = .jerk) (h1 : ∀ k ∈ pre, k.name ≠ .jerk)
    (h2 : ∀ k ∈ post, k.name ≠ .jerk) :
    ((limitsOf round u j).hasJerk = true ↔ i.enable = true ∧ i.Usable round ∧ i.max ≠ []) ∧
    (∀ q, i.Usable round → Reads round i.max q → (limitsOf round u j).maxJerk = fin |q|) := by
  rw [limitsOf_enabled he, hc, List.foldl_append, List.foldl_cons]
  obtain ⟨a1, -⟩ := (fold_frame round pre (urdfLimits u)).2.2.2.2 h1
  generalize pre.foldl (onItf round) (urdfLimits u) = l at a1 ⊢
  obtain ⟨b1, b2⟩ := (fold_frame round post (onItf round l i)).2.2.2.2 h2
  rw [b1, b2]
  have e : onItf round l i = onJerk round i l := by unfold onItf; rw [hi]
  rw [e]
  exact onJerk_spec (a1.trans (urdf_acc u).2.2.2.2)

/-- Without a command interface for them neither is limited. -/
theorem C55_no_acceleration_no_limit (u : UJoint) (j : Joint) (he : j.enable = true) :
    ((∀ k ∈ j.cmds, k.name ≠ .acceleration) → (limitsOf round u j).hasAcc = false ∧ (limitsOf round u j).hasDec = false) ∧
    ((∀ k ∈ j.cmds, k.name ≠ .jerk) → (limitsOf round u j).hasJerk = false) := by
  rw [limitsOf_enabled he]
  refine ⟨fun h => ?_, fun h => ?_⟩
  · obtain ⟨a, -, b, -⟩ := (fold_frame round j.cmds (urdfLimits u)).2.2.2.1 h
    exact ⟨a.trans (urdf_acc u).1, b.trans (urdf_acc u).2.2.1⟩
  · obtain ⟨a, -⟩ := (fold_frame round j.cmds (urdfLimits u)).2.2.2.2 h
    exact a.trans (urdf_acc u).2.2.2.2

/-! ## Disabled limits -/

/-- **C55, disabled interfaces.** If the (last) position, velocity or effort command interface has its limits disabled, that
quantity is not limited, whatever the URDF says. -/
theorem C55_disabled_interface (u : UJoint) (j : Joint) (he : j.enable = true) (i : Itf) (hi : i.enable = false) :
    (LastWith (fun k => k.name = .position) j.cmds i → (limitsOf round u j).hasPos = false) ∧
    (LastWith (fun k => k.name = .velocity) j.cmds i → (limitsOf round u j).hasVel = false) ∧
    (LastWith (fun k => k.name = .effort) j.cmds i → (limitsOf round u j).hasEff = false) := by
  rw [limitsOf_enabled he]
  refine ⟨?_, ?_, ?_⟩ <;> rintro ⟨pre, post, e, hn, hp⟩ <;> rw [e, List.foldl_append, List.foldl_cons] <;>
    generalize pre.foldl (onItf round) (urdfLimits u) = l <;> have hf := fold_frame round post (onItf round l i)
  · rw [(hf.1 hp).1]
    have e : onItf round l i = onPosition round i l := by unfold onItf; rw [hn]
    rw [e]; exact onPosition_disabled l hi
  · rw [(hf.2.1 hp).1]
    have e : onItf round l i = onVelocity round i l := by unfold onItf; rw [hn]
    rw [e]; exact onVelocity_disabled l hi
  · rw [(hf.2.2.1 hp).1]
    have e : onItf round l i = onEffort round i l := by unfold onItf; rw [hn]
    rw [e]; exact onEffort_disabled l hi

/-- **C55, disabled joints.** Nothing of a joint with disabled limits is limited. -/
theorem C55_disabled_joint (u : UJoint) (j : Joint) (he : j.enable = false) :
    (limitsOf round u j).hasPos = false ∧ (limitsOf round u j).hasVel = false ∧ (limitsOf round u j).hasEff = false ∧
    (limitsOf round u j).hasAcc = false ∧ (limitsOf round u j).hasDec = false ∧ (limitsOf round u j).hasJerk = false := by
  have : limitsOf round u j = disabled := by unfold limitsOf update; rw [he]; rfl
  rw [this]
  exact ⟨rfl, rfl, rfl, rfl, rfl, rfl⟩

/-- **C55, the numbers of disabled limits.** Whoever reads them without asking whether they hold finds the largest numbers of the format, so that
nothing is cut off. -/
theorem C55_disabled_values (u : UJoint) (j : Joint) (he : j.enable = false) (x : Rat) (hx : |x| ≤ dblMax) :
    Dbl.clamp (.fin x) (limitsOf round u j).minPos (limitsOf round u j).maxPos = .fin x ∧
    Dbl.le (limitsOf round u j).minPos (.fin x) = true ∧ Dbl.le (.fin x) (limitsOf round u j).maxPos = true ∧
    Dbl.le (.fin |x|) (limitsOf round u j).maxVel = true ∧ Dbl.le (.fin |x|) (limitsOf round u j).maxEff = true ∧
    Dbl.le (.fin |x|) (limitsOf round u j).maxAcc = true ∧ Dbl.le (.fin |x|) (limitsOf round u j).maxDec = true ∧
    Dbl.le (.fin |x|) (limitsOf round u j).maxJerk = true := by
  have : limitsOf round u j = disabled := by unfold limitsOf update; rw [he]; rfl
  rw [this]
  have hx' := abs_le.1 hx
  refine ⟨?_, by simpa [disabled] using hx'.1, by simpa [disabled] using hx'.2, by simpa [disabled] using hx, by simpa [disabled] using hx, by simpa [disabled] using hx, by simpa [disabled] using hx,
    by simpa [disabled] using hx⟩
  rw [abs_le] at hx
  simp [disabled, Dbl.clamp, not_lt.2 hx.1, not_lt.2 hx.2]

/-! ## Descriptions -/

/-- **C55, which descriptions are accepted.** Those all of whose joints are acceptable. -/
theorem C55_accepted_iff (urdf : Nat → Option UJoint) (hs : List Hw) :
    (∃ fs, parse round urdf hs = .ok fs) ↔ ∀ h ∈ hs, ∀ j ∈ h.joints, Acceptable urdf h.joints j :=
  parse_ok round urdf hs

/-- **C55, mimic joints.** The mimic joints of a tag are exactly those of the URDF that are not told not to mimic, each with the
index of the (first) joint of the tag with the name of the one it mimics. -/
theorem C55_mimic_joints (urdf : Nat → Option UJoint) (hs : List Hw) (fs : List (Hw × Filled))
    (h : parse round urdf hs = .ok fs) (p : Hw × Filled) (hp : p ∈ fs) (mj : MimicJoint) :
    mj ∈ p.2.mimics ↔ Follows urdf p.1.joints mj := by
  rw [jointLoop_mimics ((parse_each h).2 p hp) mj]
  simp only [List.not_mem_nil, false_or, Nat.zero_add]
  constructor
  · rintro ⟨k, j, h1, u, m, t, e, h2, h3, h4, h5⟩
    exact ⟨j, u, m, t, by rw [e]; exact h1, h2, h3, h4, h5⟩
  · rintro ⟨j, u, m, t, h1, h2, h3, h4, h5⟩
    exact ⟨mj.index, j, h1, u, m, t, rfl, h2, h3, h4, h5⟩

theorem lookup_mem {α : Type} {m : List (Nat × α)} (hn : (m.map (·.1)).Nodup) {k : Nat} {a : α} :
    (k, a) ∈ m ↔ m.lookup k = some a := by
  induction m with
  | nil => simp
  | cons p t ih =>
    obtain ⟨k', b⟩ := p
    rw [List.map_cons, List.nodup_cons] at hn
    rw [List.mem_cons]
    by_cases h : k = k'
    · subst h
      simp only [List.lookup, beq_self_eq_true, Option.some.injEq]
      constructor
      · rintro (g | g)
        · cases g; rfl
        · exact absurd (List.mem_map_of_mem g) hn.1
      · rintro rfl; exact Or.inl rfl
    · have h' : (k == k') = false := by simpa using h
      simp only [List.lookup, h']
      rw [← ih hn.2]
      constructor
      · rintro (g | g)
        · cases g; exact absurd rfl h
        · exact g
      · exact Or.inr

/-- **C55, limiters.** The limiters the resource manager makes for a tag are exactly those of its joints whose limits are not
disabled, with the limits of their description. -/
theorem C55_limiters (urdf : Nat → Option UJoint) (hs : List Hw) (fs : List (Hw × Filled))
    (h : parse round urdf hs = .ok fs) (p : Hw × Filled) (hp : p ∈ fs) (hn : (p.1.joints.map (·.name)).Nodup)
    (n : Nat) (lim : Limiter) :
    (n, lim) ∈ limitersOf p.1 p.2 ↔ ∃ j ∈ p.1.joints, j.name = n ∧ j.enable = true ∧ ∃ u, urdf n = some u ∧
      lim = ⟨limitsOf round u j, softOf u (limitsOf round u j)⟩ := by
  have hl := (parse_each h).2 p hp
  obtain ⟨k1, k2⟩ := jointLoop_keys hl (by simp)
  have ht : ∀ j ∈ p.1.joints, ∃ u, urdf j.name = some u ∧ p.2.limits.lookup j.name = some (limitsOf round u j) ∧
      p.2.soft.lookup j.name = softOf u (limitsOf round u j) :=
    fun j hj => jointLoop_limits hl (by intro _ _; rfl) hn j hj
  have hen : ∀ j ∈ p.1.joints, (limitsEnabled p.1.joints j.name = true ↔ j.enable = true) := by
    intro j hj
    unfold limitsEnabled
    rw [List.all_eq_true]
    constructor
    · intro g; simpa using g j hj
    · intro g k hk
      by_cases e : k.name = j.name
      · have : k = j := List.inj_on_of_nodup_map hn hk hj e
        subst this; simp [g]
      · simp [e]
  unfold limitersOf
  rw [List.mem_filterMap]
  constructor
  · rintro ⟨⟨n', l⟩, hm, he⟩
    dsimp only at he
    split at he
    · rename_i hE
      rw [Option.some.injEq] at he
      cases he
      rcases (k2 n).1 (List.mem_map_of_mem (f := (·.1)) hm) with g | ⟨j, hj, e⟩
      · simp at g
      · subst e
        obtain ⟨u, h1, h2, h3⟩ := ht j hj
        rw [lookup_mem k1, h2] at hm
        cases hm
        exact ⟨j, hj, rfl, (hen j hj).1 hE, u, h1, by rw [h3]⟩
    · cases he
  · rintro ⟨j, hj, rfl, he, u, hu, rfl⟩
    obtain ⟨u', h1, h2, h3⟩ := ht j hj
    rw [hu] at h1; cases h1
    refine ⟨(j.name, limitsOf round u j), (lookup_mem k1).2 h2, ?_⟩
    dsimp only
    rw [if_pos ((hen j hj).2 he), h3]

/-- **C55, limiters of the whole description.** The tags keep their order, and each has exactly the limiters of its own joints. -/
theorem C55_all_limiters (urdf : Nat → Option UJoint) (hs : List Hw) (fs : List (Hw × Filled))
    (h : parse round urdf hs = .ok fs) (k : Nat) (hw : Hw) (hk : hs[k]? = some hw) (hn : (hw.joints.map (·.name)).Nodup) :
    ∃ ls, (limiters fs)[k]? = some ls ∧ ∀ n lim, (n, lim) ∈ ls ↔ ∃ j ∈ hw.joints, j.name = n ∧ j.enable = true ∧ ∃ u, urdf n = some u ∧
      lim = ⟨limitsOf round u j, softOf u (limitsOf round u j)⟩ := by
  have he := (parse_each h).1
  rw [← he, List.getElem?_map, Option.map_eq_some_iff] at hk
  obtain ⟨p, hp, rfl⟩ := hk
  refine ⟨limitersOf p.1 p.2, by rw [limiters, List.getElem?_map, hp]; rfl, fun n lim => ?_⟩
  exact C55_limiters urdf hs fs h p (List.mem_of_getElem? hp) hn n lim

/-- **C55, soft limits.** The soft limits of a joint with position limits lie inside these. -/
theorem C55_soft_inside (hr : Rounds round) (u : UJoint) (j : Joint) (he : j.enable = true) (hd : NoneDisabled .position j.cmds)
    (hp : (limitsOf round u j).hasPos = true) (s : Soft) (hs : softOf u (limitsOf round u j) = some s) :
    le (limitsOf round u j).minPos s.minPos = true ∧ le s.maxPos (limitsOf round u j).maxPos = true := by
  obtain ⟨m, M, e1, e2, -⟩ := (C55_position_limits hr u j he hd).2 hp
  unfold softOf at hs
  split at hs
  · cases hs
  · cases hs
    dsimp only
    rw [hp]
    simp only [if_true, e1, e2]
    exact ⟨le_max_right (by simp) (by simp), min_le_right (by simp) (by simp)⟩

/-! ## From the description to the commands -/

theorem accNonneg_fold (u : UJoint) (cs : List Itf)
    (ha : ∀ i ∈ cs, i.name = .acceleration → ∀ q, Reads round i.max q → 0 ≤ q) :
    lt (cs.foldl (onItf round) (urdfLimits u)).maxAcc 0 = false := by
  refine fold_induction (round := round) (I := fun _ l => lt l.maxAcc 0 = false)
    (H := fun i => i.name = .acceleration → ∀ q, Reads round i.max q → 0 ≤ q) ?_ ?_ cs ha
  · rw [(urdf_acc u).2.1]; rfl
  · intro cs i l hi h
    by_cases hn : i.name = .acceleration
    · have e : onItf round l i = onAcceleration round i l := by unfold onItf; rw [hn]
      rw [e]
      unfold onAcceleration
      split
      · rename_i dec acc hret
        have hacc : acc.isFinite = true → lt acc 0 = false := by
          intro hf
          unfold retrieve at hret
          split at hret
          · cases hret
          · split at hret
            · cases hret
            · split at hret
              · cases hret
              · rename_i a _ b hb
                cases hret
                unfold overwrite at hb
                split at hb
                · cases hb; cases hf
                · rw [Option.map_eq_some_iff] at hb
                  obtain ⟨q, hq, rfl⟩ := hb
                  have := hi hn q ((num_iff _ _ _).1 hq)
                  show decide (q < 0) = false
                  simp [this]
        have hdec : lt dec.abs.abs 0 = false := by
          cases dec <;> simp [Dbl.abs, lt, zero_eq]
        have hset : lt (setDec i dec acc l).maxAcc 0 = false := by
          unfold setDec
          split
          · dsimp only; split
            · exact h
            · exact hdec
          · exact h
        unfold setAcc
        split
        · rename_i hf; exact hacc hf
        · exact hset
      · exact h
    · obtain ⟨-, b, -⟩ := (onItf_frame round i l).2.2.2.1 hn
      rw [b]; exact h

/-- The bounds a description gives to a joint do not contradict each other. -/
structure Consistent (round : Rat → Option Rat) (u : UJoint) (j : Joint) : Prop where
  range : ∀ x y, Lower round u j.cmds x → Upper round u j.cmds y → x ≤ y
  speed : ∀ x, Speed round u j.cmds x → 0 ≤ x
  acc : ∀ i ∈ j.cmds, i.name = .acceleration → ∀ q, Reads round i.max q → 0 ≤ q

/-- No command interface of the joint has its limits disabled, nor has the joint. -/
def Enabled (j : Joint) : Prop := j.enable = true ∧ ∀ i ∈ j.cmds, i.enable = true

theorem range_ok (hr : Rounds round) {u : UJoint} {j : Joint} (he : Enabled j) (hc : Consistent round u j)
    (hp : (limitsOf round u j).hasPos = true) : le (limitsOf round u j).minPos (limitsOf round u j).maxPos = true := by
  obtain ⟨m, M, e1, e2, h1, h2⟩ := (C55_position_limits hr u j he.1 (fun i hi _ => he.2 i hi)).2 hp
  rw [e1, e2]
  simp only [le_fin, decide_eq_true_eq]
  rcases h1.2 with h1 | ⟨h1, h1'⟩ <;> rcases h2.2 with h2 | ⟨h2, h2'⟩
  · exact hc.range m M h1 h2
  · rw [h2]
    rcases h1 with ⟨l, hl, rfl⟩ | ⟨i, hi, hn, hu, hq⟩
    · exact absurd (Or.inl ⟨l, hl, rfl⟩) (h2' l.upper)
    · exact (abs_le.1 (reads_finite hr hq)).2
  · rw [h1]
    rcases h2 with ⟨l, hl, rfl⟩ | ⟨i, hi, hn, hu, hq⟩
    · exact absurd (Or.inl ⟨l, hl, rfl⟩) (h1' l.lower)
    · exact (abs_le.1 (reads_finite hr hq)).1
  · rw [h1, h2]; have := dblMax_pos; linarith

theorem vel_ok (hr : Rounds round) {u : UJoint} {j : Joint} (he : Enabled j) (hc : Consistent round u j) :
    ∃ V, Lim.VelOk (limitsOf round u j) V := by
  have ha : (limitsOf round u j).hasAcc = true → lt (limitsOf round u j).maxAcc 0 = false := by
    intro _; rw [limitsOf_enabled he.1]; exact accNonneg_fold u j.cmds hc.acc
  cases hv : (limitsOf round u j).hasVel with
  | false => exact ⟨0, ⟨fun h => (by rw [hv] at h; cases h), _root_.le_refl _, ha⟩⟩
  | true =>
    obtain ⟨q, e, hq⟩ := (C55_velocity_limit hr u j he.1 (fun i hi _ => he.2 i hi)).2 hv
    refine ⟨q, ⟨fun _ => e, ?_, ha⟩⟩
    rcases hq.2 with h | ⟨h, -⟩
    · exact hc.speed q h
    · rw [h]; exact dblMax_pos.le

theorem bound_has (hr : Rounds round) {u : UJoint} {j : Joint} (he : Enabled j) :
    (∀ x, Lower round u j.cmds x → (limitsOf round u j).hasPos = true) ∧
    (∀ x, Upper round u j.cmds x → (limitsOf round u j).hasPos = true) := by
  have h := (C55_position_limits hr u j he.1 (fun i hi _ => he.2 i hi)).1
  constructor <;> rintro x (⟨l, hl, -⟩ | ⟨i, hi, hn, hu, -⟩) <;> rw [h]
  · exact Or.inl ⟨l, hl⟩
  · exact Or.inr ⟨i, hi, hn, hu⟩
  · exact Or.inl ⟨l, hl⟩
  · exact Or.inr ⟨i, hi, hn, hu⟩

/-- `w` respects all position bounds of the description. -/
def Respects (round : Rat → Option Rat) (u : UJoint) (j : Joint) (w : Dbl) : Prop :=
  (∀ x, Lower round u j.cmds x → le (fin x) w = true) ∧ (∀ y, Upper round u j.cmds y → le w (fin y) = true)

theorem respects_of (hr : Rounds round) {u : UJoint} {j : Joint} (he : Enabled j) {w : Dbl}
    (h : (limitsOf round u j).hasPos = true → Lim.Within (limitsOf round u j).minPos w (limitsOf round u j).maxPos) :
    Respects round u j w := by
  have key : (limitsOf round u j).hasPos = true → (∀ x, Lower round u j.cmds x → le (fin x) w = true) ∧
      (∀ y, Upper round u j.cmds y → le w (fin y) = true) := by
    intro hp
    obtain ⟨m, M, e1, e2, h1, h2⟩ := (C55_position_limits hr u j he.1 (fun i hi _ => he.2 i hi)).2 hp
    obtain ⟨g1, g2⟩ := h hp
    rw [e1] at g1; rw [e2] at g2
    refine ⟨fun x hx => le_trans ?_ g1, fun y hy => le_trans g2 ?_⟩
    · simpa using h1.1 x hx
    · simpa using h2.1 y hy
  exact ⟨fun x hx => (key ((bound_has hr he).1 x hx)).1 x hx, fun y hy => (key ((bound_has hr he).2 y hy)).2 y hy⟩

/-- **C55 with C28, positions.** Full statement: every position command that leaves the limiter of a joint respects every
position bound its description gives. Proved over every history of calls in which no NaN was reported as actual position, for
consistent descriptions without disabled limits or soft limits. Inconsistent bounds are not noticed:
`C55_incompatible_ranges_stop_the_joint`, `C55_negative_velocity_runs_away`. -/
theorem C55_positions_respect_description_partial (hr : Rounds round) (u : UJoint) (j : Joint) (he : Enabled j)
    (hc : Consistent round u j) (hs : u.safety = none) (cs : List Lim.Call) (hcs : ∀ c ∈ cs, Lim.PosReadable c) :
    ∀ x ∈ Lim.history ⟨limitsOf round u j, softOf u (limitsOf round u j)⟩ {} cs, Lim.Acted x →
      ∀ v, Lim.Num x.1.desired.pos v → ∀ w, x.2.cmd.pos = some w → Respects round u j w := by
  have e : softOf u (limitsOf round u j) = none := by unfold softOf; rw [hs]
  rw [e]
  intro x hx ha v hv w hw
  obtain ⟨V, hV⟩ := vel_ok hr he hc
  refine respects_of hr he fun hp => ?_
  obtain ⟨w', h1, h2⟩ := limiter_position_within_partial (limitsOf round u j) V hV (range_ok hr he hc hp) cs hcs x hx ha v hv
  rw [hw] at h1; cases h1; exact h2

/-- **C55 with C28, positions of a joint with soft limits.** If the soft limits overlap the position limits, the same holds for
every single call of the limiter, whatever is read. -/
theorem C55_soft_positions_respect_description (hr : Rounds round) (u : UJoint) (j : Joint) (he : Enabled j) (s : Soft)
    (hs : softOf u (limitsOf round u j) = some s) (ho : s.hasPos = true)
    (a d p : Lim.Data) (dt : Rat) (z : Bool × Bool) (hdt : 0 < dt)
    (ht : (Lim.enforce ⟨limitsOf round u j, some s⟩ a d p dt z).thrown = false) (v : Dbl) (hv : Lim.Num d.pos v) :
    ∃ w, (Lim.enforce ⟨limitsOf round u j, some s⟩ a d p dt z).cmd.pos = some w ∧ Respects round u j w := by
  have hV : (limitsOf round u j).hasVel = true → (limitsOf round u j).maxVel ≠ .nan := by
    intro h
    obtain ⟨q, e, -⟩ := (C55_velocity_limit hr u j he.1 (fun i hi _ => he.2 i hi)).2 h
    rw [e]; simp
  obtain ⟨w, h1, h2⟩ := soft_position_within (limitsOf round u j) s ho hV a d p dt z hdt ht v hv
  refine ⟨w, h1, respects_of hr he fun hp => ?_⟩
  obtain ⟨g1, g2⟩ := C55_soft_inside hr u j he.1 (fun i hi _ => he.2 i hi) hp s hs
  exact h2.mono g1 g2

/-- **C55 with C28, efforts.** For a joint without soft limits whose description gives effort bounds that are not negative, every
effort command that leaves the limiter is at most each of them in absolute value, whatever is read. -/
theorem C55_efforts_respect_description (hr : Rounds round) (u : UJoint) (j : Joint) (he : Enabled j) (hs : u.safety = none)
    (hn : ∀ x, Force round u j.cmds x → 0 ≤ x) (a d p : Lim.Data) (dt : Rat) (z : Bool × Bool) (hdt : 0 < dt)
    (ht : (Lim.enforce ⟨limitsOf round u j, softOf u (limitsOf round u j)⟩ a d p dt z).thrown = false) (v : Dbl)
    (hv : Lim.Num d.eff v) (x : Rat) (hx : Force round u j.cmds x) :
    ∃ w, (Lim.enforce ⟨limitsOf round u j, softOf u (limitsOf round u j)⟩ a d p dt z).cmd.eff = some (fin w) ∧ |w| ≤ x := by
  have e : softOf u (limitsOf round u j) = none := by unfold softOf; rw [hs]
  rw [e] at ht ⊢
  obtain ⟨h1, h2⟩ := C55_effort_limit hr u j he.1 (fun i hi _ => he.2 i hi)
  have hh : (limitsOf round u j).hasEff = true := by
    rw [h1]
    rcases hx with ⟨l, hl, -⟩ | ⟨i, hi, hn', hu, -⟩
    · exact Or.inl (by rw [hl]; simp)
    · exact Or.inr ⟨i, hi, hn', hu⟩
  obtain ⟨q, eq, hq⟩ := h2 hh
  have hq0 : 0 ≤ q := by
    rcases hq.2 with h | ⟨h, -⟩
    · exact hn q h
    · rw [h]; exact dblMax_pos.le
  obtain ⟨w, g1, g2⟩ := limiter_effort_within (limitsOf round u j) (fin q) eq (by simp [zero_eq, hq0]) hh a d p dt z hdt ht v hv
  obtain ⟨y, rfl, g3, g4⟩ := fin_of_between (a := -q) (b := q) g2.1 g2.2
  exact ⟨y, g1, (abs_le.2 ⟨g3, g4⟩).trans (hq.1 x hx)⟩

/-! ## Examples -/

/-- A revolute joint of the URDF with limits. -/
def uArm : UJoint := { type := .revolute, limit := some ⟨-3, 3, -2, 10⟩ }
/-- ... with soft limits on top. -/
def uSoft : UJoint := { uArm with safety := some ⟨-5, 1, 20, 5⟩ }
/-- A joint that mimics joint 1. -/
def uFinger : UJoint := { type := .prismatic, mimic := some ⟨1, -1, 0⟩ }

/-- Joint 1 with command interfaces for everything. -/
def arm : Joint :=
  { name := 1
    cmds := [{ name := .position, min := "-1".toList }, { name := .velocity, min := "-1.5".toList, max := "4".toList },
      { name := .effort, max := "8".toList }, { name := .acceleration, min := "-6".toList, max := "5".toList },
      { name := .jerk, max := "-100".toList }] }
/-- Joint 2. -/
def finger : Joint := { name := 2 }
/-- The URDF. -/
def urdf : Nat → Option UJoint
  | 1 => some uArm
  | 2 => some uFinger
  | _ => none

/-- `uArm` with `arm`. -/
def armLimits : Limits :=
  { minPos := fin (-1), maxPos := fin 3, maxVel := fin (3 / 2), maxAcc := fin 5, maxDec := fin 6, maxJerk := fin 100, maxEff := fin 8
    hasPos := true, hasVel := true, hasAcc := true, hasDec := true, hasJerk := true, hasEff := true }

/-- A rounding function that rejects numbers no double can approximate. -/
def cut (q : Rat) : Option Rat := if |q| ≤ dblMax then some q else none

theorem cut_rounds : Rounds cut := by
  intro q x h
  unfold cut at h
  split at h
  · cases h; assumption
  · cases h

example : limitsOf cut uArm arm = armLimits := by decide +kernel
example : parse cut urdf [⟨7, [arm, finger]⟩] = .ok [(⟨7, [arm, finger]⟩,
    { mimics := [⟨1, 0, -1, 0⟩], limits := [(1, armLimits), (2, limitsOf cut uFinger finger)] })] := by decide +kernel
example : softOf uSoft armLimits = some ⟨fin (-1), fin 1, fin 20, fin 5⟩ := by decide +kernel
example : Enabled arm := by unfold Enabled arm; decide
example : (softOf uSoft armLimits).map Lim.Soft.hasPos = some true := by decide +kernel

theorem arm_usable (i : Itf) (h : i ∈ arm.cmds) : i.Usable cut := by
  simp only [arm, List.mem_cons, List.not_mem_nil, or_false] at h
  rcases h with rfl | rfl | rfl | rfl | rfl
  · exact ⟨by decide, fun _ => ⟨-1, by unfold Reads; decide +kernel⟩, fun h => absurd rfl h⟩
  · exact ⟨by decide, fun _ => ⟨-3 / 2, by unfold Reads; decide +kernel⟩, fun _ => ⟨4, by unfold Reads; decide +kernel⟩⟩
  · exact ⟨by decide, fun h => absurd rfl h, fun _ => ⟨8, by unfold Reads; decide +kernel⟩⟩
  · exact ⟨by decide, fun _ => ⟨-6, by unfold Reads; decide +kernel⟩, fun _ => ⟨5, by unfold Reads; decide +kernel⟩⟩
  · exact ⟨by decide, fun h => absurd rfl h, fun _ => ⟨-100, by unfold Reads; decide +kernel⟩⟩

/-- The description of the arm is consistent. -/
theorem arm_consistent : Consistent cut uArm arm := by
  have r1 : Reads cut "-1".toList (-1) := by unfold Reads; decide +kernel
  have r2 : Reads cut "-1.5".toList (-3 / 2) := by unfold Reads; decide +kernel
  have r3 : Reads cut "4".toList 4 := by unfold Reads; decide +kernel
  have r4 : Reads cut "5".toList 5 := by unfold Reads; decide +kernel
  have hl : ∀ l, uArm.limit = some l → l = ⟨-3, 3, -2, 10⟩ := by intro l h; cases h; rfl
  refine ⟨?_, ?_, ?_⟩
  · rintro x y (⟨l, hl', rfl⟩ | ⟨i, hi, hn, -, hx⟩) (⟨l', hl'', rfl⟩ | ⟨i', hi', hn', -, hy⟩)
    · rw [hl l hl'.1, hl l' hl''.1]; norm_num
    · simp only [arm, List.mem_cons, List.not_mem_nil, or_false] at hi'
      rcases hi' with rfl | rfl | rfl | rfl | rfl <;> first | (cases hn'; done) | exact absurd hy (reads_nil _ _)
    · simp only [arm, List.mem_cons, List.not_mem_nil, or_false] at hi
      rcases hi with rfl | rfl | rfl | rfl | rfl <;> first | (cases hn; done) | skip
      rw [reads_unique hx r1, hl l' hl''.1]; norm_num
    · simp only [arm, List.mem_cons, List.not_mem_nil, or_false] at hi'
      rcases hi' with rfl | rfl | rfl | rfl | rfl <;> first | (cases hn'; done) | exact absurd hy (reads_nil _ _)
  · rintro x (⟨l, hl', rfl⟩ | ⟨i, hi, hn, -, ⟨q, -, rfl⟩ | hx⟩)
    · exact abs_nonneg _
    · exact abs_nonneg _
    · simp only [arm, List.mem_cons, List.not_mem_nil, or_false] at hi
      rcases hi with rfl | rfl | rfl | rfl | rfl <;> first | (cases hn; done) | skip
      rw [reads_unique hx r3]; norm_num
  · intro i hi hn q hq
    simp only [arm, List.mem_cons, List.not_mem_nil, or_false] at hi
    rcases hi with rfl | rfl | rfl | rfl | rfl <;> first | (cases hn; done) | skip
    rw [reads_unique hq r4]; norm_num

example : (Lim.run ⟨limitsOf cut uArm arm, softOf uArm (limitsOf cut uArm arm)⟩
    [{ actual := { pos := some (fin (-99 / 100)) }, desired := { pos := some (fin (-5)) }, dt := 1 / 10 }]).map (·.cmd.pos) =
    [some (fin (-1))] := by decide +kernel

/-! ## What is not so -/

/-- An interface whose limits are disabled hides the URDF limits from one of the same name after it: the hypothesis that none
is disabled is needed. -/
theorem C55_second_interface_forgets_urdf :
    (limitsOf cut uArm { name := 1, cmds := [{ name := .position, enable := false }, { name := .position, min := "0".toList }] }).maxPos =
      fin dblMax := by decide +kernel

/-- One text that is not a number makes the other one be ignored as well. -/
theorem C55_bad_number_drops_both :
    (limitsOf cut uArm { name := 1, cmds := [{ name := .position, min := "0".toList, max := "1,5".toList }] }).minPos = fin (-3) := by
  decide +kernel

/-- A `min` without a `max` does not limit accelerations, although a maximal acceleration is stored. -/
theorem C55_deceleration_only :
    (limitsOf cut uArm { name := 1, cmds := [{ name := .acceleration, min := "-2".toList }] }).hasAcc = false ∧
    (limitsOf cut uArm { name := 1, cmds := [{ name := .acceleration, min := "-2".toList }] }).maxAcc = fin 2 := by decide +kernel

/-- The velocity interface with a negative `max`. -/
def negative : Joint := { name := 1, cmds := [{ name := .position }, { name := .velocity, max := "-1".toList }] }

/-- **A negative `max` makes the joint run away**: it is accepted as a negative maximal velocity, and then a joint told to stay
at 0 is commanded one step further in every cycle. -/
theorem C55_negative_velocity_runs_away :
    (limitsOf cut uArm negative).maxVel = fin (-1) ∧
    (Lim.run ⟨limitsOf cut uArm negative, none⟩
      (List.replicate 4 { actual := { pos := some (fin 0) }, desired := { pos := some (fin 0) }, dt := 1 / 10 })).map (·.cmd.pos) =
      [some (fin (1 / 10)), some (fin (2 / 10)), some (fin (3 / 10)), some (fin (4 / 10))] := by decide +kernel

/-- **Ranges that do not overlap are accepted and stop the joint**: if a lower bound exceeds an upper bound by more than twice
the tolerance, every position command of the joint throws, wherever the joint is. -/
theorem C55_incompatible_ranges_stop_the_joint (hr : Rounds round) (u : UJoint) (j : Joint) (he : Enabled j) (x y : Rat)
    (hx : Lower round u j.cmds x) (hy : Upper round u j.cmds y) (hxy : y + 2 * (87 / 10000) < x) (soft : Option Soft)
    (a d p : Lim.Data) (dt : Rat) (z : Bool × Bool) (hdt : 0 < dt) (q : Rat) (ha : a.pos = some (fin q)) (v : Dbl)
    (hv : Lim.Num d.pos v) : (Lim.enforce ⟨limitsOf round u j, soft⟩ a d p dt z).thrown = true := by
  have hp := (bound_has hr he).1 x hx
  obtain ⟨m, M, e1, e2, h1, h2⟩ := (C55_position_limits hr u j he.1 (fun i hi _ => he.2 i hi)).2 hp
  have hm := h1.1 x hx
  have hM := h2.1 y hy
  have ho : Lim.outOfBounds (limitsOf round u j) a.pos = true := by
    unfold Lim.outOfBounds
    rw [ha]
    dsimp only
    rw [hp, e1, e2]
    simp only [Lim.throwTol, add_fin, sub_fin, lt_fin, Bool.true_and, Bool.or_eq_true, decide_eq_true_eq]
    by_contra g
    rw [not_or, not_lt, not_lt] at g
    linarith [g.1, g.2]
  have hnum : Lim.numeric d.pos = true := by
    rw [hv.1]; unfold Lim.numeric; simp [Lim.notNan.1 hv.2]
  unfold Lim.enforce
  split
  · unfold Lim.saturate
    rw [if_neg (not_le.2 hdt)]
    dsimp only
    rw [if_pos (by rw [hnum, ho]; rfl)]
  · unfold Lim.soften
    rw [if_neg (not_le.2 hdt)]
    dsimp only
    rw [if_pos (by rw [hnum, ho]; rfl)]

/-- Such a description: the URDF allows at most 3, the interface at least 4. -/
example : Lower cut uArm [{ name := .position, min := "4".toList }] 4 ∧ Upper cut uArm [{ name := .position, min := "4".toList }] 3 := by
  refine ⟨Or.inr ⟨{ name := .position, min := "4".toList }, by simp, rfl, ⟨by decide, fun _ => ⟨4, by unfold Reads; decide +kernel⟩, fun h => absurd rfl h⟩, by unfold Reads; decide +kernel⟩,
    Or.inl ⟨_, ⟨rfl, Or.inl rfl⟩, rfl⟩⟩

/-- A joint that mimics itself is accepted. -/
theorem C55_mimics_itself :
    (parse cut (fun _ => some { type := .revolute, mimic := some ⟨1, 1, 0⟩ }) [⟨7, [{ name := 1 }]⟩]).toOption.map
      (fun fs => fs.map (·.2.mimics)) = some [[⟨0, 0, 1, 0⟩]] := by decide +kernel

end Verif.Desc
