import Verif.Props.C29_LimitRuns
/-!
# C28 for the soft limiter

`JointSoftLimiter` is used for joints with a `<safety_controller>`. Absent and NaN commands, the flag, the exception,
accelerations and jerks are covered by the theorems about `enforce` in `C28_Limits`.
-/
namespace Verif
open Lim Dbl

/-! ## Lemmas -/

theorem Lim.clamp_num {v lo hi : Dbl} (h : v.isNan = false) (h1 : lo.isNan = false) (h2 : hi.isNan = false) :
    (clamp v lo hi).isNan = false := by
  unfold clamp; split
  · exact h1
  · split
    · exact h2
    · exact h

theorem Lim.neg_num {v : Dbl} (h : v.isNan = false) : (-v).isNan = false := by
  cases v <;> first | rfl | exact h

theorem Lim.mul_pos_num {v : Dbl} {dt : Rat} (h : v.isNan = false) (hdt : 0 < dt) : (v * fin dt).isNan = false := by
  cases v with
  | nan => exact h
  | fin q => rfl
  | pinf => show (mul pinf (fin dt)).isNan = false; simp [mul, infOf, hdt, hdt.ne']
  | ninf =>
    show (mul ninf (fin dt)).isNan = false
    have : ¬ dt < 0 := not_lt.2 hdt.le
    simp [mul, infOf, hdt.ne', this]

theorem Lim.fin_add_num {v : Dbl} {q : Rat} (h : v.isNan = false) : (fin q + v).isNan = false := by
  cases v <;> first | rfl | exact h

theorem Lim.finite_num {v : Dbl} (h : v.isFinite = true) : v.isNan = false := by
  cases v <;> simp_all

theorem Lim.copysign_num (x : Dbl) (b : Bool) : (copysign reachVel x b).isNan = false := by
  unfold copysign
  split
  · rfl
  · split
    · rfl
    · split <;> rfl

theorem Lim.Soft.has_finite {s : Soft} (h : s.has = true) : s.hasPos = true ∧ s.kPos.isFinite = true := by
  unfold Soft.has at h
  simp only [Bool.and_eq_true] at h
  exact ⟨h.1.1, h.1.2⟩

theorem Lim.Soft.hasPos_spec {s : Soft} (h : s.hasPos = true) :
    ∃ a b, s.minPos = fin a ∧ s.maxPos = fin b ∧ a < b := by
  unfold Soft.hasPos at h
  simp only [Bool.and_eq_true] at h
  obtain ⟨⟨h1, h2⟩, h3⟩ := h
  obtain ⟨a, ha⟩ := finite_fin h1
  obtain ⟨b, hb⟩ := finite_fin h2
  refine ⟨a, b, ha, hb, ?_⟩
  rw [ha, hb, sub_fin] at h3
  simp only [consideredZero, lt_fin, decide_eq_true_eq] at h3
  have : (0 : Rat) < 1 / 10000000000 := by norm_num
  linarith

/-- The soft velocities are numbers, whatever is read. -/
theorem Lim.softVel_num {l : Limits} {s : Soft} {a p : Data} {z : Bool × Bool}
    (hV : l.hasVel = true → l.maxVel ≠ .nan) :
    (softVel l s a p z).1.lo.isNan = false ∧ (softVel l s a p z).1.hi.isNan = false := by
  unfold softVel
  dsimp only
  split
  · exact ⟨rfl, rfl⟩
  · rename_i hv
    have hv' : l.hasVel = true := by simpa using hv
    have hm := notNan.1 (hV hv')
    split
    · rename_i h
      simp only [Bool.and_eq_true] at h
      obtain ⟨hp, hk⟩ := Soft.has_finite h.1.2
      obtain ⟨m, M, em, eM, -⟩ := Soft.hasPos_spec hp
      obtain ⟨k, ek⟩ := finite_fin hk
      obtain ⟨q, eq⟩ := finite_fin h.2
      split
      · exact ⟨rfl, rfl⟩
      · split
        · exact ⟨copysign_num _ _, copysign_num _ _⟩
        · rw [em, eM, ek, eq]
          exact ⟨clamp_num rfl (neg_num hm) hm, clamp_num rfl (neg_num hm) hm⟩
    · exact ⟨neg_num hm, hm⟩

theorem Lim.softReach_inside {l : Limits} {pp : Dbl} {sv r : Range} {dt : Rat} (hdt : 0 < dt)
    (h : le r.lo r.hi = true) (h1 : sv.lo.isNan = false) (h2 : sv.hi.isNan = false) :
    Inside (softReach l pp sv r (fin dt)) r.lo r.hi := by
  unfold softReach
  split
  · rename_i g
    simp only [Bool.and_eq_true] at g
    obtain ⟨q, rfl⟩ := finite_fin g.2
    have c1 := clamp_within (v := fin q + sv.lo * fin dt) (fin_add_num (mul_pos_num h1 hdt)) h
    have c2 := clamp_within (v := fin q + sv.hi * fin dt) (fin_add_num (mul_pos_num h2 hdt)) c1.2
    exact ⟨c1.1, c2.1, c2.2⟩
  · exact ⟨le_refl (not_nan_left h), h, le_refl (not_nan_right h)⟩

theorem Lim.softMeet_inside {r hard : Range} {L U : Dbl} (h : Inside r L U) : Inside (softMeet r hard) L U := by
  have hlo := not_nan_left h.ord
  have hhi := not_nan_right h.ord
  unfold softMeet
  dsimp only
  split
  · exact h
  · rename_i g
    exact ⟨le_trans h.lo (le_max_left hlo), le_of_not_lt (max_not_nan hlo) (min_not_nan hhi) (Bool.eq_false_iff.2 g),
      le_trans (min_le_left hhi) h.hi⟩

/-! ## Positions -/

/-- **C28, positions (soft limiter).** For a joint with soft position limits, every limited position command lies inside the
soft limits - whatever is read (NaN included), was commanded before, and whether or not the hard limits overlap. -/
theorem soft_position_within (l : Limits) (s : Soft) (hs : s.hasPos = true) (hV : l.hasVel = true → l.maxVel ≠ .nan)
    (a d p : Data) (dt : Rat) (z : Bool × Bool) (hdt : 0 < dt)
    (ht : (enforce ⟨l, some s⟩ a d p dt z).thrown = false) (v : Dbl) (hv : Num d.pos v) :
    ∃ w, (enforce ⟨l, some s⟩ a d p dt z).cmd.pos = some w ∧ Within s.minPos w s.maxPos := by
  obtain ⟨m, M, em, eM, hmM⟩ := Soft.hasPos_spec hs
  have hr : le s.minPos s.maxPos = true := by rw [em, eM]; simp; exact hmM.le
  show ∃ w, (soften l s a d p dt z).cmd.pos = some w ∧ _
  obtain ⟨ub, e⟩ := soften_eq hdt ht
  rw [e]
  simp only [finish, hv.1]
  refine apply_inside (notNan.1 hv.2) _ ?_
  unfold softPositionLimits softPosRange
  rw [if_pos hs]
  have hn := softVel_num (s := s) (a := a) (p := initPrev a d p) (z := z) hV
  exact softMeet_inside (softReach_inside (r := ⟨s.minPos, s.maxPos⟩) hdt hr hn.1 hn.2)

/-- ... hence inside the hard position limits if these contain the soft ones. -/
theorem soft_position_within_hard (l : Limits) (s : Soft) (hs : s.hasPos = true) (hV : l.hasVel = true → l.maxVel ≠ .nan)
    (hlo : le l.minPos s.minPos = true) (hhi : le s.maxPos l.maxPos = true)
    (a d p : Data) (dt : Rat) (z : Bool × Bool) (hdt : 0 < dt)
    (ht : (enforce ⟨l, some s⟩ a d p dt z).thrown = false) (v : Dbl) (hv : Num d.pos v) :
    ∃ w, (enforce ⟨l, some s⟩ a d p dt z).cmd.pos = some w ∧ Within l.minPos w l.maxPos := by
  obtain ⟨w, h1, h2⟩ := soft_position_within l s hs hV a d p dt z hdt ht v hv
  exact ⟨w, h1, h2.mono hlo hhi⟩

theorem Lim.apply_no_cmd {d : Option Dbl} (h : NoCmd d) (b : Dbl → Range) : apply d b = { val := d } :=
  apply_skip (by rcases h with rfl | rfl <;> rfl) b

/-- **C28, position commands are limited without undefined behaviour.** If the velocity limit is not negative, a call with a
position command only never calls `std::clamp` with its bounds in the wrong order. -/
theorem soft_position_defined (l : Limits) (s : Soft) (hs : s.hasPos = true) (hV : l.hasVel = true → le 0 l.maxVel = true)
    (a d p : Data) (dt : Rat) (z : Bool × Bool) (h1 : NoCmd d.vel) (h2 : NoCmd d.eff) (h3 : NoCmd d.acc)
    (h4 : NoCmd d.jerk) : (enforce ⟨l, some s⟩ a d p dt z).ub = false := by
  obtain ⟨m, M, em, eM, hmM⟩ := Soft.hasPos_spec hs
  have hr : le s.minPos s.maxPos = true := by rw [em, eM]; simp; exact hmM.le
  have hVn : l.hasVel = true → l.maxVel ≠ .nan := fun h => notNan.2 (not_nan_right (hV h))
  have hn : ∀ p', (softVel l s a p' z).1.lo.isNan = false ∧ (softVel l s a p' z).1.hi.isNan = false :=
    fun p' => softVel_num hVn
  have hsv : ∀ p', (softVel l s a p' z).2 = false := by
    intro p'
    unfold softVel
    dsimp only
    split
    · rfl
    · rename_i hv
      have hv' : l.hasVel = true := by simpa using hv
      have := not_lt_of_le (Lim.neg_le_self (hV hv'))
      split
      · split
        · exact this
        · split <;> exact this
      · rfl
  show (soften l s a d p dt z).ub = false
  by_cases hdt : dt ≤ 0
  · unfold soften; rw [if_pos hdt]
  unfold soften
  rw [if_neg hdt]
  dsimp only
  split
  · exact hsv _
  · simp only [finish, apply_no_cmd h1, apply_no_cmd h2, apply_no_cmd h3, apply_no_cmd h4, hsv]
    have he : numeric d.eff = false := by rcases h2 with h | h <;> rw [h] <;> rfl
    have hreach : softReachUb l (prevPosition a (initPrev a d p)) (softVel l s a (initPrev a d p) z).1 (softPosRange s)
        (fin dt) = false := by
      unfold softReachUb softPosRange
      rw [if_pos hs]
      cases hg : (l.hasVel && (prevPosition a (initPrev a d p)).isFinite) with
      | false => rfl
      | true =>
        simp only [Bool.and_eq_true] at hg
        obtain ⟨q, eq⟩ := finite_fin hg.2
        rw [eq]
        have c1 := clamp_within (v := fin q + (softVel l s a (initPrev a d p) z).1.lo * fin dt)
          (fin_add_num (mul_pos_num (hn _).1 (not_le.1 hdt))) hr
        rw [not_lt_of_le c1.2]; rfl
    rw [he, hreach]
    simp only [Bool.false_and, Bool.and_false, Bool.or_false]
    cases hnum : numeric d.pos with
    | false => rw [apply_skip hnum]
    | true =>
      obtain ⟨v, hv, hvn⟩ := numeric_some hnum
      rw [hv, apply_num hvn]
      unfold softPositionLimits softPosRange
      rw [if_pos hs]
      exact not_lt_of_le (softMeet_inside (softReach_inside (r := ⟨s.minPos, s.maxPos⟩) (not_le.1 hdt) hr (hn _).1 (hn _).2)).ord

/-! ## Velocities -/

/-- **C28, velocities (soft limiter).** Full statement: every limited velocity command is at most `max_velocity` in absolute
value. Proved for a call with a finite actual position inside the position limits (or none), an actual velocity that is not
NaN, a previous velocity command within the limit, and whose `std::clamp` has its bounds in order. They need not be: see
`soft_clamp_undefined`. With a NaN velocity reading no limit is applied: `soft_nan_velocity_unlimited`. -/
theorem soft_velocity_within_partial (l : Limits) (s : Soft) (V : Rat) (hl : SpeedOk l V)
    (a d p : Data) (dt : Rat) (z : Bool × Bool) (hdt : 0 < dt)
    (hp : l.hasPos = true → OrAbsent (InLimits l) a.pos) (hd : p.hasData = true) (hu : OrAbsent (VelIn V) p.vel)
    (ha : OrAbsent (fun v => v.isFinite = true) a.vel)
    (ht : (enforce ⟨l, some s⟩ a d p dt z).thrown = false) (hub : (enforce ⟨l, some s⟩ a d p dt z).ub = false)
    (v : Dbl) (hv : Num d.vel v) :
    ∃ w, (enforce ⟨l, some s⟩ a d p dt z).cmd.vel = some w ∧ VelIn V w := by
  have hVn : l.hasVel = true → l.maxVel ≠ .nan := fun h => by rw [hl.vel]; exact Dbl.noConfusion
  have hn := softVel_num (s := s) (a := a) (p := p) (z := z) hVn
  have hin := velocityLimits_inside hl hdt (desired := v) hp hu
  -- the bounds of the velocity command
  have hb : Within (fin (-V)) (softVelocityLimits l a p (softVel l s a p z).1 (fin dt) v).lo .pinf ∧
      Within .ninf (softVelocityLimits l a p (softVel l s a p z).1 (fin dt) v).hi (fin V) := by
    unfold softVelocityLimits
    dsimp only
    generalize hr1 : softVelNear l a.vel (softVel l s a p z).1 (fin dt) = r1
    have r1n : r1.lo.isNan = false ∧ r1.hi.isNan = false := by
      rw [← hr1]
      unfold softVelNear
      cases hv' : a.vel with
      | none => exact hn
      | some u =>
        obtain ⟨q, rfl⟩ := finite_fin (ha u hv')
        dsimp only
        split
        · rename_i g
          simp only [Bool.and_eq_true] at g
          have hA := hl.acc g.2
          have hAn : (l.maxAcc * fin dt).isNan = false := mul_pos_num (not_nan_right hA) hdt
          have h1 : (fin q - l.maxAcc * fin dt).isNan = false := fin_add_num (neg_num hAn)
          have h2 : (fin q + l.maxAcc * fin dt).isNan = false := fin_add_num hAn
          exact ⟨max_not_nan h1, min_not_nan h2⟩
        · exact hn
    have top : ∀ {x : Dbl}, x.isNan = false → le x .pinf = true := by intro x h; cases x <;> first | rfl | exact absurd h (by decide)
    have bot : ∀ {x : Dbl}, x.isNan = false → le .ninf x = true := by intro x h; cases x <;> first | rfl | exact absurd h (by decide)
    have hlo := not_nan_left hin.ord
    have hhi := not_nan_right hin.ord
    exact ⟨⟨le_trans hin.lo (le_max_right r1n.1 hlo), top (max_not_nan r1n.1)⟩,
      ⟨bot (min_not_nan r1n.2), le_trans (min_le_right r1n.2 hhi) hin.hi⟩⟩
  have hord : le (softVelocityLimits l a p (softVel l s a p z).1 (fin dt) v).lo
      (softVelocityLimits l a p (softVel l s a p z).1 (fin dt) v).hi = true := by
    refine le_of_not_lt (not_nan_right hb.1.1) (not_nan_left hb.2.2) ?_
    have hub' : (soften l s a d p dt z).ub = false := hub
    have ht' : (soften l s a d p dt z).thrown = false := ht
    unfold soften at hub' ht'
    rw [if_neg (not_le.2 hdt)] at hub' ht'
    dsimp only at hub' ht'
    split at hub'
    · rename_i g; rw [if_pos g] at ht'; cases ht'
    · simp only [finish, hv.1, Bool.or_eq_false_iff, initPrev_of_data hd] at hub'
      have := hub'.1.1.1.1.1.1.2
      rw [apply_num (notNan.1 hv.2)] at this
      exact this
  show ∃ w, (soften l s a d p dt z).cmd.vel = some w ∧ _
  obtain ⟨ub, e⟩ := soften_eq hdt ht
  rw [e]
  simp only [finish, hv.1, initPrev_of_data hd]
  exact apply_inside (notNan.1 hv.2) _ ⟨hb.1.1, hord, hb.2.2⟩

/-! ## Efforts -/

/-- **C28, efforts (soft limiter).** Full statement: every limited effort command is at most `max_effort` in absolute value.
Proved for calls without a velocity command, with an actual velocity that is finite (or absent) and a finite velocity limit -
whatever the bounds `std::clamp` gets. With a NaN velocity reading no limit is applied: `soft_nan_velocity_effort`; nor with
`k_velocity = 0` for a joint without velocity limit: `soft_no_gain_effort_unlimited`. -/
theorem soft_effort_within_partial (l : Limits) (s : Soft) (E : Dbl) (hE : l.maxEff = E) (h0 : le 0 E = true)
    (h : l.hasEff = true) (V : Rat) (hv' : l.hasVel = true) (hV : l.maxVel = fin V) (hV0 : 0 ≤ V)
    (a d p : Data) (dt : Rat) (z : Bool × Bool) (hdt : 0 < dt) (hno : NoCmd d.vel)
    (ha : OrAbsent (fun v => v.isFinite = true) a.vel)
    (ht : (enforce ⟨l, some s⟩ a d p dt z).thrown = false) (v : Dbl) (hv : Num d.eff v) :
    ∃ w, (enforce ⟨l, some s⟩ a d p dt z).cmd.eff = some w ∧ Within (-E) w E := by
  show ∃ w, (soften l s a d p dt z).cmd.eff = some w ∧ _
  obtain ⟨ub, e⟩ := soften_eq hdt ht
  rw [e]
  simp only [finish, hv.1]
  refine apply_ends (notNan.1 hv.2) _ ?_
  have hsv : softVelAfter l a d (initPrev a d p) (softVel l s a (initPrev a d p) z).1 (fin dt) =
      (softVel l s a (initPrev a d p) z).1 := by
    unfold softVelAfter
    rcases hno with g | g <;> rw [g] <;> rfl
  rw [hsv]
  have hfin : ∃ x y, (softVel l s a (initPrev a d p) z).1 = ⟨fin x, fin y⟩ := by
    have hn := softVel_num (s := s) (a := a) (p := initPrev a d p) (z := z) (fun h => by rw [hV]; exact Dbl.noConfusion)
    have bound : ∀ c : Dbl, c.isNan = false → ∃ q, clamp c (-(fin V)) (fin V) = fin q := by
      intro c hc
      rw [neg_fin]
      have := clamp_within (v := c) (lo := fin (-V)) (hi := fin V) hc (by simp; linarith)
      obtain ⟨q, hq, -⟩ := fin_of_between this.1 this.2
      exact ⟨q, hq⟩
    have cs : ∀ (x : Dbl) b, ∃ q, copysign reachVel x b = fin q := by
      intro x b; unfold copysign reachVel
      split
      · exact ⟨_, neg_fin _⟩
      · split
        · exact ⟨_, rfl⟩
        · split
          · exact ⟨_, neg_fin _⟩
          · exact ⟨_, rfl⟩
    unfold softVel
    dsimp only
    rw [hv', hV]
    simp only [Bool.not_true, Bool.false_eq_true, if_false]
    split
    · rename_i g
      simp only [Bool.and_eq_true] at g
      obtain ⟨hp, hk⟩ := Soft.has_finite g.1.2
      obtain ⟨m, M, em, eM, -⟩ := Soft.hasPos_spec hp
      obtain ⟨k, ek⟩ := finite_fin hk
      obtain ⟨q, eq⟩ := finite_fin g.2
      split
      · exact ⟨0, 0, rfl⟩
      · split
        · obtain ⟨x, hx⟩ := cs (clamp (-s.kPos * (prevPosition a (initPrev a d p) - s.minPos)) (-fin V) (fin V)) z.1
          obtain ⟨y, hy⟩ := cs (clamp (-s.kPos * (prevPosition a (initPrev a d p) - s.maxPos)) (-fin V) (fin V)) z.2
          exact ⟨x, y, by rw [hx, hy]⟩
        · rw [em, eM, ek, eq]
          obtain ⟨x, hx⟩ := bound (-(fin k) * (fin q - fin m)) (by simp)
          obtain ⟨y, hy⟩ := bound (-(fin k) * (fin q - fin M)) (by simp)
          exact ⟨x, y, by rw [hx, hy]⟩
    · exact ⟨-V, V, by rw [neg_fin]⟩
  obtain ⟨x, y, hxy⟩ := hfin
  rw [hxy]
  have hard := effortLimits_ends hE h0 h a.pos a.vel
  unfold softEffortLimits
  dsimp only
  cases hav : a.vel with
  | none => rw [hav] at hard; exact hard.ends
  | some u =>
    rw [hav] at hard
    obtain ⟨q, rfl⟩ := finite_fin (ha u hav)
    dsimp only
    split
    · rename_i g
      simp only [Bool.and_eq_true] at g
      obtain ⟨k, ek⟩ := finite_fin g.2
      rw [ek, hE]
      have c1 := clamp_within (v := -(fin k) * (fin q - fin x)) (lo := -E) (hi := E) (by simp) (Lim.neg_le_self h0)
      have c2 := clamp_within (v := -(fin k) * (fin q - fin y)) (lo := -E) (hi := E) (by simp) (Lim.neg_le_self h0)
      have he := hard.ends
      constructor
      · exact ⟨le_trans c1.1 (le_max_left (not_nan_left c1.2)), max_le c1.2 he.lo.2⟩
      · exact ⟨le_min c2.1 he.hi.1, le_trans (min_le_left (not_nan_left c2.2)) c2.2⟩
    · exact hard.ends

/-! ## Cases that meet the hypotheses, and what goes wrong without them -/

/-- Soft limits `[-0.9, 0.9]` with gains 10. -/
def Lim.demoSoft : Soft := ⟨.fin (-9 / 10), .fin (9 / 10), 10, 10⟩

example : demoSoft.hasPos = true ∧ demoSoft.has = true ∧ le demo.minPos demoSoft.minPos = true ∧
    le demoSoft.maxPos demo.maxPos = true ∧ le 0 demo.maxVel = true ∧ demo.maxVel ≠ .nan := by decide +kernel
/-- A command of 5 from 0.85: the soft velocity limit of 0.5 allows 0.05 in 0.1 s. -/
example : (enforce ⟨demo, some demoSoft⟩ { pos := some (.fin (85 / 100)) } { pos := some 5 } {} (1 / 10) (false, false)).cmd.pos =
      some (.fin (9 / 10)) ∧
    (enforce ⟨demo, some demoSoft⟩ { pos := some .nan } { pos := some 5 } {} (1 / 10) (false, false)).cmd.pos =
      some (.fin (9 / 10)) := by decide +kernel
/-- A velocity command of 5 at 0.85: cut to 0.5. -/
example : (enforce ⟨demo, some demoSoft⟩ { pos := some (.fin (85 / 100)), vel := some 0 } { pos := some (.fin (85 / 100)), vel := some 5 }
      { pos := some (.fin (85 / 100)), vel := some 0 } (1 / 10) (false, false)).cmd.vel = some (.fin (5 / 10)) ∧
    (enforce ⟨demo, some demoSoft⟩ { pos := some (.fin (85 / 100)), vel := some 0 } { pos := some (.fin (85 / 100)), vel := some 5 }
      { pos := some (.fin (85 / 100)), vel := some 0 } (1 / 10) (false, false)).ub = false := by decide +kernel
/-- An effort command of 100 at rest: cut to 5. -/
example : (enforce ⟨demo, some demoSoft⟩ { pos := some 0, vel := some 0 } { eff := some 100 } {} (1 / 10) (false, false)).cmd.eff =
      some 5 := by decide +kernel

/-- **Undefined behaviour of the soft limiter.** A joint that has moved beyond its soft limit (0.95) and still moves outwards at
0.5, with an acceleration limit of 1: `std::clamp` is called with the bounds 0.4 and -0.017. With the usual implementation the
command to move back with -1 becomes +0.4, outwards. -/
theorem soft_clamp_undefined :
    (enforce ⟨demoAcc, some demoSoft⟩ { pos := some (.fin (95 / 100)), vel := some (.fin (5 / 10)) } { vel := some (.fin (-1)) }
      { pos := some (.fin (95 / 100)), vel := some (.fin (5 / 10)) } (1 / 10) (false, false)).ub = true ∧
    (enforce ⟨demoAcc, some demoSoft⟩ { pos := some (.fin (95 / 100)), vel := some (.fin (5 / 10)) } { vel := some (.fin (-1)) }
      { pos := some (.fin (95 / 100)), vel := some (.fin (5 / 10)) } (1 / 10) (false, false)).cmd.vel =
      some (.fin (4 / 10)) := by
  decide +kernel

/-- **C28 fails for a NaN velocity reading (soft limiter).** With an acceleration limit, a velocity command of 1000 is handed out
as it is while the actual velocity reads NaN, and the limiter reports that nothing was limited. -/
theorem soft_nan_velocity_unlimited :
    (enforce ⟨demoAcc, some demoSoft⟩ { pos := some 0, vel := some .nan } { vel := some 1000 } { pos := some 0, vel := some 0 }
      (1 / 10) (false, false)).cmd.vel = some 1000 ∧
    (enforce ⟨demoAcc, some demoSoft⟩ { pos := some 0, vel := some .nan } { vel := some 1000 } { pos := some 0, vel := some 0 }
      (1 / 10) (false, false)).limited = false := by
  decide +kernel

/-- ... and so is an effort command. -/
theorem soft_nan_velocity_effort :
    (enforce ⟨demo, some demoSoft⟩ { pos := some 0, vel := some .nan } { eff := some 1000 } { pos := some 0 }
      (1 / 10) (false, false)).cmd.eff = some 1000 ∧
    (enforce ⟨demo, some demoSoft⟩ { pos := some 0, vel := some .nan } { eff := some 1000 } { pos := some 0 }
      (1 / 10) (false, false)).limited = false := by
  decide +kernel

/-- **C28 fails for `k_velocity = 0`.** With the velocity limit disabled, the effort command is handed out as it is, although
there is an effort limit of 5. -/
theorem soft_no_gain_effort_unlimited :
    (enforce ⟨{ demo with hasVel := false }, some { demoSoft with kVel := 0 }⟩ { pos := some 0, vel := some 0 }
      { eff := some 1000 } {} (1 / 10) (false, false)).cmd.eff = some 1000 := by
  decide +kernel

end Verif
