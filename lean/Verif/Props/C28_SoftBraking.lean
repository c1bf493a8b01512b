import Verif.Props.C28_SoftLimits
/-!
# C28: the soft limiter brakes in time

What `k_position` is for: the closer the joint is to a soft limit, the slower it may be commanded towards it, so that it never passes the limit.
-/
namespace Verif
open Dbl Lim

/-! ## Specification -/

/-- Specification: a joint with soft limits `[m, M]`, gain `k` and velocity limit `V`. -/
structure Lim.Springy (l : Limits) (s : Soft) (m M k V : Rat) : Prop where
  pos : l.hasPos = true
  vel : l.hasVel = true
  speed : l.maxVel = fin V
  speed0 : 0 ≤ V
  lo : s.minPos = fin m
  hi : s.maxPos = fin M
  has : s.has = true
  gain : s.kPos = fin k
  gain0 : 0 ≤ k

/-- Specification: where the joint is for the limiter: the last position command, or without a finite one what is read. -/
def Lim.Stands (a p : Data) (q : Rat) : Prop :=
  p.pos = some (fin q) ∨ ((∀ x, p.pos = some x → x.isFinite = false) ∧ a.pos = some (fin q))

/-! ## Proofs -/

theorem Lim.clamp_fin (a b c : Rat) : clamp (fin a) (fin b) (fin c) = fin (if a < b then b else if c < a then c else a) := by
  unfold clamp
  simp only [lt]
  by_cases h1 : a < b
  · simp [h1]
  · by_cases h2 : c < a <;> simp [h1, h2]

theorem Lim.stands_prev {a p : Data} {q : Rat} (h : Stands a p q) : prevPosition a p = fin q := by
  unfold prevPosition
  rcases h with h | ⟨h1, h2⟩
  · rw [h]; rfl
  · rw [h2]
    cases hp : p.pos with
    | none => rfl
    | some x => dsimp only; rw [h1 x hp]; rfl

/-- The soft velocities of a joint inside its soft limits. -/
theorem Lim.softVel_springy {l : Limits} {s : Soft} {m M k V q : Rat} (h : Springy l s m M k V) {a p : Data} (z : Bool × Bool)
    (hq : Stands a p q) (h1 : m ≤ q) (h2 : q ≤ M) (ha : ∀ x, a.pos = some x → Within (fin m) x (fin M)) :
    ∃ x y : Rat, (softVel l s a p z).1 = ⟨fin x, fin y⟩ ∧ -(k * (q - m)) ≤ x ∧ x ≤ 0 ∧ 0 ≤ y ∧ y ≤ k * (M - q) ∧ -V ≤ x ∧ y ≤ V := by
  have hs := h.has
  have ha' : Within (fin m) (actPosition a p) (fin M) := by
    unfold actPosition
    rcases hq with hq | ⟨-, hq⟩
    · cases hp : a.pos with
      | some x => exact ha x hp
      | none =>
        rw [hq]
        show Within _ (fin q) _
        exact ⟨by simpa [le] using h1, by simpa [le] using h2⟩
    · rw [hq]; exact ha _ hq
  have k1 : 0 ≤ k * (q - m) := mul_nonneg h.gain0 (by linarith)
  have k2 : 0 ≤ k * (M - q) := mul_nonneg h.gain0 (by linarith)
  have hV := h.speed0
  unfold softVel
  dsimp only
  rw [h.vel, h.pos, hs, stands_prev hq]
  rw [if_neg (by simp), if_pos (by rfl)]
  rw [h.lo, h.hi, h.gain, h.speed]
  have e1 : (-(fin k) * (fin q - fin m) : Dbl) = fin (-k * (q - m)) := by
    show fin (-k * (q + -m)) = _
    rw [sub_eq_add_neg]
  have e2 : (-(fin k) * (fin q - fin M) : Dbl) = fin (-k * (q - M)) := by
    show fin (-k * (q + -M)) = _
    rw [sub_eq_add_neg]
  have e3 : (-(fin V) : Dbl) = fin (-V) := rfl
  rw [e1, e2, e3, clamp_fin, clamp_fin]
  generalize ((actPosition a p).isFinite && _) = out
  cases out
  case true => exact ⟨0, 0, rfl, by linarith, le_rfl, le_rfl, k2, by linarith, hV⟩
  case false =>
    have g1 := not_lt_of_le ha'.1
    have g2 := not_lt_of_le ha'.2
    rw [g1, g2]
    refine ⟨_, _, rfl, ?_, ?_, ?_, ?_, ?_, ?_⟩
    all_goals (split <;> [skip; split]) <;> nlinarith

/-- **C28, soft velocity limits.** A limited velocity command of a joint inside its soft limits is at most `k_position` times the distance to the soft limit it
moves towards. (Where `std::clamp` is defined, see `soft_clamp_undefined`; with a finite velocity reading or none, see `soft_nan_velocity_unlimited`.) -/
theorem soft_velocity_brakes_partial (l : Limits) (s : Soft) (m M k V q : Rat) (h : Springy l s m M k V)
    (a d p : Data) (dt : Rat) (z : Bool × Bool) (hdt : 0 < dt) (hd : p.hasData = true) (hq : Stands a p q) (h1 : m ≤ q) (h2 : q ≤ M)
    (hp : ∀ x, a.pos = some x → Within (fin m) x (fin M)) (hA : l.hasAcc = true → le 0 l.maxAcc = true)
    (ha : OrAbsent (fun v => v.isFinite = true) a.vel)
    (ht : (enforce ⟨l, some s⟩ a d p dt z).thrown = false) (hub : (enforce ⟨l, some s⟩ a d p dt z).ub = false)
    (v : Dbl) (hv : Num d.vel v) :
    ∃ w, (enforce ⟨l, some s⟩ a d p dt z).cmd.vel = some w ∧ Within (fin (-(k * (q - m)))) w (fin (k * (M - q))) := by
  obtain ⟨x, y, e0, b1, -, -, b2, -, -⟩ := softVel_springy h z hq h1 h2 hp
  have hb : le (fin (-(k * (q - m)))) (softVelocityLimits l a p (softVel l s a p z).1 (fin dt) v).lo = true ∧
      le (softVelocityLimits l a p (softVel l s a p z).1 (fin dt) v).hi (fin (k * (M - q))) = true := by
    rw [e0]
    unfold softVelocityLimits
    dsimp only
    have near : le (fin x) (softVelNear l a.vel ⟨fin x, fin y⟩ (fin dt)).lo = true ∧ le (softVelNear l a.vel ⟨fin x, fin y⟩ (fin dt)).hi (fin y) = true := by
      unfold softVelNear
      cases hv' : a.vel with
      | none => simp [le]
      | some u =>
        obtain ⟨r, rfl⟩ := finite_fin (ha u hv')
        dsimp only
        split
        · rename_i g
          simp only [Bool.and_eq_true] at g
          have hAn : (l.maxAcc * fin dt).isNan = false := mul_pos_num (not_nan_right (hA g.2)) hdt
          exact ⟨le_max_right (fin_add_num (neg_num hAn)) rfl, min_le_right (fin_add_num hAn) rfl⟩
        · simp [le]
    have f1 : le (fin (-(k * (q - m)))) (fin x) = true := by simpa [le] using b1
    have f2 : le (fin y) (fin (k * (M - q))) = true := by simpa [le] using b2
    exact ⟨le_trans f1 (le_trans near.1 (le_max_left (not_nan_right near.1))), le_trans (min_le_left (not_nan_left near.2)) (le_trans near.2 f2)⟩
  have hord : le (softVelocityLimits l a p (softVel l s a p z).1 (fin dt) v).lo
      (softVelocityLimits l a p (softVel l s a p z).1 (fin dt) v).hi = true := by
    refine le_of_not_lt (not_nan_right hb.1) (not_nan_left hb.2) ?_
    have hub' : (soften l s a d p dt z).ub = false := hub
    have ht' : (soften l s a d p dt z).thrown = false := ht
    unfold soften at hub' ht'
    rw [if_neg (not_le.2 hdt)] at hub' ht'
    dsimp only at hub' ht'
    split at hub'
    · rename_i g; rw [if_pos g] at ht'; cases ht'
    · simp only [finish, hv.1, Bool.or_eq_false_iff, initPrev_of_data hd] at hub'
      have := hub'.1.1.1.1.1.1.2
      rw [apply_num (notNan.1 hv.2)] at this
      exact this
  show ∃ w, (soften l s a d p dt z).cmd.vel = some w ∧ _
  obtain ⟨ub, e⟩ := soften_eq hdt ht
  rw [e]
  simp only [finish, hv.1, initPrev_of_data hd]
  exact apply_inside (notNan.1 hv.2) _ ⟨hb.1, hord, hb.2⟩

/-- ... hence a joint that follows its velocity command for one cycle stays inside its soft limits, if `k_position` times the period is at most 1. -/
theorem soft_velocity_stays_partial (l : Limits) (s : Soft) (m M k V q : Rat) (h : Springy l s m M k V)
    (a d p : Data) (dt : Rat) (z : Bool × Bool) (hdt : 0 < dt) (hk : k * dt ≤ 1) (hd : p.hasData = true) (hq : Stands a p q) (h1 : m ≤ q) (h2 : q ≤ M)
    (hp : ∀ x, a.pos = some x → Within (fin m) x (fin M)) (hA : l.hasAcc = true → le 0 l.maxAcc = true)
    (ha : OrAbsent (fun v => v.isFinite = true) a.vel)
    (ht : (enforce ⟨l, some s⟩ a d p dt z).thrown = false) (hub : (enforce ⟨l, some s⟩ a d p dt z).ub = false)
    (v : Dbl) (hv : Num d.vel v) :
    ∃ w, (enforce ⟨l, some s⟩ a d p dt z).cmd.vel = some (fin w) ∧ m ≤ q + w * dt ∧ q + w * dt ≤ M := by
  obtain ⟨w, e, g1, g2⟩ := soft_velocity_brakes_partial l s m M k V q h a d p dt z hdt hd hq h1 h2 hp hA ha ht hub v hv
  cases w with
  | nan => simp [le] at g1
  | pinf => simp [le] at g2
  | ninf => simp [le] at g1
  | fin w =>
    simp only [le, decide_eq_true_eq] at g1 g2
    refine ⟨w, e, ?_, ?_⟩
    · nlinarith [mul_nonneg (sub_nonneg.2 hk) (sub_nonneg.2 h1), mul_le_mul_of_nonneg_right g1 hdt.le]
    · nlinarith [mul_nonneg (sub_nonneg.2 hk) (sub_nonneg.2 h2), mul_le_mul_of_nonneg_right g2 hdt.le]

/-- The positions the soft limits allow from `q`. -/
theorem Lim.softReach_springy {l : Limits} {m M q x y dt : Rat} (hv : l.hasVel = true) (h1 : m ≤ q) (h2 : q ≤ M) (hx : x ≤ 0) (hy : 0 ≤ y) (hdt : 0 < dt) :
    ∃ b c : Rat, softReach l (fin q) ⟨fin x, fin y⟩ ⟨fin m, fin M⟩ (fin dt) = ⟨fin b, fin c⟩ ∧ b ≤ q ∧ q ≤ c ∧ q + x * dt ≤ b ∧ c ≤ q + y * dt ∧ m ≤ b ∧ c ≤ M := by
  have hx' : x * dt ≤ 0 := mul_nonpos_of_nonpos_of_nonneg hx hdt.le
  have hy' : 0 ≤ y * dt := mul_nonneg hy hdt.le
  unfold softReach
  rw [hv]
  simp only [Dbl.isFinite, Bool.and_self, if_true]
  have e1 : (fin q + fin x * fin dt : Dbl) = fin (q + x * dt) := rfl
  have e2 : (fin q + fin y * fin dt : Dbl) = fin (q + y * dt) := rfl
  rw [e1, e2, clamp_fin, clamp_fin]
  refine ⟨_, _, rfl, ?_⟩
  have g1 : ¬ M < q + x * dt := by linarith
  rw [if_neg g1]
  by_cases g2 : q + x * dt < m
  · rw [if_pos g2, if_neg (by linarith)]
    split <;> (refine ⟨?_, ?_, ?_, ?_, ?_, ?_⟩ <;> linarith)
  · rw [if_neg g2, if_neg (by linarith)]
    split <;> (refine ⟨?_, ?_, ?_, ?_, ?_, ?_⟩ <;> linarith)

/-- **C28, soft position limits.** A limited position command of a joint inside its soft limits moves it by at most `k_position` times the distance to the
soft limit times the period, and by at most what `max_velocity` allows. -/
theorem soft_position_brakes (l : Limits) (s : Soft) (m M k V q : Rat) (h : Springy l s m M k V)
    (a d p : Data) (dt : Rat) (z : Bool × Bool) (hdt : 0 < dt) (hd : p.hasData = true) (hq : Stands a p q) (h1 : m ≤ q) (h2 : q ≤ M)
    (hp : ∀ x, a.pos = some x → Within (fin m) x (fin M))
    (ht : (enforce ⟨l, some s⟩ a d p dt z).thrown = false) (v : Dbl) (hv : Num d.pos v) :
    ∃ w, (enforce ⟨l, some s⟩ a d p dt z).cmd.pos = some w ∧ Within (fin (q - k * (q - m) * dt)) w (fin (q + k * (M - q) * dt)) ∧
      Within (fin (q - V * dt)) w (fin (q + V * dt)) := by
  obtain ⟨x, y, e0, b1, bx, by', b2, b3, b4⟩ := softVel_springy h z hq h1 h2 hp
  obtain ⟨b, c, er, r1, r2, r3, r4, -, -⟩ := softReach_springy (l := l) h.vel h1 h2 bx by' hdt
  have hs : s.hasPos = true := (Soft.has_finite h.has).1
  have hin : Inside (softPositionLimits l s a p (softVel l s a p z).1 (fin dt)) (fin b) (fin c) := by
    unfold softPositionLimits softPosRange
    rw [if_pos hs, h.lo, h.hi, stands_prev hq, e0, er]
    exact softMeet_inside ⟨by simp [le], by simp [le]; linarith, by simp [le]⟩
  show ∃ w, (soften l s a d p dt z).cmd.pos = some w ∧ _
  obtain ⟨ub, e⟩ := soften_eq hdt ht
  rw [e]
  simp only [finish, hv.1, initPrev_of_data hd]
  obtain ⟨w, hw, g⟩ := apply_inside (notNan.1 hv.2) (fun _ => softPositionLimits l s a p (softVel l s a p z).1 (fin dt)) hin
  refine ⟨w, hw, g.mono ?_ ?_, g.mono ?_ ?_⟩
  · simp only [le, decide_eq_true_eq]; nlinarith [mul_le_mul_of_nonneg_right b1 hdt.le]
  · simp only [le, decide_eq_true_eq]; nlinarith [mul_le_mul_of_nonneg_right b2 hdt.le]
  · simp only [le, decide_eq_true_eq]; nlinarith [mul_le_mul_of_nonneg_right b3 hdt.le]
  · simp only [le, decide_eq_true_eq]; nlinarith [mul_le_mul_of_nonneg_right b4 hdt.le]

/-- Two ranges that share a point: the command lies in both. -/
theorem Lim.softMeet_hard {r hard : Range} {x L U : Dbl} (h1 : Within r.lo x r.hi) (h2 : Within hard.lo x hard.hi) (h3 : Inside hard L U) :
    Inside (softMeet r hard) L U := by
  have n1 := not_nan_left h1.1
  have n2 := not_nan_right h1.2
  have n3 := not_nan_left h2.1
  have n4 := not_nan_right h2.2
  have ho : le (Dbl.max r.lo hard.lo) (Dbl.min r.hi hard.hi) = true := le_trans (max_le h1.1 h2.1) (le_min h1.2 h2.2)
  unfold softMeet
  dsimp only
  rw [not_lt_of_le ho]
  exact ⟨le_trans h3.lo (le_max_right n1 n3), ho, le_trans (min_le_right n2 n4) h3.hi⟩

/-- **C28, hard limits of a joint with soft limits.** A limited position command of a joint inside both its soft and its hard limits stays inside the hard limits,
also if the soft limits reach beyond them. -/
theorem soft_position_hard (l : Limits) (s : Soft) (m M k V q : Rat) (h : Springy l s m M k V)
    (a d p : Data) (dt : Rat) (z : Bool × Bool) (hdt : 0 < dt) (hd : p.hasData = true) (hq : p.pos = some (fin q)) (h1 : m ≤ q) (h2 : q ≤ M)
    (hh : Within l.minPos (fin q) l.maxPos) (hA : l.hasAcc = true → lt l.maxAcc 0 = false)
    (hp : ∀ x, a.pos = some x → Within (fin m) x (fin M))
    (ht : (enforce ⟨l, some s⟩ a d p dt z).thrown = false) (v : Dbl) (hv : Num d.pos v) :
    ∃ w, (enforce ⟨l, some s⟩ a d p dt z).cmd.pos = some w ∧ Within l.minPos w l.maxPos := by
  obtain ⟨x, y, e0, b1, bx, by', b2, -, -⟩ := softVel_springy h z (.inl hq) h1 h2 hp
  obtain ⟨b, c, er, r1, r2, -, -, -, -⟩ := softReach_springy (l := l) h.vel h1 h2 bx by' hdt
  have hs : s.hasPos = true := (Soft.has_finite h.has).1
  obtain ⟨δ, hδ, d0, -⟩ := deltaPos_fin h.speed h.speed0 hdt hA a.vel
  have hr := le_trans hh.1 hh.2
  have hi := around_inside (r := ⟨l.minPos, l.maxPos⟩) hr (ref := fin q) (d := fin δ) (by simp) (by simp)
  have hmem : Within (around ⟨l.minPos, l.maxPos⟩ (fin q) (fin δ)).lo (fin q) (around ⟨l.minPos, l.maxPos⟩ (fin q) (fin δ)).hi := by
    unfold around
    have g1 : le (fin q - fin δ) (fin q) = true := by
      show le (fin (q + -δ)) (fin q) = true
      simp only [le, decide_eq_true_eq]; linarith
    have g2 : le (fin q) (fin q + fin δ) = true := by
      show le (fin q) (fin (q + δ)) = true
      simp only [le, decide_eq_true_eq]; linarith
    have g3 : le (Dbl.max (Dbl.min (fin q - fin δ) l.maxPos) l.minPos) (fin q) = true := max_le (le_trans (min_le_left rfl) g1) hh.1
    exact ⟨g3, le_min (le_trans g2 (le_max_left rfl)) hh.2⟩
  have hin : Inside (softPositionLimits l s a p (softVel l s a p z).1 (fin dt)) l.minPos l.maxPos := by
    unfold softPositionLimits softPosRange positionLimits
    rw [if_pos hs, h.lo, h.hi, stands_prev (.inl hq), e0, er]
    dsimp only
    rw [if_pos h.vel, hq]
    simp only [posRef, Option.isSome_some, if_true]
    rw [hδ, swap_ordered hi.ord]
    exact softMeet_hard (x := fin q) ⟨by simpa [le] using r1, by simpa [le] using r2⟩ hmem hi
  show ∃ w, (soften l s a d p dt z).cmd.pos = some w ∧ _
  obtain ⟨ub, e⟩ := soften_eq hdt ht
  rw [e]
  simp only [finish, hv.1, initPrev_of_data hd]
  exact apply_inside (notNan.1 hv.2) _ hin

/-! ## The hypotheses are met -/

/-- From 0.5 with soft limits at 0.9 and gain 10: up to 4. -/
example : Springy demo demoSoft (-9 / 10) (9 / 10) 10 1 ∧ Stands { pos := some (fin (1/2)) } { pos := some .nan } (1/2) ∧
    (∀ x, (some (fin (1/2)) : Option Dbl) = some x → Within (fin (-9/10)) x (fin (9/10))) := by
  refine ⟨⟨by decide +kernel, by decide +kernel, by decide +kernel, by decide +kernel, by decide +kernel, by decide +kernel, by decide +kernel, by decide +kernel,
    by decide +kernel⟩, .inr ⟨fun x h => by cases h; rfl, rfl⟩, fun x h => by cases h; decide +kernel⟩

end Verif
