import Verif.Num.LimitsR
import Verif.Props.C28_SoftLimits
/-!
# Lemmas about the joint limiters with rounding
-/
namespace Verif.Lim
open Verif (Dbl Rounding)
open Verif.Dbl
variable {R : Rounding}

theorem add_fin_numR {a : Dbl} (ha : a.isNan = false) (q : Rat) : (R.add a (fin q)).isNan = false := by
  cases a with
  | nan => exact ha
  | fin x => exact R.num _
  | _ => rfl

theorem sub_fin_numR {a : Dbl} (ha : a.isNan = false) (q : Rat) : (R.sub a (fin q)).isNan = false := add_fin_numR ha (-q)

theorem fin_add_numR {v : Dbl} {q : Rat} (h : v.isNan = false) : (R.add (fin q) v).isNan = false := by
  cases v with
  | nan => exact h
  | fin x => exact R.num _
  | _ => rfl

theorem fin_sub_numR {v : Dbl} {q : Rat} (h : v.isNan = false) : (R.sub (fin q) v).isNan = false := fin_add_numR (neg_num h)

theorem mul_pos_numR {v : Dbl} {dt : Rat} (h : v.isNan = false) (hdt : 0 < dt) : (R.mul v (fin dt)).isNan = false := by
  cases v with
  | fin q => exact R.num _
  | nan => exact h
  | pinf => exact mul_pos_num (v := pinf) rfl hdt
  | ninf => exact mul_pos_num (v := ninf) rfl hdt

theorem mul_ne_numR {v : Dbl} {k : Rat} (h : v.isNan = false) (hk : k ≠ 0) : (R.mul (fin k) v).isNan = false := by
  have inf : ∀ b, (infOf b).isNan = false := by intro b; cases b <;> rfl
  cases v with
  | fin q => exact R.num _
  | nan => exact h
  | pinf => show (Dbl.mul (fin k) pinf).isNan = false; simp only [Dbl.mul, if_neg hk, inf]
  | ninf => show (Dbl.mul (fin k) ninf).isNan = false; simp only [Dbl.mul, if_neg hk, inf]

theorem mul_nonnegR {v : Dbl} {dt : Rat} (h : le 0 v = true) (hdt : 0 < dt) : le 0 (R.mul v (fin dt)) = true := by
  cases v with
  | nan => simp at h
  | ninf => exact absurd h (by decide)
  | fin q =>
    rw [zero_eq] at h; simp at h
    exact Rounding.rnd_nonneg (by positivity)
  | pinf => show le 0 (Dbl.mul pinf (fin dt)) = true; simp [Dbl.mul, infOf, hdt, hdt.ne']; rfl

/-- Adding something that is not negative does not get below a value of the type that was below. -/
theorem le_add_nonnegR {q : Rat} {b v : Dbl} (hb : R.Rep b) (h : le b (fin q) = true) (hv : le 0 v = true) :
    le b (R.add (fin q) v) = true := by
  cases v with
  | nan => simp at hv
  | ninf => exact absurd hv (by decide)
  | fin x =>
    rw [zero_eq] at hv; simp at hv
    refine Rounding.le_rnd hb (le_trans h ?_)
    simp; exact hv
  | pinf =>
    show le b pinf = true
    have := not_nan_left h
    cases b <;> first | rfl | exact absurd this (by decide)

theorem sub_le_nonnegR {q : Rat} {b v : Dbl} (hb : R.Rep b) (h : le (fin q) b = true) (hv : le 0 v = true) :
    le (R.sub (fin q) v) b = true := by
  cases v with
  | nan => simp at hv
  | ninf => exact absurd hv (by decide)
  | fin x =>
    rw [zero_eq] at hv; simp at hv
    rw [Rounding.sub_fin]
    refine Rounding.rnd_le hb (le_trans ?_ h)
    simp; exact hv
  | pinf =>
    show le ninf b = true
    have := not_nan_right h
    cases b <;> first | rfl | exact absurd this (by decide)

/-- `+` of a finite number is monotone. -/
theorem add_monoR {q : Rat} {u v : Dbl} (h : le u v = true) : le (R.add (fin q) u) (R.add (fin q) v) = true := by
  have top : ∀ x : Rat, le (R.rnd x) pinf = true := by
    intro x; have := R.num x; revert this; cases R.rnd x <;> simp [le]
  have bot : ∀ x : Rat, le ninf (R.rnd x) = true := by
    intro x; have := R.num x; revert this; cases R.rnd x <;> simp [le]
  cases u with
  | nan => simp at h
  | ninf =>
    cases v with
    | nan => simp at h
    | fin y => exact bot _
    | _ => rfl
  | fin x =>
    cases v with
    | nan => simp at h
    | ninf => simp [le] at h
    | fin y => exact R.mono _ _ (by simp at h; linarith)
    | pinf => exact top _
  | pinf =>
    cases v with
    | pinf => rfl
    | _ => simp [le] at h

theorem sub_monoR {q : Rat} {u v : Dbl} (h : le u v = true) : le (R.sub (fin q) v) (R.sub (fin q) u) = true :=
  add_monoR (Rounding.neg_le_neg h)

/-! ### Positions -/

theorem aroundR_inside {r : Range} {ref d : Dbl} (h : le r.lo r.hi = true) (h1 : (R.sub ref d).isNan = false)
    (h2 : (R.add ref d).isNan = false) : Inside (aroundR R r ref d) r.lo r.hi := by
  have hlo := not_nan_left h
  have hhi := not_nan_right h
  have hm : ((Dbl.min (R.sub ref d) r.hi)).isNan = false := min_not_nan h1
  have a : le r.lo (Dbl.max (Dbl.min (R.sub ref d) r.hi) r.lo) = true := le_max_right hm hlo
  have b : le (Dbl.max (Dbl.min (R.sub ref d) r.hi) r.lo) r.hi = true := max_le (min_le_right h1 hhi) h
  have c : (Dbl.max (R.add ref d) (Dbl.max (Dbl.min (R.sub ref d) r.hi) r.lo)).isNan = false := max_not_nan h2
  exact ⟨a, le_min (le_max_right h2 (not_nan_left b)) b, min_le_right c hhi⟩

/-- The distance a position may move is not negative and at most the rounded `max_velocity * dt`. -/
theorem deltaPosR_le {l : Limits} {V : Rat} {dt : Rat} (hV : l.maxVel = fin V) (h0 : 0 ≤ V) (hdt : 0 < dt)
    (hA : l.hasAcc = true → lt l.maxAcc 0 = false) (av : Option Dbl) :
    le 0 (deltaPosR R l av (fin dt)) = true ∧ le (deltaPosR R l av (fin dt)) (R.mul (fin V) (fin dt)) = true := by
  unfold deltaPosR
  dsimp only
  have w0 : absOf av = nan ∨ le 0 (absOf av) = true := by
    cases av with
    | none => right; rfl
    | some v =>
      cases v with
      | nan => left; rfl
      | fin x => right; show le (fin 0) (fin |x|) = true; simp
      | _ => right; rfl
  have key : ∃ q, Dbl.min (fin V) (if l.hasAcc then R.add (absOf av) (R.mul l.maxAcc (fin dt)) else fin V) = fin q ∧ 0 ≤ q ∧ q ≤ V := by
    have fromNonneg : ∀ s : Dbl, s = nan ∨ le 0 s = true → ∃ q, Dbl.min (fin V) s = fin q ∧ 0 ≤ q ∧ q ≤ V := by
      intro s hs
      rcases hs with rfl | hs
      · exact ⟨V, by simp, h0, _root_.le_refl _⟩
      · cases s with
        | nan => simp at hs
        | ninf => exact absurd hs (by decide)
        | pinf => exact ⟨V, rfl, h0, _root_.le_refl _⟩
        | fin x =>
          rw [zero_eq] at hs; simp at hs
          exact ⟨Min.min V x, min_fin _ _, le_min_iff.2 ⟨h0, hs⟩, _root_.min_le_left _ _⟩
    cases hacc : l.hasAcc with
    | false => exact fromNonneg (fin V) (Or.inr (by rw [zero_eq]; simpa using h0))
    | true =>
      simp only [if_true]
      apply fromNonneg
      have ha := hA hacc
      by_cases hn : l.maxAcc = nan
      · left; rw [hn]; cases absOf av <;> rfl
      · have ha' : le 0 l.maxAcc = true := le_of_not_lt rfl (by cases h : l.maxAcc <;> simp_all) ha
        have hm := mul_nonnegR (R := R) ha' hdt
        rcases w0 with hw | hw
        · left; rw [hw]; cases R.mul l.maxAcc (fin dt) <;> rfl
        · cases hw' : absOf av with
          | nan => rw [hw'] at hw; simp at hw
          | ninf => rw [hw'] at hw; exact absurd hw (by decide)
          | fin x => rw [hw'] at hw; right; exact le_add_nonnegR R.rep_zero hw hm
          | pinf =>
            right
            cases hg : R.mul l.maxAcc (fin dt) with
            | nan => rw [hg] at hm; simp at hm
            | ninf => rw [hg] at hm; exact absurd hm (by decide)
            | _ => rfl
  obtain ⟨q, hq, q0, qV⟩ := key
  rw [hV, hq]
  exact ⟨Rounding.rnd_nonneg (by positivity), R.mono _ _ (mul_le_mul_of_nonneg_right qV hdt.le)⟩

theorem positionLimitsR_inside {l : Limits} {V dt : Rat} (hl : VelOk l V) (hdt : 0 < dt) (hfin : (R.mul (fin V) (fin dt)).isFinite = true)
    (hr : le l.minPos l.maxPos = true) {av ap pp : Option Dbl}
    (href : OrAbsent (fun v => v.isNan = false) (posRef pp ap)) :
    Inside (positionLimitsR R l av ap pp (fin dt)) l.minPos l.maxPos := by
  have base : Inside (⟨l.minPos, l.maxPos⟩ : Range) l.minPos l.maxPos :=
    ⟨le_refl (not_nan_left hr), hr, le_refl (not_nan_right hr)⟩
  unfold positionLimitsR
  dsimp only
  split
  · rename_i hv
    cases hpr : posRef pp ap with
    | none => exact swap_inside base.ends
    | some ref =>
      obtain ⟨h1, h2⟩ := deltaPosR_le (R := R) (hl.vel hv) hl.nonneg hdt hl.acc av
      obtain ⟨D, hD⟩ := finite_fin hfin
      rw [hD] at h2
      obtain ⟨q, hq, -, -⟩ := fin_of_between (a := 0) h1 h2
      have hn := href ref hpr
      dsimp only
      rw [hq]
      exact swap_inside (aroundR_inside (r := ⟨l.minPos, l.maxPos⟩) hr (sub_fin_numR hn q) (add_fin_numR hn q)).ends
  · exact swap_inside base.ends

/-- Around a reference inside the position limits, the bounds stay within the rounded distance of it. -/
theorem positionLimitsR_near {l : Limits} {V dt : Rat} (hl : VelOk l V) (hv : l.hasVel = true) (hdt : 0 < dt)
    {av ap pp : Option Dbl} {q : Rat} (hrep : R.Rep (fin q)) (href : posRef pp ap = some (fin q))
    (hq : Within l.minPos (fin q) l.maxPos) :
    Inside (positionLimitsR R l av ap pp (fin dt)) (R.sub (fin q) (R.mul (fin V) (fin dt))) (R.add (fin q) (R.mul (fin V) (fin dt))) ∧
    Inside (positionLimitsR R l av ap pp (fin dt)) l.minPos l.maxPos := by
  obtain ⟨d0, dV⟩ := deltaPosR_le (R := R) (hl.vel hv) hl.nonneg hdt hl.acc av
  have hr := le_trans hq.1 hq.2
  generalize hd : deltaPosR R l av (fin dt) = d at d0 dV
  have hi := aroundR_inside (R := R) (r := ⟨l.minPos, l.maxPos⟩) hr (ref := fin q) (d := d) (fin_sub_numR (not_nan_right d0))
    (fin_add_numR (not_nan_right d0))
  have e : positionLimitsR R l av ap pp (fin dt) = aroundR R ⟨l.minPos, l.maxPos⟩ (fin q) d := by
    unfold positionLimitsR
    dsimp only
    rw [if_pos hv, href]
    dsimp only
    rw [hd, swap_ordered hi.ord]
  rw [e]
  refine ⟨?_, hi⟩
  have D0 : le 0 (R.mul (fin V) (fin dt)) = true := le_trans d0 dV
  have e1 := le_add_nonnegR hrep (le_refl rfl) D0
  have e2 := sub_monoR (R := R) (q := q) dV
  have e3 := add_monoR (R := R) (q := q) dV
  have e4 := sub_le_nonnegR hrep (le_refl rfl) D0
  have e5 := sub_le_nonnegR hrep (le_refl rfl) d0
  have hmin : le (R.sub (fin q) (R.mul (fin V) (fin dt))) (Dbl.min (R.sub (fin q) d) l.maxPos) = true :=
    le_min e2 (le_trans e4 hq.2)
  have hlo : le (R.sub (fin q) (R.mul (fin V) (fin dt))) (aroundR R ⟨l.minPos, l.maxPos⟩ (fin q) d).lo = true :=
    le_trans hmin (le_max_left (not_nan_right hmin))
  have hloq : le (aroundR R ⟨l.minPos, l.maxPos⟩ (fin q) d).lo (fin q) = true :=
    max_le (le_trans (min_le_left (not_nan_left e5)) e5) hq.1
  refine ⟨hlo, hi.ord, ?_⟩
  have hmx : le (Dbl.max (R.add (fin q) d) (aroundR R ⟨l.minPos, l.maxPos⟩ (fin q) d).lo) (R.add (fin q) (R.mul (fin V) (fin dt))) = true :=
    max_le e3 (le_trans hloq e1)
  exact le_trans (min_le_left (not_nan_left hmx)) hmx

/-! ### Velocities -/

theorem div_nonposR {m p : Dbl} {x dt : Rat} (hp : p = fin x) (hdt : 0 < dt) (h : le m p = true) :
    le (R.div (R.sub m p) (fin dt)) 0 = true := by
  subst hp
  have inf : le (Dbl.div ninf (fin dt)) 0 = true := by
    have : ¬ dt < 0 := by linarith
    simp [Dbl.div, infOf, this]; rfl
  cases m with
  | nan => simp at h
  | pinf => exact absurd h (by simp [le])
  | ninf => exact inf
  | fin a =>
    simp at h
    rw [Rounding.sub_fin]
    have h1 := Rounding.rnd_nonpos (R := R) (a := a - x) (by linarith)
    cases hs : R.rnd (a - x) with
    | nan => rw [hs] at h1; simp at h1
    | pinf => rw [hs] at h1; exact absurd h1 (by decide)
    | ninf => exact inf
    | fin y =>
      rw [hs, zero_eq] at h1
      simp at h1
      rw [R.div_fin _ _ hdt.ne']
      exact Rounding.rnd_nonpos (div_nonpos_of_nonpos_of_nonneg h1 hdt.le)

theorem div_nonnegR {m p : Dbl} {x dt : Rat} (hp : p = fin x) (hdt : 0 < dt) (h : le p m = true) :
    le 0 (R.div (R.sub m p) (fin dt)) = true := by
  subst hp
  have inf : le 0 (Dbl.div pinf (fin dt)) = true := by simp [Dbl.div, infOf, hdt.le]; rfl
  cases m with
  | nan => simp at h
  | ninf => exact absurd h (by simp [le])
  | pinf => exact inf
  | fin a =>
    simp at h
    rw [Rounding.sub_fin]
    have h1 := Rounding.rnd_nonneg (R := R) (a := a - x) (by linarith)
    cases hs : R.rnd (a - x) with
    | nan => rw [hs] at h1; simp at h1
    | ninf => rw [hs] at h1; exact absurd h1 (by decide)
    | pinf => exact inf
    | fin y =>
      rw [hs, zero_eq] at h1
      simp at h1
      rw [R.div_fin _ _ hdt.ne']
      exact Rounding.rnd_nonneg (div_nonneg h1 hdt.le)

theorem nearLimitsR_inside {l : Limits} {p : Dbl} {V dt : Rat} (h : InLimits l p) (hdt : 0 < dt) (h0 : 0 ≤ V)
    (desired : Dbl) :
    Inside (velocityNearLimitsR R l desired p (fin dt) ⟨fin (-V), fin V⟩) (fin (-V)) (fin V) := by
  obtain ⟨x, hx⟩ := finite_fin h.1
  unfold velocityNearLimitsR
  simp only [not_lt_of_le h.2.1, not_lt_of_le h.2.2, Bool.or_self, Bool.false_eq_true, if_false]
  have a := div_nonposR (R := R) hx hdt h.2.1
  have b := div_nonnegR (R := R) hx hdt h.2.2
  have v0 : le (fin (-V)) 0 = true := by rw [zero_eq]; simp; exact h0
  have v1 : le 0 (fin V) = true := by rw [zero_eq]; simp; exact h0
  refine ⟨?_, ?_, ?_⟩
  · exact le_max_right (not_nan_left a) rfl
  · exact le_trans (max_le a v0) (le_min b v1)
  · exact min_le_right (not_nan_right b) rfl

theorem nearPrevR_ends {l : Limits} {V dt : Rat} {u : Dbl} {r : Range} (hrep : R.Rep (fin V)) (hA : le 0 l.maxAcc = true) (hdt : 0 < dt)
    (hu : VelIn V u) (hr : Ends r (fin (-V)) (fin V)) :
    Ends (velocityNearPrevR R l u (fin dt) r) (fin (-V)) (fin V) := by
  obtain ⟨q, rfl, q1, q2⟩ := fin_of_between hu.1 hu.2
  have hm := mul_nonnegR (R := R) hA hdt
  have k1 : le (R.sub (fin q) (R.mul l.maxAcc (fin dt))) (fin V) = true := sub_le_nonnegR hrep hu.2 hm
  have k2 : le (fin (-V)) (R.add (fin q) (R.mul l.maxAcc (fin dt))) = true :=
    le_add_nonnegR (Rounding.rep_neg hrep) hu.1 hm
  unfold velocityNearPrevR
  constructor
  · exact ⟨le_trans hr.lo.1 (le_max_right (not_nan_left k1) (not_nan_left hr.lo.2)), max_le k1 hr.lo.2⟩
  · exact ⟨le_min k2 hr.hi.1, le_trans (min_le_right (not_nan_right k2) (not_nan_left hr.hi.2)) hr.hi.2⟩

theorem velocityLimitsR_inside {l : Limits} {V dt : Rat} (hl : SpeedOk l V) (hrep : R.Rep (fin V)) (hdt : 0 < dt) {desired : Dbl}
    {ap pv : Option Dbl} (hp : l.hasPos = true → OrAbsent (InLimits l) ap) (hu : OrAbsent (VelIn V) pv) :
    Inside (velocityLimitsR R l desired ap pv (fin dt)) (fin (-V)) (fin V) := by
  have v0 : le (fin (-V)) (fin V) = true := by simp; linarith [hl.nonneg]
  have base : Inside (⟨fin (-V), fin V⟩ : Range) (fin (-V)) (fin V) := ⟨le_refl rfl, v0, le_refl rfl⟩
  unfold velocityLimitsR
  rw [hl.has, hl.vel]
  simp only [Bool.not_true, Bool.false_eq_true, if_false, neg_fin]
  have s1 : Inside (velocityFromPosR R l desired ap (fin dt) ⟨fin (-V), fin V⟩) (fin (-V)) (fin V) := by
    unfold velocityFromPosR
    split
    · rename_i h
      cases ap with
      | none => exact base
      | some p => exact nearLimitsR_inside (hp h p rfl) hdt hl.nonneg desired
    · exact base
  unfold velocityFromPrevR
  split
  · rename_i h
    cases pv with
    | none => exact swap_inside s1.ends
    | some u => exact swap_inside (nearPrevR_ends hrep (hl.acc h) hdt (hu u rfl) s1.ends)
  · exact swap_inside s1.ends

/-! ### The shape of a call -/

theorem saturateR_eq {l : Limits} {a d p : Data} {dt : Rat} (h : 0 < dt) (ht : (saturateR R l a d p dt).thrown = false) :
    saturateR R l a d p dt = finish
        (apply d.pos fun _ => positionLimitsR R l a.vel a.pos (initPrev a d p).pos (.fin dt))
        (apply d.vel fun v => velocityLimitsR R l v a.pos (initPrev a d p).vel (.fin dt))
        (apply d.eff fun _ => effortLimits l a.pos a.vel)
        (apply d.acc fun x => accelerationLimits l x a.vel)
        (apply d.jerk fun _ => jerkLimits l)
        (initPrev a d p) := by
  unfold saturateR at ht ⊢
  rw [if_neg (not_le.2 h)] at ht ⊢
  dsimp only at ht ⊢
  split
  · rename_i g; rw [if_pos g] at ht; cases ht
  · rfl

theorem softenR_eq {l : Limits} {s : Soft} {a d p : Data} {dt : Rat} {z : Bool × Bool} (h : 0 < dt)
    (ht : (softenR R l s a d p dt z).thrown = false) :
    ∃ ub, softenR R l s a d p dt z = { finish
        (apply d.pos fun _ => softPositionLimitsR R l s a (initPrev a d p) (softVelR R l s a (initPrev a d p) z).1 (.fin dt))
        (apply d.vel fun v => softVelocityLimitsR R l a (initPrev a d p) (softVelR R l s a (initPrev a d p) z).1 (.fin dt) v)
        (apply d.eff fun _ => softEffortLimitsR R l s a
          (softVelAfterR R l a d (initPrev a d p) (softVelR R l s a (initPrev a d p) z).1 (.fin dt)))
        (apply d.acc fun x => accelerationLimits l x a.vel)
        (apply d.jerk fun _ => jerkLimits l)
        (initPrev a d p) with ub := ub } := by
  unfold softenR at ht ⊢
  rw [if_neg (not_le.2 h)] at ht ⊢
  dsimp only at ht ⊢
  split
  · rename_i g; rw [if_pos g] at ht; cases ht
  · exact ⟨_, rfl⟩

theorem enforceR_idle {lim : Limiter} {a d p : Data} {dt : Rat} {z : Bool × Bool}
    (h : ¬ (0 < dt ∧ (enforceR R lim a d p dt z).thrown = false)) :
    (enforceR R lim a d p dt z).cmd = d ∧ (enforceR R lim a d p dt z).limited = false := by
  unfold enforceR at h ⊢
  cases hs : lim.soft with
  | none =>
    rw [hs] at h
    dsimp only at h ⊢
    unfold saturateR at h ⊢
    split
    · exact ⟨rfl, rfl⟩
    · rename_i g
      dsimp only
      split
      · exact ⟨rfl, rfl⟩
      · rename_i g'
        rw [if_neg g] at h; dsimp only at h; rw [if_neg g'] at h
        exact absurd ⟨not_le.1 g, rfl⟩ h
  | some s =>
    rw [hs] at h
    dsimp only at h ⊢
    unfold softenR at h ⊢
    split
    · exact ⟨rfl, rfl⟩
    · rename_i g
      dsimp only
      split
      · exact ⟨rfl, rfl⟩
      · rename_i g'
        rw [if_neg g] at h; dsimp only at h; rw [if_neg g'] at h
        exact absurd ⟨not_le.1 g, rfl⟩ h

/-- Every call that acts applies some bounds to position, velocity and effort, and those of `Num/Limits` to acceleration and jerk. -/
theorem enforceR_shape {lim : Limiter} {a d p : Data} {dt : Rat} {z : Bool × Bool} (hdt : 0 < dt)
    (ht : (enforceR R lim a d p dt z).thrown = false) :
    ∃ b1 b2 b3 ub, enforceR R lim a d p dt z =
      { finish (apply d.pos b1) (apply d.vel b2) (apply d.eff b3) (apply d.acc fun x => accelerationLimits lim.hard x a.vel)
          (apply d.jerk fun _ => jerkLimits lim.hard) (initPrev a d p) with ub := ub } := by
  unfold enforceR at ht ⊢
  cases hs : lim.soft with
  | none =>
    rw [hs] at ht
    dsimp only at ht ⊢
    rw [saturateR_eq hdt ht]
    exact ⟨_, _, _, _, rfl⟩
  | some s =>
    rw [hs] at ht
    dsimp only at ht ⊢
    obtain ⟨ub, e⟩ := softenR_eq hdt ht
    rw [e]
    exact ⟨_, _, _, _, rfl⟩

theorem enforceR_prev (lim : Limiter) (a d p : Data) (dt : Rat) (z : Bool × Bool) :
    (enforceR R lim a d p dt z).prev = p ∨
    ((enforceR R lim a d p dt z).thrown = true ∧ (enforceR R lim a d p dt z).prev = initPrev a d p) ∨
    (0 < dt ∧ (enforceR R lim a d p dt z).thrown = false ∧
      (enforceR R lim a d p dt z).prev = updatePrev (enforceR R lim a d p dt z).cmd (initPrev a d p)) := by
  unfold enforceR
  cases lim.soft with
  | none =>
    dsimp only
    unfold saturateR
    split
    · left; rfl
    · rename_i g
      dsimp only
      split
      · right; left; exact ⟨rfl, rfl⟩
      · right; right; exact ⟨not_le.1 g, rfl, rfl⟩
  | some s =>
    dsimp only
    unfold softenR
    split
    · left; rfl
    · rename_i g
      dsimp only
      split
      · right; left; exact ⟨rfl, rfl⟩
      · right; right; exact ⟨not_le.1 g, rfl, rfl⟩

theorem historyR_induction {lim : Limiter} {I : Data → Prop} {H : Call → Prop} {P : Call → Out → Prop}
    (step : ∀ prev c, I prev → H c → I (enforceR R lim c.actual c.desired prev c.dt c.z).prev)
    (here : ∀ prev c, I prev → H c → P c (enforceR R lim c.actual c.desired prev c.dt c.z))
    {prev : Data} (h0 : I prev) {cs : List Call} (hH : ∀ c ∈ cs, H c) :
    ∀ x ∈ historyR R lim prev cs, P x.1 x.2 := by
  induction cs generalizing prev with
  | nil => intro x hx; cases hx
  | cons c cs ih =>
    intro x hx
    rcases List.mem_cons.1 hx with rfl | hx
    · exact here prev c h0 (hH c (by simp))
    · exact ih (step prev c h0 (hH c (by simp))) (fun c' hc' => hH c' (by simp [hc'])) x hx

theorem untouchedR (lim : Limiter) (a d p : Data) (dt : Rat) (z : Bool × Bool) :
    (NoCmd d.pos → (enforceR R lim a d p dt z).cmd.pos = d.pos) ∧
    (NoCmd d.vel → (enforceR R lim a d p dt z).cmd.vel = d.vel) ∧
    (NoCmd d.eff → (enforceR R lim a d p dt z).cmd.eff = d.eff) ∧
    (NoCmd d.acc → (enforceR R lim a d p dt z).cmd.acc = d.acc) ∧
    (NoCmd d.jerk → (enforceR R lim a d p dt z).cmd.jerk = d.jerk) := by
  have hn : ∀ {x : Option Dbl}, NoCmd x → numeric x = false := by
    rintro x (rfl | rfl) <;> rfl
  by_cases h : 0 < dt ∧ (enforceR R lim a d p dt z).thrown = false
  · obtain ⟨b1, b2, b3, ub, e⟩ := enforceR_shape h.1 h.2
    rw [e]
    refine ⟨fun g => ?_, fun g => ?_, fun g => ?_, fun g => ?_, fun g => ?_⟩ <;>
      simp only [finish, apply_skip (hn g)]
  · rw [(enforceR_idle h).1]; exact ⟨fun _ => rfl, fun _ => rfl, fun _ => rfl, fun _ => rfl, fun _ => rfl⟩

theorem saturateR_velocity {l : Limits} {V dt : Rat} {a d p : Data} {v : Dbl} (hl : SpeedOk l V) (hrep : R.Rep (fin V))
    (hp : l.hasPos = true → OrAbsent (InLimits l) a.pos) (hu : OrAbsent (VelIn V) (initPrev a d p).vel) (hdt : 0 < dt)
    (ht : (saturateR R l a d p dt).thrown = false) (hd : Num d.vel v) :
    ∃ w, (saturateR R l a d p dt).cmd.vel = some w ∧ VelIn V w := by
  rw [saturateR_eq hdt ht]
  simp only [finish]
  rw [hd.1]
  exact apply_inside (notNan.1 hd.2) _ (velocityLimitsR_inside hl hrep hdt hp hu)

theorem velocityR_prev {l : Limits} {V : Rat} (hl : SpeedOk l V) (hrep : R.Rep (fin V)) {a d p : Data} {dt : Rat} {z : Bool × Bool}
    (hp : l.hasPos = true → OrAbsent (InLimits l) a.pos) (hi : OrAbsent (VelIn V) (initPrev a d p).vel)
    (h0 : OrAbsent (VelIn V) p.vel) :
    OrAbsent (VelIn V) (enforceR R ⟨l, none⟩ a d p dt z).prev.vel := by
  rcases enforceR_prev (R := R) ⟨l, none⟩ a d p dt z with h | ⟨-, h⟩ | ⟨h1, h2, h⟩
  · rw [h]; exact h0
  · rw [h]; exact hi
  · rw [h]
    show OrAbsent _ (keep _ _)
    refine keep_all hi (fun v hv hn => ?_)
    cases hd : d.vel with
    | none =>
      have := (untouchedR (R := R) ⟨l, none⟩ a d p dt z).2.1 (Or.inl hd)
      rw [this, hd] at hv; cases hv
    | some w =>
      by_cases hw : w = .nan
      · have := (untouchedR (R := R) ⟨l, none⟩ a d p dt z).2.1 (Or.inr (by rw [hd, hw]))
        rw [this, hd] at hv
        cases hv; subst hw; simp at hn
      · obtain ⟨w', hw', hin⟩ := saturateR_velocity hl hrep hp hi h1 h2 (v := w) ⟨hd, hw⟩
        have e : (enforceR R ⟨l, none⟩ a d p dt z).cmd.vel = some w' := hw'
        rw [hv] at e; cases e
        exact hin

/-! ### The soft limiter -/

theorem Soft.hasPosR_spec {s : Soft} (h : s.hasPosR R = true) :
    ∃ a b, s.minPos = fin a ∧ s.maxPos = fin b ∧ a < b := by
  unfold Soft.hasPosR at h
  simp only [Bool.and_eq_true] at h
  obtain ⟨⟨h1, h2⟩, h3⟩ := h
  obtain ⟨a, ha⟩ := finite_fin h1
  obtain ⟨b, hb⟩ := finite_fin h2
  refine ⟨a, b, ha, hb, ?_⟩
  rw [ha, hb, R.sub_fin] at h3
  by_contra hab
  have c1 : le (R.rnd (b - a)) 0 = true := Rounding.rnd_nonpos (by linarith)
  have c2 : le 0 (consideredZeroR R) = true := Rounding.rnd_nonneg (by norm_num)
  have := lt_of_le_of_lt (le_trans c1 c2) h3
  rw [lt_irrefl] at this
  cases this

theorem Soft.hasR_spec {s : Soft} (h : s.hasR R = true) : s.hasPosR R = true ∧ ∃ k, s.kPos = fin k ∧ k ≠ 0 := by
  unfold Soft.hasR at h
  simp only [Bool.and_eq_true] at h
  obtain ⟨k, hk⟩ := finite_fin h.1.2
  refine ⟨h.1.1, k, hk, ?_⟩
  rintro rfl
  have c2 : le 0 (consideredZeroR R) = true := Rounding.rnd_nonneg (by norm_num)
  have h2 := h.2
  rw [hk] at h2
  have e : Dbl.abs (fin 0) = 0 := by decide
  rw [e] at h2
  have := lt_of_le_of_lt c2 h2
  rw [lt_irrefl] at this
  cases this

theorem reachVelR_num : (reachVelR R).isNan = false := by
  unfold reachVelR
  show (R.div (fin _) (fin 180)).isNan = false
  rw [R.div_fin _ _ (by norm_num)]
  exact R.num _

theorem copysign_numR (x : Dbl) (b : Bool) : (copysign (reachVelR R) x b).isNan = false := by
  have h := reachVelR_num (R := R)
  unfold copysign
  split
  · exact neg_num h
  · split
    · exact h
    · split
      · exact neg_num h
      · exact h

theorem softVelR_num {l : Limits} {s : Soft} {a p : Data} {z : Bool × Bool}
    (hV : l.hasVel = true → l.maxVel ≠ .nan) :
    (softVelR R l s a p z).1.lo.isNan = false ∧ (softVelR R l s a p z).1.hi.isNan = false := by
  unfold softVelR
  dsimp only
  split
  · exact ⟨rfl, rfl⟩
  · rename_i hv
    have hv' : l.hasVel = true := by simpa using hv
    have hm := notNan.1 (hV hv')
    split
    · rename_i h
      simp only [Bool.and_eq_true] at h
      obtain ⟨hp, k, ek, hk⟩ := Soft.hasR_spec h.1.2
      obtain ⟨m, M, em, eM, -⟩ := Soft.hasPosR_spec hp
      obtain ⟨q, eq⟩ := finite_fin h.2
      split
      · exact ⟨rfl, rfl⟩
      · split
        · exact ⟨copysign_numR _ _, copysign_numR _ _⟩
        · rw [em, eM, ek, eq, neg_fin]
          have h1 : ∀ x, (R.mul (fin (-k)) (R.sub (fin q) (fin x))).isNan = false :=
            fun x => mul_ne_numR (fin_sub_numR rfl) (neg_ne_zero.2 hk)
          exact ⟨clamp_num (h1 m) (neg_num hm) hm, clamp_num (h1 M) (neg_num hm) hm⟩
    · exact ⟨neg_num hm, hm⟩

theorem softReachR_inside {l : Limits} {pp : Dbl} {sv r : Range} {dt : Rat} (hdt : 0 < dt)
    (h : le r.lo r.hi = true) (h1 : sv.lo.isNan = false) (h2 : sv.hi.isNan = false) :
    Inside (softReachR R l pp sv r (fin dt)) r.lo r.hi := by
  unfold softReachR
  split
  · rename_i g
    simp only [Bool.and_eq_true] at g
    obtain ⟨q, rfl⟩ := finite_fin g.2
    have c1 := clamp_within (v := R.add (fin q) (R.mul sv.lo (fin dt))) (fin_add_numR (mul_pos_numR h1 hdt)) h
    have c2 := clamp_within (v := R.add (fin q) (R.mul sv.hi (fin dt))) (fin_add_numR (mul_pos_numR h2 hdt)) c1.2
    exact ⟨c1.1, c2.1, c2.2⟩
  · exact ⟨le_refl (not_nan_left h), h, le_refl (not_nan_right h)⟩

end Verif.Lim
