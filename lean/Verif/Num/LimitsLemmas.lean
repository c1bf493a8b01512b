import Verif.Num.Limits
import Verif.Num.DblLemmas
import Mathlib.Tactic.FieldSimp
import Mathlib.Tactic.Positivity
import Mathlib.Tactic.NormNum
/-!
# Lemmas about the joint limiters
-/
namespace Verif.Lim
open Verif (Dbl)
open Verif.Dbl

/-- `lo ≤ v ≤ hi`, all numbers. -/
def Within (lo v hi : Dbl) : Prop := le lo v = true ∧ le v hi = true

instance : Decidable (Within lo v hi) := by unfold Within; infer_instance

theorem Within.mono {lo v hi L H : Dbl} (h : Within lo v hi) (a : le L lo = true) (b : le hi H = true) :
    Within L v H := ⟨le_trans a h.1, le_trans h.2 b⟩

/-- A range inside `[L, U]`, in order. -/
structure Inside (r : Range) (L U : Dbl) : Prop where
  lo : le L r.lo = true
  ord : le r.lo r.hi = true
  hi : le r.hi U = true

/-- Both ends inside `[L, U]`, in any order. -/
structure Ends (r : Range) (L U : Dbl) : Prop where
  lo : Within L r.lo U
  hi : Within L r.hi U

theorem Inside.ends {r : Range} {L U : Dbl} (h : Inside r L U) : Ends r L U :=
  ⟨⟨h.lo, le_trans h.ord h.hi⟩, ⟨le_trans h.lo h.ord, h.hi⟩⟩

theorem swap_inside {r : Range} {L U : Dbl} (h : Ends r L U) : Inside (swap r) L U := by
  unfold swap
  split
  · exact ⟨h.hi.1, le_of_lt ‹_›, h.lo.2⟩
  · exact ⟨h.lo.1, le_of_not_lt (not_nan_left h.lo.2) (not_nan_left h.hi.2) (Bool.eq_false_iff.2 ‹_›), h.hi.2⟩

theorem swap_ordered {r : Range} (h : le r.lo r.hi = true) : swap r = r := by
  unfold swap; rw [not_lt_of_le h]; rfl

/-! ### One command -/

theorem apply_num {v : Dbl} (h : v.isNan = false) (b : Dbl → Range) :
    apply (some v) b = { val := some (clamp v (b v).lo (b v).hi), limited := isLimited v (b v).lo (b v).hi
                         ub := lt (b v).hi (b v).lo } := by
  simp [apply, h]

theorem apply_skip {d : Option Dbl} (h : numeric d = false) (b : Dbl → Range) : apply d b = { val := d } := by
  cases d with
  | none => rfl
  | some v => simp [numeric] at h; simp [apply, h]

theorem numeric_some {d : Option Dbl} (h : numeric d = true) : ∃ v, d = some v ∧ v.isNan = false := by
  cases d with
  | none => simp [numeric] at h
  | some v => exact ⟨v, rfl, by simpa [numeric] using h⟩

theorem apply_limited (d : Option Dbl) (b : Dbl → Range) : (apply d b).limited = true ↔ (apply d b).val ≠ d := by
  cases hn : numeric d with
  | false => simp [apply_skip hn]
  | true =>
    obtain ⟨v, rfl, h⟩ := numeric_some hn
    rw [apply_num h]
    have := clamp_ne_iff v (b v).lo (b v).hi
    simp only [ne_eq, Option.some.injEq]
    exact this.symm

theorem apply_inside {v : Dbl} (h : v.isNan = false) (b : Dbl → Range) {L U : Dbl} (hb : Inside (b v) L U) :
    ∃ w, (apply (some v) b).val = some w ∧ Within L w U := by
  rw [apply_num h]
  have := clamp_within (v := v) h hb.ord
  exact ⟨_, rfl, le_trans hb.lo this.1, le_trans this.2 hb.hi⟩

theorem apply_ends {v : Dbl} (h : v.isNan = false) (b : Dbl → Range) {L U : Dbl} (hb : Ends (b v) L U) :
    ∃ w, (apply (some v) b).val = some w ∧ Within L w U := by
  rw [apply_num h]
  have := clamp_within_outer (v := v) h hb.lo.1 hb.lo.2 hb.hi.1 hb.hi.2
  exact ⟨_, rfl, this⟩

theorem apply_val_num {v : Dbl} (h : v.isNan = false) (b : Dbl → Range) :
    ∃ w, (apply (some v) b).val = some w := by
  rw [apply_num h]; exact ⟨_, rfl⟩

/-! ### The shape of a call -/

theorem finish_limited {d : Data} {p v e a j : Clamped} {prev : Data}
    (hp : p.limited = true ↔ p.val ≠ d.pos) (hv : v.limited = true ↔ v.val ≠ d.vel)
    (he : e.limited = true ↔ e.val ≠ d.eff) (ha : a.limited = true ↔ a.val ≠ d.acc)
    (hj : j.limited = true ↔ j.val ≠ d.jerk) :
    (finish p v e a j prev).limited = true ↔ (finish p v e a j prev).cmd ≠ d := by
  cases d
  simp only [finish, Bool.or_eq_true, hp, hv, he, ha, hj, ne_eq, Data.mk.injEq]
  tauto

/-! ### `prev_command_` -/

theorem keep_hasData {a b : Option Dbl} (h : b.isSome = true) : (keep a b).isSome = true := by
  unfold keep; split
  · obtain ⟨v, rfl, -⟩ := numeric_some ‹_›; rfl
  · exact h

theorem updatePrev_hasData {d p : Data} (h : p.hasData = true) : (updatePrev d p).hasData = true := by
  simp only [Data.hasData, Bool.or_eq_true] at h ⊢
  simp only [updatePrev]
  rcases h with (((h | h) | h) | h) | h
  · left; left; left; left; exact keep_hasData h
  · left; left; left; right; exact keep_hasData h
  · left; left; right; exact keep_hasData h
  · left; right; exact keep_hasData h
  · right; exact keep_hasData h

theorem initPrev_of_data {a d p : Data} (h : p.hasData = true) : initPrev a d p = p := by
  unfold initPrev; rw [if_pos h]

/-! ### Positions -/

/-- A reading or an old command that is absent or satisfies `P`. -/
def OrAbsent (P : Dbl → Prop) (d : Option Dbl) : Prop := ∀ v, d = some v → P v

theorem firstOf_all {P : Dbl → Prop} {d a p : Option Dbl} (ha : OrAbsent P a) (hp : OrAbsent P p)
    (hd : ∀ v, d = some v → v.isNan = false → a = none → P v) : OrAbsent P (firstOf d a p) := by
  intro v hv
  unfold firstOf at hv
  split at hv
  · exact ha v hv
  · rename_i x
    split at hv
    · exact hp v hv
    · cases hv
      exact hd v rfl (Bool.eq_false_iff.2 ‹_›) rfl
  · exact hp v hv

theorem sub_not_nan {a b : Dbl} (ha : a.isNan = false) (q : Rat) (hb : b = fin q) : (a - b).isNan = false := by
  subst hb
  cases a <;> first | exact absurd ha (by decide) | rfl

theorem add_not_nan {a b : Dbl} (ha : a.isNan = false) (q : Rat) (hb : b = fin q) : (a + b).isNan = false := by
  subst hb
  cases a <;> first | exact absurd ha (by decide) | rfl

theorem around_inside {r : Range} {ref d : Dbl} (h : le r.lo r.hi = true) (h1 : (ref - d).isNan = false)
    (h2 : (ref + d).isNan = false) : Inside (around r ref d) r.lo r.hi := by
  have hlo := not_nan_left h
  have hhi := not_nan_right h
  have hm : ((Dbl.min (ref - d) r.hi)).isNan = false := min_not_nan h1
  have a : le r.lo (Dbl.max (Dbl.min (ref - d) r.hi) r.lo) = true := le_max_right hm hlo
  have b : le (Dbl.max (Dbl.min (ref - d) r.hi) r.lo) r.hi = true := max_le (min_le_right h1 hhi) h
  have c : (Dbl.max (ref + d) (Dbl.max (Dbl.min (ref - d) r.hi) r.lo)).isNan = false := max_not_nan h2
  exact ⟨a, le_min (le_max_right h2 (not_nan_left b)) b, min_le_right c hhi⟩

/-- The distance a position may move is finite, not negative and at most `max_velocity * dt`. -/
theorem deltaPos_fin {l : Limits} {V : Rat} {dt : Rat} (hV : l.maxVel = fin V) (h0 : 0 ≤ V) (hdt : 0 < dt)
    (hA : l.hasAcc = true → lt l.maxAcc 0 = false) (av : Option Dbl) :
    ∃ q, deltaPos l av (fin dt) = fin q ∧ 0 ≤ q ∧ q ≤ V * dt := by
  unfold deltaPos
  dsimp only
  generalize hw : absOf av = w
  have w0 : w = nan ∨ w = pinf ∨ ∃ x, w = fin x ∧ 0 ≤ x := by
    cases av with
    | none => right; right; exact ⟨0, hw.symm, _root_.le_refl _⟩
    | some v =>
      cases v with
      | nan => left; exact hw.symm
      | ninf => right; left; exact hw.symm
      | pinf => right; left; exact hw.symm
      | fin x => right; right; exact ⟨|x|, hw.symm, abs_nonneg x⟩
  have key : ∃ q, Dbl.min (fin V) (if l.hasAcc then w + l.maxAcc * fin dt else fin V) = fin q ∧ 0 ≤ q ∧ q ≤ V := by
    cases hacc : l.hasAcc with
    | false => exact ⟨V, by simp [min_fin], h0, _root_.le_refl _⟩
    | true =>
      have ha := hA hacc
      simp only [if_true]
      generalize hs : w + l.maxAcc * fin dt = s
      have s0 : s = nan ∨ s = pinf ∨ ∃ x, s = fin x ∧ 0 ≤ x := by
        cases hm : l.maxAcc with
        | nan =>
          left; rw [← hs, hm]
          rcases w0 with rfl | rfl | ⟨x, rfl, _⟩ <;> rfl
        | ninf => rw [hm] at ha; exact absurd ha (by decide)
        | pinf =>
          rw [hm] at hs
          have : (pinf * fin dt : Dbl) = pinf := by
            show mul pinf (fin dt) = _
            simp [mul, infOf, hdt, hdt.ne']
          rw [this] at hs
          rcases w0 with rfl | rfl | ⟨x, rfl, _⟩
          · left; rw [← hs]; rfl
          · right; left; rw [← hs]; rfl
          · right; left; rw [← hs]; rfl
        | fin A =>
          rw [hm, mul_fin] at hs
          rw [hm, zero_eq] at ha
          simp at ha
          rcases w0 with rfl | rfl | ⟨x, rfl, hx⟩
          · left; rw [← hs]; rfl
          · right; left; rw [← hs]; rfl
          · right; right; exact ⟨x + A * dt, by rw [← hs]; rfl, by positivity⟩
      rcases s0 with rfl | rfl | ⟨x, rfl, hx⟩
      · exact ⟨V, by simp, h0, _root_.le_refl _⟩
      · exact ⟨V, rfl, h0, _root_.le_refl _⟩
      · exact ⟨Min.min V x, min_fin _ _, le_min_iff.2 ⟨h0, hx⟩, _root_.min_le_left _ _⟩
  obtain ⟨q, hq, q0, qV⟩ := key
  rw [hV, hq]
  exact ⟨q * dt, mul_fin _ _, by positivity, by exact mul_le_mul_of_nonneg_right qV hdt.le⟩

/-- The velocity limit is a finite, nonnegative number and the acceleration limit is not negative. -/
structure VelOk (l : Limits) (V : Rat) : Prop where
  vel : l.hasVel = true → l.maxVel = fin V
  nonneg : 0 ≤ V
  acc : l.hasAcc = true → lt l.maxAcc 0 = false

theorem posRef_all {P : Dbl → Prop} {p a : Option Dbl} (hp : OrAbsent P p) (ha : OrAbsent P a) :
    OrAbsent P (posRef p a) := by
  unfold posRef; split <;> assumption

theorem positionLimits_inside {l : Limits} {V dt : Rat} (hl : VelOk l V) (hdt : 0 < dt)
    (hr : le l.minPos l.maxPos = true) {av ap pp : Option Dbl}
    (href : OrAbsent (fun v => v.isNan = false) (posRef pp ap)) :
    Inside (positionLimits l av ap pp (fin dt)) l.minPos l.maxPos := by
  have base : Inside (⟨l.minPos, l.maxPos⟩ : Range) l.minPos l.maxPos :=
    ⟨le_refl (not_nan_left hr), hr, le_refl (not_nan_right hr)⟩
  unfold positionLimits
  dsimp only
  split
  · rename_i hv
    cases hpr : posRef pp ap with
    | none => exact swap_inside base.ends
    | some ref =>
      obtain ⟨q, hq, -, -⟩ := deltaPos_fin (hl.vel hv) hl.nonneg hdt hl.acc av
      have hn := href ref hpr
      exact swap_inside (around_inside (r := ⟨l.minPos, l.maxPos⟩) hr (sub_not_nan hn q hq) (add_not_nan hn q hq)).ends
  · exact swap_inside base.ends

/-- Around a reference inside the position limits, the bounds stay within the allowed distance of it. -/
theorem positionLimits_near {l : Limits} {V dt : Rat} (hl : VelOk l V) (hv : l.hasVel = true) (hdt : 0 < dt)
    {av ap pp : Option Dbl} {q : Rat} (href : posRef pp ap = some (fin q)) (hq : Within l.minPos (fin q) l.maxPos) :
    Inside (positionLimits l av ap pp (fin dt)) (fin (q - V * dt)) (fin (q + V * dt)) := by
  obtain ⟨d, hd, d0, dV⟩ := deltaPos_fin (hl.vel hv) hl.nonneg hdt hl.acc av
  have hr := le_trans hq.1 hq.2
  have hi := around_inside (r := ⟨l.minPos, l.maxPos⟩) hr (ref := fin q) (d := fin d) (by simp) (by simp)
  unfold positionLimits
  dsimp only
  rw [if_pos hv, href]
  dsimp only
  rw [hd, swap_ordered hi.ord]
  have e1 : le (fin q) (fin (q + V * dt)) = true := by simp; linarith
  have e2 : le (fin (q - V * dt)) (fin (q - d)) = true := by simp; linarith
  have e3 : le (fin (q + d)) (fin (q + V * dt)) = true := by simp; linarith
  have e4 : le (fin (q - V * dt)) (fin q) = true := by simp; linarith
  have e5 : le (fin (q - d)) (fin q) = true := by simp; linarith
  have e6 : le (fin q) (fin (q + d)) = true := by simp; linarith
  have hmin : le (fin (q - V * dt)) (Dbl.min (fin q - fin d) l.maxPos) = true := by
    rw [sub_fin]; exact le_min e2 (le_trans e4 hq.2)
  have hlo : le (fin (q - V * dt)) (around ⟨l.minPos, l.maxPos⟩ (fin q) (fin d)).lo = true := by
    show le _ (Dbl.max (Dbl.min (fin q - fin d) l.maxPos) l.minPos) = true
    exact le_trans hmin (le_max_left (not_nan_right hmin))
  have hloq : le (around ⟨l.minPos, l.maxPos⟩ (fin q) (fin d)).lo (fin q) = true := by
    show le (Dbl.max (Dbl.min (fin q - fin d) l.maxPos) l.minPos) _ = true
    rw [sub_fin]
    exact max_le (le_trans (min_le_left rfl) e5) hq.1
  refine ⟨hlo, hi.ord, ?_⟩
  show le (Dbl.min (Dbl.max (fin q + fin d) (around ⟨l.minPos, l.maxPos⟩ (fin q) (fin d)).lo) l.maxPos) _ = true
  have hmx : le (Dbl.max (fin q + fin d) (around ⟨l.minPos, l.maxPos⟩ (fin q) (fin d)).lo) (fin (q + V * dt)) = true := by
    rw [add_fin]
    exact max_le e3 (le_trans hloq e1)
  exact le_trans (min_le_left (not_nan_left hmx)) hmx

/-! ### Velocities -/

theorem div_nonpos {m p : Dbl} {x dt : Rat} (hp : p = fin x) (hdt : 0 < dt) (h : le m p = true) :
    le ((m - p) / fin dt) 0 = true := by
  subst hp
  cases m with
  | nan => simp at h
  | pinf => exact absurd h (by simp [le])
  | ninf =>
    show le (div (sub ninf (fin x)) (fin dt)) (fin 0) = true
    have : ¬ dt < 0 := by linarith
    simp [sub, neg, add, div, infOf, le, this]
  | fin a =>
    rw [sub_fin, div_fin _ _ hdt.ne', zero_eq, le_fin]
    simp at h
    simp only [decide_eq_true_eq]
    exact div_nonpos_of_nonpos_of_nonneg (by linarith) hdt.le

theorem div_nonneg' {m p : Dbl} {x dt : Rat} (hp : p = fin x) (hdt : 0 < dt) (h : le p m = true) :
    le 0 ((m - p) / fin dt) = true := by
  subst hp
  cases m with
  | nan => simp at h
  | ninf => exact absurd h (by simp [le])
  | pinf =>
    show le (fin 0) (div (sub pinf (fin x)) (fin dt)) = true
    simp [sub, neg, add, div, infOf, le, hdt.le]
  | fin a =>
    rw [sub_fin, div_fin _ _ hdt.ne', zero_eq, le_fin]
    simp at h
    simp only [decide_eq_true_eq]
    exact div_nonneg (by linarith) hdt.le

/-- A finite position inside the position limits. -/
def InLimits (l : Limits) (p : Dbl) : Prop := p.isFinite = true ∧ Within l.minPos p l.maxPos

/-- A velocity of at most `V`. -/
def VelIn (V : Rat) (v : Dbl) : Prop := Within (fin (-V)) v (fin V)

theorem finite_fin {p : Dbl} (h : p.isFinite = true) : ∃ x, p = fin x := by
  cases p <;> simp_all

theorem nearLimits_eq {l : Limits} {p : Dbl} (h : InLimits l p) (desired dt : Dbl) (r : Range) :
    velocityNearLimits l desired p dt r =
      ⟨Dbl.max ((l.minPos - p) / dt) r.lo, Dbl.min ((l.maxPos - p) / dt) r.hi⟩ := by
  unfold velocityNearLimits
  simp only [not_lt_of_le h.2.1, not_lt_of_le h.2.2, Bool.or_self, Bool.false_eq_true, if_false]

theorem nearLimits_inside {l : Limits} {p : Dbl} {V dt : Rat} (h : InLimits l p) (hdt : 0 < dt) (h0 : 0 ≤ V)
    (desired : Dbl) :
    Inside (velocityNearLimits l desired p (fin dt) ⟨fin (-V), fin V⟩) (fin (-V)) (fin V) := by
  obtain ⟨x, hx⟩ := finite_fin h.1
  rw [nearLimits_eq h]
  have a := div_nonpos hx hdt h.2.1
  have b := div_nonneg' hx hdt h.2.2
  have v0 : le (fin (-V)) 0 = true := by rw [zero_eq]; simp; exact h0
  have v1 : le 0 (fin V) = true := by rw [zero_eq]; simp; exact h0
  refine ⟨?_, ?_, ?_⟩
  · exact le_max_right (not_nan_left a) rfl
  · exact le_trans (max_le a v0) (le_min b v1)
  · exact min_le_right (not_nan_right b) rfl

theorem nearPrev_ends {l : Limits} {V dt : Rat} {u : Dbl} {r : Range} (hA : le 0 l.maxAcc = true) (hdt : 0 < dt)
    (hu : VelIn V u) (hr : Ends r (fin (-V)) (fin V)) :
    Ends (velocityNearPrev l u (fin dt) r) (fin (-V)) (fin V) := by
  obtain ⟨q, rfl, q1, q2⟩ := fin_of_between hu.1 hu.2
  have key : le (fin q - l.maxAcc * fin dt) (fin q) = true ∧ le (fin q) (fin q + l.maxAcc * fin dt) = true := by
    cases hm : l.maxAcc with
    | nan => rw [hm] at hA; simp at hA
    | ninf => rw [hm] at hA; exact absurd hA (by decide)
    | pinf =>
      have : (pinf * fin dt : Dbl) = pinf := by
        show mul pinf (fin dt) = _
        simp [mul, infOf, hdt, hdt.ne']
      rw [this]; exact ⟨rfl, rfl⟩
    | fin A =>
      rw [hm, zero_eq] at hA
      simp at hA
      have : 0 ≤ A * dt := by positivity
      rw [mul_fin, sub_fin, add_fin]
      constructor <;> simp [this]
  unfold velocityNearPrev
  have h1 := not_nan_left key.1
  have h2 := not_nan_right key.2
  constructor
  · exact ⟨le_trans hr.lo.1 (le_max_right h1 (not_nan_left hr.lo.2)), max_le (le_trans key.1 hu.2) hr.lo.2⟩
  · exact ⟨le_min (le_trans hu.1 key.2) hr.hi.1, le_trans (min_le_right h2 (not_nan_left hr.hi.2)) hr.hi.2⟩

/-- The velocity limits are usable: a finite nonnegative maximum velocity and a nonnegative maximum acceleration. -/
structure SpeedOk (l : Limits) (V : Rat) : Prop where
  has : l.hasVel = true
  vel : l.maxVel = fin V
  nonneg : 0 ≤ V
  acc : l.hasAcc = true → le 0 l.maxAcc = true

theorem velocityLimits_inside {l : Limits} {V dt : Rat} (hl : SpeedOk l V) (hdt : 0 < dt) {desired : Dbl}
    {ap pv : Option Dbl} (hp : l.hasPos = true → OrAbsent (InLimits l) ap) (hu : OrAbsent (VelIn V) pv) :
    Inside (velocityLimits l desired ap pv (fin dt)) (fin (-V)) (fin V) := by
  have v0 : le (fin (-V)) (fin V) = true := by simp; linarith [hl.nonneg]
  have base : Inside (⟨fin (-V), fin V⟩ : Range) (fin (-V)) (fin V) := ⟨le_refl rfl, v0, le_refl rfl⟩
  unfold velocityLimits
  rw [hl.has, hl.vel]
  simp only [Bool.not_true, Bool.false_eq_true, if_false, neg_fin]
  have s1 : Inside (velocityFromPos l desired ap (fin dt) ⟨fin (-V), fin V⟩) (fin (-V)) (fin V) := by
    unfold velocityFromPos
    split
    · rename_i h
      cases ap with
      | none => exact base
      | some p => exact nearLimits_inside (hp h p rfl) hdt hl.nonneg desired
    · exact base
  unfold velocityFromPrev
  split
  · rename_i h
    cases pv with
    | none => exact swap_inside s1.ends
    | some u => exact swap_inside (nearPrev_ends (hl.acc h) hdt (hu u rfl) s1.ends)
  · exact swap_inside s1.ends

/-- If the joint can respect both, the bounds respect the acceleration limit and the position limits. -/
theorem velocityLimits_both {l : Limits} {V A dt u x : Rat} (hl : SpeedOk l V) (hacc : l.hasAcc = true)
    (hA : l.maxAcc = fin A) (hdt : 0 < dt) (hu : VelIn V (fin u)) {desired : Dbl} {m M : Rat}
    (hm : l.minPos = fin m) (hM : l.maxPos = fin M) (hpos : l.hasPos = true)
    (hx : m ≤ x ∧ x ≤ M) (h1 : m ≤ x + (u + A * dt) * dt) (h2 : x + (u - A * dt) * dt ≤ M) :
    velocityLimits l desired (some (fin x)) (some (fin u)) (fin dt) =
      ⟨fin (max (u - A * dt) (max ((m - x) / dt) (-V))), fin (min (u + A * dt) (min ((M - x) / dt) V))⟩ ∧
    max (u - A * dt) (max ((m - x) / dt) (-V)) ≤ min (u + A * dt) (min ((M - x) / dt) V) := by
  have hA0 : 0 ≤ A := by
    have := hl.acc hacc
    rw [hA, zero_eq] at this; simpa using this
  have hAd : 0 ≤ A * dt := by positivity
  have hin : InLimits l (fin x) := ⟨rfl, by rw [hm]; simpa using hx.1, by rw [hM]; simpa using hx.2⟩
  obtain ⟨q, hq, q1, q2⟩ := fin_of_between hu.1 hu.2
  cases hq
  have d1 : (m - x) / dt ≤ u + A * dt := by rw [div_le_iff₀ hdt]; linarith
  have d2 : u - A * dt ≤ (M - x) / dt := by rw [le_div_iff₀ hdt]; linarith
  have d3 : (m - x) / dt ≤ 0 := div_nonpos_of_nonpos_of_nonneg (by linarith) hdt.le
  have d4 : 0 ≤ (M - x) / dt := div_nonneg (by linarith) hdt.le
  have hV := hl.nonneg
  have ord : max (u - A * dt) (max ((m - x) / dt) (-V)) ≤ min (u + A * dt) (min ((M - x) / dt) V) := by
    refine _root_.max_le (_root_.le_min (by linarith) (_root_.le_min d2 (by linarith))) (_root_.max_le
      (_root_.le_min d1 (_root_.le_min (by linarith) (by linarith))) (_root_.le_min (by linarith)
      (_root_.le_min (by linarith) (by linarith))))
  refine ⟨?_, ord⟩
  unfold velocityLimits
  unfold velocityFromPrev velocityFromPos
  rw [hl.has, hl.vel, hpos, hacc]
  simp only [Bool.not_true, Bool.false_eq_true, if_false, if_true, neg_fin]
  rw [nearLimits_eq hin, hm, hM]
  simp only [sub_fin, div_fin _ _ hdt.ne', max_fin, min_fin, velocityNearPrev, hA, mul_fin, add_fin]
  rw [swap_ordered]
  simpa using ord

/-! ### Efforts -/

theorem effortLimits_ends {l : Limits} {E : Dbl} (hE : l.maxEff = E) (h0 : le 0 E = true) (h : l.hasEff = true)
    (ap av : Option Dbl) : Inside (effortLimits l ap av) (-E) E := by
  have hn : le (-E) 0 = true := by
    cases E with
    | nan => simp at h0
    | ninf => exact absurd h0 (by decide)
    | pinf => rfl
    | fin e => rw [zero_eq] at h0 ⊢; rw [neg_fin]; simp at h0 ⊢; exact h0
  have hz : Within (-E) 0 E := ⟨hn, h0⟩
  have b1 : Within (-E) (-E) E := ⟨le_refl (not_nan_left hn), le_trans hn h0⟩
  have b2 : Within (-E) E E := ⟨le_trans hn h0, le_refl (not_nan_right h0)⟩
  unfold effortLimits
  rw [h, hE]
  simp only [Bool.not_true, Bool.false_eq_true, if_false]
  apply swap_inside
  repeat' split
  all_goals constructor <;> assumption

end Verif.Lim
