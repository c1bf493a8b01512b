import Verif.Num.LimitsRLemmas
/-!
# C69: the limits hold in `double`, with rounding

C28 and C29 are stated for exact numbers. Here every operation of the limiters is rounded. The theorems hold for every `R : Rounding`: any
function from exact numbers to `double` that is monotone and odd, keeps 0 and its own results, and never gives NaN; `Rounding.binary64` (IEEE 754,
nearest, ties to even, with overflow and subnormal numbers) is one. `R.Rep v` says that `v` is a value of the type.
-/
namespace Verif
open Lim Dbl

/-! ## Commands that are not numbers; the flag; the exception -/

/-- **C69, untouched.** A command that is absent or NaN is handed back as it is. -/
theorem C69_absent_untouched (R : Rounding) (lim : Limiter) (a d p : Data) (dt : Rat) (z : Bool × Bool) :
    (NoCmd d.pos → (enforceR R lim a d p dt z).cmd.pos = d.pos) ∧
    (NoCmd d.vel → (enforceR R lim a d p dt z).cmd.vel = d.vel) ∧
    (NoCmd d.eff → (enforceR R lim a d p dt z).cmd.eff = d.eff) ∧
    (NoCmd d.acc → (enforceR R lim a d p dt z).cmd.acc = d.acc) ∧
    (NoCmd d.jerk → (enforceR R lim a d p dt z).cmd.jerk = d.jerk) := untouchedR lim a d p dt z

/-- **C69, the flag.** The limiter answers true exactly if it changed some command. -/
theorem C69_flag_iff_changed (R : Rounding) (lim : Limiter) (a d p : Data) (dt : Rat) (z : Bool × Bool) :
    (enforceR R lim a d p dt z).limited = true ↔ (enforceR R lim a d p dt z).cmd ≠ d := by
  by_cases h : 0 < dt ∧ (enforceR R lim a d p dt z).thrown = false
  · obtain ⟨b1, b2, b3, ub, e⟩ := enforceR_shape h.1 h.2
    rw [e]
    exact finish_limited (prev := initPrev a d p) (apply_limited _ _) (apply_limited _ _) (apply_limited _ _) (apply_limited _ _)
      (apply_limited _ _)
  · rw [(enforceR_idle h).1, (enforceR_idle h).2]; simp

/-- **C69, the exception.** A call throws exactly if it has a positive period, a position command and an actual position outside the position
limits by more than the tolerance, as `double` computes it; then no command is changed. -/
theorem C69_throws_iff (R : Rounding) (lim : Limiter) (a d p : Data) (dt : Rat) (z : Bool × Bool) :
    ((enforceR R lim a d p dt z).thrown = true ↔
      0 < dt ∧ (∃ v, Num d.pos v) ∧ lim.hard.hasPos = true ∧
        ∃ x, a.pos = some x ∧ (lt (R.add lim.hard.maxPos (R.rnd (87 / 10000))) x = true ∨
          lt x (R.sub lim.hard.minPos (R.rnd (87 / 10000))) = true)) ∧
    ((enforceR R lim a d p dt z).thrown = true → (enforceR R lim a d p dt z).cmd = d ∧ (enforceR R lim a d p dt z).limited = false) := by
  refine ⟨?_, fun h => enforceR_idle (by rw [h]; simp)⟩
  have key : (numeric d.pos && outOfBoundsR R lim.hard a.pos) = true ↔
      (∃ v, Num d.pos v) ∧ lim.hard.hasPos = true ∧
        ∃ x, a.pos = some x ∧ (lt (R.add lim.hard.maxPos (R.rnd (87 / 10000))) x = true ∨
          lt x (R.sub lim.hard.minPos (R.rnd (87 / 10000))) = true) := by
    rw [Bool.and_eq_true]
    apply and_congr
    · constructor
      · intro h; obtain ⟨v, hv, hn⟩ := numeric_some h; exact ⟨v, hv, notNan.2 hn⟩
      · rintro ⟨v, hv, hn⟩; rw [hv]; simp [numeric, notNan.1 hn]
    · unfold outOfBoundsR throwTolR Rounding.lit
      cases a.pos with
      | none => simp
      | some x => simp
  unfold enforceR
  cases lim.soft with
  | none =>
    dsimp only
    unfold saturateR
    split
    · rename_i g; simp [not_lt.2 g]
    · rename_i g
      rw [← key]
      dsimp only
      split
      · rename_i g'; simp [not_le.1 g, g']
      · rename_i g'; simp only [finish]; simp [g']
  | some s =>
    dsimp only
    unfold softenR
    split
    · rename_i g; simp [not_lt.2 g]
    · rename_i g
      rw [← key]
      dsimp only
      split
      · rename_i g'; simp [not_le.1 g, g']
      · rename_i g'; simp only [finish]; simp [g']

/-! ## Positions -/

/-- The call has no NaN as actual position, its position command is a value of the type, and `max_velocity * dt` does not overflow. -/
def Lim.PosCall (R : Rounding) (V : Rat) (c : Call) : Prop :=
  PosReadable c ∧ OrAbsent R.Rep c.desired.pos ∧ (0 < c.dt → (R.mul (fin V) (fin c.dt)).isFinite = true)

theorem Lim.saturateR_position {R : Rounding} {l : Limits} {V dt : Rat} {a d p : Data} {v : Dbl} (hl : VelOk l V)
    (hr : le l.minPos l.maxPos = true) (ha : OrAbsent (fun v => v.isNan = false) a.pos)
    (hp : OrAbsent (fun v => v.isNan = false) p.pos) (hdt : 0 < dt) (hfin : (R.mul (fin V) (fin dt)).isFinite = true)
    (ht : (saturateR R l a d p dt).thrown = false) (hd : Num d.pos v) :
    ∃ w, (saturateR R l a d p dt).cmd.pos = some w ∧ Within l.minPos w l.maxPos := by
  rw [saturateR_eq hdt ht]
  simp only [finish]
  rw [hd.1]
  exact apply_inside (notNan.1 hd.2) _ (positionLimitsR_inside hl hdt hfin hr
    (posRef_all (initPrev_pos ha hp (fun v _ hv _ => hv)) ha))

theorem Lim.posR_prev {R : Rounding} {l : Limits} {a d p : Data} {dt : Rat} {z : Bool × Bool}
    (ha : OrAbsent (fun v => v.isNan = false) a.pos) (hp : OrAbsent (fun v => v.isNan = false) p.pos) :
    OrAbsent (fun v => v.isNan = false) (enforceR R ⟨l, none⟩ a d p dt z).prev.pos := by
  have hi := initPrev_pos (d := d) ha hp (fun v _ hv _ => hv)
  rcases enforceR_prev (R := R) ⟨l, none⟩ a d p dt z with h | ⟨-, h⟩ | ⟨-, -, h⟩
  · rw [h]; exact hp
  · rw [h]; exact hi
  · rw [h]; exact keep_all hi (fun v _ hv => hv)

/-- **C69, positions (saturation limiter).** Full statement: every limited position command lies inside the position limits. Proved with
rounding, over every history of calls in which no NaN is reported as actual position and `max_velocity * dt` does not overflow. -/
theorem C69_position_within_partial (R : Rounding) (l : Limits) (V : Rat) (hl : VelOk l V) (hr : le l.minPos l.maxPos = true)
    (cs : List Call) (hcs : ∀ c ∈ cs, PosReadable c ∧ (0 < c.dt → (R.mul (fin V) (fin c.dt)).isFinite = true)) :
    ∀ x ∈ historyR R ⟨l, none⟩ {} cs, Lim.Acted x → ∀ v, Num x.1.desired.pos v →
      ∃ w, x.2.cmd.pos = some w ∧ Within l.minPos w l.maxPos := by
  refine historyR_induction (I := fun p => OrAbsent (fun v => v.isNan = false) p.pos)
    (H := fun c => PosReadable c ∧ (0 < c.dt → (R.mul (fin V) (fin c.dt)).isFinite = true))
    (P := fun c o => Lim.Acted (c, o) → ∀ v, Num c.desired.pos v → ∃ w, o.cmd.pos = some w ∧ Within l.minPos w l.maxPos)
    ?_ ?_ (by intro v hv; cases hv) hcs
  · intro p c hp hc
    exact posR_prev (fun v hv => notNan.1 (hc.1 v hv)) hp
  · intro p c hp hc hL v hv
    exact saturateR_position hl hr (fun v hv => notNan.1 (hc.1 v hv)) hp hL.1 (hc.2 hL.1) hL.2 hv

/-! ## Positions from cycle to cycle -/

theorem Lim.rep_min {R : Rounding} {a b : Dbl} (ha : R.Rep a) (hb : R.Rep b) : R.Rep (Dbl.min a b) := by unfold Dbl.min; split <;> assumption
theorem Lim.rep_max {R : Rounding} {a b : Dbl} (ha : R.Rep a) (hb : R.Rep b) : R.Rep (Dbl.max a b) := by unfold Dbl.max; split <;> assumption
theorem Lim.rep_clamp {R : Rounding} {v a b : Dbl} (hv : R.Rep v) (ha : R.Rep a) (hb : R.Rep b) : R.Rep (Dbl.clamp v a b) := by
  unfold Dbl.clamp; split
  · exact ha
  · split <;> assumption

theorem Lim.positionLimitsR_rep {R : Rounding} {l : Limits} (h1 : R.Rep l.minPos) (h2 : R.Rep l.maxPos) (av ap pp : Option Dbl) (dt : Dbl) :
    R.Rep (positionLimitsR R l av ap pp dt).lo ∧ R.Rep (positionLimitsR R l av ap pp dt).hi := by
  have sw : ∀ r : Range, R.Rep r.lo → R.Rep r.hi → R.Rep (swap r).lo ∧ R.Rep (swap r).hi := by
    intro r a b; unfold swap; split
    · exact ⟨b, a⟩
    · exact ⟨a, b⟩
  unfold positionLimitsR
  dsimp only
  split
  · split
    · have hlo := rep_max (rep_min (R.rep_sub (‹Dbl› : Dbl) (deltaPosR R l av dt)) h2) h1
      exact sw _ hlo (rep_min (rep_max (R.rep_add _ _) hlo) h2)
    · exact sw _ h1 h2
  · exact sw _ h1 h2

theorem Lim.chain_historyR {R : Rounding} {lim : Limiter} {sel : Data → Option Dbl} {S : Rat × Dbl → Rat × Dbl → Prop}
    {I : Data → Prop} {T : Dbl → Data → Prop} {H : Call → Prop}
    (t0 : ∀ v p c, T v p → H c → emitted sel (c, enforceR R lim c.actual c.desired p c.dt c.z) = none →
      T v (enforceR R lim c.actual c.desired p c.dt c.z).prev)
    (t1 : ∀ v p c e, T v p → H c → emitted sel (c, enforceR R lim c.actual c.desired p c.dt c.z) = some e →
      (∀ t, S (t, v) e) ∧ T e.2 (enforceR R lim c.actual c.desired p c.dt c.z).prev)
    (i0 : ∀ p c, I p → H c → emitted sel (c, enforceR R lim c.actual c.desired p c.dt c.z) = none →
      I (enforceR R lim c.actual c.desired p c.dt c.z).prev)
    (i1 : ∀ p c e, I p → H c → emitted sel (c, enforceR R lim c.actual c.desired p c.dt c.z) = some e →
      T e.2 (enforceR R lim c.actual c.desired p c.dt c.z).prev)
    (cs : List Call) (hH : ∀ c ∈ cs, H c) (prev : Data) :
    (I prev → ((historyR R lim prev cs).filterMap (emitted sel)).IsChain S) ∧
    (∀ e : Rat × Dbl, T e.2 prev → (e :: (historyR R lim prev cs).filterMap (emitted sel)).IsChain S) := by
  induction cs generalizing prev with
  | nil => exact ⟨fun _ => .nil, fun e _ => .singleton e⟩
  | cons c cs ih =>
    have hc := hH c (by simp)
    have ih' := ih (fun c' h' => hH c' (by simp [h'])) (enforceR R lim c.actual c.desired prev c.dt c.z).prev
    rw [show historyR R lim prev (c :: cs) = (c, enforceR R lim c.actual c.desired prev c.dt c.z) ::
      historyR R lim (enforceR R lim c.actual c.desired prev c.dt c.z).prev cs from rfl]
    cases he : emitted sel (c, enforceR R lim c.actual c.desired prev c.dt c.z) with
    | none =>
      rw [List.filterMap_cons_none he]
      exact ⟨fun h => ih'.1 (i0 _ _ h hc he), fun e h => ih'.2 e (t0 _ _ _ h hc he)⟩
    | some e' =>
      rw [List.filterMap_cons_some he]
      refine ⟨fun h => ih'.2 e' (i1 _ _ _ h hc he), fun e h => ?_⟩
      have := t1 _ _ _ _ h hc he
      exact .cons_cons (this.1 e.1) (ih'.2 e' this.2)

theorem Lim.prev_pos_ofR {R : Rounding} {lim : Limiter} {c : Call} {p : Data} :
    (emitted Data.pos (c, enforceR R lim c.actual c.desired p c.dt c.z) = none → p.hasData = true →
      (enforceR R lim c.actual c.desired p c.dt c.z).prev.pos = p.pos) ∧
    (∀ e, emitted Data.pos (c, enforceR R lim c.actual c.desired p c.dt c.z) = some e →
      (enforceR R lim c.actual c.desired p c.dt c.z).prev.pos = some e.2 ∧ ∃ u, Num c.desired.pos u) := by
  constructor
  · intro h hd
    rcases enforceR_prev (R := R) lim c.actual c.desired p c.dt c.z with g | ⟨-, g⟩ | ⟨g1, g2, g⟩
    · rw [g]
    · rw [g, initPrev_of_data hd]
    · rw [g, initPrev_of_data hd]
      show keep _ _ = _
      unfold keep
      rw [emitted_none h g1 g2]; rfl
  · intro e h
    obtain ⟨h1, h2, h3, h4, h5⟩ := emitted_some h
    have hx : (enforceR R lim c.actual c.desired p c.dt c.z).prev =
        updatePrev (enforceR R lim c.actual c.desired p c.dt c.z).cmd (initPrev c.actual c.desired p) := by
      obtain ⟨b1, b2, b3, ub, e⟩ := enforceR_shape h1 h2
      rw [e]; rfl
    have h4' : (enforceR R lim c.actual c.desired p c.dt c.z).cmd.pos = some e.2 := h4
    constructor
    · rw [hx]
      show keep _ _ = _
      unfold keep
      rw [h4']; simp [numeric, h5]
    · have hu := untouchedR (R := R) lim c.actual c.desired p c.dt c.z
      cases hd : c.desired.pos with
      | none => rw [hu.1 (Or.inl hd), hd] at h4'; cases h4'
      | some u =>
        refine ⟨u, rfl, ?_⟩
        rintro rfl
        rw [hu.1 (Or.inr hd), hd] at h4'; rw [← Option.some.inj h4'] at h5; simp at h5

/-- The later of two position commands is within the computed distance `max_velocity * dt` of the earlier one, as `double` computes the
distance, the sum and the difference. -/
def Lim.NearR (R : Rounding) (V : Rat) (x y : Rat × Dbl) : Prop :=
  Within (R.sub x.2 (R.mul (fin V) (fin y.1))) y.2 (R.add x.2 (R.mul (fin V) (fin y.1)))

/-- **C69, the speed of position commands (saturation limiter).** Full statement: consecutive limited position commands of a joint with a velocity
limit differ by at most `max_velocity * dt`. In `double` this is false by a rounding error (`C69_step_too_large`). Proved: each command lies
between the previous one minus and plus `max_velocity * dt`, all three operations rounded, over every history in which no NaN is reported as
actual position. How far this is from the exact bound: `C69_step_error`. -/
theorem C69_position_rate_partial (R : Rounding) (l : Limits) (V m M : Rat) (hl : VelOk l V) (hv : l.hasVel = true)
    (hm : l.minPos = fin m) (hM : l.maxPos = fin M) (hmM : m ≤ M) (rm : R.Rep (fin m)) (rM : R.Rep (fin M))
    (cs : List Call) (hcs : ∀ c ∈ cs, PosCall R V c) :
    (positions (historyR R ⟨l, none⟩ {} cs)).IsChain (NearR R V) := by
  have hr : le l.minPos l.maxPos = true := by rw [hm, hM]; simpa using hmM
  have rep : ∀ p c e, PosCall R V c → emitted Data.pos (c, enforceR R ⟨l, none⟩ c.actual c.desired p c.dt c.z) = some e → R.Rep e.2 := by
    intro p c e hc he
    obtain ⟨h1, h2, h3, h4, h5⟩ := emitted_some he
    obtain ⟨-, u, hu⟩ := prev_pos_ofR.2 e he
    have h4' : (saturateR R l c.actual c.desired p c.dt).cmd.pos = some e.2 := h4
    rw [saturateR_eq h1 h2] at h4'
    simp only [finish, hu.1] at h4'
    rw [apply_num (notNan.1 hu.2)] at h4'
    rw [← Option.some.inj h4']
    have := positionLimitsR_rep (R := R) (l := l) (by rw [hm]; exact rm) (by rw [hM]; exact rM) c.actual.vel c.actual.pos
      (initPrev c.actual c.desired p).pos (fin c.dt)
    exact rep_clamp (hc.2.1 u hu.1) this.1 this.2
  have inside : ∀ p c e, OrAbsent (fun v => v.isNan = false) p.pos → PosCall R V c →
      emitted Data.pos (c, enforceR R ⟨l, none⟩ c.actual c.desired p c.dt c.z) = some e → ∃ b, e.2 = fin b ∧ m ≤ b ∧ b ≤ M := by
    intro p c e hp hc he
    obtain ⟨h1, h2, h3, h4, h5⟩ := emitted_some he
    obtain ⟨-, u, hu⟩ := prev_pos_ofR.2 e he
    obtain ⟨w, hw, hin⟩ := saturateR_position hl hr (fun v hv => notNan.1 (hc.1 v hv)) hp h1 (hc.2.2 h1) h2 hu
    have e2 : e.2 = w := by
      have : (saturateR R l c.actual c.desired p c.dt).cmd.pos = some e.2 := h4
      rw [hw] at this; cases this; rfl
    rw [hm, hM] at hin
    obtain ⟨b, hb, b1, b2⟩ := fin_of_between hin.1 hin.2
    exact ⟨b, by rw [e2, hb], b1, b2⟩
  refine (chain_historyR (R := R) (lim := ⟨l, none⟩) (sel := Data.pos) (H := PosCall R V)
    (I := fun p => OrAbsent (fun v => v.isNan = false) p.pos)
    (T := fun v p => ∃ q, v = fin q ∧ p.pos = some (fin q) ∧ R.Rep (fin q) ∧ m ≤ q ∧ q ≤ M) ?_ ?_ ?_ ?_ cs hcs {}).1
    (by intro v hv; cases hv)
  · rintro v p c ⟨q, rfl, hp, hq⟩ hc he
    exact ⟨q, rfl, by rw [prev_pos_ofR.1 he (hasData_pos hp), hp], hq⟩
  · rintro v p c e ⟨q, rfl, hp, rq, hq⟩ hc he
    obtain ⟨h1, h2, h3, h4, h5⟩ := emitted_some he
    obtain ⟨hpv, u, hu⟩ := prev_pos_ofR.2 e he
    have hpn : OrAbsent (fun v => v.isNan = false) p.pos := by rw [hp]; intro v hv; cases hv; rfl
    obtain ⟨b, hb, b1, b2⟩ := inside p c e hpn hc he
    refine ⟨fun t => ?_, b, hb, by rw [hpv, hb], by rw [← hb]; exact rep p c e hc he, b1, b2⟩
    have h4' : (saturateR R l c.actual c.desired p c.dt).cmd.pos = some e.2 := h4
    rw [saturateR_eq h1 h2] at h4'
    simp only [finish, initPrev_of_data (hasData_pos hp), hu.1] at h4'
    obtain ⟨w', hw', hin'⟩ := apply_inside (notNan.1 hu.2)
      (fun _ => positionLimitsR R l c.actual.vel c.actual.pos p.pos (fin c.dt))
      (positionLimitsR_near hl hv h1 (av := c.actual.vel) (ap := c.actual.pos) (pp := p.pos) (q := q) rq
        (by rw [hp]; rfl) ⟨by rw [hm]; simpa using hq.1, by rw [hM]; simpa using hq.2⟩).1
    rw [hw'] at h4'; cases h4'
    show Within _ _ _
    rw [h3]
    exact hin'
  · intro p c hp hc _
    exact posR_prev (fun v hv => notNan.1 (hc.1 v hv)) hp
  · intro p c e hp hc he
    obtain ⟨b, hb, b1, b2⟩ := inside p c e hp hc he
    obtain ⟨hpv, -, -⟩ := prev_pos_ofR.2 e he
    exact ⟨b, hb, by rw [hpv, hb], by rw [← hb]; exact rep p c e hc he, b1, b2⟩

/-- **C69, how much too far a step can be.** In IEEE binary64, a command near the previous one in the sense above differs from it by at most
`max_velocity * dt` plus rounding: a relative error of `2^-53` of the step, and of the position, and `2^-1074` (for subnormal numbers), unless
the sum overflows. -/
theorem C69_step_error (V dt q w D : Rat) (h0 : 0 ≤ V) (hdt : 0 < dt) (t t' : Rat)
    (hD : Rounding.binary64.mul (fin V) (fin dt) = fin D)
    (hup : Rounding.binary64.add (fin q) (fin D) = fin t) (hdown : Rounding.binary64.sub (fin q) (fin D) = fin t')
    (h : NearR Rounding.binary64 V (0, fin q) (dt, fin w)) :
    |w - q| ≤ D + (|q| + D) * 2 ^ (-53 : Int) + 2 ^ (-1075 : Int) ∧ D ≤ V * dt + V * dt * 2 ^ (-53 : Int) + 2 ^ (-1075 : Int) := by
  unfold NearR at h
  dsimp only at h
  rw [hD, hup, hdown] at h
  have n1 := h.1
  have n2 := h.2
  simp only [le_fin, decide_eq_true_eq] at n1 n2
  have hVd : 0 ≤ V * dt := by positivity
  have eD := Rounding.binary64_err (a := V * dt) hD
  rw [abs_of_nonneg hVd, abs_le] at eD
  have D0 : 0 ≤ D := by
    have := Rounding.rnd_nonneg (R := Rounding.binary64) hVd
    rw [show Rounding.binary64.rnd (V * dt) = fin D from hD, zero_eq] at this
    simpa using this
  have e1 := abs_le.1 (Rounding.binary64_err (a := q + D) hup)
  have e2 := abs_le.1 (Rounding.binary64_err (a := q - D) (by rw [← Rounding.sub_fin]; exact hdown))
  have t1 : |q + D| ≤ |q| + D := by have := abs_add_le q D; rwa [abs_of_nonneg D0] at this
  have t2 : |q - D| ≤ |q| + D := by have := abs_sub q D; rwa [abs_of_nonneg D0] at this
  have p53 := (Rounding.two_pos (-53)).le
  have m1 := mul_le_mul_of_nonneg_right t1 p53
  have m2 := mul_le_mul_of_nonneg_right t2 p53
  refine ⟨?_, by linarith [eD.2]⟩
  rw [abs_le]
  constructor <;> linarith [e1.1, e1.2, e2.1, e2.2]

/-! ## Velocities -/

/-- **C69, velocities (saturation limiter).** Full statement: every limited velocity command is at most `max_velocity` in absolute value. Proved
with rounding, over every history as in C28 (`limiter_velocity_within_partial`), for a velocity limit that is a value of the type. -/
theorem C69_velocity_within_partial (R : Rounding) (l : Limits) (V : Rat) (hl : SpeedOk l V) (hrep : R.Rep (fin V)) (prev : Data)
    (h0 : OrAbsent (VelIn V) prev.vel) (cs : List Call) (hp : ∀ c ∈ cs, l.hasPos = true → PosInside l c)
    (hv : prev.hasData = true ∨ ∀ c ∈ cs, c.actual.vel ≠ none ∧ OrAbsent (VelIn V) c.actual.vel) :
    ∀ x ∈ historyR R ⟨l, none⟩ prev cs, Lim.Acted x → ∀ v, Num x.1.desired.vel v →
      ∃ w, x.2.cmd.vel = some w ∧ VelIn V w := by
  have hinit : ∀ (p : Data) (c : Call), OrAbsent (VelIn V) p.vel →
      (p.hasData = true ∨ c.actual.vel ≠ none ∧ OrAbsent (VelIn V) c.actual.vel) →
      OrAbsent (VelIn V) (initPrev c.actual c.desired p).vel := by
    intro p c hpv h
    rcases h with h | ⟨h, h'⟩
    · rw [initPrev_of_data h]; exact hpv
    · exact initPrev_vel h' hpv (fun _ _ _ g => absurd g h)
  have data : ∀ (p : Data) (c : Call), p.hasData = true →
      (enforceR R ⟨l, none⟩ c.actual c.desired p c.dt c.z).prev.hasData = true := by
    intro p c h
    rcases enforceR_prev (R := R) ⟨l, none⟩ c.actual c.desired p c.dt c.z with g | ⟨-, g⟩ | ⟨-, -, g⟩
    · rw [g]; exact h
    · rw [g, initPrev_of_data h]; exact h
    · rw [g]; exact updatePrev_hasData (by rw [initPrev_of_data h]; exact h)
  rcases hv with hv | hv
  · refine historyR_induction (I := fun p => p.hasData = true ∧ OrAbsent (VelIn V) p.vel)
      (H := fun c => l.hasPos = true → PosInside l c)
      (P := fun c o => Lim.Acted (c, o) → ∀ v, Num c.desired.vel v → ∃ w, o.cmd.vel = some w ∧ VelIn V w)
      ?_ ?_ ⟨hv, h0⟩ hp
    · intro p c hI hc
      exact ⟨data p c hI.1, velocityR_prev hl hrep hc (hinit p c hI.2 (Or.inl hI.1)) hI.2⟩
    · intro p c hI hc hL v hn
      exact saturateR_velocity hl hrep hc (hinit p c hI.2 (Or.inl hI.1)) hL.1 hL.2 hn
  · refine historyR_induction (I := fun p => OrAbsent (VelIn V) p.vel)
      (H := fun c => (l.hasPos = true → PosInside l c) ∧ c.actual.vel ≠ none ∧ OrAbsent (VelIn V) c.actual.vel)
      (P := fun c o => Lim.Acted (c, o) → ∀ v, Num c.desired.vel v → ∃ w, o.cmd.vel = some w ∧ VelIn V w)
      ?_ ?_ h0 (fun c hc => ⟨hp c hc, hv c hc⟩)
    · intro p c hI hc
      exact velocityR_prev hl hrep hc.1 (hinit p c hI (Or.inr hc.2)) hI
    · intro p c hI hc hL v hn
      exact saturateR_velocity hl hrep hc.1 (hinit p c hI (Or.inr hc.2)) hL.1 hL.2 hn

/-! ## Efforts, accelerations, jerks -/

/-- **C69, efforts (saturation limiter).** Whatever is read and was commanded before, a limited effort command is at most `max_effort` in
absolute value. -/
theorem C69_effort_within (R : Rounding) (l : Limits) (h : l.hasEff = true) (h0 : le 0 l.maxEff = true)
    (a d p : Data) (dt : Rat) (z : Bool × Bool) (hdt : 0 < dt) (ht : (enforceR R ⟨l, none⟩ a d p dt z).thrown = false)
    (v : Dbl) (hv : Num d.eff v) :
    ∃ w, (enforceR R ⟨l, none⟩ a d p dt z).cmd.eff = some w ∧ Within (-l.maxEff) w l.maxEff := by
  show ∃ w, (saturateR R l a d p dt).cmd.eff = some w ∧ _
  rw [saturateR_eq hdt ht]
  simp only [finish]
  rw [hv.1]
  exact apply_inside (notNan.1 hv.2) _ (effortLimits_ends rfl h0 h _ _)

/-- **C69, accelerations and jerks (both limiters).** An acceleration command against the actual velocity is at most `max_deceleration`, any
other at most `max_acceleration`, and a jerk command at most `max_jerk`, in absolute value. -/
theorem C69_acceleration_jerk_within (R : Rounding) (lim : Limiter) (a d p : Data) (dt : Rat) (z : Bool × Bool) (hdt : 0 < dt)
    (ht : (enforceR R lim a d p dt z).thrown = false) (v : Dbl) :
    (Num d.acc v → (∃ u, a.vel = some u ∧ ((lt v 0 = true ∧ lt 0 u = true) ∨ (lt 0 v = true ∧ lt u 0 = true))) →
      lim.hard.hasDec = true → le 0 lim.hard.maxDec = true →
        ∃ w, (enforceR R lim a d p dt z).cmd.acc = some w ∧ Within (-lim.hard.maxDec) w lim.hard.maxDec) ∧
    (Num d.acc v → (¬ ∃ u, a.vel = some u ∧ ((lt v 0 = true ∧ lt 0 u = true) ∨ (lt 0 v = true ∧ lt u 0 = true))) ∨
        lim.hard.hasDec = false → lim.hard.hasAcc = true → le 0 lim.hard.maxAcc = true →
        ∃ w, (enforceR R lim a d p dt z).cmd.acc = some w ∧ Within (-lim.hard.maxAcc) w lim.hard.maxAcc) ∧
    (Num d.jerk v → le 0 lim.hard.maxJerk = true →
        ∃ w, (enforceR R lim a d p dt z).cmd.jerk = some w ∧ Within (-lim.hard.maxJerk) w lim.hard.maxJerk) := by
  have hbr : braking v a.vel = true ↔
      ∃ u, a.vel = some u ∧ ((lt v 0 = true ∧ lt 0 u = true) ∨ (lt 0 v = true ∧ lt u 0 = true)) := by
    unfold braking
    cases a.vel <;> simp
  obtain ⟨b1, b2, b3, ub, e⟩ := enforceR_shape hdt ht
  rw [e]
  simp only [finish]
  rw [← hbr]
  refine ⟨fun hv hb hd h0 => ?_, fun hv hb ha h0 => ?_, fun hv h0 => ?_⟩
  · rw [hv.1]
    refine apply_inside (notNan.1 hv.2) _ ?_
    unfold accelerationLimits
    rw [hb, hd]
    exact sym_inside h0
  · rw [hv.1]
    refine apply_inside (notNan.1 hv.2) _ ?_
    unfold accelerationLimits
    have : (lim.hard.hasDec && braking v a.vel) = false := by
      rcases hb with hb | hb
      · rw [Bool.eq_false_iff.2 hb, Bool.and_false]
      · rw [hb, Bool.false_and]
    rw [this, ha]
    exact sym_inside h0
  · rw [hv.1]
    have := sym_inside h0
    rw [swap_ordered (Lim.neg_le_self h0)] at this
    exact apply_inside (notNan.1 hv.2) _ this

/-! ## The soft limiter -/

/-- **C69, positions (soft limiter).** For a joint with soft position limits, every limited position command lies inside the soft limits, and
inside the hard ones if these contain the soft ones - whatever is read, was commanded before, and rounds or overflows. -/
theorem C69_soft_position_within (R : Rounding) (l : Limits) (s : Soft) (hs : s.hasPosR R = true) (hV : l.hasVel = true → l.maxVel ≠ .nan)
    (a d p : Data) (dt : Rat) (z : Bool × Bool) (hdt : 0 < dt)
    (ht : (enforceR R ⟨l, some s⟩ a d p dt z).thrown = false) (v : Dbl) (hv : Num d.pos v) :
    ∃ w, (enforceR R ⟨l, some s⟩ a d p dt z).cmd.pos = some w ∧ Within s.minPos w s.maxPos ∧
      (le l.minPos s.minPos = true → le s.maxPos l.maxPos = true → Within l.minPos w l.maxPos) := by
  obtain ⟨m, M, em, eM, hmM⟩ := Soft.hasPosR_spec hs
  have hr : le s.minPos s.maxPos = true := by rw [em, eM]; simp; exact hmM.le
  suffices h : ∃ w, (softenR R l s a d p dt z).cmd.pos = some w ∧ Within s.minPos w s.maxPos by
    obtain ⟨w, h1, h2⟩ := h
    exact ⟨w, h1, h2, fun a b => h2.mono a b⟩
  obtain ⟨ub, e⟩ := softenR_eq hdt ht
  rw [e]
  simp only [finish, hv.1]
  refine apply_inside (notNan.1 hv.2) _ ?_
  unfold softPositionLimitsR softPosRangeR
  rw [if_pos hs]
  have hn := softVelR_num (R := R) (s := s) (a := a) (p := initPrev a d p) (z := z) hV
  exact softMeet_inside (softReachR_inside (r := ⟨s.minPos, s.maxPos⟩) hdt hr hn.1 hn.2)

/-- **C69, velocities (soft limiter).** Full statement: every limited velocity command is at most `max_velocity` in absolute value. Proved as in
C28 (`soft_velocity_within_partial`), with rounding. -/
theorem C69_soft_velocity_within_partial (R : Rounding) (l : Limits) (s : Soft) (V : Rat) (hl : SpeedOk l V) (hrep : R.Rep (fin V))
    (a d p : Data) (dt : Rat) (z : Bool × Bool) (hdt : 0 < dt)
    (hp : l.hasPos = true → OrAbsent (InLimits l) a.pos) (hd : p.hasData = true) (hu : OrAbsent (VelIn V) p.vel)
    (ha : OrAbsent (fun v => v.isFinite = true) a.vel)
    (ht : (enforceR R ⟨l, some s⟩ a d p dt z).thrown = false) (hub : (enforceR R ⟨l, some s⟩ a d p dt z).ub = false)
    (v : Dbl) (hv : Num d.vel v) :
    ∃ w, (enforceR R ⟨l, some s⟩ a d p dt z).cmd.vel = some w ∧ VelIn V w := by
  have hVn : l.hasVel = true → l.maxVel ≠ .nan := fun h => by rw [hl.vel]; exact Dbl.noConfusion
  have hn := softVelR_num (R := R) (s := s) (a := a) (p := p) (z := z) hVn
  have hin := velocityLimitsR_inside (R := R) hl hrep hdt (desired := v) hp hu
  have hb : le (fin (-V)) (softVelocityLimitsR R l a p (softVelR R l s a p z).1 (fin dt) v).lo = true ∧
      le (softVelocityLimitsR R l a p (softVelR R l s a p z).1 (fin dt) v).hi (fin V) = true := by
    unfold softVelocityLimitsR
    dsimp only
    generalize hr1 : softVelNearR R l a.vel (softVelR R l s a p z).1 (fin dt) = r1
    have r1n : r1.lo.isNan = false ∧ r1.hi.isNan = false := by
      rw [← hr1]
      unfold softVelNearR
      cases hv' : a.vel with
      | none => exact hn
      | some u =>
        obtain ⟨q, rfl⟩ := finite_fin (ha u hv')
        dsimp only
        split
        · rename_i g
          simp only [Bool.and_eq_true] at g
          have hA := hl.acc g.2
          have hAn : (R.mul l.maxAcc (fin dt)).isNan = false := mul_pos_numR (not_nan_right hA) hdt
          exact ⟨max_not_nan (fin_sub_numR hAn), min_not_nan (fin_add_numR hAn)⟩
        · exact hn
    have hlo := not_nan_left hin.ord
    have hhi := not_nan_right hin.ord
    exact ⟨le_trans hin.lo (le_max_right r1n.1 hlo), le_trans (min_le_right r1n.2 hhi) hin.hi⟩
  have hord : le (softVelocityLimitsR R l a p (softVelR R l s a p z).1 (fin dt) v).lo
      (softVelocityLimitsR R l a p (softVelR R l s a p z).1 (fin dt) v).hi = true := by
    refine le_of_not_lt (not_nan_right hb.1) (not_nan_left hb.2) ?_
    have hub' : (softenR R l s a d p dt z).ub = false := hub
    have ht' : (softenR R l s a d p dt z).thrown = false := ht
    unfold softenR at hub' ht'
    rw [if_neg (not_le.2 hdt)] at hub' ht'
    dsimp only at hub' ht'
    split at hub'
    · rename_i g; rw [if_pos g] at ht'; cases ht'
    · simp only [finish, hv.1, Bool.or_eq_false_iff, initPrev_of_data hd] at hub'
      have := hub'.1.1.1.1.1.1.2
      rw [apply_num (notNan.1 hv.2)] at this
      exact this
  show ∃ w, (softenR R l s a d p dt z).cmd.vel = some w ∧ _
  obtain ⟨ub, e⟩ := softenR_eq hdt ht
  rw [e]
  simp only [finish, hv.1, initPrev_of_data hd]
  exact apply_inside (notNan.1 hv.2) _ ⟨hb.1, hord, hb.2⟩

/-- **C69, efforts (soft limiter).** Full statement: every limited effort command is at most `max_effort` in absolute value. Proved for calls
without a velocity command, with an actual velocity that is finite (or absent) and a velocity gain that is not zero: with a gain of zero,
`0 * infinity` is NaN and no limit is applied - without a velocity limit (`soft_no_gain_effort_unlimited`), or if the difference of the
velocities overflows. -/
theorem C69_soft_effort_within_partial (R : Rounding) (l : Limits) (s : Soft) (h : l.hasEff = true) (h0 : le 0 l.maxEff = true)
    (hV : l.hasVel = true → l.maxVel ≠ .nan) (hk : s.kVel ≠ 0)
    (a d p : Data) (dt : Rat) (z : Bool × Bool) (hdt : 0 < dt) (hno : NoCmd d.vel)
    (ha : OrAbsent (fun v => v.isFinite = true) a.vel)
    (ht : (enforceR R ⟨l, some s⟩ a d p dt z).thrown = false) (v : Dbl) (hv : Num d.eff v) :
    ∃ w, (enforceR R ⟨l, some s⟩ a d p dt z).cmd.eff = some w ∧ Within (-l.maxEff) w l.maxEff := by
  show ∃ w, (softenR R l s a d p dt z).cmd.eff = some w ∧ _
  obtain ⟨ub, e⟩ := softenR_eq hdt ht
  rw [e]
  simp only [finish, hv.1]
  refine apply_ends (notNan.1 hv.2) _ ?_
  have hsv : softVelAfterR R l a d (initPrev a d p) (softVelR R l s a (initPrev a d p) z).1 (fin dt) =
      (softVelR R l s a (initPrev a d p) z).1 := by
    unfold softVelAfterR
    rcases hno with g | g <;> rw [g] <;> rfl
  rw [hsv]
  have hn := softVelR_num (R := R) (s := s) (a := a) (p := initPrev a d p) (z := z) hV
  generalize (softVelR R l s a (initPrev a d p) z).1 = sv at hn
  have hard := effortLimits_ends rfl h0 h a.pos a.vel
  unfold softEffortLimitsR
  dsimp only
  cases hav : a.vel with
  | none => rw [hav] at hard; exact hard.ends
  | some u =>
    rw [hav] at hard
    obtain ⟨q, rfl⟩ := finite_fin (ha u hav)
    dsimp only
    split
    · rename_i g
      simp only [Bool.and_eq_true] at g
      obtain ⟨k, ek⟩ := finite_fin g.2
      have hk0 : -k ≠ 0 := by
        rw [ek] at hk
        exact neg_ne_zero.2 (fun h => hk (by rw [h]; rfl))
      rw [ek, neg_fin]
      have c1 := clamp_within (v := R.mul (fin (-k)) (R.sub (fin q) sv.lo)) (mul_ne_numR (fin_sub_numR hn.1) hk0) (Lim.neg_le_self h0)
      have c2 := clamp_within (v := R.mul (fin (-k)) (R.sub (fin q) sv.hi)) (mul_ne_numR (fin_sub_numR hn.2) hk0) (Lim.neg_le_self h0)
      have he := hard.ends
      constructor
      · exact ⟨le_trans c1.1 (le_max_left (not_nan_left c1.2)), max_le c1.2 he.lo.2⟩
      · exact ⟨le_min c2.1 he.hi.1, le_trans (min_le_left (not_nan_left c2.2)) c2.2⟩
    · exact hard.ends

/-! ## Cases that meet the hypotheses, and what rounding breaks -/

/-- The `double` nearest to a number. -/
def Lim.d64 (q : Rat) : Dbl := Rounding.binary64.rnd q
/-- The value of the `double` 0.1. -/
def Lim.tenth : Rat := 3602879701896397 / 36028797018963968

/-- 0.1 as a `double`, and 0.1 + 0.2. -/
example : d64 (1 / 10) = fin tenth ∧
    Rounding.binary64.add (d64 (1 / 10)) (d64 (2 / 10)) = fin (1351079888211149 / 4503599627370496) ∧
    Rounding.binary64.add (d64 (1 / 10)) (d64 (2 / 10)) ≠ d64 (3 / 10) := by decide +kernel
/-- Overflow, and the smallest positive number. -/
example : d64 (10 ^ 309) = pinf ∧ d64 (-10 ^ 309) = ninf ∧ d64 (1 / 10 ^ 400) = 0 := by decide +kernel
/-- The first command of the joint limited to `[-1, 1]` with speed 1, from 0.02 for 0.1 s. -/
example : (enforceR Rounding.binary64 ⟨demo, none⟩ { pos := some (d64 (2 / 100)) } { pos := some 5 } {} tenth (false, false)).cmd.pos =
      some (fin (8646911284551353 / 72057594037927936)) ∧ VelOk demo 1 ∧ le demo.minPos demo.maxPos = true ∧ demo.hasVel = true ∧
    Rounding.binary64.Rep 1 ∧ Rounding.binary64.Rep (fin (-1)) ∧ (Rounding.binary64.mul (fin 1) (fin tenth)).isFinite = true :=
  ⟨by decide +kernel, ⟨fun _ => rfl, by norm_num, by decide⟩, by decide +kernel, rfl, by unfold Rounding.Rep; decide +kernel,
    by show Rounding.binary64.rnd (-1) = _; decide +kernel, by decide +kernel⟩
example : ∀ c ∈ ([⟨{ pos := some (d64 (2 / 100)) }, { pos := some 5 }, tenth, (false, false)⟩,
      ⟨{ pos := some (d64 (2 / 100)) }, { pos := some 5 }, tenth, (false, false)⟩] : List Call), PosCall Rounding.binary64 1 c := by
  intro c hc
  have e : c = ⟨{ pos := some (d64 (2 / 100)) }, { pos := some 5 }, tenth, (false, false)⟩ := by simpa using hc
  subst e
  refine ⟨fun v hv => ?_, fun v hv => ?_, fun _ => by decide +kernel⟩
  · cases hv; decide +kernel
  · cases hv; show Rounding.binary64.rnd 5 = _; decide +kernel
/-- A soft limit of 0.9, reached from 0.85. -/
example : demoSoft.hasPosR Rounding.binary64 = true ∧
    (enforceR Rounding.binary64 ⟨demo, some demoSoft⟩ { pos := some (d64 (85 / 100)) } { pos := some 5 } {} tenth (false, false)).cmd.pos =
      some (fin (9 / 10)) := by decide +kernel
/-- An effort of 100 at rest, cut to 5 by the soft limiter. -/
example : demoSoft.kVel ≠ 0 ∧ (enforceR Rounding.binary64 ⟨demo, some demoSoft⟩ { pos := some 0, vel := some 0 } { eff := some 100 } {} tenth
    (false, false)).cmd.eff = some 5 := by decide +kernel

/-- A velocity of 5 at 0.85 with acceleration at most 1, cut to the acceleration window of the saturation limiter and by the soft limiter. -/
example : SpeedOk demoAcc 1 ∧ Rounding.binary64.Rep (fin 1) ∧
    (enforceR Rounding.binary64 ⟨demoAcc, none⟩ { pos := some 0, vel := some 0 } { vel := some 5 } { vel := some 0 } tenth (false, false)).cmd.vel =
      some (fin tenth) ∧
    (enforceR Rounding.binary64 ⟨demo, some demoSoft⟩ { pos := some (fin (3 / 4)), vel := some 0 } { vel := some 5 }
      { pos := some (fin (3 / 4)), vel := some 0 } tenth (false, false)).cmd.vel = some 1 ∧
    (enforceR Rounding.binary64 ⟨demo, some demoSoft⟩ { pos := some (fin (3 / 4)), vel := some 0 } { vel := some 5 }
      { pos := some (fin (3 / 4)), vel := some 0 } tenth (false, false)).ub = false :=
  ⟨⟨rfl, rfl, by norm_num, fun _ => by decide +kernel⟩, by show Rounding.binary64.rnd 1 = _; decide +kernel, by decide +kernel,
    by decide +kernel, by decide +kernel⟩
/-- `C69_step_error` on the step from 0.02. -/
example : Rounding.binary64.mul (fin 1) (fin tenth) = fin tenth ∧
    (Rounding.binary64.add (fin (5764607523034235 / 288230376151711744)) (fin tenth)).isFinite = true ∧
    (Rounding.binary64.sub (fin (5764607523034235 / 288230376151711744)) (fin tenth)).isFinite = true ∧
    NearR Rounding.binary64 1 (0, fin (5764607523034235 / 288230376151711744)) (tenth, fin (8646911284551353 / 72057594037927936)) :=
  ⟨by decide +kernel, by decide +kernel, by decide +kernel, by show Within _ _ _; decide +kernel⟩

/-- **C29 fails in `double`, by a rounding error.** From 0.02, the joint with speed 1 is sent further than 1 * 0.1 s (0.1 being the `double`
nearest to 0.1), here to 0.12000000000000001. -/
theorem C69_step_too_large :
    ∃ q w : Rat, d64 (2 / 100) = fin q ∧
      (enforceR Rounding.binary64 ⟨demo, none⟩ { pos := some (fin q) } { pos := some 5 } { pos := some (fin q) } tenth (false, false)).cmd.pos =
        some (fin w) ∧ 1 * tenth < w - q :=
  ⟨5764607523034235 / 288230376151711744, 8646911284551353 / 72057594037927936, by decide +kernel, by decide +kernel, by decide +kernel⟩

/-- **A limited velocity can overrun the position limit, by a rounding error.** From 0.9 with a limit of 1, the velocity allowed for 0.1 s is
0.9999999999999998, and 0.9 + 0.9999999999999998 * 0.1 (exactly) is more than 1. With exact numbers it never is (`limiter_velocity_step`). -/
theorem C69_velocity_overruns :
    ∃ x w : Rat, d64 (9 / 10) = fin x ∧
      (enforceR Rounding.binary64 ⟨demo, none⟩ { pos := some (fin x), vel := some 1 } { vel := some 1 } { vel := some 1 } tenth
        (false, false)).cmd.vel = some (fin w) ∧ demo.maxPos = fin 1 ∧ 1 < x + w * tenth :=
  ⟨8106479329266893 / 9007199254740992, 4503599627370495 / 4503599627370496, by decide +kernel, by decide +kernel, rfl, by decide +kernel⟩

/-- **An infinite reference is lost if the step overflows.** A joint limited from below only, with a speed limit of 1e300 and a period of 1e10 s:
after a command of infinity, the lower bound is `infinity - infinity`, NaN, and a command of -5 is handed out although the limit is -1. -/
theorem C69_overflow_unlimited :
    (enforceR Rounding.binary64 ⟨{ demo with maxPos := pinf, maxVel := d64 (10 ^ 300) }, none⟩ {} { pos := some (fin (-5)) } { pos := some pinf }
      (10 ^ 10) (false, false)).cmd.pos = some (fin (-5)) ∧ demo.minPos = fin (-1) := by decide +kernel

end Verif
