import Verif.Props.C28_Limits
/-!
# C29: limited commands from cycle to cycle

`positions h` and `velocities h` are the limited position and velocity commands handed out in a history, each with the
period of its call; `List.IsChain R` says that any two neighbours are related by `R`.
-/
namespace Verif
open Lim Dbl

/-! ## Specification -/

/-- The command of one kind handed out by a call that limits: a number, together with the period. -/
def Lim.emitted (sel : Data → Option Dbl) (x : Call × Out) : Option (Rat × Dbl) :=
  if 0 < x.1.dt ∧ x.2.thrown = false then
    (match sel x.2.cmd with
     | some v => if v.isNan then none else some (x.1.dt, v)
     | none => none)
  else none

/-- The limited position commands of a history. -/
def Lim.positions (h : List (Call × Out)) : List (Rat × Dbl) := h.filterMap (emitted Data.pos)

/-- The limited velocity commands of a history. -/
def Lim.velocities (h : List (Call × Out)) : List (Rat × Dbl) := h.filterMap (emitted Data.vel)

/-- Two finite commands that differ by at most `rate` times the period of the later one. -/
def Lim.Close (rate : Rat) (x y : Rat × Dbl) : Prop := ∃ a b, x.2 = fin a ∧ y.2 = fin b ∧ |b - a| ≤ rate * y.1

/-! ## Proofs -/

theorem Lim.chain_history {lim : Limiter} {sel : Data → Option Dbl} {R : Rat × Dbl → Rat × Dbl → Prop}
    {I : Data → Prop} {T : Dbl → Data → Prop} {H : Call → Prop}
    (t0 : ∀ v p c, T v p → H c → emitted sel (c, enforce lim c.actual c.desired p c.dt c.z) = none →
      T v (enforce lim c.actual c.desired p c.dt c.z).prev)
    (t1 : ∀ v p c e, T v p → H c → emitted sel (c, enforce lim c.actual c.desired p c.dt c.z) = some e →
      (∀ t, R (t, v) e) ∧ T e.2 (enforce lim c.actual c.desired p c.dt c.z).prev)
    (i0 : ∀ p c, I p → H c → emitted sel (c, enforce lim c.actual c.desired p c.dt c.z) = none →
      I (enforce lim c.actual c.desired p c.dt c.z).prev)
    (i1 : ∀ p c e, I p → H c → emitted sel (c, enforce lim c.actual c.desired p c.dt c.z) = some e →
      T e.2 (enforce lim c.actual c.desired p c.dt c.z).prev)
    (cs : List Call) (hH : ∀ c ∈ cs, H c) (prev : Data) :
    (I prev → ((history lim prev cs).filterMap (emitted sel)).IsChain R) ∧
    (∀ e : Rat × Dbl, T e.2 prev → (e :: (history lim prev cs).filterMap (emitted sel)).IsChain R) := by
  induction cs generalizing prev with
  | nil => exact ⟨fun _ => .nil, fun e _ => .singleton e⟩
  | cons c cs ih =>
    have hc := hH c (by simp)
    have ih' := ih (fun c' h' => hH c' (by simp [h'])) (enforce lim c.actual c.desired prev c.dt c.z).prev
    rw [history_cons]
    cases he : emitted sel (c, enforce lim c.actual c.desired prev c.dt c.z) with
    | none =>
      rw [List.filterMap_cons_none he]
      exact ⟨fun h => ih'.1 (i0 _ _ h hc he), fun e h => ih'.2 e (t0 _ _ _ h hc he)⟩
    | some e' =>
      rw [List.filterMap_cons_some he]
      refine ⟨fun h => ih'.2 e' (i1 _ _ _ h hc he), fun e h => ?_⟩
      have := t1 _ _ _ _ h hc he
      exact .cons_cons (this.1 e.1) (ih'.2 e' this.2)

theorem Lim.emitted_some {sel : Data → Option Dbl} {c : Call} {o : Out} {e : Rat × Dbl}
    (h : emitted sel (c, o) = some e) :
    0 < c.dt ∧ o.thrown = false ∧ e.1 = c.dt ∧ sel o.cmd = some e.2 ∧ e.2.isNan = false := by
  unfold emitted at h
  split at h
  · rename_i g
    cases hs : sel o.cmd with
    | none => rw [hs] at h; cases h
    | some v =>
      rw [hs] at h
      dsimp only at h
      split at h
      · cases h
      · cases h
        exact ⟨g.1, g.2, rfl, rfl, Bool.eq_false_iff.2 ‹_›⟩
  · cases h

theorem Lim.emitted_none {sel : Data → Option Dbl} {c : Call} {o : Out} (h : emitted sel (c, o) = none)
    (h1 : 0 < c.dt) (h2 : o.thrown = false) : numeric (sel o.cmd) = false := by
  unfold emitted at h
  rw [if_pos ⟨h1, h2⟩] at h
  cases hs : sel o.cmd with
  | none => rfl
  | some v =>
    rw [hs] at h
    dsimp only at h
    split at h
    · simp [numeric, *]
    · cases h

theorem Lim.cmd_num {lim : Limiter} {c : Call} {p : Data} {v : Dbl} :
    ((enforce lim c.actual c.desired p c.dt c.z).cmd.pos = some v → v.isNan = false → ∃ u, Num c.desired.pos u) ∧
    ((enforce lim c.actual c.desired p c.dt c.z).cmd.vel = some v → v.isNan = false → ∃ u, Num c.desired.vel u) := by
  have hu := limiter_absent_untouched lim c.actual c.desired p c.dt c.z
  constructor
  · intro h hn
    cases hd : c.desired.pos with
    | none => rw [hu.1 (Or.inl hd), hd] at h; cases h
    | some u =>
      refine ⟨u, rfl, ?_⟩
      rintro rfl
      rw [hu.1 (Or.inr hd), hd] at h; cases h; simp at hn
  · intro h hn
    cases hd : c.desired.vel with
    | none => rw [hu.2.1 (Or.inl hd), hd] at h; cases h
    | some u =>
      refine ⟨u, rfl, ?_⟩
      rintro rfl
      rw [hu.2.1 (Or.inr hd), hd] at h; cases h; simp at hn

/-- The `prev_command_` after a call, for a field that holds the last command handed out. -/
theorem Lim.prev_pos_of {lim : Limiter} {c : Call} {p : Data} :
    (emitted Data.pos (c, enforce lim c.actual c.desired p c.dt c.z) = none → p.hasData = true →
      (enforce lim c.actual c.desired p c.dt c.z).prev.pos = p.pos) ∧
    (∀ e, emitted Data.pos (c, enforce lim c.actual c.desired p c.dt c.z) = some e →
      (enforce lim c.actual c.desired p c.dt c.z).prev.pos = some e.2) := by
  constructor
  · intro h hd
    rcases enforce_prev lim c.actual c.desired p c.dt c.z with g | ⟨-, g⟩ | ⟨g1, g2, g⟩
    · rw [g]
    · rw [g, initPrev_of_data hd]
    · rw [g, initPrev_of_data hd]
      show keep _ _ = _
      unfold keep
      rw [emitted_none h g1 g2]; rfl
  · intro e h
    obtain ⟨h1, h2, h3, h4, h5⟩ := emitted_some h
    rcases enforce_prev lim c.actual c.desired p c.dt c.z with g | ⟨g, -⟩ | ⟨-, -, g⟩
    · have hx : (enforce lim c.actual c.desired p c.dt c.z).prev =
          updatePrev (enforce lim c.actual c.desired p c.dt c.z).cmd (initPrev c.actual c.desired p) := by
        unfold enforce at h2 ⊢
        cases hs : lim.soft with
        | none => rw [hs] at h2; dsimp only at h2 ⊢; rw [saturate_eq h1 h2]; rfl
        | some s => rw [hs] at h2; dsimp only at h2 ⊢; obtain ⟨ub, e⟩ := soften_eq h1 h2; rw [e]; rfl
      rw [hx]
      show keep _ _ = _
      unfold keep
      have h4' : (enforce lim c.actual c.desired p c.dt c.z).cmd.pos = some e.2 := h4
      rw [h4']; simp [numeric, h5]
    · rw [g] at h2; cases h2
    · rw [g]
      show keep _ _ = _
      unfold keep
      have h4' : (enforce lim c.actual c.desired p c.dt c.z).cmd.pos = some e.2 := h4
      rw [h4']; simp [numeric, h5]

theorem Lim.prev_vel_of {lim : Limiter} {c : Call} {p : Data} :
    (emitted Data.vel (c, enforce lim c.actual c.desired p c.dt c.z) = none → p.hasData = true →
      (enforce lim c.actual c.desired p c.dt c.z).prev.vel = p.vel) ∧
    (∀ e, emitted Data.vel (c, enforce lim c.actual c.desired p c.dt c.z) = some e →
      (enforce lim c.actual c.desired p c.dt c.z).prev.vel = some e.2) := by
  constructor
  · intro h hd
    rcases enforce_prev lim c.actual c.desired p c.dt c.z with g | ⟨-, g⟩ | ⟨g1, g2, g⟩
    · rw [g]
    · rw [g, initPrev_of_data hd]
    · rw [g, initPrev_of_data hd]
      show keep _ _ = _
      unfold keep
      rw [emitted_none h g1 g2]; rfl
  · intro e h
    obtain ⟨h1, h2, h3, h4, h5⟩ := emitted_some h
    rcases enforce_prev lim c.actual c.desired p c.dt c.z with g | ⟨g, -⟩ | ⟨-, -, g⟩
    · have hx : (enforce lim c.actual c.desired p c.dt c.z).prev =
          updatePrev (enforce lim c.actual c.desired p c.dt c.z).cmd (initPrev c.actual c.desired p) := by
        unfold enforce at h2 ⊢
        cases hs : lim.soft with
        | none => rw [hs] at h2; dsimp only at h2 ⊢; rw [saturate_eq h1 h2]; rfl
        | some s => rw [hs] at h2; dsimp only at h2 ⊢; obtain ⟨ub, e⟩ := soften_eq h1 h2; rw [e]; rfl
      rw [hx]
      show keep _ _ = _
      unfold keep
      have h4' : (enforce lim c.actual c.desired p c.dt c.z).cmd.vel = some e.2 := h4
      rw [h4']; simp [numeric, h5]
    · rw [g] at h2; cases h2
    · rw [g]
      show keep _ _ = _
      unfold keep
      have h4' : (enforce lim c.actual c.desired p c.dt c.z).cmd.vel = some e.2 := h4
      rw [h4']; simp [numeric, h5]

theorem Lim.hasData_pos {p : Data} {v : Dbl} (h : p.pos = some v) : p.hasData = true := by simp [Data.hasData, h]
theorem Lim.hasData_vel {p : Data} {v : Dbl} (h : p.vel = some v) : p.hasData = true := by simp [Data.hasData, h]

/-- **C29, positions (saturation limiter).** Full statement: consecutive limited position commands of a joint with a velocity
limit differ by at most `max_velocity * dt`, over whole runs. Proved for finite position limits over every history in which
no NaN is reported as actual position; commands that are absent or NaN, calls that throw and calls with a period that is not
positive may lie in between. With a NaN the first command handed out is arbitrary, so the claim fails
(`nan_position_unlimited`). -/
theorem limiter_position_rate_partial (l : Limits) (V m M : Rat) (hl : VelOk l V) (hv : l.hasVel = true)
    (hm : l.minPos = fin m) (hM : l.maxPos = fin M) (hmM : m ≤ M) (cs : List Call) (hcs : ∀ c ∈ cs, PosReadable c) :
    (positions (history ⟨l, none⟩ {} cs)).IsChain (Close V) := by
  have hr : le l.minPos l.maxPos = true := by rw [hm, hM]; simpa using hmM
  refine (chain_history (lim := ⟨l, none⟩) (sel := Data.pos) (H := PosReadable)
    (I := fun p => OrAbsent (fun v => v.isNan = false) p.pos)
    (T := fun v p => ∃ q, v = fin q ∧ p.pos = some (fin q) ∧ m ≤ q ∧ q ≤ M) ?_ ?_ ?_ ?_ cs hcs {}).1
    (by intro v hv; cases hv)
  · rintro v p c ⟨q, rfl, hp, hq⟩ hc he
    exact ⟨q, rfl, by rw [prev_pos_of.1 he (hasData_pos hp), hp], hq⟩
  · rintro v p c e ⟨q, rfl, hp, hq⟩ hc he
    obtain ⟨h1, h2, h3, h4, h5⟩ := emitted_some he
    have ha : OrAbsent (fun v => v.isNan = false) c.actual.pos := fun v hv => notNan.1 (hc v hv)
    obtain ⟨u, hu⟩ := cmd_num.1 h4 h5
    have hpn : OrAbsent (fun v => v.isNan = false) p.pos := by rw [hp]; intro v hv; cases hv; rfl
    obtain ⟨w, hw, hin⟩ := saturate_position hl hr ha hpn h1 h2 hu
    have e2 : e.2 = w := by
      have : (saturate l c.actual c.desired p c.dt).cmd.pos = some e.2 := h4
      rw [hw] at this; cases this; rfl
    rw [hm, hM] at hin
    obtain ⟨b, hb, b1, b2⟩ := fin_of_between hin.1 hin.2
    have hnear : Within (fin (q - V * c.dt)) w (fin (q + V * c.dt)) := by
      have h4' := hw
      rw [saturate_eq h1 h2] at h4'
      simp only [finish, initPrev_of_data (hasData_pos hp), hu.1] at h4'
      obtain ⟨w', hw', hin'⟩ := apply_inside (notNan.1 hu.2)
        (fun _ => positionLimits l c.actual.vel c.actual.pos p.pos (fin c.dt))
        (positionLimits_near hl hv h1 (av := c.actual.vel) (ap := c.actual.pos) (pp := p.pos) (q := q)
          (by rw [hp]; rfl) ⟨by rw [hm]; simpa using hq.1, by rw [hM]; simpa using hq.2⟩)
      rw [hw'] at h4'; cases h4'
      exact hin'
    refine ⟨fun t => ⟨q, b, rfl, by rw [e2, hb], ?_⟩, ⟨b, by rw [e2, hb], ?_, b1, b2⟩⟩
    · rw [hb] at hnear
      have n1 := hnear.1
      have n2 := hnear.2
      simp at n1 n2
      rw [h3, abs_le]
      constructor <;> linarith
    · rw [prev_pos_of.2 e he, e2, hb]
  · intro p c hp hc _
    have ha : OrAbsent (fun v => v.isNan = false) c.actual.pos := fun v hv => notNan.1 (hc v hv)
    have hi := initPrev_pos (d := c.desired) ha hp (fun v _ hv _ => hv)
    rcases enforce_prev ⟨l, none⟩ c.actual c.desired p c.dt c.z with h | ⟨-, h⟩ | ⟨-, -, h⟩
    · rw [h]; exact hp
    · rw [h]; exact hi
    · rw [h]; exact keep_all hi (fun v _ hv => hv)
  · intro p c e hp hc he
    obtain ⟨h1, h2, h3, h4, h5⟩ := emitted_some he
    have ha : OrAbsent (fun v => v.isNan = false) c.actual.pos := fun v hv => notNan.1 (hc v hv)
    obtain ⟨u, hu⟩ := cmd_num.1 h4 h5
    obtain ⟨w, hw, hin⟩ := saturate_position hl hr ha hp h1 h2 hu
    have e2 : e.2 = w := by
      have : (saturate l c.actual c.desired p c.dt).cmd.pos = some e.2 := h4
      rw [hw] at this; cases this; rfl
    rw [hm, hM] at hin
    obtain ⟨b, hb, b1, b2⟩ := fin_of_between hin.1 hin.2
    exact ⟨b, by rw [e2, hb], by rw [prev_pos_of.2 e he, e2, hb], b1, b2⟩

/-- Without position limits in play, the bounds are the velocity limit and the acceleration window. -/
theorem Lim.velocityLimits_free {l : Limits} {V A dt u : Rat} (hl : SpeedOk l V) (hacc : l.hasAcc = true)
    (hA : l.maxAcc = fin A) (hdt : 0 < dt) (hu : VelIn V (fin u)) {desired : Dbl} {ap : Option Dbl}
    (hfree : l.hasPos = true → ap = none) :
    Inside (velocityLimits l desired ap (some (fin u)) (fin dt)) (fin (u - A * dt)) (fin (u + A * dt)) ∧
    Inside (velocityLimits l desired ap (some (fin u)) (fin dt)) (fin (-V)) (fin V) := by
  have hA0 : 0 ≤ A := by
    have := hl.acc hacc
    rw [hA, zero_eq] at this; simpa using this
  have hAd : 0 ≤ A * dt := by positivity
  obtain ⟨q, hq, q1, q2⟩ := fin_of_between hu.1 hu.2
  cases hq
  have hV := hl.nonneg
  have e : velocityLimits l desired ap (some (fin u)) (fin dt) =
      swap ⟨fin (max (u - A * dt) (-V)), fin (min (u + A * dt) V)⟩ := by
    unfold velocityLimits velocityFromPrev velocityFromPos
    rw [hl.has, hl.vel, hacc]
    simp only [Bool.not_true, Bool.false_eq_true, if_false, if_true, neg_fin]
    split
    · rename_i h
      rw [hfree h]
      simp only [sub_fin, max_fin, min_fin, velocityNearPrev, hA, mul_fin, add_fin]
    · simp only [sub_fin, max_fin, min_fin, velocityNearPrev, hA, mul_fin, add_fin]
  have ord : max (u - A * dt) (-V) ≤ min (u + A * dt) V :=
    _root_.max_le (_root_.le_min (by linarith) (by linarith)) (_root_.le_min (by linarith) (by linarith))
  rw [e, swap_ordered (by simpa using ord)]
  constructor
  · exact ⟨by simp, by simpa using ord, by simp⟩
  · exact ⟨by simp, by simpa using ord, by simp⟩

/-- **C29, velocities (saturation limiter).** Full statement: consecutive limited velocity commands of a joint with an
acceleration limit differ by at most `max_acceleration * dt`, over whole runs. Proved over every history in which the
position limits play no part (none are declared, or no actual position is given) and the last velocity command - or, as long
as there is none, every actual velocity - is within the velocity limit. With position limits the claim is false
(`braking_too_hard`); then `limiter_velocity_step` applies. -/
theorem limiter_velocity_rate_partial (l : Limits) (V A : Rat) (hl : SpeedOk l V) (hacc : l.hasAcc = true)
    (hA : l.maxAcc = fin A) (prev : Data) (h0 : OrAbsent (VelIn V) prev.vel) (cs : List Call)
    (hfree : ∀ c ∈ cs, l.hasPos = true → c.actual.pos = none)
    (hv : prev.hasData = true ∨ ∀ c ∈ cs, c.actual.vel ≠ none ∧ OrAbsent (VelIn V) c.actual.vel) :
    (velocities (history ⟨l, none⟩ prev cs)).IsChain (Close A) := by
  have hinit : ∀ (p : Data) (c : Call), OrAbsent (VelIn V) p.vel →
      (p.hasData = true ∨ c.actual.vel ≠ none ∧ OrAbsent (VelIn V) c.actual.vel) →
      OrAbsent (VelIn V) (initPrev c.actual c.desired p).vel := by
    intro p c hpv h
    rcases h with h | ⟨h, h'⟩
    · rw [initPrev_of_data h]; exact hpv
    · exact initPrev_vel h' hpv (fun _ _ _ g => absurd g h)
  have data : ∀ (p : Data) (c : Call), p.hasData = true →
      (enforce ⟨l, none⟩ c.actual c.desired p c.dt c.z).prev.hasData = true := by
    intro p c h
    rcases enforce_prev ⟨l, none⟩ c.actual c.desired p c.dt c.z with g | ⟨-, g⟩ | ⟨-, -, g⟩
    · rw [g]; exact h
    · rw [g, initPrev_of_data h]; exact h
    · rw [g]; exact updatePrev_hasData (by rw [initPrev_of_data h]; exact h)
  have hin : ∀ c : Call, (l.hasPos = true → c.actual.pos = none) → l.hasPos = true → OrAbsent (InLimits l) c.actual.pos := by
    intro c h g v hv; rw [h g] at hv; cases hv
  have track0 : ∀ v p c, (∃ q, v = fin q ∧ p.vel = some (fin q) ∧ VelIn V (fin q)) →
      emitted Data.vel (c, enforce ⟨l, none⟩ c.actual c.desired p c.dt c.z) = none →
      ∃ q, v = fin q ∧ (enforce ⟨l, none⟩ c.actual c.desired p c.dt c.z).prev.vel = some (fin q) ∧ VelIn V (fin q) := by
    rintro v p c ⟨q, rfl, hp, hq⟩ he
    exact ⟨q, rfl, by rw [prev_vel_of.1 he (hasData_vel hp), hp], hq⟩
  have first : ∀ p c e, OrAbsent (VelIn V) (initPrev c.actual c.desired p).vel →
      (l.hasPos = true → c.actual.pos = none) →
      emitted Data.vel (c, enforce ⟨l, none⟩ c.actual c.desired p c.dt c.z) = some e →
      ∃ q, e.2 = fin q ∧ (enforce ⟨l, none⟩ c.actual c.desired p c.dt c.z).prev.vel = some (fin q) ∧ VelIn V (fin q) := by
    intro p c e hi hf he
    obtain ⟨h1, h2, h3, h4, h5⟩ := emitted_some he
    obtain ⟨u, hu⟩ := cmd_num.2 h4 h5
    obtain ⟨w, hw, hwin⟩ := saturate_velocity hl (hin c hf) hi h1 h2 hu
    have e2 : e.2 = w := by
      have : (saturate l c.actual c.desired p c.dt).cmd.vel = some e.2 := h4
      rw [hw] at this; cases this; rfl
    obtain ⟨b, hb, -, -⟩ := fin_of_between hwin.1 hwin.2
    exact ⟨b, by rw [e2, hb], by rw [prev_vel_of.2 e he, e2, hb], by rw [← hb]; exact hwin⟩
  have track1 : ∀ v p c e, (∃ q, v = fin q ∧ p.vel = some (fin q) ∧ VelIn V (fin q)) →
      (l.hasPos = true → c.actual.pos = none) →
      emitted Data.vel (c, enforce ⟨l, none⟩ c.actual c.desired p c.dt c.z) = some e →
      (∀ t : Rat, Close A (t, v) e) ∧
      ∃ q, e.2 = fin q ∧ (enforce ⟨l, none⟩ c.actual c.desired p c.dt c.z).prev.vel = some (fin q) ∧ VelIn V (fin q) := by
    rintro v p c e ⟨q, rfl, hp, hq⟩ hf he
    have hip := initPrev_of_data (a := c.actual) (d := c.desired) (hasData_vel hp)
    have hi : OrAbsent (VelIn V) (initPrev c.actual c.desired p).vel := by
      rw [hip, hp]; intro v hv; cases hv; exact hq
    have hf1 := first p c e hi hf he
    refine ⟨fun t => ?_, hf1⟩
    obtain ⟨b, hb, -, -⟩ := hf1
    obtain ⟨h1, h2, h3, h4, h5⟩ := emitted_some he
    obtain ⟨u, hu⟩ := cmd_num.2 h4 h5
    have h4' : (saturate l c.actual c.desired p c.dt).cmd.vel = some e.2 := h4
    rw [saturate_eq h1 h2] at h4'
    simp only [finish, hip, hu.1, hp] at h4'
    obtain ⟨w', hw', hin'⟩ := apply_inside (notNan.1 hu.2)
      (fun v => velocityLimits l v c.actual.pos (some (fin q)) (fin c.dt))
      (velocityLimits_free hl hacc hA h1 hq hf).1
    rw [hw'] at h4'; cases h4'
    rw [hb] at hin'
    have n1 := hin'.1
    have n2 := hin'.2
    simp at n1 n2
    refine ⟨q, b, rfl, hb, ?_⟩
    rw [h3, abs_le]
    constructor <;> linarith
  rcases hv with hv | hv
  · refine (chain_history (lim := ⟨l, none⟩) (sel := Data.vel) (H := fun c => l.hasPos = true → c.actual.pos = none)
      (I := fun p => p.hasData = true ∧ OrAbsent (VelIn V) p.vel)
      (T := fun v p => ∃ q, v = fin q ∧ p.vel = some (fin q) ∧ VelIn V (fin q)) ?_ ?_ ?_ ?_ cs hfree prev).1 ⟨hv, h0⟩
    · intro v p c h hc he; exact track0 v p c h he
    · intro v p c e h hc he; exact track1 v p c e h hc he
    · intro p c hI hc _
      exact ⟨data p c hI.1, velocity_prev hl (hin c hc) (hinit p c hI.2 (Or.inl hI.1)) hI.2⟩
    · intro p c e hI hc he
      exact first p c e (hinit p c hI.2 (Or.inl hI.1)) hc he
  · refine (chain_history (lim := ⟨l, none⟩) (sel := Data.vel)
      (H := fun c => (l.hasPos = true → c.actual.pos = none) ∧ c.actual.vel ≠ none ∧ OrAbsent (VelIn V) c.actual.vel)
      (I := fun p => OrAbsent (VelIn V) p.vel)
      (T := fun v p => ∃ q, v = fin q ∧ p.vel = some (fin q) ∧ VelIn V (fin q)) ?_ ?_ ?_ ?_ cs
      (fun c hc => ⟨hfree c hc, hv c hc⟩) prev).1 h0
    · intro v p c h hc he; exact track0 v p c h he
    · intro v p c e h hc he; exact track1 v p c e h hc.1 he
    · intro p c hI hc _
      exact velocity_prev hl (hin c hc.1) (hinit p c hI (Or.inr hc.2)) hI
    · intro p c e hI hc he
      exact first p c e (hinit p c hI (Or.inr hc.2)) hc.1 he

/-- **C29, one velocity command with position limits.** If from the actual position the joint can brake (or has room to move on)
within the acceleration limit, the limited velocity respects the velocity limit, the acceleration limit with respect to the
previous command, and keeps the joint inside its position limits for the period - all three at once. -/
theorem limiter_velocity_step (l : Limits) (V A m M u x dt : Rat) (hl : SpeedOk l V) (hacc : l.hasAcc = true)
    (hA : l.maxAcc = fin A) (hpos : l.hasPos = true) (hm : l.minPos = fin m) (hM : l.maxPos = fin M) (hdt : 0 < dt)
    (hu : |u| ≤ V) (hx : m ≤ x ∧ x ≤ M) (h1 : m ≤ x + (u + A * dt) * dt) (h2 : x + (u - A * dt) * dt ≤ M)
    (a d p : Data) (z : Bool × Bool) (ha : a.pos = some (fin x)) (hp : p.vel = some (fin u))
    (ht : (enforce ⟨l, none⟩ a d p dt z).thrown = false) (v : Dbl) (hv : Num d.vel v) :
    ∃ w, (enforce ⟨l, none⟩ a d p dt z).cmd.vel = some (fin w) ∧ |w| ≤ V ∧ |w - u| ≤ A * dt ∧
      m ≤ x + w * dt ∧ x + w * dt ≤ M := by
  have hui : VelIn V (fin u) := by
    obtain ⟨a1, a2⟩ := abs_le.1 hu
    exact ⟨by simpa using a1, by simpa using a2⟩
  obtain ⟨e, ord⟩ := velocityLimits_both hl hacc hA hdt hui (desired := v) hm hM hpos hx h1 h2
  have h4 : (enforce ⟨l, none⟩ a d p dt z).cmd.vel =
      (apply (some v) fun v => velocityLimits l v (some (fin x)) (some (fin u)) (fin dt)).val := by
    show (saturate l a d p dt).cmd.vel = _
    rw [saturate_eq hdt ht]
    simp only [finish, initPrev_of_data (hasData_vel hp), hv.1, ha, hp]
  obtain ⟨w, hw, hin⟩ := apply_inside (notNan.1 hv.2)
    (fun v => velocityLimits l v (some (fin x)) (some (fin u)) (fin dt))
    (L := fin (max (u - A * dt) (max ((m - x) / dt) (-V)))) (U := fin (min (u + A * dt) (min ((M - x) / dt) V)))
    (by rw [e]; exact ⟨le_refl rfl, by simpa using ord, le_refl rfl⟩)
  obtain ⟨b, rfl, b1, b2⟩ := fin_of_between hin.1 hin.2
  refine ⟨b, by rw [h4, hw], ?_, ?_, ?_, ?_⟩
  · rw [abs_le]
    exact ⟨((_root_.le_max_right _ _).trans (_root_.le_max_right _ _)).trans b1, (b2.trans (_root_.min_le_right _ _)).trans (_root_.min_le_right _ _)⟩
  · rw [abs_le]
    have c1 := (_root_.le_max_left (u - A * dt) _).trans b1
    have c2 := b2.trans (_root_.min_le_left (u + A * dt) _)
    constructor <;> linarith
  · have c1 := ((_root_.le_max_left ((m - x) / dt) _).trans (_root_.le_max_right _ _)).trans b1
    rw [div_le_iff₀ hdt] at c1; linarith
  · have c2 := (b2.trans (_root_.min_le_right _ _)).trans (_root_.min_le_left ((M - x) / dt) _)
    rw [le_div_iff₀ hdt] at c2; linarith

/-! ## Cases that meet the hypotheses, and what goes wrong without them -/

/-- A joint in `[-1, 1]` with velocity at most 1 and effort at most 5. -/
def Lim.demo : Limits :=
  { minPos := .fin (-1), maxPos := .fin 1, maxVel := .fin 1, maxAcc := .nan, maxDec := .nan, maxJerk := .nan, maxEff := .fin 5
    hasPos := true, hasVel := true, hasAcc := false, hasDec := false, hasJerk := false, hasEff := true }

/-- The same with acceleration at most 1. -/
def Lim.demoAcc : Limits := { demo with maxAcc := .fin 1, hasAcc := true }

/-- The same without position limits. -/
def Lim.demoFree : Limits := { demoAcc with hasPos := false }

/-- Calls every 0.1 s: a jump to 5 from 0, an absent command, a jump back to -5. -/
def Lim.jumps : List Call :=
  [{ actual := { pos := some 0 }, desired := { pos := some 5 }, dt := 1 / 10 },
   { actual := { pos := some 0 }, desired := {}, dt := 1 / 10 },
   { actual := { pos := some 0 }, desired := { pos := some (.fin (-5)) }, dt := 1 / 10 }]

/-- Calls every 0.1 s: velocities 5 and -5 from rest. -/
def Lim.vjumps : List Call :=
  [{ actual := { pos := some 0, vel := some 0 }, desired := { vel := some 5, eff := some 9 }, dt := 1 / 10 },
   { actual := { pos := some 0, vel := some 0 }, desired := { vel := some (.fin (-5)) }, dt := 1 / 10 }]

example : ∀ c ∈ jumps, PosReadable c := by
  intro c hc v hv
  simp only [jumps, List.mem_cons, List.not_mem_nil, or_false] at hc
  rcases hc with rfl | rfl | rfl <;> · cases hv; decide
example : VelOk demo 1 := ⟨fun _ => rfl, by norm_num, fun h => by cases h⟩
example : SpeedOk demo 1 ∧ SpeedOk demoAcc 1 ∧ SpeedOk demoFree 1 :=
  ⟨⟨rfl, rfl, by norm_num, fun h => by cases h⟩, ⟨rfl, rfl, by norm_num, fun _ => by decide +kernel⟩,
    ⟨rfl, rfl, by norm_num, fun _ => by decide +kernel⟩⟩
example : le demo.minPos demo.maxPos = true := by decide +kernel
/-- The jump is cut to what the velocity limit allows, and back. -/
example : positions (history ⟨demo, none⟩ {} jumps) = [(1 / 10, .fin (1 / 10)), (1 / 10, .fin 0)] := by decide +kernel
example : ((history ⟨demo, none⟩ {} jumps).map (·.2.limited)) = [true, false, true] := by decide +kernel
example : velocities (history ⟨demoAcc, none⟩ {} vjumps) = [(1 / 10, .fin (1 / 10)), (1 / 10, .fin 0)] := by
  decide +kernel
example : ((history ⟨demoAcc, none⟩ {} vjumps).map (·.2.cmd.eff)) = [some 5, none] := by decide +kernel
example : ∀ c ∈ vjumps, (demoFree.hasPos = true → c.actual.pos = none) ∧ PosInside demoAcc c ∧
    c.actual.vel ≠ none ∧ OrAbsent (VelIn 1) c.actual.vel := by
  intro c hc
  simp only [vjumps, List.mem_cons, List.not_mem_nil, or_false] at hc
  rcases hc with rfl | rfl
  all_goals
    refine ⟨fun h => (by cases h), ?_, by decide, ?_⟩
    · intro v hv; cases hv; exact ⟨rfl, by decide +kernel⟩
    · intro v hv; cases hv; show Within _ _ _; decide +kernel
/-- `limiter_velocity_step`: 0.05 below the upper limit, moving at 0.5. -/
example : SpeedOk demoAcc 1 ∧ |(5 / 10 : Rat)| ≤ 1 ∧ ((-1 : Rat) ≤ 95 / 100 ∧ (95 / 100 : Rat) ≤ 1) ∧
    (-1 : Rat) ≤ 95 / 100 + (5 / 10 + 1 * (1 / 10)) * (1 / 10) ∧ (95 / 100 : Rat) + (5 / 10 - 1 * (1 / 10)) * (1 / 10) ≤ 1 ∧
    (enforce ⟨demoAcc, none⟩ { pos := some (.fin (95 / 100)) } { vel := some 1 } { vel := some (.fin (5 / 10)) } (1 / 10)
      (false, false)).cmd.vel = some (.fin (5 / 10)) :=
  ⟨⟨rfl, rfl, by norm_num, fun _ => by decide +kernel⟩, by decide +kernel, by decide +kernel, by decide +kernel,
    by decide +kernel, by decide +kernel⟩
/-- At the upper position limit, an effort of 3 upwards is cut to 0 and one downwards is kept. -/
example : (enforce ⟨demo, none⟩ { pos := some 1, vel := some 0 } { eff := some 3 } {} (1 / 10) (false, false)).cmd.eff =
      some 0 ∧
    (enforce ⟨demo, none⟩ { pos := some 1, vel := some 0 } { eff := some (.fin (-3)) } {} (1 / 10) (false, false)).cmd.eff =
      some (.fin (-3)) := by decide +kernel
/-- The exception, and a command left alone by it. -/
example : (enforce ⟨demo, none⟩ { pos := some 2 } { pos := some 5 } {} (1 / 10) (false, false)).thrown = true ∧
    (enforce ⟨demo, none⟩ { pos := some 2 } { pos := some 5 } {} (1 / 10) (false, false)).cmd.pos = some 5 := by
  decide +kernel

/-- **C28 fails for a NaN position reading (1).** The first call with a NaN as actual position hands out any position command,
here 1000 for a joint limited to `[-1, 1]`, and reports that nothing was limited. -/
theorem nan_position_unlimited :
    (enforce ⟨demo, none⟩ { pos := some .nan } { pos := some 1000 } {} (1 / 10) (false, false)).cmd.pos = some 1000 ∧
    (enforce ⟨demo, none⟩ { pos := some .nan } { pos := some 1000 } {} (1 / 10) (false, false)).limited = false := by
  decide +kernel

/-- **C28 fails for a NaN position reading (2).** As long as the actual position reads NaN, every velocity command is handed
out as it is, here 1000 with a velocity limit of 1. -/
theorem nan_position_velocity_unlimited (p : Data) :
    (enforce ⟨demo, none⟩ { pos := some .nan } { vel := some 1000 } p (1 / 10) (false, false)).cmd.vel = some 1000 ∧
    (enforce ⟨demo, none⟩ { pos := some .nan } { vel := some 1000 } p (1 / 10) (false, false)).limited = false := by
  have e : ∀ pv, velocityLimits demo 1000 (some .nan) pv (.fin (1 / 10)) = ⟨.nan, .nan⟩ := fun _ => rfl
  have h : (saturate demo { pos := some .nan } { vel := some 1000 } p (1 / 10)).cmd = { vel := some 1000 } := by
    rw [saturate_eq (by norm_num) (by unfold saturate; rw [if_neg (by norm_num)]; rfl)]
    simp only [finish]
    rw [apply_num rfl, e]
    rfl
  refine ⟨by show (saturate _ _ _ _ _).cmd.vel = _; rw [h], ?_⟩
  rw [Bool.eq_false_iff]
  intro g
  exact (limiter_flag_iff_changed _ _ _ _ _ _).1 g h

/-- **C28 fails just outside the position limits.** 0.001 above the upper limit a command to move back is turned into a velocity
of -2 with a velocity limit of 1 (period 0.0005 s). -/
theorem slightly_outside_too_fast :
    (enforce ⟨demo, none⟩ { pos := some (.fin (1001 / 1000)) } { vel := some (.fin (-5)) } {} (1 / 2000)
      (false, false)).cmd.vel = some (.fin (-2)) ∧
    ¬ VelIn 1 (.fin (-2)) := by
  constructor
  · decide +kernel
  · show ¬ Within _ _ _; decide +kernel

/-- **C28 fails for a joint without velocity readings.** The very first velocity command is taken as the previous one: with
an acceleration limit of 1 and a velocity limit of 1, a command of 1000 becomes 999.9, and is then reduced by 0.1 per cycle
only. -/
theorem first_velocity_too_fast :
    velocities (history ⟨demoFree, none⟩ {} (List.replicate 3 { actual := {}, desired := { vel := some 1000 }, dt := 1 / 10 })) =
      [(1 / 10, .fin (9999 / 10)), (1 / 10, .fin (9998 / 10)), (1 / 10, .fin (9997 / 10))] := by
  decide +kernel

/-- **C29 fails near the position limits.** Moving at 1 (the velocity limit) next to the upper limit, the next command is 0:
a change of 1 where the acceleration limit allows 0.1. -/
theorem braking_too_hard :
    (enforce ⟨demoAcc, none⟩ { pos := some 1 } { vel := some 0 } { vel := some 1 } (1 / 10) (false, false)).cmd.vel = some 0 ∧
    ¬ |(0 : Rat) - 1| ≤ 1 * (1 / 10) := by
  decide +kernel

/-- ... and the velocity that the position limit allows is exceeded at the same time: 0.9 is handed out next to the upper
position limit, where only 0 keeps the joint inside. -/
theorem past_the_limit :
    (enforce ⟨demoAcc, none⟩ { pos := some 1 } { vel := some 1 } { vel := some 1 } (1 / 10) (false, false)).cmd.vel =
      some (.fin (9 / 10)) := by
  decide +kernel

end Verif
