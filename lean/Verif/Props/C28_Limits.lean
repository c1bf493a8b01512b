import Verif.Num.LimitsLemmas
import Mathlib.Data.List.Chain
/-!
# C28, C29: what the joint limiters guarantee

A call of a limiter gets the actual values of a joint, the desired commands (each may be absent or NaN) and the period, and
answers with the limited commands, a flag, or a `std::runtime_error`. `Within lo v hi` is `lo ≤ v ∧ v ≤ hi` of `double`.
-/
namespace Verif
open Lim Dbl

/-! ## Specification -/

/-- Not a command: absent or NaN. -/
def Lim.NoCmd (d : Option Dbl) : Prop := d = none ∨ d = some .nan

/-- The calls of a limiter, with what each answered. -/
def Lim.history (lim : Limiter) (prev : Data) (cs : List Call) : List (Call × Out) := cs.zip (runFrom lim prev cs)

/-- The call limits commands: it has a positive period and did not throw. -/
def Lim.Acted (x : Call × Out) : Prop := 0 < x.1.dt ∧ x.2.thrown = false

/-- A command that is a number. -/
def Lim.Num (d : Option Dbl) (v : Dbl) : Prop := d = some v ∧ v ≠ .nan

/-- The actual position given is a number (or there is none). -/
def Lim.PosReadable (c : Call) : Prop := OrAbsent (fun v => v ≠ .nan) c.actual.pos

/-- The actual position given is a finite number inside the position limits (or there is none). -/
def Lim.PosInside (l : Limits) (c : Call) : Prop := OrAbsent (InLimits l) c.actual.pos

/-! ## Shapes -/

theorem Lim.notNan {v : Dbl} : v ≠ .nan ↔ v.isNan = false := by cases v <;> simp

/-- What a call of the saturation limiter with a positive period and no exception computes. -/
theorem Lim.saturate_eq {l : Limits} {a d p : Data} {dt : Rat} (h : 0 < dt) (ht : (saturate l a d p dt).thrown = false) :
    saturate l a d p dt = finish
        (apply d.pos fun _ => positionLimits l a.vel a.pos (initPrev a d p).pos (.fin dt))
        (apply d.vel fun v => velocityLimits l v a.pos (initPrev a d p).vel (.fin dt))
        (apply d.eff fun _ => effortLimits l a.pos a.vel)
        (apply d.acc fun x => accelerationLimits l x a.vel)
        (apply d.jerk fun _ => jerkLimits l)
        (initPrev a d p) := by
  unfold saturate at ht ⊢
  rw [if_neg (not_le.2 h)] at ht ⊢
  dsimp only at ht ⊢
  split
  · rename_i g; rw [if_pos g] at ht; cases ht
  · rfl

/-- What a call of the soft limiter with a positive period and no exception computes, except for its `ub` flag. -/
theorem Lim.soften_eq {l : Limits} {s : Soft} {a d p : Data} {dt : Rat} {z : Bool × Bool} (h : 0 < dt)
    (ht : (soften l s a d p dt z).thrown = false) :
    ∃ ub, soften l s a d p dt z = { finish
        (apply d.pos fun _ => softPositionLimits l s a (initPrev a d p) (softVel l s a (initPrev a d p) z).1 (.fin dt))
        (apply d.vel fun v => softVelocityLimits l a (initPrev a d p) (softVel l s a (initPrev a d p) z).1 (.fin dt) v)
        (apply d.eff fun _ => softEffortLimits l s a
          (softVelAfter l a d (initPrev a d p) (softVel l s a (initPrev a d p) z).1 (.fin dt)))
        (apply d.acc fun x => accelerationLimits l x a.vel)
        (apply d.jerk fun _ => jerkLimits l)
        (initPrev a d p) with ub := ub } := by
  unfold soften at ht ⊢
  rw [if_neg (not_le.2 h)] at ht ⊢
  dsimp only at ht ⊢
  split
  · rename_i g; rw [if_pos g] at ht; cases ht
  · exact ⟨_, rfl⟩

/-- Nothing is done with a period that is not positive, nor by a call that throws. -/
theorem Lim.enforce_idle {lim : Limiter} {a d p : Data} {dt : Rat} {z : Bool × Bool}
    (h : ¬ (0 < dt ∧ (enforce lim a d p dt z).thrown = false)) :
    (enforce lim a d p dt z).cmd = d ∧ (enforce lim a d p dt z).limited = false := by
  unfold enforce at h ⊢
  cases hs : lim.soft with
  | none =>
    rw [hs] at h
    dsimp only at h ⊢
    unfold saturate at h ⊢
    split
    · exact ⟨rfl, rfl⟩
    · rename_i g
      dsimp only
      split
      · exact ⟨rfl, rfl⟩
      · rename_i g'
        rw [if_neg g] at h; dsimp only at h; rw [if_neg g'] at h
        exact absurd ⟨not_le.1 g, rfl⟩ h
  | some s =>
    rw [hs] at h
    dsimp only at h ⊢
    unfold soften at h ⊢
    split
    · exact ⟨rfl, rfl⟩
    · rename_i g
      dsimp only
      split
      · exact ⟨rfl, rfl⟩
      · rename_i g'
        rw [if_neg g] at h; dsimp only at h; rw [if_neg g'] at h
        exact absurd ⟨not_le.1 g, rfl⟩ h

/-- Every call applies some bounds to each of the five commands, or does nothing. -/
theorem Lim.enforce_shape (lim : Limiter) (a d p : Data) (dt : Rat) (z : Bool × Bool) :
    ((enforce lim a d p dt z).cmd = d ∧ (enforce lim a d p dt z).limited = false) ∨
    ∃ b1 b2 b3 b4 b5 pr ub, enforce lim a d p dt z =
      { finish (apply d.pos b1) (apply d.vel b2) (apply d.eff b3) (apply d.acc b4) (apply d.jerk b5) pr with ub := ub } := by
  by_cases h : 0 < dt ∧ (enforce lim a d p dt z).thrown = false
  · right
    unfold enforce at h ⊢
    cases hs : lim.soft with
    | none =>
      rw [hs] at h
      dsimp only at h ⊢
      rw [saturate_eq h.1 h.2]
      exact ⟨_, _, _, _, _, _, _, rfl⟩
    | some s =>
      rw [hs] at h
      dsimp only at h ⊢
      obtain ⟨ub, e⟩ := soften_eq h.1 h.2
      rw [e]
      exact ⟨_, _, _, _, _, _, _, rfl⟩
  · left; exact enforce_idle h

/-! ## C28: absent and NaN commands; the flag -/

/-- **C28, untouched.** Whatever the limits, readings and history: a command that is absent or NaN is handed back as it is. -/
theorem limiter_absent_untouched (lim : Limiter) (a d p : Data) (dt : Rat) (z : Bool × Bool) :
    (NoCmd d.pos → (enforce lim a d p dt z).cmd.pos = d.pos) ∧
    (NoCmd d.vel → (enforce lim a d p dt z).cmd.vel = d.vel) ∧
    (NoCmd d.eff → (enforce lim a d p dt z).cmd.eff = d.eff) ∧
    (NoCmd d.acc → (enforce lim a d p dt z).cmd.acc = d.acc) ∧
    (NoCmd d.jerk → (enforce lim a d p dt z).cmd.jerk = d.jerk) := by
  have hn : ∀ {x : Option Dbl}, NoCmd x → numeric x = false := by
    rintro x (rfl | rfl) <;> rfl
  rcases enforce_shape lim a d p dt z with ⟨h, -⟩ | ⟨b1, b2, b3, b4, b5, pr, ub, h⟩
  · rw [h]; exact ⟨fun _ => rfl, fun _ => rfl, fun _ => rfl, fun _ => rfl, fun _ => rfl⟩
  · rw [h]
    refine ⟨fun g => ?_, fun g => ?_, fun g => ?_, fun g => ?_, fun g => ?_⟩ <;>
      simp only [finish, apply_skip (hn g)]

/-- **C28, presence.** A command is absent afterwards exactly if it was absent before. -/
theorem limiter_presence (lim : Limiter) (a d p : Data) (dt : Rat) (z : Bool × Bool) :
    (enforce lim a d p dt z).cmd.pos.isSome = d.pos.isSome ∧ (enforce lim a d p dt z).cmd.vel.isSome = d.vel.isSome ∧
    (enforce lim a d p dt z).cmd.eff.isSome = d.eff.isSome ∧ (enforce lim a d p dt z).cmd.acc.isSome = d.acc.isSome ∧
    (enforce lim a d p dt z).cmd.jerk.isSome = d.jerk.isSome := by
  have hn : ∀ (x : Option Dbl) (b : Dbl → Range), (apply x b).val.isSome = x.isSome := by
    intro x b; unfold apply; split
    · rfl
    · split <;> rfl
  rcases enforce_shape lim a d p dt z with ⟨h, -⟩ | ⟨b1, b2, b3, b4, b5, pr, ub, h⟩
  · rw [h]; exact ⟨rfl, rfl, rfl, rfl, rfl⟩
  · rw [h]; exact ⟨hn _ _, hn _ _, hn _ _, hn _ _, hn _ _⟩

/-- **C28, the flag.** The limiter answers true exactly if it changed some command. -/
theorem limiter_flag_iff_changed (lim : Limiter) (a d p : Data) (dt : Rat) (z : Bool × Bool) :
    (enforce lim a d p dt z).limited = true ↔ (enforce lim a d p dt z).cmd ≠ d := by
  rcases enforce_shape lim a d p dt z with ⟨h, h'⟩ | ⟨b1, b2, b3, b4, b5, pr, ub, h⟩
  · rw [h, h']; simp
  · rw [h]
    exact finish_limited (prev := pr) (apply_limited _ _) (apply_limited _ _) (apply_limited _ _) (apply_limited _ _) (apply_limited _ _)

/-- **C28, the exception.** A call throws exactly if it has a positive period, a position command and an actual position that
is more than 0.0087 outside the position limits; then no command is changed. -/
theorem limiter_throws_iff (lim : Limiter) (a d p : Data) (dt : Rat) (z : Bool × Bool) :
    (enforce lim a d p dt z).thrown = true ↔
      0 < dt ∧ (∃ v, Num d.pos v) ∧ lim.hard.hasPos = true ∧
        ∃ x, a.pos = some x ∧ (lt (lim.hard.maxPos + .fin (87 / 10000)) x = true ∨
          lt x (lim.hard.minPos - .fin (87 / 10000)) = true) := by
  have key : (numeric d.pos && Lim.outOfBounds lim.hard a.pos) = true ↔
      (∃ v, Num d.pos v) ∧ lim.hard.hasPos = true ∧
        ∃ x, a.pos = some x ∧ (lt (lim.hard.maxPos + .fin (87 / 10000)) x = true ∨
          lt x (lim.hard.minPos - .fin (87 / 10000)) = true) := by
    rw [Bool.and_eq_true]
    apply and_congr
    · constructor
      · intro h; obtain ⟨v, hv, hn⟩ := numeric_some h; exact ⟨v, hv, notNan.2 hn⟩
      · rintro ⟨v, hv, hn⟩; rw [hv]; simp [numeric, notNan.1 hn]
    · unfold Lim.outOfBounds throwTol
      cases a.pos with
      | none => simp
      | some x => simp
  unfold enforce
  cases lim.soft with
  | none =>
    dsimp only
    unfold saturate
    split
    · rename_i g; simp [not_lt.2 g]
    · rename_i g
      rw [← key]
      dsimp only
      split
      · rename_i g'; simp [not_le.1 g, g']
      · rename_i g'; simp only [finish]; simp [g']
  | some s =>
    dsimp only
    unfold soften
    split
    · rename_i g; simp [not_lt.2 g]
    · rename_i g
      rw [← key]
      dsimp only
      split
      · rename_i g'; simp [not_le.1 g, g']
      · rename_i g'; simp only [finish]; simp [g']

theorem limiter_throw_changes_nothing (lim : Limiter) (a d p : Data) (dt : Rat) (z : Bool × Bool)
    (h : (enforce lim a d p dt z).thrown = true ∨ dt ≤ 0) :
    (enforce lim a d p dt z).cmd = d ∧ (enforce lim a d p dt z).limited = false := by
  apply enforce_idle
  rintro ⟨g, g'⟩
  rcases h with h | h
  · rw [h] at g'; exact absurd g' (by decide)
  · linarith

/-! ## Histories -/

theorem Lim.history_cons (lim : Limiter) (prev : Data) (c : Call) (cs : List Call) :
    history lim prev (c :: cs) = (c, enforce lim c.actual c.desired prev c.dt c.z) ::
      history lim (enforce lim c.actual c.desired prev c.dt c.z).prev cs := rfl

/-- Induction over a history: an invariant of `prev_command_`, and what it gives at each call. -/
theorem Lim.history_induction {lim : Limiter} {I : Data → Prop} {H : Call → Prop} {P : Call → Out → Prop}
    (step : ∀ prev c, I prev → H c → I (enforce lim c.actual c.desired prev c.dt c.z).prev)
    (here : ∀ prev c, I prev → H c → P c (enforce lim c.actual c.desired prev c.dt c.z))
    {prev : Data} (h0 : I prev) {cs : List Call} (hH : ∀ c ∈ cs, H c) :
    ∀ x ∈ history lim prev cs, P x.1 x.2 := by
  induction cs generalizing prev with
  | nil => intro x hx; simp [history] at hx
  | cons c cs ih =>
    intro x hx
    rw [history_cons] at hx
    rcases List.mem_cons.1 hx with rfl | hx
    · exact here prev c h0 (hH c (by simp))
    · exact ih (step prev c h0 (hH c (by simp))) (fun c' hc' => hH c' (by simp [hc'])) x hx

/-- How `prev_command_` changes in a call. -/
theorem Lim.enforce_prev (lim : Limiter) (a d p : Data) (dt : Rat) (z : Bool × Bool) :
    (enforce lim a d p dt z).prev = p ∨
    ((enforce lim a d p dt z).thrown = true ∧ (enforce lim a d p dt z).prev = initPrev a d p) ∨
    (0 < dt ∧ (enforce lim a d p dt z).thrown = false ∧
      (enforce lim a d p dt z).prev = updatePrev (enforce lim a d p dt z).cmd (initPrev a d p)) := by
  unfold enforce
  cases lim.soft with
  | none =>
    dsimp only
    unfold saturate
    split
    · left; rfl
    · rename_i g
      dsimp only
      split
      · right; left; exact ⟨rfl, rfl⟩
      · right; right; exact ⟨not_le.1 g, rfl, rfl⟩
  | some s =>
    dsimp only
    unfold soften
    split
    · left; rfl
    · rename_i g
      dsimp only
      split
      · right; left; exact ⟨rfl, rfl⟩
      · right; right; exact ⟨not_le.1 g, rfl, rfl⟩

theorem Lim.keep_all {P : Dbl → Prop} {d p : Option Dbl} (hp : OrAbsent P p)
    (hd : ∀ v, d = some v → v.isNan = false → P v) : OrAbsent P (keep d p) := by
  unfold keep
  split
  · obtain ⟨w, hw, hn⟩ := numeric_some ‹_›
    intro v hv
    exact hd v hv (by rw [hv] at hw; cases hw; exact hn)
  · exact hp

theorem Lim.initPrev_pos {P : Dbl → Prop} {a d p : Data} (ha : OrAbsent P a.pos) (hp : OrAbsent P p.pos)
    (hd : ∀ v, d.pos = some v → v.isNan = false → a.pos = none → P v) : OrAbsent P (initPrev a d p).pos := by
  unfold initPrev; split
  · exact hp
  · exact firstOf_all ha hp hd

theorem Lim.initPrev_vel {P : Dbl → Prop} {a d p : Data} (ha : OrAbsent P a.vel) (hp : OrAbsent P p.vel)
    (hd : ∀ v, d.vel = some v → v.isNan = false → a.vel = none → P v) : OrAbsent P (initPrev a d p).vel := by
  unfold initPrev; split
  · exact hp
  · exact firstOf_all ha hp hd

/-! ## C28: positions -/

/-- One call: with proper position limits, a usable velocity limit and no NaN as the reference, the position command handed
back is inside the position limits. -/
theorem Lim.saturate_position {l : Limits} {V dt : Rat} {a d p : Data} {v : Dbl} (hl : VelOk l V)
    (hr : le l.minPos l.maxPos = true) (ha : OrAbsent (fun v => v.isNan = false) a.pos)
    (hp : OrAbsent (fun v => v.isNan = false) p.pos) (hdt : 0 < dt)
    (ht : (saturate l a d p dt).thrown = false) (hd : Num d.pos v) :
    ∃ w, (saturate l a d p dt).cmd.pos = some w ∧ Within l.minPos w l.maxPos := by
  rw [saturate_eq hdt ht]
  simp only [finish]
  rw [hd.1]
  exact apply_inside (notNan.1 hd.2) _ (positionLimits_inside hl hdt hr
    (posRef_all (initPrev_pos ha hp (fun v _ hv _ => hv)) ha))

/-- **C28, positions (saturation limiter).** Full statement: every limited position command lies inside the position limits.
Proved here over every history of calls in which no NaN was reported as actual position; with a NaN the command is
handed out without any limit (`nan_position_unlimited`). -/
theorem limiter_position_within_partial (l : Limits) (V : Rat) (hl : VelOk l V) (hr : le l.minPos l.maxPos = true)
    (cs : List Call) (hcs : ∀ c ∈ cs, PosReadable c) :
    ∀ x ∈ history ⟨l, none⟩ {} cs, Lim.Acted x → ∀ v, Num x.1.desired.pos v →
      ∃ w, x.2.cmd.pos = some w ∧ Within l.minPos w l.maxPos := by
  refine history_induction (I := fun p => OrAbsent (fun v => v.isNan = false) p.pos) (H := PosReadable)
    (P := fun c o => Lim.Acted (c, o) → ∀ v, Num c.desired.pos v → ∃ w, o.cmd.pos = some w ∧ Within l.minPos w l.maxPos)
    ?_ ?_ (by intro v hv; cases hv) hcs
  · intro p c hp hc
    have ha : OrAbsent (fun v => v.isNan = false) c.actual.pos := fun v hv => notNan.1 (hc v hv)
    have hi := initPrev_pos (d := c.desired) ha hp (fun v _ hv _ => hv)
    rcases enforce_prev ⟨l, none⟩ c.actual c.desired p c.dt c.z with h | ⟨-, h⟩ | ⟨-, -, h⟩
    · rw [h]; exact hp
    · rw [h]; exact hi
    · rw [h]; exact keep_all hi (fun v _ hv => hv)
  · intro p c hp hc hL v hv
    have ha : OrAbsent (fun v => v.isNan = false) c.actual.pos := fun v hv => notNan.1 (hc v hv)
    exact saturate_position hl hr ha hp hL.1 hL.2 hv

/-! ## C28: velocities -/

theorem Lim.saturate_velocity {l : Limits} {V dt : Rat} {a d p : Data} {v : Dbl} (hl : SpeedOk l V)
    (hp : l.hasPos = true → OrAbsent (InLimits l) a.pos) (hu : OrAbsent (VelIn V) (initPrev a d p).vel) (hdt : 0 < dt)
    (ht : (saturate l a d p dt).thrown = false) (hd : Num d.vel v) :
    ∃ w, (saturate l a d p dt).cmd.vel = some w ∧ VelIn V w := by
  rw [saturate_eq hdt ht]
  simp only [finish]
  rw [hd.1]
  exact apply_inside (notNan.1 hd.2) _ (velocityLimits_inside hl hdt hp hu)

/-- An old velocity command may be out of the limits only if it was a first command that was taken over before any reading;
once a call has limited a velocity it is inside. -/
theorem Lim.velocity_prev {l : Limits} {V : Rat} (hl : SpeedOk l V) {a d p : Data} {dt : Rat} {z : Bool × Bool}
    (hp : l.hasPos = true → OrAbsent (InLimits l) a.pos) (hi : OrAbsent (VelIn V) (initPrev a d p).vel)
    (h0 : OrAbsent (VelIn V) p.vel) :
    OrAbsent (VelIn V) (enforce ⟨l, none⟩ a d p dt z).prev.vel := by
  rcases enforce_prev ⟨l, none⟩ a d p dt z with h | ⟨-, h⟩ | ⟨h1, h2, h⟩
  · rw [h]; exact h0
  · rw [h]; exact hi
  · rw [h]
    show OrAbsent _ (keep _ _)
    refine keep_all hi (fun v hv hn => ?_)
    cases hd : d.vel with
    | none =>
      have := (limiter_absent_untouched ⟨l, none⟩ a d p dt z).2.1 (Or.inl hd)
      rw [this, hd] at hv; cases hv
    | some w =>
      by_cases hw : w = .nan
      · have := (limiter_absent_untouched ⟨l, none⟩ a d p dt z).2.1 (Or.inr (by rw [hd, hw]))
        rw [this, hd] at hv
        cases hv; subst hw; simp at hn
      · obtain ⟨w', hw', hin⟩ := saturate_velocity hl hp hi h1 h2 (v := w) ⟨hd, hw⟩
        have e : (enforce ⟨l, none⟩ a d p dt z).cmd.vel = some w' := hw'
        rw [hv] at e; cases e
        exact hin

/-- **C28, velocities (saturation limiter).** Full statement: every limited velocity command is at most `max_velocity` in
absolute value. Proved here over every history of calls from any earlier state whose last velocity command was within the
limit, in which the actual positions given are finite and inside the position limits and - as long as no command has been
given - the actual velocities are within the limit. Without these it is false: `slightly_outside_too_fast`,
`nan_position_velocity_unlimited`, `first_velocity_too_fast`. -/
theorem limiter_velocity_within_partial (l : Limits) (V : Rat) (hl : SpeedOk l V) (prev : Data)
    (h0 : OrAbsent (VelIn V) prev.vel) (cs : List Call) (hp : ∀ c ∈ cs, l.hasPos = true → PosInside l c)
    (hv : prev.hasData = true ∨ ∀ c ∈ cs, c.actual.vel ≠ none ∧ OrAbsent (VelIn V) c.actual.vel) :
    ∀ x ∈ history ⟨l, none⟩ prev cs, Lim.Acted x → ∀ v, Num x.1.desired.vel v →
      ∃ w, x.2.cmd.vel = some w ∧ VelIn V w := by
  have hinit : ∀ (p : Data) (c : Call), OrAbsent (VelIn V) p.vel →
      (p.hasData = true ∨ c.actual.vel ≠ none ∧ OrAbsent (VelIn V) c.actual.vel) →
      OrAbsent (VelIn V) (initPrev c.actual c.desired p).vel := by
    intro p c hpv h
    rcases h with h | ⟨h, h'⟩
    · rw [initPrev_of_data h]; exact hpv
    · exact initPrev_vel h' hpv (fun _ _ _ g => absurd g h)
  have data : ∀ (p : Data) (c : Call), p.hasData = true →
      (enforce ⟨l, none⟩ c.actual c.desired p c.dt c.z).prev.hasData = true := by
    intro p c h
    rcases enforce_prev ⟨l, none⟩ c.actual c.desired p c.dt c.z with g | ⟨-, g⟩ | ⟨-, -, g⟩
    · rw [g]; exact h
    · rw [g, initPrev_of_data h]; exact h
    · rw [g]; exact updatePrev_hasData (by rw [initPrev_of_data h]; exact h)
  rcases hv with hv | hv
  · refine history_induction (I := fun p => p.hasData = true ∧ OrAbsent (VelIn V) p.vel)
      (H := fun c => l.hasPos = true → PosInside l c)
      (P := fun c o => Lim.Acted (c, o) → ∀ v, Num c.desired.vel v → ∃ w, o.cmd.vel = some w ∧ VelIn V w)
      ?_ ?_ ⟨hv, h0⟩ hp
    · intro p c hI hc
      exact ⟨data p c hI.1, velocity_prev hl hc (hinit p c hI.2 (Or.inl hI.1)) hI.2⟩
    · intro p c hI hc hL v hn
      exact saturate_velocity hl hc (hinit p c hI.2 (Or.inl hI.1)) hL.1 hL.2 hn
  · refine history_induction (I := fun p => OrAbsent (VelIn V) p.vel)
      (H := fun c => (l.hasPos = true → PosInside l c) ∧ c.actual.vel ≠ none ∧ OrAbsent (VelIn V) c.actual.vel)
      (P := fun c o => Lim.Acted (c, o) → ∀ v, Num c.desired.vel v → ∃ w, o.cmd.vel = some w ∧ VelIn V w)
      ?_ ?_ h0 (fun c hc => ⟨hp c hc, hv c hc⟩)
    · intro p c hI hc
      exact velocity_prev hl hc.1 (hinit p c hI (Or.inr hc.2)) hI
    · intro p c hI hc hL v hn
      exact saturate_velocity hl hc.1 (hinit p c hI (Or.inr hc.2)) hL.1 hL.2 hn

/-! ## C28: efforts, accelerations, jerks -/

/-- **C28, efforts (saturation limiter).** Whatever is read and was commanded before - NaN included - a limited effort command
is at most `max_effort` in absolute value. -/
theorem limiter_effort_within (l : Limits) (E : Dbl) (hE : l.maxEff = E) (h0 : le 0 E = true) (h : l.hasEff = true)
    (a d p : Data) (dt : Rat) (z : Bool × Bool) (hdt : 0 < dt) (ht : (enforce ⟨l, none⟩ a d p dt z).thrown = false)
    (v : Dbl) (hv : Num d.eff v) :
    ∃ w, (enforce ⟨l, none⟩ a d p dt z).cmd.eff = some w ∧ Within (-E) w E := by
  show ∃ w, (saturate l a d p dt).cmd.eff = some w ∧ _
  rw [saturate_eq hdt ht]
  simp only [finish]
  rw [hv.1]
  exact apply_inside (notNan.1 hv.2) _ (effortLimits_ends hE h0 h _ _)

/-- **C28, efforts at the position limits.** A joint at or below its lower position limit that does not move up is not pushed
down any further, and one at or above the upper limit that does not move down is not pushed up. -/
theorem limiter_effort_pushes_back (l : Limits) (E : Dbl) (hE : l.maxEff = E) (h0 : le 0 E = true) (h : l.hasEff = true)
    (hpos : l.hasPos = true) (hr : lt l.minPos l.maxPos = true) (hV : l.hasVel = true → lt l.maxVel 0 = false)
    (a d p : Data) (dt : Rat) (z : Bool × Bool) (hdt : 0 < dt) (ht : (enforce ⟨l, none⟩ a d p dt z).thrown = false)
    (v x u : Dbl) (hv : Num d.eff v) (hx : a.pos = some x) (hu : a.vel = some u) :
    (le x l.minPos = true → le u 0 = true →
      ∃ w, (enforce ⟨l, none⟩ a d p dt z).cmd.eff = some w ∧ Within 0 w E) ∧
    (le l.maxPos x = true → le 0 u = true →
      ∃ w, (enforce ⟨l, none⟩ a d p dt z).cmd.eff = some w ∧ Within (-E) w 0) := by
  have nonneg : ∀ {y : Dbl}, le 0 y = true → le (-y) 0 = true := by
    intro y hy
    cases y with
    | nan => simp at hy
    | ninf => exact absurd hy (by decide)
    | pinf => rfl
    | fin e => rw [zero_eq] at hy ⊢; rw [neg_fin]; simp at hy ⊢; exact hy
  have hn := nonneg h0
  constructor
  · intro h1 h2
    have e : effortLimits l a.pos a.vel = ⟨0, E⟩ := by
      unfold effortLimits
      rw [h, hE, hx, hu]
      simp only [Bool.not_true, Bool.false_eq_true, if_false, hpos, if_true, h1, h2, Bool.and_self]
      have hb : l.hasVel = true → lt l.maxVel u = false := by
        intro g
        have := hV g
        cases hm : lt l.maxVel u with
        | false => rfl
        | true =>
          have := lt_of_lt_of_le hm h2
          rw [hV g] at this; exact absurd this (by decide)
      cases hv' : l.hasVel with
      | false => simp only [Bool.false_eq_true, if_false]; exact swap_ordered h0
      | true =>
        simp only [hb hv', Bool.false_eq_true, if_false, ite_self]
        exact swap_ordered h0
    show ∃ w, (saturate l a d p dt).cmd.eff = some w ∧ _
    rw [saturate_eq hdt ht]
    simp only [finish]
    rw [hv.1, e]
    exact apply_inside (notNan.1 hv.2) _ ⟨le_refl rfl, h0, le_refl (not_nan_right h0)⟩
  · intro h1 h2
    have e : effortLimits l a.pos a.vel = ⟨-E, 0⟩ := by
      unfold effortLimits
      rw [h, hE, hx, hu]
      have hx' : le x l.minPos = false := by
        cases g : le x l.minPos with
        | false => rfl
        | true =>
          have := lt_of_le_of_lt (le_trans h1 g) hr
          rw [lt_irrefl] at this; exact absurd this (by decide)
      simp only [Bool.not_true, Bool.false_eq_true, if_false, hpos, if_true, h1, h2, Bool.and_self, hx', Bool.false_and]
      have hb : l.hasVel = true → lt u (-l.maxVel) = false := by
        intro g
        have h3 := hV g
        cases hm : lt u (-l.maxVel) with
        | false => rfl
        | true =>
          have hnn : l.maxVel.isNan = false := by
            cases hq : l.maxVel <;> rw [hq] at hm <;> first | rfl | skip
            exact absurd hm (by rw [show (-nan : Dbl) = nan from rfl]; simp)
          have h4 : le 0 l.maxVel = true := le_of_not_lt rfl hnn h3
          have := lt_of_le_of_lt h2 (lt_of_lt_of_le hm (nonneg h4))
          rw [lt_irrefl] at this; exact absurd this (by decide)
      cases hv' : l.hasVel with
      | false => simp only [Bool.false_eq_true, if_false]; exact swap_ordered hn
      | true =>
        simp only [hb hv', Bool.false_eq_true, if_false, ite_self]
        exact swap_ordered hn
    show ∃ w, (saturate l a d p dt).cmd.eff = some w ∧ _
    rw [saturate_eq hdt ht]
    simp only [finish]
    rw [hv.1, e]
    exact apply_inside (notNan.1 hv.2) _ ⟨le_refl (not_nan_left hn), hn, le_refl rfl⟩

theorem Lim.neg_le_self {E : Dbl} (h0 : le 0 E = true) : le (-E) E = true := by
  cases E with
  | nan => simp at h0
  | ninf => exact absurd h0 (by decide)
  | pinf => rfl
  | fin e => rw [zero_eq] at h0; rw [neg_fin]; simp at h0 ⊢; linarith

theorem Lim.sym_inside {E : Dbl} (h0 : le 0 E = true) : Inside (swap ⟨-E, E⟩) (-E) E := by
  have := neg_le_self h0
  rw [swap_ordered this]
  exact ⟨le_refl (not_nan_left this), this, le_refl (not_nan_right this)⟩

/-- **C28, accelerations (both limiters).** Whatever is read and was commanded before: an acceleration command against the
actual velocity is at most `max_deceleration`, any other at most `max_acceleration`, in absolute value. -/
theorem limiter_acceleration_within (lim : Limiter) (a d p : Data) (dt : Rat) (z : Bool × Bool) (hdt : 0 < dt)
    (ht : (enforce lim a d p dt z).thrown = false) (v : Dbl) (hv : Num d.acc v) :
    ((∃ u, a.vel = some u ∧ ((lt v 0 = true ∧ lt 0 u = true) ∨ (lt 0 v = true ∧ lt u 0 = true))) →
      lim.hard.hasDec = true → le 0 lim.hard.maxDec = true →
        ∃ w, (enforce lim a d p dt z).cmd.acc = some w ∧ Within (-lim.hard.maxDec) w lim.hard.maxDec) ∧
    ((¬ ∃ u, a.vel = some u ∧ ((lt v 0 = true ∧ lt 0 u = true) ∨ (lt 0 v = true ∧ lt u 0 = true))) ∨
        lim.hard.hasDec = false → lim.hard.hasAcc = true → le 0 lim.hard.maxAcc = true →
        ∃ w, (enforce lim a d p dt z).cmd.acc = some w ∧ Within (-lim.hard.maxAcc) w lim.hard.maxAcc) := by
  have hbr : braking v a.vel = true ↔
      ∃ u, a.vel = some u ∧ ((lt v 0 = true ∧ lt 0 u = true) ∨ (lt 0 v = true ∧ lt u 0 = true)) := by
    unfold braking
    cases a.vel <;> simp
  have hacc : (enforce lim a d p dt z).cmd.acc = (apply d.acc fun x => accelerationLimits lim.hard x a.vel).val := by
    unfold enforce at ht ⊢
    cases hs : lim.soft with
    | none => rw [hs] at ht; dsimp only at ht ⊢; rw [saturate_eq hdt ht]; rfl
    | some s =>
      rw [hs] at ht; dsimp only at ht ⊢
      obtain ⟨ub, e⟩ := soften_eq hdt ht
      rw [e]; rfl
  rw [hacc, hv.1, ← hbr]
  constructor
  · intro hb hd h0
    refine apply_inside (notNan.1 hv.2) _ ?_
    unfold accelerationLimits
    rw [hb, hd]
    exact sym_inside h0
  · intro hb ha h0
    refine apply_inside (notNan.1 hv.2) _ ?_
    unfold accelerationLimits
    have : (lim.hard.hasDec && braking v a.vel) = false := by
      rcases hb with hb | hb
      · rw [Bool.eq_false_iff.2 hb, Bool.and_false]
      · rw [hb, Bool.false_and]
    rw [this, ha]
    exact sym_inside h0

/-- **C28, jerks (both limiters).** A jerk command is at most `max_jerk` in absolute value - whether or not jerk limits are
declared. -/
theorem limiter_jerk_within (lim : Limiter) (a d p : Data) (dt : Rat) (z : Bool × Bool) (hdt : 0 < dt)
    (ht : (enforce lim a d p dt z).thrown = false) (v : Dbl) (hv : Num d.jerk v) (h0 : le 0 lim.hard.maxJerk = true) :
    ∃ w, (enforce lim a d p dt z).cmd.jerk = some w ∧ Within (-lim.hard.maxJerk) w lim.hard.maxJerk := by
  have hj : (enforce lim a d p dt z).cmd.jerk = (apply d.jerk fun _ => jerkLimits lim.hard).val := by
    unfold enforce at ht ⊢
    cases hs : lim.soft with
    | none => rw [hs] at ht; dsimp only at ht ⊢; rw [saturate_eq hdt ht]; rfl
    | some s =>
      rw [hs] at ht; dsimp only at ht ⊢
      obtain ⟨ub, e⟩ := soften_eq hdt ht
      rw [e]; rfl
  rw [hj, hv.1]
  have := sym_inside h0
  rw [swap_ordered (Lim.neg_le_self h0)] at this
  exact apply_inside (notNan.1 hv.2) _ this

/-! ## C28: commands already inside are unchanged (saturation limiter) -/

/-- **C28, unchanged positions.** A position inside the position limits, at most `max_velocity * dt` away from the previous
position command, is handed back as it is - if there is no acceleration limit. -/
theorem limiter_position_unchanged (l : Limits) (V : Rat) (hV : l.hasVel = true → l.maxVel = fin V)
    (hacc : l.hasAcc = false) (a d p : Data) (dt : Rat) (z : Bool × Bool) (hdt : 0 < dt)
    (x q : Rat) (hd : d.pos = some (fin x)) (hp : p.pos = some (fin q))
    (hx : Within l.minPos (fin x) l.maxPos) (hstep : l.hasVel = true → |x - q| ≤ V * dt) :
    (enforce ⟨l, none⟩ a d p dt z).cmd.pos = some (fin x) := by
  by_cases ht : (enforce ⟨l, none⟩ a d p dt z).thrown = false
  swap
  · rw [(enforce_idle (fun g => ht g.2)).1, hd]
  show (saturate l a d p dt).cmd.pos = _
  rw [saturate_eq hdt ht]
  have hi : initPrev a d p = p := initPrev_of_data (by simp [Data.hasData, hp])
  simp only [finish, hi, hp, hd]
  rw [apply_num rfl]
  dsimp only
  congr 1
  have hr := le_trans hx.1 hx.2
  unfold positionLimits
  dsimp only
  split
  · rename_i hv
    have hs := abs_le.1 (hstep hv)
    have hpr : posRef (some (fin q)) a.pos = some (fin q) := rfl
    rw [hpr]
    dsimp only
    have hdel : deltaPos l a.vel (fin dt) = fin (V * dt) := by
      unfold deltaPos; rw [hacc, hV hv]; simp [min_fin]
    rw [hdel]
    have ho := around_inside (r := ⟨l.minPos, l.maxPos⟩) (ref := fin q) (d := fin (V * dt)) hr (by simp) (by simp)
    rw [swap_ordered ho.ord]
    apply clamp_inside
    · show le (Dbl.max (Dbl.min (fin q - fin (V * dt)) l.maxPos) l.minPos) _ = true
      rw [sub_fin]
      refine max_le (le_trans (min_le_left rfl) ?_) hx.1
      simp; linarith [hs.1]
    · show le _ (Dbl.min (Dbl.max (fin q + fin (V * dt)) _) l.maxPos) = true
      rw [add_fin]
      refine le_min (le_trans ?_ (le_max_left rfl)) hx.2
      simp; linarith [hs.2]
  · rw [swap_ordered (r := ⟨l.minPos, l.maxPos⟩) hr]
    exact clamp_inside hx.1 hx.2

/-- **C28, unchanged velocities.** A velocity within `max_velocity`, which would keep the joint inside its position limits for
a period and differs from the previous velocity command by at most `max_acceleration * dt`, is handed back as it is. -/
theorem limiter_velocity_unchanged (l : Limits) (V A m M : Rat) (hV : l.maxVel = fin V) (hA : l.maxAcc = fin A)
    (hm : l.minPos = fin m) (hM : l.maxPos = fin M) (hhas : l.hasVel = true) (hpos : l.hasPos = true)
    (hacc : l.hasAcc = true) (a d p : Data) (dt : Rat) (z : Bool × Bool) (hdt : 0 < dt)
    (v u x : Rat) (hd : d.vel = some (fin v)) (hp : p.vel = some (fin u)) (ha : a.pos = some (fin x))
    (hv : |v| ≤ V) (hx : m ≤ x ∧ x ≤ M) (hnext : m ≤ x + v * dt ∧ x + v * dt ≤ M) (hvu : |v - u| ≤ A * dt) :
    (enforce ⟨l, none⟩ a d p dt z).cmd.vel = some (fin v) := by
  by_cases ht : (enforce ⟨l, none⟩ a d p dt z).thrown = false
  swap
  · rw [(enforce_idle (fun g => ht g.2)).1, hd]
  show (saturate l a d p dt).cmd.vel = _
  rw [saturate_eq hdt ht]
  have hi : initPrev a d p = p := initPrev_of_data (by simp [Data.hasData, hp])
  simp only [finish, hi, hp, hd]
  rw [apply_num rfl]
  dsimp only
  congr 1
  obtain ⟨v1, v2⟩ := abs_le.1 hv
  obtain ⟨w1, w2⟩ := abs_le.1 hvu
  have hin : InLimits l (fin x) := ⟨rfl, by rw [hm]; simpa using hx.1, by rw [hM]; simpa using hx.2⟩
  have d1 : (m - x) / dt ≤ v := by rw [div_le_iff₀ hdt]; linarith [hnext.1]
  have d2 : v ≤ (M - x) / dt := by rw [le_div_iff₀ hdt]; linarith [hnext.2]
  have e : velocityLimits l (fin v) a.pos (some (fin u)) (fin dt) = swap
      ⟨fin (max (u - A * dt) (max ((m - x) / dt) (-V))), fin (min (u + A * dt) (min ((M - x) / dt) V))⟩ := by
    unfold velocityLimits velocityFromPrev velocityFromPos
    rw [hhas, hV, hpos, hacc, ha]
    simp only [Bool.not_true, Bool.false_eq_true, if_false, if_true, neg_fin]
    rw [nearLimits_eq hin, hm, hM]
    simp only [sub_fin, div_fin _ _ hdt.ne', max_fin, min_fin, velocityNearPrev, hA, mul_fin, add_fin]
  have lo : max (u - A * dt) (max ((m - x) / dt) (-V)) ≤ v :=
    _root_.max_le (by linarith) (_root_.max_le d1 v1)
  have hi' : v ≤ min (u + A * dt) (min ((M - x) / dt) V) :=
    _root_.le_min (by linarith) (_root_.le_min d2 v2)
  rw [e, swap_ordered (by simpa using lo.trans hi')]
  exact clamp_inside (by simpa using lo) (by simpa using hi')

/-- **C28, unchanged efforts.** An effort within `max_effort` of a joint that is strictly inside its position limits and not
faster than its velocity limit is handed back as it is. -/
theorem limiter_effort_unchanged (l : Limits) (a d p : Data) (dt : Rat) (z : Bool × Bool)
    (v : Dbl) (hd : d.eff = some v) (hv : l.hasEff = true → Within (-l.maxEff) v l.maxEff)
    (hpos : ∀ x, a.pos = some x → lt l.minPos x = true ∧ lt x l.maxPos = true)
    (hvel : ∀ u, a.vel = some u → Within (-l.maxVel) u l.maxVel) :
    (enforce ⟨l, none⟩ a d p dt z).cmd.eff = some v := by
  by_cases ht : 0 < dt ∧ (enforce ⟨l, none⟩ a d p dt z).thrown = false
  swap
  · rw [(enforce_idle ht).1, hd]
  show (saturate l a d p dt).cmd.eff = _
  rw [saturate_eq ht.1 ht.2]
  simp only [finish, hd]
  by_cases hn : v.isNan = true
  · rw [apply_skip (by simp [numeric, hn])]
  rw [apply_num (Bool.eq_false_iff.2 hn)]
  dsimp only
  congr 1
  cases he : l.hasEff with
  | false =>
    unfold effortLimits
    rw [he]
    simp only [Bool.not_false, if_true, Range.all]
    cases v with
    | nan => simp at hn
    | _ => rfl
  | true =>
    have hr := hv he
    have e : effortLimits l a.pos a.vel = ⟨-l.maxEff, l.maxEff⟩ := by
      have n1 : ∀ x, a.pos = some x → le x l.minPos = false ∧ le l.maxPos x = false := by
        intro x hx
        have := hpos x hx
        constructor
        · cases g : le x l.minPos with
          | false => rfl
          | true => have := lt_of_lt_of_le this.1 g; rw [lt_irrefl] at this; exact absurd this (by decide)
        · cases g : le l.maxPos x with
          | false => rfl
          | true => have := lt_of_lt_of_le this.2 g; rw [lt_irrefl] at this; exact absurd this (by decide)
      unfold effortLimits
      rw [he]
      simp only [Bool.not_true, Bool.false_eq_true, if_false]
      rw [swap_ordered]
      · cases hx : a.pos with
        | none =>
          cases hu : a.vel with
          | none => rfl
          | some u =>
            have := hvel u hu
            simp only [not_lt_of_le this.1, not_lt_of_le this.2, Bool.false_eq_true, if_false, ite_self]
        | some x =>
          have g := n1 x hx
          cases hu : a.vel with
          | none => rfl
          | some u =>
            have := hvel u hu
            simp only [not_lt_of_le this.1, not_lt_of_le this.2, g.1, g.2, Bool.false_eq_true, if_false, ite_self,
              Bool.false_and]
      · cases hx : a.pos with
        | none =>
          cases hu : a.vel with
          | none => exact le_trans hr.1 hr.2
          | some u =>
            have := hvel u hu
            simp only [not_lt_of_le this.1, not_lt_of_le this.2, Bool.false_eq_true, if_false, ite_self]
            exact le_trans hr.1 hr.2
        | some x =>
          have g := n1 x hx
          cases hu : a.vel with
          | none => exact le_trans hr.1 hr.2
          | some u =>
            have := hvel u hu
            simp only [not_lt_of_le this.1, not_lt_of_le this.2, g.1, g.2, Bool.false_eq_true, if_false, ite_self,
              Bool.false_and]
            exact le_trans hr.1 hr.2
    rw [e]
    exact clamp_inside hr.1 hr.2

end Verif
