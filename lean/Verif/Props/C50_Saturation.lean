import Verif.Num.Saturation
import Verif.Num.DblLemmas
import Mathlib.Tactic.Linarith
import Mathlib.Tactic.FieldSimp
import Mathlib.Tactic.Ring
import Mathlib.Tactic.Positivity
/-!
# C50: the limiter of trajectory points

Full statement (`C50_within_limits`): from a state inside the limits, every position, velocity and acceleration of the limited point
lies inside the limits; and `true` is returned exactly if a limit was enforced, so that `false` means the point is as it was
(`C50_false_unchanged`).

Both are false of the code (`C50_within_limits_false`, `C50_false_unchanged_false`). Proved instead: accelerations always
(`C50_acceleration`); velocities if no accelerations are commanded; positions if only positions are commanded and there are no
acceleration limits; with acceleration or deceleration limits either all joints brake or every joint can still stop in time
(`C50_stops_in_time`); `false` means unchanged up to commands that are zero or NaN. Two more surprises of the code are shown:
the velocity command 0 makes a joint move (`C50_stop_command_moves`), and the limiter is not mirror symmetric (`C50_asymmetric`).
-/
namespace Verif.Sat
open Verif (Dbl)
open Verif.Lim (Limits)
open Verif.Dbl (fin)

/-! ### The joints one by one -/

theorem afterLoop_get (lims : List Limits) (cur des : Point) (dt : Dbl) (i : Nat) :
    (afterLoop lims cur des dt)[i]? = (lims[i]?).map fun l =>
      perJoint (des.pos.length == lims.length) (des.vel.length == lims.length) dt (jointAt lims cur des i l) := by
  unfold afterLoop
  rw [List.getElem?_map, List.getElem?_mapIdx, Option.map_map]; rfl

theorem afterLoop_length (lims : List Limits) (cur des : Point) (dt : Dbl) :
    (afterLoop lims cur des dt).length = lims.length := by
  unfold afterLoop; simp

theorem finalJoints_length (lims : List Limits) (cur des : Point) (dt : Dbl) :
    (finalJoints lims cur des dt).length = lims.length := by
  unfold finalJoints; extract_lets js; split <;> simp [js, afterLoop_length]

/-- All joints brake. -/
def braking (lims : List Limits) (cur des : Point) (dt : Dbl) : Bool := (afterLoop lims cur des dt).any (mustBrake dt)

theorem finalJoints_get (lims : List Limits) (cur des : Point) (dt : Dbl) (i : Nat) :
    (finalJoints lims cur des dt)[i]? = ((afterLoop lims cur des dt)[i]?).map fun j =>
      if braking lims cur des dt then
        brake (des.pos.length == lims.length) (des.vel.length == lims.length) dt j else j := by
  unfold finalJoints braking; extract_lets js
  by_cases g : js.any (mustBrake dt) = true
  · simp [g, js]
  · simp [g, js]

@[simp] theorem posStage_l (hp dt j) : (posStage hp dt j).l = j.l := by unfold posStage; split <;> rfl
@[simp] theorem posStage_cp (hp dt j) : (posStage hp dt j).cp = j.cp := by unfold posStage; split <;> rfl
@[simp] theorem posStage_cv (hp dt j) : (posStage hp dt j).cv = j.cv := by unfold posStage; split <;> rfl
@[simp] theorem posStage_a (hp dt j) : (posStage hp dt j).a = j.a := by unfold posStage; split <;> rfl
@[simp] theorem velStage_l (hp dt j) : (velStage hp dt j).l = j.l := by
  unfold velStage; extract_lets; repeat' split
  all_goals rfl
@[simp] theorem velStage_cp (hp dt j) : (velStage hp dt j).cp = j.cp := by
  unfold velStage; extract_lets; repeat' split
  all_goals rfl
@[simp] theorem velStage_cv (hp dt j) : (velStage hp dt j).cv = j.cv := by
  unfold velStage; extract_lets; repeat' split
  all_goals rfl
@[simp] theorem accStage_l (hp dt j) : (accStage hp dt j).l = j.l := by
  unfold accStage; extract_lets; repeat' split
  all_goals rfl
@[simp] theorem accStage_cp (hp dt j) : (accStage hp dt j).cp = j.cp := by
  unfold accStage; extract_lets; repeat' split
  all_goals rfl
@[simp] theorem accStage_cv (hp dt j) : (accStage hp dt j).cv = j.cv := by
  unfold accStage; extract_lets; repeat' split
  all_goals rfl
@[simp] theorem aheadStage_l (hp hv dt j) : (aheadStage hp hv dt j).l = j.l := by
  unfold aheadStage; extract_lets; repeat' split
  all_goals rfl
@[simp] theorem aheadStage_cp (hp hv dt j) : (aheadStage hp hv dt j).cp = j.cp := by
  unfold aheadStage; extract_lets; repeat' split
  all_goals rfl
@[simp] theorem aheadStage_cv (hp hv dt j) : (aheadStage hp hv dt j).cv = j.cv := by
  unfold aheadStage; extract_lets; repeat' split
  all_goals rfl
@[simp] theorem aheadStage_a (hp hv dt j) : (aheadStage hp hv dt j).a = j.a := by
  unfold aheadStage; extract_lets; repeat' split
  all_goals rfl
@[simp] theorem aheadStage_p (hp hv dt j) : (aheadStage hp hv dt j).p = j.p := by
  unfold aheadStage; extract_lets; repeat' split
  all_goals rfl
@[simp] theorem jointAt_l (lims cur des i l) : (jointAt lims cur des i l).l = l := rfl
@[simp] theorem perJoint_l (hp hv dt j) : (perJoint hp hv dt j).l = j.l := by simp [perJoint]
@[simp] theorem perJoint_cp (hp hv dt j) : (perJoint hp hv dt j).cp = j.cp := by simp [perJoint]
@[simp] theorem perJoint_cv (hp hv dt j) : (perJoint hp hv dt j).cv = j.cv := by simp [perJoint]

/-! ### The answer for input that cannot be used, sizes -/

/-- The input the limiter needs: a positive time step, a position reading for every joint, and a position or a velocity command
for every joint. -/
def Usable (n : Nat) (cur des : Point) (dt : Rat) : Prop :=
  0 < dt ∧ cur.pos.length = n ∧ (des.pos.length = n ∨ des.vel.length = n)

theorem usable_iff (n : Nat) (cur des : Point) (dt : Rat) : usable n cur des dt = true ↔ Usable n cur des dt := by
  simp [usable, Usable]

/-- Without usable input nothing is changed and `false` is returned. -/
theorem C50_unusable (lims : List Limits) (cur des : Point) (dt : Rat) (h : ¬ Usable lims.length cur des dt) :
    enforce lims cur des dt = (des, false) := by
  have : usable lims.length cur des dt = false := by
    rw [← usable_iff] at h; simpa using h
  simp [enforce, this]

example : ¬ Usable 2 ⟨[1, 2], [], []⟩ ⟨[1], [1, 2, 3], [1, 2]⟩ 1 := by
  rintro ⟨-, -, h | h⟩ <;> exact absurd h (by decide)

/-- Vectors keep their length, and a vector that does not have one element per joint is not touched. -/
theorem C50_shape (lims : List Limits) (cur des : Point) (dt : Rat) :
    let out := (enforce lims cur des dt).1
    out.pos.length = des.pos.length ∧ out.vel.length = des.vel.length ∧ out.acc.length = des.acc.length ∧
      (des.pos.length ≠ lims.length → out.pos = des.pos) ∧ (des.vel.length ≠ lims.length → out.vel = des.vel) ∧
      (des.acc.length ≠ lims.length → out.acc = des.acc) := by
  intro out
  simp only [out]; unfold enforce
  by_cases g : usable lims.length cur des dt = true
  · rw [if_pos g]; dsimp only
    refine ⟨?_, ?_, ?_, ?_, ?_, ?_⟩
    · split
      · rw [List.length_map, finalJoints_length]; exact (Eq.symm ‹_›)
      · rfl
    · split
      · rw [List.length_map, finalJoints_length]; exact (Eq.symm ‹_›)
      · rfl
    · split
      · rw [List.length_map, finalJoints_length]; exact (Eq.symm ‹_›)
      · rfl
    all_goals intro h; rw [if_neg h]
  · rw [if_neg g]; exact ⟨rfl, rfl, rfl, fun _ => rfl, fun _ => rfl, fun _ => rfl⟩

theorem enforce_usable {lims : List Limits} {cur des : Point} {dt : Rat} (h : Usable lims.length cur des dt) :
    enforce lims cur des dt =
      ({ pos := if des.pos.length = lims.length then (finalJoints lims cur des (.fin dt)).map (·.p) else des.pos
         vel := if des.vel.length = lims.length then (finalJoints lims cur des (.fin dt)).map (·.v) else des.vel
         acc := if des.acc.length = lims.length then (finalJoints lims cur des (.fin dt)).map (·.a) else des.acc },
        (finalJoints lims cur des (.fin dt)).any (·.limited) || braking lims cur des (.fin dt)) := by
  unfold enforce; rw [if_pos ((usable_iff ..).2 h)]; rfl

/-- The joint `i` as it is written back. -/
theorem final_of {lims : List Limits} {cur des : Point} {dt : Dbl} {i : Nat} {l : Limits} (hl : lims[i]? = some l) :
    (finalJoints lims cur des dt)[i]? = some
      (if braking lims cur des dt then
        brake (des.pos.length == lims.length) (des.vel.length == lims.length) dt
          (perJoint (des.pos.length == lims.length) (des.vel.length == lims.length) dt (jointAt lims cur des i l))
      else perJoint (des.pos.length == lims.length) (des.vel.length == lims.length) dt (jointAt lims cur des i l)) := by
  rw [finalJoints_get, afterLoop_get, hl]; rfl

/-! ### Accelerations -/

theorem le_zero_cases {m : Dbl} (h : Dbl.le 0 m = true) : m = .pinf ∨ ∃ q, m = fin q ∧ 0 ≤ q := by
  cases m
  · simp [Dbl.le] at h
  · simp [Dbl.le] at h
  · right; exact ⟨_, rfl, by simpa [Dbl.zero_eq] using h⟩
  · left; rfl

theorem copysign_not_over {m a : Dbl} (h : Dbl.le 0 m = true) : Dbl.lt m (Dbl.abs (copysign m a)) = false := by
  rcases le_zero_cases h with rfl | ⟨q, rfl, hq⟩
  · unfold copysign; split <;> rfl
  · unfold copysign; split
    · simp [abs_neg, abs_of_nonneg hq]
    · simp [abs_of_nonneg hq]

theorem abs_abs' (x : Dbl) : Dbl.abs (Dbl.abs x) = Dbl.abs x := by
  cases x
  · rfl
  · rfl
  · simp
  · rfl

theorem abs_neg' (x : Dbl) : Dbl.abs (-x) = Dbl.abs x := by
  cases x
  · rfl
  · rfl
  · simp
  · rfl

theorem abs_copysign (m a : Dbl) : Dbl.abs (copysign m a) = Dbl.abs m := by
  unfold copysign; split
  · rw [abs_neg', abs_abs']
  · rw [abs_abs']

theorem copysign_min_not_over {m a b : Dbl} (h : Dbl.le 0 m = true) :
    Dbl.lt m (Dbl.abs (copysign (Dbl.min (Dbl.abs a) m) b)) = false := by
  have key : ∀ x : Dbl, Dbl.lt m (Dbl.abs x) = false → Dbl.lt m (Dbl.abs (copysign x b)) = false := by
    intro x hx
    rwa [abs_copysign]
  apply key
  unfold Dbl.min
  split
  · rcases le_zero_cases h with rfl | ⟨q, rfl, hq⟩
    · rfl
    · simp [abs_of_nonneg hq]
  · rename_i g
    have g' : Dbl.lt m (Dbl.abs a) = false := by simpa using g
    rwa [abs_abs']

/-- A bound on accelerations that is respected: an acceleration that is not a number is not counted as too large. -/
def Respects (m a : Dbl) : Prop := Dbl.lt m (Dbl.abs a) = false

/-- The limits of a joint are not negative. -/
structure Sane (l : Limits) : Prop where
  vel : l.hasVel = true → Dbl.le 0 l.maxVel = true
  acc : l.hasAcc = true → Dbl.le 0 l.maxAcc = true
  dec : l.hasDec = true → Dbl.le 0 l.maxDec = true

theorem accStage_acc {hp : Bool} {dt : Dbl} {j : Joint} (hs : Sane j.l) (h : j.l.hasAcc = true) :
    Respects j.l.maxAcc (accStage hp dt j).a ∨ (j.l.hasDec = true ∧ Respects j.l.maxDec (accStage hp dt j).a) := by
  unfold accStage
  rw [if_pos (by simp [h])]
  extract_lets a
  clear_value a
  unfold accBound
  by_cases g : (slowing j.cv a && j.l.hasDec) = true
  · rw [if_pos g]
    simp only [Bool.and_eq_true] at g
    right; refine ⟨g.2, ?_⟩
    dsimp only
    split
    · exact copysign_not_over (hs.dec g.2)
    · rename_i o; simpa [over, Respects] using o
  · rw [if_neg g, if_pos h]
    left; dsimp only
    split
    · exact copysign_not_over (hs.acc h)
    · rename_i o; simpa [over, Respects] using o

theorem brakeAcc_acc {dt cv : Dbl} {l : Limits} (hs : Sane l) (h : l.hasAcc = true) :
    Respects l.maxAcc (brakeAcc l cv dt) ∨ (l.hasDec = true ∧ Respects l.maxDec (brakeAcc l cv dt)) := by
  unfold brakeAcc
  extract_lets a
  by_cases g : l.hasDec = true
  · rw [if_pos g]; right; exact ⟨g, copysign_min_not_over (hs.dec g)⟩
  · rw [if_neg g, if_pos h]; left; exact copysign_min_not_over (hs.acc h)

/-- Accelerations never exceed the acceleration limit, or the deceleration limit if there is one, whatever the readings and
commands are. -/
theorem C50_acceleration {lims : List Limits} {cur des : Point} {dt : Rat} (hu : Usable lims.length cur des dt)
    (ha : des.acc.length = lims.length) {i : Nat} {l : Limits} (hl : lims[i]? = some l) (hs : Sane l)
    (h : l.hasAcc = true) {a : Dbl} (ho : (enforce lims cur des dt).1.acc[i]? = some a) :
    Respects l.maxAcc a ∨ (l.hasDec = true ∧ Respects l.maxDec a) := by
  rw [enforce_usable hu] at ho
  dsimp only at ho
  rw [if_pos ha, List.getElem?_map, final_of hl] at ho
  simp only [Option.map_some, Option.some.injEq] at ho
  subst ho
  split
  · have := brakeAcc_acc (cv := orZeros lims.length cur.vel i) (dt := .fin dt) hs h
    simpa [brake, jointAt] using this
  · unfold perJoint
    rw [aheadStage_a]
    have := accStage_acc (hp := des.pos.length == lims.length) (dt := .fin dt)
      (j := velStage (des.pos.length == lims.length) (.fin dt)
        (posStage (des.pos.length == lims.length) (.fin dt) (jointAt lims cur des i l)))
      (by simpa [jointAt] using hs) (by simpa [jointAt] using h)
    simpa [jointAt] using this

/-- The acceleration works against the velocity. -/
def Opposes (cv a : Dbl) : Prop := (Dbl.lt a 0 = true ∧ Dbl.lt 0 cv = true) ∨ (Dbl.lt 0 a = true ∧ Dbl.lt cv 0 = true)

/-- Which limit holds for an acceleration. -/
def RightLimit (l : Limits) (cv a : Dbl) : Prop :=
  (Opposes cv a → l.hasDec = true → Respects l.maxDec a) ∧ (Opposes cv a → l.hasDec = false → l.hasAcc = true → Respects l.maxAcc a) ∧
  (¬ Opposes cv a → l.hasAcc = true → Respects l.maxAcc a)

theorem zero_respects {m a : Dbl} (h : Dbl.le 0 m = true) (ha : a = 0) : Respects m a := by
  subst ha
  rcases le_zero_cases h with rfl | ⟨q, rfl, hq⟩
  · rfl
  · simp [Respects, Dbl.zero_eq, hq]

/-- Cutting to a bound keeps the sign or gives zero. -/
theorem copysign_opposes {m a cv : Dbl} (h : Dbl.le 0 m = true) (ho : over m a = true) :
    (Opposes cv (copysign m a) → Opposes cv a) ∧ (¬ Opposes cv (copysign m a) → Opposes cv a → copysign m a = 0) := by
  rcases le_zero_cases h with rfl | ⟨q, rfl, hq⟩
  · cases a <;> simp [over, Dbl.lt, Dbl.abs] at ho
  · have hneg : Dbl.lt a 0 = true ∨ Dbl.lt 0 a = true := by
      cases a with
      | nan => simp [over, Dbl.lt, Dbl.abs] at ho
      | ninf => left; rfl
      | pinf => right; rfl
      | fin x =>
        simp only [over, Dbl.abs_fin, Dbl.lt_fin, decide_eq_true_eq] at ho
        simp only [Dbl.zero_eq, Dbl.lt_fin, decide_eq_true_eq]
        rcases lt_trichotomy x 0 with h | rfl | h
        · exact .inl h
        · simp at ho; exact absurd ho (not_lt.2 hq)
        · exact .inr h
    have hexcl : Dbl.lt a 0 = true → Dbl.lt 0 a = false := by
      cases a with
      | nan => simp [Dbl.lt]
      | ninf => intro _; rfl
      | pinf => simp [Dbl.lt]
      | fin x =>
        simp only [Dbl.zero_eq, Dbl.lt_fin, decide_eq_true_eq, decide_eq_false_iff_not]
        intro h; exact not_lt.2 h.le
    rcases hneg with hn | hn
    · have hc : copysign (.fin q) a = .fin (-q) := by rw [copysign, if_pos hn, Dbl.abs_fin, abs_of_nonneg hq]; rfl
      rw [hc]
      have he := hexcl hn
      rw [Dbl.zero_eq] at hn he ⊢
      simp only [Opposes, Dbl.zero_eq, Dbl.lt_fin]
      constructor
      · rintro (h | h)
        · left; exact ⟨hn, h.2⟩
        · exact absurd h.1 (by simp [hq])
      · intro h1 h2
        rcases lt_or_eq_of_le hq with hq | rfl
        · exact absurd (Or.inl ⟨by simp [hq], (h2.resolve_right (by simp [he])).2⟩) h1
        · simp
    · have hn' : Dbl.lt a 0 = false := by
        cases h : Dbl.lt a 0
        · rfl
        · rw [hexcl h] at hn; exact absurd hn (by simp)
      have hc : copysign (.fin q) a = .fin q := by rw [copysign, hn', if_neg (by simp), Dbl.abs_fin, abs_of_nonneg hq]
      rw [hc]
      rw [Dbl.zero_eq] at hn hn' ⊢
      simp only [Opposes, Dbl.zero_eq, Dbl.lt_fin]
      constructor
      · rintro (h | h)
        · exact absurd h.1 (by simp [hq])
        · right; exact ⟨hn, h.2⟩
      · intro h1 h2
        rcases lt_or_eq_of_le hq with hq | rfl
        · exact absurd (Or.inr ⟨by simp [hq], (h2.resolve_left (by simp [hn'])).2⟩) h1
        · simp

theorem accStage_right {hp : Bool} {dt : Dbl} {j : Joint} (hs : Sane j.l) : RightLimit j.l j.cv (accStage hp dt j).a := by
  unfold accStage
  by_cases hh : (j.l.hasAcc || j.l.hasDec) = true
  swap
  · rw [if_neg hh]
    simp only [Bool.or_eq_true, not_or] at hh
    exact ⟨fun _ h => absurd h hh.2, fun _ _ h => absurd h hh.1, fun _ h => absurd h hh.1⟩
  rw [if_pos hh]
  extract_lets a
  clear_value a
  have hsl : slowing j.cv a = true ↔ Opposes j.cv a := by simp [slowing, Opposes]
  unfold accBound
  by_cases g : (slowing j.cv a && j.l.hasDec) = true
  · rw [if_pos g]
    simp only [Bool.and_eq_true] at g
    dsimp only
    by_cases o : over j.l.maxDec a = true
    · rw [if_pos o]
      have hc := copysign_opposes (cv := j.cv) (hs.dec g.2) o
      refine ⟨fun _ _ => copysign_not_over (hs.dec g.2), fun _ h => absurd g.2 (by simp [h]), fun hn h => ?_⟩
      exact zero_respects (hs.acc h) (hc.2 hn (hsl.1 g.1))
    · rw [if_neg o]
      exact ⟨fun _ _ => by simpa [over, Respects] using o, fun _ h => absurd g.2 (by simp [h]), fun hn => absurd (hsl.1 g.1) hn⟩
  · rw [if_neg g]
    have g' : Opposes j.cv a → j.l.hasDec = false := by
      intro h; simpa [hsl.2 h] using g
    by_cases h : j.l.hasAcc = true
    · rw [if_pos h]
      dsimp only
      by_cases o : over j.l.maxAcc a = true
      · rw [if_pos o]
        have hc := copysign_opposes (cv := j.cv) (hs.acc h) o
        exact ⟨fun h1 h2 => absurd h2 (by simp [g' (hc.1 h1)]), fun _ _ _ => copysign_not_over (hs.acc h),
          fun _ _ => copysign_not_over (hs.acc h)⟩
      · rw [if_neg o]
        have : Respects j.l.maxAcc a := by simpa [over, Respects] using o
        exact ⟨fun h1 h2 => absurd h2 (by simp [g' h1]), fun _ _ _ => this, fun _ _ => this⟩
    · rw [if_neg h]
      exact ⟨fun h1 h2 => absurd h2 (by simp [g' h1]), fun _ _ h' => absurd h' h, fun _ h' => absurd h' h⟩

/-- The braking acceleration works against the velocity, if it is not zero. -/
theorem brake_opposes {dt : Rat} (hdt : 0 < dt) (cv : Dbl) {m : Dbl} (h : Dbl.le 0 m = true) :
    let b := copysign (Dbl.min (Dbl.abs ((-cv) / .fin dt)) m) ((-cv) / .fin dt)
    Opposes cv b ∨ b = 0 ∨ b = .nan := by
  have e1 : ((-Dbl.pinf : Dbl) / .fin dt) = .ninf := by show Dbl.div .ninf (.fin dt) = _; simp [Dbl.div, not_lt.2 hdt.le, Dbl.infOf]
  have e2 : ((-Dbl.ninf : Dbl) / .fin dt) = .pinf := by show Dbl.div .pinf (.fin dt) = _; simp [Dbl.div, hdt.le, Dbl.infOf]
  cases cv with
  | nan => right; right; rcases le_zero_cases h with rfl | ⟨q, rfl, hq⟩ <;> rfl
  | pinf =>
    rw [e1]
    rcases le_zero_cases h with rfl | ⟨q, rfl, hq⟩
    · left; left; exact ⟨rfl, rfl⟩
    · rcases lt_or_eq_of_le hq with hq | rfl
      · left; left; refine ⟨?_, rfl⟩
        show Dbl.lt (.fin (-|q|)) (.fin 0) = true
        simp [hq.ne']
      · right; left; rfl
  | ninf =>
    rw [e2]
    rcases le_zero_cases h with rfl | ⟨q, rfl, hq⟩
    · left; right; exact ⟨rfl, rfl⟩
    · rcases lt_or_eq_of_le hq with hq | rfl
      · left; right; refine ⟨?_, rfl⟩
        show Dbl.lt (.fin 0) (.fin |q|) = true
        simp [hq.ne']
      · right; left; rfl
  | fin c =>
    have e : ((-(.fin c) : Dbl) / .fin dt) = .fin (-c / dt) := Dbl.div_fin _ _ hdt.ne'
    rw [e]
    rcases lt_trichotomy c 0 with hc | rfl | hc
    · have ha : 0 < -c / dt := div_pos (by linarith) hdt
      generalize -c / dt = x at ha
      have hn : Dbl.lt (.fin x) 0 = false := by simp [Dbl.zero_eq, ha.le]
      rw [copysign, hn]
      rcases le_zero_cases h with rfl | ⟨q, rfl, hq⟩
      · left; right
        refine ⟨?_, by simp [Dbl.zero_eq, hc]⟩
        show Dbl.lt (.fin 0) (.fin |(|x|)|) = true
        simp [ha.ne']
      · by_cases hx : q < |x|
        · have : Dbl.min (Dbl.abs (.fin x)) (.fin q) = .fin q := by simp [Dbl.min, hx]
          rw [this]
          rcases lt_or_eq_of_le hq with hq | rfl
          · left; right; refine ⟨?_, by simp [Dbl.zero_eq, hc]⟩
            simp [Dbl.zero_eq, hq.ne']
          · right; left; simp [Dbl.zero_eq]
        · have : Dbl.min (Dbl.abs (.fin x)) (.fin q) = .fin |x| := by simp [Dbl.min, hx]
          rw [this]
          left; right; refine ⟨?_, by simp [Dbl.zero_eq, hc]⟩
          simp [Dbl.zero_eq, ha.ne']
    · right; left
      rcases le_zero_cases h with rfl | ⟨q, rfl, hq⟩
      · simp [Dbl.min, copysign, Dbl.zero_eq, Dbl.lt]
      · simp [Dbl.min, copysign, Dbl.zero_eq, not_lt.2 hq]
    · have ha : -c / dt < 0 := div_neg_of_neg_of_pos (by linarith) hdt
      generalize -c / dt = x at ha
      have hn : Dbl.lt (.fin x) 0 = true := by simp [Dbl.zero_eq, ha]
      rw [copysign, hn, if_pos rfl]
      rcases le_zero_cases h with rfl | ⟨q, rfl, hq⟩
      · left; left
        refine ⟨?_, by simp [Dbl.zero_eq, hc]⟩
        show Dbl.lt (.fin (-|(|x|)|)) (.fin 0) = true
        simp [ha.ne]
      · by_cases hx : q < |x|
        · have : Dbl.min (Dbl.abs (.fin x)) (.fin q) = .fin q := by simp [Dbl.min, hx]
          rw [this]
          rcases lt_or_eq_of_le hq with hq | rfl
          · left; left; refine ⟨?_, by simp [Dbl.zero_eq, hc]⟩
            show Dbl.lt (.fin (-|q|)) (.fin 0) = true
            simp [hq.ne']
          · right; left; rfl
        · have : Dbl.min (Dbl.abs (.fin x)) (.fin q) = .fin |x| := by simp [Dbl.min, hx]
          rw [this]
          left; left; refine ⟨?_, by simp [Dbl.zero_eq, hc]⟩
          show Dbl.lt (.fin (-|(|x|)|)) (.fin 0) = true
          simp [ha.ne]

theorem brakeAcc_right {dt : Rat} (hdt : 0 < dt) {cv : Dbl} {l : Limits} (hs : Sane l) : RightLimit l cv (brakeAcc l cv (.fin dt)) := by
  unfold brakeAcc
  extract_lets a
  by_cases g : l.hasDec = true
  · rw [if_pos g]
    refine ⟨fun _ _ => copysign_min_not_over (hs.dec g), fun _ h => absurd g (by simp [h]), fun hn h => ?_⟩
    rcases brake_opposes hdt cv (hs.dec g) with hb | hb | hb
    · exact absurd hb hn
    · exact zero_respects (hs.acc h) hb
    · show Dbl.lt _ (Dbl.abs (copysign (Dbl.min (Dbl.abs a) l.maxDec) a)) = false
      rw [hb]; cases l.maxAcc <;> rfl
  · rw [if_neg g]
    by_cases h : l.hasAcc = true
    · rw [if_pos h]
      exact ⟨fun _ h' => absurd h' g, fun _ _ _ => copysign_min_not_over (hs.acc h), fun _ _ => copysign_min_not_over (hs.acc h)⟩
    · exact ⟨fun _ h' => absurd h' g, fun _ _ h' => absurd h' h, fun _ h' => absurd h' h⟩

/-- Deceleration limits hold where the joint is slowed down, acceleration limits everywhere else and where there is no deceleration limit. -/
theorem C50_deceleration {lims : List Limits} {cur des : Point} {dt : Rat} (hu : Usable lims.length cur des dt)
    (ha : des.acc.length = lims.length) {i : Nat} {l : Limits} (hl : lims[i]? = some l) (hs : Sane l)
    {a : Dbl} (ho : (enforce lims cur des dt).1.acc[i]? = some a) : RightLimit l (orZeros lims.length cur.vel i) a := by
  have hdt : 0 < dt := hu.1
  rw [enforce_usable hu] at ho
  dsimp only at ho
  rw [if_pos ha, List.getElem?_map, final_of hl] at ho
  simp only [Option.map_some, Option.some.injEq] at ho
  subst ho
  split
  · have := brakeAcc_right hdt (cv := orZeros lims.length cur.vel i) hs
    simpa [brake, jointAt] using this
  · unfold perJoint
    rw [aheadStage_a]
    have := accStage_right (hp := des.pos.length == lims.length) (dt := .fin dt)
      (j := velStage (des.pos.length == lims.length) (.fin dt)
        (posStage (des.pos.length == lims.length) (.fin dt) (jointAt lims cur des i l)))
      (by simpa [jointAt] using hs)
    simpa [jointAt] using this

/-! ### Velocities -/

theorem posStage_fin {hp : Bool} {dt : Rat} {j : Joint} {cp p v : Rat} (hdt : 0 < dt) (h1 : j.cp = fin cp) (h2 : j.p = fin p)
    (h3 : j.v = fin v) (hlo : j.l.hasPos = true → Dbl.le j.l.minPos (fin cp) = true)
    (hhi : j.l.hasPos = true → Dbl.le (fin cp) j.l.maxPos = true) :
    ∃ p' v' : Rat, (posStage hp (fin dt) j).p = fin p' ∧ (posStage hp (fin dt) j).v = fin v' := by
  unfold posStage
  split
  · extract_lets c hit p1 d v1
    have hp1 : ∃ q, p1 = fin q := by
      simp only [p1]; split
      · rename_i g
        simp only [hit, Bool.and_eq_true] at g
        simp only [c]; unfold Dbl.clamp
        rw [h2]
        split
        · rename_i g'
          have a1 := hlo g.1
          cases e : j.l.minPos <;> simp_all [Dbl.lt, Dbl.le]
        · split
          · rename_i g'
            have a1 := hhi g.1
            cases e : j.l.maxPos <;> simp_all [Dbl.lt, Dbl.le]
          · exact ⟨_, rfl⟩
      · exact ⟨_, h2⟩
    obtain ⟨q, hq⟩ := hp1
    refine ⟨q, ?_⟩
    dsimp only
    simp only [v1, d, hq, h1, h3, Dbl.sub_fin]
    split
    · exact ⟨_, trivial, Dbl.div_fin _ _ hdt.ne'⟩
    · exact ⟨_, trivial, rfl⟩
  · exact ⟨p, v, h2, h3⟩

theorem velStage_fin {hp : Bool} {dt : Rat} {j : Joint} {cp cv p v M : Rat} (hdt : 0 < dt) (h1 : j.cp = fin cp)
    (h2 : j.p = fin p) (h3 : j.v = fin v) (h4 : j.cv = fin cv) (h5 : j.a = 0) (hv : j.l.hasVel = true)
    (hM : j.l.maxVel = fin M) (hM0 : 0 ≤ M) :
    ∃ q : Rat, (velStage hp (fin dt) j).v = fin q ∧ |q| ≤ M ∧
      ((velStage hp (fin dt) j).a = fin 0 ∨ (velStage hp (fin dt) j).a = fin ((q - cv) / dt)) := by
  unfold velStage
  rw [if_pos hv]
  extract_lets w u
  have hw : ∃ q, w = fin q := by
    simp only [w]; split
    · rw [h1, h2, Dbl.sub_fin, Dbl.div_fin _ _ hdt.ne']; exact ⟨_, rfl⟩
    · exact ⟨_, h3⟩
  obtain ⟨q, hq⟩ := hw
  split
  · rename_i g
    have hu : ∃ r, u = fin r ∧ |r| = M := by
      simp only [u, copysign, hM, Dbl.abs_fin]
      split
      · exact ⟨-|M|, rfl, by rw [abs_neg, abs_abs, abs_of_nonneg hM0]⟩
      · exact ⟨|M|, rfl, by rw [abs_abs, abs_of_nonneg hM0]⟩
    obtain ⟨r, hr, hrM⟩ := hu
    refine ⟨r, hr, hrM.le, Or.inr ?_⟩
    dsimp only
    rw [hr, h4, Dbl.sub_fin, Dbl.div_fin _ _ hdt.ne']
  · rename_i g
    refine ⟨q, hq, ?_, Or.inl h5⟩
    rw [hM, hq] at g
    simpa using g

/-- Part of the way from one number to another. -/
theorem between_abs {cv b dt q M : Rat} (hc : |cv| ≤ M) (hq : |q| ≤ M)
    (h : (0 ≤ b ∧ b ≤ (q - cv) / dt) ∨ (b ≤ 0 ∧ (q - cv) / dt ≤ b)) (hdt : 0 < dt) : |cv + b * dt| ≤ M := by
  rw [abs_le] at hc hq ⊢
  rcases h with ⟨h1, h2⟩ | ⟨h1, h2⟩
  · have : b * dt ≤ q - cv := by rwa [le_div_iff₀ hdt] at h2
    have : 0 ≤ b * dt := by positivity
    constructor <;> linarith
  · have : q - cv ≤ b * dt := by rwa [div_le_iff₀ hdt] at h2
    have : b * dt ≤ 0 := mul_nonpos_of_nonpos_of_nonneg h1 hdt.le
    constructor <;> linarith

theorem accStage_vel {hp : Bool} {dt : Rat} {j : Joint} {cv v M : Rat} (hdt : 0 < dt) (hs : Sane j.l)
    (h3 : j.v = fin v) (h4 : j.cv = fin cv) (hv : |v| ≤ M) (hc : |cv| ≤ M)
    (h5 : j.a = fin 0 ∨ j.a = fin ((v - cv) / dt)) :
    ∃ q : Rat, (accStage hp (fin dt) j).v = fin q ∧ |q| ≤ M := by
  unfold accStage
  split
  · extract_lets a
    have ha : a = fin ((v - cv) / dt) := by
      simp only [a]
      split
      · rw [h3, h4, Dbl.sub_fin, Dbl.div_fin _ _ hdt.ne']
      · rename_i g
        rcases h5 with h | h
        · rw [h] at g; exact absurd (by decide +kernel) g
        · exact h
    have hb : ∀ m, accBound j.l j.cv a = some m → Dbl.le 0 m = true := by
      intro m hm
      unfold accBound at hm
      split at hm
      · rename_i g; simp only [Bool.and_eq_true] at g
        cases hm; exact hs.dec g.2
      · split at hm
        · rename_i g; cases hm; exact hs.acc g
        · cases hm
    split
    · rename_i m hm
      have h0 := hb m hm
      split
      · rename_i o
        extract_lets b
        rcases le_zero_cases h0 with rfl | ⟨q, rfl, hq⟩
        · rw [ha] at o; exact absurd o (by simp [over, Dbl.lt])
        · rw [ha] at o
          simp only [over, Dbl.abs_fin, Dbl.lt_fin, decide_eq_true_eq] at o
          have hb' : ∃ r, b = fin r ∧ ((0 ≤ r ∧ r ≤ (v - cv) / dt) ∨ (r ≤ 0 ∧ (v - cv) / dt ≤ r)) := by
            simp only [b, copysign, ha, Dbl.zero_eq, Dbl.lt_fin, decide_eq_true_eq, Dbl.abs_fin, Dbl.neg_fin]
            rw [abs_of_nonneg hq]
            split
            · rename_i n
              rw [abs_of_neg n] at o
              exact ⟨_, rfl, Or.inr ⟨by linarith, by linarith⟩⟩
            · rename_i n
              rw [abs_of_nonneg (not_lt.1 n)] at o
              exact ⟨_, rfl, Or.inl ⟨hq, by linarith⟩⟩
          obtain ⟨r, hr, hr'⟩ := hb'
          refine ⟨cv + r * dt, ?_, between_abs hc hv hr' hdt⟩
          dsimp only
          rw [hr, h4, Dbl.mul_fin, Dbl.add_fin]
      · exact ⟨v, h3, hv⟩
    · exact ⟨v, h3, hv⟩
  · exact ⟨v, h3, hv⟩

theorem aheadStage_vel {hp hv : Bool} {dt : Rat} {j : Joint} {cp v M : Rat} (hdt : 0 < dt) (h1 : j.cp = fin cp)
    (h3 : j.v = fin v) (hM : |v| ≤ M) (hlo : j.l.hasPos = true → Dbl.le j.l.minPos (fin cp) = true)
    (hhi : j.l.hasPos = true → Dbl.le (fin cp) j.l.maxPos = true) :
    ∃ q : Rat, (aheadStage hp hv (fin dt) j).v = fin q ∧ |q| ≤ M := by
  unfold aheadStage
  split
  · rename_i g0
    simp only [Bool.and_eq_true] at g0
    have hlo := hlo g0.1
    have hhi := hhi g0.1
    extract_lets e c
    have he : e = fin (cp + v * dt) := by simp only [e, h1, h3, Dbl.mul_fin, Dbl.add_fin]
    split
    · rename_i d
      rw [abs_le] at hM
      simp only [c] at d ⊢
      rw [he] at d ⊢
      unfold Dbl.clamp at d ⊢
      by_cases g1 : Dbl.lt (fin (cp + v * dt)) j.l.minPos = true
      · rw [if_pos g1]
        cases em : j.l.minPos with
        | fin m =>
          rw [em] at g1 hlo
          simp only [Dbl.lt_fin, Dbl.le_fin, decide_eq_true_eq] at g1 hlo
          refine ⟨(m - cp) / dt, by rw [h1, Dbl.sub_fin, Dbl.div_fin _ _ hdt.ne'], ?_⟩
          rw [abs_le, le_div_iff₀ hdt, div_le_iff₀ hdt]
          have : (-M) * dt ≤ v * dt := mul_le_mul_of_nonneg_right hM.1 hdt.le
          have : 0 ≤ M * dt := mul_nonneg (by linarith) hdt.le
          constructor <;> linarith
        | _ => rw [em] at g1 hlo; simp [Dbl.lt, Dbl.le] at g1 hlo
      · rw [if_neg g1] at d ⊢
        by_cases g2 : Dbl.lt j.l.maxPos (fin (cp + v * dt)) = true
        · rw [if_pos g2]
          cases em : j.l.maxPos with
          | fin m =>
            rw [em] at g2 hhi
            simp only [Dbl.lt_fin, Dbl.le_fin, decide_eq_true_eq] at g2 hhi
            refine ⟨(m - cp) / dt, by rw [h1, Dbl.sub_fin, Dbl.div_fin _ _ hdt.ne'], ?_⟩
            rw [abs_le, le_div_iff₀ hdt, div_le_iff₀ hdt]
            have : v * dt ≤ M * dt := mul_le_mul_of_nonneg_right hM.2 hdt.le
            have : 0 ≤ M * dt := mul_nonneg (by linarith) hdt.le
            constructor <;> linarith
          | _ => rw [em] at g2 hhi; simp [Dbl.lt, Dbl.le] at g2 hhi
        · rw [if_neg g2] at d
          simp [differ] at d
    · exact ⟨v, h3, hM⟩
  · exact ⟨v, h3, hM⟩

/-- The deceleration a joint brakes with, if it is limited: its deceleration limit, otherwise its acceleration limit. -/
def BrakeLimit (l : Limits) (D : Rat) : Prop :=
  (l.hasDec = true ∧ l.maxDec = fin D) ∨ (l.hasDec = false ∧ l.hasAcc = true ∧ l.maxAcc = fin D)

/-- Braking as hard as allowed: the new velocity is 0, or the speed drops by the limit times the time step and the direction is
kept. -/
def Brakes (l : Limits) (cv dt v : Rat) : Prop :=
  v = 0 ∨ ∃ D, BrakeLimit l D ∧ |v| = |cv| - D * dt ∧ 0 < v * cv

theorem brake_clip {m : Dbl} {cv dt : Rat} (hdt : 0 < dt) (hm : Dbl.le 0 m = true) :
    ∃ r : Rat, copysign (Dbl.min (Dbl.abs (fin (-cv / dt))) m) (fin (-cv / dt)) = fin r ∧
      (cv + r * dt = 0 ∨ ∃ D, m = fin D ∧ |cv + r * dt| = |cv| - D * dt ∧ 0 < (cv + r * dt) * cv) := by
  have hz : ∀ x : Rat, copysign (fin |x|) (fin x) = fin x := by
    intro x
    simp only [copysign, Dbl.zero_eq, Dbl.lt_fin, decide_eq_true_eq, Dbl.abs_fin, abs_abs, Dbl.neg_fin]
    split
    · rename_i n; rw [abs_of_neg n, neg_neg]
    · rename_i n; rw [abs_of_nonneg (not_lt.1 n)]
  rw [Dbl.abs_fin]
  unfold Dbl.min
  rcases le_zero_cases hm with rfl | ⟨q, rfl, hq⟩
  · rw [if_neg (by simp [Dbl.lt]), hz]
    exact ⟨_, rfl, Or.inl (by field_simp; ring)⟩
  · simp only [Dbl.lt_fin, decide_eq_true_eq]
    split
    · rename_i o
      rw [abs_div, abs_neg, abs_of_pos hdt, lt_div_iff₀ hdt] at o
      simp only [copysign, Dbl.zero_eq, Dbl.lt_fin, decide_eq_true_eq, Dbl.abs_fin, abs_of_nonneg hq, Dbl.neg_fin]
      have hqd : 0 ≤ q * dt := mul_nonneg hq hdt.le
      split
      · rename_i n
        have hc : 0 < cv := by
          by_contra h
          exact absurd n (not_lt.2 (div_nonneg (by linarith) hdt.le))
        rw [abs_of_pos hc] at o ⊢
        have : 0 < cv + -q * dt := by linarith
        exact ⟨_, rfl, Or.inr ⟨q, rfl, by rw [abs_of_pos this]; ring, mul_pos this hc⟩⟩
      · rename_i n
        have hc : cv ≤ 0 := by
          by_contra h
          exact n (div_neg_of_neg_of_pos (by linarith) hdt)
        have hc' : cv < 0 := by
          rcases hc.lt_or_eq with h | h
          · exact h
          · rw [h, abs_zero] at o; linarith
        rw [abs_of_neg hc'] at o ⊢
        have : cv + q * dt < 0 := by linarith
        exact ⟨_, rfl, Or.inr ⟨q, rfl, by rw [abs_of_neg this]; ring, mul_pos_of_neg_of_neg this hc'⟩⟩
    · rw [hz]
      exact ⟨_, rfl, Or.inl (by field_simp; ring)⟩

theorem brakeAcc_fin {l : Limits} {cv dt : Rat} (hdt : 0 < dt) (hs : Sane l) :
    ∃ r : Rat, brakeAcc l (fin cv) (fin dt) = fin r ∧ Brakes l cv dt (cv + r * dt) := by
  unfold brakeAcc
  extract_lets a
  have ha : a = fin (-cv / dt) := by simp only [a, Dbl.neg_fin]; exact Dbl.div_fin _ _ hdt.ne'
  rw [ha]
  by_cases g : l.hasDec = true
  · rw [if_pos g]
    obtain ⟨r, hr, h⟩ := brake_clip (cv := cv) hdt (hs.dec g)
    refine ⟨r, hr, h.imp id ?_⟩
    rintro ⟨D, hD, h⟩
    exact ⟨D, Or.inl ⟨g, hD⟩, h⟩
  · rw [if_neg g]
    by_cases g' : l.hasAcc = true
    · rw [if_pos g']
      obtain ⟨r, hr, h⟩ := brake_clip (cv := cv) hdt (hs.acc g')
      refine ⟨r, hr, h.imp id ?_⟩
      rintro ⟨D, hD, h⟩
      exact ⟨D, Or.inr ⟨by simpa using g, g', hD⟩, h⟩
    · rw [if_neg g']
      exact ⟨_, rfl, Or.inl (by field_simp; ring)⟩

theorem Brakes.abs_le {l : Limits} {cv dt v : Rat} (h : Brakes l cv dt v) (hs : Sane l) (hdt : 0 < dt) : |v| ≤ |cv| := by
  rcases h with rfl | ⟨D, hD, h, -⟩
  · simp
  · have : 0 ≤ D := by
      rcases hD with ⟨a, b⟩ | ⟨-, a, b⟩
      · have := hs.dec a; rw [b] at this; simpa [Dbl.zero_eq] using this
      · have := hs.acc a; rw [b] at this; simpa [Dbl.zero_eq] using this
    rw [h]
    have := mul_nonneg this hdt.le
    linarith

/-- What is known of joint `i`: numbers, not NaN or infinities, in the current state and in the command. A vector of the wrong
length counts as zeros. -/
structure Finite (n : Nat) (cur des : Point) (i : Nat) (cp cv : Rat) : Prop where
  cp : cur.pos[i]? = some (fin cp)
  cv : if cur.vel.length = n then cur.vel[i]? = some (fin cv) else cv = 0
  p : des.pos.length = n → ∃ q, des.pos[i]? = some (fin q)
  v : des.vel.length = n → ∃ q, des.vel[i]? = some (fin q)

/-- The current position lies in the position range. -/
def Inside (l : Limits) (cp : Rat) : Prop :=
  l.hasPos = true → Dbl.le l.minPos (fin cp) = true ∧ Dbl.le (fin cp) l.maxPos = true

theorem jointAt_fin {lims : List Limits} {cur des : Point} {i : Nat} {l : Limits} {cp cv : Rat}
    (h : Finite lims.length cur des i cp cv) :
    ∃ p v : Rat, (jointAt lims cur des i l).cp = fin cp ∧ (jointAt lims cur des i l).cv = fin cv ∧
      (jointAt lims cur des i l).p = fin p ∧ (jointAt lims cur des i l).v = fin v ∧
      (des.pos.length = lims.length → des.pos[i]? = some (fin p)) ∧
      (des.vel.length = lims.length → des.vel[i]? = some (fin v)) ∧
      (des.pos.length ≠ lims.length → p = 0) ∧ (des.vel.length ≠ lims.length → v = 0) := by
  have hcv : (jointAt lims cur des i l).cv = fin cv := by
    have := h.cv
    simp only [jointAt, orZeros, at0]
    split
    · rename_i g; rw [if_pos g] at this; rw [this]; rfl
    · rename_i g; rw [if_neg g] at this; rw [this]; rfl
  have hp : ∃ p : Rat, (jointAt lims cur des i l).p = fin p ∧ (des.pos.length = lims.length → des.pos[i]? = some (fin p)) ∧
      (des.pos.length ≠ lims.length → p = 0) := by
    by_cases g : des.pos.length = lims.length
    · obtain ⟨q, hq⟩ := h.p g
      exact ⟨q, by simp only [jointAt, orZeros, at0, if_pos g, hq]; rfl, fun _ => hq, fun n => absurd g n⟩
    · exact ⟨0, by simp only [jointAt, orZeros, if_neg g]; rfl, fun n => absurd n g, fun _ => rfl⟩
  have hv : ∃ v : Rat, (jointAt lims cur des i l).v = fin v ∧ (des.vel.length = lims.length → des.vel[i]? = some (fin v)) ∧
      (des.vel.length ≠ lims.length → v = 0) := by
    by_cases g : des.vel.length = lims.length
    · obtain ⟨q, hq⟩ := h.v g
      exact ⟨q, by simp only [jointAt, orZeros, at0, if_pos g, hq]; rfl, fun _ => hq, fun n => absurd g n⟩
    · exact ⟨0, by simp only [jointAt, orZeros, if_neg g]; rfl, fun n => absurd n g, fun _ => rfl⟩
  obtain ⟨p, p1, p2, p3⟩ := hp
  obtain ⟨v, v1, v2, v3⟩ := hv
  exact ⟨p, v, by simp only [jointAt, at0, h.cp]; rfl, hcv, p1, v1, p2, v2, p3, v3⟩

/-- Velocities stay within the velocity limit if no accelerations are commanded and the joint is neither faster than its velocity
limit nor outside its position range. -/
theorem C50_velocity_partial {lims : List Limits} {cur des : Point} {dt : Rat} (hu : Usable lims.length cur des dt)
    (hv : des.vel.length = lims.length) (hna : des.acc.length ≠ lims.length)
    {i : Nat} {l : Limits} (hl : lims[i]? = some l) (hs : Sane l) {cp cv M : Rat}
    (hf : Finite lims.length cur des i cp cv) (hi : Inside l cp)
    (h : l.hasVel = true) (hM : l.maxVel = fin M) (hc : |cv| ≤ M) :
    ∃ v : Rat, (enforce lims cur des dt).1.vel[i]? = some (fin v) ∧ |v| ≤ M := by
  have hM0 : 0 ≤ M := le_trans (abs_nonneg _) hc
  obtain ⟨p, v, j1, j2, j3, j4, -⟩ := jointAt_fin (l := l) hf
  rw [enforce_usable hu]
  dsimp only
  rw [if_pos hv, List.getElem?_map, final_of hl]
  simp only [Option.map_some, Option.some.injEq]
  split
  · obtain ⟨r, hr, hb⟩ := brakeAcc_fin (cv := cv) hu.1 hs
    refine ⟨cv + r * dt, ?_, (hb.abs_le hs hu.1).trans hc⟩
    simp only [brake, perJoint_l, perJoint_cv, j2, hv, beq_self_eq_true, if_true]
    rw [jointAt_l, hr, Dbl.mul_fin, Dbl.add_fin]
  · unfold perJoint
    obtain ⟨p1, v1, hp1, hv1⟩ := posStage_fin (hp := des.pos.length == lims.length) hu.1 j1 j3 j4
      (fun g => (hi g).1) (fun g => (hi g).2)
    obtain ⟨v2, hv2, hb2, ha2⟩ := velStage_fin (hp := des.pos.length == lims.length) (cp := cp) (cv := cv) hu.1
      (by rw [posStage_cp]; exact j1) hp1 hv1 (by rw [posStage_cv]; exact j2)
      (by rw [posStage_a]; simp [jointAt, orZeros, hna]) (by simpa using h) (by simpa using hM) hM0
    obtain ⟨v3, hv3, hb3⟩ := accStage_vel (hp := des.pos.length == lims.length) (cv := cv) hu.1
      (by simpa using hs) hv2 (by simpa using j2) hb2 hc ha2
    exact aheadStage_vel hu.1 (by simpa using j1) hv3 hb3 (by simpa using fun g => (hi g).1)
      (by simpa using fun g => (hi g).2)

/-! ### Stopping before the position limits -/

/-- From velocity `v` the joint can still stop before its position limits with deceleration `D`; in the positive direction twice the
stopping distance is kept free. -/
def CanStop (lo hi D cp v : Rat) : Prop :=
  (v < 0 → v ^ 2 ≤ 2 * D * (cp - lo)) ∧ (0 < v → v ^ 2 ≤ D * (hi - cp))

theorem canStop_of {dt : Dbl} {j : Joint} {lo hi D cp v : Rat} (hp : j.l.hasPos = true) (hb : BrakeLimit j.l D) (hD : 0 < D)
    (hlo : j.l.minPos = fin lo) (hhi : j.l.maxPos = fin hi) (hc : j.cp = fin cp) (hv : j.v = fin v)
    (h : mustBrake dt j = false) : CanStop lo hi D cp v := by
  have hs : stopDec j.l j.v dt = fin D := by
    unfold stopDec
    rcases hb with ⟨a, b⟩ | ⟨a, b, c⟩
    · rw [if_pos a, b]
    · rw [if_neg (by simp [a]), if_pos b, c]
  unfold mustBrake at h
  rw [hs, hp, hv, hc] at h
  simp only [Bool.true_and, Bool.or_eq_false_iff] at h
  obtain ⟨h1, h2⟩ := h
  have e1 : (-(fin v) * fin v / (fin 2 * fin D) : Dbl) = fin (-v * v / (2 * D)) := by
    rw [Dbl.neg_fin, Dbl.mul_fin, Dbl.mul_fin, Dbl.div_fin _ _ (by positivity)]
  have e2 : (fin v * Dbl.abs (fin v / fin D) : Dbl) = fin (v * |v / D|) := by
    rw [Dbl.div_fin _ _ hD.ne', Dbl.abs_fin, Dbl.mul_fin]
  unfold tooClose at h1 h2
  rw [e1, hlo, hhi] at h1
  rw [e2, hlo, hhi] at h2
  simp only [Dbl.zero_eq, Dbl.abs_fin, Dbl.lt_fin, Dbl.sub_fin, Bool.or_eq_false_iff, Bool.and_eq_false_imp, decide_eq_true_eq,
    decide_eq_false_iff_not, not_lt] at h1 h2
  constructor
  · intro n
    have := h1.1 n
    have e : |-v * v / (2 * D)| = v ^ 2 / (2 * D) := by
      rw [abs_div, abs_of_pos (show (0 : Rat) < 2 * D by positivity), neg_mul, abs_neg, abs_mul_self]; ring
    rw [e, div_le_iff₀ (by positivity)] at this
    linarith
  · intro n
    have := h2.2 n
    rw [abs_of_pos (div_pos n hD), mul_div_assoc', div_le_iff₀ hD] at this
    nlinarith

/-- Either every joint brakes as hard as it may, or every joint with a position range and a deceleration or acceleration limit
can still stop inside the range from the commanded velocity. -/
theorem C50_stops_in_time {lims : List Limits} {cur des : Point} {dt : Rat} (hu : Usable lims.length cur des dt)
    (hv : des.vel.length = lims.length) :
    (∀ (i : Nat) (l : Limits) (cp cv : Rat), lims[i]? = some l → Sane l → Finite lims.length cur des i cp cv →
      ∃ v, (enforce lims cur des dt).1.vel[i]? = some (fin v) ∧ Brakes l cv dt v) ∨
    (∀ (i : Nat) (l : Limits) (cp lo hi D v : Rat), lims[i]? = some l → cur.pos[i]? = some (fin cp) → l.hasPos = true → l.minPos = fin lo →
      l.maxPos = fin hi → BrakeLimit l D → 0 < D → (enforce lims cur des dt).1.vel[i]? = some (fin v) →
      CanStop lo hi D cp v) := by
  rw [enforce_usable hu]
  dsimp only
  rw [if_pos hv]
  by_cases g : braking lims cur des (fin dt) = true
  · left
    intro i l cp cv hl hs hf
    rw [List.getElem?_map, final_of hl, if_pos g]
    obtain ⟨p, v, j1, j2, -⟩ := jointAt_fin (l := l) hf
    obtain ⟨r, hr, hb⟩ := brakeAcc_fin (cv := cv) hu.1 hs
    refine ⟨cv + r * dt, ?_, hb⟩
    simp only [Option.map_some, brake, perJoint_l, perJoint_cv, j2, hv, beq_self_eq_true, if_true]
    rw [jointAt_l, hr, Dbl.mul_fin, Dbl.add_fin]
  · right
    intro i l cp lo hi D v hl hc hp hlo hhi hb hD ho
    rw [List.getElem?_map, final_of hl, if_neg g] at ho
    simp only [Option.map_some, Option.some.injEq] at ho
    refine canStop_of (j := perJoint (des.pos.length == lims.length) (des.vel.length == lims.length) (fin dt)
      (jointAt lims cur des i l)) (dt := fin dt) (by simpa using hp) (by simpa using hb) hD (by simpa using hlo)
      (by simpa using hhi) (by simp [jointAt, at0, hc]) ho ?_
    have g' : braking lims cur des (fin dt) = false := by simpa using g
    unfold braking at g'
    rw [List.any_eq_false] at g'
    have hm := List.mem_of_getElem? (l := afterLoop lims cur des (fin dt)) (i := i) (by rw [afterLoop_get, hl]; rfl)
    simpa using g' _ hm

/-! ### Position commands -/

theorem posOnly {dt : Rat} {j : Joint} {cp p : Rat} (hdt : 0 < dt) (ha : j.l.hasAcc = false) (hd : j.l.hasDec = false)
    (hs : Sane j.l) (h1 : j.cp = fin cp) (h2 : j.p = fin p) (h3 : j.v = fin 0) (hi : Inside j.l cp)
    (hr : j.l.hasPos = true → Dbl.le j.l.minPos j.l.maxPos = true) :
    ∃ q : Rat, (perJoint true false (fin dt) j).p = fin q ∧ Inside j.l q ∧
      (j.l.hasVel = true → ∀ M, j.l.maxVel = fin M → |q - cp| ≤ M * dt) ∧
      ((perJoint true false (fin dt) j).v = fin 0 ∨ (perJoint true false (fin dt) j).v = fin ((q - cp) / dt)) := by
  -- position stage
  have hp1 : ∃ q v : Rat, (posStage true (fin dt) j).p = fin q ∧ Inside j.l q ∧ (posStage true (fin dt) j).v = fin v ∧
      (v = 0 ∨ v = (q - cp) / dt) := by
    unfold posStage
    rw [if_pos rfl]
    extract_lets c hit p1 d v1
    have hq : ∃ q, p1 = fin q ∧ Inside j.l q := by
      by_cases g : j.l.hasPos = true
      · have hw := Dbl.clamp_within (v := j.p) (by rw [h2]; rfl) (hr g)
        have hpc : p1 = c := by
          simp only [p1]
          split
          · rfl
          · rename_i n
            simp only [hit, g, Bool.true_and, differ, Bool.or_eq_true, not_or, bne_iff_ne, ne_eq, not_not] at n
            exact n.2.symm
        have hfin : ∃ q, c = fin q := by
          have b := hi g
          simp only [c, h2]
          unfold Dbl.clamp
          split
          · rename_i g'
            cases e : j.l.minPos <;> simp_all [Dbl.lt, Dbl.le]
          · split
            · rename_i g'
              cases e : j.l.maxPos <;> simp_all [Dbl.lt, Dbl.le]
            · exact ⟨_, rfl⟩
        obtain ⟨q, hq⟩ := hfin
        refine ⟨q, by rw [hpc, hq], fun _ => ?_⟩
        rw [← hq]; exact hw
      · have : p1 = fin p := by
          simp only [p1, hit, g, Bool.false_and, Bool.false_eq_true, if_false]; exact h2
        exact ⟨p, this, fun n => absurd n g⟩
    obtain ⟨q, hq, hqi⟩ := hq
    dsimp only
    refine ⟨q, ?_⟩
    simp only [v1, d, hq, h1, h3, Dbl.sub_fin]
    split
    · exact ⟨_, trivial, hqi, Dbl.div_fin _ _ hdt.ne', Or.inr rfl⟩
    · exact ⟨_, trivial, hqi, rfl, Or.inl rfl⟩
  obtain ⟨q, v, e1, e2, e3, e4⟩ := hp1
  unfold perJoint
  have hacc : ∀ k : Joint, k.l = j.l → aheadStage true false (fin dt) (accStage true (fin dt) k) = k := by
    intro k hk
    have : accStage true (fin dt) k = k := by
      unfold accStage; rw [if_neg (by rw [hk, ha, hd]; simp)]
    rw [this]; unfold aheadStage; simp
  rw [hacc _ (by simp)]
  generalize hj : posStage true (fin dt) j = k at *
  have kl : k.l = j.l := by rw [← hj]; simp
  have kcp : k.cp = fin cp := by rw [← hj]; simpa using h1
  unfold velStage
  by_cases g : k.l.hasVel = true
  · rw [if_pos g]
    extract_lets w u
    have hw : w = fin ((q - cp) / dt) := by
      simp only [w, e1, kcp, Dbl.sub_fin, Dbl.div_fin _ _ hdt.ne']
      split
      · rfl
      · rename_i n
        rcases e4 with rfl | rfl
        · rw [e3] at n; exact absurd (by decide +kernel) n
        · exact e3
    split
    · rename_i o
      have hM0 := hs.vel (by rw [← kl]; exact g)
      rw [kl] at o
      rcases le_zero_cases hM0 with hM | ⟨M, hM, hM0⟩
      · rw [hM, hw] at o; simp [Dbl.lt] at o
      · rw [hM, hw] at o
        simp only [Dbl.abs_fin, Dbl.lt_fin, decide_eq_true_eq] at o
        rw [abs_div, abs_of_pos hdt, lt_div_iff₀ hdt] at o
        have hu : ∃ r : Rat, u = fin r ∧ |r| = M ∧ ((0 ≤ r ∧ r * dt ≤ q - cp) ∨ (r ≤ 0 ∧ q - cp ≤ r * dt)) := by
          simp only [u, copysign, kl, hM, hw, Dbl.zero_eq, Dbl.lt_fin, decide_eq_true_eq, Dbl.abs_fin, abs_of_nonneg hM0, Dbl.neg_fin]
          split
          · rename_i n
            have n' : q - cp < 0 := by
              by_contra c; exact absurd n (not_lt.2 (div_nonneg (not_lt.1 c) hdt.le))
            rw [abs_of_neg n'] at o
            exact ⟨_, rfl, by rw [abs_neg, abs_of_nonneg hM0], Or.inr ⟨by linarith, by linarith⟩⟩
          · rename_i n
            have n' : 0 ≤ q - cp := by
              by_contra c; exact n (div_neg_of_neg_of_pos (not_le.1 c) hdt)
            rw [abs_of_nonneg n'] at o
            exact ⟨_, rfl, abs_of_nonneg hM0, Or.inl ⟨hM0, by linarith⟩⟩
        obtain ⟨r, hr1, hr2, hr3⟩ := hu
        refine ⟨cp + r * dt, ?_, ?_, ?_, ?_⟩
        · dsimp only; rw [if_pos rfl, hr1, kcp, Dbl.mul_fin, Dbl.add_fin]
        · intro hp
          have a := hi hp
          have b := e2 hp
          rcases hr3 with ⟨x, y⟩ | ⟨x, y⟩
          · have z : 0 ≤ r * dt := mul_nonneg x hdt.le
            exact ⟨Dbl.le_trans a.1 (by simpa using z), Dbl.le_trans (by simp; linarith) b.2⟩
          · have z : r * dt ≤ 0 := mul_nonpos_of_nonpos_of_nonneg x hdt.le
            exact ⟨Dbl.le_trans b.1 (by simp; linarith), Dbl.le_trans (by simpa using z) a.2⟩
        · intro _ N hN
          have : N = M := by rw [hM] at hN; injection hN with e; exact e.symm
          rw [this, add_sub_cancel_left, abs_mul, hr2, abs_of_pos hdt]
        · right; dsimp only; rw [hr1]; congr 1; field_simp; ring
    · rename_i o
      refine ⟨q, e1, e2, ?_, Or.inr hw⟩
      intro _ M hM
      rw [kl, hM, hw] at o
      simp only [Dbl.abs_fin, Dbl.lt_fin, decide_eq_true_eq, not_lt] at o
      rwa [abs_div, abs_of_pos hdt, div_le_iff₀ hdt] at o
  · rw [if_neg g]
    refine ⟨q, e1, e2, fun n => absurd n (by rw [← kl]; exact g), ?_⟩
    rcases e4 with rfl | rfl
    · exact Or.inl e3
    · exact Or.inr e3

theorem noBrake {dt : Rat} {j : Joint} {cp q : Rat} (hdt : 0 < dt) (ha : j.l.hasAcc = false) (hd : j.l.hasDec = false)
    (h1 : j.cp = fin cp) (hi : Inside j.l cp) (hq : Inside j.l q) (hv : j.v = fin 0 ∨ j.v = fin ((q - cp) / dt)) :
    mustBrake (fin dt) j = false := by
  unfold mustBrake
  by_cases g : j.l.hasPos = true
  swap
  · simp [g]
  have hi := hi g
  have hq := hq g
  simp only [g, Bool.true_and]
  have hs : stopDec j.l j.v (fin dt) = Dbl.abs (j.v / fin dt) := by unfold stopDec; simp [ha, hd]
  rw [hs, h1]
  have room1 : ∀ d : Rat, d ≤ cp - q ∨ d ≤ 0 → Dbl.lt (fin cp - j.l.minPos) (fin d) = false := by
    intro d hd
    cases e : j.l.minPos with
    | fin m =>
      rw [e] at hi hq
      simp only [Dbl.le_fin, decide_eq_true_eq] at hi hq
      simp only [Dbl.sub_fin, Dbl.lt_fin, decide_eq_false_iff_not, not_lt]
      rcases hd with h | h <;> linarith [hi.1, hq.1]
    | ninf => rfl
    | nan => rfl
    | pinf => rw [e] at hi; simp [Dbl.le] at hi
  have room2 : ∀ d : Rat, d ≤ q - cp → Dbl.lt (j.l.maxPos - fin cp) (fin d) = false := by
    intro d hd
    cases e : j.l.maxPos with
    | fin m =>
      rw [e] at hi hq
      simp only [Dbl.le_fin, decide_eq_true_eq] at hi hq
      simp only [Dbl.sub_fin, Dbl.lt_fin, decide_eq_false_iff_not, not_lt]
      linarith [hi.2, hq.2]
    | pinf => rfl
    | nan => rfl
    | ninf => rw [e] at hi; simp [Dbl.le] at hi
  rcases hv with hv | hv
  · rw [hv]; simp [tooClose, Dbl.zero_eq]
  · rw [hv]
    generalize hw : (q - cp) / dt = v
    have hv' : q - cp = v * dt := by rw [← hw]; field_simp
    rcases lt_trichotomy v 0 with n | n | n
    · have e1 : (-(fin v) * fin v / (fin 2 * Dbl.abs (fin v / fin dt)) : Dbl) = fin (v * dt / 2) := by
        rw [Dbl.div_fin _ _ hdt.ne', Dbl.abs_fin, Dbl.neg_fin, Dbl.mul_fin, Dbl.mul_fin,
          abs_of_neg (div_neg_of_neg_of_pos n hdt), Dbl.div_fin _ _ (by simp; exact ⟨n.ne, hdt.ne'⟩)]
        congr 1; have := n.ne; have := hdt.ne'; field_simp
      have e2 : (fin v * Dbl.abs (fin v / Dbl.abs (fin v / fin dt)) : Dbl) = fin (v * dt) := by
        rw [Dbl.div_fin _ _ hdt.ne', Dbl.abs_fin, abs_of_neg (div_neg_of_neg_of_pos n hdt),
          Dbl.div_fin _ _ (by have := n.ne; have := hdt.ne'; simp; exact ⟨by assumption, by assumption⟩), Dbl.abs_fin, Dbl.mul_fin]
        have : v / -(v / dt) = -dt := by have := n.ne; have := hdt.ne'; field_simp
        rw [this, abs_neg, abs_of_pos hdt]
      have z : v * dt < 0 := mul_neg_of_neg_of_pos n hdt
      rw [e1, e2]
      unfold tooClose
      have n1 : Dbl.lt 0 (fin v) = false := by simp [Dbl.zero_eq]; linarith
      simp only [n1, Bool.false_and, Bool.or_false, Dbl.abs_fin]
      rw [room1 _ (Or.inl (by rw [abs_of_neg (by linarith)]; linarith)), room1 _ (Or.inr z.le)]
      simp
    · rw [n]; simp [tooClose, Dbl.zero_eq]
    · have e1 : (-(fin v) * fin v / (fin 2 * Dbl.abs (fin v / fin dt)) : Dbl) = fin (-(v * dt / 2)) := by
        rw [Dbl.div_fin _ _ hdt.ne', Dbl.abs_fin, Dbl.neg_fin, Dbl.mul_fin, Dbl.mul_fin,
          abs_of_pos (div_pos n hdt), Dbl.div_fin _ _ (by positivity)]
        congr 1; have := n.ne'; have := hdt.ne'; field_simp
      have e2 : (fin v * Dbl.abs (fin v / Dbl.abs (fin v / fin dt)) : Dbl) = fin (v * dt) := by
        rw [Dbl.div_fin _ _ hdt.ne', Dbl.abs_fin, abs_of_pos (div_pos n hdt),
          Dbl.div_fin _ _ (by positivity), Dbl.abs_fin, Dbl.mul_fin]
        have : v / (v / dt) = dt := by have := n.ne'; have := hdt.ne'; field_simp
        rw [this, abs_of_pos hdt]
      have z : 0 < v * dt := mul_pos n hdt
      rw [e1, e2]
      unfold tooClose
      have n1 : Dbl.lt (fin v) 0 = false := by simp [Dbl.zero_eq]; linarith
      simp only [n1, Bool.false_and, Bool.false_or, Dbl.abs_fin]
      rw [room2 _ (by rw [abs_neg, abs_of_pos (by linarith)]; linarith), room2 _ (by linarith)]
      simp

/-- If only positions are commanded and no joint has acceleration or deceleration limits, every commanded position lies in the
joint's position range and is at most `max_velocity * dt` away from the current position, and so is the result for every joint. -/
theorem C50_position_partial {lims : List Limits} {cur des : Point} {dt : Rat} (hu : Usable lims.length cur des dt)
    (hp : des.pos.length = lims.length) (hnv : des.vel.length ≠ lims.length)
    (hall : ∀ (i : Nat) (l : Limits), lims[i]? = some l → l.hasAcc = false ∧ l.hasDec = false ∧ Sane l ∧
      (l.hasPos = true → Dbl.le l.minPos l.maxPos = true) ∧
      ∃ cp cv, Finite lims.length cur des i cp cv ∧ Inside l cp)
    {i : Nat} {l : Limits} (hl : lims[i]? = some l) {cp : Rat} (hcp : cur.pos[i]? = some (fin cp)) :
    ∃ q : Rat, (enforce lims cur des dt).1.pos[i]? = some (fin q) ∧ Inside l q ∧
      (l.hasVel = true → ∀ M, l.maxVel = fin M → |q - cp| ≤ M * dt) := by
  have hjoint : ∀ (i : Nat) (l : Limits), lims[i]? = some l → ∃ cp q : Rat, cur.pos[i]? = some (fin cp) ∧ Inside l cp ∧
      (perJoint (des.pos.length == lims.length) (des.vel.length == lims.length) (fin dt) (jointAt lims cur des i l)).p = fin q ∧
      Inside l q ∧ (l.hasVel = true → ∀ M, l.maxVel = fin M → |q - cp| ≤ M * dt) ∧
      ((perJoint (des.pos.length == lims.length) (des.vel.length == lims.length) (fin dt) (jointAt lims cur des i l)).v = fin 0 ∨
        (perJoint (des.pos.length == lims.length) (des.vel.length == lims.length) (fin dt) (jointAt lims cur des i l)).v =
          fin ((q - cp) / dt)) := by
    intro i l hl
    obtain ⟨a, d, hs, hr, cp, cv, hf, hi⟩ := hall i l hl
    obtain ⟨p, v, j1, j2, j3, j4, -, -, -, j5⟩ := jointAt_fin (l := l) hf
    have e1 : (des.pos.length == lims.length) = true := by simpa using hp
    have e2 : (des.vel.length == lims.length) = false := by simpa using hnv
    rw [j5 hnv] at j4
    rw [e1, e2]
    obtain ⟨q, h1, h2, h3, h4⟩ := posOnly (j := jointAt lims cur des i l) hu.1 a d hs j1 j3 j4 hi hr
    exact ⟨cp, q, hf.cp, hi, h1, h2, h3, h4⟩
  have hnb : braking lims cur des (fin dt) = false := by
    unfold braking
    rw [List.any_eq_false]
    intro j hj
    obtain ⟨k, hk⟩ := List.mem_iff_getElem?.1 hj
    rw [afterLoop_get] at hk
    rcases hlk : lims[k]? with _ | l'
    · rw [hlk] at hk; cases hk
    · rw [hlk] at hk
      simp only [Option.map_some, Option.some.injEq] at hk
      subst hk
      obtain ⟨cp, q, h1, h2, h3, h4, -, h5⟩ := hjoint k l' hlk
      obtain ⟨a, d, -⟩ := hall k l' hlk
      rw [noBrake (cp := cp) (q := q) hu.1 (by simpa using a) (by simpa using d) (by simp [jointAt, at0, h1]) (by simpa using h2)
        (by simpa using h4) h5]
      decide
  obtain ⟨cp', q, h1, h2, h3, h4, h5, -⟩ := hjoint i l hl
  have : cp' = cp := by rw [hcp] at h1; injection h1 with e; injection e with e; exact e.symm
  subst this
  refine ⟨q, ?_, h4, h5⟩
  rw [enforce_usable hu]
  dsimp only
  rw [if_pos hp, List.getElem?_map, final_of hl, if_neg (by simp [hnb]), Option.map_some, h3]

/-! ### The returned value -/

theorem stages_quiet {hp hv : Bool} {dt : Dbl} {j : Joint} (h : (perJoint hp hv dt j).limited = false) :
    (perJoint hp hv dt j).p = j.p ∧ ((perJoint hp hv dt j).v = j.v ∨ isTiny j.v = true ∨ j.v.isNan = true) ∧
      ((perJoint hp hv dt j).a = j.a ∨ isTiny j.a = true ∨ j.a.isNan = true) := by
  unfold perJoint at h ⊢
  -- position stage
  have hpos : ∀ k : Joint, (posStage hp dt k).limited = false → k.limited = false ∧ (posStage hp dt k).p = k.p ∧
      ((posStage hp dt k).v = k.v ∨ isTiny k.v = true) ∧ (posStage hp dt k).a = k.a := by
    intro k h
    unfold posStage at h ⊢
    split at h
    · rename_i g
      rw [if_pos g]
      extract_lets c hit p d v at h ⊢
      simp only [Bool.or_eq_false_iff] at h
      have hpp : p = k.p := by simp only [p]; rw [if_neg (by rw [h.2]; decide)]
      refine ⟨h.1, hpp, ?_, rfl⟩
      simp only [v]; split
      · rename_i g; simp only [Bool.and_eq_true] at g; exact Or.inr g.2
      · exact Or.inl rfl
    · rename_i g
      rw [if_neg g]; exact ⟨h, rfl, Or.inl rfl, rfl⟩
  have hvel : ∀ k : Joint, (velStage hp dt k).limited = false → k.limited = false ∧ (velStage hp dt k).p = k.p ∧
      ((velStage hp dt k).v = k.v ∨ isTiny k.v = true ∨ k.v.isNan = true) ∧ (velStage hp dt k).a = k.a := by
    intro k h
    unfold velStage at h ⊢
    split at h
    · rename_i g
      rw [if_pos g]
      extract_lets v w at h ⊢
      split at h
      · cases h
      · rename_i g'
        rw [if_neg g']
        refine ⟨h, rfl, ?_, rfl⟩
        simp only [v]; split
        · rename_i g; simp only [Bool.or_eq_true] at g; exact Or.inr g
        · exact Or.inl rfl
    · rename_i g
      rw [if_neg g]; exact ⟨h, rfl, Or.inl rfl, rfl⟩
  have hacc : ∀ k : Joint, (accStage hp dt k).limited = false → k.limited = false ∧ (accStage hp dt k).p = k.p ∧
      (accStage hp dt k).v = k.v ∧ ((accStage hp dt k).a = k.a ∨ isTiny k.a = true ∨ k.a.isNan = true) := by
    intro k h
    unfold accStage at h ⊢
    split at h
    · rename_i g
      rw [if_pos g]
      extract_lets a at h ⊢
      have ha : a = k.a ∨ isTiny k.a = true ∨ k.a.isNan = true := by
        simp only [a]; split
        · rename_i g; simp only [Bool.or_eq_true] at g; exact Or.inr g
        · exact Or.inl rfl
      clear_value a
      rcases hm : accBound k.l k.cv a with _ | m
      · rw [hm] at h; exact ⟨h, rfl, rfl, ha⟩
      · rw [hm] at h
        dsimp only at h ⊢
        split at h
        · cases h
        · rename_i g'
          rw [if_neg g']; exact ⟨h, rfl, rfl, ha⟩
    · rename_i g
      rw [if_neg g]; exact ⟨h, rfl, rfl, Or.inl rfl⟩
  have hahead : ∀ k : Joint, (aheadStage hp hv dt k).limited = false → aheadStage hp hv dt k = k := by
    intro k h
    unfold aheadStage at h ⊢
    split at h
    · rename_i g
      rw [if_pos g]
      extract_lets e c at h ⊢
      split at h
      · cases h
      · rename_i g'
        rw [if_neg g']
    · rename_i g
      rw [if_neg g]
  have e1 := hahead _ h
  rw [e1] at h ⊢
  obtain ⟨h, a1, a2, a3⟩ := hacc _ h
  obtain ⟨h, b1, b2, b3⟩ := hvel _ h
  obtain ⟨h, c1, c2, c3⟩ := hpos _ h
  refine ⟨by rw [a1, b1, c1], ?_, ?_⟩
  · rw [a2]
    rcases c2 with c | c
    · rw [c] at b2; exact b2
    · exact Or.inr (Or.inl c)
  · rw [b3, c3] at a3; exact a3

/-- If `false` is returned, no position was changed, and velocities and accelerations only where the command was zero (up to 1e-10)
or not a number. -/
theorem C50_false_unchanged_partial {lims : List Limits} {cur des : Point} {dt : Rat}
    (h : (enforce lims cur des dt).2 = false) :
    let out := (enforce lims cur des dt).1
    out.pos = des.pos ∧
      (∀ (i : Nat) (v : Dbl), des.vel[i]? = some v → out.vel[i]? = some v ∨ isTiny v = true ∨ v.isNan = true) ∧
      (∀ (i : Nat) (a : Dbl), des.acc[i]? = some a → out.acc[i]? = some a ∨ isTiny a = true ∨ a.isNan = true) := by
  intro out
  by_cases hu : Usable lims.length cur des dt
  swap
  · simp only [out, C50_unusable lims cur des dt hu]
    exact ⟨trivial, fun _ _ h => Or.inl h, fun _ _ h => Or.inl h⟩
  rw [enforce_usable hu] at h
  simp only [Bool.or_eq_false_iff] at h
  obtain ⟨h1, h2⟩ := h
  rw [List.any_eq_false] at h1
  have key : ∀ (i : Nat) (l : Limits), lims[i]? = some l →
      ∃ j : Joint, (finalJoints lims cur des (fin dt))[i]? = some j ∧ j.p = orZeros lims.length des.pos i ∧
        (j.v = orZeros lims.length des.vel i ∨ isTiny (orZeros lims.length des.vel i) = true ∨
          (orZeros lims.length des.vel i).isNan = true) ∧
        (j.a = orZeros lims.length des.acc i ∨ isTiny (orZeros lims.length des.acc i) = true ∨
          (orZeros lims.length des.acc i).isNan = true) := by
    intro i l hl
    have hfin := final_of (cur := cur) (des := des) (dt := fin dt) hl
    rw [if_neg (by simp [h2])] at hfin
    have hlim := h1 _ (List.mem_of_getElem? hfin)
    obtain ⟨a, b, c⟩ := stages_quiet (by simpa using hlim)
    exact ⟨_, hfin, a, b, c⟩
  have some_of : ∀ (xs : List Dbl) (i : Nat) (x : Dbl), xs.length = lims.length → xs[i]? = some x →
      (∃ l, lims[i]? = some l) ∧ orZeros lims.length xs i = x := by
    intro xs i x hx hi
    have hlt : i < lims.length := by
      rw [← hx]; exact (List.getElem?_eq_some_iff.1 hi).1
    exact ⟨⟨_, List.getElem?_eq_getElem hlt⟩, by simp [orZeros, hx, at0, hi]⟩
  simp only [out]
  rw [enforce_usable hu]
  dsimp only
  refine ⟨?_, ?_, ?_⟩
  · split
    · rename_i g
      apply List.ext_getElem?
      intro i
      rw [List.getElem?_map]
      rcases hl : lims[i]? with _ | l
      · have : lims.length ≤ i := List.getElem?_eq_none_iff.1 hl
        rw [List.getElem?_eq_none (by rw [finalJoints_length]; exact this), List.getElem?_eq_none (by rw [g]; exact this)]
        rfl
      · obtain ⟨j, hj, hjp, -⟩ := key i l hl
        have hlt : i < des.pos.length := by rw [g]; exact (List.getElem?_eq_some_iff.1 hl).1
        rw [hj, Option.map_some, hjp, List.getElem?_eq_getElem hlt]
        unfold orZeros at0
        rw [if_pos g, List.getElem?_eq_getElem hlt]; rfl
    · rfl
  · intro i v hv
    split
    · rename_i g
      obtain ⟨⟨l, hl⟩, e⟩ := some_of _ _ _ g hv
      obtain ⟨j, hj, -, hjv, -⟩ := key i l hl
      rw [e] at hjv
      rcases hjv with x | x
      · left; rw [List.getElem?_map, hj, Option.map_some, x]
      · exact Or.inr x
    · exact Or.inl hv
  · intro i v hv
    split
    · rename_i g
      obtain ⟨⟨l, hl⟩, e⟩ := some_of _ _ _ g hv
      obtain ⟨j, hj, -, -, hjv⟩ := key i l hl
      rw [e] at hjv
      rcases hjv with x | x
      · left; rw [List.getElem?_map, hj, Option.map_some, x]
      · exact Or.inr x
    · exact Or.inl hv

/-! ### Concrete cases -/

/-- No limits at all. -/
def free : Limits :=
  { minPos := .nan, maxPos := .nan, maxVel := .nan, maxAcc := .nan, maxDec := .nan, maxJerk := .nan, maxEff := .nan,
    hasPos := false, hasVel := false, hasAcc := false, hasDec := false, hasJerk := false, hasEff := false }

/-- Position range [-1, 1], velocity limit 2. -/
def slow : Limits := { free with hasPos := true, minPos := .fin (-1), maxPos := 1, hasVel := true, maxVel := 2 }

/-- Position range [-1, 1], velocity limit 2, acceleration limit 5, deceleration limit 1. -/
def full : Limits := { slow with hasAcc := true, maxAcc := 5, hasDec := true, maxDec := 1 }

theorem sane_slow : Sane slow := ⟨by decide +kernel, by decide +kernel, by decide +kernel⟩
theorem sane_full : Sane full := ⟨by decide +kernel, by decide +kernel, by decide +kernel⟩

/-- Hypotheses of `C50_acceleration`, with an acceleration that is limited. -/
example : Usable 1 ⟨[0], [0], []⟩ ⟨[], [1], [9]⟩ (1 / 10) ∧ [full][0]? = some full ∧ Sane full ∧ full.hasAcc = true ∧
    (enforce [full] ⟨[0], [0], []⟩ ⟨[], [1], [9]⟩ (1 / 10)).1.acc[0]? = some 5 :=
  ⟨⟨by decide +kernel, rfl, Or.inr rfl⟩, rfl, sane_full, rfl, by decide +kernel⟩

/-- Hypotheses of `C50_deceleration`: slowing down is limited to 1, speeding up to 5. -/
example : Usable 1 ⟨[0], [.fin (1 / 2)], []⟩ ⟨[], [0], [.fin (-9)]⟩ (1 / 10) ∧
    (enforce [full] ⟨[0], [.fin (1 / 2)], []⟩ ⟨[], [0], [.fin (-9)]⟩ (1 / 10)).1.acc[(0 : Nat)]? = some (.fin (-1)) ∧ Opposes (.fin (1 / 2)) (.fin (-1)) :=
  ⟨⟨by decide +kernel, rfl, Or.inr rfl⟩, by decide +kernel, .inl (by decide +kernel)⟩

/-- Hypotheses of `C50_velocity_partial`, with a velocity that is limited. -/
example : Usable 1 ⟨[0], [0], []⟩ ⟨[], [9], []⟩ (1 / 10) ∧ Finite 1 ⟨[0], [0], []⟩ ⟨[], [9], []⟩ 0 0 0 ∧ Inside slow 0 ∧
    (enforce [slow] ⟨[0], [0], []⟩ ⟨[], [9], []⟩ (1 / 10)).1.vel = [2] :=
  ⟨⟨by decide +kernel, rfl, Or.inr rfl⟩, ⟨rfl, by decide, fun h => absurd h (by decide), fun _ => ⟨9, rfl⟩⟩, fun _ => by decide +kernel,
    by decide +kernel⟩

/-- Both alternatives of `C50_stops_in_time` occur: the first joint stops at once, the second slows down by 0.1. -/
example : (enforce [slow, full] ⟨[0, .fin (1 / 2)], [1, 1], []⟩ ⟨[], [1, 1], []⟩ (1 / 10)) = (⟨[], [0, .fin (9 / 10)], []⟩, true) := by
  decide +kernel
example : (enforce [slow, full] ⟨[0, 0], [0, 0], []⟩ ⟨[], [1, .fin (1 / 10)], []⟩ (1 / 10)) =
    (⟨[], [1, .fin (1 / 10)], []⟩, false) := by decide +kernel

/-- Hypotheses of `C50_position_partial`, with a position out of range and one out of reach. -/
example : Usable 2 ⟨[0, .fin (9 / 10)], [], []⟩ ⟨[1, 7], [], []⟩ (1 / 10) ∧
    (∀ (i : Nat) (l : Limits), [slow, slow][i]? = some l → l.hasAcc = false ∧ l.hasDec = false ∧ Sane l ∧
      (l.hasPos = true → Dbl.le l.minPos l.maxPos = true) ∧
      ∃ cp cv, Finite 2 ⟨[0, .fin (9 / 10)], [], []⟩ ⟨[1, 7], [], []⟩ i cp cv ∧ Inside l cp) ∧
    (enforce [slow, slow] ⟨[0, .fin (9 / 10)], [], []⟩ ⟨[1, 7], [], []⟩ (1 / 10)).1.pos = [.fin (1 / 5), 1] := by
  refine ⟨⟨by decide +kernel, rfl, Or.inl rfl⟩, ?_, by decide +kernel⟩
  intro i l h
  match i with
  | 0 =>
    cases h
    exact ⟨rfl, rfl, sane_slow, by decide +kernel, 0, 0, ⟨rfl, rfl, fun _ => ⟨1, rfl⟩, fun h => absurd h (by decide)⟩, fun _ => by decide +kernel⟩
  | 1 =>
    cases h
    exact ⟨rfl, rfl, sane_slow, by decide +kernel, 9 / 10, 0, ⟨rfl, rfl, fun _ => ⟨7, rfl⟩, fun h => absurd h (by decide)⟩,
      fun _ => by decide +kernel⟩
  | n + 2 => cases h

/-- A command inside all limits is not changed, and `false` is returned. -/
example : enforce [full] ⟨[0], [.fin (1 / 10)], []⟩ ⟨[.fin (1 / 100)], [.fin (1 / 10)], []⟩ (1 / 10) =
    (⟨[.fin (1 / 100)], [.fin (1 / 10)], []⟩, false) := by decide +kernel

/-! ### What is false of the code -/

/-- Full statement, first half. -/
def C50_within_limits : Prop :=
  ∀ (lims : List Limits) (cur des : Point) (dt : Rat), Usable lims.length cur des dt →
    (∀ (i : Nat) (l : Limits), lims[i]? = some l → Sane l ∧ ∃ cp cv, Finite lims.length cur des i cp cv ∧ Inside l cp ∧
      (l.hasVel = true → Respects l.maxVel (fin cv))) →
    ∀ (i : Nat) (l : Limits), lims[i]? = some l →
      (des.pos.length = lims.length → ∃ q, (enforce lims cur des dt).1.pos[i]? = some (fin q) ∧ Inside l q) ∧
      (des.vel.length = lims.length → l.hasVel = true →
        ∃ v, (enforce lims cur des dt).1.vel[i]? = some (fin v) ∧ Respects l.maxVel (fin v))

/-- A joint inside its limits (position 0.95 of at most 1, velocity 2) is commanded to its position limit: the limited position is
1.145. -/
theorem C50_position_overshoots :
    (enforce [full] ⟨[.fin (19 / 20)], [2], []⟩ ⟨[1], [], []⟩ (1 / 10)).1.pos = [.fin (229 / 200)] := by decide +kernel

/-- The velocity limit is 2 and the joint moves at 2; with the accelerations of the trajectory given, the limited velocity is 2.5. -/
theorem C50_velocity_exceeds :
    let l := { free with hasVel := true, maxVel := 2, hasAcc := true, maxAcc := 5 }
    (enforce [l] ⟨[0], [2], []⟩ ⟨[], [2], [9]⟩ (1 / 10)).1 = ⟨[], [.fin (5 / 2)], [5]⟩ := by decide +kernel

theorem C50_within_limits_false : ¬ C50_within_limits := by
  intro h
  have := (h [full] ⟨[.fin (19 / 20)], [2], []⟩ ⟨[1], [], []⟩ (1 / 10) ⟨by decide +kernel, rfl, Or.inl rfl⟩ (by
    intro i l hl
    match i with
    | 0 =>
      cases hl
      exact ⟨sane_full, 19 / 20, 2, ⟨rfl, rfl, fun _ => ⟨1, rfl⟩, fun h => absurd h (by decide)⟩, fun _ => by decide +kernel,
        fun _ => by unfold Respects; decide +kernel⟩
    | n + 1 => cases hl) 0 full rfl).1 rfl
  obtain ⟨q, h1, h2⟩ := this
  rw [C50_position_overshoots] at h1
  injection h1 with h1
  injection h1 with h1
  subst h1
  exact absurd (h2 rfl).2 (by decide +kernel)

/-- Full statement, second half. -/
def C50_false_unchanged : Prop :=
  ∀ (lims : List Limits) (cur des : Point) (dt : Rat), (enforce lims cur des dt).2 = false → (enforce lims cur des dt).1 = des

/-- A joint without any limits is commanded to go to position 1 and stand still there: the velocity is replaced by 10, and `false` is
returned. -/
theorem C50_false_but_changed :
    enforce [free] ⟨[0], [0], []⟩ ⟨[1], [0], []⟩ (1 / 10) = (⟨[1], [10], []⟩, false) := by decide +kernel

theorem C50_false_unchanged_false : ¬ C50_false_unchanged := by
  intro h
  have := h [free] ⟨[0], [0], []⟩ ⟨[1], [0], []⟩ (1 / 10) (by rw [C50_false_but_changed])
  rw [C50_false_but_changed] at this
  exact absurd this (by decide +kernel)

/-- A joint at rest at position 1 gets the velocity command 0 (no positions are commanded): it is sent off at its velocity limit,
towards position 0. -/
theorem C50_stop_command_moves :
    let l := { free with hasVel := true, maxVel := 2 }
    enforce [l] ⟨[1], [0], []⟩ ⟨[], [0], []⟩ (1 / 10) = (⟨[], [.fin (-2)], []⟩, true) := by decide +kernel

/-- Two mirrored situations: towards the upper limit the joint brakes, towards the lower limit it goes on. -/
theorem C50_asymmetric :
    let l := { free with hasPos := true, minPos := .fin (-1), maxPos := 1, hasDec := true, maxDec := 1 }
    enforce [l] ⟨[0], [.fin (6 / 5)], []⟩ ⟨[], [.fin (6 / 5)], []⟩ (1 / 10) = (⟨[], [.fin (11 / 10)], []⟩, true) ∧
      enforce [l] ⟨[0], [.fin (-6 / 5)], []⟩ ⟨[], [.fin (-6 / 5)], []⟩ (1 / 10) = (⟨[], [.fin (-6 / 5)], []⟩, false) := by
  decide +kernel

end Verif.Sat
