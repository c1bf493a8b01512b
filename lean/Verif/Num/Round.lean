import Verif.Num.DblLemmas
import Mathlib.Algebra.Order.Round
import Mathlib.Data.Rat.Floor
import Mathlib.Data.Int.Log
import Mathlib.Tactic.FieldSimp
import Mathlib.Tactic.Positivity
import Mathlib.Tactic.NormNum
/-!
# `double` with rounding

Arithmetic on `Dbl` in which the exact result of an operation on finite numbers is rounded, possibly to an infinity. What rounding has to
satisfy is stated in `Rounding`; `binary64` is round-to-nearest-even of IEEE 754 with overflow and subnormal numbers, `exact` is no rounding
at all. Still not modelled: the sign of zero.
-/
namespace Verif
set_option exponentiation.threshold 1100
open Dbl

/-- A rounding: of an exact number to a `double`. -/
structure Rounding where
  rnd : Rat → Dbl
  num : ∀ q, (rnd q).isNan = false
  mono : ∀ a b, a ≤ b → le (rnd a) (rnd b) = true
  zero : rnd 0 = fin 0
  idem : ∀ a q, rnd a = fin q → rnd q = fin q
  neg : ∀ a, rnd (-a) = -rnd a

namespace Rounding

/-- `+`. -/
def add (R : Rounding) : Dbl → Dbl → Dbl
  | fin a, fin b => R.rnd (a + b)
  | a, b => Dbl.add a b

/-- Binary `-`. -/
def sub (R : Rounding) (a b : Dbl) : Dbl := R.add a (-b)

/-- `*`. -/
def mul (R : Rounding) : Dbl → Dbl → Dbl
  | fin a, fin b => R.rnd (a * b)
  | a, b => Dbl.mul a b

/-- `/`. -/
def div (R : Rounding) : Dbl → Dbl → Dbl
  | fin a, fin b => if b = 0 then Dbl.div (fin a) (fin b) else R.rnd (a / b)
  | a, b => Dbl.div a b

/-- A value of the type: a finite number that rounding keeps, or NaN or an infinity. -/
def Rep (R : Rounding) : Dbl → Prop
  | fin q => R.rnd q = fin q
  | _ => True

/-- A decimal number of the source. -/
def lit (R : Rounding) (q : Rat) : Dbl := R.rnd q

theorem rep_rnd (R : Rounding) (q : Rat) : R.Rep (R.rnd q) := by
  cases h : R.rnd q with
  | fin x => exact R.idem q x h
  | _ => trivial

theorem rep_neg {R : Rounding} {a : Dbl} (h : R.Rep a) : R.Rep (-a) := by
  cases a with
  | fin q => show R.rnd (-q) = fin (-q); rw [R.neg, show R.rnd q = fin q from h]; rfl
  | _ => trivial

theorem rep_zero (R : Rounding) : R.Rep 0 := R.zero

theorem rep_add (R : Rounding) (a b : Dbl) : R.Rep (R.add a b) := by
  cases a <;> cases b <;> first | exact R.rep_rnd _ | trivial

theorem rep_sub (R : Rounding) (a b : Dbl) : R.Rep (R.sub a b) := R.rep_add _ _

theorem rep_mul (R : Rounding) (a b : Dbl) : R.Rep (R.mul a b) := by
  have inf : ∀ p : Bool, R.Rep (infOf p) := by intro p; cases p <;> trivial
  cases a <;> cases b <;> simp only [mul, Dbl.mul] <;> first | exact R.rep_rnd _ | trivial | (split <;> first | trivial | exact inf _)

theorem rep_div (R : Rounding) (a b : Dbl) : R.Rep (R.div a b) := by
  have inf : ∀ p : Bool, R.Rep (infOf p) := by intro p; cases p <;> trivial
  cases a <;> cases b <;> simp only [div, Dbl.div] <;>
    first | trivial | exact inf _ | exact R.zero | (split <;> first | (split <;> first | trivial | exact inf _) | exact R.rep_rnd _)

@[simp] theorem add_fin (R : Rounding) (a b : Rat) : R.add (fin a) (fin b) = R.rnd (a + b) := rfl
@[simp] theorem mul_fin (R : Rounding) (a b : Rat) : R.mul (fin a) (fin b) = R.rnd (a * b) := rfl
@[simp] theorem sub_fin (R : Rounding) (a b : Rat) : R.sub (fin a) (fin b) = R.rnd (a - b) := by
  show R.add (fin a) (fin (-b)) = _
  rw [add_fin, sub_eq_add_neg]
theorem div_fin (R : Rounding) (a b : Rat) (h : b ≠ 0) : R.div (fin a) (fin b) = R.rnd (a / b) := by simp [div, h]

/-- Rounding keeps a number below a value of the type. -/
theorem rnd_le {R : Rounding} {a : Rat} {b : Dbl} (hb : R.Rep b) (h : le (fin a) b = true) : le (R.rnd a) b = true := by
  cases b with
  | nan => simp at h
  | ninf => exact absurd h (by simp [le])
  | pinf =>
    have := R.num a
    cases hr : R.rnd a <;> simp_all [le]
  | fin q =>
    rw [← show R.rnd q = fin q from hb]
    exact R.mono _ _ (by simpa using h)

theorem le_rnd {R : Rounding} {a : Rat} {b : Dbl} (hb : R.Rep b) (h : le b (fin a) = true) : le b (R.rnd a) = true := by
  cases b with
  | nan => simp at h
  | pinf => exact absurd h (by simp [le])
  | ninf =>
    have := R.num a
    cases hr : R.rnd a <;> simp_all [le]
  | fin q =>
    rw [← show R.rnd q = fin q from hb]
    exact R.mono _ _ (by simpa using h)

theorem rnd_nonneg {R : Rounding} {a : Rat} (h : 0 ≤ a) : le 0 (R.rnd a) = true := le_rnd R.rep_zero (by rw [zero_eq]; simpa using h)
theorem rnd_nonpos {R : Rounding} {a : Rat} (h : a ≤ 0) : le (R.rnd a) 0 = true := rnd_le R.rep_zero (by rw [zero_eq]; simpa using h)

/-- No rounding at all. -/
def exact : Rounding where
  rnd := fin
  num := fun _ => rfl
  mono := fun a b h => by simpa using h
  zero := rfl
  idem := fun _ _ h => by cases h; rfl
  neg := fun _ => rfl

theorem exact_add (a b : Dbl) : exact.add a b = a + b := by cases a <;> cases b <;> rfl
theorem exact_sub (a b : Dbl) : exact.sub a b = a - b := exact_add a (-b)
theorem exact_mul (a b : Dbl) : exact.mul a b = a * b := by cases a <;> cases b <;> rfl
theorem exact_div (a b : Dbl) : exact.div a b = a / b := by
  cases a <;> cases b <;> try rfl
  rename_i a b
  show (if b = 0 then Dbl.div (fin a) (fin b) else fin (a / b)) = Dbl.div (fin a) (fin b)
  by_cases h : b = 0 <;> simp [h, Dbl.div]

/-! ## IEEE 754 binary64 -/

/-- Rounding to the nearest integer, halves to the even one. -/
def nearest (x : Rat) : Int :=
  if x - ⌊x⌋ < 1 / 2 then ⌊x⌋ else if 1 / 2 < x - ⌊x⌋ then ⌊x⌋ + 1 else if ⌊x⌋ % 2 = 0 then ⌊x⌋ else ⌊x⌋ + 1

theorem nearest_bounds (x : Rat) : ⌊x⌋ ≤ nearest x ∧ nearest x ≤ ⌊x⌋ + 1 := by
  unfold nearest; split_ifs <;> omega

theorem nearest_int (n : Int) : nearest n = n := by simp [nearest]

theorem nearest_mono {x y : Rat} (h : x ≤ y) : nearest x ≤ nearest y := by
  have hf : ⌊x⌋ ≤ ⌊y⌋ := Int.floor_mono h
  rcases lt_or_eq_of_le hf with hf | hf
  · have := (nearest_bounds x).2
    have := (nearest_bounds y).1
    omega
  · unfold nearest
    rw [hf]
    split_ifs <;> first | omega | (exfalso; linarith)

/-- The exponent of the last place of a positive number: 53 binary digits, but not below that of the subnormal numbers. -/
def ulpExp (q : Rat) : Int := max (Int.log 2 q) (-1022) - 52

/-- A positive number rounded to 53 binary digits. -/
def rndPos (q : Rat) : Rat := nearest (q / 2 ^ ulpExp q) * 2 ^ ulpExp q

theorem two_pos (e : Int) : (0 : Rat) < 2 ^ e := zpow_pos (by norm_num) e

theorem lt_top (q : Rat) : q < 2 ^ (max (Int.log 2 q) (-1022) + 1) := by
  have h1 := Int.lt_zpow_succ_log_self (b := 2) (by norm_num) q
  have h2 : (2 : Rat) ^ (Int.log 2 q + 1) ≤ 2 ^ (Max.max (Int.log 2 q) (-1022) + 1) :=
    zpow_le_zpow_right₀ (by norm_num) (by omega)
  push_cast at h1
  exact lt_of_lt_of_le h1 h2

theorem split_top (k : Int) : (2 : Rat) ^ (k + 1) = 2 ^ 53 * 2 ^ (k - 52) := by
  rw [← zpow_natCast, ← zpow_add₀ (by norm_num)]; congr 1; push_cast; ring

theorem split_bot (k : Int) : (2 : Rat) ^ k = 2 ^ 52 * 2 ^ (k - 52) := by
  rw [← zpow_natCast, ← zpow_add₀ (by norm_num)]; congr 1; push_cast; ring

theorem digits_le {q : Rat} : nearest (q / 2 ^ ulpExp q) ≤ 2 ^ 53 := by
  have h : q / 2 ^ ulpExp q ≤ ((2 ^ 53 : Int) : Rat) := by
    rw [div_le_iff₀ (two_pos _)]
    have := (lt_top q).le
    rw [split_top] at this
    exact_mod_cast this
  have := nearest_mono h
  rwa [nearest_int] at this

theorem digits_ge {q : Rat} (hq : 0 < q) (hn : -1022 ≤ Int.log 2 q) : 2 ^ 52 ≤ nearest (q / 2 ^ ulpExp q) := by
  have h : ((2 ^ 52 : Int) : Rat) ≤ q / 2 ^ ulpExp q := by
    rw [le_div_iff₀ (two_pos _)]
    have := Int.zpow_log_le_self (b := 2) (by norm_num) hq
    have e : max (Int.log 2 q) (-1022) = Int.log 2 q := max_eq_left hn
    unfold ulpExp
    rw [e]
    have h2 := split_bot (Int.log 2 q)
    push_cast at this ⊢
    linarith
  have := nearest_mono h
  rwa [nearest_int] at this

theorem digits_nonneg {q : Rat} (hq : 0 < q) : 0 ≤ nearest (q / 2 ^ ulpExp q) := by
  have : 0 ≤ ⌊q / 2 ^ ulpExp q⌋ := Int.floor_nonneg.2 (div_nonneg hq.le (two_pos _).le)
  exact _root_.le_trans this (nearest_bounds _).1

theorem rndPos_nonneg {q : Rat} (hq : 0 < q) : 0 ≤ rndPos q := by
  unfold rndPos
  have := digits_nonneg hq
  have h : (0 : Rat) ≤ nearest (q / 2 ^ ulpExp q) := by exact_mod_cast this
  exact mul_nonneg h (two_pos _).le

theorem rndPos_mono {a b : Rat} (ha : 0 < a) (h : a ≤ b) : rndPos a ≤ rndPos b := by
  have hl : Int.log 2 a ≤ Int.log 2 b := Int.log_mono_right ha h
  have hk : max (Int.log 2 a) (-1022) ≤ max (Int.log 2 b) (-1022) := max_le_max_right _ hl
  rcases lt_or_eq_of_le hk with hk | hk
  · have hn : -1022 ≤ Int.log 2 b := by omega
    have eb : max (Int.log 2 b) (-1022) = Int.log 2 b := max_eq_left hn
    have h1 : rndPos a ≤ 2 ^ (max (Int.log 2 a) (-1022) + 1) := by
      rw [split_top]
      unfold rndPos
      have : ((nearest (a / 2 ^ ulpExp a) : Int) : Rat) ≤ 2 ^ 53 := by exact_mod_cast digits_le
      exact mul_le_mul_of_nonneg_right this (two_pos _).le
    have h2 : (2 : Rat) ^ (Int.log 2 b) ≤ rndPos b := by
      rw [split_bot]
      have e : ulpExp b = Int.log 2 b - 52 := by unfold ulpExp; rw [eb]
      have d := digits_ge (lt_of_lt_of_le ha h) hn
      unfold rndPos
      rw [e] at d ⊢
      have : (2 ^ 52 : Rat) ≤ ((nearest (b / 2 ^ (Int.log 2 b - 52)) : Int) : Rat) := by exact_mod_cast d
      exact mul_le_mul_of_nonneg_right this (two_pos _).le
    refine _root_.le_trans h1 (_root_.le_trans ?_ h2)
    exact zpow_le_zpow_right₀ (by norm_num) (by rw [eb] at hk; omega)
  · have e : ulpExp a = ulpExp b := by unfold ulpExp; rw [hk]
    unfold rndPos
    rw [e]
    have : nearest (a / 2 ^ ulpExp b) ≤ nearest (b / 2 ^ ulpExp b) := nearest_mono (div_le_div_of_nonneg_right h (two_pos _).le)
    exact mul_le_mul_of_nonneg_right (by exact_mod_cast this) (two_pos _).le

theorem rndPos_of_int {x : Rat} {n : Int} (h : x / 2 ^ ulpExp x = n) : rndPos x = x := by
  unfold rndPos
  rw [h, nearest_int, ← h, div_mul_cancel₀ _ (two_pos _).ne']

theorem rndPos_idem {q : Rat} (hx : 0 < rndPos q) : rndPos (rndPos q) = rndPos q := by
  generalize hm : nearest (q / 2 ^ ulpExp q) = m
  have ex : rndPos q = m * 2 ^ ulpExp q := by unfold rndPos; rw [hm]
  have hm1 : m ≤ 2 ^ 53 := by rw [← hm]; exact digits_le
  generalize hk : max (Int.log 2 q) (-1022) = k at *
  have he : ulpExp q = k - 52 := by unfold ulpExp; rw [hk]
  rw [he] at ex
  have hk0 : -1022 ≤ k := by rw [← hk]; exact le_max_right _ _
  rcases lt_or_eq_of_le hm1 with h | h
  · have hlt : rndPos q < 2 ^ (k + 1) := by
      rw [split_top, ex]
      have : (m : Rat) < 2 ^ 53 := by exact_mod_cast h
      exact mul_lt_mul_of_pos_right this (two_pos _)
    have hlog : Int.log 2 (rndPos q) < k + 1 := by
      exact (Int.lt_zpow_iff_log_lt (by norm_num) hx).1 (by exact_mod_cast hlt)
    have hu : ulpExp (rndPos q) ≤ k - 52 := by unfold ulpExp; omega
    obtain ⟨j, hj⟩ := Int.eq_ofNat_of_zero_le (show 0 ≤ k - 52 - ulpExp (rndPos q) by omega)
    refine rndPos_of_int (n := m * 2 ^ j) ?_
    rw [div_eq_iff (two_pos _).ne']
    push_cast
    rw [mul_assoc, ← zpow_natCast, ← zpow_add₀ (by norm_num)]
    conv_lhs => rw [ex]
    congr 2
    omega
  · have e2 : rndPos q = 2 ^ (k + 1) := by rw [ex, h, split_top]; push_cast; ring
    have hlog : Int.log 2 (rndPos q) = k + 1 := by
      rw [e2]; exact_mod_cast Int.log_zpow (R := Rat) (b := 2) (by norm_num) (k + 1)
    have hu : ulpExp (rndPos q) = k + 1 - 52 := by unfold ulpExp; rw [hlog]; omega
    refine rndPos_of_int (n := 2 ^ 52) ?_
    rw [hu, div_eq_iff (two_pos _).ne', e2, split_bot]
    push_cast
    ring

/-- The rounding of a positive number, with overflow. -/
def up (q : Rat) : Dbl := if (2 : Rat) ^ 1024 ≤ rndPos q then pinf else fin (rndPos q)

theorem up_num (q : Rat) : (up q).isNan = false := by unfold up; split <;> rfl

theorem up_nonneg {q : Rat} (h : 0 < q) : le 0 (up q) = true := by
  unfold up; split
  · rfl
  · rw [zero_eq]; simpa using rndPos_nonneg h

theorem up_mono {a b : Rat} (ha : 0 < a) (h : a ≤ b) : le (up a) (up b) = true := by
  have := rndPos_mono ha h
  unfold up
  split
  · rw [if_pos (by linarith)]; rfl
  · split
    · rfl
    · simpa using this

/-- Round to nearest, ties to even, of IEEE 754 binary64. -/
def rnd64 (q : Rat) : Dbl := if 0 < q then up q else if q < 0 then -up (-q) else fin 0

theorem neg_le_neg {a b : Dbl} (h : le a b = true) : le (-b) (-a) = true := by
  cases a <;> cases b
  case fin.fin x y => rw [neg_fin, neg_fin, le_fin]; rw [le_fin] at h; simp only [decide_eq_true_eq] at h ⊢; linarith
  all_goals first | rfl | exact absurd h (by simp [le])

/-- `double` (IEEE 754 binary64, round to nearest, ties to even). -/
def binary64 : Rounding where
  rnd := rnd64
  num := by
    intro q; unfold rnd64
    split
    · exact up_num q
    · split
      · have := up_num (-q)
        cases h : up (-q) <;> simp_all [Neg.neg, Dbl.neg]
      · rfl
  mono := by
    intro a b h
    have neg0 : ∀ {q : Rat}, q < 0 → le (-up (-q)) 0 = true := by
      intro q hq
      have := neg_le_neg (up_nonneg (q := -q) (by linarith))
      simpa [zero_eq] using this
    unfold rnd64
    by_cases ha : 0 < a
    · rw [if_pos ha, if_pos (by linarith)]; exact up_mono ha h
    · rw [if_neg ha]
      by_cases ha' : a < 0
      · rw [if_pos ha']
        by_cases hb : 0 < b
        · rw [if_pos hb]; exact Dbl.le_trans (neg0 ha') (up_nonneg hb)
        · rw [if_neg hb]
          by_cases hb' : b < 0
          · rw [if_pos hb']; exact neg_le_neg (up_mono (by linarith) (by linarith))
          · rw [if_neg hb']; exact neg0 ha'
      · rw [if_neg ha']
        by_cases hb : 0 < b
        · rw [if_pos hb]; exact up_nonneg hb
        · rw [if_neg hb, if_neg (by linarith)]; simp
  zero := by simp [rnd64]
  neg := by
    intro a
    unfold rnd64
    rcases lt_trichotomy a 0 with h | h | h
    · rw [if_pos (by linarith), if_neg (by linarith), if_pos h]
      have : ∀ d : Dbl, -(-d) = d := by intro d; cases d <;> first | rfl | simp
      rw [this]
    · subst h; simp
    · rw [if_neg (by linarith), if_pos (by linarith), if_pos h, neg_neg]
  idem := by
    have pos : ∀ a q : Rat, 0 < a → up a = fin q → 0 ≤ q ∧ (0 < q → up q = fin q) := by
      intro a q ha h
      have h' := h
      unfold up at h'
      split at h'
      · cases h'
      · rename_i hlt
        cases h'
        refine ⟨rndPos_nonneg ha, fun hp => ?_⟩
        unfold up
        rw [rndPos_idem hp, if_neg hlt]
    intro a q h
    unfold rnd64 at h
    split at h
    · rename_i ha
      obtain ⟨h0, h1⟩ := pos a q ha h
      unfold rnd64
      by_cases hq : 0 < q
      · rw [if_pos hq]; exact h1 hq
      · have : q = 0 := by linarith
        subst this; simp
    · split at h
      · rename_i ha
        have h2 : up (-a) = fin (-q) := by
          cases hu : up (-a) with
          | fin x => rw [hu] at h; simp at h; rw [← h]; simp
          | _ => rw [hu] at h; simp [Neg.neg, Dbl.neg] at h
        obtain ⟨h0, h1⟩ := pos (-a) (-q) (by linarith) h2
        unfold rnd64
        by_cases hq : q < 0
        · rw [if_neg (by linarith), if_pos hq, h1 (by linarith)]; simp
        · have : q = 0 := by linarith
          subst this; simp
      · cases h; simp [rnd64]

/-! ## How far rounding is from the exact number -/

theorem nearest_err (x : Rat) : |(nearest x : Rat) - x| ≤ 1 / 2 := by
  have h1 := Int.floor_le x
  have h2 := Int.lt_floor_add_one x
  unfold nearest
  rw [abs_le]
  split_ifs <;> push_cast <;> constructor <;> linarith

theorem rndPos_err {q : Rat} (hq : 0 < q) : |rndPos q - q| ≤ q * 2 ^ (-53 : Int) + 2 ^ (-1075 : Int) := by
  have e : rndPos q - q = (nearest (q / 2 ^ ulpExp q) - q / 2 ^ ulpExp q) * 2 ^ ulpExp q := by
    unfold rndPos
    rw [sub_mul, div_mul_cancel₀ _ (two_pos _).ne']
  have h1 : |rndPos q - q| ≤ 1 / 2 * 2 ^ ulpExp q := by
    rw [e, abs_mul, abs_of_pos (two_pos _)]
    exact mul_le_mul_of_nonneg_right (nearest_err _) (two_pos _).le
  have h2 : (1 / 2 : Rat) * 2 ^ ulpExp q = 2 ^ Max.max (Int.log 2 q) (-1022) * 2 ^ (-53 : Int) := by
    unfold ulpExp
    rw [← zpow_add₀ (by norm_num), show (1 / 2 : Rat) = 2 ^ (-1 : Int) by norm_num, ← zpow_add₀ (by norm_num)]
    congr 1
    omega
  rw [h2] at h1
  refine _root_.le_trans h1 ?_
  rcases Int.le_total (-1022) (Int.log 2 q) with h | h
  · rw [max_eq_left h]
    have := Int.zpow_log_le_self (b := 2) (by norm_num) hq
    have h3 := mul_le_mul_of_nonneg_right this (two_pos (-53)).le
    push_cast at h3
    have := (two_pos (-1075)).le
    linarith
  · rw [max_eq_right h]
    have h3 : (2 : Rat) ^ (-1022 : Int) * 2 ^ (-53 : Int) = 2 ^ (-1075 : Int) := by rw [← zpow_add₀ (by norm_num)]; rfl
    rw [h3]
    have := mul_nonneg hq.le (two_pos (-53)).le
    linarith

/-- A finite result is at most half a unit in the last place away from the exact number: relative error `2^-53`, absolute error `2^-1075` for
subnormal numbers. -/
theorem binary64_err {a x : Rat} (h : binary64.rnd a = fin x) : |x - a| ≤ |a| * 2 ^ (-53 : Int) + 2 ^ (-1075 : Int) := by
  have pos : ∀ {b y : Rat}, 0 < b → up b = fin y → |y - b| ≤ |b| * 2 ^ (-53 : Int) + 2 ^ (-1075 : Int) := by
    intro b y hb hu
    unfold up at hu
    split at hu
    · cases hu
    · cases hu
      rw [abs_of_pos hb]
      exact rndPos_err hb
  have h' : rnd64 a = fin x := h
  unfold rnd64 at h'
  split at h'
  · exact pos ‹_› h'
  · split at h'
    · rename_i ha
      have h2 : up (-a) = fin (-x) := by
        cases hu : up (-a) with
        | fin y => rw [hu] at h'; simp at h'; rw [← h']; simp
        | _ => rw [hu] at h'; simp [Neg.neg, Dbl.neg] at h'
      have := pos (by linarith) h2
      rw [abs_neg, show -x - -a = -(x - a) by ring, abs_neg] at this
      exact this
    · cases h'
      have : a = 0 := by linarith
      subst this
      have := (two_pos (-1075)).le
      simp only [sub_self, abs_zero, zero_mul, zero_add]
      exact this

end Rounding
end Verif
