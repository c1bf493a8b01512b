import Verif.Num.Round
import Mathlib.Tactic.Linarith
import Mathlib.Tactic.FieldSimp
import Mathlib.Tactic.Positivity

/-! # More facts about binary64: tiny differences are exact, the largest number, sums of two numbers -/
namespace Verif
namespace Rounding
open Dbl

/-- The largest finite number. -/
def big : Rat := (2 - 1 / 2 ^ 52) * 2 ^ 1023

theorem rnd_big : binary64.rnd big = fin big := by decide +kernel

theorem rnd_fin {a : Rat} (h : |a| ≤ big) : ∃ x, binary64.rnd a = fin x ∧ |x| ≤ big := by
  obtain ⟨h1, h2⟩ := abs_le.1 h
  have hb : binary64.Rep (fin big) := rnd_big
  have hb' : binary64.Rep (fin (-big)) := rep_neg hb
  have u := rnd_le (R := binary64) (a := a) hb (by simpa using h2)
  have l := le_rnd (R := binary64) (a := a) hb' (by simpa using h1)
  obtain ⟨x, hx, -, -⟩ := fin_of_between l u
  refine ⟨x, hx, abs_le.2 ?_⟩
  rw [hx] at u l
  exact ⟨by simpa using l, by simpa using u⟩

/-- A positive number of the type is a multiple of the smallest one. -/
theorem rndPos_mult (q : Rat) : ∃ k : Int, rndPos q = k * 2 ^ (-1074 : Int) := by
  unfold rndPos
  have hu : -1074 ≤ ulpExp q := by unfold ulpExp; omega
  obtain ⟨j, hj⟩ := Int.eq_ofNat_of_zero_le (show 0 ≤ ulpExp q + 1074 by omega)
  refine ⟨nearest (q / 2 ^ ulpExp q) * 2 ^ j, ?_⟩
  push_cast
  rw [mul_assoc, ← zpow_natCast, ← zpow_add₀ (by norm_num)]
  congr 2
  omega

theorem rnd_mult {a x : Rat} (h : binary64.rnd a = fin x) : ∃ k : Int, x = k * 2 ^ (-1074 : Int) := by
  have pos : ∀ {b y : Rat}, up b = fin y → ∃ k : Int, y = k * 2 ^ (-1074 : Int) := by
    intro b y hu
    unfold up at hu
    split at hu
    · cases hu
    · cases hu; exact rndPos_mult b
  have h' : rnd64 a = fin x := h
  unfold rnd64 at h'
  split at h'
  · exact pos h'
  · split at h'
    · have h2 : up (-a) = fin (-x) := by
        cases hu : up (-a) with
        | fin y => rw [hu] at h'; simp at h'; rw [← h']; simp
        | _ => rw [hu] at h'; simp [Neg.neg, Dbl.neg] at h'
      obtain ⟨k, hk⟩ := pos h2
      exact ⟨-k, by push_cast; linarith⟩
    · cases h'; exact ⟨0, by simp⟩

/-- A small multiple of the smallest number is a number of the type. -/
theorem rnd_tiny {t : Rat} (hm : ∃ k : Int, t = k * 2 ^ (-1074 : Int)) (h0 : 0 ≤ t) (ht : t < 2 ^ (-1022 : Int)) : binary64.rnd t = fin t := by
  rcases eq_or_lt_of_le h0 with h0 | h0
  · subst h0; exact binary64.zero
  obtain ⟨k, hk⟩ := hm
  have hlog : Int.log 2 t < -1022 := (Int.lt_zpow_iff_log_lt (by norm_num) h0).1 (by exact_mod_cast ht)
  have hu : ulpExp t = -1074 := by unfold ulpExp; omega
  have hr : rndPos t = t := by
    refine rndPos_of_int (n := k) ?_
    rw [hu, div_eq_iff (two_pos _).ne']
    exact hk
  show rnd64 t = fin t
  unfold rnd64 up
  rw [if_pos h0, hr, if_neg]
  rw [not_le]
  refine lt_trans ht ?_
  have := zpow_lt_zpow_right₀ (show (1 : Rat) < 2 by norm_num) (show (-1022 : Int) < 1024 by omega)
  exact_mod_cast this

/-- The difference of two numbers of the type, divided by at least two: not further than the difference itself, although both operations round. -/
theorem half_step {t n : Rat} (hm : ∃ k : Int, t = k * 2 ^ (-1074 : Int)) (h0 : 0 ≤ t) (hb : t ≤ big) (hn : 2 ≤ n) :
    ∃ d e, binary64.rnd t = fin d ∧ binary64.rnd (d / n) = fin e ∧ 0 ≤ e ∧ e ≤ t := by
  obtain ⟨d, hd, hdb⟩ := rnd_fin (a := t) (by rw [abs_of_nonneg h0]; exact hb)
  have hd0 : 0 ≤ d := by
    have := rnd_nonneg (R := binary64) h0
    rw [hd, zero_eq] at this; simpa using this
  have hdn : 0 ≤ d / n := div_nonneg hd0 (by linarith)
  have hdn2 : d / n ≤ d / 2 := div_le_div_of_nonneg_left hd0 (by norm_num) hn
  have hdb' : d ≤ big := (abs_le.1 hdb).2
  obtain ⟨e, he, -⟩ := rnd_fin (a := d / n) (by rw [abs_of_nonneg hdn]; linarith)
  have he0 : 0 ≤ e := by
    have := rnd_nonneg (R := binary64) hdn
    rw [he, zero_eq] at this; simpa using this
  refine ⟨d, e, hd, he, he0, ?_⟩
  by_cases ht : t < 2 ^ (-1022 : Int)
  · have hx := rnd_tiny hm h0 ht
    rw [hx] at hd
    have hdt : d = t := by injection hd with h; exact h.symm
    subst hdt
    have hr : binary64.Rep (fin d) := hx
    have := rnd_le (R := binary64) (a := d / n) hr (by simp only [le_fin, decide_eq_true_eq]; linarith)
    rw [he] at this; simpa using this
  · rw [not_lt] at ht
    have e1 := binary64_err hd
    have e2 := binary64_err he
    rw [abs_of_nonneg h0] at e1
    rw [abs_of_nonneg hdn] at e2
    have e1 := (abs_le.1 e1).2
    have e2 := (abs_le.1 e2).2
    have hs : (2 : Rat) ^ (-1075 : Int) = 2 ^ (-1022 : Int) * 2 ^ (-53 : Int) := by rw [← zpow_add₀ (by norm_num)]; rfl
    have hq : (2 : Rat) ^ (-53 : Int) ≤ 1 / 100 := by norm_num
    have hp := two_pos (-53)
    generalize (2 : Rat) ^ (-53 : Int) = u at *
    have hη : (2 : Rat) ^ (-1075 : Int) ≤ t * u := by rw [hs]; exact mul_le_mul_of_nonneg_right ht hp.le
    have htu : t * u ≤ t * (1 / 100) := mul_le_mul_of_nonneg_left hq h0
    have hdu : d / n * u ≤ d / 2 * (1 / 100) := mul_le_mul hdn2 hq hp.le (by linarith)
    nlinarith

/-- One step of a running average: the new value is between the old one and the sample. -/
theorem mean_step {p x : Rat} {n : Dbl} (hp : binary64.Rep (fin p)) (hx : binary64.Rep (fin x)) (hpb : |p| ≤ big / 2) (hxb : |x| ≤ big / 2)
    (hn : le (fin 2) n = true) :
    ∃ a, binary64.add (fin p) (binary64.div (binary64.sub (fin x) (fin p)) n) = fin a ∧ binary64.Rep (fin a) ∧
      ((p ≤ a ∧ a ≤ x) ∨ (x ≤ a ∧ a ≤ p)) := by
  have hpb' := abs_le.1 hpb
  have hxb' := abs_le.1 hxb
  obtain ⟨kp, ekp⟩ := rnd_mult hp
  obtain ⟨kx, ekx⟩ := rnd_mult hx
  have fin' : ∀ e : Rat, ((0 ≤ e ∧ e ≤ x - p) ∨ (x - p ≤ e ∧ e ≤ 0)) →
      ∃ a, binary64.rnd (p + e) = fin a ∧ binary64.Rep (fin a) ∧ ((p ≤ a ∧ a ≤ x) ∨ (x ≤ a ∧ a ≤ p)) := by
    intro e he
    obtain ⟨a, ha, -⟩ := rnd_fin (a := p + e) (by
      rw [abs_le]
      rcases he with ⟨h1, h2⟩ | ⟨h1, h2⟩ <;> constructor <;> linarith)
    refine ⟨a, ha, binary64.idem _ _ ha, ?_⟩
    rcases he with ⟨h1, h2⟩ | ⟨h1, h2⟩
    · left
      have l := le_rnd (R := binary64) (a := p + e) hp (by simp only [le_fin, decide_eq_true_eq]; linarith)
      have u := rnd_le (R := binary64) (a := p + e) hx (by simp only [le_fin, decide_eq_true_eq]; linarith)
      rw [ha] at l u
      exact ⟨by simpa using l, by simpa using u⟩
    · right
      have l := le_rnd (R := binary64) (a := p + e) hx (by simp only [le_fin, decide_eq_true_eq]; linarith)
      have u := rnd_le (R := binary64) (a := p + e) hp (by simp only [le_fin, decide_eq_true_eq]; linarith)
      rw [ha] at l u
      exact ⟨by simpa using l, by simpa using u⟩
  have hsub : binary64.sub (fin x) (fin p) = binary64.rnd (x - p) := by
    show binary64.rnd (x + -p) = _
    rw [sub_eq_add_neg]
  rw [hsub]
  rcases le_total p x with hle | hle
  · have hm : ∃ k : Int, x - p = k * 2 ^ (-1074 : Int) := ⟨kx - kp, by push_cast; rw [sub_mul, ← ekx, ← ekp]⟩
    cases n with
    | nan => simp [le] at hn
    | ninf => simp [le] at hn
    | pinf =>
      obtain ⟨d, hd, -⟩ := rnd_fin (a := x - p) (by rw [abs_le]; constructor <;> linarith)
      rw [hd]
      exact fin' 0 (.inl ⟨le_rfl, by linarith⟩)
    | fin n =>
      have hn : 2 ≤ n := by simpa using hn
      obtain ⟨d, e, h1, h2, h3, h4⟩ := half_step hm (by linarith) (by linarith) hn
      rw [h1, div_fin _ _ _ (by linarith : n ≠ 0), h2]
      exact fin' e (.inl ⟨h3, h4⟩)
  · have hm : ∃ k : Int, p - x = k * 2 ^ (-1074 : Int) := ⟨kp - kx, by push_cast; rw [sub_mul, ← ekx, ← ekp]⟩
    cases n with
    | nan => simp [le] at hn
    | ninf => simp [le] at hn
    | pinf =>
      obtain ⟨d, hd, -⟩ := rnd_fin (a := x - p) (by rw [abs_le]; constructor <;> linarith)
      rw [hd]
      exact fin' 0 (.inr ⟨by linarith, le_rfl⟩)
    | fin n =>
      have hn : 2 ≤ n := by simpa using hn
      obtain ⟨d, e, h1, h2, h3, h4⟩ := half_step hm (by linarith) (by linarith) hn
      have h1' : binary64.rnd (x - p) = fin (-d) := by rw [show x - p = -(p - x) by ring, binary64.neg, h1]; rfl
      have h2' : binary64.rnd (-d / n) = fin (-e) := by rw [neg_div, binary64.neg, h2]; rfl
      rw [h1', div_fin _ _ _ (by linarith : n ≠ 0), h2']
      exact fin' (-e) (.inr ⟨by linarith, by linarith⟩)

/-- The same step: how far it is from the exact step. -/
theorem mean_step_err {p x a n M : Rat} (hp : binary64.Rep (fin p)) (hx : binary64.Rep (fin x)) (hM : M ≤ big / 2) (hpb : |p| ≤ M)
    (hxb : |x| ≤ M) (hn : 2 ≤ n) (ha : binary64.add (fin p) (binary64.div (binary64.sub (fin x) (fin p)) (fin n)) = fin a) :
    |a - (p + (x - p) / n)| ≤ 4 * 2 ^ (-53 : Int) * M + 3 * 2 ^ (-1075 : Int) := by
  obtain ⟨kp, ekp⟩ := rnd_mult hp
  obtain ⟨kx, ekx⟩ := rnd_mult hx
  have hpb' := abs_le.1 hpb
  have hxb' := abs_le.1 hxb
  have hsub : binary64.sub (fin x) (fin p) = binary64.rnd (x - p) := by
    show binary64.rnd (x + -p) = _
    rw [sub_eq_add_neg]
  rw [hsub] at ha
  have key : ∃ d e, binary64.rnd (x - p) = fin d ∧ binary64.rnd (d / n) = fin e ∧ |p + e| ≤ M := by
    rcases le_total p x with hle | hle
    · have hm : ∃ k : Int, x - p = k * 2 ^ (-1074 : Int) := ⟨kx - kp, by push_cast; rw [sub_mul, ← ekx, ← ekp]⟩
      obtain ⟨d, e, h1, h2, h3, h4⟩ := half_step hm (by linarith) (by linarith) hn
      exact ⟨d, e, h1, h2, abs_le.2 ⟨by linarith, by linarith⟩⟩
    · have hm : ∃ k : Int, p - x = k * 2 ^ (-1074 : Int) := ⟨kp - kx, by push_cast; rw [sub_mul, ← ekx, ← ekp]⟩
      obtain ⟨d, e, h1, h2, h3, h4⟩ := half_step hm (by linarith) (by linarith) hn
      refine ⟨-d, -e, by rw [show x - p = -(p - x) by ring, binary64.neg, h1]; rfl, by rw [neg_div, binary64.neg, h2]; rfl,
        abs_le.2 ⟨by linarith, by linarith⟩⟩
  obtain ⟨d, e, h1, h2, h3⟩ := key
  rw [h1, div_fin _ _ _ (by linarith : n ≠ 0), h2] at ha
  have ha : binary64.rnd (p + e) = fin a := ha
  have e1 := binary64_err h1
  have e2 := binary64_err h2
  have e3 := binary64_err ha
  have hM0 : 0 ≤ M := (abs_nonneg p).trans hpb
  have hxp : |x - p| ≤ 2 * M := abs_le.2 ⟨by linarith, by linarith⟩
  have hu1 : (2 : Rat) ^ (-53 : Int) ≤ 1 / 100 := by norm_num
  have hu0 := (two_pos (-53)).le
  have hη := (two_pos (-1075)).le
  have hη1 : (2 : Rat) ^ (-1075 : Int) * 2 ^ (-53 : Int) ≤ 2 ^ (-1075 : Int) * (1 / 100) := mul_le_mul_of_nonneg_left hu1 hη
  generalize (2 : Rat) ^ (-53 : Int) = u at *
  generalize (2 : Rat) ^ (-1075 : Int) = η at *
  -- the three rounding errors
  have b1 : |d - (x - p)| ≤ 2 * M * u + η := e1.trans (by nlinarith)
  have b1n : |(d - (x - p)) / n| ≤ (2 * M * u + η) / 2 := by
    rw [abs_div, abs_of_pos (by linarith : 0 < n)]
    exact (div_le_div_of_nonneg_left (abs_nonneg _) (by norm_num) hn).trans (by linarith)
  have bd : |d| ≤ 2 * M + (2 * M * u + η) := by
    have := abs_add_le (d - (x - p)) (x - p)
    rw [sub_add_cancel] at this
    linarith
  have bdn : |d / n| ≤ (2 * M + (2 * M * u + η)) / 2 := by
    rw [abs_div, abs_of_pos (by linarith : 0 < n)]
    exact (div_le_div_of_nonneg_left (abs_nonneg _) (by norm_num) hn).trans (by linarith)
  have b2 : |e - d / n| ≤ (2 * M + (2 * M * u + η)) / 2 * u + η := e2.trans (by nlinarith)
  have b3 : |a - (p + e)| ≤ M * u + η := e3.trans (by nlinarith)
  have split : a - (p + (x - p) / n) = (a - (p + e)) + (e - d / n) + (d - (x - p)) / n := by ring
  rw [split]
  have t1 := abs_add_le ((a - (p + e)) + (e - d / n)) ((d - (x - p)) / n)
  have t2 := abs_add_le (a - (p + e)) (e - d / n)
  have hMu : 0 ≤ M * u := mul_nonneg hM0 hu0
  have hMuu : M * u * u ≤ M * u * (1 / 100) := mul_le_mul_of_nonneg_left hu1 hMu
  nlinarith

end Rounding
end Verif
