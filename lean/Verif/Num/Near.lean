import Verif.Num.Round64

/-!
# Rounding error of a chain of operations

`Near x r S k n`: the number `x` is finite and away from the exact value `r` by at most `3 k 2^-53` of the size `S` of the terms; `S` is between
`2^-n` and `2^n`, so that nothing overflows or underflows.
-/
namespace Verif
namespace Rounding
open Dbl

/-- Half a unit in the last place of 1. -/
def uu : Rat := 1 / 2 ^ 53

theorem uu_pos : 0 < uu := by unfold uu; norm_num
theorem uu_eq : (2 : Rat) ^ (-53 : Int) = uu := by unfold uu; norm_num

structure Near (x : Dbl) (r S : Rat) (k n : Nat) : Prop where
  val : ∃ q, x = fin q ∧ |q - r| ≤ 3 * k * uu * S
  size : |r| ≤ S
  lo : (2 : Rat) ^ (-(n : Int)) ≤ S
  hi : S ≤ 2 ^ n

theorem Near.pos {x : Dbl} {r S : Rat} {k n : Nat} (h : Near x r S k n) : 0 < S := lt_of_lt_of_le (two_pos _) h.lo

/-- One rounding. -/
theorem near_rnd {z r S : Rat} {k n : Nat} (E : Rat) (h : |z - r| ≤ E * uu * S) (hE : E + 3 ≤ 3 * k) (hk : k ≤ 100) (hs : |r| ≤ S)
    (hlo : (2 : Rat) ^ (-(n : Int)) ≤ S) (hhi : S ≤ 2 ^ n) (hn : n ≤ 1000) : Near (binary64.rnd z) r S k n := by
  have hS : 0 < S := lt_of_lt_of_le (two_pos _) hlo
  have hk' : (k : Rat) ≤ 100 := by exact_mod_cast hk
  have hu := uu_pos
  have huS := mul_pos hu hS
  have hu1 : uu * 1000 ≤ 1 := by unfold uu; norm_num
  have hzS : |z| ≤ 2 * S := by
    have := abs_add_le (z - r) r
    rw [sub_add_cancel] at this
    nlinarith
  have hpow : (2 : Rat) ^ n ≤ 2 ^ 1000 := pow_le_pow_right₀ (by norm_num) hn
  have hbig : (2 : Rat) * 2 ^ 1000 ≤ big := by decide +kernel
  obtain ⟨q, hq, -⟩ := rnd_fin (a := z) (by
    generalize (2 : Rat) ^ 1000 = B at *
    linarith)
  refine ⟨⟨q, hq, ?_⟩, hs, hlo, hhi⟩
  have he := binary64_err hq
  have ht : (2 : Rat) ^ (-1075 : Int) ≤ uu * S := by
    have h1 : (2 : Rat) ^ (-1075 : Int) = uu * 2 ^ (-1022 : Int) := by
      rw [← uu_eq, ← zpow_add₀ (by norm_num)]; rfl
    have h2 : (2 : Rat) ^ (-1022 : Int) ≤ 2 ^ (-(n : Int)) := zpow_le_zpow_right₀ (by norm_num) (by omega)
    rw [h1]
    exact mul_le_mul_of_nonneg_left (h2.trans hlo) hu.le
  rw [uu_eq] at he
  generalize (2 : Rat) ^ (-1075 : Int) = η at *
  have t := abs_add_le (q - z) (z - r)
  rw [sub_add_sub_cancel] at t
  have hz2 : |z| * uu ≤ (1 + E * uu) * S * uu := by
    refine mul_le_mul_of_nonneg_right ?_ hu.le
    have := abs_add_le (z - r) r
    rw [sub_add_cancel] at this
    nlinarith
  have hE2 : E * uu ≤ 1 := by nlinarith
  have h3 : E * uu * (S * uu) ≤ 1 * (S * uu) := mul_le_mul_of_nonneg_right hE2 (by nlinarith)
  have h4 : (E + 3) * (uu * S) ≤ 3 * k * (uu * S) := mul_le_mul_of_nonneg_right hE huS.le
  nlinarith

/-- The size of a value: its magnitude, at least `2^-400`. -/
def sz (q : Rat) : Rat := |q| + 2 ^ (-400 : Int)

theorem near_fin {q : Rat} (h : |q| ≤ 2 ^ 399) : Near (fin q) q (sz q) 0 400 := by
  have hp : (2 : Rat) ^ (-400 : Int) ≤ 2 ^ 399 := by decide +kernel
  refine ⟨⟨q, rfl, by simp⟩, ?_, ?_, ?_⟩
  · unfold sz; have := (two_pos (-400)).le; linarith
  · unfold sz
    exact le_add_of_nonneg_left (abs_nonneg q)
  · unfold sz
    rw [show (2 : Rat) ^ 400 = 2 * 2 ^ 399 from by rw [pow_succ']]
    generalize (2 : Rat) ^ 399 = B at *
    linarith

/-- A factor: between `2^-p` and `2^p` in magnitude. -/
structure Factor (c : Rat) (p : Nat) : Prop where
  lo : (2 : Rat) ^ (-(p : Int)) ≤ |c|
  hi : |c| ≤ 2 ^ p

theorem Factor.pos {c : Rat} {p : Nat} (h : Factor c p) : 0 < |c| := lt_of_lt_of_le (two_pos _) h.lo
theorem Factor.ne {c : Rat} {p : Nat} (h : Factor c p) : c ≠ 0 := abs_pos.1 h.pos

theorem near_factor {c : Rat} {p : Nat} (h : Factor c p) : Near (fin c) c |c| 0 p :=
  ⟨⟨c, rfl, by simp⟩, le_rfl, h.lo, h.hi⟩

theorem neg_cast_add (n p : Nat) : (2 : Rat) ^ (-((n + p : Nat) : Int)) = 2 ^ (-(n : Int)) * 2 ^ (-(p : Int)) := by
  rw [← zpow_add₀ (by norm_num)]; congr 1; omega

theorem near_mul {x : Dbl} {r S c : Rat} {k n p : Nat} (h : Near x r S k n) (hc : Factor c p) (hk : k + 1 ≤ 100) (hn : n + p ≤ 1000) :
    Near (binary64.mul x (fin c)) (r * c) (S * |c|) (k + 1) (n + p) := by
  obtain ⟨q, rfl, hq⟩ := h.val
  rw [mul_fin]
  refine near_rnd (3 * k) ?_ (by push_cast; linarith) hk ?_ ?_ ?_ hn
  · rw [← sub_mul, abs_mul, ← mul_assoc]
    exact mul_le_mul_of_nonneg_right hq (abs_nonneg c)
  · rw [abs_mul]; exact mul_le_mul_of_nonneg_right h.size (abs_nonneg c)
  · rw [neg_cast_add]; exact mul_le_mul h.lo hc.lo (two_pos _).le h.pos.le
  · rw [pow_add]; exact mul_le_mul h.hi hc.hi (abs_nonneg c) (by positivity)

theorem mul_comm64 (a b : Rat) : binary64.mul (fin a) (fin b) = binary64.mul (fin b) (fin a) := by
  rw [mul_fin, mul_fin, mul_comm]

theorem near_mul' {x : Dbl} {r S c : Rat} {k n p : Nat} (h : Near x r S k n) (hc : Factor c p) (hk : k + 1 ≤ 100) (hn : n + p ≤ 1000) :
    Near (binary64.mul (fin c) x) (c * r) (|c| * S) (k + 1) (n + p) := by
  have := near_mul h hc hk hn
  obtain ⟨q, rfl, hq⟩ := h.val
  rw [mul_comm64, mul_comm c, mul_comm |c|]
  exact this

theorem near_add {x y : Dbl} {r s S T : Rat} {k l n o : Nat} (h : Near x r S k n) (g : Near y s T l o) (hk : max k l + 1 ≤ 100)
    (hn : max n o + 1 ≤ 1000) : Near (binary64.add x y) (r + s) (S + T) (max k l + 1) (max n o + 1) := by
  obtain ⟨q, rfl, hq⟩ := h.val
  obtain ⟨q', rfl, hq'⟩ := g.val
  have hkl : (k : Rat) ≤ (max k l : Nat) := by exact_mod_cast le_max_left k l
  have hlk : (l : Rat) ≤ (max k l : Nat) := by exact_mod_cast le_max_right k l
  have hS := h.pos
  have hT := g.pos
  have hu := uu_pos
  have m1 : (2 : Rat) ^ n ≤ 2 ^ (max n o) := pow_le_pow_right₀ (by norm_num) (le_max_left _ _)
  have m2 : (2 : Rat) ^ o ≤ 2 ^ (max n o) := pow_le_pow_right₀ (by norm_num) (le_max_right _ _)
  rw [add_fin]
  refine near_rnd (3 * (max k l : Nat)) ?_ (by push_cast; linarith) hk ?_ ?_ ?_ hn
  · have t := abs_add_le (q - r) (q' - s)
    rw [show q + q' - (r + s) = q - r + (q' - s) by ring]
    have a1 : 3 * k * uu * S ≤ 3 * (max k l : Nat) * uu * S := by gcongr
    have a2 : 3 * l * uu * T ≤ 3 * (max k l : Nat) * uu * T := by gcongr
    linarith
  · exact (abs_add_le _ _).trans (add_le_add h.size g.size)
  · have : (2 : Rat) ^ (-((max n o + 1 : Nat) : Int)) ≤ 2 ^ (-(n : Int)) := zpow_le_zpow_right₀ (by norm_num) (by push_cast; omega)
    have := h.lo
    linarith
  · rw [pow_succ]; have := h.hi; have := g.hi; linarith

theorem near_neg {x : Dbl} {r S : Rat} {k n : Nat} (h : Near x r S k n) : Near (-x) (-r) S k n := by
  obtain ⟨q, rfl, hq⟩ := h.val
  refine ⟨⟨-q, rfl, ?_⟩, by rw [abs_neg]; exact h.size, h.lo, h.hi⟩
  rw [show -q - -r = -(q - r) by ring, abs_neg]; exact hq

theorem near_sub {x y : Dbl} {r s S T : Rat} {k l n o : Nat} (h : Near x r S k n) (g : Near y s T l o) (hk : max k l + 1 ≤ 100)
    (hn : max n o + 1 ≤ 1000) : Near (binary64.sub x y) (r - s) (S + T) (max k l + 1) (max n o + 1) := by
  have := near_add h (near_neg g) hk hn
  rw [← sub_eq_add_neg] at this
  exact this

/-- Division by a number that is itself the rounded value of a factor. -/
theorem near_div' {x y : Dbl} {r S d : Rat} {k n p : Nat} (h : Near x r S k n) (g : Near y d |d| 1 p) (hk : k + 3 ≤ 100) (hn : n + p ≤ 1000) :
    Near (binary64.div x y) (r / d) (S / |d|) (k + 3) (n + p) := by
  obtain ⟨q, rfl, hq⟩ := h.val
  obtain ⟨e, rfl, he⟩ := g.val
  have hd := g.pos
  have hd0 : d ≠ 0 := abs_pos.1 hd
  have hu := uu_pos
  have hu1 : uu * 1000 ≤ 1 := by unfold uu; norm_num
  have hS := h.pos
  have he' : |e - d| ≤ 3 * uu * |d| := by simpa using he
  have hed : |d| * (1 - 3 * uu) ≤ |e| := by
    have := abs_sub_abs_le_abs_sub d e
    rw [abs_sub_comm] at this
    linarith
  have hepos : 0 < |e| := lt_of_lt_of_le (mul_pos hd (by linarith)) hed
  have he0 : e ≠ 0 := abs_pos.1 hepos
  have hkr : (k : Rat) ≤ 97 := by exact_mod_cast (show k ≤ 97 by omega)
  have hk0 : (0 : Rat) ≤ k := Nat.cast_nonneg k
  rw [div_fin _ _ _ he0]
  refine near_rnd (3 * k + 6) ?_ (by push_cast; linarith) hk ?_ ?_ ?_ hn
  · have e1 : q / e - r / d = ((q - r) * d - r * (e - d)) / (e * d) := by field_simp; ring
    rw [e1, abs_div, abs_mul, div_le_iff₀ (mul_pos hepos hd)]
    have t : |(q - r) * d - r * (e - d)| ≤ 3 * k * uu * S * |d| + S * (3 * uu * |d|) := by
      refine (abs_sub _ _).trans (add_le_add ?_ ?_)
      · rw [abs_mul]; exact mul_le_mul_of_nonneg_right hq (abs_nonneg d)
      · rw [abs_mul]; exact mul_le_mul h.size he' (abs_nonneg _) hS.le
    refine t.trans ?_
    rw [show (3 * k + 6) * uu * (S / |d|) * (|e| * |d|) = (3 * k + 6) * uu * S * |e| by field_simp]
    have hf : 0 ≤ (3 * k + 6) * uu * S := by positivity
    refine le_trans ?_ (mul_le_mul_of_nonneg_left hed hf)
    have hx : 0 < uu * S * |d| := by positivity
    have : (3 * k + 6) * (3 * uu) ≤ 3 := by nlinarith
    nlinarith [mul_le_mul_of_nonneg_left this hx.le]
  · rw [abs_div]; exact div_le_div_of_nonneg_right h.size hd.le
  · rw [neg_cast_add, le_div_iff₀ hd]
    have h1 : (2 : Rat) ^ (-(p : Int)) * |d| ≤ 1 := by
      refine (mul_le_mul_of_nonneg_left g.hi (two_pos _).le).trans ?_
      rw [zpow_neg, zpow_natCast, inv_mul_cancel₀ (by positivity)]
    have h2 := h.lo
    have h3 := mul_le_mul h2 h1 (mul_nonneg (two_pos _).le hd.le) hS.le
    rw [mul_one] at h3
    linarith [h3, mul_assoc ((2 : Rat) ^ (-(n : Int))) (2 ^ (-(p : Int))) |d|]
  · rw [pow_add, div_le_iff₀ hd]
    have h1 : 1 ≤ (2 : Rat) ^ p * |d| := by
      have := mul_le_mul_of_nonneg_left g.lo (show (0 : Rat) ≤ 2 ^ p by positivity)
      rw [zpow_neg, zpow_natCast, mul_inv_cancel₀ (by positivity)] at this
      exact this
    have h2 := h.hi
    have h3 := mul_le_mul h2 h1 (by norm_num) (by positivity)
    rw [mul_one] at h3
    rw [mul_assoc]; exact h3

theorem near_div {x : Dbl} {r S c : Rat} {k n p : Nat} (h : Near x r S k n) (hc : Factor c p) (hk : k + 3 ≤ 100) (hn : n + p ≤ 1000) :
    Near (binary64.div x (fin c)) (r / c) (S / |c|) (k + 3) (n + p) := by
  refine near_div' h ⟨⟨c, rfl, ?_⟩, le_rfl, hc.lo, hc.hi⟩ hk hn
  have := uu_pos
  rw [sub_self, abs_zero]
  positivity

/-- The product of two factors, rounded. -/
theorem near_prod {c d : Rat} {p s : Nat} (hc : Factor c p) (hd : Factor d s) (hn : p + s ≤ 1000) :
    Near (binary64.mul (fin c) (fin d)) (c * d) |c * d| 1 (p + s) := by
  have := near_mul (near_factor hc) hd (by omega) hn
  rw [← abs_mul] at this
  exact this

/-- `x` is finite and away from `r` by at most `2^-47` of `S`. -/
def Err (x : Dbl) (r S : Rat) : Prop := ∃ q, x = fin q ∧ |q - r| ≤ 1 / 2 ^ 47 * S

theorem Near.err {x : Dbl} {r S : Rat} {k n : Nat} (h : Near x r S k n) (hk : k ≤ 21) {r' S' : Rat} (er : r = r') (eS : S = S') : Err x r' S' := by
  subst er eS
  obtain ⟨q, hq, he⟩ := h.val
  refine ⟨q, hq, he.trans (mul_le_mul_of_nonneg_right ?_ h.pos.le)⟩
  have : (k : Rat) ≤ 21 := by exact_mod_cast hk
  unfold uu
  linarith

end Rounding
end Verif
