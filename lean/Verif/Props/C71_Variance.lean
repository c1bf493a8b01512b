import Verif.Props.C71_StatisticsFloat
import Mathlib.Analysis.Real.Sqrt

/-!
# C71: the standard deviation in floating point

How far the variance computed by the collector (the argument of the square root) is from the exact variance of the samples: at most
`2 n K`, where `K` is about `40 * 2^-53 * M^2` for samples of at most `M` in size. Samples up to `2^480` in size (so that squares do not
overflow) and at most `2^53` of them (so that the count is exact).
-/
namespace Verif
namespace Stat
open Rounding

/-- The error constant: `40 u M^2` up to higher order terms, with `u = 2^-53` the relative and `2^-1075` the absolute rounding error. -/
def varK (M : Rat) : Rat :=
  5 * ((2 * M + (2 * 2 ^ (-53 : Int) * M + 2 ^ (-1075 : Int))) * (4 * 2 ^ (-53 : Int) * M + 3 * 2 ^ (-1075 : Int))) + 3 * 2 ^ (-1075 : Int)

/-- Sum of the squared distances from the mean. -/
def sqDev (xs : List Rat) : Rat := (xs.map fun x => (x - mean xs) ^ 2).sum

theorem sqDev_eq (xs : List Rat) : sqDev xs = (xs.map fun x => x ^ 2).sum - xs.length * mean xs ^ 2 := by
  unfold sqDev
  rw [sq_dev]
  by_cases h : xs = []
  · subst h; simp [mean]
  · have hL : (xs.length : Rat) ≠ 0 := by exact_mod_cast (List.length_pos_iff.2 h).ne'
    have : xs.sum = mean xs * xs.length := by unfold mean; field_simp
    rw [this]; ring

theorem sqDev_add (xs : List Rat) (q : Rat) : sqDev (xs ++ [q]) = sqDev xs + (q - mean xs) * (q - mean (xs ++ [q])) := by
  rw [sqDev_eq, sqDev_eq, mean_add]
  simp only [List.map_append, List.map_cons, List.map_nil, List.sum_append, List.sum_cons, List.sum_nil, List.length_append, List.length_cons,
    List.length_nil]
  push_cast
  have : (xs.length : Rat) + 1 ≠ 0 := by positivity
  field_simp
  ring

theorem sqDev_nonneg (xs : List Rat) : 0 ≤ sqDev xs := by
  unfold sqDev
  apply List.sum_nonneg
  intro y hy
  obtain ⟨x, -, rfl⟩ := List.mem_map.1 hy
  positivity

theorem sqDev_le {M : Rat} (xs : List Rat) (h : ∀ x ∈ xs, |x| ≤ M) : sqDev xs ≤ xs.length * M ^ 2 := by
  have h1 : (xs.map fun x => x ^ 2).sum ≤ xs.length * M ^ 2 := by
    have := List.sum_le_card_nsmul (xs.map fun x => x ^ 2) (M ^ 2) (by
      intro y hy
      obtain ⟨x, hx, rfl⟩ := List.mem_map.1 hy
      have := h x hx
      rw [← sq_abs x]
      gcongr)
    simpa using this
  rw [sqDev_eq]
  have : 0 ≤ (xs.length : Rat) * mean xs ^ 2 := by positivity
  linarith

theorem mean_abs_le {M : Rat} (hM : 0 ≤ M) (xs : List Rat) (h : ∀ x ∈ xs, |x| ≤ M) : |mean xs| ≤ M := by
  by_cases hx : xs = []
  · subst hx; simpa [mean] using hM
  have hL : (0 : Rat) < xs.length := by exact_mod_cast List.length_pos_iff.2 hx
  unfold mean
  rw [abs_div, abs_of_pos hL, div_le_iff₀ hL]
  have key : ∀ l : List Rat, (∀ x ∈ l, |x| ≤ M) → |l.sum| ≤ M * l.length := by
    intro l
    induction l with
    | nil => intro _; simp
    | cons a t ih =>
      intro hl
      rw [List.sum_cons, List.length_cons]
      push_cast
      have := ih fun x hx => hl x (by simp [hx])
      have := hl a (by simp)
      have := abs_add_le a t.sum
      linarith
  exact key xs h

/-- The arithmetic of one step: `p`, `a` the old and new computed average, `mu`, `mu'` the exact ones, `d1`, `d2`, `pr`, `m'` the results of the
rounded operations. -/
theorem m2_prod {u η M L p a q mu mu' d1 d2 pr : Rat} (hu : 0 ≤ u) (hη : 0 ≤ η) (hM : 0 ≤ M) (hL : 0 ≤ L)
    (hp : |p - mu| ≤ (L + 1) / 2 * (4 * u * M + 3 * η)) (ha : |a - mu'| ≤ (L + 2) / 2 * (4 * u * M + 3 * η))
    (bp : |q - p| ≤ 2 * M) (ba : |q - a| ≤ 2 * M) (bm : |q - mu| ≤ 2 * M) (hu8 : u ≤ 1 / 8)
    (e1 : |d1 - (q - p)| ≤ |q - p| * u + η) (e2 : |d2 - (q - a)| ≤ |q - a| * u + η) (e3 : |pr - d1 * d2| ≤ |d1 * d2| * u + η) :
    |d1 * d2| ≤ (2 * M + (2 * u * M + η)) * (2 * M + (2 * u * M + η)) ∧
    |pr - (q - mu) * (q - mu')| ≤ (2 * M + (2 * u * M + η)) * (4 * u * M + 3 * η) * (L + 7 / 2) + η := by
  have r1 : |d1 - (q - p)| ≤ 2 * u * M + η := e1.trans (by nlinarith)
  have r2 : |d2 - (q - a)| ≤ 2 * u * M + η := e2.trans (by nlinarith)
  have huM : 0 ≤ u * M := mul_nonneg hu hM
  have b1 : |d1| ≤ 2 * M + (2 * u * M + η) := by
    have := abs_add_le (d1 - (q - p)) (q - p)
    rw [sub_add_cancel] at this
    linarith
  have b2 : |d2| ≤ 2 * M + (2 * u * M + η) := by
    have := abs_add_le (d2 - (q - a)) (q - a)
    rw [sub_add_cancel] at this
    linarith
  have b12 : |d1 * d2| ≤ (2 * M + (2 * u * M + η)) * (2 * M + (2 * u * M + η)) := by
    rw [abs_mul]
    exact mul_le_mul b1 b2 (abs_nonneg _) (by linarith)
  refine ⟨b12, ?_⟩
  -- distances of the two factors
  have f1 : |d1 - (q - mu)| ≤ (L + 1) / 2 * (4 * u * M + 3 * η) + (2 * u * M + η) := by
    have := abs_add_le (d1 - (q - p)) (mu - p)
    rw [abs_sub_comm mu p, show d1 - (q - p) + (mu - p) = d1 - (q - mu) by ring] at this
    linarith
  have f2 : |d2 - (q - mu')| ≤ (L + 2) / 2 * (4 * u * M + 3 * η) + (2 * u * M + η) := by
    have := abs_add_le (d2 - (q - a)) (mu' - a)
    rw [abs_sub_comm mu' a, show d2 - (q - a) + (mu' - a) = d2 - (q - mu') by ring] at this
    linarith
  have f3 : |d1 * d2 - (q - mu) * (q - mu')| ≤ |d1 - (q - mu)| * |d2| + |q - mu| * |d2 - (q - mu')| := by
    have := abs_add_le ((d1 - (q - mu)) * d2) ((q - mu) * (d2 - (q - mu')))
    rw [abs_mul, abs_mul, show (d1 - (q - mu)) * d2 + (q - mu) * (d2 - (q - mu')) = d1 * d2 - (q - mu) * (q - mu') by ring] at this
    exact this
  have f4 : |pr - (q - mu) * (q - mu')| ≤ |pr - d1 * d2| + |d1 * d2 - (q - mu) * (q - mu')| := by
    have := abs_add_le (pr - d1 * d2) (d1 * d2 - (q - mu) * (q - mu'))
    rwa [sub_add_sub_cancel] at this
  have hB : 0 ≤ 2 * M + (2 * u * M + η) := by linarith
  have hδ : 0 ≤ 4 * u * M + 3 * η := by linarith
  have hr : 2 * u * M + η ≤ (4 * u * M + 3 * η) / 2 := by linarith
  have hMB : 2 * M ≤ 2 * M + (2 * u * M + η) := by linarith
  have hz : u * (2 * M + (2 * u * M + η)) ≤ 4 * u * M + 3 * η := by nlinarith
  generalize 2 * M + (2 * u * M + η) = B at *
  generalize 4 * u * M + 3 * η = δ at *
  generalize 2 * u * M + η = r at *
  have g1 : |d1 - (q - mu)| * |d2| ≤ ((L + 1) / 2 * δ + δ / 2) * B := by
    refine mul_le_mul (f1.trans (by linarith)) b2 (abs_nonneg _) ?_
    have := mul_nonneg (by linarith : (0 : Rat) ≤ (L + 1) / 2) hδ
    linarith
  have g2 : |q - mu| * |d2 - (q - mu')| ≤ B * ((L + 2) / 2 * δ + δ / 2) := by
    exact mul_le_mul (bm.trans hMB) (f2.trans (by linarith)) (abs_nonneg _) hB
  have g3 : |d1 * d2| * u ≤ δ * B := by
    have := mul_le_mul_of_nonneg_right b12 hu
    have := mul_le_mul_of_nonneg_right hz hB
    linarith
  have : B * δ * (L + 7 / 2) = ((L + 1) / 2 * δ + δ / 2) * B + B * ((L + 2) / 2 * δ + δ / 2) + δ * B := by ring
  linarith

/-- The accumulated error after one more sample. -/
theorem m2_sum {u η M L pr m m' S S' x : Rat} (hu : 0 ≤ u) (hη : 0 ≤ η) (hM : 0 ≤ M) (hL : 0 ≤ L) (huL : u * L ≤ 1) (hu8 : u ≤ 1 / 8)
    (hK : |m - S| ≤ (5 * ((2 * M + (2 * u * M + η)) * (4 * u * M + 3 * η)) + 3 * η) * L ^ 2)
    (hP : |pr - x| ≤ (2 * M + (2 * u * M + η)) * (4 * u * M + 3 * η) * (L + 7 / 2) + η) (hS : S' = S + x) (h0 : 0 ≤ S') (h1 : S' ≤ (L + 1) * M ^ 2) :
    |m + pr| ≤ (L + 1) * M ^ 2 + (5 * ((2 * M + (2 * u * M + η)) * (4 * u * M + 3 * η)) + 3 * η) * (L + 1) ^ 2 ∧
    (|m' - (m + pr)| ≤ |m + pr| * u + η → |m' - S'| ≤ (5 * ((2 * M + (2 * u * M + η)) * (4 * u * M + 3 * η)) + 3 * η) * (L + 1) ^ 2) := by
  have huM : 0 ≤ u * M := mul_nonneg hu hM
  have hX : 0 ≤ (2 * M + (2 * u * M + η)) * (4 * u * M + 3 * η) := by positivity
  have hS1 : u * S' ≤ (L + 1) * ((2 * M + (2 * u * M + η)) * (4 * u * M + 3 * η)) / 8 := by
    have t1 : u * S' ≤ (L + 1) * (u * M ^ 2) := by nlinarith
    have t2 : u * M ^ 2 ≤ (2 * M + (2 * u * M + η)) * (4 * u * M + 3 * η) / 8 := by
      have : (2 * M) * (4 * u * M) ≤ (2 * M + (2 * u * M + η)) * (4 * u * M + 3 * η) := by
        apply mul_le_mul <;> linarith
      nlinarith
    nlinarith
  generalize (2 * M + (2 * u * M + η)) * (4 * u * M + 3 * η) = X at *
  have a1 : |m + pr - S'| ≤ (5 * X + 3 * η) * L ^ 2 + (X * (L + 7 / 2) + η) := by
    have := abs_add_le (m - S) (pr - x)
    rw [show m - S + (pr - x) = m + pr - S' by rw [hS]; ring] at this
    linarith
  have a2 : |m + pr| ≤ S' + ((5 * X + 3 * η) * L ^ 2 + (X * (L + 7 / 2) + η)) := by
    have := abs_add_le (m + pr - S') S'
    rw [sub_add_cancel, abs_of_nonneg h0] at this
    linarith
  have hLX : 0 ≤ L * X := mul_nonneg hL hX
  have hLη : 0 ≤ L * η := mul_nonneg hL hη
  refine ⟨?_, fun hm => ?_⟩
  · nlinarith
  · have a3 := abs_add_le (m' - (m + pr)) (m + pr - S')
    rw [sub_add_sub_cancel] at a3
    have a4 : |m + pr| * u ≤ (L + 1) * X / 8 + ((5 * X + 3 * η) * L + (X * (L + 7 / 2) + η) / 8) := by
      have t1 : |m + pr| * u ≤ (S' + ((5 * X + 3 * η) * L ^ 2 + (X * (L + 7 / 2) + η))) * u := mul_le_mul_of_nonneg_right a2 hu
      have t2 : (5 * X + 3 * η) * L ^ 2 * u ≤ (5 * X + 3 * η) * L := by
        have : (5 * X + 3 * η) * L * (u * L) ≤ (5 * X + 3 * η) * L * 1 := by
          apply mul_le_mul_of_nonneg_left huL
          positivity
        nlinarith
      have t3 : (X * (L + 7 / 2) + η) * u ≤ (X * (L + 7 / 2) + η) * (1 / 8) := by
        apply mul_le_mul_of_nonneg_left hu8
        positivity
      nlinarith
    nlinarith

theorem varK_nonneg {M : Rat} (hM : 0 ≤ M) : 0 ≤ varK M := by
  have hu := (two_pos (-53)).le
  have hη := (two_pos (-1075)).le
  unfold varK
  generalize (2 : Rat) ^ (-53 : Int) = u at *
  generalize (2 : Rat) ^ (-1075 : Int) = η at *
  positivity

theorem varK_small : (2 : Rat) ^ 53 * (2 ^ 480) ^ 2 + varK (2 ^ 480) * (2 ^ 53) ^ 2 ≤ big := by decide +kernel

theorem varK_mono {M N : Rat} (hM : 0 ≤ M) (h : M ≤ N) : varK M ≤ varK N := by
  have hu := (two_pos (-53)).le
  have hη := (two_pos (-1075)).le
  have hN := hM.trans h
  unfold varK
  generalize (2 : Rat) ^ (-53 : Int) = u at *
  generalize (2 : Rat) ^ (-1075 : Int) = η at *
  gcongr

theorem no_overflow {M L : Rat} (hM : 0 ≤ M) (hM1 : M ≤ 2 ^ 480) (hL : 0 ≤ L) (hL1 : L ≤ 2 ^ 53) : L * M ^ 2 + varK M * L ^ 2 ≤ big := by
  have h0 := varK_nonneg hM
  have h1 := varK_mono hM hM1
  have : L * M ^ 2 + varK M * L ^ 2 ≤ (2 : Rat) ^ 53 * (2 ^ 480) ^ 2 + varK (2 ^ 480) * (2 ^ 53) ^ 2 := by
    have := varK_nonneg (M := 2 ^ 480) (by positivity)
    gcongr
  exact this.trans varK_small

/-- The invariant: that of C71 and the error of the sum of squares. -/
def GoodV (M : Rat) (xs : List Rat) (c : Collector) : Prop :=
  GoodR M xs c ∧ (xs.length ≤ 2 ^ 53 → ∃ m, c.m2 = .fin m ∧ |m - sqDev xs| ≤ varK M * (xs.length : Rat) ^ 2) ∧
    (xs = [] ∨ c.data.var = binary64.div c.m2 (binary64.rnd (xs.length : Rat)))

theorem goodV_reset {M : Rat} (hM : 0 ≤ M) (c : Collector) : GoodV M [] c.reset :=
  ⟨goodR_reset hM c, fun _ => ⟨0, rfl, by simp [sqDev]⟩, .inl rfl⟩

theorem GoodV.of_data {M : Rat} {xs : List Rat} {c d : Collector} (g : GoodV M xs c) (h1 : d.data = c.data) (h2 : d.m2 = c.m2) : GoodV M xs d :=
  ⟨g.1.of_data h1 h2, by rw [h2]; exact g.2.1, by rw [h1, h2]; exact g.2.2⟩

/-- How far the computed average may be off (from the invariant of C71). -/
theorem GoodR.avg_err {M : Rat} (hM : 0 ≤ M) {xs : List Rat} {c : Collector} (g : GoodR M xs c) (hl : xs.length ≤ 2 ^ 53) : ∃ a, c.data.average = .fin a ∧
    |a| ≤ M ∧ |a - mean xs| ≤ ((xs.length : Rat) + 1) / 2 * (4 * 2 ^ (-53 : Int) * M + 3 * 2 ^ (-1075 : Int)) := by
  obtain ⟨a, ea, -, ba, h0, -, herr, -⟩ := g.avg
  refine ⟨a, ea, ba, ?_⟩
  have hu := (two_pos (-53)).le
  have hη := (two_pos (-1075)).le
  have he := herr hl
  generalize (2 : Rat) ^ (-53 : Int) = u at *
  generalize (2 : Rat) ^ (-1075 : Int) = η at *
  by_cases hx : xs = []
  · rw [h0 hx, hx]
    simp only [mean, List.sum_nil, List.length_nil]
    norm_num
    positivity
  · have hL : (0 : Rat) < xs.length := by exact_mod_cast List.length_pos_iff.2 hx
    refine le_of_mul_le_mul_right (he.trans (le_of_eq ?_)) hL
    ring

/-- One sample more. -/
theorem GoodV.add {M : Rat} (hM0 : 0 ≤ M) (hM : M ≤ 2 ^ 480) {xs : List Rat} {c : Collector} (g : GoodV M xs c) (q : Rat) (hq : binary64.Rep (.fin q))
    (hqM : |q| ≤ M) (hc : xs.length + 1 < 2 ^ 64) : GoodV M (xs ++ [q]) (c.addR binary64 (.fin q)) := by
  obtain ⟨g, gm, -⟩ := g
  have hMb : M ≤ big / 2 := hM.trans (by decide +kernel)
  have g' := g.add hMb q hq hqM hc
  refine ⟨g', fun hl => ?_, .inr (by simp [Collector.addR, Dbl.isFinite, g.count])⟩
  rw [List.length_append, List.length_singleton] at hl
  have hl0 : xs.length ≤ 2 ^ 53 := by omega
  obtain ⟨m, em, hm⟩ := gm hl0
  obtain ⟨p, ep, bp, hp⟩ := g.avg_err hM0 hl0
  obtain ⟨a, ea, ba, ha⟩ := g'.avg_err hM0 (by simpa using hl)
  have hmu := mean_abs_le hM0 xs fun x hx => (g.rep x hx).2
  have hS0 := sqDev_nonneg (xs ++ [q])
  have hS1 := sqDev_le (xs ++ [q]) fun x hx => (g'.rep x hx).2
  have hSe := sqDev_add xs q
  have hm2 : (c.addR binary64 (.fin q)).m2 =
      binary64.add (.fin m) (binary64.mul (binary64.sub (.fin q) (.fin p)) (binary64.sub (.fin q) (.fin a))) := by
    have : (c.addR binary64 (.fin q)).m2 =
        binary64.add c.m2 (binary64.mul (binary64.sub (.fin q) c.data.average) (binary64.sub (.fin q) (c.addR binary64 (.fin q)).data.average)) := by
      simp only [Collector.addR, Dbl.isFinite, if_true]
    rw [this, ea, ep, em]
  have abs2 : ∀ y : Rat, |y| ≤ M → |q - y| ≤ 2 * M := by
    intro y hy
    have := abs_sub q y
    linarith
  have big2 : ∀ y : Rat, |y| ≤ M → |q + -y| ≤ big := by
    intro y hy
    rw [← sub_eq_add_neg]
    have := abs2 y hy
    linarith
  obtain ⟨d1, hd1, -⟩ := rnd_fin (big2 p bp)
  obtain ⟨d2, hd2, -⟩ := rnd_fin (big2 a ba)
  have e1 := binary64_err hd1
  have e2 := binary64_err hd2
  rw [← sub_eq_add_neg] at e1 e2
  rw [show binary64.sub (.fin q) (.fin p) = .fin d1 from hd1, show binary64.sub (.fin q) (.fin a) = .fin d2 from hd2] at hm2
  have hL : (0 : Rat) ≤ xs.length := by positivity
  have hL1 : (xs.length : Rat) + 1 ≤ 2 ^ 53 := by exact_mod_cast hl
  have hlen : (((xs ++ [q]).length : Nat) : Rat) = xs.length + 1 := by simp
  rw [hlen] at ha hS1 ⊢
  have hno := no_overflow hM0 hM (by linarith : (0 : Rat) ≤ xs.length + 1) hL1
  have hno1 := no_overflow hM0 hM (by norm_num : (0 : Rat) ≤ 2 ^ 53) le_rfl
  have hu := (two_pos (-53)).le
  have hη := (two_pos (-1075)).le
  have hu8 : (2 : Rat) ^ (-53 : Int) ≤ 1 / 8 := by norm_num
  have huL : (2 : Rat) ^ (-53 : Int) * xs.length ≤ 1 := by
    have : (2 : Rat) ^ (-53 : Int) * xs.length ≤ 2 ^ (-53 : Int) * 2 ^ 53 := mul_le_mul_of_nonneg_left (by linarith) hu
    refine this.trans (by norm_num)
  have hB : (2 * M + (2 * (2 : Rat) ^ (-53 : Int) * M + 2 ^ (-1075 : Int))) * (2 * M + (2 * 2 ^ (-53 : Int) * M + 2 ^ (-1075 : Int))) ≤ big := by
    have h1 : 2 * M + (2 * (2 : Rat) ^ (-53 : Int) * M + 2 ^ (-1075 : Int)) ≤ 2 * 2 ^ 480 + (2 * 2 ^ (-53 : Int) * 2 ^ 480 + 2 ^ (-1075 : Int)) := by
      gcongr
    have h0 : 0 ≤ 2 * M + (2 * (2 : Rat) ^ (-53 : Int) * M + 2 ^ (-1075 : Int)) := by
      generalize (2 : Rat) ^ (-53 : Int) = u at *
      generalize (2 : Rat) ^ (-1075 : Int) = η at *
      positivity
    refine (mul_le_mul h1 h1 h0 (h0.trans h1)).trans ?_
    decide +kernel
  -- the product
  have pr1 := fun pr => m2_prod (pr := pr) hu hη hM0 hL hp (ha.trans (le_of_eq (by ring))) (abs2 p bp) (abs2 a ba) (abs2 _ hmu) hu8 e1 e2
  have b12 : |d1 * d2| ≤ big := by
    refine (pr1 (d1 * d2) ?_).1.trans hB
    rw [sub_self, abs_zero]
    exact add_nonneg (mul_nonneg (abs_nonneg _) hu) hη
  obtain ⟨pr, hpr, -⟩ := rnd_fin b12
  rw [show binary64.mul (.fin d1) (.fin d2) = .fin pr from hpr] at hm2
  have hP := (pr1 pr (binary64_err hpr)).2
  have sum := fun m' => m2_sum (m' := m') hu hη hM0 hL huL hu8 hm hP hSe hS0 hS1
  obtain ⟨m', hm', -⟩ := rnd_fin (((sum 0).1).trans hno)
  refine ⟨m', by rw [hm2]; exact hm', ?_⟩
  exact (sum m').2 (binary64_err hm')

/-- The collector and the window. -/
def RelV (M : Rat) (w : Window) (s : Collector × Report) : Prop :=
  s.2.resetAt = w.limit ∧ s.1.data.count = w.samples.length ∧ (w.wasReset = true → GoodV M w.samples s.1)

theorem relV_run {M : Rat} (hM0 : 0 ≤ M) (hM : M ≤ 2 ^ 480) (ops : List Op) (hr : Samples M ops) (hw : NoWrap ops) :
    RelV M (window ops) (runR binary64 ops) := by
  induction ops using List.reverseRecOn with
  | nil => exact ⟨rfl, rfl, by simp [window]⟩
  | append_singleton ops op ih =>
    obtain ⟨h1, h2, h3⟩ := ih (fun q hq => hr q (by simp [hq])) (fun pre hp => hw pre (hp.trans (List.prefix_append _ _)))
    have ew : window (ops ++ [op]) = (window ops).step op := by simp [window]
    have er : runR binary64 (ops ++ [op]) = stepR binary64 (runR binary64 ops) op := by simp [runR]
    have hlen := hw (ops ++ [op]) List.prefix_rfl
    rw [ew] at hlen
    rw [ew, er]
    generalize window ops = w at *
    generalize runR binary64 ops = s at *
    cases op with
    | add x =>
      cases x with
      | fin q =>
        obtain ⟨r1, r2⟩ := hr q (by simp)
        refine ⟨h1, by simp [Window.step, stepR, Collector.addR, Dbl.isFinite, h2], fun hw' => ?_⟩
        exact (h3 hw').add hM0 hM q r1 r2 (by simpa [Window.step] using hlen)
      | nan => exact ⟨h1, h2, fun hw => (h3 hw).of_data rfl rfl⟩
      | ninf => exact ⟨h1, h2, fun hw => (h3 hw).of_data rfl rfl⟩
      | pinf => exact ⟨h1, h2, fun hw => (h3 hw).of_data rfl rfl⟩
    | reset => exact ⟨h1, rfl, fun _ => goodV_reset hM0 s.1⟩
    | resetCurrent => exact ⟨h1, h2, fun hw => (h3 hw).of_data rfl rfl⟩
    | publish =>
      simp only [Window.step, stepR, step, Report.update]
      rw [h2, h1]
      split
      · refine ⟨?_, rfl, fun _ => goodV_reset hM0 s.1⟩
        split <;> first | exact h1 | rfl
      · refine ⟨?_, h2, h3⟩
        split <;> first | exact h1 | rfl
    | setResetCount n => exact ⟨rfl, h2, h3⟩

/-- **C71 (variance).** After every history with a reset and between one and `2^53` samples since then, all of at most `M ≤ 2^480` in size, the
argument of the square root is a finite number that differs from the exact variance of the samples by at most `2 n K`. -/
theorem C71_variance {M : Rat} (hM0 : 0 ≤ M) (hM : M ≤ 2 ^ 480) (ops : List Op) (hr : Samples M ops) (hn : NoWrap ops)
    (hw : (window ops).wasReset = true) (hne : (window ops).samples ≠ []) (hl : (window ops).samples.length ≤ 2 ^ 53) :
    ∃ v, (runR binary64 ops).1.data.var = .fin v ∧ |v - variance (window ops).samples| ≤ 2 * (window ops).samples.length * varK M := by
  obtain ⟨g, gm, gv⟩ := (relV_run hM0 hM ops hr hn).2.2 hw
  generalize (window ops).samples = xs at *
  generalize (runR binary64 ops).1 = c at *
  obtain ⟨m, em, hm⟩ := gm hl
  have gv := gv.resolve_left hne
  have hpos : 0 < xs.length := List.length_pos_iff.2 hne
  have hL0 : (1 : Rat) ≤ xs.length := by exact_mod_cast hpos
  have hL1 : (xs.length : Rat) ≤ 2 ^ 53 := by exact_mod_cast hl
  have hS0 := sqDev_nonneg xs
  have hS1 := sqDev_le xs fun x hx => (g.rep x hx).2
  have hno := no_overflow hM0 hM (by linarith : (0 : Rat) ≤ xs.length) hL1
  have hmb : |m| ≤ xs.length * M ^ 2 + varK M * (xs.length : Rat) ^ 2 := by
    have := abs_add_le (m - sqDev xs) (sqDev xs)
    rw [sub_add_cancel, abs_of_nonneg hS0] at this
    linarith
  rw [rnd_nat hpos hl, em, Rounding.div_fin _ _ _ (by linarith)] at gv
  have hvar : variance xs = sqDev xs / xs.length := rfl
  have hK0 : 40 * 2 ^ (-53 : Int) * M ^ 2 + 3 * 2 ^ (-1075 : Int) ≤ varK M := by
    have hu := (two_pos (-53)).le
    have hη := (two_pos (-1075)).le
    unfold varK
    generalize (2 : Rat) ^ (-53 : Int) = u at *
    generalize (2 : Rat) ^ (-1075 : Int) = η at *
    have huM := mul_nonneg hu hM0
    have : (2 * M) * (4 * u * M) ≤ (2 * M + (2 * u * M + η)) * (4 * u * M + 3 * η) := by
      apply mul_le_mul <;> linarith
    nlinarith
  generalize hLe : (xs.length : Rat) = L at *
  have hLpos : 0 < L := by linarith
  have hdiv : |m / L - variance xs| ≤ varK M * L := by
    rw [hvar, ← sub_div, abs_div, abs_of_pos hLpos, div_le_iff₀ hLpos]
    exact hm.trans (le_of_eq (by ring))
  have hdm : |m / L| ≤ M ^ 2 + varK M * L := by
    rw [abs_div, abs_of_pos hLpos, div_le_iff₀ hLpos]
    exact hmb.trans (le_of_eq (by ring))
  have hK := varK_nonneg hM0
  obtain ⟨v, hv, -⟩ := rnd_fin (a := m / L) (hdm.trans (le_trans (by nlinarith [mul_nonneg (sub_nonneg.2 hL0) (sq_nonneg M), mul_nonneg (mul_nonneg hK hLpos.le) (sub_nonneg.2 hL0)]) hno))
  refine ⟨v, gv.trans hv, ?_⟩
  have e := binary64_err hv
  have hu := (two_pos (-53)).le
  have hη := (two_pos (-1075)).le
  have hu8 : (2 : Rat) ^ (-53 : Int) ≤ 1 / 8 := by norm_num
  generalize (2 : Rat) ^ (-53 : Int) = u at *
  generalize (2 : Rat) ^ (-1075 : Int) = η at *
  have t := abs_add_le (v - m / L) (m / L - variance xs)
  rw [sub_add_sub_cancel] at t
  have t1 : |m / L| * u ≤ (M ^ 2 + varK M * L) * u := mul_le_mul_of_nonneg_right hdm hu
  have t2 : varK M * L * u ≤ varK M * L * (1 / 8) := mul_le_mul_of_nonneg_left hu8 (by positivity)
  have t3 : varK M ≤ varK M * L := le_mul_of_one_le_right hK hL0
  have t4 : 0 ≤ M ^ 2 * u := by positivity
  nlinarith

/-- **C71 (deviation).** The square root of the number computed differs from the standard deviation by at most the root of that bound. -/
theorem C71_deviation {M : Rat} (hM0 : 0 ≤ M) (hM : M ≤ 2 ^ 480) (ops : List Op) (hr : Samples M ops) (hn : NoWrap ops)
    (hw : (window ops).wasReset = true) (hne : (window ops).samples ≠ []) (hl : (window ops).samples.length ≤ 2 ^ 53) :
    ∃ v : Rat, (runR binary64 ops).1.data.var = .fin v ∧ 0 ≤ v ∧
      |Real.sqrt (v : ℝ) - Real.sqrt ((variance (window ops).samples : Rat) : ℝ)| ≤ Real.sqrt ((2 * (window ops).samples.length * varK M : Rat) : ℝ) := by
  obtain ⟨v, ev, hv⟩ := C71_variance hM0 hM ops hr hn hw hne hl
  have h0 := (C71_sensible_partial (hM.trans (by decide +kernel)) ops hr hn hw hne).var.2
  rw [ev, Dbl.zero_eq] at h0
  have h0 : 0 ≤ v := by simpa using h0
  refine ⟨v, ev, h0, ?_⟩
  have hV : 0 ≤ variance (window ops).samples := by
    show 0 ≤ sqDev _ / _
    exact div_nonneg (sqDev_nonneg _) (by positivity)
  generalize variance (window ops).samples = V at *
  generalize (2 * ((window ops).samples.length : Rat) * varK M) = e at *
  have hv' : |(v : ℝ) - V| ≤ e := by exact_mod_cast hv
  have h0' : (0 : ℝ) ≤ v := by exact_mod_cast h0
  have hV' : (0 : ℝ) ≤ V := by exact_mod_cast hV
  generalize (v : ℝ) = x at *
  generalize (V : ℝ) = y at *
  generalize (e : ℝ) = z at *
  apply Real.le_sqrt_of_sq_le
  have hx := Real.sq_sqrt h0'
  have hy := Real.sq_sqrt hV'
  have sx := Real.sqrt_nonneg x
  have sy := Real.sqrt_nonneg y
  generalize Real.sqrt x = a at *
  generalize Real.sqrt y = b at *
  rw [sq_abs]
  have h1 := abs_le.1 hv'
  rcases le_total a b with h | h <;> nlinarith

/-- What `std::sqrt` may answer for a `double` `v`: the root of a `double` is a normal number, correctly rounded (IEEE 754), so within half a unit
in the last place. -/
def SqrtAnswer (v s : Rat) : Prop := |(s : ℝ) - Real.sqrt (v : ℝ)| ≤ (1 / 2 ^ 53 : ℝ) * Real.sqrt (v : ℝ)

/-- **C71 (the published standard deviation).** Whatever `std::sqrt` answers within its precision: the standard deviation published is within
`E + 2^-53 (s + E)` of the true one `s`, where `E` is the root of the error of the variance. -/
theorem C71_published_deviation {M : Rat} (hM0 : 0 ≤ M) (hM : M ≤ 2 ^ 480) (ops : List Op) (hr : Samples M ops) (hn : NoWrap ops)
    (hw : (window ops).wasReset = true) (hne : (window ops).samples ≠ []) (hl : (window ops).samples.length ≤ 2 ^ 53) :
    ∃ v : Rat, (runR binary64 ops).1.data.var = .fin v ∧ ∀ s, SqrtAnswer v s →
      |(s : ℝ) - Real.sqrt ((variance (window ops).samples : Rat) : ℝ)| ≤
        Real.sqrt ((2 * (window ops).samples.length * varK M : Rat) : ℝ) +
        1 / 2 ^ 53 * (Real.sqrt ((variance (window ops).samples : Rat) : ℝ) + Real.sqrt ((2 * (window ops).samples.length * varK M : Rat) : ℝ)) := by
  obtain ⟨v, ev, -, hd⟩ := C71_deviation hM0 hM ops hr hn hw hne hl
  refine ⟨v, ev, fun s hs => ?_⟩
  unfold SqrtAnswer at hs
  generalize Real.sqrt ((variance (window ops).samples : Rat) : ℝ) = S at *
  generalize Real.sqrt ((2 * (window ops).samples.length * varK M : Rat) : ℝ) = E at *
  generalize Real.sqrt (v : ℝ) = r at *
  have h1 := abs_le.1 hd
  have h2 := abs_le.1 hs
  have h3 : (1 / 2 ^ 53 : ℝ) * r ≤ 1 / 2 ^ 53 * (S + E) := mul_le_mul_of_nonneg_left (by linarith) (by positivity)
  rw [abs_le]
  constructor <;> linarith

-- an answer of `std::sqrt`
example : SqrtAnswer 4 2 := by
  unfold SqrtAnswer
  have : Real.sqrt ((4 : Rat) : ℝ) = 2 := by
    rw [show (((4 : Rat) : ℝ)) = 2 ^ 2 by norm_num]
    exact Real.sqrt_sq (by norm_num)
  rw [this]; norm_num

/-- Six cycle times of about 1000: the variance computed is not the exact one, but within a millionth of it. -/
example : (∃ v, (runR binary64 demoOps).1.data.var = .fin v ∧ v ≠ variance (window demoOps).samples ∧
    |v - variance (window demoOps).samples| ≤ 2 * 6 * varK 1003) ∧ variance (window demoOps).samples = 47 / 36 ∧ 2 * 6 * varK 1003 < 1 / 10 ^ 6 := by
  refine ⟨?_, by decide +kernel, by decide +kernel⟩
  obtain ⟨v, ev, hv⟩ := C71_variance (M := 1003) (by norm_num) (by decide +kernel) demoOps demo_samples' demo_noWrap (by decide +kernel) (by decide +kernel) (by decide +kernel)
  refine ⟨v, ev, ?_, hv⟩
  rintro rfl
  exact absurd ev (by decide +kernel)

end Stat
end Verif
