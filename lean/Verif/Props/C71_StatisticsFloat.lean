import Verif.Num.StatisticsR
import Verif.Num.Round64
import Verif.Props.C32_Statistics

/-!
# C71: the statistics in floating point

Full statement: what the diagnostics show in `double` arithmetic is meaningful: count, minimum and maximum are those of the samples; the average lies
between minimum and maximum and is close to the exact one; the standard deviation is a number (the argument of the square root is not negative).

Proved for IEEE 754 binary64, for every history with a reset and samples of at most half the largest number (in absolute value). Beyond that the
difference of two samples overflows: `C71_overflow`.
-/
namespace Verif
namespace Stat
open Rounding

/-- Every sample is a `double` of at most `M` in absolute value. -/
def Samples (M : Rat) (ops : List Op) : Prop := ∀ q, Op.add (.fin q) ∈ ops → binary64.rnd q = .fin q ∧ |q| ≤ M

/-- What the collector knows in floating point. -/
structure GoodR (M : Rat) (xs : List Rat) (c : Collector) : Prop where
  count : c.data.count = xs.length
  rep : ∀ x ∈ xs, binary64.Rep (.fin x) ∧ |x| ≤ M
  avg : ∃ a, c.data.average = .fin a ∧ binary64.Rep (.fin a) ∧ |a| ≤ M ∧ (xs = [] → a = 0) ∧
    (xs ≠ [] → (∃ lo ∈ xs, lo ≤ a) ∧ (∃ hi ∈ xs, a ≤ hi)) ∧
    (xs.length ≤ 2 ^ 53 → |a - mean xs| * xs.length ≤ (xs.length * (xs.length + 1)) / 2 * (4 * 2 ^ (-53 : Int) * M + 3 * 2 ^ (-1075 : Int))) ∧
    (∀ v, (∀ x ∈ xs, x = v) → (xs = [] ∨ a = v) ∧ c.m2 = 0)
  m2 : Dbl.le 0 c.m2 = true
  min : (xs = [] ∧ c.data.min = .fin dblMax) ∨ ∃ m ∈ xs, c.data.min = .fin m ∧ ∀ x ∈ xs, m ≤ x
  max : (xs = [] ∧ c.data.max = .fin (-dblMax)) ∨ ∃ m ∈ xs, c.data.max = .fin m ∧ ∀ x ∈ xs, x ≤ m
  var : (xs = [] ∧ c.data.var = 0) ∨ (Dbl.le 0 c.data.var = true ∧ (c.m2 = 0 → c.data.var = 0))

theorem goodR_reset {M : Rat} (hM : 0 ≤ M) (c : Collector) : GoodR M [] c.reset where
  count := rfl
  rep := by simp
  avg := ⟨0, rfl, binary64.zero, by simpa using hM, fun _ => rfl, fun h => absurd rfl h, fun _ => by simp, fun _ _ => ⟨.inl rfl, rfl⟩⟩
  m2 := rfl
  min := .inl ⟨rfl, rfl⟩
  max := .inl ⟨rfl, rfl⟩
  var := .inl ⟨rfl, rfl⟩

/-- The number of samples as a `double`: at least two from the second sample on. -/
theorem rnd_count {n : Nat} (h : 2 ≤ n) : Dbl.le (.fin 2) (binary64.rnd (n : Rat)) = true := by
  refine le_rnd (R := binary64) (a := (n : Rat)) (show binary64.rnd 2 = .fin 2 by decide +kernel) ?_
  have : (2 : Rat) ≤ n := by exact_mod_cast h
  simpa using this

/-- Counts up to `2^53` are exact. -/
theorem rnd_nat {n : Nat} (h0 : 0 < n) (h : n ≤ 2 ^ 53) : binary64.rnd (n : Rat) = .fin n := by
  have hp : (0 : Rat) < n := by exact_mod_cast h0
  have hr : rndPos (n : Rat) = n := by
    rcases Nat.lt_or_eq_of_le h with h | h
    · have hlog : Int.log 2 (n : Rat) < 53 := by
        refine (Int.lt_zpow_iff_log_lt (by norm_num) hp).1 ?_
        have : (n : Rat) < 2 ^ 53 := by exact_mod_cast h
        exact_mod_cast this
      have hu : ulpExp (n : Rat) ≤ 0 := by unfold ulpExp; omega
      obtain ⟨j, hj⟩ := Int.eq_ofNat_of_zero_le (show 0 ≤ -ulpExp (n : Rat) by omega)
      refine rndPos_of_int (n := n * 2 ^ j) ?_
      rw [div_eq_iff (two_pos _).ne']
      push_cast
      rw [mul_assoc, ← zpow_natCast, ← zpow_add₀ (by norm_num)]
      rw [show (j : Int) + ulpExp (n : Rat) = 0 by omega]
      simp
    · rw [h]
      have : binary64.rnd ((2 ^ 53 : Nat) : Rat) = .fin ((2 ^ 53 : Nat) : Rat) := by decide +kernel
      have h2 : up ((2 ^ 53 : Nat) : Rat) = .fin ((2 ^ 53 : Nat) : Rat) := by
        have h3 : rnd64 ((2 ^ 53 : Nat) : Rat) = .fin ((2 ^ 53 : Nat) : Rat) := this
        unfold rnd64 at h3
        rw [if_pos (by norm_num)] at h3
        exact h3
      unfold up at h2
      split at h2
      · cases h2
      · injection h2
  show rnd64 (n : Rat) = _
  unfold rnd64 up
  rw [if_pos hp, hr, if_neg]
  rw [not_le]
  have h1 : (n : Rat) ≤ 2 ^ 53 := by exact_mod_cast h
  have h2 : (2 : Rat) ^ 53 < 2 ^ 1024 := by
    exact pow_lt_pow_right₀ (by norm_num) (by norm_num)
  exact lt_of_le_of_lt h1 h2

theorem sub_sign {x y : Rat} : (y ≤ x → Dbl.le 0 (binary64.sub (.fin x) (.fin y)) = true) ∧
    (x ≤ y → Dbl.le (binary64.sub (.fin x) (.fin y)) 0 = true) := by
  have e : binary64.sub (.fin x) (.fin y) = binary64.rnd (x + -y) := rfl
  rw [e]
  exact ⟨fun h => rnd_nonneg (by linarith), fun h => rnd_nonpos (by linarith)⟩

theorem mul_nonneg' {a b : Rat} (h : 0 ≤ a * b) : Dbl.le 0 (binary64.mul (.fin a) (.fin b)) = true := rnd_nonneg h

theorem add_nonneg' {a b : Dbl} (ha : Dbl.le 0 a = true) (hb : Dbl.le 0 b = true) : Dbl.le 0 (binary64.add a b) = true := by
  rw [Dbl.zero_eq] at *
  cases a with
  | fin a =>
    cases b with
    | fin b => exact rnd_nonneg (by simp at ha hb; linarith)
    | _ => first | exact hb | (simp [Dbl.le] at hb)
  | pinf =>
    cases b with
    | fin b => exact ha
    | pinf => exact ha
    | _ => simp [Dbl.le] at hb
  | _ => simp [Dbl.le] at ha

theorem div_nonneg' {a b : Dbl} (ha : Dbl.le 0 a = true) (hb : Dbl.lt 0 b = true) (hf : b.isFinite = true) : Dbl.le 0 (binary64.div a b) = true := by
  rw [Dbl.zero_eq] at *
  cases b with
  | fin b =>
    have hb : 0 < b := by simpa using hb
    cases a with
    | fin a =>
      have ha : 0 ≤ a := by simpa using ha
      rw [Rounding.div_fin _ _ _ hb.ne']
      exact rnd_nonneg (div_nonneg ha hb.le)
    | pinf => simp [Rounding.div, Dbl.div, hb.le, Dbl.infOf, Dbl.le]
    | _ => simp [Dbl.le] at ha
  | _ => simp [Dbl.isFinite] at hf

theorem big_eq : big = dblMax := rfl

/-- One sample more. `hc`: `sample_count` (a `uint64_t`) has not wrapped around. -/
theorem GoodR.add {M : Rat} (hM : M ≤ big / 2) {xs : List Rat} {c : Collector} (g : GoodR M xs c) (q : Rat) (hq : binary64.Rep (.fin q))
    (hqM : |q| ≤ M) (hc : xs.length + 1 < 2 ^ 64) : GoodR M (xs ++ [q]) (c.addR binary64 (.fin q)) := by
  obtain ⟨p, ep, rp, bp, p0, pb, perr, pconst⟩ := g.avg
  have hbig : (0 : Rat) < big := by unfold big; norm_num
  have hqb : |q| ≤ big := hqM.trans (by linarith)
  -- the new average
  have key : ∃ a, (c.addR binary64 (.fin q)).data.average = .fin a ∧ binary64.Rep (.fin a) ∧ ((p ≤ a ∧ a ≤ q) ∨ (q ≤ a ∧ a ≤ p)) ∧
      (xs = [] → a = q) ∧ (xs ≠ [] → xs.length + 1 ≤ 2 ^ 53 →
        |a - (p + (q - p) / (xs.length + 1))| ≤ 4 * 2 ^ (-53 : Int) * M + 3 * 2 ^ (-1075 : Int)) ∧ (p = q → a = q) := by
    have hav : (c.addR binary64 (.fin q)).data.average =
        binary64.add (.fin p) (binary64.div (binary64.sub (.fin q) (.fin p)) (binary64.rnd ((xs.length + 1 : Nat) : Rat))) := by
      simp only [Collector.addR, Dbl.isFinite, if_true, ep, g.count]
    rw [hav]
    by_cases hx : xs = []
    · have hp0 := p0 hx
      subst hx hp0
      have h1 : binary64.rnd ((([] : List Rat).length + 1 : Nat) : Rat) = .fin 1 := by decide +kernel
      have e1 : binary64.sub (.fin q) (.fin 0) = .fin q := by
        show binary64.rnd (q + -0) = _
        rw [neg_zero, add_zero]; exact hq
      have e2 : binary64.div (.fin q) (.fin 1) = .fin q := by
        rw [Rounding.div_fin _ _ _ (by norm_num), div_one]; exact hq
      have e3 : binary64.add (.fin 0) (.fin q) = .fin q := by
        show binary64.rnd (0 + q) = _
        rw [zero_add]; exact hq
      refine ⟨q, by rw [h1, e1, e2, e3], hq, ?_, fun _ => rfl, fun h => absurd rfl h, fun _ => rfl⟩
      rcases le_total 0 q with h | h
      · exact .inl ⟨h, le_rfl⟩
      · exact .inr ⟨le_rfl, h⟩
    · have h2 : 2 ≤ xs.length + 1 := by
        have := List.length_pos_iff.2 hx
        omega
      obtain ⟨a, h3, h4, h5⟩ := mean_step rp hq (bp.trans hM) (hqM.trans hM) (rnd_count h2)
      refine ⟨a, h3, h4, h5, fun h => absurd h hx, fun _ hl => ?_, fun e => ?_⟩
      · have hn := rnd_nat (n := xs.length + 1) (by omega) hl
        rw [hn] at h3
        have := mean_step_err rp hq hM bp hqM (by exact_mod_cast h2) h3
        push_cast at this
        exact this
      · subst e; rcases h5 with h | h <;> exact le_antisymm (by linarith [h.1, h.2]) (by linarith [h.1, h.2])
  obtain ⟨a, ha, ra, hab, haq, herr, hsame⟩ := key
  have hm2 : (c.addR binary64 (.fin q)).m2 =
      binary64.add c.m2 (binary64.mul (binary64.sub (.fin q) (.fin p)) (binary64.sub (.fin q) (.fin a))) := by
    have : (c.addR binary64 (.fin q)).m2 =
        binary64.add c.m2 (binary64.mul (binary64.sub (.fin q) c.data.average) (binary64.sub (.fin q) (c.addR binary64 (.fin q)).data.average)) := by
      simp only [Collector.addR, Dbl.isFinite, if_true]
    rw [this, ha, ep]
  have hqM' := abs_le.1 hqM
  have bp' := abs_le.1 bp
  have haM : |a| ≤ M := abs_le.2 (by rcases hab with ⟨h1, h2⟩ | ⟨h1, h2⟩ <;> constructor <;> linarith)
  have haM' := abs_le.1 haM
  have m2le : Dbl.le 0 (c.addR binary64 (.fin q)).m2 = true := by
    rw [hm2]
    refine add_nonneg' g.m2 ?_
    obtain ⟨d1, hd1, -⟩ := rnd_fin (a := q + -p) (abs_le.2 (by constructor <;> linarith))
    obtain ⟨d2, hd2, -⟩ := rnd_fin (a := q + -a) (abs_le.2 (by constructor <;> linarith))
    have s1 := sub_sign (x := q) (y := p)
    have s2 := sub_sign (x := q) (y := a)
    have e1 : binary64.sub (.fin q) (.fin p) = .fin d1 := hd1
    have e2 : binary64.sub (.fin q) (.fin a) = .fin d2 := hd2
    rw [e1] at s1 ⊢
    rw [e2] at s2 ⊢
    apply mul_nonneg'
    rcases hab with ⟨h1, h2⟩ | ⟨h1, h2⟩
    · have t1 := s1.1 (by linarith)
      have t2 := s2.1 (by linarith)
      rw [Dbl.zero_eq] at t1 t2
      exact mul_nonneg (by simpa using t1) (by simpa using t2)
    · have t1 := s1.2 (by linarith)
      have t2 := s2.2 (by linarith)
      rw [Dbl.zero_eq] at t1 t2
      exact mul_nonneg_of_nonpos_of_nonpos (by simpa using t1) (by simpa using t2)
  have hvar : (c.addR binary64 (.fin q)).data.var = binary64.div (c.addR binary64 (.fin q)).m2 (binary64.rnd ((xs.length + 1 : Nat) : Rat)) := by
    simp only [Collector.addR, Dbl.isFinite, if_true, g.count]
  have hnum : ∃ n : Rat, binary64.rnd ((xs.length + 1 : Nat) : Rat) = .fin n ∧ 0 < n := by
    have h1 : ((xs.length + 1 : Nat) : Rat) ≤ 2 ^ 64 := by exact_mod_cast hc.le
    have h0 : (1 : Rat) ≤ ((xs.length + 1 : Nat) : Rat) := by exact_mod_cast Nat.succ_le_succ (Nat.zero_le _)
    obtain ⟨n, hn, -⟩ := rnd_fin (a := ((xs.length + 1 : Nat) : Rat)) (by
      rw [abs_of_nonneg (by linarith)]
      exact h1.trans (show (2 : Rat) ^ 64 ≤ big by decide +kernel))
    refine ⟨n, hn, ?_⟩
    have r1 : binary64.Rep (.fin 1) := show binary64.rnd 1 = .fin 1 by decide +kernel
    have := le_rnd (R := binary64) r1 (a := ((xs.length + 1 : Nat) : Rat)) (by
      simp only [Dbl.le_fin, decide_eq_true_eq]; exact h0)
    rw [hn] at this
    have : 1 ≤ n := by simpa using this
    linarith
  refine ⟨by simp [Collector.addR, Dbl.isFinite, g.count], ?_, ⟨a, ha, ra, haM, by simp, fun _ => ?_, ?_, ?_⟩, m2le, ?_, ?_, ?_⟩
  · intro x hx
    rcases List.mem_append.1 hx with hx | hx
    · exact g.rep x hx
    · rw [List.mem_singleton] at hx; subst hx; exact ⟨hq, hqM⟩
  · by_cases hx : xs = []
    · have := haq hx
      subst this hx
      exact ⟨⟨a, by simp, le_rfl⟩, ⟨a, by simp, le_rfl⟩⟩
    · obtain ⟨⟨lo, hlo, l1⟩, ⟨hi, hhi, l2⟩⟩ := pb hx
      rcases hab with ⟨h1, h2⟩ | ⟨h1, h2⟩
      · exact ⟨⟨lo, by simp [hlo], by linarith⟩, ⟨q, by simp, h2⟩⟩
      · exact ⟨⟨q, by simp, h1⟩, ⟨hi, by simp [hhi], by linarith⟩⟩
  · intro hl
    rw [List.length_append, List.length_singleton] at hl ⊢
    push_cast
    have hl' : xs.length ≤ 2 ^ 53 := by omega
    have pe := perr hl'
    rw [mean_add]
    have hδ : (0 : Rat) ≤ 4 * 2 ^ (-53 : Int) * M + 3 * 2 ^ (-1075 : Int) := by
      have h1 := mul_nonneg (mul_nonneg (by norm_num : (0 : Rat) ≤ 4) (two_pos (-53)).le) ((abs_nonneg q).trans hqM)
      have h2 := (two_pos (-1075)).le
      linarith
    generalize (4 * 2 ^ (-53 : Int) * M + 3 * 2 ^ (-1075 : Int) : Rat) = δ at *
    generalize hL : (xs.length : Rat) = L at *
    have hL0 : 0 ≤ L := by rw [← hL]; positivity
    by_cases hx : xs = []
    · have hL1 : L = 0 := by rw [← hL, hx]; rfl
      have hm : mean xs = 0 := by rw [hx]; simp [mean]
      rw [haq hx, hL1, hm]
      simp
      linarith
    · have he := herr hx hl
      have hpos : 0 < L + 1 := by linarith
      have e : (a - (mean xs + (q - mean xs) / (L + 1))) * (L + 1) = (a - (p + (q - p) / (L + 1))) * (L + 1) + (p - mean xs) * L := by
        field_simp
        ring
      have e' : |a - (mean xs + (q - mean xs) / (L + 1))| * (L + 1) = |(a - (p + (q - p) / (L + 1))) * (L + 1) + (p - mean xs) * L| := by
        rw [← e, abs_mul, abs_of_pos hpos]
      rw [e']
      refine (abs_add_le _ _).trans ?_
      rw [abs_mul, abs_mul, abs_of_pos hpos, abs_of_nonneg hL0]
      nlinarith
  · intro v hv
    have hqv : q = v := hv q (by simp)
    subst hqv
    obtain ⟨pc, pm⟩ := pconst q (fun x hx => hv x (by simp [hx]))
    have haqq : a = q := by
      rcases pc with h | h
      · exact haq h
      · exact hsame h
    refine ⟨.inr haqq, ?_⟩
    rw [hm2, haqq, pm]
    have e2 : binary64.sub (.fin q) (.fin q) = .fin 0 := by
      show binary64.rnd (q + -q) = _
      rw [add_neg_cancel]; exact binary64.zero
    rw [e2]
    obtain ⟨d1, hd1, -⟩ := rnd_fin (a := q + -p) (abs_le.2 (by constructor <;> linarith))
    rw [show binary64.sub (.fin q) (.fin p) = .fin d1 from hd1]
    have e3 : binary64.mul (.fin d1) (.fin 0) = .fin 0 := by
      show binary64.rnd (d1 * 0) = _
      rw [mul_zero]; exact binary64.zero
    rw [e3]
    show binary64.rnd (0 + 0) = _
    rw [add_zero]; exact binary64.zero
  · right
    have hb := abs_le.1 hqb
    rw [big_eq] at hb
    simp only [Collector.addR, Dbl.isFinite, if_true, Dbl.min]
    rcases g.min with ⟨rfl, e⟩ | ⟨m, hm, e, hle⟩
    · refine ⟨q, by simp, ?_, by simp⟩
      rw [e, Dbl.lt_fin]
      by_cases h : q < dblMax
      · simp [h]
      · simp only [h, decide_false, Bool.false_eq_true, if_false]
        congr 1
        linarith [hb.2, not_lt.1 h]
    · rw [e, Dbl.lt_fin]
      by_cases h : q < m
      · refine ⟨q, by simp, by simp [h], ?_⟩
        intro x hx
        rcases List.mem_append.1 hx with hx | hx
        · linarith [hle x hx]
        · simp at hx; rw [hx]
      · refine ⟨m, by simp [hm], by simp [h], ?_⟩
        intro x hx
        rcases List.mem_append.1 hx with hx | hx
        · exact hle x hx
        · simp at hx; rw [hx]; exact not_lt.1 h
  · right
    have hb := abs_le.1 hqb
    rw [big_eq] at hb
    simp only [Collector.addR, Dbl.isFinite, if_true, Dbl.max]
    rcases g.max with ⟨rfl, e⟩ | ⟨m, hm, e, hle⟩
    · refine ⟨q, by simp, ?_, by simp⟩
      rw [e, Dbl.lt_fin]
      by_cases h : -dblMax < q
      · simp [h]
      · simp only [h, decide_false, Bool.false_eq_true, if_false]
        congr 1
        linarith [hb.1, not_lt.1 h]
    · rw [e, Dbl.lt_fin]
      by_cases h : m < q
      · refine ⟨q, by simp, by simp [h], ?_⟩
        intro x hx
        rcases List.mem_append.1 hx with hx | hx
        · linarith [hle x hx]
        · simp at hx; rw [hx]
      · refine ⟨m, by simp [hm], by simp [h], ?_⟩
        intro x hx
        rcases List.mem_append.1 hx with hx | hx
        · exact hle x hx
        · simp at hx; rw [hx]; exact not_lt.1 h
  · right
    obtain ⟨n, hn, hn0⟩ := hnum
    rw [hvar, hn]
    refine ⟨div_nonneg' m2le (by rw [Dbl.zero_eq]; simpa using hn0) rfl, fun h0 => ?_⟩
    rw [h0, Dbl.zero_eq, Rounding.div_fin _ _ _ hn0.ne', zero_div]
    exact binary64.zero

theorem GoodR.of_data {M : Rat} {xs : List Rat} {c d : Collector} (g : GoodR M xs c) (h1 : d.data = c.data) (h2 : d.m2 = c.m2) : GoodR M xs d :=
  ⟨h1 ▸ g.count, g.rep, by rw [h1, h2]; exact g.avg, h2 ▸ g.m2, h1 ▸ g.min, h1 ▸ g.max, by rw [h1, h2]; exact g.var⟩

/-- The collector, its report and the window belong together. -/
def RelR (M : Rat) (w : Window) (s : Collector × Report) : Prop :=
  s.2.resetAt = w.limit ∧ s.1.data.count = w.samples.length ∧ (w.wasReset = true → GoodR M w.samples s.1)

/-- The history does not have `2^64` samples without a reset (`sample_count` is a `uint64_t`). -/
def NoWrap (ops : List Op) : Prop := ∀ pre, pre <+: ops → (window pre).samples.length < 2 ^ 64

theorem relR_run {M : Rat} (hM : M ≤ big / 2) (hM0 : 0 ≤ M) (ops : List Op) (hr : Samples M ops) (hw : NoWrap ops) :
    RelR M (window ops) (runR binary64 ops) := by
  induction ops using List.reverseRecOn with
  | nil => exact ⟨rfl, rfl, by simp [window]⟩
  | append_singleton ops op ih =>
    obtain ⟨h1, h2, h3⟩ := ih (fun q hq => hr q (by simp [hq])) (fun pre hp => hw pre (hp.trans (List.prefix_append _ _)))
    have ew : window (ops ++ [op]) = (window ops).step op := by simp [window]
    have er : runR binary64 (ops ++ [op]) = stepR binary64 (runR binary64 ops) op := by simp [runR]
    have hlen := hw (ops ++ [op]) List.prefix_rfl
    rw [ew] at hlen
    rw [ew, er]
    generalize window ops = w at *
    generalize runR binary64 ops = s at *
    cases op with
    | add x =>
      cases x with
      | fin q =>
        obtain ⟨r1, r2⟩ := hr q (by simp)
        refine ⟨h1, by simp [Window.step, stepR, Collector.addR, Dbl.isFinite, h2], fun hw' => ?_⟩
        exact (h3 hw').add hM q r1 r2 (by simpa [Window.step] using hlen)
      | nan => exact ⟨h1, h2, fun hw => (h3 hw).of_data rfl rfl⟩
      | ninf => exact ⟨h1, h2, fun hw => (h3 hw).of_data rfl rfl⟩
      | pinf => exact ⟨h1, h2, fun hw => (h3 hw).of_data rfl rfl⟩
    | reset => exact ⟨h1, rfl, fun _ => goodR_reset hM0 s.1⟩
    | resetCurrent => exact ⟨h1, h2, fun hw => (h3 hw).of_data rfl rfl⟩
    | publish =>
      simp only [Window.step, stepR, step, Report.update]
      rw [h2, h1]
      split
      · refine ⟨?_, rfl, fun _ => goodR_reset hM0 s.1⟩
        split <;> first | exact h1 | rfl
      · refine ⟨?_, h2, h3⟩
        split <;> first | exact h1 | rfl
    | setResetCount n => exact ⟨rfl, h2, h3⟩

/-- The statistics shown are sensible for the samples `xs`, of at most `M` in absolute value. -/
structure Sensible (M : Rat) (xs : List Rat) (d : Data) : Prop where
  count : d.count = xs.length
  min : ∃ m ∈ xs, d.min = .fin m ∧ ∀ x ∈ xs, m ≤ x
  max : ∃ m ∈ xs, d.max = .fin m ∧ ∀ x ∈ xs, x ≤ m
  between : Dbl.le d.min d.average = true ∧ Dbl.le d.average d.max = true
  close : xs.length ≤ 2 ^ 53 → ∃ a, d.average = .fin a ∧ |a - mean xs| ≤ (xs.length + 1) * (2 ^ (-52 : Int) * M + 2 ^ (-1074 : Int))
  var : d.var.isNan = false ∧ Dbl.le 0 d.var = true
  constant : ∀ v, (∀ x ∈ xs, x = v) → d.average = .fin v ∧ d.var = 0

/-- **C71 (collector).** After every history with a reset and a sample since then, in IEEE 754 arithmetic: count, minimum and maximum are exactly those
of the samples, the average lies between minimum and maximum and differs from the exact mean by at most `(n + 1) (2^-52 M + 2^-1074)`, the argument
of the square root of the standard deviation is not negative and not NaN, and equal samples give exactly that average and the deviation 0. (How far the variance is from the exact one: `C71_variance` in `C71_Variance`.) -/
theorem C71_sensible_partial {M : Rat} (hM : M ≤ big / 2) (ops : List Op) (hr : Samples M ops) (hn : NoWrap ops)
    (hw : (window ops).wasReset = true) (hne : (window ops).samples ≠ []) : Sensible M (window ops).samples (runR binary64 ops).1.data := by
  have hM0 : 0 ≤ M := by
    by_contra hc
    have hno : ∀ (l : List Op) (w : Window), (∀ q, Op.add (.fin q) ∉ l) → w.samples = [] → (l.foldl Window.step w).samples = [] := by
      intro l
      induction l with
      | nil => intro w _ h; exact h
      | cons o t ih =>
        intro w h1 h2
        refine ih _ (fun q hq => h1 q (by simp [hq])) ?_
        cases o with
        | add x =>
          cases x with
          | fin q => exact absurd (by simp) (h1 q)
          | _ => exact h2
        | publish => simp only [Window.step]; split <;> first | rfl | exact h2
        | reset => rfl
        | _ => exact h2
    apply hne
    exact hno ops _ (fun q hq => hc ((abs_nonneg q).trans (hr q hq).2)) rfl
  have g := (relR_run hM hM0 ops hr hn).2.2 hw
  generalize (window ops).samples = xs at *
  generalize (runR binary64 ops).1 = c at *
  obtain ⟨a, ea, ra, ba, -, hab, herr, hconst⟩ := g.avg
  obtain ⟨⟨lo, hlo, l1⟩, ⟨hi, hhi, l2⟩⟩ := hab hne
  obtain ⟨mn, hmn, emn, lmn⟩ : ∃ m ∈ xs, c.data.min = .fin m ∧ ∀ x ∈ xs, m ≤ x := by rcases g.min with ⟨e, _⟩ | m; exacts [absurd e hne, m]
  obtain ⟨mx, hmx, emx, lmx⟩ : ∃ m ∈ xs, c.data.max = .fin m ∧ ∀ x ∈ xs, x ≤ m := by rcases g.max with ⟨e, _⟩ | m; exacts [absurd e hne, m]
  have hv : Dbl.le 0 c.data.var = true ∧ (c.m2 = 0 → c.data.var = 0) := by rcases g.var with ⟨e, _⟩ | m; exacts [absurd e hne, m]
  refine ⟨g.count, ⟨mn, hmn, emn, lmn⟩, ⟨mx, hmx, emx, lmx⟩, ?_, fun hl => ⟨a, ea, ?_⟩, ⟨Dbl.not_nan_right hv.1, hv.1⟩, fun v hv' => ?_⟩
  · rw [emn, emx, ea]
    have h1 := lmn lo hlo
    have h2 := lmx hi hhi
    simp only [Dbl.le_fin, decide_eq_true_eq]
    exact ⟨by linarith, by linarith⟩
  · have he := herr hl
    have hL : (0 : Rat) < xs.length := by exact_mod_cast List.length_pos_iff.2 hne
    generalize (xs.length : Rat) = L at *
    have h52 : (2 : Rat) ^ (-52 : Int) = 2 * 2 ^ (-53 : Int) := by norm_num
    have h1074 : (2 : Rat) ^ (-1074 : Int) = 2 * 2 ^ (-1075 : Int) := by
      rw [show (2 : Rat) * 2 ^ (-1075 : Int) = 2 ^ (1 : Int) * 2 ^ (-1075 : Int) by norm_num, ← zpow_add₀ (by norm_num)]; rfl
    rw [h52, h1074]
    have hη := (two_pos (-1075)).le
    generalize (2 : Rat) ^ (-53 : Int) = u at *
    generalize (2 : Rat) ^ (-1075 : Int) = η at *
    refine le_of_mul_le_mul_right (a := L) (he.trans ?_) hL
    nlinarith [mul_nonneg (mul_nonneg hL.le (by linarith : (0 : Rat) ≤ L + 1)) hη]
  · obtain ⟨h1, h2⟩ := hconst v hv'
    rcases h1 with h1 | h1
    · exact absurd h1 hne
    · exact ⟨by rw [ea, h1], hv.2 h2⟩

/-- **C71 (report).** Publishing at that moment makes the report show these statistics, and they stay until the next publication. -/
theorem C71_report_partial {M : Rat} (hM : M ≤ big / 2) (ops rest : List Op) (hr : Samples M ops) (hn : NoWrap ops)
    (hw : (window ops).wasReset = true) (hne : (window ops).samples ≠ []) (hrest : Op.publish ∉ rest) :
    Sensible M (window ops).samples (runR binary64 (ops ++ .publish :: rest)).2.data := by
  have h := C71_sensible_partial hM ops hr hn hw hne
  have hc : 0 < (runR binary64 ops).1.data.count := by
    rw [h.count]; exact List.length_pos_iff.2 hne
  have key : ∀ (l : List Op) (s : Collector × Report), Op.publish ∉ l → (l.foldl (stepR binary64) s).2.data = s.2.data := by
    intro l
    induction l with
    | nil => intro s _; rfl
    | cons a t ih =>
      intro s hn
      rw [List.foldl_cons, ih _ (fun hm => hn (by simp [hm]))]
      cases a <;> first | rfl | exact absurd (by simp) hn
  unfold runR
  rw [List.foldl_append, List.foldl_cons, key rest _ hrest]
  show ((runR binary64 ops).2.update (runR binary64 ops).1).1.data |> Sensible _ _
  simp only [Report.update, gt_iff_lt, hc, if_true]
  exact h

/-- **C71 (overflow).** Two samples of opposite sign near the largest number: their difference overflows, the average is infinite (not between them), and
the next sample makes it NaN. -/
theorem C71_overflow :
    let big2 : Dbl := .fin big
    let neg2 : Dbl := .fin (-big)
    (runR binary64 [.reset, .add neg2, .add big2]).1.data.average = .pinf ∧
    (runR binary64 [.reset, .add neg2, .add big2, .add big2]).1.data.average = .pinf + .ninf := by
  decide +kernel

/-- A history of cycle times in microseconds with a reset in between. -/
def demoOps : List Op := [.reset, .add 1000, .reset, .add 1000, .add .nan, .add (.fin (2001 / 2)), .add (.fin (1999 / 2)), .publish, .add 1001, .add 1003, .add 1000]

example : (window demoOps).wasReset = true ∧ (window demoOps).samples = [1000, 2001 / 2, 1999 / 2, 1001, 1003, 1000] := by decide +kernel

theorem demo_samples' : Samples 1003 demoOps := by
  intro q hq
  simp only [demoOps, List.mem_cons, List.not_mem_nil, or_false, reduceCtorEq, false_or, Op.add.injEq, Dbl.fin.injEq] at hq
  have h : ∀ n : Rat, n ∈ ([1000, 2001 / 2, 1999 / 2, 1001, 1003] : List Rat) → binary64.rnd n = .fin n ∧ |n| ≤ 1003 := by decide +kernel
  apply h
  have hn : ∀ n : Nat, (OfNat.ofNat n : Dbl) = .fin (n : Rat) := fun _ => rfl
  simp only [hn, Dbl.fin.injEq] at hq
  norm_num at hq ⊢
  tauto

theorem demo_samples : Samples 2000 demoOps := fun q hq => ⟨(demo_samples' q hq).1, (demo_samples' q hq).2.trans (by norm_num)⟩

theorem demo_noWrap : NoWrap demoOps := by
  intro pre hp
  have : ∀ (l : List Op) (w : Window), (l.foldl Window.step w).samples.length ≤ w.samples.length + l.length := by
    intro l
    induction l with
    | nil => intro w; simp
    | cons o t ih =>
      intro w
      refine (ih _).trans ?_
      have : (w.step o).samples.length ≤ w.samples.length + 1 := by
        cases o with
        | add x => cases x <;> simp [Window.step]
        | publish => simp only [Window.step]; split <;> simp
        | _ => simp [Window.step]
      simp only [List.length_cons]; omega
  have h := this pre { wasReset := false, samples := [], limit := 4294967295 }
  have hl := hp.length_le
  have hd : demoOps.length = 11 := rfl
  unfold window
  simp only [List.length_nil] at h
  omega

/-- The rounded average of six samples is not the exact one, but as close as the theorem says. -/
example : Sensible 2000 (window demoOps).samples (runR binary64 demoOps).1.data ∧ (runR binary64 demoOps).1.data.average ≠ .fin (mean (window demoOps).samples) := by
  refine ⟨C71_sensible_partial (by decide +kernel) demoOps demo_samples demo_noWrap (by decide +kernel) (by decide +kernel), by decide +kernel⟩

end Stat
end Verif
