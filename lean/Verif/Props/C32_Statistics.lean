import Mathlib.Tactic.Linarith
import Mathlib.Tactic.FieldSimp
import Mathlib.Tactic.Ring
import Mathlib.Tactic.NormNum
import Mathlib.Tactic.Positivity
import Mathlib.Algebra.BigOperators.Group.List.Basic
import Verif.Num.Statistics
/-!
# C32: the reported statistics are the exact statistics of the samples

Full statement: average, minimum, maximum, standard deviation and count reported are those of the finite samples since the last reset,
and NaN if there is none.

Proved for every history in which the collector was reset at least once (`C32_exact`, `C32_report`). Without any reset
everything stays NaN (`C32_never_reset`): this is the case of a hardware component that is read while INACTIVE and was never
activated. After a reset and before the first sample, zero and the largest numbers are reported instead of the
documented NaN (`C32_empty_not_nan`).
-/
namespace Verif
namespace Stat

/-- The samples that count at some moment: whether there was a reset, the finite samples since the last one, and the number
of samples after which publishing resets. -/
structure Window where
  wasReset : Bool
  samples : List Rat
  limit : Nat

/-- Specification: how the window develops. -/
def Window.step (w : Window) : Op → Window
  | .add (.fin q) => { w with samples := w.samples ++ [q] }
  | .add _ => w
  | .reset => { w with wasReset := true, samples := [] }
  | .resetCurrent => w
  | .publish => if w.samples.length ≥ w.limit then { w with wasReset := true, samples := [] } else w
  | .setResetCount n => { w with limit := n }

/-- The window after a history. -/
def window (ops : List Op) : Window := ops.foldl Window.step { wasReset := false, samples := [], limit := 4294967295 }

/-- Arithmetic mean. -/
def mean (xs : List Rat) : Rat := xs.sum / xs.length

/-- Population variance. -/
def variance (xs : List Rat) : Rat := (xs.map fun x => (x - mean xs) ^ 2).sum / xs.length

/-- `d` is the exact statistics of the samples `xs`. -/
structure Exact (xs : List Rat) (d : Data) : Prop where
  count : d.count = xs.length
  average : d.average = .fin (mean xs)
  min : ∃ m ∈ xs, d.min = .fin m ∧ ∀ x ∈ xs, m ≤ x
  max : ∃ m ∈ xs, d.max = .fin m ∧ ∀ x ∈ xs, x ≤ m
  var : d.var = .fin (variance xs)

/-- Every sample is a `double`: at most the largest one in absolute value. -/
def Representable (ops : List Op) : Prop := ∀ q, Op.add (.fin q) ∈ ops → |q| ≤ dblMax

theorem sq_dev (xs : List Rat) (m : Rat) :
    (xs.map fun x => (x - m) ^ 2).sum = (xs.map fun x => x ^ 2).sum - 2 * m * xs.sum + xs.length * m ^ 2 := by
  induction xs with
  | nil => simp
  | cons a t ih => simp only [List.map_cons, List.sum_cons, ih, List.length_cons]; push_cast; ring

/-- What holds of the collector when the samples since the last reset are `xs`. -/
structure Good (xs : List Rat) (c : Collector) : Prop where
  count : c.data.count = xs.length
  average : c.data.average = .fin (mean xs)
  m2 : c.m2 = .fin ((xs.map fun x => x ^ 2).sum - xs.length * mean xs ^ 2)
  min : (xs = [] ∧ c.data.min = .fin dblMax) ∨ ∃ m ∈ xs, c.data.min = .fin m ∧ ∀ x ∈ xs, m ≤ x
  max : (xs = [] ∧ c.data.max = .fin (-dblMax)) ∨ ∃ m ∈ xs, c.data.max = .fin m ∧ ∀ x ∈ xs, x ≤ m
  var : (xs = [] ∧ c.data.var = 0) ∨ c.data.var = .fin (variance xs)

theorem mean_add (xs : List Rat) (q : Rat) : mean (xs ++ [q]) = mean xs + (q - mean xs) / (xs.length + 1) := by
  unfold mean
  simp only [List.sum_append, List.sum_cons, List.sum_nil, add_zero, List.length_append, List.length_cons, List.length_nil]
  push_cast
  by_cases h : (xs.length : Rat) = 0
  · have : xs = [] := by simpa using h
    subst this; simp
  · have : (xs.length : Rat) + 1 ≠ 0 := by positivity
    field_simp
    ring

theorem good_reset (c : Collector) : Good [] c.reset where
  count := rfl
  average := by simp [Collector.reset, mean]; rfl
  m2 := by simp [Collector.reset]; rfl
  min := .inl ⟨rfl, rfl⟩
  max := .inl ⟨rfl, rfl⟩
  var := .inl ⟨rfl, rfl⟩

theorem variance_eq (xs : List Rat) (h : xs ≠ []) : variance xs = ((xs.map fun x => x ^ 2).sum - xs.length * mean xs ^ 2) / xs.length := by
  unfold variance
  rw [sq_dev]
  have hl : (xs.length : Rat) ≠ 0 := by simpa using h
  congr 1
  unfold mean
  field_simp
  ring

theorem Good.add {xs : List Rat} {c : Collector} (g : Good xs c) (q : Rat) (hq : |q| ≤ dblMax) : Good (xs ++ [q]) (c.add (.fin q)) := by
  have hn : ((xs.length : Rat) + 1) ≠ 0 := by positivity
  have hav : (c.add (.fin q)).data.average = .fin (mean (xs ++ [q])) := by
    simp only [Collector.add, Dbl.isFinite, if_true, g.average, g.count, Dbl.sub_fin]
    push_cast
    rw [Dbl.div_fin _ _ hn, Dbl.add_fin, mean_add]
  have hm2 : (c.add (.fin q)).m2 = .fin (((xs ++ [q]).map fun x => x ^ 2).sum - (xs ++ [q]).length * mean (xs ++ [q]) ^ 2) := by
    have : (c.add (.fin q)).m2 = c.m2 + (.fin q - c.data.average) * (.fin q - (c.add (.fin q)).data.average) := by
      simp [Collector.add, Dbl.isFinite]
    rw [this, hav, g.m2, g.average]
    simp only [Dbl.sub_fin, Dbl.mul_fin, Dbl.add_fin]
    congr 1
    simp only [List.map_append, List.map_cons, List.map_nil, List.sum_append, List.sum_cons, List.sum_nil, add_zero,
      List.length_append, List.length_cons, List.length_nil, mean_add]
    push_cast
    field_simp
    ring
  refine ⟨by simp [Collector.add, Dbl.isFinite, g.count], hav, hm2, ?_, ?_, ?_⟩
  · right
    have hb := abs_le.1 hq
    simp only [Collector.add, Dbl.isFinite, if_true, Dbl.min]
    rcases g.min with ⟨rfl, e⟩ | ⟨m, hm, e, hle⟩
    · refine ⟨q, by simp, ?_, by simp⟩
      rw [e, Dbl.lt_fin]
      by_cases h : q < dblMax
      · simp [h]
      · simp only [h, decide_false, Bool.false_eq_true, if_false]
        congr 1
        linarith [hb.2, not_lt.1 h]
    · rw [e, Dbl.lt_fin]
      by_cases h : q < m
      · refine ⟨q, by simp, by simp [h], ?_⟩
        intro x hx
        rcases List.mem_append.1 hx with hx | hx
        · linarith [hle x hx]
        · simp at hx; rw [hx]
      · refine ⟨m, by simp [hm], by simp [h], ?_⟩
        intro x hx
        rcases List.mem_append.1 hx with hx | hx
        · exact hle x hx
        · simp at hx; rw [hx]; exact not_lt.1 h
  · right
    have hb := abs_le.1 hq
    simp only [Collector.add, Dbl.isFinite, if_true, Dbl.max]
    rcases g.max with ⟨rfl, e⟩ | ⟨m, hm, e, hle⟩
    · refine ⟨q, by simp, ?_, by simp⟩
      rw [e, Dbl.lt_fin]
      by_cases h : -dblMax < q
      · simp [h]
      · simp only [h, decide_false, Bool.false_eq_true, if_false]
        congr 1
        linarith [hb.1, not_lt.1 h]
    · rw [e, Dbl.lt_fin]
      by_cases h : m < q
      · refine ⟨q, by simp, by simp [h], ?_⟩
        intro x hx
        rcases List.mem_append.1 hx with hx | hx
        · linarith [hle x hx]
        · simp at hx; rw [hx]
      · refine ⟨m, by simp [hm], by simp [h], ?_⟩
        intro x hx
        rcases List.mem_append.1 hx with hx | hx
        · exact hle x hx
        · simp at hx; rw [hx]; exact not_lt.1 h
  · right
    have : (c.add (.fin q)).data.var = (c.add (.fin q)).m2 / .fin (((xs.length + 1 : Nat)) : Rat) := by
      simp [Collector.add, Dbl.isFinite, g.count]
    rw [this, hm2]
    push_cast
    rw [Dbl.div_fin _ _ hn, variance_eq _ (by simp)]
    simp

theorem Good.of_data {xs : List Rat} {c d : Collector} (g : Good xs c) (h1 : d.data = c.data) (h2 : d.m2 = c.m2) : Good xs d :=
  ⟨h1 ▸ g.count, h1 ▸ g.average, h2 ▸ g.m2, h1 ▸ g.min, h1 ▸ g.max, h1 ▸ g.var⟩

theorem Good.exact {xs : List Rat} {c : Collector} (g : Good xs c) (h : xs ≠ []) : Exact xs c.data where
  count := g.count
  average := g.average
  min := by rcases g.min with ⟨e, _⟩ | m; exacts [absurd e h, m]
  max := by rcases g.max with ⟨e, _⟩ | m; exacts [absurd e h, m]
  var := by rcases g.var with ⟨e, _⟩ | m; exacts [absurd e h, m]

/-- The collector, its report and the window belong together. -/
def Rel (w : Window) (s : Collector × Report) : Prop :=
  s.2.resetAt = w.limit ∧ s.1.data.count = w.samples.length ∧ (w.wasReset = true → Good w.samples s.1)

theorem rel_step (w : Window) (s : Collector × Report) (h : Rel w s) (op : Op) (hr : ∀ q, op = .add (.fin q) → |q| ≤ dblMax) :
    Rel (w.step op) (step s op) := by
  obtain ⟨h1, h2, h3⟩ := h
  cases op with
  | add x =>
    cases x with
    | fin q =>
      refine ⟨h1, by simp [Window.step, step, Collector.add, Dbl.isFinite, h2], fun hw => ?_⟩
      exact (h3 hw).add q (hr q rfl)
    | nan => exact ⟨h1, h2, fun hw => (h3 hw).of_data rfl rfl⟩
    | ninf => exact ⟨h1, h2, fun hw => (h3 hw).of_data rfl rfl⟩
    | pinf => exact ⟨h1, h2, fun hw => (h3 hw).of_data rfl rfl⟩
  | reset => exact ⟨h1, rfl, fun _ => good_reset s.1⟩
  | resetCurrent => exact ⟨h1, h2, fun hw => (h3 hw).of_data rfl rfl⟩
  | publish =>
    simp only [Window.step, step, Report.update]
    rw [h2, h1]
    split
    · refine ⟨?_, rfl, fun _ => good_reset s.1⟩
      split <;> first | exact h1 | rfl
    · refine ⟨?_, h2, h3⟩
      split <;> first | exact h1 | rfl
  | setResetCount n => exact ⟨rfl, h2, h3⟩

theorem rel_run (ops : List Op) (hr : Representable ops) : Rel (window ops) (run ops) := by
  unfold window run
  have key : ∀ (l : List Op) w s, Rel w s → (∀ q, Op.add (.fin q) ∈ l → |q| ≤ dblMax) → Rel (l.foldl Window.step w) (l.foldl step s) := by
    intro l
    induction l with
    | nil => intro w s h _; exact h
    | cons a t ih =>
      intro w s h hq
      exact ih _ _ (rel_step w s h a (fun q e => hq q (by simp [e]))) (fun q hm => hq q (by simp [hm]))
  exact key ops _ _ ⟨rfl, rfl, by simp⟩ hr

/-- **C32 (collector).** After every history with a reset, if there is a sample since the last reset then what the collector
reports is the exact statistics of the samples since then. -/
theorem C32_exact (ops : List Op) (hr : Representable ops) (hw : (window ops).wasReset = true) (hne : (window ops).samples ≠ []) :
    Exact (window ops).samples (run ops).1.data :=
  ((rel_run ops hr).2.2 hw).exact hne

/-- **C32 (report).** Publishing at that moment makes the report show these statistics, and they stay until the next
publication. -/
theorem C32_report (ops rest : List Op) (hr : Representable ops) (hw : (window ops).wasReset = true) (hne : (window ops).samples ≠ [])
    (hrest : Op.publish ∉ rest) : Exact (window ops).samples (run (ops ++ .publish :: rest)).2.data := by
  have h := C32_exact ops hr hw hne
  have hc : 0 < (run ops).1.data.count := by
    rw [h.count]; exact List.length_pos_iff.2 hne
  have key : ∀ (l : List Op) (s : Collector × Report), Op.publish ∉ l → (l.foldl step s).2.data = s.2.data := by
    intro l
    induction l with
    | nil => intro s _; rfl
    | cons a t ih =>
      intro s hn
      rw [List.foldl_cons, ih _ (fun hm => hn (by simp [hm]))]
      cases a <;> first | rfl | exact absurd (by simp) hn
  unfold run
  rw [List.foldl_append, List.foldl_cons, key rest _ hrest]
  show ((run ops).2.update (run ops).1).1.data |> Exact _
  simp only [Report.update, gt_iff_lt, hc, if_true]
  exact h

/-- **C32 (count without reset).** The count is right in every history. -/
theorem C32_count (ops : List Op) (hr : Representable ops) : (run ops).1.data.count = (window ops).samples.length := (rel_run ops hr).2.1

/-- **C32 (current measurement).** The current measurement is the last value added, whatever it is. -/
theorem C32_current (ops : List Op) (x : Dbl) : (run (ops ++ [.add x])).1.current = x := by
  unfold run
  rw [List.foldl_append]
  show ((ops.foldl step (Collector.init, Report.init)).1.add x).current = x
  unfold Collector.add
  split <;> rfl

/-- **C32, negation (1).** Without any reset, and whatever finite samples are added, every statistic stays NaN. -/
theorem C32_never_reset (xs : List Rat) : let d := (run (xs.map fun q => .add (.fin q))).1.data
    d.average = .nan ∧ d.min = .nan ∧ d.max = .nan ∧ (xs ≠ [] → d.var = .nan) ∧ d.count = xs.length := by
  have key : ∀ (l : List Rat) (s : Collector × Report), s.1.data.average = .nan → s.1.data.min = .nan → s.1.data.max = .nan →
      (l = [] → s.1.data.var = .nan ∨ s.1.data.count = 0) →
      let d := ((l.map fun q => Op.add (.fin q)).foldl step s).1.data
      d.average = .nan ∧ d.min = .nan ∧ d.max = .nan ∧ (l ≠ [] → d.var = .nan) ∧ d.count = s.1.data.count + l.length := by
    intro l
    induction l with
    | nil => intro s h1 h2 h3 _; simp [h1, h2, h3]
    | cons q t ih =>
      intro s h1 h2 h3 _
      have e : ∀ y : Dbl, (Dbl.nan + y = .nan) := fun y => rfl
      have e2 : ∀ y : Dbl, (y + Dbl.nan = .nan) := fun y => by cases y <;> rfl
      have e5 : ∀ y : Dbl, (y - Dbl.nan = .nan) := fun y => by cases y <;> rfl
      have e3 : ∀ y : Dbl, (Dbl.nan * y = .nan) := fun y => rfl
      have e4 : ∀ y : Dbl, (Dbl.nan / y = .nan) := fun y => rfl
      have a1 : (s.1.add (.fin q)).data.average = .nan := by simp [Collector.add, Dbl.isFinite, h1, e]
      have a2 : (s.1.add (.fin q)).data.min = .nan := by simp [Collector.add, Dbl.isFinite, h2, Dbl.min, Dbl.lt]
      have a3 : (s.1.add (.fin q)).data.max = .nan := by simp [Collector.add, Dbl.isFinite, h3, Dbl.max, Dbl.lt]
      have a4 : (s.1.add (.fin q)).data.var = .nan := by simp [Collector.add, Dbl.isFinite, h1, e5, e3, e2, e4]
      obtain ⟨b1, b2, b3, b4, b5⟩ := ih (s.1.add (.fin q), s.2) a1 a2 a3 (fun _ => .inl a4)
      refine ⟨b1, b2, b3, fun _ => ?_, ?_⟩
      · by_cases ht : t = []
        · subst ht; exact a4
        · exact b4 ht
      · have : (s.1.add (.fin q)).data.count = s.1.data.count + 1 := by simp [Collector.add, Dbl.isFinite]
        show _ = _
        simp only [List.map_cons, List.foldl_cons]
        rw [show step s (.add (.fin q)) = (s.1.add (.fin q), s.2) from rfl, b5, this, List.length_cons]
        omega
  obtain ⟨h1, h2, h3, h4, h5⟩ := key xs (Collector.init, Report.init) rfl rfl rfl (fun _ => .inl rfl)
  exact ⟨h1, h2, h3, h4, by unfold run; rw [h5]; simp [Collector.init]⟩

/-- **C32, negation (2).** Directly after a reset the collector reports the average 0, a minimum of the largest number and a
maximum of the smallest one; the documentation promises NaN. -/
theorem C32_empty_not_nan : (run [.add 3, .reset]).1.data =
    { average := 0, min := .fin dblMax, max := .fin (-dblMax), var := 0, count := 0 } := rfl

/-! ### Non-vacuity -/

/-- Six measurements, one of them infinite, with a reset in the middle: the last three finite ones count. -/
example : let ops : List Op := [.add 7, .reset, .add 2, .add .pinf, .add 4, .resetCurrent, .add 9]
    (window ops).wasReset = true ∧ (window ops).samples = [2, 4, 9] ∧
    (run ops).1.data = { average := 5, min := 2, max := 9, var := .fin (26 / 3), count := 3 } := by decide +kernel

/-- With a limit of two samples, publishing resets the collector. -/
example : let ops : List Op := [.reset, .setResetCount 2, .add 2, .publish, .add 4, .publish, .add 9]
    (window ops).samples = [9] ∧ (run ops).1.data.count = 1 ∧ (run ops).2.data.average = 3 := by decide +kernel

end Stat
end Verif
