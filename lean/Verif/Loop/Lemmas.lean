import Verif.Loop.Spec
import Mathlib.Tactic.Linarith
import Mathlib.Tactic.FieldSimp
import Mathlib.Tactic.Ring
import Mathlib.Tactic.NormNum
import Mathlib.Tactic.Positivity
import Mathlib.Algebra.Order.Floor.Ring
/-!
# Lemmas about the control loop
-/
namespace Verif.Loop

/-- The beginning of a run. -/
theorem run_cons (c : Cfg) (s : St) (t : Tick) (ts : List Tick) :
    ∃ u r, run c s (t :: ts) = ⟨t.start, t.done, t.now, t.start - s.previous, u⟩ :: r ∧
      ((∃ n, sleep c s t = .go n u ∧ r = run c { s with previous := t.start, next := n } ts) ∨ (u = none ∧ r = [])) := by
  rw [run]
  split
  · rename_i n u h
    exact ⟨u, _, rfl, .inl ⟨n, h, rfl⟩⟩
  · exact ⟨none, [], rfl, .inr ⟨rfl, rfl⟩⟩

theorem run_measured (c : Cfg) (ts : List Tick) : ∀ s i y, (run c s ts)[i]? = some y →
    (i = 0 → y.measured = y.start - s.previous) ∧
    ∀ j z, i = j + 1 → (run c s ts)[j]? = some z → y.measured = y.start - z.start := by
  induction ts with
  | nil => intro s i y h; simp [run] at h
  | cons t ts ih =>
    intro s i y h
    obtain ⟨u, r, he, hr⟩ := run_cons c s t ts
    rw [he] at h ⊢
    cases i with
    | zero => simp at h; subst h; simp
    | succ i =>
      refine ⟨by simp, ?_⟩
      intro j z hj hz
      obtain rfl : i = j := by omega
      rcases hr with ⟨n, -, rfl⟩ | ⟨-, rfl⟩
      · simp only [List.getElem?_cons_succ] at h
        have hi := ih _ i y h
        cases i with
        | zero => simp at hz; subst hz; simpa using hi.1 rfl
        | succ k =>
          simp only [List.getElem?_cons_succ] at hz
          exact hi.2 k z rfl hz
      · simp at h

theorem run_sum (c : Cfg) (ts : List Tick) : ∀ s y, (run c s ts).getLast? = some y →
    ((run c s ts).map (·.measured)).sum = y.start - s.previous := by
  induction ts with
  | nil => intro s y h; simp [run] at h
  | cons t ts ih =>
    intro s y h
    obtain ⟨u, r, he, hr⟩ := run_cons c s t ts
    rw [he] at h ⊢
    rcases hr with ⟨n, -, rfl⟩ | ⟨-, rfl⟩
    · cases hl : run c { s with previous := t.start, next := n } ts with
      | nil => rw [hl] at h; simp at h; subst h; simp
      | cons a b =>
        rw [hl] at h
        have hh : (run c { s with previous := t.start, next := n } ts).getLast? = some y := by
          rw [hl]; simpa using h
        have := ih _ y hh
        rw [hl] at this
        simp only [List.map_cons, List.sum_cons] at this ⊢
        omega
    · simp at h; subst h; simp

/-! ## The periodic policy -/

theorem castTo_eq {n : Nat} {x : Rat} {v : Int} (h : castTo n x = some v) : v = if 0 ≤ x then ⌊x⌋ else ⌈x⌉ := by
  unfold castTo at h
  dsimp only at h
  by_cases hb : -2 ^ (n - 1) ≤ (if 0 ≤ x then ⌊x⌋ else ⌈x⌉) ∧ (if 0 ≤ x then ⌊x⌋ else ⌈x⌉) < 2 ^ (n - 1)
  · rw [if_pos hb] at h; exact (Option.some.inj h).symm
  · rw [if_neg hb] at h; cases h

theorem overrunCount_eq {c : Cfg} {late k : Int} (h : overrunCount c late = some k) :
    k = ⌈c.rnd (c.rnd (c.rnd late / 1000000) / c.rnd (1000 / c.rate))⌉ := by
  unfold overrunCount at h
  dsimp only at h
  have := castTo_eq h
  simpa using this

theorem overrunCount_nonneg {c : Cfg} (hr : Rounds c.rnd) {late k : Int} (hl : 0 ≤ late) (h : overrunCount c late = some k) : 0 ≤ k := by
  rw [overrunCount_eq h]
  apply Int.ceil_nonneg
  apply hr.1
  apply div_nonneg
  · apply hr.1
    apply div_nonneg _ (by norm_num)
    apply hr.1
    exact_mod_cast hl
  · apply hr.1
    positivity

/-- The policy with fixed deadlines is in use. -/
def Cfg.Periodic (c : Cfg) : Prop := c.sim = false ∧ c.blocking = false

theorem sleep_periodic {c : Cfg} (hc : c.Periodic) (s : St) (t : Tick) : sleep c s t = periodic c s t.now := by
  simp [sleep, hc.1, hc.2]

theorem periodic_go {c : Cfg} (hr : Rounds c.rnd) {s : St} {now n : Int} {u : Option Int} (h : periodic c s now = .go n u) :
    u = some n ∧ ∃ k : Nat, n = s.next + (k + 1) * s.period ∧ (c.manage = false → k = 0) ∧ (now ≤ s.next + s.period → k = 0) := by
  unfold periodic at h
  dsimp only at h
  split at h
  · rename_i hm
    split at h
    · cases h
    · rename_i k hk
      injection h with h1 h2
      have := overrunCount_nonneg hr (by omega) hk
      obtain ⟨m, rfl⟩ := Int.eq_ofNat_of_zero_le this
      refine ⟨by rw [← h1, ← h2], m, by rw [← h1]; ring, ?_, ?_⟩
      · intro hf; simp [hf] at hm
      · intro hf; omega
  · injection h with h1 h2
    exact ⟨by rw [← h1, ← h2], 0, by rw [← h1]; ring, fun _ => rfl, fun _ => rfl⟩

/-- Every deadline lies on the grid, later than the ones before. -/
theorem run_grid {c : Cfg} (hc : c.Periodic) (hr : Rounds c.rnd) (ts : List Tick) : ∀ s i y, (run c s ts)[i]? = some y →
    ∀ u, y.till = some u → ∃ k : Nat, i + 1 ≤ k ∧ u = s.next + k * s.period := by
  induction ts with
  | nil => intro s i y h; simp [run] at h
  | cons t ts ih =>
    intro s i y h u hu
    obtain ⟨v, r, he, hd⟩ := run_cons c s t ts
    rw [he] at h
    rcases hd with ⟨n, hs, rfl⟩ | ⟨rfl, rfl⟩
    · rw [sleep_periodic hc] at hs
      obtain ⟨hv, k, hk, -⟩ := periodic_go hr hs
      cases i with
      | zero =>
        simp at h; subst h
        rw [hv] at hu
        injection hu with hu
        exact ⟨k + 1, by omega, by rw [← hu, hk]; push_cast; ring⟩
      | succ i =>
        simp only [List.getElem?_cons_succ] at h
        obtain ⟨m, hm, hu2⟩ := ih _ i y h u hu
        dsimp only at hu2
        exact ⟨m + (k + 1), by omega, by rw [hu2, hk]; push_cast; ring⟩
    · cases i with
      | zero => simp at h; subst h; simp at hu
      | succ i => simp at h

theorem run_grid_pair {c : Cfg} (hc : c.Periodic) (hr : Rounds c.rnd) (ts : List Tick) : ∀ s i j y z, i < j → (run c s ts)[i]? = some y →
    (run c s ts)[j]? = some z → ∃ u, y.till = some u ∧ ∀ v, z.till = some v → ∃ k : Nat, j ≤ i + k ∧ v = u + k * s.period := by
  induction ts with
  | nil => intro s i j y z _ h; simp [run] at h
  | cons t ts ih =>
    intro s i j y z hij hy hz
    obtain ⟨w, r, he, hd⟩ := run_cons c s t ts
    rw [he] at hy hz
    rcases hd with ⟨n, hs, rfl⟩ | ⟨rfl, rfl⟩
    · cases j with
      | zero => omega
      | succ j =>
        simp only [List.getElem?_cons_succ] at hz
        cases i with
        | zero =>
          rw [sleep_periodic hc] at hs
          obtain ⟨hv, k, hk, -⟩ := periodic_go hr hs
          simp at hy; subst hy
          refine ⟨n, hv, ?_⟩
          intro v hzv
          obtain ⟨m, hm, e⟩ := run_grid hc hr ts _ j z hz v hzv
          exact ⟨m, by omega, e⟩
        | succ i =>
          simp only [List.getElem?_cons_succ] at hy
          obtain ⟨u, hu, hv⟩ := ih _ i j y z (by omega) hy hz
          exact ⟨u, hu, fun v hzv => by
            obtain ⟨k, hk, e⟩ := hv v hzv
            exact ⟨k, by omega, e⟩⟩
    · cases j with
      | zero => omega
      | succ j => simp at hz

theorem Physical.tail {a : Cycle} {l : List Cycle} (h : Physical (a :: l)) : Physical l :=
  ⟨fun y hy => h.1 y (List.mem_cons_of_mem _ hy), fun i y z hy hz => h.2 (i + 1) y z hy hz⟩

/-! ## Rounding -/

theorem round_le {rnd : Rat → Rat} (hr : Rounds rnd) {x : Rat} (h1 : 1 / 2 ^ 100 ≤ x) (h2 : x ≤ 2 ^ 100) :
    x * (1 - 1 / 2 ^ 53) ≤ rnd x ∧ rnd x ≤ x * (1 + 1 / 2 ^ 53) := by
  have := abs_le.1 (hr.2 x h1 h2)
  constructor <;> linarith [this.1, this.2]

/-- The quotient computed for an overrun is the exact one up to rounding. -/
theorem quotient_bounds {rnd : Rat → Rat} (hr : Rounds rnd) {late : Int} {rate : Nat} (hl : 1 ≤ late) (hl2 : late ≤ 2 ^ 62)
    (h1 : 1 ≤ rate) (h2 : rate < 2 ^ 32) :
    (late * rate / 1000000000 : Rat) * (1 - 5 / 2 ^ 53) ≤ rnd (rnd (rnd late / 1000000) / rnd (1000 / rate)) ∧
    rnd (rnd (rnd late / 1000000) / rnd (1000 / rate)) ≤ (late * rate / 1000000000 : Rat) * (1 + 5 / 2 ^ 53) := by
  have l1 : (1 : Rat) ≤ late := by exact_mod_cast hl
  have l2 : (late : Rat) ≤ 2 ^ 62 := by exact_mod_cast hl2
  have r1 : (1 : Rat) ≤ rate := by exact_mod_cast h1
  have r2 : (rate : Rat) ≤ 2 ^ 32 := by exact_mod_cast h2.le
  generalize (late : Rat) = L at *
  generalize (rate : Rat) = R at *
  obtain ⟨a1, a2⟩ := round_le hr (x := L) (by norm_num at l1 ⊢; linarith) (by norm_num at l2 ⊢; linarith)
  generalize rnd L = x1 at *
  obtain ⟨b1, b2⟩ := round_le hr (x := x1 / 1000000) (by norm_num at a1 ⊢; linarith) (by norm_num at a2 l2 ⊢; linarith)
  generalize rnd (x1 / 1000000) = x2 at *
  have P1 : 1000 / 2 ^ 32 ≤ 1000 / R := by apply div_le_div_of_nonneg_left <;> linarith
  have P2 : 1000 / R ≤ 1000 := by rw [div_le_iff₀ (by linarith)]; linarith
  have hLR : L * R / 1000000000 = (L / 1000000) / (1000 / R) := by field_simp; norm_num
  rw [hLR]
  generalize hP : 1000 / R = P at *
  obtain ⟨c1, c2⟩ := round_le hr (x := P) (by norm_num at P1 ⊢; linarith) (by norm_num at P2 ⊢; linarith)
  generalize rnd P = p at *
  have hPpos : 0 < P := by norm_num at P1; linarith
  have hppos : 0 < p := by
    have : 0 < P * (1 - 1 / 2 ^ 53) := mul_pos hPpos (by norm_num)
    linarith
  have y1 : L / 1000000 * (1 - 1 / 2 ^ 53) ^ 2 ≤ x2 := by
    calc L / 1000000 * (1 - 1 / 2 ^ 53) ^ 2 = (L * (1 - 1 / 2 ^ 53)) / 1000000 * (1 - 1 / 2 ^ 53) := by ring
      _ ≤ x1 / 1000000 * (1 - 1 / 2 ^ 53) := by
          apply mul_le_mul_of_nonneg_right _ (by norm_num)
          linarith
      _ ≤ x2 := b1
  have y2 : x2 ≤ L / 1000000 * (1 + 1 / 2 ^ 53) ^ 2 := by
    calc x2 ≤ x1 / 1000000 * (1 + 1 / 2 ^ 53) := b2
      _ ≤ (L * (1 + 1 / 2 ^ 53)) / 1000000 * (1 + 1 / 2 ^ 53) := by
          apply mul_le_mul_of_nonneg_right _ (by norm_num)
          linarith
      _ = L / 1000000 * (1 + 1 / 2 ^ 53) ^ 2 := by ring
  generalize hY : L / 1000000 = Y at *
  have hY1 : 1 / 1000000 ≤ Y := by rw [← hY]; linarith
  have hY2 : Y ≤ 2 ^ 62 := by rw [← hY]; norm_num at l2 ⊢; linarith
  have q1 : Y / P * ((1 - 1 / 2 ^ 53) ^ 2 / (1 + 1 / 2 ^ 53)) ≤ x2 / p := by
    rw [le_div_iff₀ hppos]
    have hk : 0 ≤ Y / P * ((1 - 1 / 2 ^ 53) ^ 2 / (1 + 1 / 2 ^ 53)) := by
      apply mul_nonneg (div_nonneg (by linarith) hPpos.le) (by norm_num)
    calc Y / P * ((1 - 1 / 2 ^ 53) ^ 2 / (1 + 1 / 2 ^ 53)) * p
        ≤ Y / P * ((1 - 1 / 2 ^ 53) ^ 2 / (1 + 1 / 2 ^ 53)) * (P * (1 + 1 / 2 ^ 53)) := mul_le_mul_of_nonneg_left c2 hk
      _ = Y * (1 - 1 / 2 ^ 53) ^ 2 := by field_simp
      _ ≤ x2 := y1
  have q2 : x2 / p ≤ Y / P * ((1 + 1 / 2 ^ 53) ^ 2 / (1 - 1 / 2 ^ 53)) := by
    rw [div_le_iff₀ hppos]
    have hk : 0 ≤ Y / P * ((1 + 1 / 2 ^ 53) ^ 2 / (1 - 1 / 2 ^ 53)) := by
      apply mul_nonneg (div_nonneg (by linarith) hPpos.le) (by norm_num)
    calc x2 ≤ Y * (1 + 1 / 2 ^ 53) ^ 2 := y2
      _ = Y / P * ((1 + 1 / 2 ^ 53) ^ 2 / (1 - 1 / 2 ^ 53)) * (P * (1 - 1 / 2 ^ 53)) := by
          have : (1 - 1 / 2 ^ 53 : Rat) ≠ 0 := by norm_num
          field_simp
      _ ≤ _ := mul_le_mul_of_nonneg_left c1 hk
  have z1 : 1 / 10 ^ 9 ≤ Y / P := by
    rw [le_div_iff₀ hPpos]; norm_num at hY1 P2 ⊢; linarith
  have z2 : Y / P ≤ 2 ^ 94 := by
    rw [div_le_iff₀ hPpos]
    norm_num at hY2 P1 ⊢; linarith
  generalize Y / P = Z at *
  obtain ⟨d1, d2⟩ := round_le hr (x := x2 / p) (by norm_num at z1 q1 ⊢; linarith) (by norm_num at z2 q2 ⊢; linarith)
  generalize rnd (x2 / p) = q at *
  generalize x2 / p = w at *
  norm_num at q1 q2 d1 d2 z1 ⊢
  constructor <;> linarith

/-- After an overrun the loop waits for a deadline that is not past (up to the error `e` of the period) and at most a period away. -/
theorem overrun_bounds {c : Cfg} (hr : Rounds c.rnd) (h1 : 1 ≤ c.rate) (h2 : c.rate < 2 ^ 32) {late k e : Int}
    (hl : 1 ≤ late) (hl2 : late ≤ 2 ^ 50) (he : (c.rate ∣ 1000000000 ∧ e = 0) ∨ late * c.rate ≤ 1000000000 * e)
    (h : overrunCount c late = some k) :
    late ≤ k * (1000000000 / c.rate : Nat) + e ∧ k * (1000000000 / c.rate : Nat) ≤ late + (1000000000 / c.rate : Nat) := by
  have hk := overrunCount_eq h
  obtain ⟨b1, b2⟩ := quotient_bounds hr hl (by norm_num at hl2 ⊢; omega) h1 h2
  generalize c.rnd (c.rnd (c.rnd late / 1000000) / c.rnd (1000 / c.rate)) = q at *
  have k1 : q ≤ k := by rw [hk]; exact Int.le_ceil q
  have k2 : (k : Rat) < q + 1 := by rw [hk]; exact Int.ceil_lt_add_one q
  have hp1 : c.rate * (1000000000 / c.rate) ≤ 1000000000 := Nat.mul_div_le _ _
  have hp2 : 1000000000 < c.rate * (1000000000 / c.rate) + c.rate := by
    have := Nat.lt_div_mul_add (a := 1000000000) (b := c.rate) (by omega)
    rw [Nat.mul_comm]; exact this
  have hp3 : c.rate ∣ 1000000000 → c.rate * (1000000000 / c.rate) = 1000000000 := fun hd => Nat.mul_div_cancel' hd
  generalize 1000000000 / c.rate = P at *
  have l1 : (1 : Rat) ≤ late := by exact_mod_cast hl
  have l2 : (late : Rat) ≤ 2 ^ 50 := by exact_mod_cast hl2
  have P0 : (0 : Rat) ≤ P := by positivity
  have p1 : (c.rate : Rat) * P ≤ 1000000000 := by exact_mod_cast hp1
  have p2 : (1000000000 : Rat) < c.rate * P + c.rate := by exact_mod_cast hp2
  have p3 : c.rate ∣ 1000000000 → (c.rate : Rat) * P = 1000000000 := fun hd => by exact_mod_cast hp3 hd
  constructor
  · suffices (late : Rat) < k * P + e + 1 by
      have : late < k * P + e + 1 := by exact_mod_cast this
      omega
    have hkP : late * (c.rate * P) / 1000000000 * (1 - 5 / 2 ^ 53) ≤ k * (P : Rat) := by
      calc (late * (c.rate * P) / 1000000000 * (1 - 5 / 2 ^ 53) : Rat)
          = late * c.rate / 1000000000 * (1 - 5 / 2 ^ 53) * P := by ring
        _ ≤ q * P := mul_le_mul_of_nonneg_right b1 P0
        _ ≤ k * P := mul_le_mul_of_nonneg_right k1 P0
    rcases he with ⟨hd, rfl⟩ | he
    · rw [p3 hd] at hkP
      norm_num at hkP l2 ⊢
      linarith
    · have he' : (late : Rat) * c.rate ≤ 1000000000 * e := by exact_mod_cast he
      have : late * (1000000000 - c.rate : Rat) ≤ late * (c.rate * P) :=
        mul_le_mul_of_nonneg_left (by linarith) (by linarith)
      norm_num at hkP l2 ⊢
      linarith
  · suffices (k * P : Rat) < late + P + 1 by
      have : k * P < late + P + 1 := by exact_mod_cast this
      omega
    have hkP : k * (P : Rat) ≤ late * (c.rate * P) / 1000000000 * (1 + 5 / 2 ^ 53) + P := by
      calc (k * P : Rat) ≤ (q + 1) * P := mul_le_mul_of_nonneg_right k2.le P0
        _ = q * P + P := by ring
        _ ≤ late * c.rate / 1000000000 * (1 + 5 / 2 ^ 53) * P + P := by
            have := mul_le_mul_of_nonneg_right b2 P0
            linarith
        _ = _ := by ring
    have : late * (c.rate * P : Rat) ≤ late * 1000000000 := mul_le_mul_of_nonneg_left p1 (by linarith)
    norm_num at hkP l2 ⊢
    linarith

/-- No undefined behaviour for overruns of up to about 2^30 cycles. -/
theorem overrun_defined {c : Cfg} (hr : Rounds c.rnd) (h1 : 1 ≤ c.rate) (h2 : c.rate < 2 ^ 32) {late : Int}
    (hl : 1 ≤ late) (hl2 : late ≤ 2 ^ 62) (hb : late * c.rate ≤ 2 ^ 30 * 1000000000) : ∃ k, overrunCount c late = some k := by
  obtain ⟨b1, b2⟩ := quotient_bounds hr hl hl2 h1 h2
  unfold overrunCount
  dsimp only
  have hb' : (late : Rat) * c.rate ≤ 2 ^ 30 * 1000000000 := by exact_mod_cast hb
  have q0 : 0 ≤ c.rnd (c.rnd (c.rnd late / 1000000) / c.rnd (1000 / c.rate)) := by
    refine le_trans ?_ b1
    have : (1 : Rat) ≤ late := by exact_mod_cast hl
    apply mul_nonneg
    · positivity
    · norm_num
  generalize c.rnd (c.rnd (c.rnd late / 1000000) / c.rnd (1000 / c.rate)) = q at *
  have c0 : 0 ≤ ⌈q⌉ := Int.ceil_nonneg q0
  have c1 : ⌈q⌉ ≤ 2 ^ 31 - 1 := by
    apply Int.ceil_le.2
    norm_num at b2 hb' ⊢
    linarith
  refine ⟨⌈q⌉, ?_⟩
  unfold castTo
  dsimp only
  have hc : (0 : Rat) ≤ ((⌈q⌉ : Int) : Rat) := by exact_mod_cast c0
  simp only [if_pos hc, Int.floor_intCast]
  rw [if_pos]
  constructor
  · exact le_trans (by norm_num) c0
  · exact lt_of_le_of_lt c1 (by norm_num)

end Verif.Loop
namespace Verif.Loop

theorem Lateness.tail {d due n : Int} {a : Cycle} {l : List Cycle} (h : Lateness d due (a :: l)) (ha : a.till = some n) :
    Lateness d n l :=
  ⟨fun y hy => h.2 0 a y n rfl hy ha, fun i y z u hy hz hu => h.2 (i + 1) y z u hy hz hu⟩

/-- The first cycle does not begin before it is due. -/
def From (due : Int) (l : List Cycle) : Prop := ∀ y, l[0]? = some y → due ≤ y.start

theorem Physical.from_tail {n : Int} {a : Cycle} {l : List Cycle} (h : Physical (a :: l)) (ha : a.till = some n) : From n l :=
  fun y hy => (h.2 0 a y rfl hy).2 n ha

theorem run_managed {c : Cfg} (hc : c.Periodic) (hm : c.manage = true) (hr : Rounds c.rnd) (h1 : 1 ≤ c.rate) (h2 : c.rate < 2 ^ 32)
    {d e : Int} (hd : d ≤ 2 ^ 50) (he0 : 0 ≤ e) (he : (c.rate ∣ 1000000000 ∧ e = 0) ∨ d * c.rate ≤ 1000000000 * e) (ts : List Tick) :
    ∀ s : St, s.period = ((1000000000 / c.rate : Nat) : Int) → Physical (run c s ts) → From s.next (run c s ts) → Lateness d s.next (run c s ts) →
      ∀ (i : Nat) (y : Cycle), (run c s ts)[i]? = some y → ∀ u, y.till = some u → y.now ≤ u + e ∧ u ≤ y.now + s.period := by
  induction ts with
  | nil => intro s _ _ _ _ i y h; simp [run] at h
  | cons t ts ih =>
    intro s hp hphys hfrom hlate i y h u hu
    obtain ⟨v, r, hrun, hdis⟩ := run_cons c s t ts
    rw [hrun] at h hphys hfrom hlate
    rcases hdis with ⟨n, hs, rfl⟩ | ⟨rfl, rfl⟩
    · have hs' := hs
      rw [sleep_periodic hc] at hs
      obtain ⟨hv, -⟩ := periodic_go hr hs
      subst hv
      cases i with
      | zero =>
        simp at h; subst h
        injection hu with hu; subst hu
        have hst := hfrom _ rfl
        have hfw := hphys.1 _ (List.mem_cons_self ..)
        have hla := hlate.1 _ rfl
        dsimp only [Cycle.Forward] at hst hfw hla ⊢
        unfold periodic at hs
        dsimp only at hs
        split at hs
        · rename_i hlt
          split at hs
          · cases hs
          · rename_i k hk
            injection hs with hn _
            have hpos : 0 ≤ s.period := by rw [hp]; positivity
            have := overrun_bounds (e := e) hr h1 h2 (by omega) (by omega) (by
              rcases he with he | he
              · exact .inl he
              · refine .inr (le_trans ?_ he)
                apply mul_le_mul_of_nonneg_right _ (by positivity)
                omega) hk
            rw [← hp] at this
            omega
        · rename_i hlt
          injection hs with hn _
          have : ¬ s.next + s.period < t.now := fun hh => hlt ⟨hm, hh⟩
          omega
      | succ i =>
        simp only [List.getElem?_cons_succ] at h
        exact ih { s with previous := t.start, next := n } hp hphys.tail (hphys.from_tail rfl) (hlate.tail rfl) i y h u hu
    · cases i with
      | zero => simp at h; subst h; simp at hu
      | succ i => simp at h

/-- The loop with fixed deadlines goes on. -/
theorem run_goes_on {c : Cfg} (hc : c.Periodic) (hr : Rounds c.rnd) (h1 : 1 ≤ c.rate) (h2 : c.rate < 2 ^ 32)
    {d : Int} (hd0 : d ≤ 2 ^ 62) (hd : d * c.rate ≤ 2 ^ 30 * 1000000000) (ts : List Tick) :
    ∀ s, 0 ≤ s.period → Lateness d s.next (run c s ts) →
      (run c s ts).length = ts.length ∧ ∀ y ∈ run c s ts, ∃ u, y.till = some u := by
  induction ts with
  | nil => intro s _ _; simp [run]
  | cons t ts ih =>
    intro s hp hlate
    obtain ⟨v, r, hrun, hdis⟩ := run_cons c s t ts
    have hgo : ∃ n, sleep c s t = .go n (some n) := by
      rw [sleep_periodic hc]
      unfold periodic
      dsimp only
      split
      · rename_i hlt
        rw [hrun] at hlate
        have hla := hlate.1 _ rfl
        dsimp only at hla
        obtain ⟨k, hk⟩ := overrun_defined (c := c) hr h1 h2 (late := t.now - (s.next + s.period)) (by omega) (by omega) (by
          refine le_trans ?_ hd
          apply mul_le_mul_of_nonneg_right _ (by positivity)
          omega)
        rw [hk]
        exact ⟨_, rfl⟩
      · exact ⟨_, rfl⟩
    obtain ⟨n, hn⟩ := hgo
    have hrun2 : run c s (t :: ts) = ⟨t.start, t.done, t.now, t.start - s.previous, some n⟩ :: run c { s with previous := t.start, next := n } ts := by
      rw [run, hn]
    rw [hrun2] at hlate ⊢
    obtain ⟨a, b⟩ := ih { s with previous := t.start, next := n } hp (hlate.tail rfl)
    refine ⟨by simp [a], ?_⟩
    intro y hy
    rcases List.mem_cons.1 hy with rfl | hy
    · exact ⟨n, rfl⟩
    · exact b y hy

/-- A loop whose cycles are in time, or that does not manage overruns, has the deadlines of the grid one by one. -/
theorem run_exact {c : Cfg} (hc : c.Periodic) (hr : Rounds c.rnd) (ts : List Tick) :
    ∀ s, (c.manage = false ∨ ∀ (i : Nat) (y : Cycle), (run c s ts)[i]? = some y → y.now ≤ s.next + (i + 1) * s.period) →
      ∀ (i : Nat) (y : Cycle), (run c s ts)[i]? = some y → ∀ u, y.till = some u → u = s.next + (i + 1) * s.period := by
  induction ts with
  | nil => intro s _ i y h; simp [run] at h
  | cons t ts ih =>
    intro s hin i y h u hu
    obtain ⟨v, r, hrun, hdis⟩ := run_cons c s t ts
    rw [hrun] at h hin
    rcases hdis with ⟨n, hs, rfl⟩ | ⟨rfl, rfl⟩
    · rw [sleep_periodic hc] at hs
      obtain ⟨hv, k, hk, k1, k2⟩ := periodic_go hr hs
      have hk0 : k = 0 := by
        rcases hin with hin | hin
        · exact k1 hin
        · apply k2
          have := hin 0 _ rfl
          simpa using this
      subst hk0
      have hn : n = s.next + s.period := by simpa using hk
      cases i with
      | zero =>
        simp at h; subst h
        rw [hv] at hu
        injection hu with hu
        simp; omega
      | succ i =>
        simp only [List.getElem?_cons_succ] at h
        have := ih { s with previous := t.start, next := n } (by
          rcases hin with hin | hin
          · exact .inl hin
          · refine .inr fun j z hz => ?_
            have := hin (j + 1) z hz
            dsimp only
            rw [hn]
            push_cast at this
            linarith) i y h u hu
        dsimp only at this
        rw [this, hn]
        push_cast
        ring
    · cases i with
      | zero => simp at h; subst h; simp at hu
      | succ i => simp at h

theorem run_till_next {c : Cfg} {ts : List Tick} {s : St} {i : Nat} {y z : Cycle} (hc : c.Periodic) (hr : Rounds c.rnd)
    (hy : (run c s ts)[i]? = some y) (hz : (run c s ts)[i + 1]? = some z) : ∃ u, y.till = some u := by
  obtain ⟨u, hu, -⟩ := run_grid_pair hc hr ts s i (i + 1) y z (by omega) hy hz
  exact ⟨u, hu⟩

end Verif.Loop
