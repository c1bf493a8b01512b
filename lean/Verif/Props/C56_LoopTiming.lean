import Verif.Loop.Lemmas
/-!
# C56: the timing of the control loop

`run c s ts` are the cycles of the loop for the clock readings `ts`, from the state `s` that `start` gives: `s.previous` and `s.next`
are the times read just before the first cycle. `Physical` (no clock runs backwards, no sleep ends early), `Lateness` and `Rounds`
are defined in Loop/Spec.
-/
namespace Verif.Loop

/-- The number of nanoseconds of a period. -/
theorem start_period {rate : Nat} {p n : Int} {s : St} (h : start rate p n = some s) :
    0 < rate ∧ s.previous = p ∧ s.next = n ∧ s.period = ((1000000000 / rate : Nat) : Int) := by
  unfold start at h
  split at h
  · cases h
  · cases h
    exact ⟨by omega, rfl, rfl, by simp⟩

/-! ## The period handed over -/

/-- **C56.** Whatever the policy and the clocks: the period handed to `read`, `update` and `write` is the time since the beginning of
the previous cycle (since the time read before the loop, for the first). -/
theorem C56_period_is_elapsed_time {c : Cfg} {p n : Int} {s : St} (_h : start c.rate p n = some s) (ts : List Tick) (i : Nat) (y : Cycle)
    (hy : (run c s ts)[i]? = some y) :
    (i = 0 → y.measured = y.start - p) ∧ ∀ j z, i = j + 1 → (run c s ts)[j]? = some z → y.measured = y.start - z.start := by
  have := run_measured c ts s i y hy
  rw [(start_period _h).2.1] at this
  exact this

/-- **C56.** The periods handed over add up to the time elapsed: nothing is left out and nothing is counted twice. -/
theorem C56_periods_add_up {c : Cfg} {p n : Int} {s : St} (h : start c.rate p n = some s) (ts : List Tick) (y : Cycle)
    (hy : (run c s ts).getLast? = some y) : ((run c s ts).map (·.measured)).sum = y.start - p := by
  rw [run_sum c ts s y hy, (start_period h).2.1]

/-! ## Fixed deadlines -/

/-- **C56.** Every time the loop sleeps, it does so until a time of the grid given by the start and the period, later than the ones
before. -/
theorem C56_on_the_grid {c : Cfg} (hc : c.Periodic) (hr : Rounds c.rnd) {p n : Int} {s : St} (h : start c.rate p n = some s)
    (ts : List Tick) (i : Nat) (y : Cycle) (hy : (run c s ts)[i]? = some y) (u : Int) (hu : y.till = some u) :
    (∃ k : Nat, i + 1 ≤ k ∧ u = n + k * ((1000000000 / c.rate : Nat) : Int)) ∧
    ∀ j z v, i < j → (run c s ts)[j]? = some z → z.till = some v →
      ∃ k : Nat, j - i ≤ k ∧ v = u + k * ((1000000000 / c.rate : Nat) : Int) := by
  obtain ⟨-, -, hn, hp⟩ := start_period h
  constructor
  · obtain ⟨k, hk, e⟩ := run_grid hc hr ts s i y hy u hu
    exact ⟨k, hk, by rw [e, hn, hp]⟩
  · intro j z v hij hz hv
    obtain ⟨u', hu', hh⟩ := run_grid_pair hc hr ts s i j y z hij hy hz
    rw [hu] at hu'; cases hu'
    obtain ⟨k, hk, e⟩ := hh v hv
    exact ⟨k, by omega, by rw [e, hp]⟩

/-- **C56.** The loop is never early: cycle `i` does not begin before `i` periods have passed. -/
theorem C56_never_early {c : Cfg} (hc : c.Periodic) (hr : Rounds c.rnd) {p n : Int} {s : St} (h : start c.rate p n = some s)
    (ts : List Tick) (hphys : Physical (run c s ts)) (hfrom : From n (run c s ts)) (i : Nat) (y : Cycle)
    (hy : (run c s ts)[i]? = some y) : n + i * ((1000000000 / c.rate : Nat) : Int) ≤ y.start := by
  cases i with
  | zero => simpa using hfrom y hy
  | succ i =>
    have hlt : i < (run c s ts).length := by
      have := (List.getElem?_eq_some_iff.1 hy).1; omega
    have hx : (run c s ts)[i]? = some (run c s ts)[i] := List.getElem?_eq_getElem hlt
    generalize (run c s ts)[i] = x at hx
    obtain ⟨u, hu⟩ := run_till_next hc hr hx hy
    have h1 := (hphys.2 i x y hx hy).2 u hu
    obtain ⟨⟨k, hk, e⟩, -⟩ := C56_on_the_grid hc hr h ts i x hx u hu
    have : ((i + 1 : Nat) : Int) * ((1000000000 / c.rate : Nat) : Int) ≤ k * ((1000000000 / c.rate : Nat) : Int) :=
      mul_le_mul_of_nonneg_right (by exact_mod_cast hk) (by positivity)
    omega

/-- **C56.** No drift: as long as every cycle is over before the next one is due — or always, if overruns are not managed — cycle
`i` is followed by a sleep until exactly `i + 1` periods after the start. No cycle is dropped. -/
theorem C56_no_drift {c : Cfg} (hc : c.Periodic) (hr : Rounds c.rnd) {p n : Int} {s : St} (h : start c.rate p n = some s)
    (ts : List Tick)
    (hin : c.manage = false ∨
      ∀ (i : Nat) (y : Cycle), (run c s ts)[i]? = some y → y.now ≤ n + (i + 1) * ((1000000000 / c.rate : Nat) : Int))
    (i : Nat) (y : Cycle) (hy : (run c s ts)[i]? = some y) (u : Int) (hu : y.till = some u) :
    u = n + (i + 1) * ((1000000000 / c.rate : Nat) : Int) := by
  obtain ⟨-, -, hn, hp⟩ := start_period h
  have := run_exact hc hr ts s (by rw [hn, hp]; exact hin) i y hy u hu
  rw [this, hn, hp]

/-- **C56.** The period is at most a nanosecond shorter than the update rate says: after `i` periods the loop is ahead by less than `i`
nanoseconds, and never behind. -/
theorem C56_rate {rate : Nat} {p n : Int} {s : St} (h : start rate p n = some s) (i : Nat) (hi : 0 < i) :
    (i * s.period : Rat) ≤ i / rate * 1000000000 ∧ (i / rate * 1000000000 : Rat) < i * s.period + i := by
  obtain ⟨h0, -, -, hp⟩ := start_period h
  have h1 : rate * (1000000000 / rate) ≤ 1000000000 := Nat.mul_div_le _ _
  have h2 : 1000000000 < rate * (1000000000 / rate) + rate := by
    have := Nat.lt_div_mul_add (a := 1000000000) (b := rate) h0
    rw [Nat.mul_comm]; exact this
  rw [hp]
  generalize 1000000000 / rate = P at *
  have r0 : (0 : Rat) < rate := by exact_mod_cast h0
  have i0 : (0 : Rat) < i := by exact_mod_cast hi
  have p1 : (rate : Rat) * P ≤ 1000000000 := by exact_mod_cast h1
  have p2 : (1000000000 : Rat) < rate * P + rate := by exact_mod_cast h2
  have hq : (1000000000 / rate : Rat) = 1000000000 / rate := rfl
  constructor
  · rw [div_mul_eq_mul_div, le_div_iff₀ r0]
    push_cast
    have := mul_le_mul_of_nonneg_left p1 i0.le
    linarith
  · rw [div_mul_eq_mul_div, div_lt_iff₀ r0]
    push_cast
    have := mul_lt_mul_of_pos_left p2 i0
    linarith

/-! ## Overruns -/

/-- **C56.** With overruns managed and a whole number of nanoseconds per period: after every cycle, however late (up to 2^50 ns, two
weeks), the loop sleeps until a time of the grid that is not past and at most one period away. -/
theorem C56_overrun_recovers {c : Cfg} (hc : c.Periodic) (hm : c.manage = true) (hr : Rounds c.rnd) (h2 : c.rate < 2 ^ 32)
    (hdvd : c.rate ∣ 1000000000) {p n : Int} {s : St} (h : start c.rate p n = some s) (ts : List Tick)
    (hphys : Physical (run c s ts)) (hfrom : From n (run c s ts)) (hlate : Lateness (2 ^ 50) n (run c s ts))
    (i : Nat) (y : Cycle) (hy : (run c s ts)[i]? = some y) (u : Int) (hu : y.till = some u) :
    y.now ≤ u ∧ u ≤ y.now + ((1000000000 / c.rate : Nat) : Int) ∧ ∃ k : Nat, u = n + k * ((1000000000 / c.rate : Nat) : Int) := by
  obtain ⟨h0, -, hn, hp⟩ := start_period h
  have := run_managed hc hm hr h0 h2 (le_refl (2 ^ 50)) (le_refl 0) (.inl ⟨hdvd, rfl⟩) ts s hp hphys (by rw [hn]; exact hfrom)
    (by rw [hn]; exact hlate) i y hy u hu
  rw [hp] at this
  obtain ⟨⟨k, -, e⟩, -⟩ := C56_on_the_grid hc hr h ts i y hy u hu
  exact ⟨by omega, this.2, k, e⟩

/-- **C56.** Hence overruns are not followed by bursts: between the end of a cycle and the beginning of the `j`-th cycle after it there
are at least `j - 1` periods. -/
theorem C56_no_burst {c : Cfg} (hc : c.Periodic) (hm : c.manage = true) (hr : Rounds c.rnd) (h2 : c.rate < 2 ^ 32)
    (hdvd : c.rate ∣ 1000000000) {p n : Int} {s : St} (h : start c.rate p n = some s) (ts : List Tick)
    (hphys : Physical (run c s ts)) (hfrom : From n (run c s ts)) (hlate : Lateness (2 ^ 50) n (run c s ts))
    (i j : Nat) (y z : Cycle) (hj : 0 < j) (hy : (run c s ts)[i]? = some y) (hz : (run c s ts)[i + j]? = some z) :
    y.now + (j - 1) * ((1000000000 / c.rate : Nat) : Int) ≤ z.start := by
  obtain ⟨j, rfl⟩ : ∃ m, j = m + 1 := ⟨j - 1, by omega⟩
  have hlt : i + j < (run c s ts).length := by
    have := (List.getElem?_eq_some_iff.1 hz).1; omega
  have hx : (run c s ts)[i + j]? = some (run c s ts)[i + j] := List.getElem?_eq_getElem hlt
  generalize (run c s ts)[i + j] = x at hx
  obtain ⟨v, hv⟩ := run_till_next (i := i + j) hc hr hx hz
  have h1 := (hphys.2 (i + j) x z hx hz).2 v hv
  rcases Nat.eq_zero_or_pos j with rfl | hj
  · have hxy : x = y := by simpa [hy] using hx.symm
    subst hxy
    have := (C56_overrun_recovers hc hm hr h2 hdvd h ts hphys hfrom hlate i x hy v hv).1
    simp; omega
  · obtain ⟨u, hu, hk⟩ := run_grid_pair hc hr ts s i (i + j) y x (by omega) hy hx
    obtain ⟨k, hk, e⟩ := hk v hv
    have := (C56_overrun_recovers hc hm hr h2 hdvd h ts hphys hfrom hlate i y hy u hu).1
    rw [(start_period h).2.2.2] at e
    have hjk : (j : Int) * ((1000000000 / c.rate : Nat) : Int) ≤ k * ((1000000000 / c.rate : Nat) : Int) :=
      mul_le_mul_of_nonneg_right (by omega) (by positivity)
    push_cast
    have : ((j : Int) + 1 - 1) * ((1000000000 / c.rate : Nat) : Int) = j * ((1000000000 / c.rate : Nat) : Int) := by ring
    push_cast at this hjk e ⊢
    omega

/-- **C56.** For other rates the deadline may be past, by at most `e` nanoseconds if the overrun is shorter than `e / rate` seconds (a
nanosecond for every cycle missed); that `e = 0` is not always enough is shown below. -/
theorem C56_overrun_recovers_any_rate_partial {c : Cfg} (hc : c.Periodic) (hm : c.manage = true) (hr : Rounds c.rnd) (h2 : c.rate < 2 ^ 32)
    {p n : Int} {s : St} (h : start c.rate p n = some s) (ts : List Tick) {d e : Int} (hd : d ≤ 2 ^ 50) (he0 : 0 ≤ e)
    (he : d * c.rate ≤ 1000000000 * e)
    (hphys : Physical (run c s ts)) (hfrom : From n (run c s ts)) (hlate : Lateness d n (run c s ts))
    (i : Nat) (y : Cycle) (hy : (run c s ts)[i]? = some y) (u : Int) (hu : y.till = some u) :
    y.now ≤ u + e ∧ u ≤ y.now + ((1000000000 / c.rate : Nat) : Int) := by
  obtain ⟨h0, -, hn, hp⟩ := start_period h
  have := run_managed hc hm hr h0 h2 hd he0 (.inr he) ts s hp hphys (by rw [hn]; exact hfrom)
    (by rw [hn]; exact hlate) i y hy u hu
  rw [hp] at this
  exact this

/-- **C56.** The loop goes on: with overruns of less than 2^30 cycles (and 2^62 ns) there is a cycle for every reading of the clocks, each
followed by a sleep. -/
theorem C56_goes_on {c : Cfg} (hc : c.Periodic) (hr : Rounds c.rnd) (h2 : c.rate < 2 ^ 32) {p n : Int} {s : St}
    (h : start c.rate p n = some s) (ts : List Tick) {d : Int} (hd0 : d ≤ 2 ^ 62) (hd : d * c.rate ≤ 2 ^ 30 * 1000000000)
    (hlate : Lateness d n (run c s ts)) :
    (run c s ts).length = ts.length ∧ ∀ y ∈ run c s ts, ∃ u, y.till = some u := by
  obtain ⟨h0, -, hn, hp⟩ := start_period h
  exact run_goes_on hc hr h0 h2 hd0 hd ts s (by rw [hp]; positivity) (by rw [hn]; exact hlate)

/-! ## Simulated time -/

theorem run_sim {c : Cfg} (hc : c.sim = true) (ts : List Tick) : ∀ (s : St) (i : Nat) (y : Cycle), (run c s ts)[i]? = some y →
    (∀ z, (run c s ts)[i + 1]? = some z → y.till = some (y.start + s.period)) ∧
    ∀ u, y.till = some u → u = y.start + s.period := by
  induction ts with
  | nil => intro s i y h; simp [run] at h
  | cons t ts ih =>
    intro s i y h
    obtain ⟨v, r, he, hd⟩ := run_cons c s t ts
    rw [he] at h ⊢
    rcases hd with ⟨n, hs, rfl⟩ | ⟨rfl, rfl⟩
    · cases i with
      | zero =>
        simp at h; subst h
        simp only [sleep, hc, if_true, simTime] at hs
        split at hs
        · cases hs
        · injection hs with _ hv
          exact ⟨fun _ _ => hv.symm, fun u hu => by dsimp only at hu ⊢; rw [← hv] at hu; cases hu; rfl⟩
      | succ i =>
        simp only [List.getElem?_cons_succ] at h ⊢
        exact ih _ i y h
    · cases i with
      | zero => simp at h; subst h; simp
      | succ i => simp at h

/-- **C56.** With simulated time two cycles never begin less than a period apart. -/
theorem C56_sim_spacing {c : Cfg} (hc : c.sim = true) {p n : Int} {s : St} (h : start c.rate p n = some s) (ts : List Tick)
    (hphys : Physical (run c s ts)) (i : Nat) (y z : Cycle) (hy : (run c s ts)[i]? = some y) (hz : (run c s ts)[i + 1]? = some z) :
    y.start + ((1000000000 / c.rate : Nat) : Int) ≤ z.start := by
  have := (run_sim hc ts s i y hy).1 z hz
  rw [← (start_period h).2.2.2]
  exact (hphys.2 i y z hy hz).2 _ this

/-- **C56.** But there lateness accumulates: if every sleep ends `e` late, cycle `i` begins `i * e` late. -/
theorem C56_sim_drifts {c : Cfg} (hc : c.sim = true) {p n : Int} {s : St} (h : start c.rate p n = some s) (ts : List Tick) (e a : Int)
    (hfirst : ∀ y, (run c s ts)[0]? = some y → y.start = a)
    (hwake : ∀ (i : Nat) (y z : Cycle) (u : Int), (run c s ts)[i]? = some y → (run c s ts)[i + 1]? = some z → y.till = some u → z.start = u + e)
    (i : Nat) : ∀ y, (run c s ts)[i]? = some y → y.start = a + i * (((1000000000 / c.rate : Nat) : Int) + e) := by
  induction i with
  | zero => intro y hy; simpa using hfirst y hy
  | succ i ih =>
    intro z hz
    have hlt : i < (run c s ts).length := by
      have := (List.getElem?_eq_some_iff.1 hz).1; omega
    have hx : (run c s ts)[i]? = some (run c s ts)[i] := List.getElem?_eq_getElem hlt
    generalize (run c s ts)[i] = x at hx
    have hu := (run_sim hc ts s i x hx).1 z hz
    rw [hwake i x z _ hx hz hu, ih x hx, (start_period h).2.2.2]
    push_cast
    ring

/-! ## Hardware that blocks -/

theorem castTo_nonneg {n : Nat} {x : Rat} (h0 : 0 ≤ x) (h1 : x < 2 ^ (n - 1)) : castTo n x = some ⌊x⌋ := by
  unfold castTo
  dsimp only
  simp only [if_pos h0]
  rw [if_pos]
  constructor
  · have : 0 ≤ ⌊x⌋ := Int.floor_nonneg.2 h0
    have h2 : (0 : Int) < 2 ^ (n - 1) := by positivity
    linarith
  · apply Int.floor_lt.2
    push_cast
    exact h1

theorem blocking_sleep {c : Cfg} (hr : Rounds c.rnd) (h1 : 1 / 1000000 ≤ c.minCycle) (h2 : c.minCycle ≤ 1000) (s : St) (t : Tick) :
    ∃ u, blockingRW c s t = .go s.next u ∧
      ((u = none ∧ c.minCycle * 1000000000 - 1001 ≤ t.done - t.start) ∨
       ∃ v, u = some v ∧ c.minCycle * 1000000000 - 1001 ≤ v - t.now) := by
  obtain ⟨a1, a2⟩ := round_le hr (x := c.minCycle * 1000000000) (by norm_num; linarith) (by norm_num; linarith)
  obtain ⟨b1, b2⟩ := round_le hr (x := c.minCycle * 1000000) (by norm_num; linarith) (by norm_num; linarith)
  unfold blockingRW
  generalize c.rnd (c.minCycle * 1000000000) = x at *
  generalize c.rnd (c.minCycle * 1000000) = w at *
  norm_num at a1 a2 b1 b2
  rw [castTo_nonneg (x := x) (by linarith) (by norm_num; linarith)]
  dsimp only
  have f1 := Int.lt_floor_add_one x
  have f2 := Int.lt_floor_add_one w
  split
  · rw [castTo_nonneg (x := w) (by linarith) (by norm_num; linarith)]
    refine ⟨_, rfl, .inr ⟨_, rfl, ?_⟩⟩
    push_cast
    linarith
  · rename_i hge
    refine ⟨_, rfl, .inl ⟨rfl, ?_⟩⟩
    have : (⌊x⌋ : Rat) ≤ t.done - t.start := by exact_mod_cast not_lt.1 hge
    linarith

/-- **C56.** If the hardware is expected to block, two cycles begin at least the minimal cycle time apart, up to the microsecond the
sleep is rounded to, whether the hardware blocks or not; and the loop goes on. -/
theorem C56_blocking_spacing {c : Cfg} (hs : c.sim = false) (hb : c.blocking = true) (hr : Rounds c.rnd)
    (h1 : 1 / 1000000 ≤ c.minCycle) (h2 : c.minCycle ≤ 1000) (ts : List Tick) : ∀ (s : St), (run c s ts).length = ts.length ∧
    (Physical (run c s ts) → ∀ (i : Nat) (y z : Cycle), (run c s ts)[i]? = some y → (run c s ts)[i + 1]? = some z →
      c.minCycle * 1000000000 - 1001 ≤ z.start - y.start) := by
  induction ts with
  | nil => intro s; simp [run]
  | cons t ts ih =>
    intro s
    obtain ⟨u, hu, hcase⟩ := blocking_sleep hr h1 h2 s t
    have he : run c s (t :: ts) = ⟨t.start, t.done, t.now, t.start - s.previous, u⟩ :: run c { s with previous := t.start } ts := by
      rw [run]
      have : sleep c s t = .go s.next u := by simp [sleep, hs, hb, hu]
      rw [this]
    rw [he]
    obtain ⟨l, g⟩ := ih { s with previous := t.start }
    refine ⟨by simp [l], ?_⟩
    intro hphys i y z hy hz
    cases i with
    | zero =>
      have hfo := hphys.2 0 y z hy hz
      have hfw := hphys.1 y (List.mem_of_getElem? hy)
      simp at hy; subst hy
      simp only [Follows, Cycle.Forward] at hfo hfw
      have q1 : (t.start : Rat) ≤ t.done := by exact_mod_cast hfw.1
      have q2 : (t.done : Rat) ≤ t.now := by exact_mod_cast hfw.2
      have q3 : (t.now : Rat) ≤ z.start := by exact_mod_cast hfo.1
      dsimp only
      rcases hcase with ⟨rfl, hd⟩ | ⟨v, rfl, hv⟩
      · linarith
      · have q4 : (v : Rat) ≤ z.start := by exact_mod_cast hfo.2 v rfl
        linarith
    | succ i =>
      simp only [List.getElem?_cons_succ] at hy hz
      exact g hphys.tail i y z hy hz

/-! ## Examples and limits -/

/-- Is a list of cycles physical? -/
def physical : List Cycle → Bool
  | [] => true
  | [y] => decide (y.start ≤ y.done ∧ y.done ≤ y.now)
  | y :: z :: l => decide (y.start ≤ y.done ∧ y.done ≤ y.now) && decide (y.now ≤ z.start) &&
      (match y.till with | none => true | some u => decide (u ≤ z.start)) && physical (z :: l)

theorem physical_sound : ∀ l, physical l = true → Physical l
  | [], _ => ⟨by simp, by intro i y z h; simp at h⟩
  | [y], h => by
    refine ⟨?_, ?_⟩
    · intro x hx
      rw [List.mem_singleton.1 hx]
      simpa [physical, Cycle.Forward] using h
    · intro i x z h1 h2; simp at h2
  | y :: z :: l, h => by
    simp only [physical, Bool.and_eq_true, decide_eq_true_eq] at h
    obtain ⟨⟨⟨h1, h2⟩, h3⟩, h4⟩ := h
    have ih := physical_sound (z :: l) h4
    refine ⟨?_, ?_⟩
    · intro x hx
      rcases List.mem_cons.1 hx with rfl | hx
      · exact h1
      · exact ih.1 x hx
    · intro i a b ha hb
      cases i with
      | zero =>
        simp at ha hb
        subst ha; subst hb
        refine ⟨h2, ?_⟩
        intro u hu
        rw [hu] at h3
        simpa using h3
      | succ i => exact ih.2 i a b ha hb

/-- Is every cycle at most `d` late? -/
def lateness (d due : Int) : List Cycle → Bool
  | [] => true
  | y :: l => decide (y.now ≤ due + d) && (match y.till with | none => l.isEmpty | some u => lateness d u l)

theorem lateness_sound : ∀ l d due, lateness d due l = true → Lateness d due l
  | [], _, _, _ => ⟨by simp, by intro i y z u h; simp at h⟩
  | y :: l, d, due, h => by
    simp only [lateness, Bool.and_eq_true, decide_eq_true_eq] at h
    refine ⟨?_, ?_⟩
    · intro x hx; simp at hx; subst hx; exact h.1
    · intro i a b u ha hb hu
      cases i with
      | zero =>
        simp at ha; subst ha
        rw [hu] at h
        exact (lateness_sound l d u h.2).1 b hb
      | succ i =>
        simp only [List.getElem?_cons_succ] at ha hb
        cases hy : y.till with
        | none =>
          rw [hy] at h
          simp at h
          rw [h.2] at ha; simp at ha
        | some w =>
          rw [hy] at h
          exact (lateness_sound l d w h.2).2 i a b u ha hb hu

theorem rounds_id : Rounds id := ⟨fun x hx => hx, fun x h1 _ => by
  simp only [id, sub_self, abs_zero]
  have : (0 : Rat) ≤ x := le_trans (by norm_num) h1
  positivity⟩

/-- At 1 kHz: a cycle in time, a cycle that takes 5.5 ms, two short ones. -/
def slowTicks (a b : Int) : List Tick :=
  [⟨1000000, 1100000, 1100000, false⟩, ⟨2000100, 7500000, 7500000, false⟩, ⟨a, a + 100000, a + 100000, false⟩,
    ⟨b, b + 100000, b + 100000, false⟩]

def at1000 (manage : Bool) : Cfg := { rate := 1000, manage := manage }

/-- A run with an overrun that meets the hypotheses of the theorems above; the loop resumes at the next time of the grid. -/
example : (at1000 true).Periodic ∧ Rounds (at1000 true).rnd ∧ (at1000 true).rate ∣ 1000000000 ∧
    start 1000 0 1000000 = some ⟨0, 1000000, 1000000⟩ ∧
    Physical (run (at1000 true) ⟨0, 1000000, 1000000⟩ (slowTicks 8000000 9000000)) ∧
    From 1000000 (run (at1000 true) ⟨0, 1000000, 1000000⟩ (slowTicks 8000000 9000000)) ∧
    Lateness (2 ^ 50) 1000000 (run (at1000 true) ⟨0, 1000000, 1000000⟩ (slowTicks 8000000 9000000)) ∧
    (run (at1000 true) ⟨0, 1000000, 1000000⟩ (slowTicks 8000000 9000000)).map (·.till) =
      [some 2000000, some 8000000, some 9000000, some 10000000] := by
  refine ⟨⟨rfl, rfl⟩, rounds_id, by decide, by decide, physical_sound _ (by decide +kernel), ?_, lateness_sound _ _ _ (by decide +kernel),
    by decide +kernel⟩
  intro y hy
  have : (run (at1000 true) ⟨0, 1000000, 1000000⟩ (slowTicks 8000000 9000000))[0]? =
    some ⟨1000000, 1100000, 1100000, 1000000, some 2000000⟩ := by decide +kernel
  rw [this] at hy; cases hy; decide

/-- Without management of overruns the missed cycles are caught up with at once: the conclusion of `C56_no_burst` fails. -/
theorem C56_burst_without_management : ∃ (ts : List Tick) (y z : Cycle),
    Physical (run (at1000 false) ⟨0, 1000000, 1000000⟩ ts) ∧
    (run (at1000 false) ⟨0, 1000000, 1000000⟩ ts)[1]? = some y ∧ (run (at1000 false) ⟨0, 1000000, 1000000⟩ ts)[3]? = some z ∧
    z.start < y.now + 1000000 :=
  ⟨slowTicks 7500000 7600000, ⟨2000100, 7500000, 7500000, 1000100, some 3000000⟩, ⟨7600000, 7700000, 7700000, 100000, some 5000000⟩,
    physical_sound _ (by decide +kernel), by decide +kernel, by decide +kernel, by decide⟩

/-- At 3 Hz, with exact arithmetic, a cycle that is a second late is followed by a deadline that is already past. -/
theorem C56_deadline_in_the_past :
    overrunCount { rate := 3 } 1000000000 = some 3 ∧
    periodic { rate := 3 } ⟨0, 0, 333333333⟩ 1333333333 = .go 1333333332 (some 1333333332) := by
  constructor <;> decide +kernel

/-- The update rate is cut to 32 bits after the check that it is positive: 2^32 leads to a division by zero before the loop. -/
theorem C56_rate_zero : (0 : Int) < 2 ^ 32 ∧ ∀ p n, start (rateOf (2 ^ 32)) p n = none := by
  refine ⟨by norm_num, fun p n => ?_⟩
  have : rateOf (2 ^ 32) = 0 := by decide
  rw [this]; rfl

/-- More than 2^31 missed cycles: undefined behaviour. -/
theorem C56_count_overflows : periodic { rate := 1000000000 } ⟨0, 0, 1⟩ (2 ^ 31 + 1) = .fault := by decide +kernel

/-- Runs with simulated time and with hardware that blocks. -/
example : run { rate := 100, sim := true } ⟨0, 0, 10000000⟩ [⟨5, 6, 6, false⟩, ⟨10000010, 10000020, 10000020, false⟩, ⟨20000015, 3, 4, true⟩] =
    [⟨5, 6, 6, 5, some 10000005⟩, ⟨10000010, 10000020, 10000020, 10000005, some 20000010⟩, ⟨20000015, 3, 4, 10000005, none⟩] := by
  decide +kernel

example : Physical (run { rate := 100, blocking := true } ⟨0, 0, 10000000⟩ [⟨5, 200005, 200010, false⟩, ⟨200015, 200020, 200025, false⟩, ⟨300030, 300040, 300040, false⟩]) ∧
    run { rate := 100, blocking := true } ⟨0, 0, 10000000⟩ [⟨5, 200005, 200010, false⟩, ⟨200015, 200020, 200025, false⟩, ⟨300030, 300040, 300040, false⟩] =
    [⟨5, 200005, 200010, 5, none⟩, ⟨200015, 200020, 200025, 200010, some 300025⟩, ⟨300030, 300040, 300040, 100015, some 400040⟩] := by
  constructor
  · exact physical_sound _ (by decide +kernel)
  · decide +kernel

end Verif.Loop
