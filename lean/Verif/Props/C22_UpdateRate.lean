import Verif.Num.UpdateRate
import Mathlib.Data.List.Chain
/-!
# C22: every active controller is updated at its configured rate

Exact rational time. `Rate.calls cm rate cs` are the `update` calls a controller of rate `rate` gets in the cycles `cs`
after its activation, in a manager of rate `cm`. Throughout, the clock shows a time after 0 (0 is the code's "not yet
updated" mark).
-/
namespace Verif
open Rate

/-- A cycle with the clock started: neither time is the code's special value 0. -/
def Rate.Cyc.Started (c : Cyc) : Prop := 0 < c.now ∧ c.time ≠ 0

/-- The instant of the last call of a history, `dflt` if there is none. -/
def Rate.lastAt (dflt : Rat) (l : List Call) : Rat := (l.getLast?.map Call.at_).getD dflt

theorem Rate.lastAt_cons (d : Rat) (k : Call) (l : List Call) : lastAt d (k :: l) = lastAt k.at_ l := by
  unfold lastAt
  cases l with
  | nil => simp
  | cons a l => simp [List.getLast?_cons]

theorem Rate.runFrom_snoc (cm rate : Nat) (pre : List Cyc) (c : Cyc) (last : Rat) :
    runFrom cm rate last (pre ++ [c]) =
      runFrom cm rate last pre ++ (cycle cm rate (lastAt last (runFrom cm rate last pre)) c).2.toList := by
  induction pre generalizing last with
  | nil =>
    simp only [List.nil_append]
    cases h : go cm rate last c
    · rw [runFrom_skip h]; simp [runFrom, lastAt, cycle, h]
    · rw [runFrom_go h]; simp [runFrom, lastAt, cycle, h]
  | cons a pre ih =>
    rw [List.cons_append]
    cases h : go cm rate last a
    · rw [runFrom_skip h, runFrom_skip h, ih]
    · rw [runFrom_go h, runFrom_go h, ih, lastAt_cons]; simp

/-- Calls happen at the instants of cycles. -/
theorem Rate.mem_runFrom {cm rate : Nat} {last : Rat} {cs : List Cyc} {k : Call} (h : k ∈ runFrom cm rate last cs) :
    ∃ c ∈ cs, c.now = k.at_ := by
  induction cs generalizing last with
  | nil => simp [runFrom] at h
  | cons a cs ih =>
    cases hg : go cm rate last a
    · rw [runFrom_skip hg] at h
      obtain ⟨c, hc, e⟩ := ih h
      exact ⟨c, List.mem_cons_of_mem _ hc, e⟩
    · rw [runFrom_go hg, List.mem_cons] at h
      rcases h with rfl | h
      · exact ⟨a, List.mem_cons_self, rfl⟩
      · obtain ⟨c, hc, e⟩ := ih h
        exact ⟨c, List.mem_cons_of_mem _ hc, e⟩

theorem Rate.lastAt_calls_pos {cm rate : Nat} {pre : List Cyc} (hne : pre ≠ []) (hpos : ∀ c ∈ pre, 0 < c.now) :
    0 < lastAt 0 (calls cm rate pre) := by
  cases pre with
  | nil => exact absurd rfl hne
  | cons a pre =>
    unfold calls
    rw [runFrom_go (go_first _ _ _), lastAt_cons]
    unfold lastAt
    cases h : (runFrom cm rate a.now pre).getLast? with
    | none => simpa using hpos a List.mem_cons_self
    | some k =>
      obtain ⟨c, hc, e⟩ := mem_runFrom (List.mem_of_getLast? h)
      simp only [Option.map_some, Option.getD_some]
      rw [← e]; exact hpos c (List.mem_cons_of_mem _ hc)

/-- **C22, fast controllers.** A controller whose rate is at least the manager's is called on each cycle. -/
theorem C22_every_cycle (cm rate : Nat) (h : cm ≤ rate) (cs : List Cyc) :
    (calls cm rate cs).map Call.at_ = cs.map Cyc.now := by
  have : ∀ (l : Rat) (cs : List Cyc), (runFrom cm rate l cs).map Call.at_ = cs.map Cyc.now := by
    intro l cs
    induction cs generalizing l with
    | nil => rfl
    | cons c cs ih => rw [runFrom_go (go_fast h _ _)]; simp [ih]
  exact this 0 cs

example : (calls 100 100 [⟨1, 1, 1/100, true⟩, ⟨2, 2, 1/100, true⟩]).map Call.at_ = [1, 2] := by decide +kernel

/-- **C22, first cycle.** On the first cycle after its activation a controller is always called; the period it gets is its
nominal one (the manager's measured period for a controller as fast as the manager). -/
theorem C22_first_cycle (cm rate : Nat) (c : Cyc) (cs : List Cyc) :
    (calls cm rate (c :: cs)).head? =
      some ⟨c.now, if cm ≤ rate then c.period else 1 / (rate : Rat), c.taken⟩ := by
  unfold calls; rw [runFrom_go (go_first _ _ _)]; simp [actual, nominal]

/-- **C22, slow controllers.** In every history: a controller slower than the manager, updated last at `last`, is due at
`last + 1/rate`. It is updated on a cycle exactly if this cycle is at least as close to the due time as the next one
would be (one nominal manager period later), and then gets the true time since its last update. -/
theorem C22_closest_cycle (cm rate : Nat) (hr : 0 < rate) (hs : rate < cm) (pre : List Cyc) (c : Cyc)
    (hne : pre ≠ []) (hpos : ∀ x ∈ pre, x.Started) (hc : c.Started) :
    let last := lastAt 0 (calls cm rate pre)
    let due := last + 1 / (rate : Rat)
    calls cm rate (pre ++ [c]) = calls cm rate pre ++
      (if |c.now - due| ≤ |(c.now + 1 / (cm : Rat)) - due| then [⟨c.now, c.now - last, c.taken⟩] else []) := by
  intro last due
  have hl : 0 < last := lastAt_calls_pos hne (fun x hx => (hpos x hx).1)
  have h1 : (0 : Rat) < rate := by exact_mod_cast hr
  have h2 : (0 : Rat) < cm := by exact_mod_cast (by omega : 0 < cm)
  have hg := go_slow (c := c) hr hs (ne_of_gt hl) hc.2
  have key : |c.now - due| ≤ |(c.now + 1 / (cm : Rat)) - due| ↔ go cm rate last c = true := by
    rw [hg, ← err_iff h2 h1, mag_eq, mag_eq]
    have e1 : (c.now - last) * rate - 1 = rate * (c.now - due) := by simp only [due]; field_simp; ring
    have e2 : (c.now - last + 1 / (cm : Rat)) * rate - 1 = rate * (c.now + 1 / (cm : Rat) - due) := by
      simp only [due]; field_simp; ring
    rw [e1, e2, abs_mul, abs_mul, abs_of_pos h1, mul_le_mul_iff_right₀ h1]
  change runFrom cm rate 0 (pre ++ [c]) = runFrom cm rate 0 pre ++ _
  rw [runFrom_snoc]
  congr 1
  change (cycle cm rate last c).2.toList = _
  by_cases h : go cm rate last c = true
  · rw [if_pos (key.mpr h)]
    simp [cycle, h, actual, ne_of_gt hl]
  · rw [if_neg (fun x => h (key.mp x))]
    simp [cycle, h]

example : calls 100 50 [⟨1, 1, 1/100, true⟩] = [⟨1, 1/50, true⟩] ∧
    calls 100 50 [⟨1, 1, 1/100, true⟩, ⟨101/100, 101/100, 1/100, true⟩] = [⟨1, 1/50, true⟩] ∧
    calls 100 50 [⟨1, 1, 1/100, true⟩, ⟨101/100, 101/100, 1/100, true⟩, ⟨102/100, 102/100, 1/100, true⟩] =
      [⟨1, 1/50, true⟩, ⟨102/100, 1/50, true⟩] := by decide +kernel

/-- The clock readings of consecutive cycles advance, by at most `d`. -/
def Rate.Spaced (d : Rat) (cs : List Cyc) : Prop :=
  List.IsChain (fun a b : Cyc => a.now < b.now ∧ b.now - a.now ≤ d) cs

/-- **C22, spacing.** However irregular the manager's cycles (at most `d` apart), two consecutive updates of a slow
controller are at least its nominal period less half a manager period apart, and less than that plus `d`. -/
theorem C22_spacing (cm rate : Nat) (hr : 0 < rate) (hs : rate < cm) (d : Rat) (cs : List Cyc)
    (hst : ∀ x ∈ cs, x.Started) (hd : Spaced d cs) :
    List.IsChain (fun a b : Call =>
      1 / (rate : Rat) - 1 / (2 * (cm : Rat)) ≤ b.at_ - a.at_ ∧
      b.at_ - a.at_ < 1 / (rate : Rat) - 1 / (2 * (cm : Rat)) + d) (calls cm rate cs) := by
  generalize hw : 1 / (rate : Rat) - 1 / (2 * (cm : Rat)) = w
  have hw0 : 0 < w := by
    rw [← hw]
    have h1 : (0 : Rat) < rate := by exact_mod_cast hr
    have h2 : (rate : Rat) < cm := by exact_mod_cast hs
    have : 1 / (2 * (cm : Rat)) < 1 / (rate : Rat) := by
      apply one_div_lt_one_div_of_lt h1; linarith
    linarith
  have main : ∀ (cs : List Cyc) (p : Cyc) (k : Call), 0 < k.at_ → (∀ x ∈ cs, x.Started) → Spaced d (p :: cs) →
      k.at_ ≤ p.now → p.now - k.at_ < w →
      List.IsChain (fun a b : Call => w ≤ b.at_ - a.at_ ∧ b.at_ - a.at_ < w + d)
        (k :: runFrom cm rate k.at_ cs) := by
    intro cs
    induction cs with
    | nil => intro p k _ _ _ _ _; simp [runFrom]
    | cons c cs ih =>
      intro p k hk hst hsp hle hlt
      have hc := hst c List.mem_cons_self
      have hst' : ∀ x ∈ cs, x.Started := fun x hx => hst x (List.mem_cons_of_mem _ hx)
      unfold Spaced at hsp
      rw [List.isChain_cons_cons] at hsp
      obtain ⟨⟨h1, h2⟩, hsp⟩ := hsp
      have hg := go_slow (c := c) hr hs (ne_of_gt hk) hc.2
      rw [hw] at hg
      cases hgo : go cm rate k.at_ c
      · rw [runFrom_skip hgo]
        rw [hgo] at hg
        have : c.now - k.at_ < w := by
          by_contra hn; exact absurd (hg.mpr (by linarith)) (by simp)
        exact ih c k hk hst' hsp (by linarith) this
      · rw [runFrom_go hgo, List.isChain_cons_cons]
        have := hg.mp hgo
        refine ⟨⟨this, by change c.now - k.at_ < w + d; linarith⟩, ?_⟩
        exact ih c _ hc.1 hst' hsp (le_refl _) (by simp [hw0])
  cases cs with
  | nil => simp [calls, runFrom]
  | cons c cs =>
    unfold calls
    rw [runFrom_go (go_first _ _ _)]
    exact main cs c _ (hst c List.mem_cons_self).1 (fun x hx => hst x (List.mem_cons_of_mem _ hx)) hd (le_refl _)
      (by simp [hw0])

/-- **C22, regular manager.** If the manager keeps its own rate exactly, consecutive updates of a slow controller are its
nominal period apart up to half a manager period. -/
theorem C22_regular_manager (cm rate : Nat) (hr : 0 < rate) (hs : rate < cm) (cs : List Cyc)
    (hst : ∀ x ∈ cs, x.Started)
    (hreg : List.IsChain (fun a b : Cyc => b.now - a.now = 1 / (cm : Rat)) cs) :
    List.IsChain (fun a b : Call => |(b.at_ - a.at_) - 1 / (rate : Rat)| ≤ 1 / (2 * (cm : Rat))) (calls cm rate cs) := by
  have h2 : (0 : Rat) < cm := by exact_mod_cast (by omega : 0 < cm)
  have e : 1 / (cm : Rat) = 2 * (1 / (2 * (cm : Rat))) := by field_simp
  have hp : 0 < 1 / (cm : Rat) := by positivity
  have := C22_spacing cm rate hr hs (1 / (cm : Rat)) cs hst
    (hreg.imp (fun a b h => ⟨by linarith, le_of_eq h⟩))
  refine this.imp ?_
  intro a b h
  rw [abs_le]
  constructor <;> linarith [h.1, h.2]

example : (∀ x ∈ [⟨1, 1, 1/100, true⟩, ⟨101/100, 101/100, 1/100, true⟩, ⟨102/100, 102/100, 1/100, true⟩],
      Cyc.Started x) ∧
    List.IsChain (fun a b : Cyc => b.now - a.now = 1 / ((100 : Nat) : Rat))
      [⟨1, 1, 1/100, true⟩, ⟨101/100, 101/100, 1/100, true⟩, ⟨102/100, 102/100, 1/100, true⟩] := by
  constructor
  · intro x hx
    simp only [List.mem_cons, List.not_mem_nil, or_false] at hx
    rcases hx with rfl | rfl | rfl <;> constructor <;> norm_num
  · simp; norm_num

/-- A manager keeping its rate exactly: `n` cycles from `t0`, numbered from `k`. -/
def Rate.regular (cm : Nat) (t0 : Rat) (k : Nat) : Nat → List Cyc
  | 0 => []
  | n + 1 => ⟨t0 + k / (cm : Rat), t0 + k / (cm : Rat), 1 / (cm : Rat), true⟩ :: regular cm t0 (k + 1) n

/-- **C22, exact rates.** If the manager keeps its rate `m * rate` exactly, the controller is updated on every `m`-th
cycle, counted from its activation, and each time gets exactly `1/rate`. -/
theorem C22_every_mth_cycle (m rate : Nat) (hr : 0 < rate) (hm : 1 < m) (t0 : Rat) (ht : 0 < t0) (n : Nat) :
    calls (m * rate) rate (regular (m * rate) t0 0 n) =
      ((List.range n).filter (fun k => k % m = 0)).map
        (fun k : Nat => ⟨t0 + (k : Rat) / ((m * rate : Nat) : Rat), 1 / (rate : Rat), true⟩) := by
  have hs : rate < m * rate := by nlinarith
  have h1 : (0 : Rat) < rate := by exact_mod_cast hr
  have h3 : (0 : Rat) < m := by exact_mod_cast (by omega : 0 < m)
  have h2 : (0 : Rat) < (m * rate : Nat) := by exact_mod_cast (by omega : 0 < m * rate)
  have hge : 0 ≤ t0 := le_of_lt ht
  have tpos : ∀ k : Nat, 0 < t0 + (k : Rat) / ((m * rate : Nat) : Rat) := by
    intro k
    have : 0 ≤ (k : Rat) / ((m * rate : Nat) : Rat) := by positivity
    linarith
  -- after an update on cycle `j` (a multiple of `m`), from cycle `j + i` on (`1 ≤ i ≤ m`)
  have main : ∀ (n j i : Nat), j % m = 0 → 1 ≤ i → i ≤ m →
      runFrom (m * rate) rate (t0 + j / ((m * rate : Nat) : Rat)) (regular (m * rate) t0 (j + i) n) =
      ((List.range' (j + i) n).filter (fun k => k % m = 0)).map
        (fun k : Nat => (⟨t0 + (k : Rat) / ((m * rate : Nat) : Rat), 1 / (rate : Rat), true⟩ : Call)) := by
    intro n
    induction n with
    | zero => intro j i _ _ _; simp [regular, runFrom]
    | succ n ih =>
      intro j i hj hi him
      have hmod : (j + i) % m = 0 ↔ i = m := by
        constructor
        · intro h
          have : i % m = 0 := by rw [Nat.add_mod, hj, Nat.zero_add, Nat.mod_mod] at h; exact h
          rcases Nat.lt_or_ge i m with h' | h'
          · rw [Nat.mod_eq_of_lt h'] at this; omega
          · omega
        · rintro rfl; rw [Nat.add_mod_right]; exact hj
      set c : Cyc := ⟨t0 + ((j + i : Nat) : Rat) / ((m * rate : Nat) : Rat),
        t0 + ((j + i : Nat) : Rat) / ((m * rate : Nat) : Rat), 1 / ((m * rate : Nat) : Rat), true⟩ with hcdef
      have hreg : regular (m * rate) t0 (j + i) (n + 1) = c :: regular (m * rate) t0 (j + i + 1) n := rfl
      have hdiff : c.now - (t0 + (j : Rat) / ((m * rate : Nat) : Rat)) = (i : Rat) / ((m * rate : Nat) : Rat) := by
        simp only [hcdef]; push_cast; field_simp; ring
      have hg := go_slow (c := c) hr hs (ne_of_gt (tpos j)) (ne_of_gt (tpos (j + i)))
      rw [hdiff] at hg
      have hiff : go (m * rate) rate (t0 + (j : Rat) / ((m * rate : Nat) : Rat)) c = true ↔ i = m := by
        rw [hg]
        have e : 1 / (rate : Rat) - 1 / (2 * ((m * rate : Nat) : Rat)) =
            ((m : Rat) - 1 / 2) / ((m * rate : Nat) : Rat) := by push_cast; field_simp
        rw [e, div_le_div_iff_of_pos_right h2]
        constructor
        · intro h
          by_contra hne
          have : (i : Rat) + 1 ≤ m := by exact_mod_cast (by omega : i + 1 ≤ m)
          linarith
        · rintro rfl; linarith
      rw [hreg, List.range'_succ]
      by_cases hi2 : i = m
      · rw [runFrom_go (hiff.mpr hi2), List.filter_cons_of_pos (by simp [hmod.mpr hi2]), List.map_cons]
        have hact : actual (m * rate) rate (t0 + (j : Rat) / ((m * rate : Nat) : Rat)) c = 1 / (rate : Rat) := by
          unfold actual
          rw [if_neg (ne_of_gt (tpos j)), hdiff, hi2]; push_cast; field_simp
        rw [hact]
        have := ih (j + i) 1 (hmod.mpr hi2) (le_refl _) (by omega)
        rw [show c.now = t0 + ((j + i : Nat) : Rat) / ((m * rate : Nat) : Rat) from rfl, this]
      · have : go (m * rate) rate (t0 + (j : Rat) / ((m * rate : Nat) : Rat)) c = false := by
          cases h : go (m * rate) rate (t0 + (j : Rat) / ((m * rate : Nat) : Rat)) c
          · rfl
          · exact absurd (hiff.mp h) hi2
        rw [runFrom_skip this, List.filter_cons_of_neg (by simp; intro h; exact hi2 (hmod.mp h))]
        exact ih j (i + 1) hj (by omega) (by omega)
  cases n with
  | zero => simp [regular, calls, runFrom]
  | succ n =>
    unfold calls
    rw [show regular (m * rate) t0 0 (n + 1) = ⟨t0 + (0 : Nat) / ((m * rate : Nat) : Rat),
      t0 + (0 : Nat) / ((m * rate : Nat) : Rat), 1 / ((m * rate : Nat) : Rat), true⟩ :: regular (m * rate) t0 1 n from rfl]
    rw [runFrom_go (go_first _ _ _), List.range_eq_range', List.range'_succ,
      List.filter_cons_of_pos (by simp), List.map_cons]
    have := main n 0 1 (by simp) (le_refl _) (by omega)
    rw [Nat.zero_add] at this ⊢
    rw [this]
    simp [actual, nominal, Nat.not_le.mpr hs]

/-- **C22, elapsed time.** For a controller that takes every trigger (any synchronous one), in every history the periods
handed to it after the first sum to the time between its first and its last update. Partial: `C22_Full` also speaks of
asynchronous controllers that miss a trigger, for which it is false. -/
theorem C22_periods_sum_partial (cm rate : Nat) (cs : List Cyc) (c : Cyc) (hst : ∀ x ∈ c :: cs, x.Started) :
    (((calls cm rate (c :: cs)).tail.map Call.period).sum) = lastAt 0 (calls cm rate (c :: cs)) - c.now := by
  have main : ∀ (cs : List Cyc) (l : Rat), 0 < l → (∀ x ∈ cs, x.Started) →
      ((runFrom cm rate l cs).map Call.period).sum = lastAt l (runFrom cm rate l cs) - l := by
    intro cs
    induction cs with
    | nil => intro l _ _; simp [runFrom, lastAt]
    | cons a cs ih =>
      intro l hl hs
      have hs' : ∀ x ∈ cs, x.Started := fun x hx => hs x (List.mem_cons_of_mem _ hx)
      cases hg : go cm rate l a
      · rw [runFrom_skip hg]; exact ih l hl hs'
      · rw [runFrom_go hg, lastAt_cons, List.map_cons, List.sum_cons,
          ih a.now (hs a List.mem_cons_self).1 hs']
        simp only [actual, if_neg (ne_of_gt hl)]
        ring
  unfold calls
  rw [runFrom_go (go_first _ _ _), lastAt_cons]
  exact main cs c.now (hst c List.mem_cons_self).1 (fun x hx => hst x (List.mem_cons_of_mem _ hx))

/-- The elapsed-time claim for every controller, kept in view: the periods of the calls the controller took sum to the
time between its first and last taken call. False of the code for asynchronous controllers
(`C22_missed_trigger_loses_time`). -/
def C22_Full : Prop :=
  ∀ (cm rate : Nat) (cs : List Cyc), (∀ x ∈ cs, x.Started) →
    let got := (calls cm rate cs).filter Call.taken
    ∀ f ∈ got.head?, ((got.tail.map Call.period).sum) = lastAt 0 got - f.at_

/-- An asynchronous controller that misses a trigger (its previous update still runs) is not told of the time that
passed: the next period it gets counts from the missed trigger. -/
theorem C22_missed_trigger_loses_time : ¬ C22_Full := by
  intro h
  have := h 100 100 [⟨1, 1, 1/100, true⟩, ⟨2, 2, 1, false⟩, ⟨3, 3, 1, true⟩]
    (by intro x hx
        simp only [List.mem_cons, List.not_mem_nil, or_false] at hx
        rcases hx with rfl | rfl | rfl <;> constructor <;> norm_num)
    ⟨1, 1/100, true⟩ (by decide +kernel)
  revert this
  decide +kernel

/-! ## The configured rate -/

theorem Rate.roundDiv_bounds {a b : Nat} (hb : 0 < b) (h : b ≤ a) : 1 ≤ roundDiv a b ∧ roundDiv a b ≤ a := by
  unfold roundDiv
  constructor
  · rw [Nat.le_div_iff_mul_le (by omega)]; omega
  · rcases Nat.eq_or_lt_of_le (Nat.one_le_iff_ne_zero.mpr (by omega) : 1 ≤ b) with h1 | h1
    · subst h1; omega
    · have : (2 * a + b) / (2 * b) ≤ (2 * a + b) / 4 := Nat.div_le_div_left (by omega) (by omega)
      omega

/-- One configuration keeps the rate between 1 and the manager's. -/
theorem Rate.configureRate_bounds {cm cur r : Nat} {req : Int} (h0 : 0 < cur) (hc : cur ≤ cm)
    (h : configureRate cm cur req = some r) : 0 < r ∧ r ≤ cm := by
  unfold configureRate at h
  split at h
  · simp at h
  · split at h
    · simp only [Option.some.injEq] at h; omega
    · split at h
      · simp only [Option.some.injEq] at h
        split at h
        · omega
        · have hb := roundDiv_bounds (a := cm) (b := req.toNat) (by omega) (by omega)
          have hd := Nat.div_pos hb.2 (by omega)
          have hl := Nat.div_le_self cm (roundDiv cm req.toNat)
          omega
      · simp only [Option.some.injEq] at h; omega

/-- **C22, configured rates.** After any history of configurations with any requested rates, the rate of a controller is at
least 1 and at most the manager's: the division by it in `configure_controller` is defined, and slow controllers are
exactly those below the manager's rate. -/
theorem C22_configured_in_range (cm : Nat) (hcm : 0 < cm) (reqs : List Int) :
    0 < configured cm reqs ∧ configured cm reqs ≤ cm := by
  have : ∀ (cur : Nat), 0 < cur → cur ≤ cm →
      0 < reqs.foldl (fun cur r => (configureRate cm cur r).getD cur) cur ∧
      reqs.foldl (fun cur r => (configureRate cm cur r).getD cur) cur ≤ cm := by
    induction reqs with
    | nil => intro cur h1 h2; exact ⟨h1, h2⟩
    | cons r rs ih =>
      intro cur h1 h2
      rw [List.foldl_cons]
      cases h : configureRate cm cur r with
      | none => exact ih cur h1 h2
      | some x =>
        have := configureRate_bounds h1 h2 h
        exact ih x this.1 this.2
  exact this cm hcm (le_refl _)

/-- **C22, first configuration.** A requested rate that divides the manager's is granted exactly, a higher one is capped
at the manager's, a negative one is refused. -/
theorem C22_first_configuration (cm : Nat) (hcm : 0 < cm) (req : Int) :
    (req < 0 → configureRate cm cm req = none) ∧
    (0 < req → (cm : Int) % req = 0 → configureRate cm cm req = some req.toNat) ∧
    (req ≥ cm → configureRate cm cm req = some cm) ∧ (req = 0 → configureRate cm cm req = some cm) := by
  refine ⟨?_, ?_, ?_, ?_⟩
  · intro h; simp [configureRate, h]
  · intro h hd
    have hle : req ≤ cm := Int.le_of_dvd (by omega) (Int.dvd_of_emod_eq_zero hd)
    have hn : cm % req.toNat = 0 := by
      have : ((cm % req.toNat : Nat) : Int) = 0 := by
        rw [Int.natCast_emod, Int.toNat_of_nonneg (by omega)]; exact hd
      omega
    unfold configureRate
    rw [if_neg (by omega), if_neg (by omega), if_pos ⟨h, hcm⟩]
    simp [hn]
  · intro h
    unfold configureRate
    rw [if_neg (by omega)]
    by_cases he : req > cm
    · rw [if_pos ⟨by omega, he⟩]
    · have : req.toNat = cm := by omega
      rw [if_neg (by omega), if_pos ⟨by omega, hcm⟩]
      simp [this]
  · rintro rfl; simp [configureRate]

/-- Kept in view: what is granted depends only on the request, not on earlier configurations. False of the code, which
uses the granted rate as the next limit. -/
def C22_rate_is_as_requested_Full : Prop :=
  ∀ (cm : Nat) (earlier : List Int) (req : Int), 0 < cm → 0 ≤ req →
    configured cm (earlier ++ [req]) = configured cm [req]

/-- Once configured at 50 Hz, a controller asked (after a cleanup) for 100 Hz stays at 50. -/
theorem C22_rate_cannot_be_raised : ¬ C22_rate_is_as_requested_Full := by
  intro h
  have := h 100 [50] 100 (by decide) (by decide)
  revert this
  decide

/-- The granted rate never rises in any history of configurations whose requests are divisors or capped. -/
theorem C22_granted_at_most_previous (cm cur : Nat) (req : Int) (hc : 0 < cur) (hd : (cm : Int) % req = 0)
    (r : Nat) (h : configureRate cm cur req = some r) : r ≤ cur := by
  unfold configureRate at h
  split at h
  · simp at h
  · split at h
    · simp only [Option.some.injEq] at h; omega
    · split at h
      · rename_i h1 h2 h3
        have hn : cm % req.toNat = 0 := by
          have : ((cm % req.toNat : Nat) : Int) = 0 := by
            rw [Int.natCast_emod, Int.toNat_of_nonneg (by omega)]; exact hd
          omega
        simp only [hn, if_true, Option.some.injEq] at h
        omega
      · simp only [Option.some.injEq] at h; omega

/-- Kept in view: the rate granted is the one achievable (the manager's rate over a whole number of cycles, rounded
down to a whole number of hertz) closest to the request. -/
def C22_closest_rate_Full : Prop :=
  ∀ (cm : Nat) (req : Int) (r n : Nat), 0 < cm → 0 < req → req ≤ cm → configureRate cm cm req = some r → 0 < n →
    (r - req).natAbs ≤ (((cm / n : Nat) : Int) - req).natAbs

/-- At 100 Hz, 67 Hz is granted as 100 Hz although 50 Hz is closer (the warning says "closest achievable"). -/
theorem C22_not_the_closest_rate : ¬ C22_closest_rate_Full := by
  intro h
  have := h 100 67 100 2 (by decide) (by decide) (by decide) (by decide) (by decide)
  revert this
  decide

/-! ## Hardware -/

/-- The rate a component runs at is never above the manager's, and is the declared one if that is positive and not
above. -/
theorem C22_hardware_rate (cm declared : Nat) :
    rwRate cm declared ≤ cm ∧ (0 < declared → declared ≤ cm → rwRate cm declared = declared) ∧
    (declared = 0 → rwRate cm declared = cm) := by
  unfold rwRate
  refine ⟨by split <;> omega, ?_, ?_⟩
  · intro h1 h2; rw [if_neg (by omega)]
  · intro h; rw [if_pos (Or.inl h)]

/-- **C22, hardware.** A component at the manager's rate is due on each cycle. A slower one is due on its first cycle, and
afterwards exactly when this cycle is at least as close to `last + 1/rate` as the next would be, `last` being the last
read (write) it took; it then gets the true time since. A component that does not take a call keeps its `last`, so no
time is lost. -/
theorem C22_hardware_cycle (cm declared : Nat) (hcm : 0 < cm) (c : HwCyc) (last : Rat) :
    let rw := rwRate cm declared
    (rw = cm → ∀ l, hwDue cm rw l c = some c.period) ∧
    (rw < cm → hwDue cm rw none c = some (1 / (rw : Rat)) ∧
      hwDue cm rw (some last) c =
        if |c.now - (last + 1 / (rw : Rat))| ≤ |(c.now + 1 / (cm : Rat)) - (last + 1 / (rw : Rat))|
        then some (c.now - last) else none) ∧
    (∀ l, c.ans = .missed → (hwCycle cm rw l c).1 = l) ∧
    (∀ l k, (hwCycle cm rw l c).2 = some k → k.taken = true → (hwCycle cm rw l c).1 = some k.at_) := by
  intro rw
  refine ⟨?_, ?_, ?_, ?_⟩
  · intro h l; unfold hwDue; rw [if_pos (Or.inr h)]
  · intro h
    have hpos : 0 < rw := by simp only [rw]; unfold rwRate; split <;> omega
    have h1 : (0 : Rat) < rw := by exact_mod_cast hpos
    have h2 : (0 : Rat) < cm := by exact_mod_cast hcm
    constructor
    · unfold hwDue
      rw [if_neg (by omega)]
      simp only
      rw [if_pos ?_]
      rw [err_iff h2 h1]
      have : 0 < 1 / (2 * (cm : Rat)) := by positivity
      linarith
    · unfold hwDue
      rw [if_neg (by omega)]
      simp only
      have e1 : (c.now - last) * rw - 1 = rw * (c.now - (last + 1 / (rw : Rat))) := by field_simp; ring
      have e2 : (c.now - last + 1 / (cm : Rat)) * rw - 1 =
          rw * (c.now + 1 / (cm : Rat) - (last + 1 / (rw : Rat))) := by field_simp; ring
      rw [e1, e2, mag_eq, mag_eq, abs_mul, abs_mul, abs_of_pos h1]
      by_cases hh : |c.now - (last + 1 / (rw : Rat))| ≤ |(c.now + 1 / (cm : Rat)) - (last + 1 / (rw : Rat))|
      · rw [if_pos hh, if_pos ((mul_le_mul_iff_right₀ h1).mpr hh)]
      · rw [if_neg hh, if_neg (fun x => hh ((mul_le_mul_iff_right₀ h1).mp x))]
  · intro l h; unfold hwCycle; split
    · rfl
    · rw [h]
  · intro l k h ht
    unfold hwCycle at h ⊢
    cases hd : hwDue cm rw l c with
    | none => simp [hd] at h
    | some p =>
      cases ha : c.ans <;> simp [hd, ha] at h ⊢ <;> subst h <;> simp_all

example : hwDue 100 (rwRate 100 50) (some 1) ⟨101/100, 1/100, .taken⟩ = none ∧
    hwDue 100 (rwRate 100 50) (some 1) ⟨102/100, 1/100, .taken⟩ = some (1/50) ∧
    hwDue 100 (rwRate 100 500) (some 1) ⟨101/100, 1/100, .taken⟩ = some (1/100) := by decide +kernel

end Verif
