import Verif.Props.C22_UpdateRate
/-!
# C22, hardware components over whole histories

Between two activations (`HardwareComponent::activate` forgets the last read and write, hardware_component.cpp:161-162) a component with a
rate of its own, below the manager's, is read (written) never too early and, if it takes its calls, never late; the periods it is given add
up to the time that passed, also if it misses calls. For a component at the manager's rate the last part is false.
A cycle in which the component is locked (resource_manager.cpp:2415-2424) does nothing and is left out of the history.
-/
namespace Verif
open Rate

/-- A slow component is due exactly when its last read is its nominal period less half a manager period ago. -/
theorem Rate.hwDue_slow {cm rw : Nat} (hr : 0 < rw) (hs : rw < cm) (l : Rat) (c : HwCyc) :
    hwDue cm rw (some l) c = if 1 / (rw : Rat) - 1 / (2 * (cm : Rat)) ≤ c.now - l then some (c.now - l) else none := by
  have h1 : (0 : Rat) < rw := by exact_mod_cast hr
  have h2 : (0 : Rat) < cm := by exact_mod_cast (by omega : 0 < cm)
  unfold hwDue
  rw [if_neg (by omega)]
  simp only [err_iff h2 h1]

theorem Rate.hwDue_first {cm rw : Nat} (hr : 0 < rw) (hs : rw < cm) (c : HwCyc) : hwDue cm rw none c = some (1 / (rw : Rat)) := by
  have h1 : (0 : Rat) < rw := by exact_mod_cast hr
  have h2 : (0 : Rat) < cm := by exact_mod_cast (by omega : 0 < cm)
  unfold hwDue
  rw [if_neg (by omega)]
  simp only [err_iff h2 h1]
  rw [if_pos]
  have : 0 < 1 / (2 * (cm : Rat)) := by positivity
  linarith

/-- The calls the component takes between two activations. -/
def Rate.hwTaken (cm rw : Nat) (last : Option Rat) (cs : List HwCyc) : List Call := (hwRunFrom cm rw last cs).filter Call.taken

/-- The clock does not run backwards. -/
def Rate.HwForward (cs : List HwCyc) : Prop := List.IsChain (fun a b : HwCyc => a.now ≤ b.now) cs

/-- The clock advances, by at most `d` from one cycle to the next. -/
def Rate.HwSpaced (d : Rat) (cs : List HwCyc) : Prop := List.IsChain (fun a b : HwCyc => a.now < b.now ∧ b.now - a.now ≤ d) cs

/-- One cycle of a history: nothing taken, or a call at that instant. -/
theorem Rate.hwTaken_cons (cm rw : Nat) (last : Option Rat) (c : HwCyc) (cs : List HwCyc) :
    hwTaken cm rw last (c :: cs) = match hwDue cm rw last c with
      | none => hwTaken cm rw last cs
      | some p => match c.ans with
        | .stamp => hwTaken cm rw (some c.now) cs
        | .taken => ⟨c.now, p, true⟩ :: hwTaken cm rw (some c.now) cs
        | .missed => hwTaken cm rw last cs
        | .skip => hwTaken cm rw last cs := by
  unfold hwTaken
  rw [hwRunFrom]
  unfold hwCycle
  cases hwDue cm rw last c with
  | none => rfl
  | some p => cases c.ans <;> rfl

/-- **C22, hardware, never too early.** Whatever a slow component does in its cycles (takes calls, misses them, needs no action), and however
irregular they are: two consecutive calls it takes are at least its nominal period less half a manager period apart. -/
theorem C22_hardware_never_early (cm rw : Nat) (hr : 0 < rw) (hs : rw < cm) (cs : List HwCyc) (hf : HwForward cs) :
    List.IsChain (fun a b : Call => 1 / (rw : Rat) - 1 / (2 * (cm : Rat)) ≤ b.at_ - a.at_) (hwTaken cm rw none cs) := by
  generalize hw : 1 / (rw : Rat) - 1 / (2 * (cm : Rat)) = w
  have main : ∀ (cs : List HwCyc) (p l : Rat) (k : Call), k.at_ ≤ l → l ≤ p → (∀ c ∈ cs.head?, p ≤ c.now) → HwForward cs →
      List.IsChain (fun a b : Call => w ≤ b.at_ - a.at_) (k :: hwTaken cm rw (some l) cs) := by
    intro cs
    induction cs with
    | nil => intro p l k _ _ _ _; simp [hwTaken, hwRunFrom]
    | cons c cs ih =>
      intro p l k hk hl hp hf
      have hpc : p ≤ c.now := hp c rfl
      have hf' : HwForward cs := by cases cs with
        | nil => simp [HwForward]
        | cons _ _ => unfold HwForward at hf ⊢; rw [List.isChain_cons_cons] at hf; exact hf.2
      have hh : ∀ c' ∈ cs.head?, c.now ≤ c'.now := by
        cases cs with
        | nil => simp
        | cons c2 _ =>
          unfold HwForward at hf; rw [List.isChain_cons_cons] at hf
          intro c' h; cases h; exact hf.1
      rw [hwTaken_cons, hwDue_slow hr hs, hw]
      split
      · exact ih c.now l k hk (by linarith) hh hf'
      · rename_i q hq
        have hge : w ≤ c.now - l := by
          by_contra hn; rw [if_neg hn] at hq; cases hq
        cases c.ans with
        | stamp => exact ih c.now c.now k (by linarith) (le_refl _) hh hf'
        | missed => exact ih c.now l k hk (by linarith) hh hf'
        | skip => exact ih c.now l k hk (by linarith) hh hf'
        | taken =>
          dsimp only
          rw [List.isChain_cons_cons]
          exact ⟨by show w ≤ c.now - k.at_; linarith, ih c.now c.now _ (le_refl _) (le_refl _) hh hf'⟩
  have start : ∀ (cs : List HwCyc), HwForward cs → List.IsChain (fun a b : Call => w ≤ b.at_ - a.at_) (hwTaken cm rw none cs) ∧
      ∀ l, (∀ c ∈ cs.head?, l ≤ c.now) → List.IsChain (fun a b : Call => w ≤ b.at_ - a.at_) (hwTaken cm rw (some l) cs) := by
    intro cs
    have tail : ∀ l cs, (∀ c ∈ cs.head?, l ≤ c.now) → HwForward cs →
        List.IsChain (fun a b : Call => w ≤ b.at_ - a.at_) (hwTaken cm rw (some l) cs) := by
      intro l cs h1 h2
      exact (main cs l l ⟨l, 0, true⟩ (le_refl _) (le_refl _) h1 h2).of_cons
    induction cs with
    | nil => intro _; constructor <;> simp [hwTaken, hwRunFrom]
    | cons c cs ih =>
      intro hf
      refine ⟨?_, fun l h => tail l _ h hf⟩
      have hf' : HwForward cs := by cases cs with
        | nil => simp [HwForward]
        | cons _ _ => unfold HwForward at hf ⊢; rw [List.isChain_cons_cons] at hf; exact hf.2
      have hh : ∀ c' ∈ cs.head?, c.now ≤ c'.now := by
        cases cs with
        | nil => simp
        | cons c2 _ =>
          unfold HwForward at hf; rw [List.isChain_cons_cons] at hf
          intro c' h; cases h; exact hf.1
      rw [hwTaken_cons, hwDue_first hr hs]
      dsimp only
      cases c.ans with
      | stamp => exact tail _ _ hh hf'
      | missed => exact (ih hf').1
      | skip => exact (ih hf').1
      | taken => exact main cs c.now c.now _ (le_refl _) (le_refl _) hh hf'
  exact (start cs hf).1

/-- **C22, hardware, never late.** A slow component that takes every call is called on its first cycle, and then, with cycles at most `d`
apart, again before its nominal period less half a manager period plus `d` has passed. -/
theorem C22_hardware_never_late (cm rw : Nat) (hr : 0 < rw) (hs : rw < cm) (d : Rat) (cs : List HwCyc) (ht : ∀ c ∈ cs, c.ans = .taken)
    (hd : HwSpaced d cs) :
    (∀ c ∈ cs.head?, ∃ k ∈ (hwTaken cm rw none cs).head?, k.at_ = c.now) ∧
    List.IsChain (fun a b : Call => b.at_ - a.at_ < 1 / (rw : Rat) - 1 / (2 * (cm : Rat)) + d) (hwTaken cm rw none cs) := by
  generalize hw : 1 / (rw : Rat) - 1 / (2 * (cm : Rat)) = w
  have hw0 : 0 < w := by
    rw [← hw]
    have h1 : (0 : Rat) < rw := by exact_mod_cast hr
    have h2 : (rw : Rat) < cm := by exact_mod_cast hs
    have : 1 / (2 * (cm : Rat)) < 1 / (rw : Rat) := by
      apply one_div_lt_one_div_of_lt h1; linarith
    linarith
  have main : ∀ (cs : List HwCyc) (p : HwCyc) (k : Call), (∀ c ∈ cs, c.ans = .taken) → HwSpaced d (p :: cs) →
      p.now - k.at_ < w → List.IsChain (fun a b : Call => b.at_ - a.at_ < w + d) (k :: hwTaken cm rw (some k.at_) cs) := by
    intro cs
    induction cs with
    | nil => intro p k _ _ _; simp [hwTaken, hwRunFrom]
    | cons c cs ih =>
      intro p k ht hsp hlt
      have ht' : ∀ x ∈ cs, x.ans = .taken := fun x hx => ht x (List.mem_cons_of_mem _ hx)
      unfold HwSpaced at hsp
      rw [List.isChain_cons_cons] at hsp
      obtain ⟨⟨h1, h2⟩, hsp⟩ := hsp
      rw [hwTaken_cons, hwDue_slow hr hs, hw, ht c List.mem_cons_self]
      by_cases hge : w ≤ c.now - k.at_
      · rw [if_pos hge]
        dsimp only
        rw [List.isChain_cons_cons]
        exact ⟨by show c.now - k.at_ < w + d; linarith, ih c _ ht' hsp (by simpa using hw0)⟩
      · rw [if_neg hge]
        exact ih c k ht' hsp (by linarith)
  cases cs with
  | nil => simp [hwTaken, hwRunFrom]
  | cons c cs =>
    rw [hwTaken_cons, hwDue_first hr hs, ht c List.mem_cons_self]
    dsimp only
    refine ⟨fun c' h => ?_, main cs c _ (fun x hx => ht x (List.mem_cons_of_mem _ hx)) hd (by simpa using hw0)⟩
    cases h
    exact ⟨_, rfl, rfl⟩

/-- The elapsed-time claim for every component that stays in action, kept in view: the periods of the calls it took sum to the time between
the first and the last of them. `period` of a cycle is the time since the cycle before. -/
def C22_Hardware_Full : Prop :=
  ∀ (cm declared : Nat) (cs : List HwCyc), 0 < cm → (∀ c ∈ cs, c.ans ≠ .stamp) →
    List.IsChain (fun a b : HwCyc => b.period = b.now - a.now) cs →
    ∀ f ∈ (hwTaken cm (rwRate cm declared) none cs).head?,
      ((hwTaken cm (rwRate cm declared) none cs).tail.map Call.period).sum = lastAt 0 (hwTaken cm (rwRate cm declared) none cs) - f.at_

/-- **C22, hardware, elapsed time.** It holds for every component with a rate of its own below the manager's, also if it misses calls, and
whatever the manager's periods are. Missing: components at the manager's rate, for which it is false. -/
theorem C22_hardware_periods_partial (cm rw : Nat) (hr : 0 < rw) (hs : rw < cm) (cs : List HwCyc) (ha : ∀ c ∈ cs, c.ans ≠ .stamp) :
    ∀ f ∈ (hwTaken cm rw none cs).head?,
      ((hwTaken cm rw none cs).tail.map Call.period).sum = lastAt 0 (hwTaken cm rw none cs) - f.at_ := by
  have main : ∀ (cs : List HwCyc) (l : Rat), (∀ c ∈ cs, c.ans ≠ .stamp) →
      ((hwTaken cm rw (some l) cs).map Call.period).sum = lastAt l (hwTaken cm rw (some l) cs) - l := by
    intro cs
    induction cs with
    | nil => intro l _; simp [hwTaken, hwRunFrom, lastAt]
    | cons c cs ih =>
      intro l ha
      have ha' : ∀ x ∈ cs, x.ans ≠ .stamp := fun x hx => ha x (List.mem_cons_of_mem _ hx)
      rw [hwTaken_cons, hwDue_slow hr hs]
      split
      · exact ih l ha'
      · rename_i q hq
        have hq' : q = c.now - l := by
          split at hq
          · cases hq; rfl
          · cases hq
        have hc := ha c List.mem_cons_self
        cases he : c.ans with
        | stamp => exact absurd he hc
        | missed => exact ih l ha'
        | skip => exact ih l ha'
        | taken =>
          dsimp only
          rw [lastAt_cons, List.map_cons, List.sum_cons, ih c.now ha', hq']
          ring
  induction cs with
  | nil => intro f hf; simp [hwTaken, hwRunFrom] at hf
  | cons c cs ih =>
    have ha' : ∀ x ∈ cs, x.ans ≠ .stamp := fun x hx => ha x (List.mem_cons_of_mem _ hx)
    rw [hwTaken_cons, hwDue_first hr hs]
    dsimp only
    have hc := ha c List.mem_cons_self
    cases he : c.ans with
    | stamp => exact absurd he hc
    | missed => exact ih ha'
    | skip => exact ih ha'
    | taken =>
      dsimp only
      intro f hf
      cases hf
      rw [lastAt_cons]
      exact main cs c.now ha'

/-- An asynchronous component at the manager's rate that misses a call is not told of the time that passed: it is given the manager's
period. -/
theorem C22_hardware_loses_time : ¬ C22_Hardware_Full := by
  intro h
  have := h 100 0 [⟨1, 1/100, .taken⟩, ⟨101/100, 1/100, .missed⟩, ⟨102/100, 1/100, .taken⟩] (by omega)
    (by intro x hx
        simp only [List.mem_cons, List.not_mem_nil, or_false] at hx
        rcases hx with rfl | rfl | rfl <;> simp)
    (by simp; norm_num) ⟨1, 1/100, true⟩ (by decide +kernel)
  revert this
  decide +kernel

-- a component at 40 of 100 Hz that misses the call of its second turn: the next one counts from the first
example : hwTaken 100 40 none [⟨1, 1/100, .taken⟩, ⟨101/100, 1/100, .taken⟩, ⟨102/100, 1/100, .missed⟩, ⟨103/100, 1/100, .taken⟩,
    ⟨104/100, 1/100, .taken⟩, ⟨105/100, 1/100, .taken⟩, ⟨106/100, 1/100, .taken⟩] = [⟨1, 1/40, true⟩, ⟨103/100, 3/100, true⟩, ⟨105/100, 2/100, true⟩] ∧
    (hwRunFrom 100 40 none [⟨1, 1/100, .taken⟩, ⟨101/100, 1/100, .taken⟩, ⟨102/100, 1/100, .missed⟩]).length = 2 := by decide +kernel

example : HwSpaced (1/100) [⟨1, 1/100, .taken⟩, ⟨101/100, 1/100, .taken⟩, ⟨102/100, 1/100, .taken⟩] := by
  simp [HwSpaced]; norm_num

end Verif
