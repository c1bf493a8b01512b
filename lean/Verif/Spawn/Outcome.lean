import Verif.Spawn.Trees
/-!
# Why a client ended
-/
namespace Verif
namespace Spawn
open CM

/-- The answers determine where the program is. -/
theorem Runs.det {p q q' : Prog} {l : List (Req × Resp)} (h : Runs p l q) (h' : Runs p l q') : q = q' := by
  induction h with
  | nil => cases h'; rfl
  | cons _ ih => cases h' with | cons h' => exact ih h'

/-- How the client ended, after the schedule `s`. -/
structure InvC (c : Client) (s : List Ev) (w : World) : Prop where
  alive : ∀ p t cur h, w.st = .running p t cur h → ∀ n, p ≠ .exit n
  locking : ∀ n, w.st = .locking n → c.lock = true ∧ n ≤ s.countP Ev.isLockTimeout
  done : ∀ n, w.st = .done n → Wire.interrupted ∈ w.wire ∨ Runs c.main (gots w.wire) (.exit n) ∨
    (n = 1 ∧ (s.any Ev.isNoService = true ∨ (c.lock = true ∧ 5 ≤ s.countP Ev.isLockTimeout)))
  raised : w.st = .raised → Wire.interrupted ∈ w.wire ∨ trailing w.wire = 3

theorem enter_alive {p : Prog} {h : Bool} {q : Prog} {t : Nat} {cur : Option Nat} {h' : Bool}
    (e : enter p h = .running q t cur h') (n : Nat) : q ≠ .exit n := by
  unfold enter at e
  split at e
  · cases e
  · rename_i hp; cases e; exact hp n

theorem enter_done {p : Prog} {h : Bool} {n : Nat} (e : enter p h = .done n) : p = .exit n := by
  unfold enter at e
  split at e
  · cases e; rfl
  · cases e

theorem enter_raised {p : Prog} {h : Bool} : enter p h ≠ .raised := by
  unfold enter; split <;> simp

theorem enter_locking {p : Prog} {h : Bool} {n : Nat} : enter p h ≠ .locking n := by
  unfold enter; split <;> simp

theorem InvC.same {c : Client} {s : List Ev} {w w' : World} (h : InvC c s w) (e : Ev) (h1 : w'.st = w.st) (h2 : w'.wire = w.wire) :
    InvC c (s ++ [e]) w' := by
  refine ⟨?_, ?_, ?_, ?_⟩
  · rw [h1]; exact h.alive
  · rw [h1]; intro n hn; rw [List.countP_append]; exact ⟨(h.locking n hn).1, Nat.le_add_right_of_le (h.locking n hn).2⟩
  · rw [h1, h2]; intro n hn
    rcases h.done n hn with h | h | ⟨h, h3 | h3⟩
    · exact .inl h
    · exact .inr (.inl h)
    · exact .inr (.inr ⟨h, .inl (by rw [List.any_append, h3]; rfl)⟩)
    · exact .inr (.inr ⟨h, .inr ⟨h3.1, by rw [List.countP_append]; exact Nat.le_add_right_of_le h3.2⟩⟩)
  · rw [h1, h2]; exact h.raised

/-- Going on with a program. -/
theorem InvC.enter {c : Client} {s : List Ev} {w : World} {p : Prog} {b : Bool} (h1 : w.st = Spawn.enter p b)
    (h2 : ∀ n, p = .exit n → Wire.interrupted ∈ w.wire ∨ Runs c.main (gots w.wire) (.exit n)) : InvC c s w := by
  refine ⟨?_, ?_, ?_, ?_⟩
  · intro p' t cur h hs n; rw [h1] at hs; exact enter_alive hs n
  · intro n hn; rw [h1] at hn; exact absurd hn enter_locking
  · intro n hn; rw [h1] at hn
    rcases h2 n (enter_done hn) with h | h
    · exact .inl h
    · exact .inr (.inl h)
  · intro hn; rw [h1] at hn; exact absurd hn enter_raised

theorem InvC.step {c : Client} {o : Oracle} {s : List Ev} {w : World} (A : InvA c w) (h : InvC c s w) (e : Ev) :
    InvC c (s ++ [e]) (step c o w e) := by
  obtain ⟨cm, st, next, inbox, serving, outbox, wire⟩ := w
  cases e with
  | env op => simp only [Spawn.step]; split <;> exact h.same _ rfl rfl
  | loseReq m => exact h.same _ rfl rfl
  | loseResp m a => exact h.same _ rfl rfl
  | serve m x =>
    simp only [Spawn.step]
    split
    · split <;> exact h.same _ rfl rfl
    · exact h.same _ rfl rfl
  | wake =>
    simp only [Spawn.step]
    split
    · exact h.same _ (answered_same _ _ _).1 (answered_same _ _ _).2.1
    · exact h.same _ rfl rfl
  | timeout =>
    simp only [Spawn.step]
    split
    · exact h.same _ (answered_same _ _ _).1 (answered_same _ _ _).2.1
    · exact h.same _ rfl rfl
  | locked =>
    simp only [Spawn.step]
    split
    · refine InvC.enter (p := c.main) (b := false) rfl ?_
      intro n hn
      have hw : wire = [] := A.pos
      subst hw
      right
      change Runs c.main [] _
      rw [hn]; exact .nil
    · exact h.same _ rfl rfl
  | lockTimeout =>
    simp only [Spawn.step]
    split
    · rename_i k
      obtain ⟨hlk, hk⟩ := h.locking k rfl
      have hcount : (s ++ [Ev.lockTimeout]).countP Ev.isLockTimeout = s.countP Ev.isLockTimeout + 1 := by
        rw [List.countP_append]; rfl
      unfold lockTimeout
      refine ⟨?_, ?_, ?_, ?_⟩
      · intro p t cur hd hs; dsimp only at hs; split at hs <;> cases hs
      · intro n hn; dsimp only at hn; split at hn
        · cases hn; rw [hcount]; exact ⟨hlk, by omega⟩
        · cases hn
      · intro n hn; dsimp only at hn; split at hn
        · cases hn
        · cases hn; refine .inr (.inr ⟨rfl, .inr ⟨hlk, ?_⟩⟩); rw [hcount]; omega
      · intro hn; dsimp only at hn; split at hn <;> cases hn
    · exact h.same _ rfl rfl
  | send =>
    simp only [Spawn.step]
    split
    · refine ⟨?_, ?_, ?_, ?_⟩
      · intro p t cur hd hs n; cases hs; simp
      · intro n hn; cases hn
      · intro n hn; cases hn
      · intro hn; cases hn
    · exact h.same _ rfl rfl
  | noService =>
    simp only [Spawn.step]
    split
    · refine ⟨?_, ?_, ?_, ?_⟩
      · intro p t cur hd hs; cases hs
      · intro n hn; cases hn
      · intro n hn; cases hn; exact .inr (.inr ⟨rfl, .inl (by rw [List.any_append]; simp [Ev.isNoService])⟩)
      · intro hn; cases hn
    · obtain ⟨u, v, hw, -⟩ := A.pos
      have hm : Wire.interrupted ∈ wire := by
        have : wire = _ := hw
        rw [this]; simp
      refine ⟨?_, ?_, ?_, ?_⟩
      · intro p t cur hd hs; cases hs
      · intro n hn; cases hn
      · intro n hn; cases hn
      · intro _; exact .inl hm
    · exact h.same _ rfl rfl
  | deliver m a =>
    simp only [Spawn.step]
    split
    · split
      · rename_i r k t id hd
        split
        · refine InvC.enter (p := k a) (b := hd) rfl ?_
          intro n hn
          cases hd with
          | false =>
            right
            obtain ⟨-, hr⟩ := A.pos
            have := hr.snoc a
            rw [hn] at this
            change Runs c.main (gots (wire ++ [.got r a])) _
            rw [gots_append]; exact this
          | true =>
            left
            obtain ⟨u, v, hw, -⟩ := A.pos
            have : wire = _ := hw
            rw [this]; simp
        · exact h.same _ rfl rfl
      · exact h.same _ rfl rfl
    · exact h.same _ rfl rfl
  | giveUp =>
    simp only [Spawn.step]
    split
    · rename_i p t id hd
      have ht := A.tries p t (some id) hd rfl
      refine ⟨?_, ?_, ?_, ?_⟩
      · intro p' t' cur' hd' hs; dsimp only at hs; split at hs
        · cases hs; exact h.alive _ _ _ _ rfl
        · cases hs
      · intro n hn; dsimp only at hn; split at hn <;> cases hn
      · intro n hn; dsimp only at hn; split at hn <;> cases hn
      · intro hn; dsimp only at hn; split at hn
        · cases hn
        · right
          have h1 : trailing wire = t := ht.1
          have h2 := ht.2.1
          change trailing wire = 3
          omega
    · exact h.same _ rfl rfl
  | interrupt =>
    simp only [Spawn.step]
    split
    · have hm : Wire.interrupted ∈ wire ++ [Wire.interrupted] := by simp
      refine ⟨?_, ?_, ?_, fun _ => .inl hm⟩
      · intro p t cur hd hs; dsimp only at hs; split at hs <;> cases hs
      · intro n hn; dsimp only at hn; split at hn <;> cases hn
      · intro n _; exact .inl hm
    · exact InvC.enter (p := c.onInt) (b := true) rfl (fun n _ => .inl (by simp))
    · exact h.same _ rfl rfl

theorem invC_run (c : Client) (o : Oracle) (cm : CM) (hr : Reach o cm) (s : List Ev) : InvC c s (run c o (boot c cm) s) := by
  induction s using List.reverseRecOn with
  | nil =>
    change InvC c [] (boot c cm)
    cases hl : c.lock with
    | true =>
      refine ⟨?_, ?_, ?_, ?_⟩
      · intro p t cur h he; simp [boot, hl] at he
      · intro n he; simp [boot, hl] at he; exact ⟨hl, by omega⟩
      · intro n he; simp [boot, hl] at he
      · intro he; simp [boot, hl] at he
    | false =>
      refine InvC.enter (p := c.main) (b := false) (by simp [boot, hl]) ?_
      intro n hn
      right
      change Runs c.main [] _
      rw [hn]; exact .nil
  | append_singleton l e ih =>
    rw [run_snoc]; exact ih.step (inv_run c o cm hr l).1 e

end Spawn
end Verif
