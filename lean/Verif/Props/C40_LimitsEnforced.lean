import Verif.Num.LimitsSys
import Verif.Props.C28_SoftLimits
/-!
# C40: the resource manager limits every command of every joint that has a limiter

`Joints` holds the state and command interfaces (position, velocity, effort and acceleration of any number of joints), which
of the latter are claimed, and the limiters of the hardware components.
-/
namespace Verif
open Lim Dbl

/-! ## Specification -/

/-- Joint `j` has the limiter `lim` in the hardware component number `i`. -/
def Lim.Joints.HasLimiter (s : Joints) (i j : Nat) (lim : Limiter) : Prop :=
  ∃ ls, s.hws[i]? = some ls ∧ (j, lim) ∈ ls

/-- What the limiter makes of the current commands of joint `j`, given what is read now. -/
def Lim.Joints.answer (s : Joints) (i j : Nat) (lim : Limiter) (dt : Rat) (z : Nat → Bool × Bool) : Out :=
  enforce lim (s.reading j) (s.asked j) (s.prev i j) dt (z j)

/-! ## Lemmas -/

theorem Lim.Data.ext_get {a b : Data} (h : ∀ k, a.get k = b.get k) (hj : a.jerk = b.jerk) : a = b := by
  cases a; cases b
  have h1 := h .pos; have h2 := h .vel; have h3 := h .eff; have h4 := h .acc
  simp only [Data.get] at h1 h2 h3 h4 hj
  subst h1 h2 h3 h4 hj; rfl

theorem Lim.asked_get (s : Joints) (j : Nat) (k : Kind) :
    (s.asked j).get k = fillOne (s.cmd j k) (s.claimed j k) ((s.command j).get k) := by
  cases k <;> rfl

theorem Lim.reading_get (s : Joints) (j : Nat) (k : Kind) :
    (s.reading j).get k = fillOne (s.state j k) true ((s.actual j).get k) := by
  cases k <;> rfl

theorem Lim.answer_isSome (lim : Limiter) (a d p : Data) (dt : Rat) (z : Bool × Bool) (k : Kind) :
    ((enforce lim a d p dt z).cmd.get k).isSome = (d.get k).isSome := by
  obtain ⟨h1, h2, h3, h4, -⟩ := limiter_presence lim a d p dt z
  cases k <;> assumption

/-- The two states are the same as far as joint `j` is concerned. -/
structure Lim.SameAt (j : Nat) (s t : Joints) : Prop where
  state : t.state = s.state
  claimed : t.claimed = s.claimed
  hws : t.hws = s.hws
  cmd : t.cmd j = s.cmd j
  actual : t.actual j = s.actual j
  command : t.command j = s.command j
  prev : ∀ i, t.prev i j = s.prev i j

theorem Lim.SameAt.refl (j : Nat) (s : Joints) : SameAt j s s := ⟨rfl, rfl, rfl, rfl, rfl, rfl, fun _ => rfl⟩

theorem Lim.SameAt.trans {j : Nat} {a b c : Joints} (h : SameAt j a b) (g : SameAt j b c) : SameAt j a c :=
  ⟨g.state.trans h.state, g.claimed.trans h.claimed, g.hws.trans h.hws, g.cmd.trans h.cmd, g.actual.trans h.actual,
    g.command.trans h.command, fun i => (g.prev i).trans (h.prev i)⟩

theorem Lim.SameAt.reading {j : Nat} {s t : Joints} (h : SameAt j s t) : t.reading j = s.reading j := by
  unfold Joints.reading; rw [h.state, h.actual]

theorem Lim.SameAt.asked {j : Nat} {s t : Joints} (h : SameAt j s t) : t.asked j = s.asked j := by
  unfold Joints.asked; rw [h.cmd, h.claimed, h.command]

/-- What is common to all steps: nothing but claimed, existing command interfaces of joints with a limiter changes. -/
structure Lim.Frame (P : Nat → Prop) (s t : Joints) : Prop where
  state : t.state = s.state
  claimed : t.claimed = s.claimed
  hws : t.hws = s.hws
  exist : ∀ j k, (t.cmd j k).isSome = (s.cmd j k).isSome
  cmd : ∀ j k, ¬ P j ∨ s.claimed j k = false → t.cmd j k = s.cmd j k

theorem Lim.Frame.refl (P : Nat → Prop) (s : Joints) : Frame P s s := ⟨rfl, rfl, rfl, fun _ _ => rfl, fun _ _ _ => rfl⟩

theorem Lim.Frame.trans {P : Nat → Prop} {a b c : Joints} (h : Frame P a b) (g : Frame P b c) : Frame P a c :=
  ⟨g.state.trans h.state, g.claimed.trans h.claimed, g.hws.trans h.hws, fun j k => (g.exist j k).trans (h.exist j k),
    fun j k n => (g.cmd j k (by rw [h.claimed]; exact n)).trans (h.cmd j k n)⟩

theorem Lim.enforceOne_other {i j j' : Nat} (lim : Limiter) (dt : Rat) (z : Nat → Bool × Bool) (s : Joints) (h : j' ≠ j) :
    SameAt j' s (enforceOne i j lim dt z s).s := by
  unfold enforceOne
  dsimp only
  split
  · refine ⟨rfl, rfl, rfl, rfl, by simp [put, h], by simp [put, h], fun i' => ?_⟩
    by_cases hi : i' = i
    · subst hi; simp [put, h]
    · simp [put, hi]
  · split
    · refine ⟨rfl, rfl, rfl, ?_, by simp [put, h], by simp [put, h], fun i' => ?_⟩
      · funext k; simp [writeBack, h]
      · by_cases hi : i' = i
        · subst hi; simp [put, h]
        · simp [put, hi]
    · refine ⟨rfl, rfl, rfl, rfl, by simp [put, h], by simp [put, h], fun i' => ?_⟩
      by_cases hi : i' = i
      · subst hi; simp [put, h]
      · simp [put, hi]

theorem Lim.writeOne_isSome (a b : Option Dbl) : (writeOne a b).isSome = a.isSome := by
  cases a <;> cases b <;> rfl

theorem Lim.enforceOne_frame (i j : Nat) (lim : Limiter) (dt : Rat) (z : Nat → Bool × Bool) (s : Joints) (P : Nat → Prop)
    (hP : P j) : Frame P s (enforceOne i j lim dt z s).s := by
  unfold enforceOne
  dsimp only
  split
  · exact ⟨rfl, rfl, rfl, fun _ _ => rfl, fun _ _ _ => rfl⟩
  · split
    · refine ⟨rfl, rfl, rfl, fun j' k => ?_, fun j' k hn => ?_⟩
      · simp only [writeBack]
        split
        · exact writeOne_isSome _ _
        · rfl
      · simp only [writeBack]
        split
        · rename_i hj
          subst hj
          rcases hn with hn | hn
          · exact absurd hP hn
          · cases hc : s.cmd j' k with
            | none => rfl
            | some v =>
              have : (s.asked j').get k = none := by rw [asked_get, hc]; simp [fillOne, hn]
              have h2 := answer_isSome lim (s.reading j') (s.asked j') (s.prev i j') dt (z j') k
              rw [this] at h2
              cases hg : (enforce lim (s.reading j') (s.asked j') (s.prev i j') dt (z j')).cmd.get k with
              | none => rfl
              | some w => rw [hg] at h2; cases h2
        · rfl
    · exact ⟨rfl, rfl, rfl, fun _ _ => rfl, fun _ _ _ => rfl⟩

theorem Lim.jointLoop_other {j j' : Nat} (dt : Rat) (z : Nat → Bool × Bool) (h : j' ≠ j)
    (hs : List (List (Nat × Limiter))) (i : Nat) (r : Bool) (s : Joints) :
    SameAt j' s (jointLoop j dt z i hs r s).s := by
  induction hs generalizing i r s with
  | nil => exact SameAt.refl _ _
  | cons ls rest ih =>
    unfold jointLoop
    split
    · exact ih _ _ _
    · dsimp only
      split
      · exact enforceOne_other _ _ _ _ h
      · exact (enforceOne_other _ _ _ _ h).trans (ih _ _ _)

theorem Lim.jointLoop_frame {j : Nat} (dt : Rat) (z : Nat → Bool × Bool) (P : Nat → Prop) (hP : P j)
    (hs : List (List (Nat × Limiter))) (i : Nat) (r : Bool) (s : Joints) :
    Frame P s (jointLoop j dt z i hs r s).s := by
  induction hs generalizing i r s with
  | nil => exact Frame.refl _ _
  | cons ls rest ih =>
    unfold jointLoop
    split
    · exact ih _ _ _
    · dsimp only
      split
      · exact enforceOne_frame _ _ _ _ _ _ _ hP
      · exact (enforceOne_frame _ _ _ _ _ _ _ hP).trans (ih _ _ _)

theorem Lim.lookup_none {j : Nat} {ls : List (Nat × Limiter)} (h : j ∉ ls.map (·.1)) : ls.lookup j = none := by
  induction ls with
  | nil => rfl
  | cons x xs ih =>
    simp only [List.map_cons, List.mem_cons, not_or] at h
    rw [List.lookup_cons]
    have : (j == x.1) = false := by simpa using h.1
    rw [this]
    exact ih h.2

theorem Lim.lookup_some {j : Nat} {lim : Limiter} {ls : List (Nat × Limiter)} (hn : (ls.map (·.1)).Nodup)
    (h : (j, lim) ∈ ls) : ls.lookup j = some lim := by
  induction ls with
  | nil => cases h
  | cons x xs ih =>
    rw [List.lookup_cons]
    rw [List.map_cons, List.nodup_cons] at hn
    rcases List.mem_cons.1 h with rfl | h
    · simp
    · have : j ≠ x.1 := by
        rintro rfl
        exact hn.1 (List.mem_map.2 ⟨_, h, rfl⟩)
      have hb : (j == x.1) = false := by simpa using this
      rw [hb]
      exact ih hn.2 h

theorem Lim.jointLoop_none {j : Nat} (dt : Rat) (z : Nat → Bool × Bool) (hs : List (List (Nat × Limiter)))
    (h : j ∉ hs.flatten.map (·.1)) (i : Nat) (r : Bool) (s : Joints) :
    jointLoop j dt z i hs r s = { s := s, limited := r } := by
  induction hs generalizing i r s with
  | nil => rfl
  | cons ls rest ih =>
    rw [List.flatten_cons, List.map_append, List.mem_append, not_or] at h
    unfold jointLoop
    rw [lookup_none h.1]
    exact ih h.2 _ _ _

/-- With the joint in one component only, its loop is one call of one limiter. -/
theorem Lim.jointLoop_unique {j : Nat} (dt : Rat) (z : Nat → Bool × Bool) (hs : List (List (Nat × Limiter)))
    (hn : (hs.flatten.map (·.1)).Nodup) {n : Nat} {ls : List (Nat × Limiter)} {lim : Limiter} (hi : hs[n]? = some ls)
    (hm : (j, lim) ∈ ls) (i : Nat) (r : Bool) (s : Joints) :
    jointLoop j dt z i hs r s = enforceOne (i + n) j lim dt z s := by
  induction hs generalizing i r s n with
  | nil => simp at hi
  | cons l0 rest ih =>
    rw [List.flatten_cons, List.map_append, List.nodup_append] at hn
    unfold jointLoop
    cases n with
    | zero =>
      simp at hi
      subst hi
      rw [lookup_some hn.1 hm]
      have hj : j ∉ rest.flatten.map (·.1) := fun h => hn.2.2 j (List.mem_map.2 ⟨_, hm, rfl⟩) j h rfl
      dsimp only
      split
      · rfl
      · rename_i g
        rw [jointLoop_none dt z rest hj]
        have : (enforceOne (i + 0) j lim dt z s).thrown = false := by simpa using g
        cases hh : enforceOne (i + 0) j lim dt z s with
        | mk s' l' t' =>
          rw [hh] at this
          dsimp only at this ⊢
          rw [this]
    | succ n =>
      simp at hi
      have hj : j ∉ l0.map (·.1) := by
        intro h
        refine hn.2.2 j h j ?_ rfl
        refine List.mem_map.2 ⟨(j, lim), ?_, rfl⟩
        exact List.mem_flatten.2 ⟨ls, List.mem_of_getElem? hi, hm⟩
      rw [lookup_none hj]
      dsimp only
      rw [ih hn.2.1 hi (i := i + 1) (r := r) (s := s)]
      congr 1; omega

theorem Lim.allLoop_other {j : Nat} (dt : Rat) (z : Nat → Bool × Bool) (js : List Nat) (h : j ∉ js) (r : Bool) (s : Joints) :
    SameAt j s (allLoop dt z js r s).s := by
  induction js generalizing r s with
  | nil => exact SameAt.refl _ _
  | cons x xs ih =>
    simp only [List.mem_cons, not_or] at h
    unfold allLoop
    dsimp only
    split
    · exact jointLoop_other dt z h.1 _ _ _ _
    · exact (jointLoop_other dt z h.1 _ _ _ _).trans (ih h.2 _ _)

theorem Lim.allLoop_frame (dt : Rat) (z : Nat → Bool × Bool) (P : Nat → Prop) (js : List Nat) (h : ∀ j ∈ js, P j)
    (r : Bool) (s : Joints) : Frame P s (allLoop dt z js r s).s := by
  induction js generalizing r s with
  | nil => exact Frame.refl _ _
  | cons x xs ih =>
    unfold allLoop
    dsimp only
    split
    · exact jointLoop_frame dt z P (h x (by simp)) _ _ _ _
    · exact (jointLoop_frame dt z P (h x (by simp)) _ _ _ _).trans (ih (fun j hj => h j (by simp [hj])) _ _)

/-- What one call of a limiter makes of the command interfaces of its joint. -/
theorem Lim.enforceOne_cmd (i j : Nat) (lim : Limiter) (dt : Rat) (z : Nat → Bool × Bool) (s : Joints)
    (ht : (enforceOne i j lim dt z s).thrown = false) (k : Kind) (v : Dbl) (hv : s.cmd j k = some v) (hc : s.claimed j k = true) :
    (enforceOne i j lim dt z s).s.cmd j k = (s.answer i j lim dt z).cmd.get k ∧
    (s.answer i j lim dt z).thrown = false := by
  have hask : (s.asked j).get k = some v := by rw [asked_get, hv, hc]; rfl
  unfold enforceOne at ht ⊢
  unfold Joints.answer
  dsimp only at ht ⊢
  split
  · rename_i g; rw [if_pos g] at ht; cases ht
  · rename_i g
    refine ⟨?_, by simpa using g⟩
    split
    · simp only [writeBack, if_true]
      have h2 := answer_isSome lim (s.reading j) (s.asked j) (s.prev i j) dt (z j) k
      rw [hask] at h2
      cases hg : (enforce lim (s.reading j) (s.asked j) (s.prev i j) dt (z j)).cmd.get k with
      | none => rw [hg] at h2; cases h2
      | some w => rw [hv]; rfl
    · rename_i g'
      have : (enforce lim (s.reading j) (s.asked j) (s.prev i j) dt (z j)).cmd = s.asked j := by
        by_contra hne
        exact g' ((limiter_flag_iff_changed _ _ _ _ _ _).2 hne)
      rw [this, hask, hv]

theorem Lim.answer_same {i j : Nat} {s t : Joints} (h : SameAt j s t) (lim : Limiter) (dt : Rat) (z : Nat → Bool × Bool) :
    t.answer i j lim dt z = s.answer i j lim dt z := by
  unfold Joints.answer; rw [h.reading, h.asked, h.prev]

theorem Lim.allLoop_exact (dt : Rat) (z : Nat → Bool × Bool) (js : List Nat) (hnd : js.Nodup) (r : Bool) (s : Joints)
    (hn : s.visits.Nodup) {i j : Nat} {lim : Limiter} (hl : s.HasLimiter i j lim) (hj : j ∈ js)
    (ht : (allLoop dt z js r s).thrown = false) (k : Kind) (v : Dbl) (hv : s.cmd j k = some v) (hc : s.claimed j k = true) :
    (allLoop dt z js r s).s.cmd j k = (s.answer i j lim dt z).cmd.get k ∧ (s.answer i j lim dt z).thrown = false := by
  induction js generalizing r s with
  | nil => cases hj
  | cons x xs ih =>
    rw [List.nodup_cons] at hnd
    unfold allLoop at ht ⊢
    dsimp only at ht ⊢
    split at ht
    · rename_i g; rw [g] at ht; cases ht
    · rename_i g
      rw [if_neg g]
      by_cases hx : j = x
      · subst hx
        obtain ⟨ls, hi, hm⟩ := hl
        have hu := jointLoop_unique dt z s.hws hn hi hm 0 false s
        rw [Nat.zero_add] at hu
        rw [hu] at g ⊢
        rw [(allLoop_other dt z xs hnd.1 _ _).cmd]
        exact enforceOne_cmd i j lim dt z s (by simpa using g) k v hv hc
      · have hs := jointLoop_other dt z hx s.hws 0 false s
        have hj' : j ∈ xs := by
          rcases List.mem_cons.1 hj with h | h
          · exact absurd h hx
          · exact h
        rw [← answer_same hs]
        refine ih hnd.2 (r || (jointLoop x dt z 0 s.hws false s).limited) (jointLoop x dt z 0 s.hws false s).s
          ?_ ?_ hj' ht ?_ ?_
        · unfold Joints.visits; rw [hs.hws]; exact hn
        · unfold Joints.HasLimiter; rw [hs.hws]; exact hl
        · rw [hs.cmd]; exact hv
        · rw [hs.claimed]; exact hc

theorem Lim.allLoop_prev (dt : Rat) (z : Nat → Bool × Bool) (js : List Nat) (hnd : js.Nodup) (r : Bool) (s : Joints)
    (hn : s.visits.Nodup) {i j : Nat} {lim : Limiter} (hl : s.HasLimiter i j lim) (hj : j ∈ js)
    (ht : (allLoop dt z js r s).thrown = false) :
    (allLoop dt z js r s).s.prev i j = (s.answer i j lim dt z).prev := by
  induction js generalizing r s with
  | nil => cases hj
  | cons x xs ih =>
    rw [List.nodup_cons] at hnd
    unfold allLoop at ht ⊢
    dsimp only at ht ⊢
    split at ht
    · rename_i g; rw [g] at ht; cases ht
    · rename_i g
      rw [if_neg g]
      by_cases hx : j = x
      · subst hx
        obtain ⟨ls, hi, hm⟩ := hl
        have hu := jointLoop_unique dt z s.hws hn hi hm 0 false s
        rw [Nat.zero_add] at hu
        rw [hu] at g ⊢
        rw [(allLoop_other dt z xs hnd.1 _ _).prev]
        unfold enforceOne Joints.answer
        dsimp only
        split
        · simp [put]
        · split <;> simp [put]
      · have hs := jointLoop_other dt z hx s.hws 0 false s
        have hj' : j ∈ xs := by
          rcases List.mem_cons.1 hj with h | h
          · exact absurd h hx
          · exact h
        rw [← answer_same hs]
        refine ih hnd.2 (r || (jointLoop x dt z 0 s.hws false s).limited) (jointLoop x dt z 0 s.hws false s).s
          ?_ ?_ hj' ht
        · unfold Joints.visits; rw [hs.hws]; exact hn
        · unfold Joints.HasLimiter; rw [hs.hws]; exact hl

theorem Lim.Joints.HasLimiter.visited {s : Joints} {i j : Nat} {lim : Limiter} (h : s.HasLimiter i j lim) : j ∈ s.visits := by
  obtain ⟨ls, hi, hm⟩ := h
  exact List.mem_map.2 ⟨(j, lim), List.mem_flatten.2 ⟨ls, List.mem_of_getElem? hi, hm⟩, rfl⟩

/-! ## C40 -/

/-- **C40, nothing else is touched.** Whatever the limiters, readings and commands - and also if an exception is thrown or the
lock is not obtained - the state interfaces, the claims, the existence of interfaces, every command interface of a joint
without limiter and every command interface that is not claimed stay as they were. -/
theorem limits_touch_nothing_else (locked : Bool) (dt : Rat) (z : Nat → Bool × Bool) (s : Joints) :
    (enforceAll locked dt z s).s.state = s.state ∧ (enforceAll locked dt z s).s.claimed = s.claimed ∧
    (∀ j k, ((enforceAll locked dt z s).s.cmd j k).isSome = (s.cmd j k).isSome) ∧
    ∀ j k, (¬ ∃ i lim, s.HasLimiter i j lim) ∨ s.claimed j k = false →
      (enforceAll locked dt z s).s.cmd j k = s.cmd j k := by
  unfold enforceAll
  split
  · have := allLoop_frame dt z (fun j => ∃ i lim, s.HasLimiter i j lim) s.visits
      (by
        intro j hj
        obtain ⟨⟨j', lim⟩, hm, rfl⟩ := List.mem_map.1 hj
        obtain ⟨ls, hls, hm⟩ := List.mem_flatten.1 hm
        obtain ⟨i, hi⟩ := List.mem_iff_getElem?.1 hls
        exact ⟨i, lim, ls, hi, hm⟩) false s
    exact ⟨this.state, this.claimed, this.exist, this.cmd⟩
  · exact ⟨rfl, rfl, fun _ _ => rfl, fun _ _ _ => rfl⟩

/-- **C40, every commanded joint is covered.** If no joint is declared in two places, the lock is obtained and nothing is thrown:
every claimed command interface of every joint with a limiter holds afterwards what that limiter makes of the current commands
and readings of the joint. -/
theorem limits_cover_all_joints (dt : Rat) (z : Nat → Bool × Bool) (s : Joints) (hn : s.visits.Nodup)
    (ht : (enforceAll true dt z s).thrown = false) (i j : Nat) (lim : Limiter) (hl : s.HasLimiter i j lim)
    (k : Kind) (v : Dbl) (hv : s.cmd j k = some v) (hc : s.claimed j k = true) :
    (enforceAll true dt z s).s.cmd j k = (s.answer i j lim dt z).cmd.get k ∧ (s.answer i j lim dt z).thrown = false :=
  allLoop_exact dt z s.visits hn false s hn hl hl.visited ht k v hv hc

/-- What happens between two calls of `enforce_command_limits`: readings, commands and claims take any values. -/
structure Lim.Cycle where
  state : Nat → Kind → Option Dbl
  cmd : Nat → Kind → Option Dbl
  claimed : Nat → Kind → Bool
  dt : Rat
  z : Nat → Bool × Bool

/-- The state in which a cycle enforces the limits. -/
def Lim.Joints.before (s : Joints) (c : Cycle) : Joints := { s with state := c.state, cmd := c.cmd, claimed := c.claimed }

/-- The state after a cycle. -/
def Lim.Joints.cycle (s : Joints) (c : Cycle) : Res := enforceAll true c.dt c.z (s.before c)

/-- No cycle throws. -/
def Lim.Joints.quiet : Joints → List Cycle → Prop
  | _, [] => True
  | s, c :: cs => (s.cycle c).thrown = false ∧ quiet (s.cycle c).s cs

/-- What the limiter `i` of joint `j` is asked in these cycles. -/
def Lim.Joints.calls (j : Nat) : Joints → List Cycle → List Call
  | _, [] => []
  | s, c :: cs => ⟨(s.before c).reading j, (s.before c).asked j, c.dt, c.z j⟩ :: calls j (s.cycle c).s cs

/-- What it answers, cycle by cycle. -/
def Lim.Joints.answers (i j : Nat) (lim : Limiter) : Joints → List Cycle → List Out
  | _, [] => []
  | s, c :: cs => (s.before c).answer i j lim c.dt c.z :: answers i j lim (s.cycle c).s cs

/-- **C40, over any number of cycles** the answers a joint gets are those of one limiter called once per cycle with the readings
and commands of that cycle, remembering its own previous command: the runs C28 and C29 speak about are the runs of the system
(as long as no value is set through a limited interface, `two_sets_double_the_rate`). -/
theorem cycles_are_limiter_runs (s : Joints) (cs : List Cycle) (hn : s.visits.Nodup) (i j : Nat) (lim : Limiter)
    (hl : s.HasLimiter i j lim) (hq : s.quiet cs) :
    s.answers i j lim cs = runFrom lim (s.prev i j) (s.calls j cs) := by
  induction cs generalizing s with
  | nil => rfl
  | cons c cs ih =>
    have hn' : (s.before c).visits.Nodup := hn
    have hl' : (s.before c).HasLimiter i j lim := hl
    have hp : (s.cycle c).s.prev i j = ((s.before c).answer i j lim c.dt c.z).prev :=
      allLoop_prev c.dt c.z (s.before c).visits hn' false (s.before c) hn' hl' hl'.visited hq.1
    have hh : (s.cycle c).s.hws = s.hws :=
      (allLoop_frame c.dt c.z (fun _ => True) (s.before c).visits (fun _ _ => trivial) false (s.before c)).hws
    unfold Joints.answers Joints.calls runFrom
    rw [ih (s.cycle c).s (by unfold Joints.visits; rw [hh]; exact hn) (by unfold Joints.HasLimiter; rw [hh]; exact hl) hq.2, hp]
    rfl

/-- **C40, in consequence, efforts.** In every cycle that does not throw, every claimed effort command of every joint with a
saturation limiter and an effort limit is at most `max_effort` afterwards, or NaN. -/
theorem cycle_effort_within (dt : Rat) (hdt : 0 < dt) (z : Nat → Bool × Bool) (s : Joints) (hn : s.visits.Nodup)
    (ht : (enforceAll true dt z s).thrown = false) (i j : Nat) (l : Limits) (hl : s.HasLimiter i j ⟨l, none⟩)
    (he : l.hasEff = true) (h0 : le 0 l.maxEff = true) (hc : s.claimed j .eff = true) (w : Dbl)
    (hw : (enforceAll true dt z s).s.cmd j .eff = some w) : w = .nan ∨ Within (-l.maxEff) w l.maxEff := by
  have hex := (limits_touch_nothing_else true dt z s).2.2.1 j .eff
  rw [hw] at hex
  cases hv : s.cmd j .eff with
  | none => rw [hv] at hex; cases hex
  | some v =>
    obtain ⟨h1, h2⟩ := limits_cover_all_joints dt z s hn ht i j _ hl .eff v hv hc
    rw [hw] at h1
    have hask : (s.asked j).eff = some v := by
      show (s.asked j).get .eff = some v
      rw [asked_get, hv, hc]; rfl
    by_cases hnan : v = .nan
    · left
      subst hnan
      have := (limiter_absent_untouched ⟨l, none⟩ (s.reading j) (s.asked j) (s.prev i j) dt (z j)).2.2.1 (Or.inr hask)
      have h3 : some w = (s.asked j).eff := h1.trans this
      rw [hask] at h3; cases h3; rfl
    · right
      obtain ⟨w', hw', hin⟩ := limiter_effort_within l l.maxEff rfl h0 he (s.reading j) (s.asked j) (s.prev i j) dt (z j)
        hdt h2 v ⟨hask, hnan⟩
      have h3 : some w = some w' := h1.trans hw'
      cases h3; exact hin

/-- **C40, in consequence, soft position limits.** ... and every claimed position command of every joint with soft position
limits lies inside these, or is NaN. -/
theorem cycle_soft_position_within (dt : Rat) (hdt : 0 < dt) (z : Nat → Bool × Bool) (s : Joints) (hn : s.visits.Nodup)
    (ht : (enforceAll true dt z s).thrown = false) (i j : Nat) (l : Limits) (sf : Soft) (hl : s.HasLimiter i j ⟨l, some sf⟩)
    (hs : sf.hasPos = true) (hV : l.hasVel = true → l.maxVel ≠ .nan) (hc : s.claimed j .pos = true) (w : Dbl)
    (hw : (enforceAll true dt z s).s.cmd j .pos = some w) : w = .nan ∨ Within sf.minPos w sf.maxPos := by
  have hex := (limits_touch_nothing_else true dt z s).2.2.1 j .pos
  rw [hw] at hex
  cases hv : s.cmd j .pos with
  | none => rw [hv] at hex; cases hex
  | some v =>
    obtain ⟨h1, h2⟩ := limits_cover_all_joints dt z s hn ht i j _ hl .pos v hv hc
    rw [hw] at h1
    have hask : (s.asked j).pos = some v := by
      show (s.asked j).get .pos = some v
      rw [asked_get, hv, hc]; rfl
    by_cases hnan : v = .nan
    · left
      subst hnan
      have := (limiter_absent_untouched ⟨l, some sf⟩ (s.reading j) (s.asked j) (s.prev i j) dt (z j)).1 (Or.inr hask)
      have h3 : some w = (s.asked j).pos := h1.trans this
      rw [hask] at h3; cases h3; rfl
    · right
      obtain ⟨w', hw', hin⟩ := soft_position_within l sf hs hV (s.reading j) (s.asked j) (s.prev i j) dt (z j)
        hdt h2 v ⟨hask, hnan⟩
      have h3 : some w = some w' := h1.trans hw'
      cases h3; exact hin

/-! ## Setting a command interface -/

/-- **C40, setting a value.** A value set through a loaned command interface is replaced by the answer of the limiter of its
joint to this one command; no other command interface changes. Full statement: the interface then holds the answer with respect
to the previous command. Proved for a set that succeeds at the first attempt; with more attempts the limiter has moved on
(`retries_exceed_rate`). -/
theorem set_value_limited_partial (j : Nat) (k : Kind) (dt : Rat) (z : Nat → Bool × Bool) (v old : Dbl) (s : Joints)
    (rest : List Bool) (i : Nat) (lim : Limiter) (hb : bound j 0 s.hws = some (i, lim)) (hold : s.cmd j k = some old)
    (ht : (setValue j k dt z v (true :: rest) s).thrown = false) :
    (setValue j k dt z v (true :: rest) s).s.cmd j k =
      (enforce lim (fill (s.state j) (fun _ => true) {}) (Data.single k v) (s.prev i j) dt (z j)).cmd.get k ∧
    ∀ j' k', (j', k') ≠ (j, k) → (setValue j k dt z v (true :: rest) s).s.cmd j' k' = s.cmd j' k' := by
  unfold setValue at ht ⊢
  unfold limiterFn at ht ⊢
  rw [hb] at ht ⊢
  dsimp only at ht ⊢
  split
  · rename_i g; rw [if_pos g] at ht; cases ht
  · simp only [if_true, and_self]
    constructor
    · rw [hold]
      have h2 := answer_isSome lim (fill (s.state j) (fun _ => true) {}) (Data.single k v) (s.prev i j) dt (z j) k
      have h3 : (Data.single k v).get k = some v := by cases k <;> rfl
      rw [h3] at h2
      cases hg : (enforce lim (fill (s.state j) (fun _ => true) {}) (Data.single k v) (s.prev i j) dt (z j)).cmd.get k with
      | none => rw [hg] at h2; cases h2
      | some w => rfl
    · intro j' k' hne
      rw [if_neg]
      rintro ⟨rfl, rfl⟩
      exact hne rfl

/-- **C40, a limiter that throws** while a value is set: the command interfaces stay as they were. -/
theorem set_value_throw_changes_nothing (j : Nat) (k : Kind) (dt : Rat) (z : Nat → Bool × Bool) (v : Dbl) (tries : List Bool)
    (s : Joints) (ht : (setValue j k dt z v tries s).thrown = true) :
    (setValue j k dt z v tries s).s.cmd = s.cmd ∧ (setValue j k dt z v tries s).s.state = s.state := by
  have hlim : ∀ s : Joints, (limiterFn j k dt z v s).s.cmd = s.cmd ∧ (limiterFn j k dt z v s).s.state = s.state := by
    intro s
    unfold limiterFn
    cases bound j 0 s.hws with
    | none => exact ⟨rfl, rfl⟩
    | some b => exact ⟨rfl, rfl⟩
  induction tries generalizing s with
  | nil => cases ht
  | cons got rest ih =>
    unfold setValue at ht ⊢
    dsimp only at ht ⊢
    split
    · exact hlim s
    · rename_i g
      rw [if_neg g] at ht
      split
      · rename_i g'
        rw [if_pos g'] at ht; cases ht
      · rename_i g'
        rw [if_neg g'] at ht
        have := ih _ ht
        rw [(hlim s).1, (hlim s).2] at this
        exact this

/-- **C40, a joint without limiter.** Its interfaces take any value. -/
theorem set_value_unlimited (j : Nat) (k : Kind) (dt : Rat) (z : Nat → Bool × Bool) (v old : Dbl) (s : Joints)
    (rest : List Bool) (hb : ∀ i lim, ¬ s.HasLimiter i j lim) (hold : s.cmd j k = some old) :
    (setValue j k dt z v (true :: rest) s).s.cmd j k = some v := by
  have hnone : ∀ (hs : List (List (Nat × Limiter))) (n : Nat), (∀ (i : Nat) (ls : List (Nat × Limiter)) (lim : Limiter), hs[i]? = some ls → (j, lim) ∉ ls) →
      bound j n hs = none := by
    intro hs
    induction hs with
    | nil => intro n _; rfl
    | cons ls rest ih =>
      intro n h
      unfold bound
      rw [ih (n + 1) (fun i ls' lim hi => h (i + 1) ls' lim (by simpa using hi))]
      have : ls.lookup j = none := by
        apply lookup_none
        intro hm
        obtain ⟨⟨j', lim⟩, hm', rfl⟩ := List.mem_map.1 hm
        exact h 0 ls lim rfl hm'
      rw [this]; rfl
  unfold setValue limiterFn
  rw [hnone s.hws 0 (fun i ls lim hi hm => hb i lim ⟨ls, hi, hm⟩)]
  simp only [Bool.false_eq_true, if_false, if_true, and_self, hold]
  rfl

/-! ## Cases -/

/-- Two joints (1 with a saturation limiter, 2 with a soft one) in two components and a joint 3 without limiter; all claimed
except the effort of joint 2. -/
def Lim.twoJoints : Joints :=
  { state := fun j k => if j ≤ 3 then (match k with | .pos => some 0 | .vel => some 0 | _ => none) else none
    cmd := fun j _ => if j ≤ 3 then some 50 else none
    claimed := fun j k => !(j == 2 && k == .eff)
    actual := fun _ => {}
    command := fun _ => {}
    hws := [[(1, ⟨demo, none⟩)], [(2, ⟨demo, some demoSoft⟩)]]
    prev := fun _ _ => {} }

example : twoJoints.visits.Nodup ∧ twoJoints.HasLimiter 0 1 ⟨demo, none⟩ ∧ twoJoints.HasLimiter 1 2 ⟨demo, some demoSoft⟩ ∧
    (enforceAll true (1 / 10) (fun _ => (false, false)) twoJoints).thrown = false ∧
    (enforceAll true (1 / 10) (fun _ => (false, false)) twoJoints).limited = true := by
  refine ⟨by decide, ⟨_, rfl, by simp⟩, ⟨_, rfl, by simp⟩, by decide +kernel, by decide +kernel⟩
/-- After a cycle: position 0.1, velocity 1 and effort 5 for joint 1; position 0.1 for joint 2, its unclaimed effort and joint 3
untouched. -/
example : let r := (enforceAll true (1 / 10) (fun _ => (false, false)) twoJoints).s.cmd
    r 1 .pos = some (.fin (1 / 10)) ∧ r 1 .vel = some 1 ∧ r 1 .eff = some 5 ∧ r 2 .pos = some (.fin (1 / 10)) ∧
    r 2 .eff = some 50 ∧ r 3 .pos = some 50 := by decide +kernel
/-- A set value is limited at once. -/
example : bound 1 0 twoJoints.hws = some (0, ⟨demo, none⟩) ∧
    (setValue 1 .pos (1 / 10) (fun _ => (false, false)) 7 [true] twoJoints).s.cmd 1 .pos = some (.fin (1 / 10)) ∧
    (setValue 3 .pos (1 / 10) (fun _ => (false, false)) 7 [true] twoJoints).s.cmd 3 .pos = some 7 := by
  refine ⟨by decide, by decide +kernel, by decide +kernel⟩

/-- Three cycles with the same readings and commands. -/
def Lim.threeCycles : List Cycle :=
  List.replicate 3 ⟨twoJoints.state, twoJoints.cmd, twoJoints.claimed, 1 / 10, fun _ => (false, false)⟩

example : twoJoints.quiet threeCycles ∧
    (twoJoints.answers 0 1 ⟨demo, none⟩ threeCycles).map (·.cmd.pos) = [some (.fin (1 / 10)), some (.fin (2 / 10)), some (.fin (3 / 10))] := by
  refine ⟨⟨by decide +kernel, by decide +kernel, by decide +kernel, trivial⟩, by decide +kernel⟩
/-- A set while the joint is far outside its limits throws. -/
example : (setValue 1 .pos (1 / 10) (fun _ => (false, false)) 7 [false, true]
    { twoJoints with state := fun j k => if j = 1 ∧ k = .pos then some 2 else twoJoints.state j k }).thrown = true := by
  decide +kernel

/-- **C40 fails if the lock is not obtained.** `enforce_command_limits` returns at once while another thread holds the lock of
the limiters (as during `load_and_initialize_components`), and the commands of this cycle go out as they are. -/
theorem no_lock_no_limits (dt : Rat) (z : Nat → Bool × Bool) (s : Joints) : (enforceAll false dt z s).s = s ∧
    (enforceAll false dt z s).limited = false := ⟨rfl, rfl⟩

/-- **C40 fails behind an exception.** If joint 1 is out of its position limits, the exception leaves the effort of 50 of
joint 1 itself and all commands of joint 2 as they were. -/
theorem exception_skips_the_rest :
    let s := { twoJoints with state := fun j k => if j = 1 ∧ k = .pos then some 2 else twoJoints.state j k }
    let r := enforceAll true (1 / 10) (fun _ => (false, false)) s
    r.thrown = true ∧ r.s.cmd 1 .eff = some 50 ∧ r.s.cmd 2 .pos = some 50 := by
  decide +kernel

/-- **C29 fails for commands set through an interface (1).** The limiter counts every attempt of `set_value` as a cycle: if the
interface is locked by someone else nine times, the tenth attempt moves the position command by `10 * max_velocity * dt`. -/
theorem retries_exceed_rate :
    (setValue 1 .pos (1 / 100) (fun _ => (false, false)) 1 [true] twoJoints).s.cmd 1 .pos = some (.fin (1 / 100)) ∧
    (setValue 1 .pos (1 / 100) (fun _ => (false, false)) 1
      [false, false, false, false, false, false, false, false, false, true] twoJoints).s.cmd 1 .pos = some (.fin (10 / 100)) := by
  decide +kernel

/-- **C29 fails for commands set through an interface (2).** So does setting the command twice in one cycle. -/
theorem two_sets_double_the_rate :
    (setValue 1 .pos (1 / 100) (fun _ => (false, false)) 1 [true]
      (setValue 1 .pos (1 / 100) (fun _ => (false, false)) 1 [true] twoJoints).s).s.cmd 1 .pos = some (.fin (2 / 100)) := by
  decide +kernel

end Verif
