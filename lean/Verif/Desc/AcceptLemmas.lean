import Verif.Desc.LimitsLemmas
/-!
# Lemmas for C55: accelerations, jerks, disabled limits, and which descriptions are accepted
-/
namespace Verif.Desc
open Verif (Dbl)
open Verif.Lim (Limits Soft Limiter)
open Dbl

/-! ## Interfaces of other names -/

theorem SamePos.trans {a b c : Limits} (h : SamePos a b) (g : SamePos b c) : SamePos a c :=
  ⟨g.1.trans h.1, g.2.1.trans h.2.1, g.2.2.trans h.2.2⟩
theorem SameVel.trans {a b c : Limits} (h : SameVel a b) (g : SameVel b c) : SameVel a c := ⟨g.1.trans h.1, g.2.trans h.2⟩
theorem SameEff.trans {a b c : Limits} (h : SameEff a b) (g : SameEff b c) : SameEff a c := ⟨g.1.trans h.1, g.2.trans h.2⟩
theorem SameAcc.trans {a b c : Limits} (h : SameAcc a b) (g : SameAcc b c) : SameAcc a c :=
  ⟨g.1.trans h.1, g.2.1.trans h.2.1, g.2.2.1.trans h.2.2.1, g.2.2.2.trans h.2.2.2⟩
theorem SameJerk.trans {a b c : Limits} (h : SameJerk a b) (g : SameJerk b c) : SameJerk a c := ⟨g.1.trans h.1, g.2.trans h.2⟩

theorem fold_frame (round : Rat → Option Rat) (cs : List Itf) (l : Limits) :
    ((∀ i ∈ cs, i.name ≠ .position) → SamePos l (cs.foldl (onItf round) l)) ∧
    ((∀ i ∈ cs, i.name ≠ .velocity) → SameVel l (cs.foldl (onItf round) l)) ∧
    ((∀ i ∈ cs, i.name ≠ .effort) → SameEff l (cs.foldl (onItf round) l)) ∧
    ((∀ i ∈ cs, i.name ≠ .acceleration) → SameAcc l (cs.foldl (onItf round) l)) ∧
    ((∀ i ∈ cs, i.name ≠ .jerk) → SameJerk l (cs.foldl (onItf round) l)) := by
  induction cs generalizing l with
  | nil => exact ⟨fun _ => ⟨rfl, rfl, rfl⟩, fun _ => ⟨rfl, rfl⟩, fun _ => ⟨rfl, rfl⟩, fun _ => ⟨rfl, rfl, rfl, rfl⟩, fun _ => ⟨rfl, rfl⟩⟩
  | cons i t ih =>
    obtain ⟨a, b, c, d, e⟩ := onItf_frame round i l
    obtain ⟨a', b', c', d', e'⟩ := ih (onItf round l i)
    refine ⟨fun h => ?_, fun h => ?_, fun h => ?_, fun h => ?_, fun h => ?_⟩
    · exact (a (h i (by simp))).trans (a' fun k hk => h k (by simp [hk]))
    · exact (b (h i (by simp))).trans (b' fun k hk => h k (by simp [hk]))
    · exact (c (h i (by simp))).trans (c' fun k hk => h k (by simp [hk]))
    · exact (d (h i (by simp))).trans (d' fun k hk => h k (by simp [hk]))
    · exact (e (h i (by simp))).trans (e' fun k hk => h k (by simp [hk]))

/-! ## Accelerations and jerks -/

theorem urdf_acc (u : UJoint) : (urdfLimits u).hasAcc = false ∧ (urdfLimits u).maxAcc = .nan ∧ (urdfLimits u).hasDec = false ∧
    (urdfLimits u).maxDec = .nan ∧ (urdfLimits u).hasJerk = false := by
  unfold urdfLimits; cases u.limit <;> exact ⟨rfl, rfl, rfl, rfl, rfl⟩

/-- What the acceleration branch does on limits without accelerations. -/
theorem onAcceleration_spec {round : Rat → Option Rat} {i : Itf} {l : Limits} (hA : l.hasAcc = false) (hD : l.hasDec = false) :
    ((onAcceleration round i l).hasAcc = true ↔ i.enable = true ∧ i.Usable round ∧ i.max ≠ []) ∧
    ((onAcceleration round i l).hasDec = true ↔ i.enable = true ∧ i.Usable round ∧ i.min ≠ []) ∧
    (∀ q, i.Usable round → Reads round i.max q → (onAcceleration round i l).maxAcc = fin q) ∧
    (∀ q, i.Usable round → Reads round i.min q → (onAcceleration round i l).maxDec = fin |q|) := by
  by_cases hu : i.Usable round
  · rcases overwrite_cases hu.2.1 .nan with ⟨h1, h1'⟩ | ⟨a, ha, h1⟩ <;>
    rcases overwrite_cases hu.2.2 .nan with ⟨h2, h2'⟩ | ⟨b, hb, h2⟩
    · exfalso
      rcases hu.1 with g | g
      · obtain ⟨x, hx⟩ := hu.2.1 g; exact h1' x hx
      · obtain ⟨x, hx⟩ := hu.2.2 g; exact h2' x hx
    · have e1 : i.min = [] := by by_contra g; obtain ⟨x, hx⟩ := hu.2.1 g; exact h1' x hx
      have e2 : i.max ≠ [] := by intro g; rw [g] at hb; exact reads_nil _ _ hb
      have e : onAcceleration round i l = setAcc i (fin b) (setDec i .nan (fin b) l) := by
        unfold onAcceleration; rw [retrieve_some hu h1 h2]
      rw [e]
      refine ⟨?_, ?_, ?_, ?_⟩
      · simp [setAcc, setDec, hu, e2]
      · simp [setAcc, setDec, hD, e1]
      · intro q _ hq; rw [reads_unique hq hb]; simp [setAcc, setDec]
      · intro q _ hq; exact absurd hq (h1' q)
    · have e1 : i.min ≠ [] := by intro g; rw [g] at ha; exact reads_nil _ _ ha
      have e2 : i.max = [] := by by_contra g; obtain ⟨x, hx⟩ := hu.2.2 g; exact h2' x hx
      have e : onAcceleration round i l = setAcc i .nan (setDec i (fin a) .nan l) := by
        unfold onAcceleration; rw [retrieve_some hu h1 h2]
      rw [e]
      refine ⟨?_, ?_, ?_, ?_⟩
      · simp [setAcc, setDec, hA, e2]
      · simp [setAcc, setDec, e1, hu]
      · intro q _ hq; exact absurd hq (h2' q)
      · intro q _ hq; rw [reads_unique hq ha]; simp [setAcc, setDec]
    · have e1 : i.min ≠ [] := by intro g; rw [g] at ha; exact reads_nil _ _ ha
      have e2 : i.max ≠ [] := by intro g; rw [g] at hb; exact reads_nil _ _ hb
      have e : onAcceleration round i l = setAcc i (fin b) (setDec i (fin a) (fin b) l) := by
        unfold onAcceleration; rw [retrieve_some hu h1 h2]
      rw [e]
      refine ⟨?_, ?_, ?_, ?_⟩
      · simp [setAcc, setDec, e2, hu]
      · simp [setAcc, setDec, e1, hu]
      · intro q _ hq; rw [reads_unique hq hb]; simp [setAcc, setDec]
      · intro q _ hq; rw [reads_unique hq ha]; simp [setAcc, setDec]
  · have e : onAcceleration round i l = l := by
      unfold onAcceleration; rw [retrieve_none hu]
    rw [e]
    refine ⟨?_, ?_, fun q h => absurd h hu, fun q h => absurd h hu⟩
    · rw [hA]; simp [hu]
    · rw [hD]; simp [hu]

/-- What the jerk branch does on limits without a jerk limit. -/
theorem onJerk_spec {round : Rat → Option Rat} {i : Itf} {l : Limits} (hJ : l.hasJerk = false) :
    ((onJerk round i l).hasJerk = true ↔ i.enable = true ∧ i.Usable round ∧ i.max ≠ []) ∧
    (∀ q, i.Usable round → Reads round i.max q → (onJerk round i l).maxJerk = fin |q|) := by
  by_cases hm : i.max = []
  · have e : onJerk round i l = l := by unfold onJerk; rw [if_pos hm]
    rw [e]
    refine ⟨by rw [hJ]; simp [hm], fun q _ hq => ?_⟩
    rw [hm] at hq; exact absurd hq (reads_nil _ _)
  · by_cases hu : i.Usable round
    · obtain ⟨q, hq⟩ := hu.2.2 hm
      obtain ⟨a, ha⟩ : ∃ a, overwrite round i.min .nan = some a := by
        rcases overwrite_cases hu.2.1 .nan with ⟨h, -⟩ | ⟨q, -, h⟩ <;> exact ⟨_, h⟩
      have e : onJerk round i l = { l with maxJerk := fin |q|, hasJerk := i.enable } := by
        unfold onJerk
        rw [if_neg hm, retrieve_some hu ha (overwrite_reads hq _)]
        simp
      rw [e]
      exact ⟨by simp [hu, hm], fun p _ hp => by rw [reads_unique hp hq]⟩
    · have e : onJerk round i l = l := by unfold onJerk; rw [if_neg hm, retrieve_none hu]
      rw [e]
      exact ⟨by rw [hJ]; simp [hu], fun q h => absurd h hu⟩

/-! ## Disabled interfaces -/

theorem onPosition_disabled {round : Rat → Option Rat} {i : Itf} (l : Limits) (h : i.enable = false) :
    (onPosition round i l).hasPos = false := by unfold onPosition; rw [h]; simp

theorem onVelocity_disabled {round : Rat → Option Rat} {i : Itf} (l : Limits) (h : i.enable = false) :
    (onVelocity round i l).hasVel = false := by unfold onVelocity; rw [h]; simp

theorem onEffort_disabled {round : Rat → Option Rat} {i : Itf} (l : Limits) (h : i.enable = false) :
    (onEffort round i l).hasEff = false := by unfold onEffort; rw [h]; simp

/-! ## Maps -/

theorem lookup_assign {α : Type} (m : List (Nat × α)) (k n : Nat) (a : α) :
    (assign m k a).lookup n = if n = k then some a else m.lookup n := by
  induction m with
  | nil =>
    unfold assign
    by_cases h : n = k
    · simp [List.lookup, h]
    · have h' : (n == k) = false := by simpa using h
      simp [List.lookup, h, h']
  | cons p t ih =>
    obtain ⟨k', b⟩ := p
    unfold assign
    by_cases hk : k' = k
    · rw [if_pos hk]
      subst hk
      by_cases h : n = k'
      · simp [List.lookup, h]
      · have h' : (n == k') = false := by simpa using h
        simp [List.lookup, h, h']
    · rw [if_neg hk]
      by_cases h : n = k'
      · subst h; simp [List.lookup, hk]
      · have h' : (n == k') = false := by simpa using h
        simp [List.lookup, h', ih]

theorem keys_assign {α : Type} (m : List (Nat × α)) (k : Nat) (a : α) :
    (assign m k a).map (·.1) = if k ∈ m.map (·.1) then m.map (·.1) else m.map (·.1) ++ [k] := by
  induction m with
  | nil => simp [assign]
  | cons p t ih =>
    obtain ⟨k', b⟩ := p
    unfold assign
    by_cases hk : k' = k
    · simp [hk]
    · have hk' : ¬ k = k' := fun h => hk h.symm
      simp only [if_neg hk, List.map_cons, ih, List.mem_cons, hk', false_or]
      split <;> simp

/-! ## Acceptance -/

theorem findJoint_some {js : List Joint} {n k : Nat} (h : findJoint js n = some k) :
    ∃ t, js[k]? = some t ∧ t.name = n ∧ ∀ k' < k, ∀ t', js[k']? = some t' → t'.name ≠ n := by
  unfold findJoint at h
  rw [List.findIdx?_eq_some_iff_getElem] at h
  obtain ⟨hk, h1, h2⟩ := h
  refine ⟨js[k], by simp [hk], by simpa using h1, fun k' hk' t' ht' => ?_⟩
  have := h2 k' hk'
  rw [List.getElem?_eq_getElem (by omega)] at ht'
  cases ht'
  simpa using this

theorem findJoint_none {js : List Joint} {n : Nat} : findJoint js n = none ↔ ∀ t ∈ js, t.name ≠ n := by
  unfold findJoint; rw [List.findIdx?_eq_none_iff]; simp

/-- The mimic joint made for joint number `i`. -/
def MimicOf (urdf : Nat → Option UJoint) (js : List Joint) (i : Nat) (j : Joint) (mj : MimicJoint) : Prop :=
  ∃ u m t, mj.index = i ∧ urdf j.name = some u ∧ u.mimic = some m ∧ j.mimic ≠ .false ∧
    js[mj.mimicked]? = some t ∧ t.name = m.joint ∧ (∀ k < mj.mimicked, ∀ t', js[k]? = some t' → t'.name ≠ m.joint) ∧
    mj.multiplier = m.multiplier ∧ mj.offset = m.offset

/-- What one step does, if it does not throw; it throws exactly on unacceptable joints. -/
theorem jointStep_spec (round : Rat → Option Rat) (urdf : Nat → Option UJoint) (js : List Joint) (i : Nat) (j : Joint) (f : Filled) :
    (Acceptable urdf js j ∧ ∃ f' u ms, jointStep round urdf js i j f = .ok f' ∧ urdf j.name = some u ∧
      f'.mimics = f.mimics ++ ms ∧ (∀ mj, mj ∈ ms ↔ MimicOf urdf js i j mj) ∧
      f'.limits = assign f.limits j.name (limitsOf round u j) ∧
      f'.soft = (match softOf u (limitsOf round u j) with
        | some s => assign f.soft j.name s
        | none => f.soft)) ∨
    (¬ Acceptable urdf js j ∧ ∃ e, jointStep round urdf js i j f = .error e) := by
  unfold jointStep
  cases hu : urdf j.name with
  | none =>
    right
    exact ⟨fun ⟨u, h, _⟩ => (by rw [hu] at h; cases h), _, rfl⟩
  | some u =>
    dsimp only
    by_cases hf : u.type = .fixed
    · right
      refine ⟨fun ⟨u', h, h2, _⟩ => ?_, ?_⟩
      · rw [hu] at h; cases h; exact h2 hf
      · cases mimicStep js i j u f.mimics with
        | error e => exact ⟨e, rfl⟩
        | ok ms => dsimp only; rw [if_pos hf]; exact ⟨_, rfl⟩
    · unfold mimicStep
      cases hm : u.mimic with
      | none =>
        dsimp only
        by_cases ht : j.mimic = .true
        · right
          rw [if_pos ht]
          exact ⟨fun ⟨u', h, _, h3, _⟩ => by rw [hu] at h; cases h; exact h3 hm ht, _, rfl⟩
        · left
          rw [if_neg ht]
          dsimp only
          rw [if_neg hf]
          refine ⟨⟨u, hu, hf, fun _ => ht, fun m h => by rw [hm] at h; cases h⟩, _, u, [], rfl, rfl, by simp, ?_, rfl, rfl⟩
          intro mj
          simp only [List.not_mem_nil, false_iff]
          rintro ⟨u', m, t, -, h, h2, -⟩
          rw [hu] at h; cases h; rw [hm] at h2; cases h2
      | some m =>
        dsimp only
        by_cases ht : j.mimic = .false
        · left
          rw [if_pos ht]
          dsimp only
          rw [if_neg hf]
          refine ⟨⟨u, hu, hf, fun h => (by rw [hm] at h; cases h), fun m' _ h => absurd ht h⟩, _, u, [], rfl, rfl, by simp, ?_, rfl, rfl⟩
          intro mj
          simp only [List.not_mem_nil, false_iff]
          rintro ⟨u', m', t, -, -, -, h, -⟩
          exact h ht
        · rw [if_neg ht]
          by_cases hc : j.cmds = []
          · rw [if_neg (by simp [hc])]
            cases hfj : findJoint js m.joint with
            | none =>
              right
              refine ⟨?_, _, rfl⟩
              rintro ⟨u', h, _, _, h4⟩
              rw [hu] at h; cases h
              obtain ⟨-, k, hk, hkn⟩ := h4 m hm ht
              exact findJoint_none.1 hfj k hk hkn
            | some k =>
              left
              dsimp only
              rw [if_neg hf]
              obtain ⟨t, h1, h2, h3⟩ := findJoint_some hfj
              refine ⟨⟨u, hu, hf, fun h => (by rw [hm] at h; cases h), fun m' hm' _ => ?_⟩, _, u, [⟨i, k, m.multiplier, m.offset⟩], rfl, rfl, rfl, ?_, rfl, rfl⟩
              · rw [hm] at hm'; cases hm'
                exact ⟨hc, t, List.mem_of_getElem? h1, h2⟩
              · intro mj
                rw [List.mem_singleton]
                constructor
                · rintro rfl
                  exact ⟨u, m, t, rfl, hu, hm, ht, h1, h2, h3, rfl, rfl⟩
                · rintro ⟨u', m', t', g1, g2, g3, -, g5, g6, g7, g8, g9⟩
                  rw [hu] at g2; cases g2
                  rw [hm] at g3; cases g3
                  have : mj.mimicked = k := by
                    rcases Nat.lt_trichotomy mj.mimicked k with h | h | h
                    · exact absurd g6 (h3 _ h _ g5)
                    · exact h
                    · exact absurd h2 (g7 _ h _ h1)
                  cases mj; simp_all
          · rw [if_pos hc]
            right
            exact ⟨fun ⟨u', h, _, _, h4⟩ => by rw [hu] at h; cases h; exact hc (h4 m hm ht).1, _, rfl⟩

/-- The loop: accepted exactly if all are acceptable. -/
theorem jointLoop_ok (round : Rat → Option Rat) (urdf : Nat → Option UJoint) (js : List Joint) (i : Nat) (l : List Joint) (f : Filled) :
    (∃ f', jointLoop round urdf js i l f = .ok f') ↔ ∀ j ∈ l, Acceptable urdf js j := by
  induction l generalizing i f with
  | nil => simp [jointLoop]
  | cons j t ih =>
    unfold jointLoop
    rcases jointStep_spec round urdf js i j f with ⟨h, f', u, ms, e, -⟩ | ⟨h, e', e⟩
    · rw [e]
      dsimp only
      rw [ih]
      simp [h]
    · rw [e]
      dsimp only
      constructor
      · rintro ⟨f', hf⟩; cases hf
      · intro g; exact absurd (g j (by simp)) h

/-- The content of the result: mimic joints. -/
theorem jointLoop_mimics {round : Rat → Option Rat} {urdf : Nat → Option UJoint} {js : List Joint} {i : Nat} {l : List Joint} {f f' : Filled}
    (h : jointLoop round urdf js i l f = .ok f') (mj : MimicJoint) :
    mj ∈ f'.mimics ↔ mj ∈ f.mimics ∨ ∃ k j, l[k]? = some j ∧ MimicOf urdf js (i + k) j mj := by
  induction l generalizing i f with
  | nil => unfold jointLoop at h; cases h; simp
  | cons j t ih =>
    unfold jointLoop at h
    rcases jointStep_spec round urdf js i j f with ⟨-, f1, u, ms, e, -, e1, e2, -⟩ | ⟨-, e', e⟩
    · rw [e] at h
      dsimp only at h
      rw [ih h, e1, List.mem_append, e2, or_assoc]
      refine or_congr Iff.rfl ⟨?_, ?_⟩
      · rintro (g | ⟨k, j', h1, h2⟩)
        · exact ⟨0, j, rfl, g⟩
        · exact ⟨k + 1, j', by simpa using h1, by rw [show i + (k + 1) = i + 1 + k from by omega]; exact h2⟩
      · rintro ⟨k, j', h1, h2⟩
        cases k with
        | zero =>
          rw [List.getElem?_cons_zero] at h1
          cases h1; exact Or.inl h2
        | succ k =>
          exact Or.inr ⟨k, j', by simpa using h1, by rw [show i + 1 + k = i + (k + 1) from by omega]; exact h2⟩
    · rw [e] at h; cases h

/-- ... limits and soft limits of joints of other names stay. -/
theorem jointLoop_other {round : Rat → Option Rat} {urdf : Nat → Option UJoint} {js : List Joint} {i : Nat} {l : List Joint} {f f' : Filled}
    (h : jointLoop round urdf js i l f = .ok f') (n : Nat) (hn : ∀ j ∈ l, j.name ≠ n) :
    f'.limits.lookup n = f.limits.lookup n ∧ f'.soft.lookup n = f.soft.lookup n := by
  induction l generalizing i f with
  | nil => unfold jointLoop at h; cases h; exact ⟨rfl, rfl⟩
  | cons j t ih =>
    unfold jointLoop at h
    have hj : ¬ n = j.name := fun g => hn j (by simp) g.symm
    rcases jointStep_spec round urdf js i j f with ⟨-, f1, u, ms, e, -, -, -, e3, e4⟩ | ⟨-, e', e⟩
    · rw [e] at h
      dsimp only at h
      obtain ⟨g1, g2⟩ := ih h (fun k hk => hn k (by simp [hk]))
      rw [g1, g2, e3, e4, lookup_assign, if_neg hj]
      refine ⟨rfl, ?_⟩
      split
      · rw [lookup_assign, if_neg hj]
      · rfl
    · rw [e] at h; cases h

/-- ... those of a joint are what is computed from it, if no other joint has its name. -/
theorem jointLoop_limits {round : Rat → Option Rat} {urdf : Nat → Option UJoint} {js : List Joint} {i : Nat} {l : List Joint} {f f' : Filled}
    (h : jointLoop round urdf js i l f = .ok f') (hs : ∀ j ∈ l, f.soft.lookup j.name = none)
    (hd : (l.map (·.name)).Nodup) (j : Joint) (hj : j ∈ l) :
    ∃ u, urdf j.name = some u ∧ f'.limits.lookup j.name = some (limitsOf round u j) ∧
      f'.soft.lookup j.name = softOf u (limitsOf round u j) := by
  induction l generalizing i f with
  | nil => cases hj
  | cons k t ih =>
    unfold jointLoop at h
    rw [List.map_cons, List.nodup_cons] at hd
    rcases jointStep_spec round urdf js i k f with ⟨-, f1, u, ms, e, hu, -, -, e3, e4⟩ | ⟨-, e', e⟩
    · rw [e] at h
      dsimp only at h
      rcases List.mem_cons.1 hj with rfl | hj
      · have hn : ∀ k ∈ t, k.name ≠ j.name := fun k hk g => hd.1 (g ▸ List.mem_map_of_mem hk)
        obtain ⟨g1, g2⟩ := jointLoop_other h _ hn
        refine ⟨u, hu, ?_, ?_⟩
        · rw [g1, e3, lookup_assign, if_pos rfl]
        · rw [g2, e4]
          split
          · rename_i s hs'
            rw [lookup_assign, if_pos rfl, hs']
          · rename_i hs'
            rw [hs']; exact hs j (by simp)
      · refine ih h (fun j' hj' => ?_) hd.2 hj
        rw [e4]
        have hne : ¬ j'.name = k.name := fun g => hd.1 (g ▸ List.mem_map_of_mem hj')
        split
        · rw [lookup_assign, if_neg hne]; exact hs j' (by simp [hj'])
        · exact hs j' (by simp [hj'])
    · rw [e] at h; cases h

/-- ... and there are no others. -/
theorem jointLoop_keys {round : Rat → Option Rat} {urdf : Nat → Option UJoint} {js : List Joint} {i : Nat} {l : List Joint} {f f' : Filled}
    (h : jointLoop round urdf js i l f = .ok f') (hn : (f.limits.map (·.1)).Nodup) :
    (f'.limits.map (·.1)).Nodup ∧ ∀ n, n ∈ f'.limits.map (·.1) ↔ n ∈ f.limits.map (·.1) ∨ ∃ j ∈ l, j.name = n := by
  induction l generalizing i f with
  | nil => unfold jointLoop at h; cases h; exact ⟨hn, by simp⟩
  | cons j t ih =>
    unfold jointLoop at h
    rcases jointStep_spec round urdf js i j f with ⟨-, f1, u, ms, e, -, -, -, e3, -⟩ | ⟨-, e', e⟩
    · rw [e] at h
      dsimp only at h
      have hk := keys_assign f.limits j.name (limitsOf round u j)
      rw [← e3] at hk
      have hn1 : (f1.limits.map (·.1)).Nodup := by
        rw [hk]
        split
        · exact hn
        · rename_i g
          rw [List.nodup_append]
          refine ⟨hn, by simp, fun a ha b hb => ?_⟩
          rw [List.mem_singleton] at hb
          rintro rfl
          exact g (hb ▸ ha)
      obtain ⟨h1, h2⟩ := ih h hn1
      refine ⟨h1, fun n => ?_⟩
      rw [h2, hk]
      split
      · rename_i g
        simp only [List.mem_cons, exists_eq_or_imp]
        constructor
        · rintro (h | h)
          · exact Or.inl h
          · exact Or.inr (Or.inr h)
        · rintro (h | h | h)
          · exact Or.inl h
          · exact Or.inl (h ▸ g)
          · exact Or.inr h
      · rw [List.mem_append, List.mem_singleton]
        simp only [List.mem_cons, exists_eq_or_imp, or_assoc]
        exact or_congr Iff.rfl (or_congr ⟨fun h => h.symm, fun h => h.symm⟩ Iff.rfl)
    · rw [e] at h; cases h

/-- All tags. -/
theorem parse_ok (round : Rat → Option Rat) (urdf : Nat → Option UJoint) (hs : List Hw) :
    (∃ fs, parse round urdf hs = .ok fs) ↔ ∀ h ∈ hs, ∀ j ∈ h.joints, Acceptable urdf h.joints j := by
  induction hs with
  | nil => simp [parse]
  | cons h t ih =>
    unfold parse
    have hl := jointLoop_ok round urdf h.joints 0 h.joints {}
    cases e : jointLoop round urdf h.joints 0 h.joints {} with
    | error x =>
      dsimp only
      constructor
      · rintro ⟨fs, hfs⟩; cases hfs
      · intro g
        obtain ⟨f', hf'⟩ := hl.2 (g h (by simp))
        rw [e] at hf'; cases hf'
    | ok f =>
      have h1 := hl.1 ⟨f, e⟩
      dsimp only
      cases e2 : parse round urdf t with
      | error x =>
        rw [e2] at ih
        dsimp only
        constructor
        · rintro ⟨fs, hfs⟩; cases hfs
        · intro g
          obtain ⟨fs, hfs⟩ := ih.2 (fun h' hh' => g h' (by simp [hh']))
          cases hfs
      | ok r =>
        rw [e2] at ih
        refine ⟨fun _ h' hh' => ?_, fun _ => ⟨_, rfl⟩⟩
        rcases List.mem_cons.1 hh' with rfl | hh'
        · exact h1
        · exact ih.1 ⟨r, rfl⟩ h' hh'

theorem parse_each {round : Rat → Option Rat} {urdf : Nat → Option UJoint} {hs : List Hw} {fs : List (Hw × Filled)}
    (h : parse round urdf hs = .ok fs) :
    fs.map (·.1) = hs ∧ ∀ p ∈ fs, jointLoop round urdf p.1.joints 0 p.1.joints {} = .ok p.2 := by
  induction hs generalizing fs with
  | nil => unfold parse at h; cases h; simp
  | cons w t ih =>
    unfold parse at h
    cases e : jointLoop round urdf w.joints 0 w.joints {} with
    | error x => rw [e] at h; cases h
    | ok f =>
      rw [e] at h
      dsimp only at h
      cases e2 : parse round urdf t with
      | error x => rw [e2] at h; cases h
      | ok r =>
        rw [e2] at h
        cases h
        obtain ⟨h1, h2⟩ := ih e2
        refine ⟨by simp [h1], fun p hp => ?_⟩
        rcases List.mem_cons.1 hp with rfl | hp
        · exact e
        · exact h2 p hp

end Verif.Desc
