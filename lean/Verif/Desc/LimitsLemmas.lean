import Verif.Desc.LimitsSpec
import Verif.Num.DblLemmas
import Mathlib.Data.List.Nodup
import Mathlib.Data.List.Induction
/-!
# Lemmas for C55
-/
namespace Verif.Desc
open Verif (Dbl)
open Verif.Lim (Limits Soft Limiter)
open Dbl

theorem dblMax_pos : 0 < dblMax := by unfold dblMax; norm_num

/-! ## Texts -/

theorem reads_nil (round : Rat → Option Rat) (q : Rat) : ¬ Reads round [] q := by
  unfold Reads Text.stod
  intro h
  cases h

theorem reads_unique {round : Rat → Option Rat} {s : List Char} {p q : Rat} (h : Reads round s p) (g : Reads round s q) : p = q := by
  unfold Reads at h g
  rw [h] at g; cases g; rfl

theorem num_iff (round : Rat → Option Rat) (s : List Char) (q : Rat) : num round s = some q ↔ Reads round s q := by
  unfold num Reads
  cases h : Text.stod round s <;> simp

theorem reads_finite {round : Rat → Option Rat} (hr : Rounds round) {s : List Char} {q : Rat} (h : Reads round s q) : |q| ≤ dblMax := by
  unfold Reads Text.stod Text.fromAll at h
  split at h
  · split at h
    · rename_i x hx
      cases h
      exact hr _ _ hx
    · cases h
  · cases h

theorem overwrite_nil (round : Rat → Option Rat) (d : Dbl) : overwrite round [] d = some d := by simp [overwrite]

theorem overwrite_reads {round : Rat → Option Rat} {s : List Char} {q : Rat} (h : Reads round s q) (d : Dbl) :
    overwrite round s d = some (fin q) := by
  have hs : s ≠ [] := by rintro rfl; exact reads_nil _ _ h
  simp [overwrite, hs, (num_iff round s q).2 h]

theorem overwrite_none {round : Rat → Option Rat} {s : List Char} (hs : s ≠ []) (h : ¬ ∃ q, Reads round s q) (d : Dbl) :
    overwrite round s d = none := by
  simp only [overwrite, hs, if_false, Option.map_eq_none_iff]
  cases hn : num round s with
  | none => rfl
  | some q => exact absurd ⟨q, (num_iff _ _ _).1 hn⟩ h

/-- What one of the texts of a usable interface makes of a value. -/
theorem overwrite_cases {round : Rat → Option Rat} {s : List Char} (h : s ≠ [] → ∃ q, Reads round s q) (d : Dbl) :
    (overwrite round s d = some d ∧ ∀ q, ¬ Reads round s q) ∨
      ∃ q, Reads round s q ∧ overwrite round s d = some (fin q) := by
  by_cases hs : s = []
  · subst hs; exact Or.inl ⟨overwrite_nil _ _, fun q => reads_nil _ _⟩
  · obtain ⟨q, hq⟩ := h hs
    exact Or.inr ⟨q, hq, overwrite_reads hq d⟩

theorem retrieve_some {round : Rat → Option Rat} {i : Itf} {mn mx a b : Dbl} (h : i.Usable round)
    (h1 : overwrite round i.min mn = some a) (h2 : overwrite round i.max mx = some b) :
    retrieve round i mn mx = some (a, b) := by
  have : ¬ (i.min = [] ∧ i.max = []) := by
    rintro ⟨e1, e2⟩
    rcases h.1 with h | h <;> contradiction
  unfold retrieve
  rw [if_neg this, h1, h2]

theorem retrieve_none {round : Rat → Option Rat} {i : Itf} {mn mx : Dbl} (h : ¬ i.Usable round) : retrieve round i mn mx = none := by
  unfold retrieve
  by_cases he : i.min = [] ∧ i.max = []
  · rw [if_pos he]
  · rw [if_neg he]
    by_cases h1 : i.min ≠ [] ∧ ¬ ∃ q, Reads round i.min q
    · rw [overwrite_none h1.1 h1.2]
    · by_cases h2 : i.max ≠ [] ∧ ¬ ∃ q, Reads round i.max q
      · rw [overwrite_none h2.1 h2.2]
        cases overwrite round i.min mn <;> rfl
      · refine absurd ⟨?_, ?_, ?_⟩ h
        · by_cases g : i.min = []
          · exact Or.inr (fun g' => he ⟨g, g'⟩)
          · exact Or.inl g
        · intro g; by_contra g'; exact h1 ⟨g, g'⟩
        · intro g; by_contra g'; exact h2 ⟨g, g'⟩

/-! ## Greatest and least -/

theorem Greatest.same {S T : Rat → Prop} {d m : Rat} (h : Greatest S d m) (e : ∀ x, T x ↔ S x) : Greatest T d m :=
  ⟨fun x hx => h.1 x ((e x).1 hx), h.2.imp (fun g => (e m).2 g) (fun g => ⟨g.1, fun x hx => g.2 x ((e x).1 hx)⟩)⟩

theorem Least.same {S T : Rat → Prop} {d m : Rat} (h : Least S d m) (e : ∀ x, T x ↔ S x) : Least T d m :=
  ⟨fun x hx => h.1 x ((e x).1 hx), h.2.imp (fun g => (e m).2 g) (fun g => ⟨g.1, fun x hx => g.2 x ((e x).1 hx)⟩)⟩

theorem Greatest.add {S T : Rat → Prop} {d m q : Rat} (h : Greatest S d m) (e : ∀ x, T x ↔ S x ∨ x = q) (hd : d ≤ q) :
    Greatest T d (Max.max q m) := by
  refine ⟨fun x hx => ?_, ?_⟩
  · rcases (e x).1 hx with hx | rfl
    · exact (h.1 x hx).trans (le_max_right q m)
    · exact le_max_left x m
  · left
    rcases le_total q m with hqm | hqm
    · rw [max_eq_right hqm]
      rcases h.2 with hm | ⟨rfl, -⟩
      · exact (e m).2 (Or.inl hm)
      · exact (e m).2 (Or.inr (_root_.le_antisymm hd hqm))
    · rw [max_eq_left hqm]; exact (e q).2 (Or.inr rfl)

theorem Least.add {S T : Rat → Prop} {d m q : Rat} (h : Least S d m) (e : ∀ x, T x ↔ S x ∨ x = q) (hd : q ≤ d) :
    Least T d (Min.min q m) := by
  refine ⟨fun x hx => ?_, ?_⟩
  · rcases (e x).1 hx with hx | rfl
    · exact (min_le_right q m).trans (h.1 x hx)
    · exact min_le_left x m
  · left
    rcases le_total q m with hqm | hqm
    · rw [min_eq_left hqm]; exact (e q).2 (Or.inr rfl)
    · rw [min_eq_right hqm]
      rcases h.2 with hm | ⟨rfl, -⟩
      · exact (e m).2 (Or.inl hm)
      · exact (e m).2 (Or.inr (_root_.le_antisymm hqm hd))

/-! ## Positions -/

/-- The joint has position limits. -/
def PosGiven (round : Rat → Option Rat) (u : UJoint) (cs : List Itf) : Prop :=
  (∃ l, u.PosLimit l) ∨ ∃ i ∈ cs, i.name = .position ∧ i.Usable round

/-- The position part of the limits after the interfaces `cs`. -/
structure PosInv (round : Rat → Option Rat) (u : UJoint) (cs : List Itf) (l : Limits) : Prop where
  has : l.hasPos = true ↔ PosGiven round u cs
  lo : ∃ m, (if l.hasPos then l.minPos else fin (-dblMax)) = fin m ∧ Greatest (Lower round u cs) (-dblMax) m
  hi : ∃ m, (if l.hasPos then l.maxPos else fin dblMax) = fin m ∧ Least (Upper round u cs) dblMax m

theorem mem_snoc {cs : List Itf} {i : Itf} {P : Itf → Prop} : (∃ k ∈ cs ++ [i], P k) ↔ (∃ k ∈ cs, P k) ∨ P i := by
  simp [or_and_right, exists_or]

theorem bounded_iff (t : JType) : t.bounded = true ↔ t = .revolute ∨ t = .prismatic := by cases t <;> simp [JType.bounded]

theorem posInv_nil (round : Rat → Option Rat) (u : UJoint) : PosInv round u [] (urdfLimits u) := by
  by_cases h : ∃ l, u.PosLimit l
  · obtain ⟨l, hl, ht⟩ := h
    have hb := (bounded_iff _).2 ht
    have e : urdfLimits u = { none' with
        hasPos := true, minPos := .fin l.lower, maxPos := .fin l.upper
        hasVel := true, maxVel := .fin |l.velocity|, hasAcc := false, hasEff := true, maxEff := .fin |l.effort| } := by
      unfold urdfLimits; rw [hl]; simp [hb]
    rw [e]
    have hu : ∀ l', u.PosLimit l' → l' = l := by
      intro l' h'; have := h'.1; rw [hl] at this; cases this; rfl
    refine ⟨⟨fun _ => Or.inl ⟨l, hl, ht⟩, fun _ => rfl⟩, ⟨l.lower, rfl, ?_⟩, ⟨l.upper, rfl, ?_⟩⟩
    · refine ⟨?_, Or.inl (Or.inl ⟨l, ⟨hl, ht⟩, rfl⟩)⟩
      rintro x (⟨l', h', rfl⟩ | ⟨i, hi, -⟩)
      · rw [hu l' h']
      · cases hi
    · refine ⟨?_, Or.inl (Or.inl ⟨l, ⟨hl, ht⟩, rfl⟩)⟩
      rintro x (⟨l', h', rfl⟩ | ⟨i, hi, -⟩)
      · rw [hu l' h']
      · cases hi
  · have e : (urdfLimits u).hasPos = false := by
      unfold urdfLimits
      cases hl : u.limit with
      | none => rfl
      | some l =>
        dsimp only
        cases hb : u.type.bounded with
        | false => rfl
        | true => exact absurd ⟨l, hl, (bounded_iff _).1 hb⟩ h
    refine ⟨?_, ⟨-dblMax, ?_, ?_⟩, ⟨dblMax, ?_, ?_⟩⟩
    · rw [e]
      constructor
      · intro g; cases g
      · rintro (g | ⟨i, hi, -⟩)
        · exact absurd g h
        · cases hi
    · rw [e]; rfl
    · have : ∀ x, ¬ Lower round u [] x := by
        rintro x (⟨l, hl, -⟩ | ⟨i, hi, -⟩)
        · exact h ⟨l, hl⟩
        · cases hi
      exact ⟨fun x hx => absurd hx (this x), Or.inr ⟨rfl, this⟩⟩
    · rw [e]; rfl
    · have : ∀ x, ¬ Upper round u [] x := by
        rintro x (⟨l, hl, -⟩ | ⟨i, hi, -⟩)
        · exact h ⟨l, hl⟩
        · cases hi
      exact ⟨fun x hx => absurd hx (this x), Or.inr ⟨rfl, this⟩⟩

theorem posGiven_snoc (round : Rat → Option Rat) (u : UJoint) (cs : List Itf) (i : Itf) :
    PosGiven round u (cs ++ [i]) ↔ PosGiven round u cs ∨ (i.name = .position ∧ i.Usable round) := by
  unfold PosGiven; rw [mem_snoc, or_assoc]

theorem lower_snoc (round : Rat → Option Rat) (u : UJoint) (cs : List Itf) (i : Itf) (x : Rat) :
    Lower round u (cs ++ [i]) x ↔ Lower round u cs x ∨ (i.name = .position ∧ i.Usable round ∧ Reads round i.min x) := by
  unfold Lower; rw [mem_snoc, or_assoc]

theorem upper_snoc (round : Rat → Option Rat) (u : UJoint) (cs : List Itf) (i : Itf) (x : Rat) :
    Upper round u (cs ++ [i]) x ↔ Upper round u cs x ∨ (i.name = .position ∧ i.Usable round ∧ Reads round i.max x) := by
  unfold Upper; rw [mem_snoc, or_assoc]

/-- An interface that does not count for positions. -/
theorem PosInv.skip {round : Rat → Option Rat} {u : UJoint} {cs : List Itf} {l l' : Limits} (h : PosInv round u cs l) (i : Itf)
    (hi : ¬ (i.name = .position ∧ i.Usable round)) (e1 : l'.hasPos = l.hasPos)
    (e2 : l.hasPos = true → l'.minPos = l.minPos ∧ l'.maxPos = l.maxPos) : PosInv round u (cs ++ [i]) l' := by
  refine ⟨?_, ?_, ?_⟩
  · rw [e1, h.has, posGiven_snoc]
    exact ⟨Or.inl, fun g => g.resolve_right hi⟩
  · obtain ⟨m, hm, g⟩ := h.lo
    refine ⟨m, ?_, g.same fun x => ?_⟩
    · rw [e1, ← hm]
      cases hp : l.hasPos with
      | false => rfl
      | true => simp [(e2 hp).1]
    · rw [lower_snoc]
      exact ⟨fun g => g.resolve_right (fun g => hi ⟨g.1, g.2.1⟩), Or.inl⟩
  · obtain ⟨m, hm, g⟩ := h.hi
    refine ⟨m, ?_, g.same fun x => ?_⟩
    · rw [e1, ← hm]
      cases hp : l.hasPos with
      | false => rfl
      | true => simp [(e2 hp).2]
    · rw [upper_snoc]
      exact ⟨fun g => g.resolve_right (fun g => hi ⟨g.1, g.2.1⟩), Or.inl⟩

/-- What the position branch does with an enabled, usable interface. -/
theorem onPosition_use {round : Rat → Option Rat} {i : Itf} {l : Limits} (he : i.enable = true) (hu : i.Usable round) {m M : Rat}
    (hm : (if l.hasPos then l.minPos else fin (-dblMax)) = fin m) (hM : (if l.hasPos then l.maxPos else fin dblMax) = fin M) :
    ∃ a b, overwrite round i.min (fin m) = some a ∧ overwrite round i.max (fin M) = some b ∧
      onPosition round i l = { l with minPos := Dbl.max a (fin m), maxPos := Dbl.min b (fin M), hasPos := true } := by
  obtain ⟨a, ha⟩ : ∃ a, overwrite round i.min (fin m) = some a := by
    rcases overwrite_cases hu.2.1 (fin m) with ⟨h, -⟩ | ⟨q, -, h⟩ <;> exact ⟨_, h⟩
  obtain ⟨b, hb⟩ : ∃ b, overwrite round i.max (fin M) = some b := by
    rcases overwrite_cases hu.2.2 (fin M) with ⟨h, -⟩ | ⟨q, -, h⟩ <;> exact ⟨_, h⟩
  refine ⟨a, b, ha, hb, ?_⟩
  unfold onPosition
  dsimp only
  rw [he]
  simp only [Bool.and_true, if_true, hm, hM]
  rw [retrieve_some hu ha hb]

theorem onPosition_skip {round : Rat → Option Rat} {i : Itf} {l : Limits} (he : i.enable = true) (hu : ¬ i.Usable round) :
    (onPosition round i l).hasPos = l.hasPos ∧
      (l.hasPos = true → (onPosition round i l).minPos = l.minPos ∧ (onPosition round i l).maxPos = l.maxPos) := by
  unfold onPosition
  dsimp only
  rw [he]
  simp only [if_true]
  rw [retrieve_none hu]
  refine ⟨by simp, fun h => by simp [h]⟩

theorem PosInv.use {round : Rat → Option Rat} (hr : Rounds round) {u : UJoint} {cs : List Itf} {l : Limits}
    (h : PosInv round u cs l) {i : Itf} (hn : i.name = .position) (he : i.enable = true) (hu : i.Usable round) :
    PosInv round u (cs ++ [i]) (onPosition round i l) := by
  obtain ⟨m, hm, gm⟩ := h.lo
  obtain ⟨M, hM, gM⟩ := h.hi
  obtain ⟨a, b, ha, hb, e⟩ := onPosition_use he hu hm hM
  rw [e]
  refine ⟨?_, ?_, ?_⟩
  · rw [posGiven_snoc]; exact ⟨fun _ => Or.inr ⟨hn, hu⟩, fun _ => rfl⟩
  · rcases overwrite_cases hu.2.1 (fin m) with ⟨h1, h2⟩ | ⟨q, hq, h1⟩
    · rw [h1] at ha; cases ha
      refine ⟨m, by simp [Dbl.max, lt_irrefl], gm.same fun x => ?_⟩
      rw [lower_snoc]
      exact ⟨fun g => g.resolve_right (fun g => h2 x g.2.2), Or.inl⟩
    · rw [h1] at ha; cases ha
      refine ⟨Max.max q m, by simp [max_fin], gm.add (fun x => ?_) (abs_le.1 (reads_finite hr hq)).1⟩
      rw [lower_snoc]
      refine or_congr Iff.rfl ⟨fun g => reads_unique g.2.2 hq, ?_⟩
      rintro rfl; exact ⟨hn, hu, hq⟩
  · rcases overwrite_cases hu.2.2 (fin M) with ⟨h1, h2⟩ | ⟨q, hq, h1⟩
    · rw [h1] at hb; cases hb
      refine ⟨M, by simp [Dbl.min, lt_irrefl], gM.same fun x => ?_⟩
      rw [upper_snoc]
      exact ⟨fun g => g.resolve_right (fun g => h2 x g.2.2), Or.inl⟩
    · rw [h1] at hb; cases hb
      refine ⟨Min.min q M, by simp [min_fin], gM.add (fun x => ?_) (abs_le.1 (reads_finite hr hq)).2⟩
      rw [upper_snoc]
      refine or_congr Iff.rfl ⟨fun g => reads_unique g.2.2 hq, ?_⟩
      rintro rfl; exact ⟨hn, hu, hq⟩

/-! ## What a branch leaves alone -/

/-- The two limits agree on positions. -/
def SamePos (l l' : Limits) : Prop := l'.hasPos = l.hasPos ∧ l'.minPos = l.minPos ∧ l'.maxPos = l.maxPos
/-- ... on velocities. -/
def SameVel (l l' : Limits) : Prop := l'.hasVel = l.hasVel ∧ l'.maxVel = l.maxVel
/-- ... on efforts. -/
def SameEff (l l' : Limits) : Prop := l'.hasEff = l.hasEff ∧ l'.maxEff = l.maxEff
/-- ... on accelerations. -/
def SameAcc (l l' : Limits) : Prop :=
  l'.hasAcc = l.hasAcc ∧ l'.maxAcc = l.maxAcc ∧ l'.hasDec = l.hasDec ∧ l'.maxDec = l.maxDec
/-- ... on jerks. -/
def SameJerk (l l' : Limits) : Prop := l'.hasJerk = l.hasJerk ∧ l'.maxJerk = l.maxJerk

theorem onPosition_frame (round : Rat → Option Rat) (i : Itf) (l : Limits) :
    SameVel l (onPosition round i l) ∧ SameEff l (onPosition round i l) ∧ SameAcc l (onPosition round i l) ∧
      SameJerk l (onPosition round i l) := by
  unfold onPosition; dsimp only; split <;> exact ⟨⟨rfl, rfl⟩, ⟨rfl, rfl⟩, ⟨rfl, rfl, rfl, rfl⟩, ⟨rfl, rfl⟩⟩

theorem onVelocity_frame (round : Rat → Option Rat) (i : Itf) (l : Limits) :
    SamePos l (onVelocity round i l) ∧ SameEff l (onVelocity round i l) ∧ SameAcc l (onVelocity round i l) ∧
      SameJerk l (onVelocity round i l) := by
  unfold onVelocity; dsimp only; split <;> exact ⟨⟨rfl, rfl, rfl⟩, ⟨rfl, rfl⟩, ⟨rfl, rfl, rfl, rfl⟩, ⟨rfl, rfl⟩⟩

theorem onEffort_frame (round : Rat → Option Rat) (i : Itf) (l : Limits) :
    SamePos l (onEffort round i l) ∧ SameVel l (onEffort round i l) ∧ SameAcc l (onEffort round i l) ∧
      SameJerk l (onEffort round i l) := by
  unfold onEffort; dsimp only; split <;> exact ⟨⟨rfl, rfl, rfl⟩, ⟨rfl, rfl⟩, ⟨rfl, rfl, rfl, rfl⟩, ⟨rfl, rfl⟩⟩

theorem onAcceleration_frame (round : Rat → Option Rat) (i : Itf) (l : Limits) :
    SamePos l (onAcceleration round i l) ∧ SameVel l (onAcceleration round i l) ∧ SameEff l (onAcceleration round i l) ∧
      SameJerk l (onAcceleration round i l) := by
  unfold onAcceleration setAcc setDec
  split
  · split <;> split <;> exact ⟨⟨rfl, rfl, rfl⟩, ⟨rfl, rfl⟩, ⟨rfl, rfl⟩, ⟨rfl, rfl⟩⟩
  · exact ⟨⟨rfl, rfl, rfl⟩, ⟨rfl, rfl⟩, ⟨rfl, rfl⟩, ⟨rfl, rfl⟩⟩

theorem onJerk_frame (round : Rat → Option Rat) (i : Itf) (l : Limits) :
    SamePos l (onJerk round i l) ∧ SameVel l (onJerk round i l) ∧ SameEff l (onJerk round i l) ∧
      SameAcc l (onJerk round i l) := by
  unfold onJerk
  split
  · exact ⟨⟨rfl, rfl, rfl⟩, ⟨rfl, rfl⟩, ⟨rfl, rfl⟩, ⟨rfl, rfl, rfl, rfl⟩⟩
  · split
    · split <;> exact ⟨⟨rfl, rfl, rfl⟩, ⟨rfl, rfl⟩, ⟨rfl, rfl⟩, ⟨rfl, rfl, rfl, rfl⟩⟩
    · exact ⟨⟨rfl, rfl, rfl⟩, ⟨rfl, rfl⟩, ⟨rfl, rfl⟩, ⟨rfl, rfl, rfl, rfl⟩⟩

theorem onItf_frame (round : Rat → Option Rat) (i : Itf) (l : Limits) :
    (i.name ≠ .position → SamePos l (onItf round l i)) ∧ (i.name ≠ .velocity → SameVel l (onItf round l i)) ∧
    (i.name ≠ .effort → SameEff l (onItf round l i)) ∧ (i.name ≠ .acceleration → SameAcc l (onItf round l i)) ∧
    (i.name ≠ .jerk → SameJerk l (onItf round l i)) := by
  have r1 : SamePos l l := ⟨rfl, rfl, rfl⟩
  have r2 : SameVel l l := ⟨rfl, rfl⟩
  have r3 : SameEff l l := ⟨rfl, rfl⟩
  have r4 : SameAcc l l := ⟨rfl, rfl, rfl, rfl⟩
  have r5 : SameJerk l l := ⟨rfl, rfl⟩
  unfold onItf
  split <;> rename_i hn
  · obtain ⟨a, b, c, d⟩ := onPosition_frame round i l
    exact ⟨fun h => absurd hn h, fun _ => a, fun _ => b, fun _ => c, fun _ => d⟩
  · obtain ⟨a, b, c, d⟩ := onVelocity_frame round i l
    exact ⟨fun _ => a, fun h => absurd hn h, fun _ => b, fun _ => c, fun _ => d⟩
  · obtain ⟨a, b, c, d⟩ := onEffort_frame round i l
    exact ⟨fun _ => a, fun _ => b, fun h => absurd hn h, fun _ => c, fun _ => d⟩
  · obtain ⟨a, b, c, d⟩ := onAcceleration_frame round i l
    exact ⟨fun _ => a, fun _ => b, fun _ => c, fun h => absurd hn h, fun _ => d⟩
  · obtain ⟨a, b, c, d⟩ := onJerk_frame round i l
    exact ⟨fun _ => a, fun _ => b, fun _ => c, fun _ => d, fun h => absurd hn h⟩
  · exact ⟨fun _ => r1, fun _ => r2, fun _ => r3, fun _ => r4, fun _ => r5⟩

/-- Induction over the interfaces, from the front. -/
theorem fold_induction {round : Rat → Option Rat} {I : List Itf → Limits → Prop} {H : Itf → Prop} {l0 : Limits} (h0 : I [] l0)
    (hs : ∀ cs i l, H i → I cs l → I (cs ++ [i]) (onItf round l i)) (cs : List Itf) (hc : ∀ i ∈ cs, H i) :
    I cs (cs.foldl (onItf round) l0) := by
  induction cs using List.reverseRecOn with
  | nil => exact h0
  | append_singleton cs i ih =>
    rw [List.foldl_append]
    exact hs cs i _ (hc i (by simp)) (ih fun k hk => hc k (by simp [hk]))

theorem posInv_fold {round : Rat → Option Rat} (hr : Rounds round) (u : UJoint) (cs : List Itf) (hd : NoneDisabled .position cs) :
    PosInv round u cs (cs.foldl (onItf round) (urdfLimits u)) := by
  refine fold_induction (I := PosInv round u) (H := fun i => i.name = .position → i.enable = true) (posInv_nil round u) ?_ cs hd
  intro cs i l hi h
  by_cases hn : i.name = .position
  · have e : onItf round l i = onPosition round i l := by unfold onItf; rw [hn]
    rw [e]
    by_cases hu : i.Usable round
    · exact h.use hr hn (hi hn) hu
    · obtain ⟨a, b⟩ := onPosition_skip (l := l) (hi hn) hu
      exact h.skip i (fun g => hu g.2) a b
  · obtain ⟨a, b, c⟩ := (onItf_frame round i l).1 hn
    exact h.skip i (fun g => hn g.1) a (fun _ => ⟨b, c⟩)

/-! ## Velocities and efforts -/

/-- What the velocity and the effort branch do to the flag and the bound. -/
def sym (round : Rat → Option Rat) (i : Itf) (h : Bool) (m : Dbl) : Bool × Dbl :=
  let m1 := if h then m else .fin dblMax
  match (if i.enable then retrieve round i (-m1) m1 else none) with
  | some (a, b) => (true && i.enable, Dbl.min (Dbl.min a.abs b) m1)
  | none => (h && i.enable, m1)

theorem onVelocity_sym (round : Rat → Option Rat) (i : Itf) (l : Limits) :
    (onVelocity round i l).hasVel = (sym round i l.hasVel l.maxVel).1 ∧
      (onVelocity round i l).maxVel = (sym round i l.hasVel l.maxVel).2 := by
  unfold onVelocity sym
  dsimp only
  generalize (if i.enable = true then _ else none : Option (Dbl × Dbl)) = r
  rcases r with _ | ⟨a, b⟩ <;> exact ⟨rfl, rfl⟩

theorem onEffort_sym (round : Rat → Option Rat) (i : Itf) (l : Limits) :
    (onEffort round i l).hasEff = (sym round i l.hasEff l.maxEff).1 ∧
      (onEffort round i l).maxEff = (sym round i l.hasEff l.maxEff).2 := by
  unfold onEffort sym
  dsimp only
  generalize (if i.enable = true then _ else none : Option (Dbl × Dbl)) = r
  rcases r with _ | ⟨a, b⟩ <;> exact ⟨rfl, rfl⟩

/-- The bounds a URDF value and the interfaces of a name give. -/
def Bounds (round : Rat → Option Rat) (v : Option Rat) (k : IName) (cs : List Itf) (x : Rat) : Prop :=
  v = some x ∨ TagBound round k cs x

/-- A flag and a bound after the interfaces `cs`. -/
structure SymInv (round : Rat → Option Rat) (v : Option Rat) (k : IName) (cs : List Itf) (h : Bool) (m : Dbl) : Prop where
  has : h = true ↔ v ≠ none ∨ ∃ i ∈ cs, i.name = k ∧ i.Usable round
  val : ∃ q, (if h then m else fin dblMax) = fin q ∧ Least (Bounds round v k cs) dblMax q

theorem symInv_nil (round : Rat → Option Rat) (v : Option Rat) (k : IName) (h : Bool) (m : Dbl) (hh : h = true ↔ v ≠ none)
    (hm : ∀ q, v = some q → m = fin q) : SymInv round v k [] h m := by
  refine ⟨by rw [hh]; simp, ?_⟩
  cases v with
  | none =>
    have : h = false := by cases h <;> simp_all
    subst this
    refine ⟨dblMax, rfl, fun x hx => ?_, Or.inr ⟨rfl, fun x hx => ?_⟩⟩ <;>
    · rcases hx with hx | ⟨i, hi, -⟩
      · cases hx
      · cases hi
  | some q =>
    have : h = true := by rw [hh]; simp
    subst this
    refine ⟨q, by simp [hm q rfl], fun x hx => ?_, Or.inl (Or.inl rfl)⟩
    rcases hx with hx | ⟨i, hi, -⟩
    · cases hx; exact _root_.le_refl _
    · cases hi

theorem bounds_snoc (round : Rat → Option Rat) (v : Option Rat) (k : IName) (cs : List Itf) (i : Itf) (x : Rat) :
    Bounds round v k (cs ++ [i]) x ↔ Bounds round v k cs x ∨
      (i.name = k ∧ i.Usable round ∧ ((∃ q, Reads round i.min q ∧ x = |q|) ∨ Reads round i.max x)) := by
  unfold Bounds TagBound; rw [mem_snoc, or_assoc]

theorem SymInv.skip {round : Rat → Option Rat} {v : Option Rat} {k : IName} {cs : List Itf} {h h' : Bool} {m m' : Dbl}
    (g : SymInv round v k cs h m) (i : Itf) (hi : ¬ (i.name = k ∧ i.Usable round)) (e1 : h' = h)
    (e2 : h = true → m' = m) : SymInv round v k (cs ++ [i]) h' m' := by
  subst e1
  refine ⟨?_, ?_⟩
  · rw [g.has, mem_snoc]
    exact ⟨fun x => x.imp id Or.inl, fun x => x.imp id (fun y => y.resolve_right hi)⟩
  · obtain ⟨q, hq, l⟩ := g.val
    refine ⟨q, ?_, l.same fun x => ?_⟩
    · rw [← hq]
      cases h' with
      | false => rfl
      | true => simp [e2 rfl]
    · rw [bounds_snoc]
      exact ⟨fun y => y.resolve_right (fun y => hi ⟨y.1, y.2.1⟩), Or.inl⟩

theorem abs_neg_fin (q : Rat) : Dbl.abs (-(fin q)) = fin |q| := by simp

theorem SymInv.use {round : Rat → Option Rat} (hr : Rounds round) {v : Option Rat} {k : IName} {cs : List Itf} {h : Bool} {m : Dbl}
    (g : SymInv round v k cs h m) {i : Itf} (hn : i.name = k) (he : i.enable = true) (hu : i.Usable round) :
    SymInv round v k (cs ++ [i]) (sym round i h m).1 (sym round i h m).2 := by
  obtain ⟨q, hq, l⟩ := g.val
  have e : ∀ a b, overwrite round i.min (-(fin q)) = some a → overwrite round i.max (fin q) = some b →
      sym round i h m = (true, Dbl.min (Dbl.min a.abs b) (fin q)) := by
    intro a b ha hb
    unfold sym
    dsimp only
    rw [hq, he]
    simp only [if_true]
    rw [retrieve_some hu ha hb]
    rfl
  have hh : ∀ h' : Bool, h' = true → (h' = true ↔ v ≠ none ∨ ∃ i' ∈ cs ++ [i], i'.name = k ∧ i'.Usable round) := by
    rintro _ rfl
    rw [mem_snoc]
    exact ⟨fun _ => Or.inr (Or.inr ⟨hn, hu⟩), fun _ => rfl⟩
  rcases overwrite_cases hu.2.1 (-(fin q)) with ⟨h1, h1'⟩ | ⟨a, ha, h1⟩ <;>
  rcases overwrite_cases hu.2.2 (fin q) with ⟨h2, h2'⟩ | ⟨b, hb, h2⟩
  · exfalso
    rcases hu.1 with g | g
    · obtain ⟨x, hx⟩ := hu.2.1 g; exact h1' x hx
    · obtain ⟨x, hx⟩ := hu.2.2 g; exact h2' x hx
  · rw [e _ _ h1 h2]
    refine ⟨hh _ rfl, Min.min b q, ?_, l.add (fun x => ?_) (abs_le.1 (reads_finite hr hb)).2⟩
    · simp only [if_true, abs_neg_fin, min_fin]
      congr 1
      rw [min_assoc, min_eq_right]
      exact (min_le_right b q).trans (le_abs_self q)
    · rw [bounds_snoc]
      refine or_congr Iff.rfl ⟨?_, ?_⟩
      · rintro ⟨-, -, ⟨y, hy, -⟩ | hy⟩
        · exact absurd hy (h1' y)
        · exact reads_unique hy hb
      · rintro rfl; exact ⟨hn, hu, Or.inr hb⟩
  · rw [e _ _ h1 h2]
    refine ⟨hh _ rfl, Min.min |a| q, ?_, l.add (fun x => ?_) (reads_finite hr ha)⟩
    · simp only [if_true, abs_fin, min_fin]
      congr 1
      rw [min_assoc, min_self]
    · rw [bounds_snoc]
      refine or_congr Iff.rfl ⟨?_, ?_⟩
      · rintro ⟨-, -, ⟨y, hy, rfl⟩ | hy⟩
        · rw [reads_unique hy ha]
        · exact absurd hy (h2' x)
      · rintro rfl; exact ⟨hn, hu, Or.inl ⟨a, ha, rfl⟩⟩
  · rw [e _ _ h1 h2]
    refine ⟨hh _ rfl, Min.min |a| (Min.min b q), ?_, ?_⟩
    · simp only [if_true, abs_fin, min_fin, min_assoc]
    · refine Least.add (S := fun x => Bounds round v k cs x ∨ x = b)
        (l.add (fun x => Iff.rfl) (abs_le.1 (reads_finite hr hb)).2) (fun x => ?_) (reads_finite hr ha)
      rw [bounds_snoc, or_assoc]
      refine or_congr Iff.rfl ⟨?_, ?_⟩
      · rintro ⟨-, -, ⟨y, hy, rfl⟩ | hy⟩
        · exact Or.inr (by rw [reads_unique hy ha])
        · exact Or.inl (reads_unique hy hb)
      · rintro (rfl | rfl)
        · exact ⟨hn, hu, Or.inr hb⟩
        · exact ⟨hn, hu, Or.inl ⟨a, ha, rfl⟩⟩

theorem sym_skip {round : Rat → Option Rat} {i : Itf} (he : i.enable = true) (hu : ¬ i.Usable round) (h : Bool) (m : Dbl) :
    (sym round i h m).1 = h ∧ (h = true → (sym round i h m).2 = m) := by
  unfold sym
  dsimp only
  rw [he]
  simp only [if_true]
  rw [retrieve_none hu]
  exact ⟨by simp, fun g => by simp [g]⟩

/-- The velocity part of the limits after the interfaces `cs`. -/
def VelInv (round : Rat → Option Rat) (u : UJoint) (cs : List Itf) (l : Limits) : Prop :=
  SymInv round (u.limit.map fun l => |l.velocity|) .velocity cs l.hasVel l.maxVel

theorem velInv_nil (round : Rat → Option Rat) (u : UJoint) : VelInv round u [] (urdfLimits u) := by
  unfold VelInv
  apply symInv_nil
  · unfold urdfLimits; cases u.limit <;> simp [none']
  · unfold urdfLimits; cases u.limit <;> simp

theorem velInv_step {round : Rat → Option Rat} (hr : Rounds round) (u : UJoint) (cs : List Itf) (i : Itf) (l : Limits)
    (hi : i.name = .velocity → i.enable = true) (h : VelInv round u cs l) : VelInv round u (cs ++ [i]) (onItf round l i) := by
  unfold VelInv at h ⊢
  by_cases hn : i.name = .velocity
  · have e : onItf round l i = onVelocity round i l := by unfold onItf; rw [hn]
    rw [e, (onVelocity_sym round i l).1, (onVelocity_sym round i l).2]
    by_cases hu : i.Usable round
    · exact h.use hr hn (hi hn) hu
    · obtain ⟨a, b⟩ := sym_skip (hi hn) hu l.hasVel l.maxVel
      exact h.skip i (fun g => hu g.2) a b
  · obtain ⟨a, b⟩ := (onItf_frame round i l).2.1 hn
    exact h.skip i (fun g => hn g.1) a (fun _ => b)

theorem velInv_fold {round : Rat → Option Rat} (hr : Rounds round) (u : UJoint) (cs : List Itf) (hd : NoneDisabled .velocity cs) :
    VelInv round u cs (cs.foldl (onItf round) (urdfLimits u)) :=
  fold_induction (I := VelInv round u) (H := fun i => i.name = .velocity → i.enable = true) (velInv_nil round u)
    (fun cs i l hi h => velInv_step hr u cs i l hi h) cs hd

/-- The effort part of the limits after the interfaces `cs`. -/
def EffInv (round : Rat → Option Rat) (u : UJoint) (cs : List Itf) (l : Limits) : Prop :=
  SymInv round (u.limit.map fun l => |l.effort|) .effort cs l.hasEff l.maxEff

theorem effInv_nil (round : Rat → Option Rat) (u : UJoint) : EffInv round u [] (urdfLimits u) := by
  unfold EffInv
  apply symInv_nil
  · unfold urdfLimits; cases u.limit <;> simp [none']
  · unfold urdfLimits; cases u.limit <;> simp

theorem effInv_step {round : Rat → Option Rat} (hr : Rounds round) (u : UJoint) (cs : List Itf) (i : Itf) (l : Limits)
    (hi : i.name = .effort → i.enable = true) (h : EffInv round u cs l) : EffInv round u (cs ++ [i]) (onItf round l i) := by
  unfold EffInv at h ⊢
  by_cases hn : i.name = .effort
  · have e : onItf round l i = onEffort round i l := by unfold onItf; rw [hn]
    rw [e, (onEffort_sym round i l).1, (onEffort_sym round i l).2]
    by_cases hu : i.Usable round
    · exact h.use hr hn (hi hn) hu
    · obtain ⟨a, b⟩ := sym_skip (hi hn) hu l.hasEff l.maxEff
      exact h.skip i (fun g => hu g.2) a b
  · obtain ⟨a, b⟩ := (onItf_frame round i l).2.2.1 hn
    exact h.skip i (fun g => hn g.1) a (fun _ => b)

theorem effInv_fold {round : Rat → Option Rat} (hr : Rounds round) (u : UJoint) (cs : List Itf) (hd : NoneDisabled .effort cs) :
    EffInv round u cs (cs.foldl (onItf round) (urdfLimits u)) :=
  fold_induction (I := EffInv round u) (H := fun i => i.name = .effort → i.enable = true) (effInv_nil round u)
    (fun cs i l hi h => effInv_step hr u cs i l hi h) cs hd

end Verif.Desc
