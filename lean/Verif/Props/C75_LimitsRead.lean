import Verif.Num.LimitGet
import Verif.Props.C51_LimitParams
/-!
# C75: limits given as parameters are taken as given

Full statement (`C75_documented`, the words of the documentation): `get_joint_limits` returns true exactly if at least one parameter of the
joint exists; then limits specified in the parameters overwrite existing values, and those not specified remain unchanged.

The second half is false of the code: a flag without its number switches an existing limit off (`C75_flag_alone`), a number
without its flag is ignored (`C75_number_alone`), `angle_wraparound` without `has_position_limits` is ignored (`C75_wrap_alone`).

Proved: the exact effect for every table of parameters of the right types (`C75_read`), when a wrong type makes the call throw
(`C75_throws`), the documented effect when each limit is given completely or not at all (`C75_complete_partial`); soft limits
(`C75_soft`) and that the documented example of soft limits is not taken (`C75_soft_example`); `init` of a limiter (`C75_init`), where a
flag without its number switches on a limit that limits nothing (`C75_init_nan`) and an integer is refused (`C75_init_integer`); the
parameters of one joint do not matter for another (`C75_other_joint`); updates of soft limits (`C75_soft_values`,
`C75_soft_one_partial`, `C75_soft_batch_ignored`).
-/
namespace Verif.LimParam
open Verif (Dbl)

/-! ### Names -/

theorem AKey.text_nodot (k : AKey) : '.' ∉ k.text.toList := by
  rcases k with (k | f) | (_ | k)
  · cases k <;> decide +kernel
  · cases f <;> decide +kernel
  · decide +kernel
  · cases k <;> decide +kernel

theorem AKey.text_inj (k k' : AKey) (h : k.text = k'.text) : k = k' := by
  rcases k with (k | f) | (_ | k) <;> rcases k' with (k' | f') | (_ | k') <;>
    (try cases k) <;> (try cases k') <;> (try cases f) <;> (try cases f') <;> first | rfl | (exact absurd h (by decide +kernel))

theorem split_dot : ∀ (a a' b b' : List Char), '.' ∉ b → '.' ∉ b' → a ++ '.' :: b = a' ++ '.' :: b' → a = a' ∧ b = b'
  | [], [], b, b', _, _, h => ⟨rfl, by simpa using h⟩
  | [], c :: a', b, b', hb, _, h => by
      simp only [List.nil_append, List.cons_append, List.cons.injEq] at h
      exact absurd (h.2 ▸ (by simp : '.' ∈ a' ++ '.' :: b')) hb
  | c :: a, [], b, b', _, hb', h => by
      simp only [List.nil_append, List.cons_append, List.cons.injEq] at h
      exact absurd (h.2.symm ▸ (by simp : '.' ∈ a ++ '.' :: b)) hb'
  | c :: a, c' :: a', b, b', hb, hb', h => by
      simp only [List.cons_append, List.cons.injEq] at h
      have := split_dot a a' b b' hb hb' h.2
      exact ⟨by rw [h.1, this.1], this.2⟩

/-- Different joints or different keys have different parameters, whatever the joints are called. -/
theorem C75_names (j j' : String) (k k' : AKey) : pname j k = pname j' k' ↔ j = j' ∧ k = k' := by
  refine ⟨fun h => ?_, fun h => by rw [h.1, h.2]⟩
  have h := congrArg String.toList h
  simp only [pname, String.toList_append, List.append_assoc] at h
  have h := List.append_cancel_left h
  have := split_dot _ _ _ _ k.text_nodot k'.text_nodot (show j.toList ++ '.' :: k.text.toList = j'.toList ++ '.' :: k'.text.toList from h)
  exact ⟨String.toList_inj.mp this.1, k.text_inj _ (String.toList_inj.mp this.2)⟩

/-! ### Reading -/

/-- The right type for a parameter. -/
def AKey.Right : AKey → Val → Prop
  | .hard (.num _), v => ∃ d, v = .dbl d
  | .hard (.flag _), v => ∃ b, v = .bool b
  | .soft (.num _), v => ∃ d, v = .dbl d
  | .soft .has, v => ∃ b, v = .bool b

/-- All parameters of the joint that exist have the right type. -/
def Typed (s : Store) (j : String) : Prop := ∀ k v, s (pname j k) = some v → k.Right v

/-- Some hard limit of the joint is specified. -/
def Some1 (s : Store) (j : String) : Prop := ∃ k, s (pname j (.hard k)) ≠ none

/-- The flag is given as true and so are all its numbers. -/
def Full (s : Store) (j : String) (f : Flag) : Prop :=
  s (pflag j f) = some (.bool true) ∧ ∀ k ∈ numsOf f, s (pnum j k) ≠ none

/-- The effect of `get_joint_limits` on a limit: nothing if its flag is not specified; otherwise it is switched on, with the
numbers given, if the flag is true and all its numbers are given, and switched off, with the numbers it has, if not. -/
structure Took (s : Store) (j : String) (f : Flag) (l l' : L) : Prop where
  absent : s (pflag j f) = none → l'.flag f = l.flag f ∧ ∀ k ∈ numsOf f, l'.num k = l.num k
  on : Full s j f → l'.flag f = true ∧ ∀ k ∈ numsOf f, s (pnum j k) = some (.dbl (l'.num k))
  off : s (pflag j f) ≠ none → ¬ Full s j f → l'.flag f = false ∧ ∀ k ∈ numsOf f, l'.num k = l.num k

/-- A parameter of a wrong type that `get_joint_limits` looks at: a flag, a number all the companions of which are given with a
true flag, or `angle_wraparound` of a joint for which `has_position_limits` is given and position limits are not. -/
def Bad (s : Store) (j : String) : Prop :=
  (∃ f v, f ≠ .wrap ∧ s (pflag j f) = some v ∧ ¬ (AKey.hard (.flag f)).Right v) ∨
  (∃ f k v, f ≠ .wrap ∧ Full s j f ∧ k ∈ numsOf f ∧ s (pnum j k) = some v ∧ ¬ (AKey.hard (.num k)).Right v) ∨
  (s (pflag j .pos) ≠ none ∧ ¬ Full s j .pos ∧ ∃ v, s (pflag j .wrap) = some v ∧ ¬ (AKey.hard (.flag .wrap)).Right v)

theorem full_iff (s : Store) (j : String) (f : Flag) (b : Bool) (h : s (pflag j f) = some (.bool b)) :
    (b && (numsOf f).all (fun k => (s (pnum j k)).isSome)) = true ↔ Full s j f := by
  simp [Full, h, Option.isSome_iff_ne_none]

theorem takeNums_some (s : Store) (j : String) : ∀ (ks : List Num) (l : L), ks.Nodup →
    (∀ k ∈ ks, ∃ d, s (pnum j k) = some (.dbl d)) →
    ∃ l', takeNums s j ks l = some l' ∧ l'.flag = l.flag ∧ (∀ k ∈ ks, s (pnum j k) = some (.dbl (l'.num k))) ∧
      ∀ k ∉ ks, l'.num k = l.num k
  | [], l, _, _ => ⟨l, rfl, rfl, by simp, by simp⟩
  | k :: ks, l, hn, h => by
      obtain ⟨d, hd⟩ := h k (by simp)
      obtain ⟨l', e, hf, hk, ho⟩ := takeNums_some s j ks (l.setNum k d) (List.nodup_cons.mp hn).2 (fun x hx => h x (by simp [hx]))
      refine ⟨l', by simp only [takeNums, hd]; exact e, hf, fun x hx => ?_, fun x hx => ?_⟩
      · rcases List.mem_cons.mp hx with rfl | hx
        · rw [hd, ho _ (List.nodup_cons.mp hn).1]; simp [L.setNum]
        · exact hk x hx
      · have hx := List.mem_cons.not.mp hx
        push Not at hx
        rw [ho x hx.2]; simp [L.setNum, hx.1]

theorem takeNums_none (s : Store) (j : String) : ∀ (ks : List Num) (l : L),
    (∃ k ∈ ks, ¬ ∃ d, s (pnum j k) = some (.dbl d)) → takeNums s j ks l = none
  | [], l, h => by simp at h
  | k :: ks, l, h => by
      unfold takeNums
      split
      · rename_i d hd
        refine takeNums_none s j ks _ ?_
        obtain ⟨x, hx, hx'⟩ := h
        rcases List.mem_cons.mp hx with rfl | hx
        · exact absurd ⟨d, hd⟩ hx'
        · exact ⟨x, hx, hx'⟩
      · rfl

/-- Is a parameter of the limit, looked at, of a wrong type? -/
def BadG (s : Store) (j : String) (f : Flag) : Prop :=
  (∃ v, s (pflag j f) = some v ∧ ¬ (AKey.hard (.flag f)).Right v) ∨
  (Full s j f ∧ ∃ k ∈ numsOf f, ∃ v, s (pnum j k) = some v ∧ ¬ (AKey.hard (.num k)).Right v)

theorem readGroup_spec (s : Store) (j : String) (f : Flag) (l : L) :
    (BadG s j f → readGroup s j f l = none) ∧
    (¬ BadG s j f → ∃ l', readGroup s j f l = some l' ∧ Took s j f l l' ∧ (∀ g ≠ f, l'.flag g = l.flag g) ∧
      (∀ k ∉ numsOf f, l'.num k = l.num k)) := by
  unfold readGroup
  cases hs : s (pflag j f) with
  | none =>
    refine ⟨?_, fun _ => ⟨l, rfl, ⟨fun _ => ⟨rfl, fun _ _ => rfl⟩, fun h => ?_, fun h => absurd hs h⟩, fun _ _ => rfl, fun _ _ => rfl⟩⟩
    · rintro (⟨v, h, _⟩ | ⟨h, _⟩)
      · rw [hs] at h; cases h
      · rw [h.1] at hs; cases hs
    · rw [h.1] at hs; cases hs
  | some v =>
    cases v with
    | bool b =>
      dsimp only
      by_cases hf : Full s j f
      · rw [if_pos ((full_iff s j f b hs).mpr hf)]
        have hnd : (numsOf f).Nodup := by cases f <;> decide
        constructor
        · rintro (⟨v, h, hv⟩ | ⟨_, k, hk, v, h, hv⟩)
          · rw [hs] at h; cases h; exact absurd ⟨b, rfl⟩ hv
          · refine takeNums_none _ _ _ _ ⟨k, hk, ?_⟩
            rintro ⟨d, hd⟩
            rw [h] at hd; cases hd
            exact hv ⟨d, rfl⟩
        · intro hb
          obtain ⟨l', e, h1, h2, h3⟩ := takeNums_some s j (numsOf f) (l.setFlag f true) hnd (fun k hk => by
            cases hv : s (pnum j k) with
            | none => exact absurd hv (hf.2 k hk)
            | some v =>
              by_contra hc
              refine hb (.inr ⟨hf, k, hk, v, hv, fun hr => hc ?_⟩)
              obtain ⟨d, rfl⟩ := hr
              exact ⟨d, rfl⟩)
          refine ⟨l', e, ⟨fun h => (by rw [hs] at h; cases h), fun _ => ⟨by rw [h1]; simp [L.setFlag], h2⟩, fun _ h => absurd hf h⟩,
            fun g hg => by rw [h1]; simp [L.setFlag, hg], fun k hk => h3 k hk⟩
      · rw [if_neg (fun h => hf ((full_iff s j f b hs).mp h))]
        refine ⟨?_, fun _ => ⟨_, rfl, ⟨fun h => (by rw [hs] at h; cases h), fun h => absurd h hf, fun _ _ => ⟨by simp [L.setFlag], fun _ _ => rfl⟩⟩,
          fun g hg => by simp [L.setFlag, hg], fun _ _ => rfl⟩⟩
        rintro (⟨v, h, hv⟩ | ⟨h, _⟩)
        · rw [hs] at h; cases h; exact absurd ⟨b, rfl⟩ hv
        · exact absurd h hf
    | dbl d => exact ⟨fun _ => rfl, fun h => absurd (.inl ⟨_, hs, by simp [AKey.Right]⟩) h⟩
    | other => exact ⟨fun _ => rfl, fun h => absurd (.inl ⟨_, hs, by simp [AKey.Right]⟩) h⟩

/-- The effect on `angle_wraparound`: taken if given, provided that `has_position_limits` is given and position limits are not. -/
structure TookWrap (s : Store) (j : String) (l l' : L) : Prop where
  taken : s (pflag j .pos) ≠ none → ¬ Full s j .pos → ∀ b, s (pflag j .wrap) = some (.bool b) → l'.flag .wrap = b
  kept : (s (pflag j .pos) = none ∨ Full s j .pos ∨ s (pflag j .wrap) = none) → l'.flag .wrap = l.flag .wrap

theorem readWrap_spec (s : Store) (j : String) (l0 l : L) (ht : Took s j .pos l0 l) (h0 : l.flag .wrap = l0.flag .wrap) :
    let bad := s (pflag j .pos) ≠ none ∧ ¬ Full s j .pos ∧ ∃ v, s (pflag j .wrap) = some v ∧ ¬ (AKey.hard (.flag .wrap)).Right v
    (bad → readWrap s j l = none) ∧
    (¬ bad → ∃ l', readWrap s j l = some l' ∧ TookWrap s j l0 l' ∧ (∀ g ≠ .wrap, l'.flag g = l.flag g) ∧ l'.num = l.num) := by
  intro bad
  unfold readWrap
  by_cases hp : s (pflag j .pos) = none
  · rw [hp]
    simp only [Option.isSome_none, Bool.false_and, Bool.false_eq_true, if_false]
    exact ⟨fun h => absurd hp h.1, fun _ => ⟨l, rfl, ⟨fun h => absurd hp h, fun _ => h0⟩, fun _ _ => rfl, rfl⟩⟩
  · by_cases hf : Full s j .pos
    · have : l.flag .pos = true := (ht.on hf).1
      rw [this]
      simp only [Bool.not_true, Bool.and_false, Bool.false_eq_true, if_false]
      exact ⟨fun h => absurd hf h.2.1, fun _ => ⟨l, rfl, ⟨fun _ h => absurd hf h, fun _ => h0⟩, fun _ _ => rfl, rfl⟩⟩
    · have : l.flag .pos = false := (ht.off hp hf).1
      rw [this, Option.isSome_iff_ne_none.mpr hp]
      simp only [Bool.not_false, Bool.and_self, if_true]
      cases hw : s (pflag j .wrap) with
      | none =>
        refine ⟨?_, fun _ => ⟨l, rfl, ⟨fun _ _ b h => (by rw [hw] at h; cases h), fun _ => h0⟩, fun _ _ => rfl, rfl⟩⟩
        rintro ⟨_, _, v, h, _⟩
        rw [hw] at h; cases h
      | some v =>
        cases v with
        | bool b =>
          refine ⟨?_, fun _ => ⟨_, rfl, ⟨fun _ _ b' h => ?_, fun h => ?_⟩, fun g hg => by simp [L.setFlag, hg], rfl⟩⟩
          · rintro ⟨_, _, v, h, hv⟩
            rw [hw] at h; cases h
            exact absurd ⟨b, rfl⟩ hv
          · rw [hw] at h; cases h
            simp [L.setFlag]
          · rcases h with h | h | h
            · exact absurd h hp
            · exact absurd h hf
            · rw [hw] at h; cases h
        | dbl d => exact ⟨fun _ => rfl, fun h => absurd ⟨hp, hf, _, hw, by simp [AKey.Right]⟩ h⟩
        | other => exact ⟨fun _ => rfl, fun h => absurd ⟨hp, hf, _, hw, by simp [AKey.Right]⟩ h⟩

theorem Took.congr {s : Store} {j : String} {f : Flag} {l m l' m' : L} (h : Took s j f l l') (hf : l.flag f = m.flag f)
    (hk : ∀ k ∈ numsOf f, l.num k = m.num k) (hf' : l'.flag f = m'.flag f) (hk' : ∀ k ∈ numsOf f, l'.num k = m'.num k) :
    Took s j f m m' := by
  refine ⟨fun a => ?_, fun a => ?_, fun a b => ?_⟩
  · have := h.absent a
    exact ⟨by rw [← hf', this.1, hf], fun k hx => by rw [← hk' k hx, this.2 k hx, hk k hx]⟩
  · have := h.on a
    exact ⟨by rw [← hf', this.1], fun k hx => by rw [← hk' k hx, this.2 k hx]⟩
  · have := h.off a b
    exact ⟨by rw [← hf', this.1], fun k hx => by rw [← hk' k hx, this.2 k hx, hk k hx]⟩

theorem nums_disjoint (f g : Flag) (h : f ≠ g) (k : Num) (hf : k ∈ numsOf f) : k ∉ numsOf g := by
  cases f <;> cases g <;> simp_all [numsOf] <;> grind

theorem readGroups_spec (s : Store) (j : String) : ∀ (fs : List Flag), fs.Nodup → ∀ l : L,
    ((∃ f ∈ fs, BadG s j f) → readGroups s j fs l = none) ∧
    ((∀ f ∈ fs, ¬ BadG s j f) → ∃ l', readGroups s j fs l = some l' ∧ (∀ f ∈ fs, Took s j f l l') ∧
      ∀ f ∉ fs, l'.flag f = l.flag f ∧ ∀ k ∈ numsOf f, l'.num k = l.num k)
  | [], _, l => ⟨by simp, fun _ => ⟨l, rfl, by simp, fun _ _ => ⟨rfl, fun _ _ => rfl⟩⟩⟩
  | f :: fs, hn, l => by
      have hn' := List.nodup_cons.mp hn
      have hg := readGroup_spec s j f l
      unfold readGroups
      constructor
      · rintro ⟨g, hgm, hb⟩
        by_cases hbf : BadG s j f
        · rw [hg.1 hbf]; rfl
        · obtain ⟨m, e, -⟩ := hg.2 hbf
          rw [e]
          refine (readGroups_spec s j fs hn'.2 m).1 ⟨g, ?_, hb⟩
          rcases List.mem_cons.mp hgm with rfl | h
          · exact absurd hb hbf
          · exact h
      · intro hb
        obtain ⟨m, e, ht, h1, h2⟩ := hg.2 (hb f (by simp))
        obtain ⟨l', e', ht', h'⟩ := (readGroups_spec s j fs hn'.2 m).2 (fun g hgm => hb g (by simp [hgm]))
        refine ⟨l', by rw [e]; exact e', fun g hgm => ?_, fun g hgm => ?_⟩
        · rcases List.mem_cons.mp hgm with rfl | hgm
          · have := h' g hn'.1
            exact ht.congr rfl (fun _ _ => rfl) this.1.symm (fun k hk => (this.2 k hk).symm)
          · have hne : g ≠ f := fun h => hn'.1 (h ▸ hgm)
            exact (ht' g hgm).congr (h1 g hne) (fun k hk => h2 k (nums_disjoint g f hne k hk)) rfl (fun _ _ => rfl)
        · have hgm := List.mem_cons.not.mp hgm
          push Not at hgm
          have := h' g hgm.2
          exact ⟨by rw [this.1, h1 g hgm.1], fun k hk => by rw [this.2 k hk, h2 k (nums_disjoint g f hgm.1 k hk)]⟩

theorem bad_iff (s : Store) (j : String) :
    Bad s j ↔ (∃ f, f ≠ .wrap ∧ BadG s j f) ∨
      (s (pflag j .pos) ≠ none ∧ ¬ Full s j .pos ∧ ∃ v, s (pflag j .wrap) = some v ∧ ¬ (AKey.hard (.flag .wrap)).Right v) := by
  unfold Bad BadG
  constructor
  · rintro (⟨f, v, h⟩ | ⟨f, k, v, h⟩ | h)
    · exact .inl ⟨f, h.1, .inl ⟨v, h.2⟩⟩
    · exact .inl ⟨f, h.1, .inr ⟨h.2.1, k, h.2.2.1, v, h.2.2.2⟩⟩
    · exact .inr h
  · rintro (⟨f, hf, ⟨v, h⟩ | ⟨h, k, hk, v, hv⟩⟩ | h)
    · exact .inl ⟨f, v, hf, h⟩
    · exact .inr (.inl ⟨f, k, v, hf, h, hk, hv⟩)
    · exact .inr (.inr h)

theorem readAll_spec (s : Store) (j : String) (l : L) :
    (Bad s j → readAll s j l = none) ∧
    (¬ Bad s j → ∃ l', readAll s j l = some l' ∧ (∀ f ≠ .wrap, Took s j f l l') ∧ TookWrap s j l l') := by
  rw [bad_iff]
  have hp := readGroup_spec s j .pos l
  unfold readAll
  by_cases hbp : BadG s j .pos
  · rw [hp.1 hbp]
    exact ⟨fun _ => rfl, fun h => absurd (.inl ⟨_, by decide, hbp⟩) h⟩
  · obtain ⟨m, e, ht, h1, h2⟩ := hp.2 hbp
    have hw := readWrap_spec s j l m ht (h1 .wrap (by decide))
    dsimp only at hw
    rw [e]
    dsimp only [Option.bind]
    by_cases hbw : s (pflag j .pos) ≠ none ∧ ¬ Full s j .pos ∧ ∃ v, s (pflag j .wrap) = some v ∧ ¬ (AKey.hard (.flag .wrap)).Right v
    · rw [hw.1 hbw]
      exact ⟨fun _ => rfl, fun h => absurd (.inr hbw) h⟩
    · obtain ⟨n, e', htw, h3, h4⟩ := hw.2 hbw
      rw [e']
      have hg := readGroups_spec s j [.vel, .acc, .dec, .jerk, .eff] (by decide) n
      have hmem : ∀ f : Flag, f ≠ .wrap → f ≠ .pos → f ∈ ([.vel, .acc, .dec, .jerk, .eff] : List Flag) := by
        intro f; cases f <;> decide
      constructor
      · rintro (⟨f, hf, hb⟩ | h)
        · exact hg.1 ⟨f, hmem f hf (fun h => hbp (h ▸ hb)), hb⟩
        · exact absurd h hbw
      · intro h
        obtain ⟨l', e'', ht', h'⟩ := hg.2 (fun f hf hb => h (.inl ⟨f, (by rintro rfl; exact absurd hf (by decide)), hb⟩))
        refine ⟨l', e'', fun f hf => ?_, ?_⟩
        · by_cases hfp : f = .pos
          · subst hfp
            have := h' .pos (by decide)
            exact ht.congr rfl (fun _ _ => rfl) (by rw [this.1, h3 _ (by decide)]) (fun k hk => by rw [this.2 k hk, h4])
          · refine (ht' f (hmem f hf hfp)).congr (by rw [h3 f hf, h1 f hfp]) (fun k hk => ?_) rfl (fun _ _ => rfl)
            rw [h4, h2 k (nums_disjoint f .pos hfp k hk)]
        · have := (h' .wrap (by decide)).1
          exact ⟨fun a b c d => by rw [this]; exact htw.taken a b c d, fun a => by rw [this]; exact htw.kept a⟩

theorem missing_iff (s : Store) (j : String) : hardKeys.all (fun k => (s (pname j (.hard k))).isNone) = true ↔ ¬ Some1 s j := by
  rw [List.all_eq_true]
  unfold Some1
  push Not
  simp only [Option.isNone_iff_eq_none]
  refine ⟨fun h k => h k ?_, fun h k _ => h k⟩
  rcases k with k | f
  · cases k <;> decide
  · cases f <;> decide

theorem typed_not_bad (s : Store) (j : String) (h : Typed s j) : ¬ Bad s j := by
  rintro (⟨f, v, _, h1, h2⟩ | ⟨f, k, v, _, _, _, h1, h2⟩ | ⟨_, _, v, h1, h2⟩)
  · exact h2 (h _ _ h1)
  · exact h2 (h _ _ h1)
  · exact h2 (h _ _ h1)

/-- Reading the limits of a joint, for all tables of parameters of the right types, names of joints and existing limits: false
is returned exactly if no parameter of the joint exists, and nothing is thrown. Otherwise each limit is left alone, switched on
or switched off as `Took` says, and `angle_wraparound` as `TookWrap` says. -/
theorem C75_read (s : Store) (j : String) (hs : Typed s j) (l : L) :
    (¬ Some1 s j → getHard s j l = .missing) ∧
    (Some1 s j → ∃ l', getHard s j l = .found l' ∧ (∀ f ≠ .wrap, Took s j f l l') ∧ TookWrap s j l l') := by
  unfold getHard
  constructor
  · intro h
    rw [if_pos ((missing_iff s j).mpr h)]
  · intro h
    rw [if_neg (fun a => (missing_iff s j).mp a h)]
    obtain ⟨l', e, h'⟩ := (readAll_spec s j l).2 (typed_not_bad s j hs)
    exact ⟨l', by rw [e], h'⟩

/-- With parameters of any types: the call throws exactly if some parameter exists and one that is looked at has a wrong type;
otherwise the effect is as in `C75_read`. -/
theorem C75_throws (s : Store) (j : String) (l : L) :
    (getHard s j l = .throws ↔ Some1 s j ∧ Bad s j) ∧
    (Some1 s j → ¬ Bad s j → ∃ l', getHard s j l = .found l' ∧ (∀ f ≠ .wrap, Took s j f l l') ∧ TookWrap s j l l') := by
  unfold getHard
  by_cases h : Some1 s j
  · rw [if_neg (fun a => (missing_iff s j).mp a h)]
    by_cases hb : Bad s j
    · rw [(readAll_spec s j l).1 hb]
      simp [h, hb]
    · obtain ⟨l', e, h'⟩ := (readAll_spec s j l).2 hb
      rw [e]
      exact ⟨by simp [hb], fun _ _ => ⟨l', rfl, h'⟩⟩
  · rw [if_pos ((missing_iff s j).mpr h)]
    simp [h]

/-! ### The documentation -/

/-- "Limits specified in the parameter server will overwrite existing values. Values in limits not specified in the parameter
server remain unchanged." (`angle_wraparound` "will be ignored if there are position limits".) -/
structure Documented (s : Store) (j : String) (l l' : L) : Prop where
  num : ∀ k d, s (pnum j k) = some (.dbl d) → l'.num k = d
  numKept : ∀ k, s (pnum j k) = none → l'.num k = l.num k
  flag : ∀ f b, f ≠ .wrap → s (pflag j f) = some (.bool b) → l'.flag f = b
  wrap : ∀ b, s (pflag j .pos) ≠ some (.bool true) → s (pflag j .wrap) = some (.bool b) → l'.flag .wrap = b
  flagKept : ∀ f, s (pflag j f) = none → l'.flag f = l.flag f

/-- Full statement (false). -/
def C75_documented : Prop :=
  ∀ (s : Store) (j : String) (l : L), Typed s j → Some1 s j → ∃ l', getHard s j l = .found l' ∧ Documented s j l l'

/-- Each limit is given completely (a true flag and all its numbers), given as absent (a false flag alone), or not given at all;
`angle_wraparound` is given only together with `has_position_limits`. -/
def Complete (s : Store) (j : String) : Prop :=
  (∀ f ≠ .wrap, Full s j f ∨ (s (pflag j f) = some (.bool false) ∨ s (pflag j f) = none) ∧ ∀ k ∈ numsOf f, s (pnum j k) = none) ∧
  (s (pflag j .wrap) ≠ none → s (pflag j .pos) ≠ none)

theorem num_has_flag (k : Num) : ∃ f, f ≠ .wrap ∧ k ∈ numsOf f := by
  cases k
  · exact ⟨.pos, by decide⟩
  · exact ⟨.pos, by decide⟩
  · exact ⟨.vel, by decide⟩
  · exact ⟨.acc, by decide⟩
  · exact ⟨.dec, by decide⟩
  · exact ⟨.jerk, by decide⟩
  · exact ⟨.eff, by decide⟩

/-- If each limit is given completely or not at all, the documented effect holds, for all tables, names and existing limits.
Missing: limits given in part. -/
theorem C75_complete_partial (s : Store) (j : String) (l : L) (hs : Typed s j) (h1 : Some1 s j) (hc : Complete s j) :
    ∃ l', getHard s j l = .found l' ∧ Documented s j l l' := by
  obtain ⟨l', e, ht, hw⟩ := (C75_read s j hs l).2 h1
  refine ⟨l', e, ?_, ?_, ?_, ?_, ?_⟩
  · intro k d hd
    obtain ⟨f, hf, hk⟩ := num_has_flag k
    rcases hc.1 f hf with h | h
    · have := ((ht f hf).on h).2 k hk
      rw [hd] at this
      injection this with this
      injection this with this
      exact this.symm
    · rw [h.2 k hk] at hd; cases hd
  · intro k hk0
    obtain ⟨f, hf, hk⟩ := num_has_flag k
    rcases hc.1 f hf with h | ⟨h | h, _⟩
    · exact absurd hk0 (h.2 k hk)
    · exact ((ht f hf).off (by rw [h]; simp) (fun a => by rw [a.1] at h; cases h)).2 k hk
    · exact ((ht f hf).absent h).2 k hk
  · intro f b hf hb
    rcases hc.1 f hf with h | ⟨h | h, _⟩
    · rw [h.1] at hb; cases hb; exact ((ht f hf).on h).1
    · rw [h] at hb; cases hb
      exact ((ht f hf).off (by rw [h]; simp) (fun a => by rw [a.1] at h; cases h)).1
    · rw [h] at hb; cases hb
  · intro b hp hb
    refine hw.taken (hc.2 (by rw [hb]; simp)) (fun a => hp a.1) b hb
  · intro f h
    by_cases hf : f = .wrap
    · subst hf
      exact hw.kept (.inr (.inr h))
    · exact ((ht f hf).absent h).1

/-- A table from a list of parameters. -/
def tableOf (ps : List (String × Val)) : Store := fun n => (ps.find? (fun p => p.1 = n)).map (·.2)

/-- The limits of a joint as they come from the URDF, for the examples: position range [-1, 1], velocity 2, effort 3. -/
def urdf1 : L := { num := fun | .minPos => .fin (-1) | .maxPos => 1 | .maxVel => 2 | .maxEff => 3 | _ => .nan,
                   flag := fun | .pos => true | .vel => true | .eff => true | _ => false }

theorem tableOf_mem (ps : List (String × Val)) (n : String) (v : Val) (h : tableOf ps n = some v) : (n, v) ∈ ps := by
  unfold tableOf at h
  rw [Option.map_eq_some_iff] at h
  obtain ⟨p, hp, rfl⟩ := h
  have h1 := List.mem_of_find?_eq_some hp
  have h2 := List.find?_some hp
  simp only [decide_eq_true_eq] at h2
  rw [← h2]; exact h1

/-- Is a table given as a list typed? -/
theorem tableOf_typed (j : String) (ps : List (AKey × Val)) (h : ∀ p ∈ ps, p.1.Right p.2) :
    Typed (tableOf (ps.map fun p => (pname j p.1, p.2))) j := by
  intro k v hv
  have := tableOf_mem _ _ _ hv
  obtain ⟨p, hp, e⟩ := List.mem_map.mp this
  simp only [Prod.mk.injEq] at e
  rw [C75_names] at e
  rw [← e.1.2, ← e.2]; exact h p hp

/-- The table of the parameters of a joint. -/
def jointTable (j : String) (ps : List (AKey × Val)) : Store := tableOf (ps.map fun p => (pname j p.1, p.2))

/-- The limits read. -/
def Got.limits : Got → Option L
  | .found l => some l
  | _ => none

/-- `has_velocity_limits: true` and `max_velocity: 1.5` for a joint, and nothing else. -/
def velOnly : Store := jointTable "a" [(.hard (.flag .vel), .bool true), (.hard (.num .maxVel), .dbl (.fin (3/2)))]

/-- The hypotheses of `C75_complete_partial` hold of it: the velocity limit becomes 1.5, the others stay. -/
example : Typed velOnly "a" ∧ Some1 velOnly "a" ∧ Complete velOnly "a" ∧
    (getHard velOnly "a" urdf1).limits.map (fun l => (l.flag .vel, l.num .maxVel, l.flag .pos, l.num .minPos, l.num .maxEff)) =
      some (true, .fin (3/2), true, .fin (-1), 3) := by
  refine ⟨tableOf_typed _ _ ?_, ⟨.flag .vel, by decide +kernel⟩, ⟨?_, by decide +kernel⟩, by decide +kernel⟩
  · intro p hp
    simp only [List.mem_cons, List.not_mem_nil, or_false] at hp
    rcases hp with rfl | rfl
    · exact ⟨_, rfl⟩
    · exact ⟨_, rfl⟩
  · intro f hf
    cases f
    case vel => exact .inl ⟨by decide +kernel, by decide +kernel⟩
    case wrap => exact absurd rfl hf
    all_goals exact .inr ⟨.inr (by decide +kernel), by decide +kernel⟩

/-- Wrong: `has_velocity_limits: true` without a number switches the existing velocity limit off (general: for every name, existing
limits and whatever other parameters of the right types there are). -/
theorem C75_flag_alone (s : Store) (j : String) (l : L) (hs : Typed s j) (h : s (pflag j .vel) = some (.bool true))
    (hn : s (pnum j .maxVel) = none) : ∃ l', getHard s j l = .found l' ∧ l'.flag .vel = false := by
  obtain ⟨l', e, ht, _⟩ := (C75_read s j hs l).2 ⟨.flag .vel, by show s (pflag j .vel) ≠ none; rw [h]; simp⟩
  exact ⟨l', e, ((ht .vel (by decide)).off (by rw [h]; simp) (fun a => a.2 .maxVel (by decide) hn)).1⟩

/-- Wrong: numbers without the flag are ignored, for every limit. -/
theorem C75_number_alone (s : Store) (j : String) (l : L) (hs : Typed s j) (f : Flag) (hf : f ≠ .wrap) (h : s (pflag j f) = none)
    (k : Num) (hk : k ∈ numsOf f) (hn : s (pnum j k) ≠ none) : ∃ l', getHard s j l = .found l' ∧ l'.num k = l.num k := by
  obtain ⟨l', e, ht, _⟩ := (C75_read s j hs l).2 ⟨.num k, hn⟩
  exact ⟨l', e, ((ht f hf).absent h).2 k hk⟩

/-- Wrong: `angle_wraparound` without `has_position_limits` is ignored. -/
theorem C75_wrap_alone (s : Store) (j : String) (l : L) (hs : Typed s j) (h : s (pflag j .pos) = none)
    (hw : s (pflag j .wrap) ≠ none) : ∃ l', getHard s j l = .found l' ∧ l'.flag .wrap = l.flag .wrap := by
  obtain ⟨l', e, _, ht⟩ := (C75_read s j hs l).2 ⟨.flag .wrap, hw⟩
  exact ⟨l', e, ht.kept (.inl h)⟩

theorem C75_documented_false : ¬ C75_documented := by
  intro h
  have ht : Typed (jointTable "a" [(.hard (.flag .vel), .bool true)]) "a" := by
    refine tableOf_typed _ _ ?_
    intro p hp
    simp only [List.mem_cons, List.not_mem_nil, or_false] at hp
    subst hp
    exact ⟨_, rfl⟩
  have hv : jointTable "a" [(.hard (.flag .vel), .bool true)] (pflag "a" .vel) = some (.bool true) := by decide +kernel
  obtain ⟨l', e, hd⟩ := h _ "a" urdf1 ht ⟨.flag .vel, by decide +kernel⟩
  obtain ⟨m, e', hm⟩ := C75_flag_alone _ "a" urdf1 ht hv (by decide +kernel)
  rw [e] at e'
  injection e' with e'
  have := hd.flag .vel true (by decide) hv
  rw [e', hm] at this
  cases this

/-- The hypotheses of `C75_number_alone` and `C75_wrap_alone` hold of tables of one parameter. -/
example : (jointTable "a" [(.hard (.num .maxVel), .dbl 1)] (pnum "a" .maxVel) ≠ none) ∧
    jointTable "a" [(.hard (.num .maxVel), .dbl 1)] (pflag "a" .vel) = none ∧
    (jointTable "a" [(.hard (.flag .wrap), .bool true)] (pflag "a" .wrap) ≠ none) ∧
    jointTable "a" [(.hard (.flag .wrap), .bool true)] (pflag "a" .pos) = none := by decide +kernel

/-- `max_velocity: 2`, an integer, with its flag: the call throws (whatever the existing limits). -/
theorem C75_integer_throws (l : L) :
    getHard (jointTable "a" [(.hard (.flag .vel), .bool true), (.hard (.num .maxVel), .other)]) "a" l = .throws := by
  refine ((C75_throws _ _ l).1).mpr ⟨⟨.flag .vel, by decide +kernel⟩, .inr (.inl ⟨.vel, .maxVel, .other, by decide, ⟨by decide +kernel, by decide +kernel⟩,
    by decide, by decide +kernel, by rintro ⟨d, h⟩; cases h⟩)⟩

/-- The parameters of other joints do not matter: two tables that agree on the parameters of a joint give the same limits, and the
tables of different joints are disjoint (`C75_names`). -/
theorem C75_other_joint (s s' : Store) (j : String) (h : ∀ k, s (pname j k) = s' (pname j k)) (l : L) (sl : SL) :
    getHard s j l = getHard s' j l ∧ getSoft s j sl = getSoft s' j sl := by
  have hn : ∀ k, s (pnum j k) = s' (pnum j k) := fun k => h _
  have hf : ∀ f, s (pflag j f) = s' (pflag j f) := fun f => h _
  have ht : ∀ ks l, takeNums s j ks l = takeNums s' j ks l := by
    intro ks
    induction ks with
    | nil => intro l; rfl
    | cons k ks ih =>
      intro l
      unfold takeNums
      rw [hn k]
      split
      · exact ih _
      · rfl
  have hg : ∀ f l, readGroup s j f l = readGroup s' j f l := by
    intro f l
    unfold readGroup
    rw [hf f]
    simp only [hn, ht]
  have hgs : ∀ fs l, readGroups s j fs l = readGroups s' j fs l := by
    intro fs
    induction fs with
    | nil => intro l; rfl
    | cons f fs ih =>
      intro l
      unfold readGroups
      rw [hg f l]
      cases readGroup s' j f l with
      | none => rfl
      | some m => exact ih m
  have hw : ∀ l, readWrap s j l = readWrap s' j l := by
    intro l; unfold readWrap; rw [hf, hf]
  have hts : ∀ ks l, takeSoft s j ks l = takeSoft s' j ks l := by
    intro ks
    induction ks with
    | nil => intro l; rfl
    | cons k ks ih =>
      intro l
      unfold takeSoft
      rw [h]
      split
      · exact ih _
      · rfl
  constructor
  · unfold getHard readAll
    simp only [h, hg]
    have : ∀ m, (readWrap s j m).bind (readGroups s j [.vel, .acc, .dec, .jerk, .eff]) =
        (readWrap s' j m).bind (readGroups s' j [.vel, .acc, .dec, .jerk, .eff]) := by
      intro m; rw [hw m, funext (hgs [.vel, .acc, .dec, .jerk, .eff])]
    simp only [this]
  · unfold getSoft
    simp only [h, hts]

/-! ### Soft limits -/

theorem takeSoft_some (s : Store) (j : String) : ∀ (ks : List SNum) (l : SL), ks.Nodup →
    (∀ k ∈ ks, ∃ d, s (pname j (.soft (.num k))) = some (.dbl d)) →
    ∃ l', takeSoft s j ks l = some l' ∧ (∀ k ∈ ks, s (pname j (.soft (.num k))) = some (.dbl (l' k))) ∧ ∀ k ∉ ks, l' k = l k
  | [], l, _, _ => ⟨l, rfl, by simp, by simp⟩
  | k :: ks, l, hn, h => by
      obtain ⟨d, hd⟩ := h k (by simp)
      obtain ⟨l', e, hk, ho⟩ := takeSoft_some s j ks (SL.set l k d) (List.nodup_cons.mp hn).2 (fun x hx => h x (by simp [hx]))
      refine ⟨l', by simp only [takeSoft, hd]; exact e, fun x hx => ?_, fun x hx => ?_⟩
      · rcases List.mem_cons.mp hx with rfl | hx
        · rw [hd, ho _ (List.nodup_cons.mp hn).1]; simp [SL.set]
        · exact hk x hx
      · have hx := List.mem_cons.not.mp hx
        push Not at hx
        rw [ho x hx.2]; simp [SL.set, hx.1]

theorem mem_softNums (k : SNum) : k ∈ softNums := by cases k <;> decide

/-- Soft limits, for all tables of the right types: true is returned exactly if `has_soft_limits` is true and all four numbers are
given, and then these are the soft limits; otherwise they are unchanged. -/
theorem C75_soft (s : Store) (j : String) (hs : Typed s j) (l : SL) :
    ∃ r l', getSoft s j l = some (r, l') ∧
      (r = true ↔ s (pname j (.soft .has)) = some (.bool true) ∧ ∀ k, s (pname j (.soft (.num k))) ≠ none) ∧
      (r = true → ∀ k, s (pname j (.soft (.num k))) = some (.dbl (l' k))) ∧ (r = false → l' = l) := by
  unfold getSoft
  cases h : s (pname j (.soft .has)) with
  | none => exact ⟨false, l, rfl, by simp, by simp, by simp⟩
  | some v =>
    obtain ⟨b, rfl⟩ : ∃ b, v = .bool b := hs _ _ h
    dsimp only
    by_cases hc : (b && softNums.all (fun k => (s (pname j (.soft (.num k)))).isSome)) = true
    · rw [if_pos hc]
      simp only [Bool.and_eq_true, List.all_eq_true] at hc
      obtain ⟨l', e, h1, _⟩ := takeSoft_some s j softNums l (by decide) (fun k hk => by
        cases hv : s (pname j (.soft (.num k))) with
        | none => have := hc.2 k hk; rw [hv] at this; cases this
        | some v => obtain ⟨d, rfl⟩ : ∃ d, v = .dbl d := hs _ _ hv; exact ⟨d, rfl⟩)
      refine ⟨true, l', by rw [e]; rfl, ⟨fun _ => ⟨by rw [hc.1], fun k => ?_⟩, fun _ => rfl⟩, fun _ k => h1 k (mem_softNums k), by simp⟩
      rw [h1 k (mem_softNums k)]; simp
    · rw [if_neg hc]
      refine ⟨false, l, rfl, ⟨by simp, fun ⟨h1, h2⟩ => absurd ?_ hc⟩, by simp, by simp⟩
      injection h1 with h1
      injection h1 with h1
      simp [h1, Option.isSome_iff_ne_none, h2]

/-- Wrong: the example of the documentation ("a valid yaml configuration would look like": the four numbers, no flag) is not
taken, whatever the numbers; documented is "true if all of k_position, k_velocity, soft_lower_limit and soft_upper_limit exist". -/
theorem C75_soft_example (a b c d : Dbl) (l : SL) :
    let s := jointTable "foo_joint" [(.soft (.num .lower), .dbl a), (.soft (.num .upper), .dbl b), (.soft (.num .kPos), .dbl c),
      (.soft (.num .kVel), .dbl d)]
    (∀ k, s (pname "foo_joint" (.soft (.num k))) ≠ none) ∧ getSoft s "foo_joint" l = some (false, l) := by
  intro s
  have hn : ∀ k k', decide (pname "foo_joint" k = pname "foo_joint" k') = decide (k = k') := by
    intro k k'
    exact decide_eq_decide.mpr (by rw [C75_names]; simp)
  constructor
  · intro k
    cases k <;> simp [s, jointTable, tableOf, hn]
  · unfold getSoft
    have : s (pname "foo_joint" (.soft .has)) = none := by
      simp [s, jointTable, tableOf, hn]
    rw [this]

/-- A table that is taken. -/
example : (getSoft (jointTable "j" [(.soft .has, .bool true), (.soft (.num .lower), .dbl 0), (.soft (.num .upper), .dbl 1),
      (.soft (.num .kPos), .dbl 10), (.soft (.num .kVel), .dbl 20)]) "j" (fun _ => .nan)).map (fun r => (r.1, softNums.map r.2)) =
    some (true, [10, 20, 0, 1]) := by decide +kernel

/-- The value of a parameter as a number. -/
def Val.dbl? : Val → Option Dbl
  | .dbl d => some d
  | _ => none

/-- The numbers given for a key in a batch, in order. -/
def numbersFor (j : String) (k : SNum) (ps : List NVal) : List Dbl :=
  ps.filterMap fun p => if p.name = pname j (.soft (.num k)) then p.val.dbl? else none

theorem find_key (j : String) (n : String) (k : SNum) (h : n = pname j (.soft (.num k))) :
    softNums.find? (fun k => n == pname j (.soft (.num k))) = some k := by
  have hn : ∀ k k' : AKey, (pname j k == pname j k') = decide (k = k') := by
    intro k k'
    rw [show (pname j k == pname j k') = decide (pname j k = pname j k') from rfl]
    exact decide_eq_decide.mpr (by rw [C75_names]; simp)
  subst h
  simp only [hn]
  cases k <;> decide

theorem soft_fold (j : String) (k : SNum) : ∀ (ps : List NVal) (st : SL × Bool),
    (ps.foldl (softStep j) st).1 k = (numbersFor j k ps).getLast?.getD (st.1 k)
  | [], st => rfl
  | p :: ps, st => by
      rw [List.foldl_cons, soft_fold j k ps]
      by_cases hk : p.name = pname j (.soft (.num k))
      · cases hv : p.val with
        | dbl d =>
          have e : numbersFor j k (p :: ps) = d :: numbersFor j k ps := by simp [numbersFor, hk, hv, Val.dbl?]
          rw [e, List.getLast?_cons]
          simp only [softStep, find_key j _ k hk, hv, SL.set, if_true, Option.getD_some]
        | bool b =>
          have e : numbersFor j k (p :: ps) = numbersFor j k ps := by simp [numbersFor, hk, hv, Val.dbl?]
          rw [e]; simp only [softStep, find_key j _ k hk, hv]
        | other =>
          have e : numbersFor j k (p :: ps) = numbersFor j k ps := by simp [numbersFor, hk, hv, Val.dbl?]
          rw [e]; simp only [softStep, find_key j _ k hk, hv]
      · have e : numbersFor j k (p :: ps) = numbersFor j k ps := by simp [numbersFor, hk]
        have e' : (softStep j st p).1 k = st.1 k := by
          unfold softStep
          split
          · rfl
          · rename_i k' hk'
            split
            · have h2 := List.find?_some hk'
              simp only [beq_iff_eq] at h2
              have : k ≠ k' := fun h => hk (h ▸ h2)
              simp [SL.set, this]
            · rfl
        rw [e, e']

/-- Changing parameters of soft limits, for all batches: unless the batch contains `has_soft_limits: false`, each of the four numbers
becomes the last one given for it, and stays if there is none; with `has_soft_limits: false` in it nothing changes. -/
theorem C75_soft_values (j : String) (ps : List NVal) (l : SL) (k : SNum) :
    (⟨pname j (.soft .has), .bool false⟩ ∉ ps → (softCheck j ps l).1 k = (numbersFor j k ps).getLast?.getD (l k)) ∧
    (⟨pname j (.soft .has), .bool false⟩ ∈ ps → softCheck j ps l = (l, false)) := by
  have hiff : (ps.any (fun p => p.name == pname j (.soft .has) && p.val == .bool false)) = true ↔
      (⟨pname j (.soft .has), .bool false⟩ : NVal) ∈ ps := by
    rw [List.any_eq_true]
    constructor
    · rintro ⟨⟨n, v⟩, hp, h⟩
      simp only [Bool.and_eq_true, beq_iff_eq] at h
      rw [← h.1, ← h.2]; exact hp
    · exact fun h => ⟨_, h, by simp⟩
  unfold softCheck
  constructor
  · intro h
    rw [if_neg (fun a => h (hiff.mp a)), soft_fold]
  · intro h
    rw [if_pos (hiff.mpr h)]

/-- One number at a time: true is returned exactly if it differs from the present one (NaN differs from everything). Missing:
several numbers at once, see `C75_soft_batch_ignored`. -/
theorem C75_soft_one_partial (j : String) (k : SNum) (d : Dbl) (l : SL) :
    (softCheck j [⟨pname j (.soft (.num k)), .dbl d⟩] l).2 = true ↔ (d ≠ l k ∨ d = .nan ∨ l k = .nan) := by
  have hh : (pname j (.soft (.num k)) == pname j (.soft .has)) = false := by
    rw [beq_eq_false_iff_ne]
    intro h
    rw [C75_names] at h
    cases h.2
  simp only [softCheck, List.any_cons, List.any_nil, hh, Bool.false_and, Bool.or_self, Bool.false_eq_true, if_false, List.foldl_cons, List.foldl_nil,
    softStep, find_key j _ k rfl, Sat.differ, Bool.or_eq_true, isNan_iff, bne_iff_ne]
  grind

/-- Wrong: a change is reported only if the last number of the batch is a change. Here `k_position` becomes 5 and true should be
returned. -/
theorem C75_soft_batch_ignored (j : String) (l : SL) (h : l .kPos ≠ 5) (hv : l .kVel ≠ .nan) :
    let r := softCheck j [⟨pname j (.soft (.num .kPos)), .dbl 5⟩, ⟨pname j (.soft (.num .kVel)), .dbl (l .kVel)⟩] l
    r.2 = false ∧ r.1 .kPos = 5 ∧ r.1 .kPos ≠ l .kPos := by
  intro r
  have hh : ∀ k, (pname j (.soft (.num k)) == pname j (.soft .has)) = false := by
    intro k
    rw [beq_eq_false_iff_ne]
    intro h
    rw [C75_names] at h
    cases h.2
  have e : r = (SL.set (SL.set l .kPos 5) .kVel (l .kVel), Sat.differ ((SL.set l .kPos 5) .kVel) (l .kVel)) := by
    simp only [r, softCheck, List.any_cons, List.any_nil, hh, Bool.false_and, Bool.or_self, Bool.false_eq_true, if_false, List.foldl_cons,
      List.foldl_nil, softStep, find_key j _ _ rfl]
  have hn : (l .kVel).isNan = false := by
    rw [Bool.eq_false_iff]
    exact fun a => hv ((isNan_iff _).mp a)
  rw [e]
  refine ⟨?_, rfl, fun a => h a.symm⟩
  simp [SL.set, Sat.differ, hn]

example : let l : SL := fun _ => 1
    l .kPos ≠ 5 ∧ l .kVel ≠ .nan := by decide

/-! ### Initialising a limiter -/

/-- The value of a parameter when all are declared: the one it has, else the override, else the default. -/
def value (s o : Store) (j : String) (k : AKey) : Val := (((s (pname j k)).orElse fun _ => o (pname j k))).getD k.default

theorem right_iff (k : AKey) (v : Val) : v.sameType k.default = true ↔ k.Right v := by
  rcases k with (k | f) | (_ | k) <;> cases v <;> simp [Val.sameType, AKey.default, AKey.Right]

theorem autoDeclare_spec (o s : Store) (j : String) (k : AKey) :
    (¬ k.Right (value s o j k) → autoDeclare o s (pname j k) k.default = none) ∧
    (k.Right (value s o j k) → ∃ s', autoDeclare o s (pname j k) k.default = some s' ∧ s' (pname j k) = some (value s o j k) ∧
      ∀ n ≠ pname j k, s' n = s n) := by
  rw [← right_iff]
  unfold autoDeclare value
  cases h : s (pname j k) with
  | some v =>
    dsimp only [Option.orElse, Option.getD]
    exact ⟨fun h' => by rw [if_neg h'], fun h' => ⟨s, by rw [if_pos h'], h, fun _ _ => rfl⟩⟩
  | none =>
    dsimp only [Option.orElse]
    exact ⟨fun h' => by rw [if_neg h'], fun h' => ⟨_, by rw [if_pos h'], by simp [Store.put], fun n hn => by simp [Store.put, hn]⟩⟩

theorem declareKeys_spec (o : Store) (j : String) : ∀ (ks : List AKey) (s : Store),
    ((∃ k ∈ ks, ¬ k.Right (value s o j k)) → declareKeys o j ks s = none) ∧
    ((∀ k ∈ ks, k.Right (value s o j k)) → ∃ s', declareKeys o j ks s = some s' ∧ (∀ k ∈ ks, s' (pname j k) = some (value s o j k)) ∧
      (∀ n v, s n = some v → s' n = some v) ∧ ∀ j' k', value s' o j' k' = value s o j' k')
  | [], s => ⟨by simp, fun _ => ⟨s, rfl, by simp, fun _ _ h => h, fun _ _ => rfl⟩⟩
  | k :: ks, s => by
      unfold declareKeys
      by_cases hk : k.Right (value s o j k)
      · obtain ⟨s1, e, h1, h2⟩ := (autoDeclare_spec o s j k).2 hk
        rw [e]
        have hv : ∀ j' k', value s1 o j' k' = value s o j' k' := by
          intro j' k'
          by_cases hn : pname j' k' = pname j k
          · have := (C75_names _ _ _ _).mp hn
            rw [this.1, this.2]
            conv_lhs => unfold value
            rw [h1]; rfl
          · unfold value
            rw [h2 _ hn]
        have hm : ∀ n v, s n = some v → s1 n = some v := by
          intro n v hs
          by_cases hn : n = pname j k
          · subst hn
            rw [h1]
            unfold value
            rw [hs]; rfl
          · rw [h2 n hn, hs]
        have ih := declareKeys_spec o j ks s1
        constructor
        · rintro ⟨x, hx, hr⟩
          refine ih.1 ⟨x, ?_, by rw [hv]; exact hr⟩
          rcases List.mem_cons.mp hx with rfl | hx
          · exact absurd hk hr
          · exact hx
        · intro hr
          obtain ⟨s2, e2, a, b, c⟩ := ih.2 (fun x hx => by rw [hv]; exact hr x (by simp [hx]))
          refine ⟨s2, e2, fun x hx => ?_, fun n v h => b n v (hm n v h), fun j' k' => by rw [c, hv]⟩
          rcases List.mem_cons.mp hx with rfl | hx
          · exact b _ _ h1
          · rw [a x hx, hv]
      · rw [(autoDeclare_spec o s j k).1 hk]
        exact ⟨fun _ => rfl, fun h => absurd (h k (by simp)) hk⟩

theorem mem_allKeys (k : AKey) : k ∈ allKeys := by
  rcases k with (k | f) | (_ | k)
  · cases k <;> decide
  · cases f <;> decide
  · decide
  · cases k <;> decide

/-- The limits of a joint after `init`, by the values of its parameters: each limit is on exactly if its flag is true, its
numbers are the parameters if it is on and NaN otherwise; `angle_wraparound` is taken if there are no position limits. -/
structure Started (v : AKey → Val) (l : L) : Prop where
  flag : ∀ f ≠ .wrap, v (.hard (.flag f)) = .bool (l.flag f)
  num : ∀ f ≠ .wrap, l.flag f = true → ∀ k ∈ numsOf f, v (.hard (.num k)) = .dbl (l.num k)
  nan : ∀ f ≠ .wrap, l.flag f = false → ∀ k ∈ numsOf f, l.num k = .nan
  wrap : l.flag .pos = false → v (.hard (.flag .wrap)) = .bool (l.flag .wrap)
  noWrap : l.flag .pos = true → l.flag .wrap = false

theorem init_one (s : Store) (j : String) (v : AKey → Val) (hv : ∀ k, s (pname j k) = some (v k)) (hr : ∀ k : AKey, k.Right (v k)) :
    ∃ l, getHard s j noLimits = .found l ∧ Started v l := by
  have hs : Typed s j := by
    intro k w hw
    rw [hv k] at hw
    cases hw
    exact hr k
  obtain ⟨l, e, ht, hw⟩ := (C75_read s j hs noLimits).2 ⟨.flag .pos, by rw [hv]; simp⟩
  have hfv : ∀ f, ∃ b, v (.hard (.flag f)) = .bool b := fun f => hr (.hard (.flag f))
  have hfull : ∀ f b, v (.hard (.flag f)) = .bool b → (Full s j f ↔ b = true) := by
    intro f b hb
    unfold Full
    have h1 : s (pflag j f) = some (.bool b) := by rw [← hb]; exact hv _
    have h2 : ∀ k, s (pnum j k) ≠ none := fun k => by rw [show s (pnum j k) = some (v (.hard (.num k))) from hv _]; simp
    simp [h1, h2]
  have hne : ∀ f, s (pflag j f) ≠ none := fun f => by rw [show s (pflag j f) = some (v (.hard (.flag f))) from hv _]; simp
  have hflag : ∀ f ≠ .wrap, v (.hard (.flag f)) = .bool (l.flag f) := by
    intro f hf
    obtain ⟨b, hb⟩ := hfv f
    rw [hb]
    cases b with
    | true => rw [((ht f hf).on ((hfull f _ hb).mpr rfl)).1]
    | false => rw [((ht f hf).off (hne f) (fun a => by cases (hfull f _ hb).mp a)).1]
  refine ⟨l, e, hflag, ?_, ?_, ?_, ?_⟩
  · intro f hf hl k hk
    have hb := hflag f hf
    rw [hl] at hb
    have := ((ht f hf).on ((hfull f _ hb).mpr rfl)).2 k hk
    rw [show s (pnum j k) = some (v (.hard (.num k))) from hv _] at this
    injection this
  · intro f hf hl k hk
    have hb := hflag f hf
    rw [hl] at hb
    exact ((ht f hf).off (hne f) (fun a => by cases (hfull f _ hb).mp a)).2 k hk
  · intro hl
    have hb := hflag .pos (by decide)
    rw [hl] at hb
    obtain ⟨b, hwb⟩ := hfv .wrap
    rw [hw.taken (hne .pos) (fun a => by cases (hfull .pos _ hb).mp a) b (by rw [← hwb]; exact hv _)]
    exact hwb
  · intro hl
    have hb := hflag .pos (by decide)
    rw [hl] at hb
    exact hw.kept (.inr (.inl ((hfull .pos _ hb).mpr rfl)))

/-- `init` of a limiter from parameters, for all joints, declared parameters and overrides (also with repeated names): it fails
exactly if some parameter of some joint has a wrong type. Otherwise all parameters are declared with the values they had, their
overrides or their defaults, no declared value is changed, and the limits of every joint are those these values describe. -/
theorem C75_init (o : Store) : ∀ (js : List String) (s : Store),
    (initLimits o js s = none ↔ ∃ j ∈ js, ∃ k : AKey, ¬ k.Right (value s o j k)) ∧
    ∀ s' ls, initLimits o js s = some (s', ls) →
      (∀ j ∈ js, ∀ k, s' (pname j k) = some (value s o j k)) ∧ (∀ n v, s n = some v → s' n = some v) ∧
      List.Forall₂ (fun j l => Started (value s o j) l) js ls
  | [], s => by
      refine ⟨by simp [initLimits], ?_⟩
      intro s' ls h
      simp only [initLimits, Option.some.injEq, Prod.mk.injEq] at h
      rw [← h.1, ← h.2]
      exact ⟨by simp, fun _ _ h => h, .nil⟩
  | j :: js, s => by
      unfold initLimits
      have hd := declareKeys_spec o j allKeys s
      by_cases hb : ∃ k : AKey, ¬ k.Right (value s o j k)
      · obtain ⟨k, hk⟩ := hb
        rw [show declare o j s = none from hd.1 ⟨k, mem_allKeys k, hk⟩]
        exact ⟨⟨fun _ => ⟨j, by simp, k, hk⟩, fun _ => rfl⟩, fun _ _ h => by cases h⟩
      · push Not at hb
        obtain ⟨s1, e, h1, h2, h3⟩ := hd.2 (fun k _ => hb k)
        obtain ⟨l, el, hl⟩ := init_one s1 j (value s o j) (fun k => h1 k (mem_allKeys k)) hb
        rw [show declare o j s = some s1 from e]
        dsimp only [Option.bind]
        rw [el]
        dsimp only
        have ih := C75_init o js s1
        simp only [h3] at ih
        constructor
        · rw [Option.map_eq_none_iff, ih.1]
          constructor
          · rintro ⟨x, hx, h⟩
            exact ⟨x, by simp [hx], h⟩
          · rintro ⟨x, hx, k, hk⟩
            rcases List.mem_cons.mp hx with rfl | hx
            · exact absurd (hb k) hk
            · exact ⟨x, hx, k, hk⟩
        · intro s' ls h
          rw [Option.map_eq_some_iff] at h
          obtain ⟨⟨s2, ls2⟩, hr, he⟩ := h
          simp only [Prod.mk.injEq] at he
          obtain ⟨a, b, c⟩ := ih.2 s2 ls2 hr
          rw [← he.1, ← he.2]
          have hc : List.Forall₂ (fun j l => Started (value s o j) l) js ls2 := by
            have : (fun j l => Started (value s1 o j) l) = (fun j l => Started (value s o j) l) := by
              funext j' l'
              rw [show value s1 o j' = value s o j' from funext (h3 j')]
            rw [← this]; exact c
          refine ⟨fun x hx k => ?_, fun n v h => b n v (h2 n v h), .cons hl hc⟩
          rcases List.mem_cons.mp hx with rfl | hx
          · exact b _ _ (h1 k (mem_allKeys k))
          · exact a x hx k

/-- The states the run-time theorems (C51) start from are the ones `init` makes: `Started` determines the limits. -/
theorem C75_started (v : AKey → Val) (l : L) (num : Num → Dbl) (flag : Flag → Bool) (hn : ∀ k, v (.hard (.num k)) = .dbl (num k))
    (hf : ∀ f, v (.hard (.flag f)) = .bool (flag f)) (h : Started v l) : l = fromParams num flag := by
  have hflag : ∀ f ≠ .wrap, l.flag f = flag f := by
    intro f hne
    have := h.flag f hne
    rw [hf f] at this
    injection this with this
    exact this.symm
  have hnum : ∀ f ≠ .wrap, ∀ k ∈ numsOf f, l.num k = if flag f then num k else .nan := by
    intro f hne k hk
    by_cases hb : flag f = true
    · rw [if_pos hb]
      have := h.num f hne (by rw [hflag f hne, hb]) k hk
      rw [hn k] at this
      injection this with this
      exact this.symm
    · rw [if_neg hb]
      exact h.nan f hne (by rw [hflag f hne]; simpa using hb) k hk
  have e1 : l.num = (fromParams num flag).num := by
    funext k
    cases k
    · exact hnum .pos (by decide) _ (by decide)
    · exact hnum .pos (by decide) _ (by decide)
    · exact hnum .vel (by decide) _ (by decide)
    · exact hnum .acc (by decide) _ (by decide)
    · exact hnum .dec (by decide) _ (by decide)
    · exact hnum .jerk (by decide) _ (by decide)
    · exact hnum .eff (by decide) _ (by decide)
  have e2 : l.flag = (fromParams num flag).flag := by
    funext f
    by_cases hw : f = .wrap
    · subst hw
      show l.flag .wrap = (!flag .pos && flag .wrap)
      have hp := hflag .pos (by decide)
      cases hb : flag .pos with
      | true => rw [hb] at hp; simp [h.noWrap hp]
      | false =>
        rw [hb] at hp
        have := h.wrap hp
        rw [hf] at this
        injection this with this
        simp [← this]
    · rw [hflag f hw]
      cases f <;> first | rfl | exact absurd rfl hw
  cases l
  simp only at e1 e2
  subst e1 e2
  rfl

/-- The limits of the limiters. -/
def L.toSat (l : L) : Lim.Limits :=
  { minPos := l.num .minPos, maxPos := l.num .maxPos, maxVel := l.num .maxVel, maxAcc := l.num .maxAcc, maxDec := l.num .maxDec,
    maxJerk := l.num .maxJerk, maxEff := l.num .maxEff, hasPos := l.flag .pos, hasVel := l.flag .vel, hasAcc := l.flag .acc,
    hasDec := l.flag .dec, hasJerk := l.flag .jerk, hasEff := l.flag .eff }

/-- Wrong: `has_velocity_limits: true` without `max_velocity` is accepted by `init` as a limit that is on and is NaN (a setting at run
time with the same effect is refused, C51), and such a limit never limits a velocity. -/
theorem C75_init_nan (j : String) :
    let s : Store := jointTable j [(.hard (.flag .vel), .bool true)]
    ∃ s' l, initLimits (fun _ => none) [j] s = some (s', [l]) ∧ l.flag .vel = true ∧ l.num .maxVel = .nan ∧
      ∀ hp dt (x : Sat.Joint), x.l = l.toSat → (Sat.velStage hp dt x).limited = x.limited ∧ (Sat.velStage hp dt x).p = x.p ∧
        (Dbl.isNan x.v = false → Sat.isTiny x.v = false → (Sat.velStage hp dt x).v = x.v) := by
  intro s
  have hn : ∀ k k', decide (pname j k = pname j k') = decide (k = k') := by
    intro k k'
    exact decide_eq_decide.mpr (by rw [C75_names]; simp)
  have hv : ∀ k, value s (fun _ => none) j k = if k = .hard (.flag .vel) then .bool true else k.default := by
    intro k
    by_cases hk : .hard (.flag .vel) = k
    · subst hk; simp [value, s, jointTable, tableOf]
    · have hk' : ¬ k = .hard (.flag .vel) := fun a => hk a.symm
      simp [value, s, jointTable, tableOf, hn, hk, hk']
  have hr : ∀ k : AKey, k.Right (value s (fun _ => none) j k) := by
    intro k
    rw [hv]
    split
    · rename_i h; subst h; exact ⟨_, rfl⟩
    · exact (right_iff k _).mp (by rcases k with (k | f) | (_ | k) <;> rfl)
  cases hi : initLimits (fun _ => none) [j] s with
  | none =>
    obtain ⟨x, hx, k, hk⟩ := (C75_init _ _ _).1.mp hi
    simp only [List.mem_singleton] at hx
    subst hx
    exact absurd (hr k) hk
  | some r =>
    obtain ⟨s', ls⟩ := r
    obtain ⟨-, -, hf⟩ := (C75_init _ _ _).2 s' ls hi
    obtain ⟨l, ls', hl, hls, rfl⟩ := List.forall₂_cons_left_iff.mp hf
    rw [List.forall₂_nil_left_iff] at hls
    subst hls
    have h1 : l.flag .vel = true := by
      have := hl.flag .vel (by decide)
      rw [hv] at this
      simpa using this.symm
    have h2 : l.num .maxVel = .nan := by
      have := hl.num .vel (by decide) h1 .maxVel (by decide)
      rw [hv] at this
      simpa [AKey.default] using this.symm
    refine ⟨s', l, rfl, h1, h2, fun hp dt x hx => ?_⟩
    have h3 : x.l.maxVel = .nan := by rw [hx]; exact h2
    have h4 : x.l.hasVel = true := by rw [hx]; exact h1
    have h5 : ∀ v, Dbl.lt .nan v = false := fun v => rfl
    simp only [Sat.velStage, h3, h4, h5, if_true, Bool.false_eq_true, if_false]
    exact ⟨trivial, trivial, fun a b => by simp [a, b]⟩

/-- Wrong, for the reader of a YAML file: `max_velocity: 2` (an integer) for any of the joints makes `init` fail. -/
theorem C75_init_integer (o s : Store) (js : List String) (j : String) (hj : j ∈ js) (k : AKey) (hs : s (pname j k) = none)
    (ho : o (pname j k) = some .other) : initLimits o js s = none := by
  refine (C75_init o js s).1.mpr ⟨j, hj, k, ?_⟩
  unfold value
  rw [hs, ho]
  rcases k with (k | f) | (_ | k) <;> rintro ⟨_, h⟩ <;> cases h

/-- Two joints, the limits of one from overrides and of the other partly declared before: initialised as given. An inverted range is
accepted, too. -/
example :
    let o : Store := tableOf [(pnum "a" .maxVel, .dbl 2), (pflag "a" .vel, .bool true), (pnum "a" .maxEff, .dbl 5),
      (pflag "b" .pos, .bool true), (pnum "b" .minPos, .dbl 3)]
    let s : Store := tableOf [(pnum "b" .maxPos, .dbl 1), (pflag "b" .wrap, .bool true)]
    (initLimits o ["a", "b"] s).map (fun r => r.2.map fun l => ([.vel, .pos, .wrap].map l.flag, [.maxVel, .maxEff, .minPos, .maxPos].map l.num)) =
      some [([true, false, false], [2, .nan, .nan, .nan]), ([false, true, false], [.nan, .nan, 3, 1])] := by decide +kernel

end Verif.LimParam
