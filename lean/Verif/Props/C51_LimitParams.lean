import Verif.Num.LimitParams
import Mathlib.Data.List.Induction
import Mathlib.Data.List.Nodup
/-!
# C51: limits follow the parameters

Full statement (`C51_follow`): whatever parameters are set, one by one or several at once, and however often limits are enforced in
between, the limits used by the next `enforce` are those the parameters describe.

This is false of the code in four ways, each shown below: of several numbers set at once only the last one is looked at to see
whether anything changed (`C51_batch_ignored`); switching position limits off is not recognised as a change
(`C51_cannot_disable`); of two settings between two calls of `enforce` the first is lost (`C51_update_lost`); a number that was given
at start-up without its flag is forgotten, so that the flag cannot be set later (`C51_number_forgotten`). Besides, a position
range can be turned inside out (`C51_range_inverted`).

Proved: settings of one parameter at a time, each followed by an `enforce`, have exactly the documented effect
(`C51_one_by_one_partial`); and in every history the limits in force are the result of a subsequence of the settings, each of which
was applied completely (`C51_subsequence`).
-/
namespace Verif.LimParam
open Verif (Dbl)

/-- When a flag may be set: for `angle_wraparound` if there are no position limits, for the others if the numbers they need are
there and, for positions, form a range. -/
def Grounds (l : L) : Flag → Prop
  | .pos => l.num .minPos ≠ .nan ∧ l.num .maxPos ≠ .nan ∧ ¬ Dbl.le (l.num .maxPos) (l.num .minPos) = true
  | .vel => l.num .maxVel ≠ .nan
  | .acc => l.num .maxAcc ≠ .nan
  | .dec => l.num .maxDec ≠ .nan
  | .jerk => l.num .maxJerk ≠ .nan
  | .eff => l.num .maxEff ≠ .nan
  | .wrap => l.flag .pos = false

instance (l : L) (f : Flag) : Decidable (Grounds l f) := by cases f <;> unfold Grounds <;> infer_instance

/-- What setting one parameter means for the limits of its joint: a number is taken over; a flag can always be cleared, and
set if there are `Grounds` for it; a value of the wrong type is ignored. -/
def Set1 (l : L) (k : Key) (v : Val) : L :=
  match k, v with
  | .num k, .dbl d => l.setNum k d
  | .flag f, .bool true => if Grounds l f then l.setFlag f true else l
  | .flag f, .bool false => l.setFlag f false
  | _, _ => l

/-- The same for all joints. -/
def SetAll (names : List Name) (p : Param) (ls : List L) : List L :=
  names.zipWith (fun j l => if p.joint = j then Set1 l p.key p.val else l) ls

theorem setNum_self (l : L) (k : Num) : l.setNum k (l.num k) = l := by
  unfold L.setNum
  congr 1
  funext x
  split
  · rename_i h; rw [h]
  · rfl

theorem isNan_iff (d : Dbl) : d.isNan = true ↔ d = .nan := by cases d <;> simp [Dbl.isNan]

theorem allowed_iff (l : L) (f : Flag) : allowed l f = true ↔ Grounds l f := by
  have hn : ∀ d : Dbl, (!d.isNan) = true ↔ d ≠ .nan := by
    intro d; rw [Bool.not_eq_true', ← Bool.not_eq_true, Ne, isNan_iff]
  cases f <;> simp only [allowed, Grounds, Bool.and_eq_true, hn, Bool.not_eq_true', Bool.not_eq_true, and_assoc]

/-- It is not the attempt to switch position limits off. -/
def NotDisabling (p : Param) : Prop := ¬ (p.key = .flag .pos ∧ p.val = .bool false)

instance (p : Param) : Decidable (NotDisabling p) := by unfold NotDisabling; infer_instance

/-- One joint, one parameter. -/
theorem check_one (j : Name) (p : Param) (l : L) (hp : NotDisabling p) :
    (p.joint ≠ j → check j [p] l = (l, false)) ∧
    (p.joint = j → ((check j [p] l).2 = true → (check j [p] l).1 = Set1 l p.key p.val) ∧
      ((check j [p] l).2 = false → Set1 l p.key p.val = l)) := by
  obtain ⟨pj, pk, pv⟩ := p
  constructor
  · intro h
    simp [check, numStep, flagStep, h]
  · intro h
    simp only at h
    subst h
    simp only [check, List.foldl_cons, List.foldl_nil, numStep, flagStep, if_true, Set1]
    cases pk with
    | num k =>
      cases pv with
      | dbl d =>
        refine ⟨fun _ => rfl, fun h => ?_⟩
        simp only [Sat.differ, Bool.or_eq_false_iff, bne_eq_false_iff_eq] at h
        rw [← h.2]; exact setNum_self l k
      | bool b => cases b <;> exact ⟨fun h => absurd (show false = true from h) (by decide), fun _ => rfl⟩
      | other => exact ⟨fun h => absurd (show false = true from h) (by decide), fun _ => rfl⟩
    | flag f =>
      cases pv with
      | dbl d => exact ⟨fun h => absurd (show false = true from h) (by decide), fun _ => rfl⟩
      | other => exact ⟨fun h => absurd (show false = true from h) (by decide), fun _ => rfl⟩
      | bool b =>
        cases b with
        | true =>
          dsimp only
          by_cases g : allowed l f = true
          · rw [if_pos g]
            exact ⟨fun _ => (if_pos ((allowed_iff l f).1 g)).symm, fun h => absurd (show true = false from h) (by decide)⟩
          · rw [if_neg g]
            exact ⟨fun h => absurd (show false = true from h) (by decide), fun _ => if_neg (fun k => g ((allowed_iff l f).2 k))⟩
        | false =>
          dsimp only
          have : f ≠ .pos := fun e => hp ⟨by rw [e], rfl⟩
          rw [if_neg this]; exact ⟨fun _ => rfl, fun h => absurd (show true = false from h) (by decide)⟩

theorem zipWith_getElem? {α β γ : Type} (f : α → β → γ) (xs : List α) (ys : List β) (i : Nat) :
    (xs.zipWith f ys)[i]? = match xs[i]?, ys[i]? with | some a, some b => some (f a b) | _, _ => none := by
  rw [List.getElem?_zipWith]
  cases xs[i]? <;> cases ys[i]? <;> rfl

/-- One parameter is set and `enforce` is called. -/
theorem set_one (s : St) (hn : s.names.Nodup) (hl : s.names.length = s.cur.length) (hb : s.buf = s.cur) (p : Param)
    (hp : NotDisabling p) :
    (s.onSet [p]).onEnforce = { s with cur := SetAll s.names p s.cur, buf := SetAll s.names p s.cur } := by
  have key : (s.onSet [p]).buf = SetAll s.names p s.cur ∧ (s.onSet [p]).names = s.names := by
    unfold St.onSet
    extract_lets upd
    split
    · rename_i h
      refine ⟨?_, rfl⟩
      dsimp only
      simp only [List.any_eq_true] at h
      obtain ⟨r, hr, hr2⟩ := h
      obtain ⟨i, hi⟩ := List.mem_iff_getElem?.1 hr
      simp only [upd, zipWith_getElem?] at hi
      have hji : ∃ j, s.names[i]? = some j ∧ p.joint = j := by
        split at hi
        · rename_i j l hj hlj
          refine ⟨j, hj, ?_⟩
          by_contra hne
          injection hi with hi
          rw [(check_one j p l hp).1 hne] at hi
          rw [← hi] at hr2; exact absurd (show false = true from hr2) (by decide)
        · cases hi
      obtain ⟨j, hj, hpj⟩ := hji
      unfold SetAll
      apply List.ext_getElem?
      intro k
      simp only [upd, List.getElem?_map, zipWith_getElem?]
      rcases hk : s.names[k]? with _ | j'
      · rfl
      · rcases hk' : s.cur[k]? with _ | l
        · rfl
        · dsimp only [Option.map_some]
          congr 1
          by_cases g : p.joint = j'
          · rw [if_pos g]
            have hik : i = k := by
              have h1 := (List.getElem?_eq_some_iff.1 hj)
              have h2 := (List.getElem?_eq_some_iff.1 hk)
              obtain ⟨a1, b1⟩ := h1
              obtain ⟨a2, b2⟩ := h2
              exact (List.Nodup.getElem_inj_iff hn).1 (by rw [b1, b2, ← hpj, g])
            subst hik
            rw [hk, hk'] at hi
            injection hi with hi
            rw [← hi] at hr2
            exact ((check_one j' p l hp).2 g).1 hr2
          · rw [if_neg g, (check_one j' p l hp).1 g]
    · rename_i h
      refine ⟨?_, rfl⟩
      rw [hb]
      unfold SetAll
      apply List.ext_getElem?
      intro k
      rw [zipWith_getElem?]
      rcases hk' : s.cur[k]? with _ | l
      · split
        · rename_i h1 h2; cases h2
        · rfl
      · have hlt : k < s.names.length := by rw [hl]; exact (List.getElem?_eq_some_iff.1 hk').1
        rw [List.getElem?_eq_getElem hlt]
        dsimp only
        congr 1
        split
        · rename_i g
          have hm : check s.names[k] [p] l ∈ upd := by
            apply List.mem_of_getElem? (i := k)
            simp only [upd, zipWith_getElem?]
            rw [List.getElem?_eq_getElem hlt, hk']
          have : (check s.names[k] [p] l).2 = false := by
            simp only [List.any_eq_true, not_exists, not_and, Bool.not_eq_true] at h
            exact h _ hm
          exact (((check_one _ p l hp).2 g).2 this).symm
        · rfl
  unfold St.onEnforce
  obtain ⟨k1, k2⟩ := key
  generalize s.onSet [p] = t at *
  obtain ⟨a, b, c⟩ := t
  simp only at k1 k2
  subst k1; subst k2
  rfl

theorem setAll_length (names : List Name) (p : Param) (ls : List L) (h : names.length = ls.length) :
    (SetAll names p ls).length = ls.length := by
  unfold SetAll; rw [List.length_zipWith, h, Nat.min_self]

theorem run_enforces (s : St) (h : s.buf = s.cur) (n : Nat) : s.run (List.replicate n .enforce) = s := by
  induction n with
  | zero => rfl
  | succ n ih =>
    show (s.onEnforce).run _ = s
    have : s.onEnforce = s := by
      obtain ⟨a, b, c⟩ := s
      simp only at h; subst h; rfl
    rw [this]; exact ih

/-- One parameter at a time, with at least one `enforce` after each: `enforce` uses exactly the limits the parameters describe. -/
theorem C51_one_by_one_partial (joints : List (Name × L)) (hn : (joints.map (·.1)).Nodup) (hist : List (Param × Nat))
    (hp : ∀ x ∈ hist, NotDisabling x.1) :
    ((start joints).run (hist.flatMap fun x => .set [x.1] :: List.replicate (x.2 + 1) .enforce)).cur =
      hist.foldl (fun ls x => SetAll (joints.map (·.1)) x.1 ls) (joints.map (·.2)) := by
  have gen : ∀ (hist : List (Param × Nat)) (s : St), s.names.Nodup → s.names.length = s.cur.length → s.buf = s.cur →
      (∀ x ∈ hist, NotDisabling x.1) →
      (s.run (hist.flatMap fun x => .set [x.1] :: List.replicate (x.2 + 1) .enforce)).cur =
        hist.foldl (fun ls x => SetAll s.names x.1 ls) s.cur := by
    intro hist
    induction hist with
    | nil => intro s _ _ _ _; rfl
    | cons x t ih =>
      intro s h1 h2 h3 h4
      have hx := set_one s h1 h2 h3 x.1 (h4 x (by simp))
      rw [List.flatMap_cons, List.foldl_cons]
      unfold St.run
      rw [List.foldl_append, List.replicate_succ, List.foldl_cons, List.foldl_cons]
      have e : List.foldl St.step ((s.step (.set [x.1])).step .enforce) (List.replicate x.2 .enforce) =
          { s with cur := SetAll s.names x.1 s.cur, buf := SetAll s.names x.1 s.cur } := by
        show St.run ((s.onSet [x.1]).onEnforce) _ = _
        rw [hx]; exact run_enforces _ rfl _
      rw [e]
      exact ih { s with cur := SetAll s.names x.1 s.cur, buf := SetAll s.names x.1 s.cur } h1
        (by dsimp only; rw [setAll_length _ _ _ h2]; exact h2) rfl (fun y hy => h4 y (by simp [hy]))
  exact gen hist (start joints) hn (by simp [start]) rfl hp

/-- The parameter is one of the numbers. -/
def isNum (p : Param) : Bool := match p.key with | .num _ => true | .flag _ => false

/-- The numbers, then the flags of a setting. -/
def ordered (ps : List Param) : List Param :=
  ps.filter isNum ++
    ps.filter (fun p => !isNum p)

/-- One parameter of a whole setting: as `Set1`, but a flag that cannot be set is cleared. -/
def Put (l : L) (k : Key) (v : Val) : L :=
  match k, v with
  | .num k, .dbl d => l.setNum k d
  | .flag f, .bool true => l.setFlag f (decide (Grounds l f))
  | .flag f, .bool false => l.setFlag f false
  | _, _ => l

/-- The effect of a whole setting on all joints: for each joint its numbers in their order, then its flags in their order. -/
def Batch (names : List Name) (ls : List L) (ps : List Param) : List L :=
  names.zipWith (fun j l => ((ordered ps).filter (fun p => p.joint == j)).foldl (fun l p => Put l p.key p.val) l) ls

theorem num_fold (j : Name) (ps : List Param) (s : L × Bool) :
    (ps.foldl (numStep j) s).1 =
      ((ps.filter isNum).filter (fun p => p.joint == j)).foldl (fun l p => Put l p.key p.val) s.1 := by
  induction ps generalizing s with
  | nil => rfl
  | cons p t ih =>
    rw [List.foldl_cons, ih]
    obtain ⟨pj, pk, pv⟩ := p
    by_cases h : pj = j
    · subst h
      cases pk with
      | num k => cases pv <;> simp [isNum, numStep, Put]
      | flag f => cases pv <;> simp [isNum, numStep]
    · cases pk <;> simp [isNum, numStep, h]

theorem flag_fold (j : Name) (ps : List Param) (s : L × Bool) :
    (ps.foldl (flagStep j) s).1 =
      ((ps.filter fun p => !isNum p).filter (fun p => p.joint == j)).foldl (fun l p => Put l p.key p.val) s.1 := by
  induction ps generalizing s with
  | nil => rfl
  | cons p t ih =>
    rw [List.foldl_cons, ih]
    obtain ⟨pj, pk, pv⟩ := p
    by_cases h : pj = j
    · subst h
      cases pk with
      | num k => cases pv <;> simp [isNum, flagStep]
      | flag f =>
        cases pv with
        | dbl d => simp [isNum, flagStep, Put]
        | other => simp [isNum, flagStep, Put]
        | bool b =>
          cases b with
          | false => simp [isNum, flagStep, Put]
          | true =>
            by_cases g : allowed s.1 f = true
            · have := (allowed_iff s.1 f).1 g
              simp [isNum, flagStep, Put, g, this]
            · have : ¬ Grounds s.1 f := fun k => g ((allowed_iff s.1 f).2 k)
              simp [isNum, flagStep, Put, g, this]
    · cases pk <;> simp [isNum, flagStep, h]

theorem check_fst (j : Name) (ps : List Param) (l : L) :
    (check j ps l).1 = ((ordered ps).filter (fun p => p.joint == j)).foldl (fun l p => Put l p.key p.val) l := by
  unfold check ordered
  rw [flag_fold, num_fold, List.filter_append, List.foldl_append]

/-- The settings of a history. -/
def settings : List Op → List (List Param)
  | [] => []
  | .set ps :: t => ps :: settings t
  | .enforce :: t => settings t

theorem settings_snoc (ops : List Op) (op : Op) :
    settings (ops ++ [op]) = settings ops ++ (match op with | .set ps => [ps] | .enforce => []) := by
  induction ops with
  | nil => cases op <;> rfl
  | cons a t ih => cases a <;> simp [settings, ih]

/-- In every history the limits in force are the result of some of the settings, in their order and each applied completely. -/
theorem C51_subsequence (joints : List (Name × L)) (ops : List Op) :
    ∃ bs, List.Sublist bs (settings ops) ∧
      ((start joints).run ops).cur = bs.foldl (Batch (joints.map (·.1))) (joints.map (·.2)) := by
  have gen : ∀ ops : List Op, ((start joints).run ops).names = joints.map (·.1) ∧
      (∃ bs, List.Sublist bs (settings ops) ∧
        ((start joints).run ops).cur = bs.foldl (Batch (joints.map (·.1))) (joints.map (·.2))) ∧
      (∃ bs, List.Sublist bs (settings ops) ∧
        ((start joints).run ops).buf = bs.foldl (Batch (joints.map (·.1))) (joints.map (·.2))) := by
    intro ops
    induction ops using List.reverseRecOn with
    | nil => exact ⟨rfl, ⟨[], List.Sublist.refl _, rfl⟩, ⟨[], List.Sublist.refl _, rfl⟩⟩
    | append_singleton ops op ih =>
      obtain ⟨h0, ⟨b1, s1, e1⟩, ⟨b2, s2, e2⟩⟩ := ih
      rw [settings_snoc]
      have hr : (start joints).run (ops ++ [op]) = ((start joints).run ops).step op := by
        unfold St.run; rw [List.foldl_append]; rfl
      rw [hr]
      generalize (start joints).run ops = s at *
      cases op with
      | enforce =>
        simp only [List.append_nil]
        exact ⟨h0, ⟨b2, s2, e2⟩, ⟨b2, s2, e2⟩⟩
      | set ps =>
        show (s.onSet ps).names = _ ∧ (∃ bs, _ ∧ (s.onSet ps).cur = _) ∧ (∃ bs, _ ∧ (s.onSet ps).buf = _)
        unfold St.onSet
        extract_lets upd
        split
        · refine ⟨h0, ⟨b1, s1.trans (List.sublist_append_left _ _), e1⟩, b1 ++ [ps], s1.append (List.Sublist.refl _), ?_⟩
          rw [List.foldl_append, ← e1, ← h0]
          simp only [upd, List.foldl_cons, List.foldl_nil, Batch, List.map_zipWith, check_fst]
        · exact ⟨h0, ⟨b1, s1.trans (List.sublist_append_left _ _), e1⟩, ⟨b2, s2.trans (List.sublist_append_left _ _), e2⟩⟩
  exact (gen ops).2.1

/-! ### Concrete cases -/

/-- Joint 1: position range [-1, 1] and velocity limit 2, no other limits. -/
def joint1 : L := fromParams
  (fun | .minPos => .fin (-1) | .maxPos => 1 | .maxVel => 2 | .maxEff => 3 | _ => .nan)
  (fun | .pos => true | .vel => true | _ => false)

/-- Setting the velocity limit, then the effort number and flag, then (refused) the acceleration flag, has the documented effect. -/
example :
    let hist : List (Param × Nat) := [(⟨1, .num .maxVel, .dbl 5⟩, 0), (⟨1, .num .maxEff, .dbl 7⟩, 2), (⟨1, .flag .eff, .bool true⟩, 0),
      (⟨1, .flag .acc, .bool true⟩, 0), (⟨1, .flag .vel, .bool false⟩, 1)]
    (([(1, joint1)] : List (Name × L)).map (·.1)).Nodup ∧ (∀ x ∈ hist, NotDisabling x.1) ∧
    (hist.foldl (fun ls x => SetAll [1] x.1 ls) [joint1]).map (fun l => (l.num .maxVel, l.num .maxEff, l.flag .eff, l.flag .acc, l.flag .vel)) =
      [(5, 7, true, false, false)] := by decide +kernel

/-- Full statement. -/
def C51_follow : Prop :=
  ∀ (joints : List (Name × L)) (ops : List Op), (joints.map (·.1)).Nodup →
    ((start joints).run (ops ++ [.enforce])).cur =
      (settings ops).foldl (fun ls ps => (ordered ps).foldl (fun ls p => SetAll (joints.map (·.1)) p ls) ls) (joints.map (·.2))

/-- The velocity limit is lowered to 1 and, in the same setting, the effort number is set to what it is already: the new
velocity limit is ignored, for ever. -/
theorem C51_batch_ignored (n : Nat) :
    ((start [(1, joint1.setNum .maxEff 3)]).run (.set [⟨1, .num .maxVel, .dbl 1⟩, ⟨1, .num .maxEff, .dbl 3⟩] :: List.replicate n .enforce)).cur.map
      (fun l => l.num .maxVel) = [2] := by
  show ((St.run _ (List.replicate n .enforce)).cur).map _ = _
  have e : (start [(1, joint1.setNum .maxEff 3)]).step (.set [⟨1, .num .maxVel, .dbl 1⟩, ⟨1, .num .maxEff, .dbl 3⟩]) =
      start [(1, joint1.setNum .maxEff 3)] := by
    unfold St.step; dsimp only; unfold St.onSet
    extract_lets upd
    have : upd.any (·.2) = false := by decide +kernel
    rw [this]; rfl
  show ((St.run ((start [(1, joint1.setNum .maxEff 3)]).step _) (List.replicate n .enforce)).cur).map _ = _
  rw [e, run_enforces _ rfl]
  decide +kernel

/-- Position limits are switched off: nothing happens, for ever. -/
theorem C51_cannot_disable (n : Nat) :
    ((start [(1, joint1)]).run (.set [⟨1, .flag .pos, .bool false⟩] :: List.replicate n .enforce)).cur.map (fun l => l.flag .pos) =
      [true] := by
  have e : (start [(1, joint1)]).step (.set [⟨1, .flag .pos, .bool false⟩]) = start [(1, joint1)] := by
    unfold St.step; dsimp only; unfold St.onSet
    extract_lets upd
    have : upd.any (·.2) = false := by decide +kernel
    rw [this]; rfl
  show ((St.run ((start [(1, joint1)]).step _) (List.replicate n .enforce)).cur).map _ = _
  rw [e, run_enforces _ rfl]
  decide +kernel

/-- The velocity limit is lowered to 1 and, before the next `enforce`, the effort number is set: the velocity limit stays 2. -/
theorem C51_update_lost :
    ((start [(1, joint1)]).run [.set [⟨1, .num .maxVel, .dbl 1⟩], .set [⟨1, .num .maxEff, .dbl 7⟩], .enforce]).cur.map
      (fun l => (l.num .maxVel, l.num .maxEff)) = [(2, 7)] := by decide +kernel

/-- The parameters at start-up contain `max_effort: 3` with `has_effort_limits: false`. Setting the flag later is refused, as if there
was no number. -/
theorem C51_number_forgotten :
    ((start [(1, joint1)]).run [.set [⟨1, .flag .eff, .bool true⟩], .enforce]).cur.map (fun l => (l.flag .eff, l.num .maxEff)) =
      [(false, .nan)] := by decide +kernel

/-- With position limits in force, the lower limit can be set above the upper limit (`std::clamp` then is undefined). -/
theorem C51_range_inverted :
    ((start [(1, joint1)]).run [.set [⟨1, .num .minPos, .dbl 5⟩], .enforce]).cur.map
      (fun l => (l.flag .pos, l.num .minPos, l.num .maxPos)) = [(true, 5, 1)] := by decide +kernel

theorem C51_follow_false : ¬ C51_follow := by
  intro h
  have := h [(1, joint1)] [.set [⟨1, .num .maxVel, .dbl 1⟩], .set [⟨1, .num .maxEff, .dbl 7⟩]] (by decide)
  have := congrArg (List.map (fun l => (l.num .maxVel, l.num .maxEff))) this
  exact absurd this (by decide +kernel)

end Verif.LimParam
