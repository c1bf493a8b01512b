import Verif.Sem.Spec
import Mathlib.Data.List.Nodup
import Mathlib.Tactic.Linarith
/-!
# Lemmas about semantic components
-/
namespace Verif.Sem

theorem hits_iff (type n : Name) (l : Loan) : hits type n l = true ↔ l.name = wanted type n := by
  unfold hits wanted
  by_cases h : type = []
  · simp [h, eq_comm]
  · simp only [ne_eq, h, not_false_eq_true, if_true, decide_eq_true_eq, if_false]
    constructor
    · rintro (⟨rfl, rfl⟩ | h)
      · rfl
      · exact h.symm
    · intro h; exact .inr h.symm

theorem inner_eq {α : Type} (p : α → Bool) (ifs : List α) : ∀ o, ifs.foldl (fun o l => if p l then o ++ [l] else o) o = o ++ ifs.filter p := by
  induction ifs with
  | nil => simp
  | cons a l ih =>
    intro o
    simp only [List.foldl_cons, ih]
    by_cases h : p a <;> simp [h]

theorem collect_eq {α : Type} (view : α → Loan) (ifs : List α) (type : Name) (names : List Name) : ∀ out,
    collect view ifs type names out = out ++ names.flatMap (fun n => ifs.filter (fun l => hits type n (view l))) := by
  unfold collect
  induction names with
  | nil => simp
  | cons n ns ih =>
    intro out
    simp only [List.foldl_cons, inner_eq, List.flatMap_cons]
    simp only [inner_eq] at ih
    rw [ih, List.append_assoc]

theorem filter_unique {α : Type} (view : α → Loan) (ifs : List α) (type n : Name) (hd : (ifs.map (fun a => (view a).name)).Nodup) :
    ((∀ a ∈ ifs, (view a).name ≠ wanted type n) ∧ ifs.filter (fun l => hits type n (view l)) = []) ∨
    ∃ a ∈ ifs, (view a).name = wanted type n ∧ ifs.filter (fun l => hits type n (view l)) = [a] := by
  induction ifs with
  | nil => left; simp
  | cons a l ih =>
    simp only [List.map_cons, List.nodup_cons] at hd
    by_cases h : (view a).name = wanted type n
    · right
      refine ⟨a, List.mem_cons_self .., h, ?_⟩
      have hno : l.filter (fun l => hits type n (view l)) = [] := by
        rw [List.filter_eq_nil_iff]
        intro b hb hh
        rw [hits_iff] at hh
        exact hd.1 (List.mem_map.2 ⟨b, hb, by rw [hh, h]⟩)
      rw [List.filter_cons_of_pos (by rw [hits_iff]; exact h), hno]
    · have hf : (a :: l).filter (fun l => hits type n (view l)) = l.filter (fun l => hits type n (view l)) := by
        rw [List.filter_cons_of_neg (by rw [hits_iff]; exact h)]
      rw [hf]
      rcases ih hd.2 with ⟨h1, h2⟩ | ⟨b, hb, h1, h2⟩
      · left
        refine ⟨?_, h2⟩
        intro c hc
        rcases List.mem_cons.1 hc with rfl | hc
        · exact h
        · exact h1 c hc
      · exact .inr ⟨b, List.mem_cons_of_mem _ hb, h1, h2⟩

theorem flat_length {α : Type} (view : α → Loan) (ifs : List α) (type : Name) (hd : (ifs.map (fun a => (view a).name)).Nodup) (names : List Name) :
    (names.flatMap (fun n => ifs.filter (fun l => hits type n (view l)))).length ≤ names.length ∧
    (names.length = (names.flatMap (fun n => ifs.filter (fun l => hits type n (view l)))).length ↔
      ∀ n ∈ names, ∃ a ∈ ifs, (view a).name = wanted type n) := by
  induction names with
  | nil => simp
  | cons n ns ih =>
    simp only [List.flatMap_cons, List.length_append, List.length_cons, List.forall_mem_cons]
    rcases filter_unique view ifs type n hd with ⟨h1, h2⟩ | ⟨a, ha, h1, h2⟩
    · rw [h2]
      refine ⟨by simp only [List.length_nil, List.length_singleton]; omega, ?_⟩
      constructor
      · intro h; simp only [List.length_nil] at h; omega
      · rintro ⟨⟨a, ha, h⟩, -⟩; exact absurd h (h1 a ha)
    · rw [h2]
      refine ⟨by simp only [List.length_nil, List.length_singleton]; omega, ?_⟩
      rw [← ih.2]
      constructor
      · intro h; refine ⟨⟨a, ha, h1⟩, ?_⟩; simp only [List.length_singleton] at h; omega
      · rintro ⟨-, h⟩; simp only [List.length_singleton]; omega

theorem flat_names {α : Type} (view : α → Loan) (ifs : List α) (type : Name) (hd : (ifs.map (fun a => (view a).name)).Nodup) (names : List Name)
    (hall : ∀ n ∈ names, ∃ a ∈ ifs, (view a).name = wanted type n) :
    (names.flatMap (fun n => ifs.filter (fun l => hits type n (view l)))).map (fun a => (view a).name) = names.map (wanted type) := by
  induction names with
  | nil => simp
  | cons n ns ih =>
    simp only [List.forall_mem_cons] at hall
    rw [List.flatMap_cons, List.map_append, ih hall.2]
    rcases filter_unique view ifs type n hd with ⟨h1, h2⟩ | ⟨a, ha, h1, h2⟩
    · obtain ⟨a, ha, h⟩ := hall.1; exact absurd h (h1 a ha)
    · rw [h2]; simp [h1]

/-! ## Sensors -/

/-- The sensor refers to its interfaces, in the present vector. -/
def Bound (s : Sys) : Prop :=
  s.sensor.refs.map (fun r => r.1.name) = s.sensor.names ∧ (∀ r ∈ s.sensor.refs, r.2 = s.gen) ∧ s.sensor.data.length = s.sensor.slots.length

/-- The values after an update. -/
def updated (f : Name → Option Dbl) (slots : List (Option Name)) (data : List Dbl) : List Dbl :=
  List.zipWith (fun o d => match o with | none => d | some n => (f n).getD d) slots data

theorem update_bound (gen : Nat) (f : Name → Option Dbl) : ∀ (slots : List (Option Name)) (data : List Dbl) (refs : List Ref),
    refs.map (fun r => r.1.name) = slots.filterMap id → (∀ r ∈ refs, r.2 = gen) →
    update gen f slots data refs = some (updated f slots data)
  | [], _, _, _, _ => by simp [update, updated]
  | _ :: _, [], _, _, _ => by simp [update, updated]
  | none :: ss, d :: ds, rs, h1, h2 => by
    have ih := update_bound gen f ss ds rs (by simpa using h1) h2
    simp only [update, ih, Option.map_some]
    rfl
  | some n :: ss, d :: ds, [], h1, _ => by simp at h1
  | some n :: ss, d :: ds, r :: rs, h1, h2 => by
    simp only [List.map_cons, List.filterMap_cons, id, List.cons.injEq] at h1
    have ih := update_bound gen f ss ds rs h1.2 (fun r hr => h2 r (List.mem_cons_of_mem _ hr))
    simp only [update, h2 r (List.mem_cons_self ..), ne_eq, not_true_eq_false, if_false, ih, Option.map_some, h1.1]
    rfl

theorem updated_length (f : Name → Option Dbl) (slots : List (Option Name)) (data : List Dbl) (h : data.length = slots.length) :
    (updated f slots data).length = slots.length := by simp [updated, h]

theorem step_read {s : Sys} (h : Bound s) (f : Name → Option Dbl) :
    s.step (.read f) = ({ s with sensor := { s.sensor with data := updated f s.sensor.slots s.sensor.data } },
      .values (updated f s.sensor.slots s.sensor.data)) := by
  simp only [Sys.step, update_bound s.gen f _ _ _ h.1 h.2.1]

theorem bound_read {s : Sys} (h : Bound s) (f : Name → Option Dbl) : Bound (s.step (.read f)).1 := by
  rw [step_read h]
  exact ⟨h.1, h.2.1, updated_length f _ _ h.2.2⟩

/-- All values after some updates. -/
def updates (slots : List (Option Name)) (data : List Dbl) (hist : List (Name → Option Dbl)) : List Dbl :=
  hist.foldl (fun d f => updated f slots d) data

theorem run_append (s : Sys) (a b : List Op) : s.run (a ++ b) = (s.run a).run b := by
  induction a generalizing s with
  | nil => rfl
  | cons o os ih => exact ih _

theorem run_reads (fs : List (Name → Option Dbl)) : ∀ s : Sys, Bound s →
    s.run (fs.map .read) = { s with sensor := { s.sensor with data := updates s.sensor.slots s.sensor.data fs } } ∧ Bound (s.run (fs.map .read)) := by
  induction fs with
  | nil => intro s h; exact ⟨rfl, h⟩
  | cons f fs ih =>
    intro s h
    obtain ⟨h1, h2⟩ := ih _ (bound_read h f)
    refine ⟨?_, h2⟩
    show ((s.step (.read f)).1).run (fs.map .read) = _
    rw [h1, step_read h]
    rfl

theorem assign_bound {s : Sys} (hrefs : s.sensor.refs = []) (hlen : s.sensor.data.length = s.sensor.slots.length)
    (hcap : s.sensor.names.length ≤ s.sensor.cap) {ifs : List Loan} (hd : (ifs.map Loan.name).Nodup) :
    ∃ refs b, s.step (.assign ifs) = ({ s with sensor := { s.sensor with refs := refs } }, .assigned b) ∧
      (b = true ↔ ∀ n ∈ s.sensor.names, ∃ l ∈ ifs, l.name = n) ∧
      (b = true → Bound { s with sensor := { s.sensor with refs := refs } }) := by
  have hd' : ((ifs.map (·, s.gen)).map (fun a : Ref => a.1.name)).Nodup := by
    rw [List.map_map]; exact hd
  have hfl := flat_length (Prod.fst : Ref → Loan) (ifs.map (·, s.gen)) [] hd' s.sensor.names
  have hcol : collect Prod.fst (ifs.map (·, s.gen)) [] s.sensor.names s.sensor.refs =
      s.sensor.names.flatMap (fun n => (ifs.map (·, s.gen)).filter (fun l : Ref => hits [] n l.1)) := by
    rw [collect_eq, hrefs, List.nil_append]
  have hiff : (∀ n ∈ s.sensor.names, ∃ a ∈ ifs.map (·, s.gen), (Prod.fst a).name = wanted [] n) ↔ ∀ n ∈ s.sensor.names, ∃ l ∈ ifs, l.name = n := by
    constructor
    · intro h n hn
      obtain ⟨a, ha, h⟩ := h n hn
      obtain ⟨l, hl, rfl⟩ := List.mem_map.1 ha
      exact ⟨l, hl, by simpa [wanted] using h⟩
    · intro h n hn
      obtain ⟨l, hl, h⟩ := h n hn
      exact ⟨(l, s.gen), List.mem_map.2 ⟨l, hl, rfl⟩, by simpa [wanted] using h⟩
  refine ⟨collect Prod.fst (ifs.map (·, s.gen)) [] s.sensor.names s.sensor.refs, decide (s.sensor.names.length = (collect Prod.fst (ifs.map (·, s.gen)) [] s.sensor.names s.sensor.refs).length), ?_, ?_, ?_⟩
  · simp only [Sys.step, Sensor.assign, ordered, if_neg (not_lt.2 hcap), Option.map_some]
  · rw [decide_eq_true_iff, hcol, hfl.2, hiff]
  · intro hb
    rw [decide_eq_true_iff, hcol, hfl.2] at hb
    refine ⟨?_, ?_, hlen⟩
    · dsimp only
      rw [hcol]
      have := flat_names (Prod.fst : Ref → Loan) (ifs.map (·, s.gen)) [] hd' s.sensor.names hb
      have hw : wanted [] = id := by funext n; simp [wanted]
      rw [this, hw, List.map_id]
      rfl
    · dsimp only
      rw [hcol]
      intro r hr
      obtain ⟨n, -, hr⟩ := List.mem_flatMap.1 hr
      obtain ⟨l, -, rfl⟩ := List.mem_map.1 (List.mem_filter.1 hr).1
      rfl

/-- Between the sessions: nothing referred to. -/
structure Idle (s0 s : Sys) (hist : List (Name → Option Dbl)) : Prop where
  refs : s.sensor.refs = []
  slots : s.sensor.slots = s0.sensor.slots
  cap : s.sensor.cap = s0.sensor.cap
  data : s.sensor.data = updates s0.sensor.slots s0.sensor.data hist

theorem updates_length (slots : List (Option Name)) (hist : List (Name → Option Dbl)) : ∀ data : List Dbl, data.length = slots.length →
    (updates slots data hist).length = slots.length := by
  induction hist with
  | nil => intro d h; exact h
  | cons f fs ih => intro d h; exact ih _ (updated_length f slots d h)

theorem updates_append (slots : List (Option Name)) (data : List Dbl) (a b : List (Name → Option Dbl)) :
    updates slots data (a ++ b) = updates slots (updates slots data a) b := by simp [updates, List.foldl_append]

/-- What is set up when a sensor is made. -/
structure Fresh (s : Sys) : Prop where
  refs : s.sensor.refs = []
  len : s.sensor.data.length = s.sensor.slots.length
  cap : s.sensor.names.length ≤ s.sensor.cap

theorem idle_assign {s0 s : Sys} (h0 : Fresh s0) {hist : List (Name → Option Dbl)} (h : Idle s0 s hist) {ifs : List Loan}
    (hp : Provides s0.sensor.names ifs) :
    (s.step (.assign ifs)).2 = .assigned true ∧ Bound (s.step (.assign ifs)).1 ∧
    (s.step (.assign ifs)).1.sensor.slots = s0.sensor.slots ∧ (s.step (.assign ifs)).1.sensor.cap = s0.sensor.cap ∧
    (s.step (.assign ifs)).1.sensor.data = updates s0.sensor.slots s0.sensor.data hist := by
  have hn : s.sensor.names = s0.sensor.names := by unfold Sensor.names; rw [h.slots]
  obtain ⟨refs, b, he, hb, hB⟩ := assign_bound (s := s) h.refs
    (by rw [h.data, h.slots]; exact updates_length _ _ _ h0.len) (by rw [hn, h.cap]; exact h0.cap) hp.1
  have hbt : b = true := hb.2 (by rw [hn]; exact hp.2)
  subst hbt
  rw [he]
  exact ⟨rfl, hB rfl, h.slots, h.cap, h.data⟩

theorem idle_reads {s0 s : Sys} (h0 : Fresh s0) {hist : List (Name → Option Dbl)} (h : Idle s0 s hist) {ifs : List Loan}
    (hp : Provides s0.sensor.names ifs) (fs : List (Name → Option Dbl)) :
    Bound (s.run (.assign ifs :: fs.map .read)) ∧
    (s.run (.assign ifs :: fs.map .read)).sensor.slots = s0.sensor.slots ∧
    (s.run (.assign ifs :: fs.map .read)).sensor.cap = s0.sensor.cap ∧
    (s.run (.assign ifs :: fs.map .read)).sensor.data = updates s0.sensor.slots s0.sensor.data (hist ++ fs) := by
  obtain ⟨-, hB, h1, h2, h3⟩ := idle_assign h0 h hp
  show Bound ((s.step (.assign ifs)).1.run (fs.map .read)) ∧ ((s.step (.assign ifs)).1.run (fs.map .read)).sensor.slots = _ ∧
    ((s.step (.assign ifs)).1.run (fs.map .read)).sensor.cap = _ ∧ ((s.step (.assign ifs)).1.run (fs.map .read)).sensor.data = _
  obtain ⟨e, hB2⟩ := run_reads fs _ hB
  refine ⟨hB2, ?_, ?_, ?_⟩
  · rw [e]; exact h1
  · rw [e]; exact h2
  · rw [e]
    show updates _ _ _ = _
    rw [h1, h3, updates_append]

theorem idle_session {s0 s : Sys} (h0 : Fresh s0) {hist : List (Name → Option Dbl)} (h : Idle s0 s hist) (x : Session)
    (hp : Provides s0.sensor.names x.ifs) : Idle s0 (s.run x.ops) (hist ++ x.reads) := by
  obtain ⟨-, h1, h2, h3⟩ := idle_reads h0 h hp x.reads
  have e : x.ops = (.assign x.ifs :: x.reads.map .read) ++ [.release, .clear] := rfl
  rw [e, run_append]
  exact ⟨rfl, h1, h2, h3⟩

theorem idle_sessions {s0 : Sys} (h0 : Fresh s0) (l : List Session) (hp : ∀ x ∈ l, Provides s0.sensor.names x.ifs) :
    ∀ s hist, Idle s0 s hist → Idle s0 (s.run (l.flatMap Session.ops)) (hist ++ answers l) := by
  induction l with
  | nil => intro s hist h; simpa [Sys.run, answers] using h
  | cons x l ih =>
    intro s hist h
    rw [List.flatMap_cons, run_append]
    have := ih (fun y hy => hp y (List.mem_cons_of_mem _ hy)) _ _ (idle_session h0 h x (hp x (List.mem_cons_self ..)))
    simpa [answers, List.append_assoc] using this

theorem updates_get (slots : List (Option Name)) (hist : List (Name → Option Dbl)) : ∀ (data : List Dbl) (i : Nat) (d : Dbl) (o : Option Name),
    slots[i]? = some o → data[i]? = some d →
    (o = none → (updates slots data hist)[i]? = some d) ∧
    ∀ n, o = some n → (updates slots data hist)[i]? = some (hist.foldl (fun d f => (f n).getD d) d) := by
  induction hist with
  | nil => intro data i d o _ hd; exact ⟨fun _ => hd, fun _ _ => hd⟩
  | cons f fs ih =>
    intro data i d o ho hd
    have hu : (updated f slots data)[i]? = some (match o with | none => d | some n => (f n).getD d) := by
      cases o <;> simp [updated, List.getElem?_zipWith, ho, hd]
    obtain ⟨h1, h2⟩ := ih (updated f slots data) i _ o ho hu
    constructor
    · rintro rfl
      exact h1 rfl
    · rintro n rfl
      exact h2 n rfl

theorem lastAnswer_foldl (n : Name) (hist : List (Name → Option Dbl)) : ∀ d, LastAnswer d n hist (hist.foldl (fun d f => (f n).getD d) d) := by
  induction hist with
  | nil => intro d; exact .inr ⟨by simp, rfl⟩
  | cons f fs ih =>
    intro d
    rcases ih ((f n).getD d) with ⟨a, g, b, e, hg, hb⟩ | ⟨h1, h2⟩
    · exact .inl ⟨f :: a, g, b, by rw [e]; rfl, hg, hb⟩
    · rw [List.foldl_cons, h2]
      cases hf : f n with
      | none => exact .inr ⟨by simpa [hf] using h1, rfl⟩
      | some v => exact .inl ⟨[], f, fs, rfl, hf, h1⟩

end Verif.Sem
