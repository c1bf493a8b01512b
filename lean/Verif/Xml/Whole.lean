import Verif.Xml.Sound
/-!
# Transmissions, hardware and whole documents
-/
namespace Verif.Xml
open Verif.Text (Blanks Digits decimalValue Spelled trueWord falseWord ListText IntText SignText Out strip parseBool stod scanInt
  parseIntArray toLowerCase Re isDigit isBlank blanks_iff blanks_one parseArray_list convertAll_ok castInt)
open Verif.Desc (MimicAttr)

theorem bind_ok {α β : Type} {x : R α} {f : α → R β} {b : β} : (x >>= f) = .ok b ↔ ∃ a, x = .ok a ∧ f a = .ok b := by
  cases x with
  | error e => constructor
               · intro h; cases h
               · rintro ⟨a, h, -⟩; cases h
  | ok a => constructor
            · intro h; exact ⟨a, rfl, h⟩
            · rintro ⟨a', h, g⟩; cases h; exact g

theorem pure_ok {α : Type} {a b : α} : (pure a : R α) = .ok b ↔ a = b := by
  constructor
  · intro h; cases h; rfl
  · rintro rfl; rfl

/-! ## Cores -/

theorem cast_ok (q : Rat) (n : Int) : castInt (-2 ^ 31) (2 ^ 31 - 1) q = .ok n ↔
    -2 ^ 31 ≤ n ∧ n < 2 ^ 31 ∧ ((0 ≤ q ∧ (n : Rat) ≤ q ∧ q < n + 1) ∨ (q < 0 ∧ (n : Rat) - 1 < q ∧ q ≤ n)) := by
  have hv : (if 0 ≤ q then ⌊q⌋ else ⌈q⌉) = n ↔ ((0 ≤ q ∧ (n : Rat) ≤ q ∧ q < n + 1) ∨ (q < 0 ∧ (n : Rat) - 1 < q ∧ q ≤ n)) := by
    by_cases h : 0 ≤ q
    · rw [if_pos h, Int.floor_eq_iff]
      constructor
      · intro g; exact .inl ⟨h, g⟩
      · rintro (⟨-, g⟩ | ⟨g, -⟩)
        · exact g
        · exact absurd h (not_le.2 g)
    · rw [if_neg h, Int.ceil_eq_iff]
      constructor
      · intro g; exact .inr ⟨not_le.1 h, g⟩
      · rintro (⟨g, -⟩ | ⟨-, g⟩)
        · exact absurd g h
        · exact g
  rw [← hv]
  unfold castInt
  generalize (if 0 ≤ q then ⌊q⌋ else ⌈q⌉) = v
  show (if -2 ^ 31 ≤ v ∧ v ≤ 2 ^ 31 - 1 then Out.ok v else .ub) = .ok n ↔ _
  by_cases hr : -2 ^ 31 ≤ v ∧ v ≤ 2 ^ 31 - 1
  · rw [if_pos hr]
    constructor
    · intro h; cases h; exact ⟨hr.1, by omega, rfl⟩
    · rintro ⟨-, -, rfl⟩; rfl
  · rw [if_neg hr]
    constructor
    · intro h; cases h
    · rintro ⟨h1, h2, rfl⟩; exact absurd ⟨h1, by omega⟩ hr

theorem parseArray_ok {T : Type} (elem : Str → Out T) (s : Str) (xs : List T) :
    Text.parseArray elem s = .ok xs ↔ ∃ l, ListText s l ∧ List.Forall₂ (fun t x => elem t = .ok x) l xs := by
  have H := parseArray_list elem s
  constructor
  · intro h
    by_cases hex : ∃ ts, ListText s ts
    · obtain ⟨ts, hts⟩ := hex
      rw [H.1 ts hts, convertAll_ok] at h
      exact ⟨ts, hts, h⟩
    · rw [H.2 hex] at h; cases h
  · rintro ⟨ts, hts, hf⟩
    rw [H.1 ts hts, convertAll_ok]
    exact hf

theorem cores_ok (round : Rat → Option Rat) (s : Str) (l : List Int) :
    lift (parseIntArray round id (-2 ^ 31) (2 ^ 31 - 1) s) = .ok l ↔ CoresText round s l := by
  have hl : lift (parseIntArray round id (-2 ^ 31) (2 ^ 31 - 1) s) = .ok l ↔ parseIntArray round id (-2 ^ 31) (2 ^ 31 - 1) s = .ok l := by
    cases parseIntArray round id (-2 ^ 31) (2 ^ 31 - 1) s <;> simp [lift]
  rw [hl]
  unfold parseIntArray CoresText
  rw [parseArray_ok]
  constructor
  · rintro ⟨ts, hts, h⟩
    refine ⟨ts, hts, h.imp ?_⟩
    intro t n hm
    unfold Desc.Reads
    cases hs : stod round t with
    | ok x => rw [hs] at hm; exact ⟨x, rfl, (cast_ok x n).1 hm⟩
    | invalid => rw [hs] at hm; cases hm
    | range => rw [hs] at hm; cases hm
    | ub => rw [hs] at hm; cases hm
  · rintro ⟨ts, hts, h⟩
    refine ⟨ts, hts, h.imp ?_⟩
    rintro t n ⟨q, hq, hm⟩
    unfold Desc.Reads at hq
    rw [hq]
    exact (cast_ok q n).2 hm

/-! ## Transmissions -/

theorem plugin_ok (e : Elem) (v : Str) : pluginOf e = .ok v ↔ ∃ p, FirstTag e "plugin" p ∧ TextIs p v := by
  unfold pluginOf
  simp only [firstTag_iff, textIs_iff]
  cases e.first "plugin" with
  | none => simp
  | some p => simp

/-- What is known about a transmission before its interfaces are filled in. -/
structure RawTrans (round : Rat → Option Rat) (e : Elem) (t : Trans) : Prop where
  name : Has e "name" t.name
  type' : ∃ p, FirstTag e "plugin" p ∧ TextIs p t.type
  joints : List.Forall₂ (fun c j => IsTPart round c j ∧ j.states = [] ∧ j.cmds = []) (tags e "joint") t.joints
  actuators : List.Forall₂ (fun c a => IsTPart round c a ∧ a.states = [] ∧ a.cmds = []) (tags e "actuator") t.actuators
  params : ParamsAre (tags e "param") t.params

theorem tparts_sound {round : Rat → Option Rat} {l : List Elem} {ts : List TPart} (h : each (tpart round) l = .ok ts) :
    List.Forall₂ (fun c j => IsTPart round c j ∧ j.states = [] ∧ j.cmds = []) l ts :=
  ((each_ok _ _ _).1 h).imp (fun _ _ => tpart_sound)

theorem trans_sound {round : Rat → Option Rat} {e : Elem} {t : Trans} (h : trans round e = .ok t) : RawTrans round e t := by
  unfold trans at h
  simp only [bind_ok, pure_ok] at h
  obtain ⟨name, hn, type, hty, js, hj, as, ha, ps, hp, rfl⟩ := h
  exact ⟨(attr_ok _ _ _).1 hn, (plugin_ok _ _).1 hty, tparts_sound hj, tparts_sound ha, params_sound hp⟩

theorem trans_complete {round : Rat → Option Rat} {type : Str} {js : List Comp} {e : Elem} {t : Trans} (h : IsTrans round type js e t) :
    ∃ t', trans round e = .ok t' := by
  obtain ⟨ps, hps⟩ := params_complete h.params
  obtain ⟨j, hj⟩ := each_complete (f := tpart round) h.joints (fun _ _ hh => tpart_complete hh.1)
  obtain ⟨l, extra, -, hl, -⟩ := h.actuators
  obtain ⟨a, ha⟩ := each_complete (f := tpart round) hl (fun _ _ hh => tpart_complete hh.1)
  refine ⟨{ name := t.name, type := t.type, joints := j, actuators := a, params := ps }, ?_⟩
  unfold trans
  simp only [bind_ok, pure_ok]
  exact ⟨t.name, (attr_ok _ _ _).2 h.name, t.type, (plugin_ok _ _).2 h.type', j, hj, a, ha, ps, hps, rfl⟩

theorem fillJoint_sound {round : Rat → Option Rat} {js : List Comp} {e : Elem} {t t' : TPart}
    (h : IsTPart round e t ∧ t.states = [] ∧ t.cmds = []) (hf : fillJoint js t = .ok t') : IsTPart round e t' ∧ WithInterfaces js t' := by
  unfold fillJoint at hf
  cases hj : js.find? (fun j => j.name = t.name) with
  | none => rw [hj] at hf; cases hf
  | some j =>
    rw [hj] at hf
    cases hf
    obtain ⟨hn, a, b, he, ha⟩ := List.find?_eq_some_iff_append.1 hj
    refine ⟨⟨h.1.name, h.1.role, h.1.reduction, h.1.offset, h.1.readOnly⟩, a, j, b, he, by simpa using hn, ?_, ?_, ?_⟩
    · intro x hx; simpa using ha x hx
    · show t.cmds ++ _ = _; rw [h.2.2]; rfl
    · show t.states ++ _ = _; rw [h.2.1]; rfl

theorem forall₂_comp {α β γ : Type} {P : α → β → Prop} {Q : β → γ → Prop} {S : α → γ → Prop} (h : ∀ a b c, P a b → Q b c → S a c)
    {l : List α} {m : List β} {r : List γ} (h1 : List.Forall₂ P l m) (h2 : List.Forall₂ Q m r) : List.Forall₂ S l r := by
  induction h1 generalizing r with
  | nil => cases h2; exact .nil
  | cons hp _ ih => cases h2 with | cons hq ht => exact .cons (h _ _ _ hp hq) (ih ht)

theorem fill_sound {round : Rat → Option Rat} {type : Str} {js : List Comp} {e : Elem} {t t' : Trans} (h : RawTrans round e t)
    (hf : fillTrans type js t = .ok t') : IsTrans round type js e t' := by
  unfold fillTrans at hf
  simp only [bind_ok, pure_ok] at hf
  obtain ⟨joints, hj, as, ha, rfl⟩ := hf
  have hj' := forall₂_comp (fun a b c => fillJoint_sound (e := a) (t := b) (t' := c) (js := js) (round := round)) h.joints ((each_ok _ _ _).1 hj)
  refine ⟨h.name, h.type', hj', ?_, h.params⟩
  unfold fillActuators at ha
  by_cases ht : type = "actuator".toList
  · rw [if_pos ht] at ha
    match joints, ha with
    | [j], ha =>
      cases ha
      exact ⟨t.actuators, [⟨"actuator1".toList, j.states, j.cmds, "actuator1".toList, 1, 0, false⟩], rfl, h.actuators, fun g => absurd ht g, fun _ => ⟨j, rfl, rfl⟩⟩
  · rw [if_neg ht] at ha
    cases ha
    exact ⟨t.actuators, [], (List.append_nil _).symm, h.actuators, fun _ => rfl, fun g => absurd g ht⟩

theorem fillJoint_complete {round : Rat → Option Rat} {js js' : List Comp} {e : Elem} {t t0 : TPart}
    (hn : js.map (·.name) = js'.map (·.name)) (h : IsTPart round e t) (h0 : IsTPart round e t0 ∧ WithInterfaces js' t0) :
    ∃ t', fillJoint js t = .ok t' := by
  have hne : t.name = t0.name := has_unique h.name h0.1.name
  obtain ⟨a, j, b, he, hj, -⟩ := h0.2
  have hmem : t.name ∈ js.map (·.name) := by rw [hn, he, hne, ← hj]; simp
  obtain ⟨x, hx, hxn⟩ := List.mem_map.1 hmem
  unfold fillJoint
  cases hf : js.find? (fun j => j.name = t.name) with
  | none => exact absurd hxn (by simpa using List.find?_eq_none.1 hf x hx)
  | some j => exact ⟨_, rfl⟩

theorem each_exists₂ {α β γ δ : Type} {f : β → R δ} {P : α → β → Prop} {Q : α → γ → Prop} (h : ∀ a b c, P a b → Q a c → ∃ d, f b = .ok d)
    {l : List α} {m : List β} {r : List γ} (h1 : List.Forall₂ P l m) (h2 : List.Forall₂ Q l r) : ∃ ds, each f m = .ok ds := by
  induction h1 generalizing r with
  | nil => exact ⟨[], rfl⟩
  | cons hp _ ih =>
    cases h2 with
    | cons hq ht =>
      obtain ⟨d, hd⟩ := h _ _ _ hp hq
      obtain ⟨ds, hds⟩ := ih ht
      exact ⟨d :: ds, by simp only [each, bind_ok, pure_ok]; exact ⟨d, hd, ds, hds, rfl⟩⟩

theorem each_length {α β : Type} {f : α → R β} {l : List α} {r : List β} (h : each f l = .ok r) : l.length = r.length :=
  ((each_ok _ _ _).1 h).length_eq

theorem fill_complete {round : Rat → Option Rat} {type : Str} {js js' : List Comp} {e : Elem} {t t0 : Trans}
    (hn : js.map (·.name) = js'.map (·.name)) (h : RawTrans round e t) (h0 : IsTrans round type js' e t0) :
    ∃ t', fillTrans type js t = .ok t' := by
  obtain ⟨joints, hj⟩ := each_exists₂ (f := fillJoint js) (P := fun c j => IsTPart round c j ∧ j.states = [] ∧ j.cmds = [])
    (Q := fun c j => IsTPart round c j ∧ WithInterfaces js' j) (fun a b c hp hq => fillJoint_complete hn hp.1 hq) h.joints h0.joints
  have hlen : joints.length = t0.joints.length := by
    rw [← each_length hj, ← h.joints.length_eq, h0.joints.length_eq]
  have ha : ∃ as, fillActuators type joints t.actuators = .ok as := by
    unfold fillActuators
    by_cases ht : type = "actuator".toList
    · rw [if_pos ht]
      obtain ⟨l, extra, -, -, -, hx⟩ := h0.actuators
      obtain ⟨j, hj1, -⟩ := hx ht
      rw [hj1] at hlen
      match joints, hlen with
      | [j], _ => exact ⟨_, rfl⟩
    · rw [if_neg ht]; exact ⟨_, rfl⟩
  obtain ⟨as, ha⟩ := ha
  refine ⟨{ t with joints := joints, actuators := as }, ?_⟩
  unfold fillTrans
  simp only [bind_ok, pure_ok]
  exact ⟨joints, hj, as, ha, rfl⟩

end Verif.Xml
