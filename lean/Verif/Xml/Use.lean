import Verif.Xml.Doc
import Verif.Props.C54_ExportedInterfaces
import Verif.Props.C55_DescribedLimits
/-!
# What becomes of a description: undefined behaviour, exported interfaces, limits
-/
namespace Verif.Xml
open Verif.Text (Blanks ListText Out strip parseBool stod scanInt parseIntArray toLowerCase parseArray_list convertAll castInt)
open Verif.Desc (MimicAttr)

/-! ## Undefined behaviour -/

theorem bind_err {α β : Type} {x : R α} {f : α → R β} {u : Exc} :
    (x >>= f) = .error u ↔ x = .error u ∨ ∃ a, x = .ok a ∧ f a = .error u := by
  cases x with
  | error e =>
    have : ((.error e : R α) >>= f) = .error e := rfl
    rw [this]
    constructor
    · intro h; left; cases h; rfl
    · rintro (h | ⟨a, h, -⟩)
      · cases h; rfl
      · cases h
  | ok a =>
    constructor
    · intro h; exact .inr ⟨a, rfl, h⟩
    · rintro (h | ⟨a', h, g⟩)
      · cases h
      · cases h; exact g

theorem pure_err {α : Type} {a : α} {u : Exc} : ¬ (pure a : R α) = .error u := by intro h; cases h

theorem attr_noub (e : Elem) (k : String) : attr e k ≠ .error .ub := by
  unfold attr; cases e.find k <;> simp

theorem parseBool_noub (s : Str) : lift (parseBool s) ≠ .error .ub := by
  have : parseBool s ≠ .ub := by
    unfold parseBool
    dsimp only
    split
    · simp
    · split <;> simp
  cases h : parseBool s with
  | ub => exact absurd h this
  | _ => simp [lift]

theorem stdStoi_noub (s : Str) : stdStoi s ≠ .error .ub := by
  unfold stdStoi
  split
  · simp
  · dsimp only
    repeat' split
    all_goals simp

theorem positive_noub (s : Str) : positive s ≠ .error .ub := by
  unfold positive; split
  · exact stdStoi_noub s
  · simp

theorem sizeOf_noub (e : Elem) : sizeOf e ≠ .error .ub := by
  unfold sizeOf; split
  · simp
  · exact positive_noub _

theorem threadPriority_noub (e : Elem) : threadPriority e ≠ .error .ub := by
  unfold threadPriority; split
  · simp
  · exact positive_noub _

theorem rwRate_noub (e : Elem) : rwRate e ≠ .error .ub := by
  unfold rwRate; repeat' split
  all_goals simp

theorem isAsync_noub (e : Elem) : isAsync e ≠ .error .ub := by
  unfold isAsync; split
  · simp
  · exact parseBool_noub _

theorem readOnly_noub (e : Elem) : readOnly e ≠ .error .ub := by
  unfold readOnly; split
  · simp
  · exact parseBool_noub _

theorem params_noub (es : List Elem) : ∀ m, params es m ≠ .error .ub := by
  induction es with
  | nil => intro m; simp [params]
  | cons e es ih =>
    intro m
    rw [params]
    split
    · simp
    · exact ih _

theorem enabled_noub (e : Elem) : enabled e ≠ .error .ub := by
  unfold enabled
  split
  · simp
  · split
    · rename_i x hx
      intro h; cases h
      exact attr_noub _ _ hx
    · exact parseBool_noub _

theorem itf_noub (e : Elem) : itf e ≠ .error .ub := by
  intro h
  unfold itf at h
  simp only [bind_err, attr_noub, params_noub, enabled_noub, sizeOf_noub, pure_err, false_or, and_false, exists_false] at h

theorem each_noub {α β : Type} {f : α → R β} {l : List α} (hf : ∀ a ∈ l, f a ≠ .error .ub) : each f l ≠ .error .ub := by
  induction l with
  | nil => simp [each]
  | cons a t ih =>
    intro h
    rw [each] at h
    simp only [bind_err, pure_err, and_false, exists_false, or_false] at h
    rcases h with h | ⟨b, -, h⟩
    · exact hf a (List.mem_cons_self ..) h
    · exact ih (fun x hx => hf x (List.mem_cons_of_mem _ hx)) h

theorem mimicAttr_noub (e : Elem) : mimicAttr e ≠ .error .ub := by
  unfold mimicAttr
  split
  · unfold mimicOf
    have : (do let v ← attr e "mimic"; lift (parseBool v) : R Bool) ≠ .error .ub := by
      intro h
      simp only [bind_err, attr_noub, parseBool_noub, and_false, exists_false, or_false] at h
    split
    · simp
    · simp
    · simp
    · rename_i x hx
      intro h; cases h
      exact this hx
  · simp

theorem itfs_noub (l : List Elem) : each itf l ≠ .error .ub := each_noub (fun a _ => itf_noub a)

theorem comp_noub (e : Elem) : comp e ≠ .error .ub := by
  intro h
  unfold comp at h
  simp only [bind_err, attr_noub, mimicAttr_noub, params_noub, enabled_noub, itfs_noub, pure_err, false_or, and_false, exists_false] at h

theorem gpio_noub (e : Elem) : gpio e ≠ .error .ub := by
  intro h
  unfold gpio at h
  simp only [bind_err, attr_noub, params_noub, itfs_noub, pure_err, false_or, and_false, exists_false] at h

theorem tpart_noub (round : Rat → Option Rat) (e : Elem) : tpart round e ≠ .error .ub := by
  intro h
  unfold tpart at h
  simp only [bind_err, attr_noub, readOnly_noub, pure_err, false_or, and_false, exists_false] at h

theorem tparts_noub (round : Rat → Option Rat) (l : List Elem) : each (tpart round) l ≠ .error .ub := each_noub (fun a _ => tpart_noub round a)

theorem pluginOf_noub (e : Elem) : pluginOf e ≠ .error .ub := by
  unfold pluginOf; split <;> simp

theorem trans_noub (round : Rat → Option Rat) (e : Elem) : trans round e ≠ .error .ub := by
  intro h
  unfold trans at h
  simp only [bind_err, attr_noub, pluginOf_noub, params_noub, tparts_noub, pure_err, false_or, and_false, exists_false] at h

theorem fillJoint_noub (js : List Comp) (t : TPart) : fillJoint js t ≠ .error .ub := by
  unfold fillJoint; split <;> simp

theorem fillTrans_noub (type : Str) (js : List Comp) (t : Trans) : fillTrans type js t ≠ .error .ub := by
  intro h
  unfold fillTrans at h
  have h1 : ∀ l, each (fillJoint js) l ≠ .error .ub := fun l => each_noub (fun a _ => fillJoint_noub js a)
  have h2 : ∀ a b, fillActuators type a b ≠ .error .ub := by
    intro a b
    unfold fillActuators
    repeat' split
    all_goals simp
  simp only [bind_err, h1, h2, pure_err, false_or, and_false, exists_false] at h

/-- One of the numbers of the list does not fit into 32 bits. -/
def HugeCore (round : Rat → Option Rat) (v : Str) : Prop :=
  ∃ ts, ListText v ts ∧ ∃ t ∈ ts, ∃ q, Desc.Reads round t q ∧ (q ≤ -2 ^ 31 - 1 ∨ 2 ^ 31 ≤ q)

theorem convertAll_ub {T : Type} (elem : Str → Out T) (l : List Str) (h : convertAll elem l = .ub) : ∃ t ∈ l, elem t = .ub := by
  induction l with
  | nil => simp [convertAll] at h
  | cons a t ih =>
    unfold convertAll at h
    cases ha : elem a with
    | ub => exact ⟨a, List.mem_cons_self .., ha⟩
    | invalid => rw [ha] at h; cases h
    | range => rw [ha] at h; cases h
    | ok x =>
      rw [ha] at h
      dsimp only at h
      cases ht : convertAll elem t with
      | ub =>
        obtain ⟨y, hy, hu⟩ := ih ht
        exact ⟨y, List.mem_cons_of_mem _ hy, hu⟩
      | invalid => rw [ht] at h; cases h
      | range => rw [ht] at h; cases h
      | ok x => rw [ht] at h; cases h

theorem castInt_ub {q : Rat} (h : castInt (-2 ^ 31) (2 ^ 31 - 1) q = .ub) : q ≤ -2 ^ 31 - 1 ∨ 2 ^ 31 ≤ q := by
  unfold castInt at h
  by_contra hc
  rw [not_or, not_le, not_le] at hc
  obtain ⟨h1, h2⟩ := hc
  by_cases h0 : 0 ≤ q
  · simp only [h0, if_true] at h
    have : -2 ^ 31 ≤ ⌊q⌋ ∧ ⌊q⌋ ≤ 2 ^ 31 - 1 := by
      constructor
      · have := Int.floor_nonneg.2 h0; omega
      · have : ⌊q⌋ < 2 ^ 31 := by rw [Int.floor_lt]; push_cast; exact h2
        omega
    rw [if_pos this] at h; cases h
  · simp only [h0, if_false] at h
    have : -2 ^ 31 ≤ ⌈q⌉ ∧ ⌈q⌉ ≤ 2 ^ 31 - 1 := by
      constructor
      · have : -2 ^ 31 - 1 < ⌈q⌉ := by rw [Int.lt_ceil]; push_cast; norm_num at h1 ⊢; exact h1
        omega
      · have : ⌈q⌉ ≤ 0 := by rw [Int.ceil_le]; push_cast; exact le_of_lt (not_le.1 h0)
        omega
    rw [if_pos this] at h; cases h

theorem stod_noub (round : Rat → Option Rat) (s : Str) : stod round s ≠ .ub := by
  unfold stod Text.fromAll
  repeat' split
  all_goals simp

theorem coresOf_ub {round : Rat → Option Rat} {old : List Int} {e : Elem} (h : coresOf round old e = .error .ub) :
    ∃ v, Has e "affinity" v ∧ HugeCore round v := by
  unfold coresOf at h
  cases hf : e.find "affinity" with
  | none => rw [hf] at h; cases h
  | some raw =>
    rw [hf] at h
    dsimp only at h
    have h : parseIntArray round id (-2 ^ 31) (2 ^ 31 - 1) (strip raw) = .ub := by
      cases hp : parseIntArray round id (-2 ^ 31) (2 ^ 31 - 1) (strip raw) with
      | ub => rfl
      | _ => rw [hp] at h; cases h
    refine ⟨strip raw, (has_iff _ _ _).2 ⟨raw, hf, rfl⟩, ?_⟩
    unfold parseIntArray at h
    by_cases hex : ∃ l, ListText (strip raw) l
    · obtain ⟨ts, hts⟩ := hex
      rw [(parseArray_list _ _).1 ts hts] at h
      obtain ⟨t, ht, hu⟩ := convertAll_ub _ _ h
      refine ⟨ts, hts, t, ht, ?_⟩
      cases hs : stod round t with
      | ok q => rw [hs] at hu; exact ⟨q, hs, castInt_ub hu⟩
      | ub => exact absurd hs (stod_noub round t)
      | invalid => rw [hs] at hu; cases hu
      | range => rw [hs] at hu; cases hu
    · rw [(parseArray_list _ _).2 hex] at h; cases h

theorem onProperties_ub {round : Rat → Option Rat} {h : Hw} {e : Elem} (hu : onProperties round h e = .error .ub) :
    ∃ a v, FirstTag e "async" a ∧ Has a "affinity" v ∧ HugeCore round v := by
  unfold onProperties at hu
  cases ha : e.first "async" with
  | none => rw [ha] at hu; cases hu
  | some a =>
    rw [ha] at hu
    dsimp only at hu
    have ho : onAsync round h a = .error .ub := by
      cases hx : onAsync round h a with
      | ok y => rw [hx] at hu; cases hu
      | error x => rw [hx] at hu; cases x <;> first | rfl | cases hu
    unfold onAsync at ho
    have h1 : asyncPriority h.priority a ≠ .error .ub := by
      unfold asyncPriority; split
      · simp
      · exact threadPriority_noub _
    have h2 : warnOf h.warn a ≠ .error .ub := by
      unfold warnOf; split
      · simp
      · exact parseBool_noub _
    simp only [bind_err, h1, h2, pure_err, and_false, exists_false, or_false] at ho
    obtain ⟨v, hv, hh⟩ := coresOf_ub ho
    exact ⟨a, v, (firstTag_iff _ _ _).2 ha, hv, hh⟩

theorem map_err {α β : Type} {x : R α} {f : α → β} {u : Exc} : x.map f = .error u ↔ x = .error u := by
  cases x with
  | error e => simp [Except.map]
  | ok a => simp [Except.map]

theorem child_ub {round : Rat → Option Rat} {h : Hw} {e : Elem} (hu : child round h e = .error .ub) :
    e.tag = "properties" ∧ ∃ a v, FirstTag e "async" a ∧ Has a "affinity" v ∧ HugeCore round v := by
  unfold child at hu
  split at hu
  · exfalso
    unfold onHardware at hu
    have : ∀ old, paramsOf old e ≠ .error .ub := by
      intro old; unfold paramsOf; split
      · simp
      · exact params_noub _ _
    simp only [bind_err, pluginOf_noub, this, pure_err, false_or, and_false, exists_false] at hu
  split at hu
  · rename_i t; exact ⟨t, onProperties_ub hu⟩
  split at hu
  · rw [map_err] at hu; exact absurd hu (comp_noub e)
  split at hu
  · rw [map_err] at hu; exact absurd hu (comp_noub e)
  split at hu
  · rw [map_err] at hu; exact absurd hu (gpio_noub e)
  split at hu
  · rw [map_err] at hu; exact absurd hu (trans_noub round e)
  · cases hu

theorem children_ub {round : Rat → Option Rat} {es : List Elem} : ∀ {h : Hw}, children round es h = .error .ub →
    ∃ e ∈ es, e.tag = "properties" ∧ ∃ a v, FirstTag e "async" a ∧ Has a "affinity" v ∧ HugeCore round v := by
  induction es with
  | nil => intro h hu; cases hu
  | cons e es ih =>
    intro h hu
    rw [children] at hu
    cases hc : child round h e with
    | error x =>
      rw [hc] at hu
      cases hu
      exact ⟨e, List.mem_cons_self .., child_ub hc⟩
    | ok h' =>
      rw [hc] at hu
      obtain ⟨x, hx, g⟩ := ih hu
      exact ⟨x, List.mem_cons_of_mem _ hx, g⟩

theorem resource_ub {round : Rat → Option Rat} {e : Elem} (hu : resource round e = .error .ub) :
    ∃ p ∈ tags e "properties", ∃ a v, FirstTag p "async" a ∧ Has a "affinity" v ∧ HugeCore round v := by
  unfold resource at hu
  have h1 : ∀ as, priorityOf e as ≠ .error .ub := by
    intro as; unfold priorityOf; split
    · exact threadPriority_noub e
    · simp
  have h2 : ∀ t j l, each (fillTrans t j) l ≠ .error .ub := fun t j l => each_noub (fun a _ => fillTrans_noub t j a)
  simp only [bind_err, attr_noub, rwRate_noub, isAsync_noub, h1, h2, pure_err, false_or, and_false, exists_false, or_false] at hu
  obtain ⟨_, -, _, -, _, -, _, -, _, -, hu⟩ := hu
  obtain ⟨p, hp, ht, g⟩ := children_ub hu
  exact ⟨p, by unfold tags; rw [List.mem_filter]; exact ⟨hp, by simpa using ht⟩, g⟩

theorem each_ub {α β : Type} {f : α → R β} {l : List α} (h : each f l = .error .ub) : ∃ a ∈ l, f a = .error .ub := by
  by_contra hc
  exact each_noub (fun a ha hu => hc ⟨a, ha, hu⟩) h

/-! ## Interfaces -/

/-- What the framework makes of the parsed description: a component of the kind named by its type, with its joints, sensors and gpios, whose
export methods are not overridden and which adds no interfaces of its own. -/
structure Made {V : Type} (init : Itf → V) (h : Hw) (c : Exp.Comp V) : Prop where
  kind : kindOf h = some c.kind
  joints : c.joints = h.joints.map (toPart init)
  sensors : c.sensors = h.sensors.map (toPart init)
  gpios : c.gpios = h.gpios.map (toPart init)
  plain : c.unlistedS = [] ∧ c.unlistedC = [] ∧ c.legacyS = [] ∧ c.legacyC = []

/-- The tags whose interfaces a component of this kind has. -/
def Offers (k : Exp.Kind) (cmd : Bool) (tag : String) : Prop :=
  match k with
  | .actuator => tag = "joint"
  | .sensor => cmd = false ∧ (tag = "joint" ∨ tag = "sensor")
  | .system => tag = "joint" ∨ (tag = "sensor" ∧ cmd = false) ∨ tag = "gpio"

/-- A name `a/b` is written in the element: `a` is the name of a tag, `b` of one of its state or command interfaces. -/
def Written (k : Exp.Kind) (cmd : Bool) (e : Elem) (n : Str) : Prop :=
  ∃ t ∈ e.kids, Offers k cmd t.tag ∧ ∃ i ∈ tags t (if cmd then "command_interface" else "state_interface"), ∃ a b,
    Has t "name" a ∧ Has i "name" b ∧ n = a ++ '/' :: b

theorem part_written {V : Type} (init : Itf → V) (cmd : Bool) {P : Elem → Comp → Prop} (hn : ∀ e c, P e c → Has e "name" c.name)
    (hi : ∀ e c, P e c → ∃ g, List.Forall₂ (IsItf g) (tags e (if cmd then "command_interface" else "state_interface")) (if cmd then c.cmds else c.states))
    {es : List Elem} {cs : List Comp} (h : List.Forall₂ P es cs) (n : Str) :
    n ∈ ((cs.map (toPart init)).flatMap (Exp.Part.listed cmd)).map (·.1) ↔
      ∃ t ∈ es, ∃ i ∈ tags t (if cmd then "command_interface" else "state_interface"), ∃ a b, Has t "name" a ∧ Has i "name" b ∧ n = a ++ '/' :: b := by
  induction h with
  | nil => simp
  | @cons e c es cs hp _ ih =>
    rw [List.map_cons, List.flatMap_cons, List.map_append, List.mem_append, ih]
    have one : n ∈ ((toPart init c).listed cmd).map (·.1) ↔
        ∃ i ∈ tags e (if cmd then "command_interface" else "state_interface"), ∃ a b, Has e "name" a ∧ Has i "name" b ∧ n = a ++ '/' :: b := by
      obtain ⟨g, hf⟩ := hi e c hp
      have hc := hn e c hp
      have hl : ((toPart init c).listed cmd).map (·.1) = (if cmd then c.cmds else c.states).map (fun i => c.name ++ '/' :: i.name) := by
        cases cmd <;> simp [Exp.Part.listed, toPart, Function.comp_def]
      rw [hl]
      generalize (if cmd then c.cmds else c.states) = is at hf ⊢
      generalize tags e (if cmd then "command_interface" else "state_interface") = xs at hf ⊢
      induction hf with
      | nil => simp
      | @cons x i xs is hx _ ihx =>
        rw [List.map_cons, List.mem_cons]
        constructor
        · rintro (rfl | hm)
          · exact ⟨x, List.mem_cons_self .., c.name, i.name, hc, hx.name, rfl⟩
          · obtain ⟨y, hy, r⟩ := ihx.1 hm
            exact ⟨y, List.mem_cons_of_mem _ hy, r⟩
        · rintro ⟨y, hy, a, b, h1, h2, rfl⟩
          rcases List.mem_cons.1 hy with rfl | hy
          · left; rw [has_unique h1 hc, has_unique h2 hx.name]
          · exact .inr (ihx.2 ⟨y, hy, a, b, h1, h2, rfl⟩)
    rw [one]
    constructor
    · rintro (h | ⟨t, ht, r⟩)
      · exact ⟨e, List.mem_cons_self .., h⟩
      · exact ⟨t, List.mem_cons_of_mem _ ht, r⟩
    · rintro ⟨t, ht, r⟩
      rcases List.mem_cons.1 ht with rfl | ht
      · exact .inl r
      · exact .inr ⟨t, ht, r⟩

theorem isComp_itfs (cmd : Bool) (e : Elem) (c : Comp) (h : IsComp e c) : ∃ g, List.Forall₂ (IsItf g)
    (tags e (if cmd then "command_interface" else "state_interface")) (if cmd then c.cmds else c.states) := by
  cases cmd
  · exact ⟨_, h.states⟩
  · exact ⟨_, h.cmds⟩

theorem isGpio_itfs (cmd : Bool) (e : Elem) (c : Comp) (h : IsGpio e c) : ∃ g, List.Forall₂ (IsItf g)
    (tags e (if cmd then "command_interface" else "state_interface")) (if cmd then c.cmds else c.states) := by
  cases cmd
  · exact ⟨_, h.states⟩
  · exact ⟨_, h.cmds⟩

theorem mem_tags {e c : Elem} {t : String} : c ∈ tags e t ↔ c ∈ e.kids ∧ c.tag = t := by
  unfold tags; rw [List.mem_filter]; simp

theorem declares_iff {V : Type} {init : Itf → V} {round : Rat → Option Rat} {e : Elem} {h : Hw} {c : Exp.Comp V} (H : IsHw round e h)
    (M : Made init h c) (cmd : Bool) (n : Str) : c.declares cmd n ↔ Written c.kind cmd e n := by
  obtain ⟨p1, p2, p3, p4⟩ := M.plain
  have J := part_written init cmd (fun e c h => h.name) (isComp_itfs cmd) H.joints n
  have S := part_written init cmd (fun e c h => h.name) (isComp_itfs cmd) H.sensors n
  have G := part_written init cmd (fun e c h => h.name) (isGpio_itfs cmd) H.gpios n
  rw [← M.joints] at J
  rw [← M.sensors] at S
  rw [← M.gpios] at G
  simp only [mem_tags (e := e)] at J S G
  unfold Exp.Comp.declares Exp.Comp.declared Written
  have hl : (if cmd = true then c.legacyC else c.legacyS) = [] := by cases cmd <;> simp [p3, p4]
  have hu : (if cmd = true then c.unlistedC else c.unlistedS) = [] := by cases cmd <;> simp [p1, p2]
  simp only [hl, hu, List.isEmpty_nil, Bool.true_eq_false, if_false, List.map_nil, List.nil_append]
  cases hk : c.kind with
  | actuator =>
    simp only [Offers, ne_eq, not_true_eq_false, and_false, if_false, List.append_nil, reduceCtorEq]
    rw [J]
    constructor
    · rintro ⟨t, ⟨h1, h2⟩, r⟩; exact ⟨t, h1, h2, r⟩
    · rintro ⟨t, h1, h2, r⟩; exact ⟨t, ⟨h1, h2⟩, r⟩
  | sensor =>
    cases cmd with
    | true => simp [Offers]
    | false =>
      simp only [Offers, Bool.false_eq_true, if_false, ne_eq, reduceCtorEq, not_false_eq_true, and_true, if_true, List.append_nil,
        List.map_append, List.mem_append, true_and]
      simp only [Bool.false_eq_true, if_false] at J S
      rw [J, S]
      constructor
      · rintro (⟨t, ⟨h1, h2⟩, r⟩ | ⟨t, ⟨h1, h2⟩, r⟩)
        · exact ⟨t, h1, .inl h2, r⟩
        · exact ⟨t, h1, .inr h2, r⟩
      · rintro ⟨t, h1, h2 | h2, r⟩
        · exact .inl ⟨t, ⟨h1, h2⟩, r⟩
        · exact .inr ⟨t, ⟨h1, h2⟩, r⟩
  | system =>
    cases cmd with
    | true =>
      simp only [Offers, reduceCtorEq, and_false, if_false, ne_eq, not_false_eq_true, and_true, if_true, List.append_nil, List.map_append,
        List.mem_append, Bool.true_eq_false, false_or] at J G ⊢
      rw [J, G]
      constructor
      · rintro (⟨t, ⟨h1, h2⟩, r⟩ | ⟨t, ⟨h1, h2⟩, r⟩)
        · exact ⟨t, h1, .inl h2, r⟩
        · exact ⟨t, h1, .inr h2, r⟩
      · rintro ⟨t, h1, h2 | h2, r⟩
        · exact .inl ⟨t, ⟨h1, h2⟩, r⟩
        · exact .inr ⟨t, ⟨h1, h2⟩, r⟩
    | false =>
      simp only [Offers, Bool.false_eq_true, reduceCtorEq, and_false, if_false, ne_eq, not_false_eq_true, and_true, if_true, List.map_append,
        List.mem_append] at J S G ⊢
      rw [J, S, G]
      constructor
      · rintro ((⟨t, ⟨h1, h2⟩, r⟩ | ⟨t, ⟨h1, h2⟩, r⟩) | ⟨t, ⟨h1, h2⟩, r⟩)
        · exact ⟨t, h1, .inl h2, r⟩
        · exact ⟨t, h1, .inr (.inl h2), r⟩
        · exact ⟨t, h1, .inr (.inr h2), r⟩
      · rintro ⟨t, h1, h2 | h2 | h2, r⟩
        · exact .inl (.inl ⟨t, ⟨h1, h2⟩, r⟩)
        · exact .inl (.inr ⟨t, ⟨h1, h2⟩, r⟩)
        · exact .inr ⟨t, ⟨h1, h2⟩, r⟩

/-! ## Limits -/

/-- The parameter `k` of the interface, the last one if there are several; empty if there is none. -/
def ParamIs (ie : Elem) (k : String) (v : Str) : Prop :=
  LastValue (tags ie "param") (fun p => Has p "name" k.toList) TextIs [] v

/-- In the tag `re`, joint `jn` has a command interface `iname` whose parameter `k` is the number `q`; no limits of the joint and its command
interfaces are disabled, and `min` and `max` of that interface are numbers or missing. -/
def BoundWritten (round : Rat → Option Rat) (re : Elem) (jn : Str) (iname k : String) (q : Rat) : Prop :=
  ∃ je ∈ tags re "joint", Has je "name" jn ∧ Enabled je true ∧ (∀ x ∈ tags je "command_interface", Enabled x true) ∧
  ∃ ie ∈ tags je "command_interface", Has ie "name" iname.toList ∧ (∃ v, ParamIs ie k v ∧ Desc.Reads round v q) ∧
    ∀ k' ∈ ["min", "max"], ∃ v, ParamIs ie k' v ∧ (v = [] ∨ ∃ x, Desc.Reads round v x)

theorem lastValue_text_unique {l : List Elem} {P : Elem → Prop} {d v w : Str} (h : LastValue l P TextIs d v) (g : LastValue l P TextIs d w) : v = w := by
  rcases h with ⟨x, hx, hv⟩ | ⟨h1, rfl⟩
  · rcases g with ⟨y, hy, hw⟩ | ⟨h2, -⟩
    · rw [last_unique hx hy, textIs_iff] at hv
      rw [textIs_iff] at hw
      rw [← hv, ← hw]
    · obtain ⟨a, b, e, hp, -⟩ := hx
      exact absurd hp (h2 x (by rw [e]; simp))
  · rcases g with ⟨y, ⟨a, b, e, hp, -⟩, -⟩ | ⟨-, rfl⟩
    · exact absurd hp (h1 y (by rw [e]; simp))
    · rfl

theorem enabled_unique {e : Elem} {a b : Bool} (h : Enabled e a) (g : Enabled e b) : a = b := by
  rw [← enabled_ok] at h g
  rw [h] at g; cases g; rfl

theorem reads_nil {round : Rat → Option Rat} {q : Rat} (h : Desc.Reads round [] q) : False := by
  unfold Desc.Reads at h
  have : stod round [] = .invalid := rfl
  rw [this] at h; cases h

theorem forall₂_left {α β : Type} {P : α → β → Prop} {l : List α} {r : List β} (h : List.Forall₂ P l r) : ∀ a ∈ l, ∃ b ∈ r, P a b := by
  induction h with
  | nil => simp
  | cons hp _ ih =>
    intro a ha
    rcases List.mem_cons.1 ha with rfl | ha
    · exact ⟨_, List.mem_cons_self .., hp⟩
    · obtain ⟨b, hb, h⟩ := ih a ha
      exact ⟨b, List.mem_cons_of_mem _ hb, h⟩

theorem forall₂_right {α β : Type} {P : α → β → Prop} {l : List α} {r : List β} (h : List.Forall₂ P l r) : ∀ b ∈ r, ∃ a ∈ l, P a b := by
  induction h with
  | nil => simp
  | cons hp _ ih =>
    intro a ha
    rcases List.mem_cons.1 ha with rfl | ha
    · exact ⟨_, List.mem_cons_self .., hp⟩
    · obtain ⟨b, hb, h⟩ := ih a ha
      exact ⟨b, List.mem_cons_of_mem _ hb, h⟩

/-- What is written, as the computation of the limits sees it. -/
theorem bound_seen {round : Rat → Option Rat} {code : Str → Nat} {re : Elem} {h : Hw} (H : IsHw round re h) {jn : Str} {iname k : String} {q : Rat}
    (hkk : k = "min" ∨ k = "max") (hb : BoundWritten round re jn iname k q) :
    ∃ j ∈ h.joints, j.name = jn ∧ (toJoint code j).enable = true ∧ (∀ i ∈ (toJoint code j).cmds, i.enable = true) ∧
      ∃ i ∈ (toJoint code j).cmds, i.name = toIName code iname.toList ∧ i.Usable round ∧
        (k = "min" → Desc.Reads round i.min q) ∧ (k = "max" → Desc.Reads round i.max q) := by
  obtain ⟨je, hje, hn, he, hall, ie, hie, hin, ⟨v, hv, hr⟩, hk⟩ := hb
  obtain ⟨j, hj, J⟩ := forall₂_left H.joints je hje
  have hje : j.enable = true := enabled_unique J.enable he
  obtain ⟨i, hi, I⟩ := forall₂_left J.cmds ie hie
  refine ⟨j, hj, has_unique J.name hn, hje, ?_, ⟨toIName code i.name, i.min, i.max, i.enable⟩, List.mem_map.2 ⟨i, hi, rfl⟩, ?_, ?_, ?_, ?_⟩
  · intro x hx
    obtain ⟨y, hy, rfl⟩ := List.mem_map.1 hx
    obtain ⟨xe, hxe, X⟩ := forall₂_right J.cmds y hy
    obtain ⟨b, hb, hyb⟩ := X.enable
    have hbt := enabled_unique hb (hall xe hxe)
    show y.enable = true
    rw [hyb, hbt, hje]; rfl
  · show toIName code i.name = _
    rw [has_unique I.name hin]
  · obtain ⟨v1, p1, r1⟩ := hk "min" (by simp)
    obtain ⟨v2, p2, r2⟩ := hk "max" (by simp)
    have e1 : v1 = i.min := lastValue_text_unique p1 I.min
    have e2 : v2 = i.max := lastValue_text_unique p2 I.max
    rw [e1] at r1
    rw [e2] at r2
    refine ⟨?_, fun g => r1.resolve_left g, fun g => r2.resolve_left g⟩
    rcases hkk with rfl | rfl
    · left; intro g
      have e3 : v = i.min := lastValue_text_unique hv I.min
      have g : i.min = [] := g
      rw [e3, g] at hr; exact reads_nil hr
    · right; intro g
      have e3 : v = i.max := lastValue_text_unique hv I.max
      have g : i.max = [] := g
      rw [e3, g] at hr; exact reads_nil hr
  · rintro rfl
    have e1 : v = i.min := lastValue_text_unique hv I.min
    rw [← e1]; exact hr
  · rintro rfl
    have e1 : v = i.max := lastValue_text_unique hv I.max
    rw [← e1]; exact hr

theorem zip_forall₂ {α β : Type} {P : α → β → Prop} {l : List α} {r : List β} (h : List.Forall₂ P l r) :
    List.Forall₂ (fun a (p : α × β) => p.1 = a ∧ P a p.2) l (l.zip r) := by
  induction h with
  | nil => exact .nil
  | cons hp _ ih => exact .cons ⟨rfl, hp⟩ ih

theorem descParse_forall₂ {round : Rat → Option Rat} {u : Nat → Option Desc.UJoint} : ∀ {hs : List Desc.Hw} {fs : List (Desc.Hw × Desc.Filled)},
    Desc.parse round u hs = .ok fs → List.Forall₂ (fun h f => Desc.jointLoop round u h.joints 0 h.joints {} = .ok f) hs (fs.map (·.2)) := by
  intro hs fs h
  obtain ⟨h1, h2⟩ := Desc.parse_each h
  subst h1
  clear h
  induction fs with
  | nil => exact .nil
  | cons p t ih =>
    exact .cons (h2 p (List.mem_cons_self ..)) (ih (fun x hx => h2 x (List.mem_cons_of_mem _ hx)))

theorem parseAll_ok {round : Rat → Option Rat} {code : Str → Nat} {u : Nat → Option Desc.UJoint} {d : Doc} {l : List (Hw × Desc.Filled)}
    (h : parseAll round code (some u) d = .ok l) : ∃ hs, parse round d = .ok hs ∧
      List.Forall₂ (fun h p => p.1 = h ∧ Desc.jointLoop round u (h.joints.map (toJoint code)) 0 (h.joints.map (toJoint code)) {} = .ok p.2) hs l := by
  unfold parseAll at h
  rw [bind_ok] at h
  obtain ⟨hs, hp, h⟩ := h
  refine ⟨hs, hp, ?_⟩
  dsimp only at h
  cases hd : Desc.parse round u (hs.map (toDesc code)) with
  | error e => rw [hd] at h; cases h
  | ok fs =>
    rw [hd] at h
    cases h
    have := descParse_forall₂ hd
    rw [List.forall₂_map_left_iff] at this
    exact zip_forall₂ this

/-- The limits of joint `jn` obey what is written. -/
theorem bound_obeyed {round : Rat → Option Rat} {code : Str → Nat} (hc : Function.Injective code)
    {u : Nat → Option Desc.UJoint} {re : Elem} {h : Hw} {f : Desc.Filled} (H : IsHw round re h)
    (hf : Desc.jointLoop round u (h.joints.map (toJoint code)) 0 (h.joints.map (toJoint code)) {} = .ok f)
    (hd : (h.joints.map (·.name)).Nodup) {jn : Str} {iname k : String} {q : Rat} (hkk : k = "min" ∨ k = "max")
    (hb : BoundWritten round re jn iname k q) :
    ∃ uj j, j ∈ h.joints ∧ f.limits.lookup (code jn) = some (Desc.limitsOf round uj (toJoint code j)) ∧
      (toJoint code j).enable = true ∧ (∀ i ∈ (toJoint code j).cmds, i.enable = true) ∧
      ∃ i ∈ (toJoint code j).cmds, i.name = toIName code iname.toList ∧ i.Usable round ∧
        (k = "min" → Desc.Reads round i.min q) ∧ (k = "max" → Desc.Reads round i.max q) := by
  obtain ⟨j, hj, hjn, r⟩ := bound_seen (code := code) H hkk hb
  have hnd : ((h.joints.map (toJoint code)).map (·.name)).Nodup := by
    have : (h.joints.map (toJoint code)).map (·.name) = (h.joints.map (·.name)).map code := by
      simp [toJoint, Function.comp_def]
    rw [this]; exact hd.map hc
  obtain ⟨uj, -, hl, -⟩ := Desc.jointLoop_limits hf (by intro _ _; rfl) hnd (toJoint code j) (List.mem_map.2 ⟨j, hj, rfl⟩)
  refine ⟨uj, j, hj, ?_, r⟩
  have : (toJoint code j).name = code jn := by show code j.name = _; rw [hjn]
  rw [← this]; exact hl

end Verif.Xml
