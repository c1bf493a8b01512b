import Verif.Xml.Whole
/-!
# The tags inside `<ros2_control>`, and the document
-/
namespace Verif.Xml
open Verif.Text (Blanks Digits decimalValue Spelled trueWord falseWord ListText IntText SignText Out strip parseBool stod scanInt
  parseIntArray toLowerCase Re isDigit isBlank)
open Verif.Desc (MimicAttr)

/-- The elements of a list with this tag. -/
def sel (l : List Elem) (t : String) : List Elem := l.filter (fun c => c.tag = t)

theorem sel_snoc (l : List Elem) (e : Elem) (t : String) : sel (l ++ [e]) t = if e.tag = t then sel l t ++ [e] else sel l t := by
  unfold sel
  rw [List.filter_append]
  by_cases h : e.tag = t
  · simp [h]
  · simp [h]

theorem forall₂_snoc {α β : Type} {P : α → β → Prop} {l : List α} {r : List β} {a : α} {b : β} (h : List.Forall₂ P l r) (hab : P a b) :
    List.Forall₂ P (l ++ [a]) (r ++ [b]) := List.rel_append h (.cons hab .nil)

theorem mem_snoc {l : List Elem} {e : Elem} {P : Elem → Prop} (h : ∀ c ∈ l, P c) (he : P e) : ∀ c ∈ l ++ [e], P c := by
  intro c hc
  rcases List.mem_append.1 hc with hc | hc
  · exact h c hc
  · rw [List.mem_singleton.1 hc]; exact he

/-- The hardware part. -/
structure HwInv (l : List Elem) (h : Hw) : Prop where
  good : ∀ c ∈ l, GoodHardware c
  plugin : LastValue l (fun _ => True) (fun x v => ∃ p, FirstTag x "plugin" p ∧ TextIs p v) [] h.plugin
  group : LastValue l (fun x => ∃ g, FirstTag x "group" g) (fun x v => ∃ g, FirstTag x "group" g ∧ TextIs g v) [] h.group
  params : LastValue l (fun x => tags x "param" ≠ []) (fun x m => ParamsAre (tags x "param") m) [] h.params

/-- The properties part. -/
structure PropInv (round : Rat → Option Rat) (l : List Elem) (p0 : Int) (h : Hw) : Prop where
  good : ∀ c ∈ l, GoodProperties round c
  cores : LastValue l (HasAsync "affinity") (AsyncAttr "affinity" (CoresText round)) [] h.cores
  policy : LastValue l (HasAsync "scheduling_policy")
    (AsyncAttr "scheduling_policy" (fun s v => v = Text.toLowerCase s)) "synchronized".toList h.policy
  warn : LastValue l (HasAsync "print_warnings") (AsyncAttr "print_warnings" BoolText) true h.warn
  priority : LastValue l (HasAsync "thread_priority") (AsyncAttr "thread_priority" PosText) p0 h.priority

/-- What holds after these elements. -/
structure Inv (round : Rat → Option Rat) (l : List Elem) (h0 h : Hw) : Prop where
  known : ∀ c ∈ l, c.tag ∈ ["hardware", "properties", "joint", "sensor", "gpio", "transmission"]
  hardware : HwInv (sel l "hardware") h
  properties : PropInv round (sel l "properties") h0.priority h
  joints : List.Forall₂ IsComp (sel l "joint") h.joints
  sensors : List.Forall₂ IsComp (sel l "sensor") h.sensors
  gpios : List.Forall₂ IsGpio (sel l "gpio") h.gpios
  trans : List.Forall₂ (RawTrans round) (sel l "transmission") h.trans
  frame : h.name = h0.name ∧ h.type = h0.type ∧ h.rwRate = h0.rwRate ∧ h.isAsync = h0.isAsync

theorem group_is (old : Str) (e : Elem) :
    ((∃ g, FirstTag e "group" g) → ∃ g, FirstTag e "group" g ∧ TextIs g (groupOf old e)) ∧
    ((¬ ∃ g, FirstTag e "group" g) → groupOf old e = old) := by
  unfold groupOf
  simp only [firstTag_iff, textIs_iff]
  cases e.first "group" with
  | none => simp
  | some g => simp

theorem paramsOf_ok {old m : List (Str × Str)} {e : Elem} (h : paramsOf old e = .ok m) :
    (tags e "param" ≠ [] → ParamsAre (tags e "param") m) ∧ (¬ tags e "param" ≠ [] → m = old) ∧
    ∀ p ∈ tags e "param", ∃ k, Has p "name" k := by
  unfold paramsOf at h
  have ht : e.all "param" = tags e "param" := rfl
  rw [ht] at h
  by_cases hp : tags e "param" = []
  · rw [hp] at h ⊢
    cases h
    exact ⟨fun g => absurd rfl g, fun _ => rfl, by simp⟩
  · have : (tags e "param").isEmpty = false := by cases hh : tags e "param" with
      | nil => exact absurd hh hp
      | cons a b => rfl
    rw [this] at h
    have P := params_sound h
    exact ⟨fun _ => P, fun g => absurd hp g, P.1⟩

theorem onHardware_inv {l : List Elem} {h h' : Hw} {e : Elem} (I : HwInv l h) (he : onHardware h e = .ok h') :
    HwInv (l ++ [e]) h' ∧ h' = { h with plugin := h'.plugin, group := h'.group, params := h'.params } := by
  unfold onHardware at he
  simp only [bind_ok, pure_ok] at he
  obtain ⟨pl, hp, ps, hps, rfl⟩ := he
  have hp' := (plugin_ok _ _).1 hp
  obtain ⟨p1, p2, p3⟩ := paramsOf_ok hps
  obtain ⟨g1, g2⟩ := group_is h.group e
  refine ⟨⟨mem_snoc I.good ⟨?_, p3⟩, ?_, lastValue_snoc I.group g1 g2, lastValue_snoc I.params p1 p2⟩, rfl⟩
  · obtain ⟨p, hp, -⟩ := hp'; exact ⟨p, hp⟩
  · exact lastValue_snoc I.plugin (fun _ => hp') (fun g => absurd trivial g)

theorem first_unique {e : Elem} {t : String} {a b : Elem} (h : FirstTag e t a) (g : FirstTag e t b) : a = b := by
  rw [firstTag_iff] at h g
  rw [h] at g; cases g; rfl

/-- No `async` tag: nothing changes. -/
theorem noAsync {e : Elem} (h : e.first "async" = none) (k : String) : ¬ HasAsync k e := by
  rintro ⟨a, s, ha, -⟩
  rw [firstTag_iff, h] at ha
  cases ha

theorem asyncAttr_some {α : Type} {e a : Elem} (h : e.first "async" = some a) (k : String) (V : Str → α → Prop) (v : α) :
    AsyncAttr k V e v ↔ ∃ raw, a.find k = some raw ∧ V (strip raw) v := by
  constructor
  · rintro ⟨a', s, ha, hs, hv⟩
    rw [firstTag_iff, h] at ha; cases ha
    obtain ⟨raw, h1, rfl⟩ := (has_iff _ _ _).1 hs
    exact ⟨raw, h1, hv⟩
  · rintro ⟨raw, h1, hv⟩
    exact ⟨a, strip raw, (firstTag_iff _ _ _).2 h, (has_iff _ _ _).2 ⟨raw, h1, rfl⟩, hv⟩

theorem hasAsync_some {e a : Elem} (h : e.first "async" = some a) (k : String) : HasAsync k e ↔ ∃ raw, a.find k = some raw := by
  constructor
  · rintro ⟨a', s, ha, hs⟩
    rw [firstTag_iff, h] at ha; cases ha
    obtain ⟨raw, h1, -⟩ := (has_iff _ _ _).1 hs
    exact ⟨raw, h1⟩
  · rintro ⟨raw, h1⟩
    exact ⟨a, strip raw, (firstTag_iff _ _ _).2 h, (has_iff _ _ _).2 ⟨raw, h1, rfl⟩⟩

/-- An optional attribute that overrides an old value. -/
theorem override_ok {α : Type} {e a : Elem} (h : e.first "async" = some a) {k : String} {V : Str → α → Prop} {old v : α} {f : R α}
    (hnone : a.find k = none → f = .ok old) (hsome : ∀ raw, a.find k = some raw → (f = .ok v ↔ V (strip raw) v)) (hf : f = .ok v) :
    (HasAsync k e → AsyncAttr k V e v) ∧ (¬ HasAsync k e → v = old) := by
  rw [hasAsync_some h, asyncAttr_some h]
  constructor
  · rintro ⟨raw, hr⟩; exact ⟨raw, hr, (hsome raw hr).1 hf⟩
  · intro hn
    cases hc : a.find k with
    | none => rw [hnone hc] at hf; cases hf; rfl
    | some raw => exact absurd ⟨raw, hc⟩ hn

theorem threadPriority_some {e : Elem} {raw : Str} (h : e.find "thread_priority" = some raw) (v : Int) :
    threadPriority e = .ok v ↔ PosText (strip raw) v := by
  rw [threadPriority_ok, optAttr_some h]

theorem onProperties_inv {round : Rat → Option Rat} {l : List Elem} {p0 : Int} {h h' : Hw} {e : Elem} (I : PropInv round l p0 h)
    (he : onProperties round h e = .ok h') :
    PropInv round (l ++ [e]) p0 h' ∧ h' = { h with cores := h'.cores, policy := h'.policy, priority := h'.priority, warn := h'.warn } := by
  unfold onProperties at he
  cases ha : e.first "async" with
  | none =>
    rw [ha] at he
    cases he
    have N := noAsync ha
    exact ⟨⟨mem_snoc I.good ⟨fun g => absurd g (N _), fun g => absurd g (N _), fun g => absurd g (N _)⟩,
      lastValue_snoc I.cores (fun g => absurd g (N _)) (fun _ => rfl), lastValue_snoc I.policy (fun g => absurd g (N _)) (fun _ => rfl),
      lastValue_snoc I.warn (fun g => absurd g (N _)) (fun _ => rfl), lastValue_snoc I.priority (fun g => absurd g (N _)) (fun _ => rfl)⟩, rfl⟩
  | some a =>
    rw [ha] at he
    have ho : onAsync round h a = .ok h' := by
      dsimp only at he
      cases hx : onAsync round h a with
      | ok y => rw [hx] at he; exact he
      | error x => rw [hx] at he; cases x <;> cases he
    unfold onAsync at ho
    simp only [bind_ok, pure_ok] at ho
    obtain ⟨cores, hc, prio, hp, warn, hw, rfl⟩ := ho
    have C := override_ok ha (k := "affinity") (V := CoresText round) (old := h.cores) (fun hn => by unfold coresOf; rw [hn])
      (fun raw hr => by unfold coresOf; rw [hr]; exact cores_ok round _ _) hc
    have P := override_ok ha (k := "thread_priority") (V := PosText) (old := h.priority) (fun hn => by unfold asyncPriority; rw [hn])
      (fun raw hr => by unfold asyncPriority; rw [hr]; exact threadPriority_some hr _) hp
    have W := override_ok ha (k := "print_warnings") (V := BoolText) (old := h.warn) (fun hn => by unfold warnOf; rw [hn])
      (fun raw hr => by unfold warnOf; rw [hr]; exact parseBool_ok _ _) hw
    have S := override_ok ha (k := "scheduling_policy") (V := fun s v => v = toLowerCase s) (old := h.policy) (v := policyOf h.policy a)
      (f := .ok (policyOf h.policy a)) (fun hn => by unfold policyOf; rw [hn]) (fun raw hr => by unfold policyOf; rw [hr]; simp) rfl
    exact ⟨⟨mem_snoc I.good ⟨fun g => ⟨_, C.1 g⟩, fun g => ⟨_, P.1 g⟩, fun g => ⟨_, W.1 g⟩⟩,
      lastValue_snoc I.cores C.1 C.2, lastValue_snoc I.policy S.1 S.2, lastValue_snoc I.warn W.1 W.2, lastValue_snoc I.priority P.1 P.2⟩, rfl⟩

theorem map_ok {α β : Type} {x : R α} {f : α → β} {b : β} : x.map f = .ok b ↔ ∃ a, x = .ok a ∧ f a = b := by
  cases x with
  | error e => simp [Except.map]
  | ok a => simp [Except.map]

theorem inv_step {round : Rat → Option Rat} {l : List Elem} {h0 h h' : Hw} {e : Elem} (I : Inv round l h0 h) (he : child round h e = .ok h') :
    Inv round (l ++ [e]) h0 h' := by
  unfold child at he
  by_cases t1 : e.tag = "hardware"
  · rw [if_pos t1] at he
    obtain ⟨J, hh⟩ := onHardware_inv I.hardware he
    rw [hh]
    refine ⟨mem_snoc I.known (by simp [t1]), ?_, ?_, ?_, ?_, ?_, ?_, I.frame⟩ <;> rw [sel_snoc, t1]
    · exact ⟨J.good, J.plugin, J.group, J.params⟩
    · exact ⟨I.properties.good, I.properties.cores, I.properties.policy, I.properties.warn, I.properties.priority⟩
    · exact I.joints
    · exact I.sensors
    · exact I.gpios
    · exact I.trans
  rw [if_neg t1] at he
  by_cases t2 : e.tag = "properties"
  · rw [if_pos t2] at he
    obtain ⟨J, hh⟩ := onProperties_inv I.properties he
    rw [hh]
    refine ⟨mem_snoc I.known (by simp [t2]), ?_, ?_, ?_, ?_, ?_, ?_, I.frame⟩ <;> rw [sel_snoc, t2]
    · exact ⟨I.hardware.good, I.hardware.plugin, I.hardware.group, I.hardware.params⟩
    · exact ⟨J.good, J.cores, J.policy, J.warn, J.priority⟩
    · exact I.joints
    · exact I.sensors
    · exact I.gpios
    · exact I.trans
  rw [if_neg t2] at he
  have K : ∀ x : Hw, (x = { h with joints := x.joints, sensors := x.sensors, gpios := x.gpios, trans := x.trans }) →
      HwInv (sel l "hardware") x ∧ PropInv round (sel l "properties") h0.priority x := by
    intro x hx
    rw [hx]
    exact ⟨⟨I.hardware.good, I.hardware.plugin, I.hardware.group, I.hardware.params⟩,
      ⟨I.properties.good, I.properties.cores, I.properties.policy, I.properties.warn, I.properties.priority⟩⟩
  by_cases t3 : e.tag = "joint"
  · rw [if_pos t3, map_ok] at he
    obtain ⟨c, hc, rfl⟩ := he
    obtain ⟨K1, K2⟩ := K { h with joints := h.joints ++ [c] } rfl
    refine ⟨mem_snoc I.known (by simp [t3]), ?_, ?_, ?_, ?_, ?_, ?_, I.frame⟩ <;> rw [sel_snoc, t3]
    · exact K1
    · exact K2
    · exact forall₂_snoc I.joints (comp_sound hc)
    · exact I.sensors
    · exact I.gpios
    · exact I.trans
  rw [if_neg t3] at he
  by_cases t4 : e.tag = "sensor"
  · rw [if_pos t4, map_ok] at he
    obtain ⟨c, hc, rfl⟩ := he
    obtain ⟨K1, K2⟩ := K { h with sensors := h.sensors ++ [c] } rfl
    refine ⟨mem_snoc I.known (by simp [t4]), ?_, ?_, ?_, ?_, ?_, ?_, I.frame⟩ <;> rw [sel_snoc, t4]
    · exact K1
    · exact K2
    · exact I.joints
    · exact forall₂_snoc I.sensors (comp_sound hc)
    · exact I.gpios
    · exact I.trans
  rw [if_neg t4] at he
  by_cases t5 : e.tag = "gpio"
  · rw [if_pos t5, map_ok] at he
    obtain ⟨c, hc, rfl⟩ := he
    obtain ⟨K1, K2⟩ := K { h with gpios := h.gpios ++ [c] } rfl
    refine ⟨mem_snoc I.known (by simp [t5]), ?_, ?_, ?_, ?_, ?_, ?_, I.frame⟩ <;> rw [sel_snoc, t5]
    · exact K1
    · exact K2
    · exact I.joints
    · exact I.sensors
    · exact forall₂_snoc I.gpios (gpio_sound hc)
    · exact I.trans
  rw [if_neg t5] at he
  by_cases t6 : e.tag = "transmission"
  · rw [if_pos t6, map_ok] at he
    obtain ⟨c, hc, rfl⟩ := he
    obtain ⟨K1, K2⟩ := K { h with trans := h.trans ++ [c] } rfl
    refine ⟨mem_snoc I.known (by simp [t6]), ?_, ?_, ?_, ?_, ?_, ?_, I.frame⟩ <;> rw [sel_snoc, t6]
    · exact K1
    · exact K2
    · exact I.joints
    · exact I.sensors
    · exact I.gpios
    · exact forall₂_snoc I.trans (trans_sound hc)
  rw [if_neg t6] at he
  cases he

theorem children_inv {round : Rat → Option Rat} (es : List Elem) : ∀ (l : List Elem) (h0 h h' : Hw), Inv round l h0 h →
    children round es h = .ok h' → Inv round (l ++ es) h0 h' := by
  induction es with
  | nil => intro l h0 h h' I he; simp only [children, Except.ok.injEq] at he; rw [← he]; simpa using I
  | cons e es ih =>
    intro l h0 h h' I he
    rw [children] at he
    cases hc : child round h e with
    | error x => rw [hc] at he; cases he
    | ok h1 =>
      rw [hc] at he
      have := ih (l ++ [e]) h0 h1 h' (inv_step I hc) he
      simpa using this

theorem inv_blank (round : Rat → Option Rat) (name type : Str) (rate : Nat) (as : Bool) (prio : Int) :
    Inv round [] (blank name type rate as prio) (blank name type rate as prio) where
  known := by simp
  hardware := ⟨by simp [sel], lastValue_nil .., lastValue_nil .., lastValue_nil ..⟩
  properties := ⟨by simp [sel], lastValue_nil .., lastValue_nil .., lastValue_nil .., lastValue_nil ..⟩
  joints := .nil
  sensors := .nil
  gpios := .nil
  trans := .nil
  frame := ⟨rfl, rfl, rfl, rfl⟩

theorem priorityOf_ok (e : Elem) (as : Bool) (p : Int) :
    priorityOf e as = .ok p ↔ (if as = true then OptAttr e "thread_priority" PosText 50 p else p = 2 ^ 31 - 1) := by
  unfold priorityOf
  cases as with
  | true => simp only [if_true]; exact threadPriority_ok e p
  | false =>
    show (.ok (2 ^ 31 - 1) : R Int) = .ok p ↔ p = 2 ^ 31 - 1
    rw [Except.ok.injEq]; exact eq_comm

theorem resource_sound {round : Rat → Option Rat} {e : Elem} {h : Hw} (hr : resource round e = .ok h) : IsHw round e h := by
  unfold resource at hr
  simp only [bind_ok, pure_ok] at hr
  obtain ⟨name, hn, type, ht, rate, hra, as, has, prio, hp, h1, hc, ts, hts, rfl⟩ := hr
  have I := children_inv e.kids [] _ _ _ (inv_blank round name type rate as prio) hc
  rw [List.nil_append] at I
  obtain ⟨f1, f2, f3, f4⟩ := I.frame
  have f1 : h1.name = name := f1
  have f2 : h1.type = type := f2
  have f3 : h1.rwRate = rate := f3
  have f4 : h1.isAsync = as := f4
  refine ⟨?_, ?_, ?_, ?_, I.known, I.hardware.good, I.properties.good, I.hardware.plugin, I.hardware.group, I.hardware.params,
    I.properties.cores, I.properties.policy, I.properties.warn, ⟨prio, ?_, I.properties.priority⟩, I.joints, I.sensors, I.gpios, ?_⟩
  · show Has e "name" h1.name; rw [f1]; exact (attr_ok _ _ _).1 hn
  · show Has e "type" h1.type; rw [f2]; exact (attr_ok _ _ _).1 ht
  · show OptAttr e "rw_rate" RateText 0 h1.rwRate; rw [f3]; exact (rwRate_ok _ _).1 hra
  · show OptAttr e "is_async" BoolText false h1.isAsync; rw [f4]; exact (isAsync_ok _ _).1 has
  · show (if h1.isAsync = true then _ else _); rw [f4]; exact (priorityOf_ok _ _ _).1 hp
  · exact forall₂_comp (fun a b c => fill_sound (e := a) (t := b) (t' := c)) I.trans ((each_ok _ _ _).1 hts)

/-! ## Acceptance -/

/-- An element that can be parsed. -/
def GoodKid (round : Rat → Option Rat) (e : Elem) : Prop :=
  (e.tag = "hardware" ∧ GoodHardware e) ∨ (e.tag = "properties" ∧ GoodProperties round e) ∨
  (e.tag = "joint" ∧ ∃ c, IsComp e c) ∨ (e.tag = "sensor" ∧ ∃ c, IsComp e c) ∨ (e.tag = "gpio" ∧ ∃ c, IsGpio e c) ∨
  (e.tag = "transmission" ∧ ∃ type js t, IsTrans round type js e t)

theorem onHardware_complete (h : Hw) {e : Elem} (g : GoodHardware e) : ∃ h', onHardware h e = .ok h' := by
  obtain ⟨⟨p, hp⟩, hps⟩ := g
  have h1 := (plugin_ok e (textOf p)).2 ⟨p, hp, (textIs_iff _ _).2 rfl⟩
  have h2 : ∃ m, paramsOf h.params e = .ok m := by
    unfold paramsOf
    split
    · exact ⟨_, rfl⟩
    · exact params_exists _ hps []
  obtain ⟨m, h2⟩ := h2
  refine ⟨{ h with plugin := textOf p, group := groupOf h.group e, params := m }, ?_⟩
  unfold onHardware
  simp only [bind_ok, pure_ok]
  exact ⟨_, h1, m, h2, rfl⟩

theorem onProperties_complete (round : Rat → Option Rat) (h : Hw) {e : Elem} (g : GoodProperties round e) :
    ∃ h', onProperties round h e = .ok h' := by
  unfold onProperties
  cases ha : e.first "async" with
  | none => exact ⟨h, rfl⟩
  | some a =>
    obtain ⟨g1, g2, g3⟩ := g
    simp only [hasAsync_some ha, asyncAttr_some ha] at g1 g2 g3
    have h1 : ∃ c, coresOf round h.cores a = .ok c := by
      unfold coresOf
      cases hf : a.find "affinity" with
      | none => exact ⟨_, rfl⟩
      | some raw =>
        obtain ⟨v, r, hr, hv⟩ := g1 ⟨raw, hf⟩
        rw [hf] at hr; cases hr
        exact ⟨v, (cores_ok _ _ _).2 hv⟩
    have h2 : ∃ c, asyncPriority h.priority a = .ok c := by
      unfold asyncPriority
      cases hf : a.find "thread_priority" with
      | none => exact ⟨_, rfl⟩
      | some raw =>
        obtain ⟨v, r, hr, hv⟩ := g2 ⟨raw, hf⟩
        rw [hf] at hr; cases hr
        exact ⟨v, (threadPriority_some hf _).2 hv⟩
    have h3 : ∃ c, warnOf h.warn a = .ok c := by
      unfold warnOf
      cases hf : a.find "print_warnings" with
      | none => exact ⟨_, rfl⟩
      | some raw =>
        obtain ⟨v, r, hr, hv⟩ := g3 ⟨raw, hf⟩
        rw [hf] at hr; cases hr
        exact ⟨v, (parseBool_ok _ _).2 hv⟩
    obtain ⟨c, h1⟩ := h1
    obtain ⟨p, h2⟩ := h2
    obtain ⟨w, h3⟩ := h3
    have : onAsync round h a = .ok { h with cores := c, policy := policyOf h.policy a, priority := p, warn := w } := by
      unfold onAsync
      simp only [bind_ok, pure_ok]
      exact ⟨c, h1, p, h2, w, h3, rfl⟩
    dsimp only
    rw [this]
    exact ⟨_, rfl⟩

theorem child_complete (round : Rat → Option Rat) (h : Hw) {e : Elem} (g : GoodKid round e) : ∃ h', child round h e = .ok h' := by
  unfold child
  rcases g with ⟨t, g⟩ | ⟨t, g⟩ | ⟨t, c, g⟩ | ⟨t, c, g⟩ | ⟨t, c, g⟩ | ⟨t, ty, js, c, g⟩
  · rw [if_pos t]; exact onHardware_complete h g
  · rw [if_neg (by rw [t]; decide), if_pos t]; exact onProperties_complete round h g
  · obtain ⟨c', hc⟩ := comp_complete g
    rw [if_neg (by rw [t]; decide), if_neg (by rw [t]; decide), if_pos t, hc]; exact ⟨_, rfl⟩
  · obtain ⟨c', hc⟩ := comp_complete g
    rw [if_neg (by rw [t]; decide), if_neg (by rw [t]; decide), if_neg (by rw [t]; decide), if_pos t, hc]; exact ⟨_, rfl⟩
  · obtain ⟨c', hc⟩ := gpio_complete g
    rw [if_neg (by rw [t]; decide), if_neg (by rw [t]; decide), if_neg (by rw [t]; decide), if_neg (by rw [t]; decide), if_pos t, hc]
    exact ⟨_, rfl⟩
  · obtain ⟨c', hc⟩ := trans_complete g
    rw [if_neg (by rw [t]; decide), if_neg (by rw [t]; decide), if_neg (by rw [t]; decide), if_neg (by rw [t]; decide),
      if_neg (by rw [t]; decide), if_pos t, hc]
    exact ⟨_, rfl⟩

theorem children_complete (round : Rat → Option Rat) {es : List Elem} (g : ∀ e ∈ es, GoodKid round e) : ∀ h, ∃ h', children round es h = .ok h' := by
  induction es with
  | nil => intro h; exact ⟨h, rfl⟩
  | cons e es ih =>
    intro h
    obtain ⟨h1, hc⟩ := child_complete round h (g e (List.mem_cons_self ..))
    rw [children, hc]
    exact ih (fun x hx => g x (List.mem_cons_of_mem _ hx)) h1

theorem forall₂_mem {α β : Type} {P : α → β → Prop} {l : List α} {r : List β} (h : List.Forall₂ P l r) : ∀ a ∈ l, ∃ b, P a b := by
  induction h with
  | nil => simp
  | cons hp _ ih =>
    intro a ha
    rcases List.mem_cons.1 ha with rfl | ha
    · exact ⟨_, hp⟩
    · exact ih a ha

theorem goodKids {round : Rat → Option Rat} {e : Elem} {h : Hw} (H : IsHw round e h) : ∀ c ∈ e.kids, GoodKid round c := by
  intro c hc
  have mem : ∀ t, c.tag = t → c ∈ tags e t := by
    intro t ht; unfold tags; rw [List.mem_filter]; exact ⟨hc, by simpa using ht⟩
  have := H.known c hc
  simp only [List.mem_cons, List.not_mem_nil, or_false] at this
  rcases this with t | t | t | t | t | t
  · exact .inl ⟨t, H.hardware c (mem _ t)⟩
  · exact .inr (.inl ⟨t, H.properties c (mem _ t)⟩)
  · exact .inr (.inr (.inl ⟨t, forall₂_mem H.joints c (mem _ t)⟩))
  · exact .inr (.inr (.inr (.inl ⟨t, forall₂_mem H.sensors c (mem _ t)⟩)))
  · exact .inr (.inr (.inr (.inr (.inl ⟨t, forall₂_mem H.gpios c (mem _ t)⟩))))
  · exact .inr (.inr (.inr (.inr (.inr ⟨t, h.type, h.joints, forall₂_mem H.trans c (mem _ t)⟩))))

theorem names_eq {l : List Elem} {a b : List Comp} (h1 : List.Forall₂ IsComp l a) (h2 : List.Forall₂ IsComp l b) :
    a.map (·.name) = b.map (·.name) := by
  induction h1 generalizing b with
  | nil => cases h2; rfl
  | cons hp _ ih =>
    cases h2 with
    | cons hq ht => rw [List.map_cons, List.map_cons, has_unique hp.name hq.name, ih ht]

theorem resource_complete {round : Rat → Option Rat} {e : Elem} {h : Hw} (H : IsHw round e h) : ∃ h', resource round e = .ok h' := by
  obtain ⟨p0, hp0, -⟩ := H.priority
  obtain ⟨h1, hc⟩ := children_complete round (goodKids H) (blank h.name h.type h.rwRate h.isAsync p0)
  have I := children_inv e.kids [] _ _ _ (inv_blank round h.name h.type h.rwRate h.isAsync p0) hc
  rw [List.nil_append] at I
  have ht : h1.type = h.type := I.frame.2.1
  obtain ⟨ts, hts⟩ := each_exists₂ (f := fillTrans h1.type h1.joints) (P := RawTrans round) (Q := IsTrans round h.type h.joints)
    (fun a b c hp hq => by rw [ht]; exact fill_complete (names_eq I.joints H.joints) hp hq) I.trans H.trans
  refine ⟨{ h1 with trans := ts }, ?_⟩
  unfold resource
  simp only [bind_ok, pure_ok]
  exact ⟨h.name, (attr_ok _ _ _).2 H.name, h.type, (attr_ok _ _ _).2 H.type, h.rwRate, (rwRate_ok _ _).2 H.rwRate, h.isAsync,
    (isAsync_ok _ _).2 H.isAsync, p0, (priorityOf_ok _ _ _).2 hp0, h1, hc, ts, hts, rfl⟩

/-! ## Documents -/

theorem container_ok (d : Doc) (c : Elem) : container d = .ok c ↔ Container d c := by
  unfold container Container
  cases d with
  | bad => simp
  | noRoot => simp
  | root e =>
    simp only [Doc.root.injEq, exists_eq_left']
    by_cases h1 : e.tag = "robot"
    · have h2 : e.tag ≠ "sdf" := by rw [h1]; decide
      rw [if_pos h1, Except.ok.injEq]
      constructor
      · rintro rfl; exact .inl ⟨h1, rfl⟩
      · rintro (⟨-, rfl⟩ | ⟨g, -⟩)
        · rfl
        · exact absurd g h2
    · rw [if_neg h1]
      by_cases h2 : e.tag = "sdf"
      · rw [if_pos h2]
        simp only [h2, true_and, firstTag_iff]
        cases e.first "model" with
        | none => simp
        | some m => simp
      · rw [if_neg h2]
        simp [h1, h2]

theorem parse_sound {round : Rat → Option Rat} {d : Doc} {hs : List Hw} (h : parse round d = .ok hs) : Describes round d hs := by
  unfold parse at h
  rw [bind_ok] at h
  obtain ⟨c, hc, h⟩ := h
  have ht : c.all "ros2_control" = tags c "ros2_control" := rfl
  rw [ht] at h
  refine ⟨c, (container_ok _ _).1 hc, ?_, ?_⟩
  · intro g; rw [g] at h; cases h
  · split at h
    · cases h
    · exact ((each_ok _ _ _).1 h).imp (fun _ _ => resource_sound)

theorem parse_complete {round : Rat → Option Rat} {d : Doc} {hs : List Hw} (h : Describes round d hs) : ∃ hs', parse round d = .ok hs' := by
  obtain ⟨c, hc, hne, H⟩ := h
  obtain ⟨bs, hbs⟩ := each_complete (f := resource round) H (fun _ _ => resource_complete)
  refine ⟨bs, ?_⟩
  unfold parse
  rw [bind_ok]
  have ht : c.all "ros2_control" = tags c "ros2_control" := rfl
  refine ⟨c, (container_ok _ _).2 hc, ?_⟩
  rw [ht, if_neg (by simpa using hne)]
  exact hbs

end Verif.Xml
