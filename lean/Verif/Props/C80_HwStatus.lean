import Verif.Status.Model
/-!
# C80: status messages of hardware components

A component whose `<hardware>` tag sets `status_publish_rate` publishes a message with every tick of a timer: what
`update_hardware_status_message` makes of the template of `init_hardware_status_message`, stamped with the time of the tick. There are
messages exactly if the rate is a positive number, the template was made and names a device, and there is a node. The methods that fill
the message are called on an initialised component.

The last sentence is false: the timer runs before `on_init` is called, and also after it failed.
-/
namespace Verif
namespace HwStatus

variable {P D : Type}

/-- A rounding for the examples. -/
def exactly : Rat → Option Rat := some

/-- The plugin of the examples: one device whose state is the variable; the variable is set by `on_init` to 5; updating refuses 7. -/
def demo : Plugin Nat Nat where
  initMsg p m := (p, { m with devices := [0, 0] }, true)
  update p m := (p, { m with devices := m.devices.map (· + p) }, p ≠ 7)
  onInit _ := (5, true)

def demoSetup : Setup := ⟨some "20.0".toList, true, true⟩

/-! ## The messages -/

/-- The histories that are allowed, newest event first: the template is made once, before anything else; every update is given the template
and is a call of the plugin; exactly after an update that succeeded its result is published, with a stamp; `on_init` comes at most once. -/
inductive Good (g : Plugin P D) (p0 : P) : List (Ev D) → Prop
  | nil : Good g p0 []
  | initMsg : Good g p0 [.initMsg (g.initMsg p0 {}).2.2]
  | onInit {l : List (Ev D)} (ok : Bool) : Good g p0 l → (∀ b, Ev.onInit b ∉ l) → Good g p0 (.onInit ok :: l)
  | refused {l : List (Ev D)} (p : P) : Good g p0 l → Ev.initMsg true ∈ l → (g.update p (g.initMsg p0 {}).2.1).2.2 = false →
      Good g p0 (.update (g.initMsg p0 {}).2.1 (g.update p (g.initMsg p0 {}).2.1).2.1 false :: l)
  | published {l : List (Ev D)} (p : P) (now : Nat) : Good g p0 l → Ev.initMsg true ∈ l →
      (g.update p (g.initMsg p0 {}).2.1).2.2 = true →
      Good g p0 (.publish { (g.update p (g.initMsg p0 {}).2.1).2.1 with stamp := now } ::
        .update (g.initMsg p0 {}).2.1 (g.update p (g.initMsg p0 {}).2.1).2.1 true :: l)

/-- Are messages wanted and possible? -/
def Ready (g : Plugin P D) (round : Rat → Option Rat) (u : Setup) (p0 : P) : Prop :=
  0 < rateOf round u.rate ∧ (g.initMsg p0 {}).2.2 = true ∧ (g.initMsg p0 {}).2.1.devices ≠ [] ∧ u.node = true ∧ u.makes = true

/-- The state after the first step fits the history. -/
structure Fits (g : Plugin P D) (round : Rat → Option Rat) (u : Setup) (p0 : P) (s : St P D) : Prop where
  good : Good g p0 s.tr
  start : s.pc ≠ .start
  fill : s.pc = .fill → s.template = (g.initMsg p0 {}).2.1 ∧ Ev.initMsg true ∈ s.tr ∧ Ready g round u p0
  box : ∀ m, s.box = some m → m = (g.initMsg p0 {}).2.1 ∧ Ev.initMsg true ∈ s.tr ∧ Ready g round u p0
  fresh : s.pc ≠ .done → s.pc ≠ .failed → ∀ b, Ev.onInit b ∉ s.tr
  refused : Ev.initMsg false ∈ s.tr → s.pc = .failed ∧ s.box = none ∧ ∀ b, Ev.onInit b ∉ s.tr

theorem fits_go (g : Plugin P D) (round : Rat → Option Rat) (u : Setup) (p0 : P) : Fits g round u p0 (step g round u (fresh p0) .go) := by
  show Fits g round u p0 (begin g round u { p := p0 })
  unfold begin
  dsimp only
  have hg : Good g p0 [Ev.initMsg (g.initMsg p0 {}).2.2] := .initMsg
  by_cases hr : 0 < rateOf round u.rate
  · rw [if_pos hr]
    by_cases hok : (g.initMsg p0 {}).2.2 = false
    · rw [if_pos hok]
      exact ⟨hg, by simp, by simp, by simp, by simp, by simp⟩
    · rw [if_neg hok]
      have hok : (g.initMsg p0 {}).2.2 = true := by simpa using hok
      by_cases hd : (g.initMsg p0 {}).2.1.devices = []
      · rw [if_pos hd]
        exact ⟨hg, by simp, by simp, by simp, by simp, by simp [hok]⟩
      · rw [if_neg hd]
        by_cases hn : u.node = false
        · rw [if_pos hn]
          exact ⟨hg, by simp, by simp, by simp, by simp, by simp [hok]⟩
        · rw [if_neg hn]
          by_cases hm : u.makes = false
          · rw [if_pos hm]
            exact ⟨hg, by simp, by simp, by simp, by simp, by simp [hok]⟩
          · rw [if_neg hm]
            exact ⟨hg, by simp, fun _ => ⟨rfl, by simp [hok], hr, hok, hd, by simpa using hn, by simpa using hm⟩,
              by simp, by simp, by simp [hok]⟩
  · rw [if_neg hr]
    exact ⟨.nil, by simp, by simp, by simp, by simp, by simp⟩

/-- What is known after the first step. -/
theorem go_first (g : Plugin P D) (round : Rat → Option Rat) (u : Setup) (p0 : P) :
    (step g round u (fresh p0) .go).pc ≠ .done ∧ ∀ a b c, Ev.update a b c ∉ (step g round u (fresh p0 : St P D) .go).tr := by
  show (begin g round u { p := p0 }).pc ≠ .done ∧ ∀ a b c, Ev.update a b c ∉ (begin g round u { p := p0 }).tr
  unfold begin
  dsimp only
  by_cases hr : 0 < rateOf round u.rate
  · rw [if_pos hr]
    by_cases hok : (g.initMsg p0 {}).2.2 = false
    · rw [if_pos hok]; simp
    · rw [if_neg hok]
      by_cases hd : (g.initMsg p0 {}).2.1.devices = []
      · rw [if_pos hd]; simp
      · rw [if_neg hd]
        by_cases hn : u.node = false
        · rw [if_pos hn]; simp
        · rw [if_neg hn]
          by_cases hm : u.makes = false
          · rw [if_pos hm]; simp
          · rw [if_neg hm]; simp
  · rw [if_neg hr]; simp

theorem fits_step (g : Plugin P D) (round : Rat → Option Rat) (u : Setup) (p0 : P) (s : St P D) (h : Fits g round u p0 s) (o : Op P) :
    Fits g round u p0 (step g round u s o) := by
  obtain ⟨h1, h2, h3, h4, h5, h6⟩ := h
  match o with
  | .go =>
    cases hp : s.pc with
    | start => exact absurd hp h2
    | fill =>
      simp only [step, hp]
      refine ⟨h1, by simp, by simp, fun m hm => ?_, fun _ _ => h5 (by simp [hp]) (by simp [hp]), fun hf => ?_⟩
      · have := h3 hp
        exact ⟨(Option.some.inj hm).symm.trans this.1, this.2⟩
      · exact absurd ((h6 hf).1.symm.trans hp) (by simp)
    | onInit =>
      simp only [step, hp]
      refine ⟨.onInit _ h1 (h5 (by simp [hp]) (by simp [hp])), ?_, ?_, fun m hm => ?_, ?_, fun hf => ?_⟩
      · simp only; split <;> simp
      · simp only; split <;> simp
      · exact ⟨(h4 m hm).1, List.mem_cons_of_mem _ (h4 m hm).2.1, (h4 m hm).2.2⟩
      · simp only; split <;> simp
      · have := (h6 (by simpa using hf)).1
        exact absurd (this.symm.trans hp) (by simp)
    | done => simp only [step, hp]; exact ⟨h1, h2, h3, h4, h5, h6⟩
    | failed => simp only [step, hp]; exact ⟨h1, h2, h3, h4, h5, h6⟩
  | .tick now =>
    simp only [step]
    split
    · unfold tick
      cases hb : s.box with
      | none => simp only; exact ⟨h1, h2, h3, h4, h5, h6⟩
      | some m =>
        obtain ⟨rfl, hi, hr0⟩ := h4 m hb
        simp only
        split
        · rename_i hr
          refine ⟨.published _ now h1 hi hr, h2, fun hp => ⟨(h3 hp).1, by simp [hi], hr0⟩, fun m' hm => ?_, fun a b c => ?_, fun hf => ?_⟩
          · exact ⟨(Option.some.inj hm).symm, by simp [hi], hr0⟩
          · simp [h5 a b c]
          · exact absurd ((h6 (by simpa using hf)).2.1.symm.trans hb) (by simp)
        · rename_i hr
          refine ⟨.refused _ h1 hi (by simpa using hr), h2, fun hp => ⟨(h3 hp).1, by simp [hi], hr0⟩, fun m' hm => ?_, fun a b c => ?_,
            fun hf => ?_⟩
          · exact ⟨(Option.some.inj hm).symm, by simp [hi], hr0⟩
          · simp [h5 a b c]
          · exact absurd ((h6 (by simpa using hf)).2.1.symm.trans hb) (by simp)
    · exact ⟨h1, h2, h3, h4, h5, h6⟩
  | .other f => exact ⟨h1, h2, h3, h4, h5, h6⟩
  | .destroy => exact ⟨h1, h2, h3, h4, h5, h6⟩

theorem fits_run (g : Plugin P D) (round : Rat → Option Rat) (u : Setup) (p0 : P) (s : St P D) (h : Fits g round u p0 s) (ops : List (Op P)) :
    Fits g round u p0 (run g round u s ops) := by
  induction ops generalizing s with
  | nil => exact h
  | cons o t ih => exact ih _ (fits_step g round u p0 s h o)

/-- The history of a component that started with its variables at `p0`, newest event first, under any schedule of its initialisation, the
timer, its other methods and its end. -/
def history (g : Plugin P D) (round : Rat → Option Rat) (u : Setup) (p0 : P) (ops : List (Op P)) : List (Ev D) :=
  (run g round u (fresh p0) (.go :: ops)).tr

theorem fits (g : Plugin P D) (round : Rat → Option Rat) (u : Setup) (p0 : P) (ops : List (Op P)) :
    Fits g round u p0 (run g round u (fresh p0) (.go :: ops)) := fits_run g round u p0 _ (fits_go g round u p0) ops

/-- **C80**: every history is one of the allowed ones. -/
theorem C80_history (g : Plugin P D) (round : Rat → Option Rat) (u : Setup) (p0 : P) (ops : List (Op P)) :
    Good g p0 (history g round u p0 ops) := (fits g round u p0 ops).good

/-- The schedule of the examples: initialised, a tick, a refused tick, a tick. -/
def demoOps : List (Op Nat) := [.go, .go, .tick 10, .other (fun _ => 7), .tick 20, .other (fun _ => 3), .tick 30]

example : history demo exactly demoSetup 0 demoOps =
    [.publish ⟨30, [3, 3]⟩, .update ⟨0, [0, 0]⟩ ⟨0, [3, 3]⟩ true, .update ⟨0, [0, 0]⟩ ⟨0, [7, 7]⟩ false,
      .publish ⟨10, [5, 5]⟩, .update ⟨0, [0, 0]⟩ ⟨0, [5, 5]⟩ true, .onInit true, .initMsg true] := by decide +kernel

/-- **C80**: a published message is what the plugin made of the template in that call, with a stamp. Nothing of earlier messages is in it. -/
theorem C80_messages (g : Plugin P D) (round : Rat → Option Rat) (u : Setup) (p0 : P) (ops : List (Op P)) (m : Msg D)
    (h : Ev.publish m ∈ history g round u p0 ops) :
    ∃ p now, (g.update p (g.initMsg p0 {}).2.1).2.2 = true ∧ m = { (g.update p (g.initMsg p0 {}).2.1).2.1 with stamp := now } := by
  have hg := C80_history g round u p0 ops
  revert h
  generalize history g round u p0 ops = l at hg
  intro h
  induction hg with
  | nil => simp at h
  | initMsg => simp at h
  | onInit ok _ _ ih => exact ih (by simpa using h)
  | refused p _ _ _ ih => exact ih (by simpa using h)
  | published p now _ _ hr ih =>
    rcases List.mem_cons.1 h with h | h
    · exact ⟨p, now, hr, by injection h⟩
    · exact ih (by simpa using h)

example : Ev.publish ⟨30, [3, 3]⟩ ∈ history demo exactly demoSetup 0 demoOps := by decide +kernel

/-- **C80**: a plugin that counts its messages in the message itself never gets beyond one. -/
theorem C80_no_memory (g : Plugin P D) (round : Rat → Option Rat) (u : Setup) (p0 : P) (ops : List (Op P)) (f : List D → List D)
    (hf : ∀ p m, (g.update p m).2.1.devices = f m.devices) (m : Msg D) (h : Ev.publish m ∈ history g round u p0 ops) :
    m.devices = f (g.initMsg p0 {}).2.1.devices := by
  obtain ⟨p, now, _, rfl⟩ := C80_messages g round u p0 ops m h
  exact hf _ _

/-- A plugin that counts. -/
def counting : Plugin Nat Nat :=
  { initMsg := fun p m => (p, { m with devices := [0] }, true)
    update := fun p m => (p, { m with devices := m.devices.map (· + 1) }, true)
    onInit := fun p => (p, true) }

example : history counting exactly demoSetup 0 [.go, .go, .tick 1, .tick 2] =
    [.publish ⟨2, [1]⟩, .update ⟨0, [0]⟩ ⟨0, [1]⟩ true, .publish ⟨1, [1]⟩, .update ⟨0, [0]⟩ ⟨0, [1]⟩ true, .onInit true, .initMsg true] := by
  decide +kernel

/-! ## When there are messages -/

theorem mem_update {g : Plugin P D} {p0 : P} {l : List (Ev D)} (hg : Good g p0 l) {m : Msg D} (h : Ev.publish m ∈ l) :
    ∃ a b, Ev.update a b true ∈ l := by
  induction hg with
  | nil => simp at h
  | initMsg => simp at h
  | onInit ok _ _ ih => obtain ⟨a, b, h⟩ := ih (by simpa using h); exact ⟨a, b, by simp [h]⟩
  | refused p _ _ _ ih => obtain ⟨a, b, h⟩ := ih (by simpa using h); exact ⟨a, b, by simp [h]⟩
  | published p now _ _ hr ih => exact ⟨_, _, List.mem_cons_of_mem _ List.mem_cons_self⟩

/-- The box is set if there was an update. -/
theorem update_ready (g : Plugin P D) (round : Rat → Option Rat) (u : Setup) (p0 : P) (s : St P D) (hs : Fits g round u p0 s)
    (h0 : ∀ a b c, Ev.update a b c ∈ s.tr → Ready g round u p0) (ops : List (Op P)) (a b : Msg D) (c : Bool)
    (h : Ev.update a b c ∈ (run g round u s ops).tr) : Ready g round u p0 := by
  induction ops generalizing s with
  | nil => exact h0 a b c h
  | cons o t ih =>
    refine ih _ (fits_step g round u p0 s hs o) ?_ h
    intro a b c h
    match o with
    | .go =>
      cases hp : s.pc with
      | start => exact absurd hp hs.start
      | fill => simp only [step, hp] at h; exact h0 a b c h
      | onInit => simp only [step, hp] at h; exact h0 a b c (by simpa using h)
      | done => simp only [step, hp] at h; exact h0 a b c h
      | failed => simp only [step, hp] at h; exact h0 a b c h
    | .tick now =>
      simp only [step] at h
      split at h
      · unfold tick at h
        cases hb : s.box with
        | none => rw [hb] at h; exact h0 a b c h
        | some m => exact (hs.box m hb).2.2
      · exact h0 a b c h
    | .other f => exact h0 a b c h
    | .destroy => exact h0 a b c h

/-- **C80**: the plugin is asked for messages under some schedule exactly if they are wanted and possible. -/
theorem C80_when (g : Plugin P D) (round : Rat → Option Rat) (u : Setup) (p0 : P) :
    (∃ ops a b c, Ev.update a b c ∈ history g round u p0 ops) ↔
      0 < rateOf round u.rate ∧ (g.initMsg p0 {}).2.2 = true ∧ (g.initMsg p0 {}).2.1.devices ≠ [] ∧ u.node = true ∧ u.makes = true := by
  constructor
  · rintro ⟨ops, a, b, c, h⟩
    refine update_ready g round u p0 _ (fits_go g round u p0) ?_ ops a b c h
    exact fun a b c h => absurd h ((go_first g round u p0).2 a b c)
  · rintro ⟨h1, h2, h3, h4, h5⟩
    refine ⟨[.go, .tick 0], (g.initMsg p0 {}).2.1, ?_⟩
    refine ⟨(g.update (g.initMsg p0 {}).1 (g.initMsg p0 {}).2.1).2.1, (g.update (g.initMsg p0 {}).1 (g.initMsg p0 {}).2.1).2.2, ?_⟩
    have e : step g round u (fresh p0) .go =
        { p := (g.initMsg p0 {}).1, template := (g.initMsg p0 {}).2.1, tr := [.initMsg true], pc := .fill, timer := true } := by
      simp [step, fresh, begin, h1, h2, h3, h4, h5]
    unfold history run
    simp only [List.foldl_cons, List.foldl_nil, e]
    show _ ∈ (tick g 0 (St.mk (g.initMsg p0 {}).1 .onInit (g.initMsg p0 {}).2.1 (some (g.initMsg p0 {}).2.1) true [.initMsg true])).tr
    unfold tick
    dsimp only
    by_cases hr : (g.update (g.initMsg p0 {}).1 (g.initMsg p0 {}).2.1).2.2 = true
    · rw [if_pos hr]; simp [hr]
    · rw [if_neg hr]; simp [hr]

/-- **C80**: which texts of `status_publish_rate` ask for messages. -/
theorem C80_rate (round : Rat → Option Rat) (r : Option (List Char)) :
    0 < rateOf round r ↔ ∃ t q, r = some t ∧ Text.stod round t = .ok q ∧ 0 < q := by
  cases r with
  | none => simp [rateOf]
  | some t =>
    simp only [rateOf]
    constructor
    · intro h
      cases hs : Text.stod round t <;> rw [hs] at h
      · exact ⟨t, _, rfl, hs, h⟩
      all_goals simp at h
    · rintro ⟨t', q, h, hq, h0⟩
      rw [← Option.some.inj h] at hq
      rw [hq]; exact h0

example : 0 < rateOf exactly (some "20.0".toList) ∧ ¬ 0 < rateOf exactly (some "0.0".toList) ∧ ¬ 0 < rateOf exactly (some "-5".toList) ∧
    ¬ 0 < rateOf exactly (some "20 Hz".toList) ∧ ¬ 0 < rateOf exactly none := by decide +kernel

theorem tick_frame (g : Plugin P D) (n : Nat) (t : St P D) :
    (tick g n t).timer = t.timer ∧ (tick g n t).template = t.template ∧ (tick g n t).pc = t.pc ∧ (tick g n t).box = t.box := by
  cases t with
  | mk p pc tpl box timer tr =>
    cases box with
    | none => exact ⟨rfl, rfl, rfl, rfl⟩
    | some m =>
      unfold tick
      dsimp only
      split <;> exact ⟨rfl, rfl, rfl, rfl⟩

/-- **C80**: after the first steps every tick asks the plugin once, with the template, and publishes its answer exactly if it succeeded. -/
theorem C80_every_tick (g : Plugin P D) (round : Rat → Option Rat) (u : Setup) (p0 : P) (ops : List (Op P)) (now : Nat)
    (hr : Ready g round u p0) (hgo : Op.go ∈ ops) (hd : Op.destroy ∉ ops) :
    let s := run g round u (fresh p0) (.go :: ops)
    let r := g.update s.p (g.initMsg p0 {}).2.1
    (run g round u (fresh p0) (.go :: (ops ++ [.tick now]))).tr =
      (if r.2.2 then [.publish { r.2.1 with stamp := now }] else []) ++ .update (g.initMsg p0 {}).2.1 r.2.1 r.2.2 :: s.tr := by
  intro s r
  have e : step g round u (fresh p0) .go =
      { p := (g.initMsg p0 {}).1, template := (g.initMsg p0 {}).2.1, tr := [.initMsg true], pc := .fill, timer := true } := by
    obtain ⟨h1, h2, h3, h4, h5⟩ := hr
    simp [step, fresh, begin, h1, h2, h3, h4, h5]
  have key : ∀ (ops : List (Op P)) (t : St P D), Op.destroy ∉ ops → t.timer = true → t.template = (g.initMsg p0 {}).2.1 → t.pc ≠ .start →
      (t.pc ≠ .fill → t.box = some (g.initMsg p0 {}).2.1) →
      (run g round u t ops).timer = true ∧ (run g round u t ops).template = (g.initMsg p0 {}).2.1 ∧ (run g round u t ops).pc ≠ .start ∧
      ((run g round u t ops).pc ≠ .fill → (run g round u t ops).box = some (g.initMsg p0 {}).2.1) ∧
      ((Op.go ∈ ops ∨ t.pc ≠ .fill) → (run g round u t ops).pc ≠ .fill) := by
    intro ops
    induction ops with
    | nil => intro t _ h1 h2 h3 h4; exact ⟨h1, h2, h3, h4, fun h => h.resolve_left (by simp)⟩
    | cons o l ih =>
      intro t hd h1 h2 h3 h4
      have hd' : Op.destroy ∉ l := fun h => hd (List.mem_cons_of_mem _ h)
      match o with
      | .go =>
        have hk : (step g round u t .go).timer = true ∧ (step g round u t .go).template = (g.initMsg p0 {}).2.1 ∧
            (step g round u t .go).pc ≠ .start ∧ (step g round u t .go).box = some (g.initMsg p0 {}).2.1 ∧
            (step g round u t .go).pc ≠ .fill := by
          cases hp : t.pc with
          | start => exact absurd hp h3
          | fill => simp [step, hp, h1, h2]
          | onInit =>
            have hb := h4 (by simp [hp])
            simp only [step, hp]
            refine ⟨h1, h2, ?_, hb, ?_⟩ <;> · split <;> simp
          | done => simp only [step, hp]; exact ⟨h1, h2, by simp, h4 (by simp [hp]), by simp⟩
          | failed => simp only [step, hp]; exact ⟨h1, h2, by simp, h4 (by simp [hp]), by simp⟩
        have := ih _ hd' hk.1 hk.2.1 hk.2.2.1 (fun _ => hk.2.2.2.1)
        exact ⟨this.1, this.2.1, this.2.2.1, this.2.2.2.1, fun _ => this.2.2.2.2 (.inr hk.2.2.2.2)⟩
      | .tick n =>
        have hk : (step g round u t (.tick n)).timer = t.timer ∧ (step g round u t (.tick n)).template = t.template ∧
            (step g round u t (.tick n)).pc = t.pc ∧ (step g round u t (.tick n)).box = t.box := by
          by_cases ht : t.timer = true
          · have : step g round u t (.tick n) = tick g n t := by simp only [step, ht, if_true]
            rw [this]; exact tick_frame g n t
          · have : step g round u t (.tick n) = t := by simp [step, ht]
            rw [this]; exact ⟨rfl, rfl, rfl, rfl⟩
        have := ih _ hd' (hk.1.trans h1) (hk.2.1.trans h2) (by rw [hk.2.2.1]; exact h3) (by rw [hk.2.2.1, hk.2.2.2]; exact h4)
        refine ⟨this.1, this.2.1, this.2.2.1, this.2.2.2.1, fun h => this.2.2.2.2 ?_⟩
        rcases h with h | h
        · exact .inl (by simpa using h)
        · exact .inr (by rw [hk.2.2.1]; exact h)
      | .other f =>
        have := ih (step g round u t (.other f)) hd' h1 h2 h3 h4
        refine ⟨this.1, this.2.1, this.2.2.1, this.2.2.2.1, fun h => this.2.2.2.2 ?_⟩
        rcases h with h | h
        · exact .inl (by simpa using h)
        · exact .inr h
      | .destroy => exact absurd List.mem_cons_self hd
  have hs : s = run g round u { p := (g.initMsg p0 {}).1, template := (g.initMsg p0 {}).2.1, tr := [.initMsg true], pc := .fill, timer := true }
      ops := by
    show run g round u (step g round u (fresh p0) .go) ops = _
    rw [e]
  have hk := key ops { p := (g.initMsg p0 {}).1, template := (g.initMsg p0 {}).2.1, tr := [.initMsg true], pc := .fill, timer := true }
    hd rfl rfl (by simp) (by simp)
  rw [← hs] at hk
  have hb := hk.2.2.2.1 (hk.2.2.2.2 (.inl hgo))
  have hrun : run g round u (fresh p0) (.go :: (ops ++ [.tick now])) = step g round u s (.tick now) := by
    simp only [s, run, List.foldl_cons, List.foldl_append, List.foldl_nil]
  rw [hrun]
  have ht : step g round u s (.tick now) = tick g now s := by simp only [step, hk.1, if_true]
  rw [ht]
  clear_value s
  clear hrun ht hs key hk e
  cases s with
  | mk p pc tpl box timer tr =>
    dsimp only at hb
    subst hb
    unfold tick
    dsimp only [r]
    by_cases h : (g.update p (g.initMsg p0 {}).2.1).2.2 = true
    · rw [if_pos h, if_pos h, h]; rfl
    · have h' : (g.update p (g.initMsg p0 {}).2.1).2.2 = false := by simpa using h
      rw [if_neg h, if_neg h, h']; rfl

example : Ready demo exactly demoSetup 0 := by unfold Ready; decide +kernel

/-- **C80**: a component that refuses to make the template is not initialised: `on_init` is never called and there are no messages. -/
theorem C80_refused (g : Plugin P D) (round : Rat → Option Rat) (u : Setup) (p0 : P) (ops : List (Op P))
    (h : Ev.initMsg false ∈ history g round u p0 ops) :
    (∀ b, Ev.onInit b ∉ history g round u p0 ops) ∧ ∀ a b c, Ev.update a b c ∉ history g round u p0 ops := by
  have hf := fits g round u p0 ops
  refine ⟨(hf.refused h).2.2, fun a b c hu => ?_⟩
  have hr := (C80_when g round u p0).1 ⟨ops, a, b, c, hu⟩
  have hg := C80_history g round u p0 ops
  revert h
  generalize history g round u p0 ops = l at hg
  intro h
  induction hg with
  | nil => simp at h
  | initMsg => rw [hr.2.1] at h; simp at h
  | onInit ok _ _ ih => exact ih (by simpa using h)
  | refused p _ _ _ ih => exact ih (by simpa using h)
  | published p now _ _ hr ih => exact ih (by simpa using h)

example : Ev.initMsg false ∈ history { demo with initMsg := fun p m => (p, m, false) } exactly demoSetup 0 [.go, .go, .tick 5] := by
  decide +kernel

theorem timer_off (g : Plugin P D) (round : Rat → Option Rat) (u : Setup) (ops : List (Op P)) (s : St P D) (ht : s.timer = false)
    (hp : s.pc ≠ .start) : ∃ l, (run g round u s ops).tr = l ++ s.tr ∧ (∀ a b c, Ev.update a b c ∉ l) ∧ ∀ m, Ev.publish m ∉ l := by
  induction ops generalizing s with
  | nil => exact ⟨[], rfl, by simp, by simp⟩
  | cons o t ih =>
    have key : (step g round u s o).timer = false ∧ (step g round u s o).pc ≠ .start ∧
        ∃ l, (step g round u s o).tr = l ++ s.tr ∧ (∀ a b c, Ev.update a b c ∉ l) ∧ ∀ m, Ev.publish m ∉ l := by
      match o with
      | .go =>
        cases hp' : s.pc with
        | start => exact absurd hp' hp
        | fill => simp only [step, hp']; exact ⟨ht, by simp, [], rfl, by simp, by simp⟩
        | onInit =>
          simp only [step, hp']
          refine ⟨ht, ?_, [.onInit _], rfl, by simp, by simp⟩
          split <;> simp
        | done => simp only [step, hp']; exact ⟨ht, by simp, [], rfl, by simp, by simp⟩
        | failed => simp only [step, hp']; exact ⟨ht, by simp, [], rfl, by simp, by simp⟩
      | .tick n => 
        have : step g round u s (.tick n) = s := by simp [step, ht]
        rw [this]; exact ⟨ht, hp, [], rfl, by simp, by simp⟩
      | .other f => exact ⟨ht, hp, [], rfl, by simp, by simp⟩
      | .destroy => exact ⟨rfl, hp, [], rfl, by simp, by simp⟩
    obtain ⟨k1, k2, l1, e1, a1, b1⟩ := key
    obtain ⟨l2, e2, a2, b2⟩ := ih _ k1 k2
    refine ⟨l2 ++ l1, ?_, fun a b c h => ?_, fun m h => ?_⟩
    · show (run g round u (step g round u s o) t).tr = _
      rw [e2, e1, List.append_assoc]
    · rcases List.mem_append.1 h with h | h
      · exact a2 a b c h
      · exact a1 a b c h
    · rcases List.mem_append.1 h with h | h
      · exact b2 m h
      · exact b1 m h

/-- **C80**: once the component is destroyed there are no more messages and no calls for them. -/
theorem C80_destroyed (g : Plugin P D) (round : Rat → Option Rat) (u : Setup) (p0 : P) (before after : List (Op P)) :
    ∃ l, history g round u p0 (before ++ .destroy :: after) = l ++ history g round u p0 before ∧ (∀ a b c, Ev.update a b c ∉ l) ∧
      ∀ m, Ev.publish m ∉ l := by
  have hf := fits g round u p0 before (D := D)
  have := timer_off g round u after
    (step g round u (run g round u (fresh p0) (.go :: before)) .destroy) rfl hf.start
  have e : history g round u p0 (before ++ .destroy :: after) =
      (run g round u (step g round u (run g round u (fresh p0) (.go :: before)) .destroy) after).tr := by
    simp only [history, run, List.foldl_cons, List.foldl_append]
  rw [e]
  exact this

example : history demo exactly demoSetup 0 [.go, .go, .tick 1, .destroy, .tick 2] = history demo exactly demoSetup 0 [.go, .go, .tick 1] := by
  decide +kernel

/-- **C80**: otherwise initialisation goes on to `on_init`, with or without messages. -/
theorem C80_goes_on (g : Plugin P D) (round : Rat → Option Rat) (u : Setup) (p0 : P) (h : 0 < rateOf round u.rate → (g.initMsg p0 {}).2.2 = true)
    (hm : u.makes = true) : ∃ b, Ev.onInit b ∈ history g round u p0 [.go, .go] := by
  have key : ∀ s : St P D, (s.pc = .onInit ∨ s.pc = .fill) → ∃ b, Ev.onInit b ∈ (run g round u s [.go, .go]).tr := by
    intro s hs
    rcases hs with hs | hs
    · refine ⟨(g.onInit s.p).2, ?_⟩
      simp only [run, List.foldl_cons, List.foldl_nil, step, hs]
      by_cases hr : (g.onInit s.p).2 = true <;> simp [hr]
    · refine ⟨(g.onInit s.p).2, ?_⟩
      simp [run, step, hs]
  refine key (begin g round u { p := p0 }) ?_
  unfold begin
  dsimp only
  by_cases hr : 0 < rateOf round u.rate
  · rw [if_pos hr, if_neg (by simp [h hr])]
    by_cases hd : (g.initMsg p0 {}).2.1.devices = []
    · rw [if_pos hd]; simp
    · rw [if_neg hd]
      by_cases hn : u.node = false
      · rw [if_pos hn]; simp
      · rw [if_neg hn, if_neg (by simp [hm])]; simp
  · rw [if_neg hr]; simp

example : history demo exactly { demoSetup with node := false } 0 [.go, .go] = [.onInit true, .initMsg true] := by decide +kernel

/-! ## Only initialised components are asked -/

/-- The full claim: when `update_hardware_status_message` is called, `on_init` has succeeded before. -/
def Initialised (g : Plugin P D) (round : Rat → Option Rat) (u : Setup) (p0 : P) (ops : List (Op P)) : Prop :=
  ∀ l1 l2 a b c, history g round u p0 ops = l1 ++ .update a b c :: l2 → Ev.onInit true ∈ l2

/-- **C80** (false of the code): the timer expires between the creation of the timer and `on_init`; the message is published with the
variables as they were before `on_init`. -/
theorem C80_before_on_init : ¬ Initialised demo exactly demoSetup 0 [.go, .tick 1, .go] := by
  intro h
  have := h [.onInit true, .publish ⟨1, [0, 0]⟩] [.initMsg true] ⟨0, [0, 0]⟩ ⟨0, [0, 0]⟩ true (by decide +kernel)
  simp at this

/-- **C80** (false of the code): `on_init` failed, and the messages go on until the component is destroyed. -/
theorem C80_after_failed_init :
    ¬ Initialised { demo with onInit := fun p => (p, false) } exactly demoSetup 0 [.go, .go, .tick 1] := by
  intro h
  have := h [.publish ⟨1, [0, 0]⟩] [.onInit false, .initMsg true] ⟨0, [0, 0]⟩ ⟨0, [0, 0]⟩ true (by decide +kernel)
  simp at this

/-- **C80**: the claim holds if the timer does not expire before the initialisation ended well (`_partial`: the two cases above are missing). -/
theorem C80_initialised_partial (g : Plugin P D) (round : Rat → Option Rat) (u : Setup) (p0 : P) (pre post : List (Op P))
    (hq : ∀ n, Op.tick n ∉ pre) (hd : (run g round u (fresh p0) (.go :: pre)).pc = .done) :
    Initialised g round u p0 (pre ++ post) := by
  have hdone : ∀ (ops : List (Op P)) (s : St P D), Fits g round u p0 s → (s.pc = .done → Ev.onInit true ∈ s.tr) →
      ((run g round u s ops).pc = .done → Ev.onInit true ∈ (run g round u s ops).tr) := by
    intro ops
    induction ops with
    | nil => intro s _ h; exact h
    | cons o t ih =>
      intro s hs h
      refine ih _ (fits_step g round u p0 s hs o) ?_
      match o with
      | .go =>
        cases hp : s.pc with
        | start => exact absurd hp hs.start
        | fill => simp [step, hp]
        | onInit =>
          simp only [step, hp]
          cases hr : (g.onInit s.p).2 <;> simp
        | done => have : step g round u s .go = s := by simp only [step, hp]
                  rw [this]; exact h
        | failed => have : step g round u s .go = s := by simp only [step, hp]
                    rw [this]; exact h
      | .tick n =>
        simp only [step, tick]
        split
        · cases hb : s.box with
          | none => exact h
          | some m =>
            simp only
            split
            · intro hp; simp [h hp]
            · intro hp; simp [h hp]
        · exact h
      | .other f => exact h
      | .destroy => exact h
  have hquiet : ∀ (ops : List (Op P)) (s : St P D), (∀ n, Op.tick n ∉ ops) → s.pc ≠ .start → (∀ a b c, Ev.update a b c ∉ s.tr) →
      ∀ a b c, Ev.update a b c ∉ (run g round u s ops).tr := by
    intro ops
    induction ops with
    | nil => intro s _ _ h; exact h
    | cons o t ih =>
      intro s hq hp h
      have hq' : ∀ n, Op.tick n ∉ t := fun n hn => hq n (List.mem_cons_of_mem _ hn)
      match o with
      | .go =>
        refine ih _ hq' ?_ ?_
        · cases hp' : s.pc with
          | start => exact absurd hp' hp
          | fill => simp [step, hp']
          | onInit => simp only [step, hp']; split <;> simp
          | done => simp [step, hp']
          | failed => simp [step, hp']
        · cases hp' : s.pc with
          | start => exact absurd hp' hp
          | fill => simp only [step, hp']; exact h
          | onInit => simp only [step, hp']; intro a b c; simp [h a b c]
          | done => simp only [step, hp']; exact h
          | failed => simp only [step, hp']; exact h
      | .tick n => exact absurd List.mem_cons_self (hq n)
      | .other f => exact ih _ hq' hp h
      | .destroy => exact ih _ hq' hp h
  have hgo0 : ∀ a b c, Ev.update a b c ∉ (step g round u (fresh p0 : St P D) .go).tr := by
    exact (go_first g round u p0).2
  have hf0 := fits_go g round u p0 (D := D)
  have h1 : ∀ a b c, Ev.update a b c ∉ (run g round u (fresh p0) (.go :: pre)).tr := hquiet pre _ hq hf0.start hgo0
  have h2 : Ev.onInit true ∈ (run g round u (fresh p0) (.go :: pre)).tr := hdone pre _ hf0 (by
    intro hp
    exact absurd hp (go_first g round u p0).1) hd
  -- from now on the history only grows
  have hgrow : ∀ (ops : List (Op P)) (s : St P D), s.pc ≠ .start → ∃ l, (run g round u s ops).tr = l ++ s.tr := by
    intro ops
    induction ops with
    | nil => intro s _; exact ⟨[], rfl⟩
    | cons o t ih =>
      intro s hp
      have : (step g round u s o).pc ≠ .start ∧ ∃ l, (step g round u s o).tr = l ++ s.tr := by
        match o with
        | .go =>
          cases hp' : s.pc with
          | start => exact absurd hp' hp
          | fill => simp only [step, hp']; exact ⟨by simp, [], rfl⟩
          | onInit => simp only [step, hp']; exact ⟨by split <;> simp, [.onInit _], rfl⟩
          | done => simp only [step, hp']; exact ⟨by simp, [], rfl⟩
          | failed => simp only [step, hp']; exact ⟨by simp, [], rfl⟩
        | .tick n =>
          simp only [step, tick]
          split
          · cases hb : s.box with
            | none => exact ⟨hp, [], rfl⟩
            | some m =>
              simp only
              split
              · exact ⟨hp, [_, _], rfl⟩
              · exact ⟨hp, [_], rfl⟩
          · exact ⟨hp, [], rfl⟩
        | .other f => exact ⟨hp, [], rfl⟩
        | .destroy => exact ⟨hp, [], rfl⟩
      obtain ⟨hp', l, hl⟩ := this
      obtain ⟨l', hl'⟩ := ih _ hp'
      exact ⟨l' ++ l, by show (run g round u (step g round u s o) t).tr = _; rw [hl', hl, List.append_assoc]⟩
  obtain ⟨l, hl⟩ := hgrow post (run g round u (fresh p0) (.go :: pre)) (by rw [hd]; simp)
  intro l1 l2 a b c he
  have hh : history g round u p0 (pre ++ post) = l ++ (run g round u (fresh p0) (.go :: pre)).tr := by
    rw [← hl]; simp only [history, run, List.foldl_cons, List.foldl_append]
  rw [hh] at he
  rcases List.append_eq_append_iff.1 he with ⟨k, hk1, hk2⟩ | ⟨k, hk1, hk2⟩
  · exact absurd (by rw [hk2]; simp) (h1 a b c)
  · cases k with
    | nil =>
      rw [List.nil_append] at hk2
      exact absurd (by rw [← hk2]; simp) (h1 a b c)
    | cons x xs =>
      rw [List.cons_append] at hk2
      injection hk2 with _ hk3
      rw [hk3]
      exact List.mem_append_right _ h2

example : (run demo exactly demoSetup (fresh 0) (.go :: [.go, .go])).pc = .done ∧
    (∃ l1 l2 a b c, history demo exactly demoSetup 0 ([.go, .go] ++ [.tick 10]) = l1 ++ .update a b c :: l2) := by
  refine ⟨by decide +kernel, [.publish ⟨10, [5, 5]⟩], [.onInit true, .initMsg true], ⟨0, [0, 0]⟩, ⟨0, [5, 5]⟩, true, by decide +kernel⟩

end HwStatus
end Verif
