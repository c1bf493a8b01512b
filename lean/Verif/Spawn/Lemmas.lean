import Verif.Spawn.Spec
import Verif.CM.Lenient
import Verif.Props.C14_C18_Switch
import Verif.Props.C06_C10_Controllers
import Verif.CM.Idle
import Mathlib.Data.List.DropRight
/-!
# Invariants of the clients
-/
namespace Verif
namespace Spawn
open CM

/-- What the controller manager looks like when it has executed a request with a certain answer; `cm0` is what it was
when it started to execute it. -/
def Effect (o : Oracle) (r : Req) (a : Resp) (cm0 cm : CM) : Prop :=
  match r with
  | .lookup n => a.state = cm.lcOf n
  | .list => a.names = cm.ctls.map (·.name)
  | .load n => a.ok = true → cm.lcOf n = some .unconfigured
  | .configure n => a.ok = true → cm.lcOf n = some .inactive
  | .switch d l asap s => a.ok = true →
      ((∀ n ∈ l, cm.lcOf n = some .active) ∧ ∀ n ∈ d, n ∉ l → cm.lcOf n ≠ some .active) ∨
      (s ≠ .strict ∧ (cm0.switchBegin o l d .strict asap).2 = .done .error)
  | .cleanup n => a.ok = true → cm.lcOf n = some .unconfigured
  | .unload n => a.ok = true → cm.lcOf n = none
  | .listHw => a.names = cm.rm.comps.map (·.name)
  | .setHw h t => a.state = (cm.rm.findHw h).map (·.lc) ∧ (a.ok = true → a.state = some t)
  | .setParam _ _ => True

theorem okOf_iff {r : Ret} : okOf r = true ↔ r = .ok := by simp [okOf]

theorem lcOf_of_mem {cm : CM} (hn : (cm.ctls.map (·.name)).Nodup) {c : Ctl} (h : c ∈ cm.ctls) : cm.lcOf c.name = some c.lc := by
  unfold CM.lcOf
  cases hf : cm.find c.name with
  | none => exact absurd (List.mem_map_of_mem h) (find_none.1 hf)
  | some d =>
    obtain ⟨h1, h2⟩ := find_some hf
    have := List.inj_on_of_nodup_map hn h1 h h2
    rw [this]; rfl

theorem cleanup_effect {o : Oracle} {cm : CM} {n : Name} (ok : (cm.cleanup o n).2 = .ok) :
    (cm.cleanup o n).1.lcOf n = some .unconfigured := by
  unfold CM.cleanup at ok ⊢
  split at ok
  · cases ok
  · rename_i hp
    rw [if_neg hp]
    split at ok
    · cases ok
    · rename_i c hf
      simp only [hf]
      split at ok
      · rename_i hl; unfold CM.lcOf; simp [hf, hl]
      · cases ok
      · cases ok
      · simp only [CM.cleanupSpec] at ok ⊢
        by_contra h
        simp [h] at ok

/-- A component whose state was set with OK is in this state. -/
theorem setHw_effect {o : Oracle} {cm : CM} (hr : Reach o cm) {n : Name} {t : LState} (ok : (cm.setHw o n t).2 = .ok) :
    ((cm.setHw o n t).1.rm.findHw n).map (·.lc) = some t := by
  have R : cm.rm.Inv := hr.inv.sys.claims.rm
  unfold CM.setHw at ok ⊢
  split at ok
  · cases ok
  · rename_i hp
    rw [if_neg hp]
    unfold RM.setComponentState at ok ⊢
    split at ok
    · cases ok
    · rename_i h hf
      have hb : (cm.rm.setHwState o h t).2.2 = true := by
        by_contra hb; simp [hb] at ok
      obtain ⟨e1, e2⟩ := setHwState_target o cm.rm h t hb
      have k := RM.setHwState_ok o R (RM.findHw_some hf).1 t
      have hm := k.frame.mem (RM.findHw_some hf).1
      have hfi := RM.findHw_of_mem k.inv.names hm
      have hnm : (cm.rm.setHwState o h t).2.1.name = n := by rw [k.frame.good.name]; exact (RM.findHw_some hf).2
      rw [hnm] at hfi
      simp only [hf, hfi, Option.map_some, e1]

/-- A request that was accepted and has been answered with OK, whatever its strictness. -/
theorem switch_effect {o : Oracle} {cm : CM} (hr : Reach o cm) {l d : List Name} {asap : Bool} {s : Strictness}
    (hw : (cm.switchBegin o l d s asap).2 = .wait) {ops : List CM.Op} (hp : (cm.switchBegin o l d s asap).1.WaitsThrough o ops)
    (hok : ((CM.run o (cm.switchBegin o l d s asap).1 ops).switchWake o).2 = some .ok) :
    ((∀ n ∈ l, ((CM.run o (cm.switchBegin o l d s asap).1 ops).switchWake o).1.lcOf n = some .active) ∧
      ∀ n ∈ d, n ∉ l → ((CM.run o (cm.switchBegin o l d s asap).1 ops).switchWake o).1.lcOf n ≠ some .active) ∨
    (s ≠ .strict ∧ (cm.switchBegin o l d .strict asap).2 = .done .error) := by
  by_cases he : (cm.switchBegin o l d .strict asap).2 = .done .error
  · refine .inr ⟨?_, he⟩
    rintro rfl
    rw [hw] at he; cases he
  · left
    have ag := switchBegin_agree o cm l d s asap he
    have hw' : (cm.switchBegin o l d .strict asap).2 = .wait := by
      rcases switchBegin_strict o cm l d asap he with ⟨_, _, h⟩ | ⟨h, _⟩
      · rw [ag, withStrictness, h] at hw; rw [hw] at h; exact hw
      · exact h
    obtain ⟨h1, h2⟩ := C15_ok_means_switched o cm hr l d s asap hw ops hp hok
    obtain ⟨R, A⟩ : ∃ R, Accepted cm (cm.switchBegin o l d .strict asap).1 l d R := by
      rcases switchBegin_strict o cm l d asap he with ⟨_, _, h⟩ | ⟨_, h⟩
      · rw [hw'] at h; simp at h
      · exact h
    have ea : (cm.switchBegin o l d s asap).1.sw.act = l ++ R := by rw [ag, withStrictness, hw', ← A.actL]
    have ed : (cm.switchBegin o l d s asap).1.sw.deact = d ++ R := by rw [ag, withStrictness, hw', ← A.deactL]
    refine ⟨?_, ?_⟩
    · intro n hn
      obtain ⟨c, hc, _⟩ := A.strictOk.actOk n hn
      exact h1 n (by rw [ea]; simp [hn]) (by unfold CM.lcOf; rw [hc]; simp)
    · intro n hn hna
      refine h2 n (by rw [ed]; simp [hn]) ?_
      rw [ea]
      intro hx
      rcases List.mem_append.1 hx with hx | hx
      · exact hna hx
      · exact (A.restart n hx).1 hn

/-- The effect of an answer given at once. -/
theorem handle_effect {o : Oracle} {cm cm' : CM} (hr : Reach o cm) {x : Extra} {r : Req} {a : Resp}
    (h : handle o cm x r = (cm', some a)) : Effect o r a cm cm' := by
  cases r with
  | list => simp only [handle, Prod.mk.injEq, Option.some.injEq] at h; obtain ⟨rfl, rfl⟩ := h; rfl
  | listHw => simp only [handle, Prod.mk.injEq, Option.some.injEq] at h; obtain ⟨rfl, rfl⟩ := h; rfl
  | setParam n p => trivial
  | load n =>
    simp only [handle, Prod.mk.injEq, Option.some.injEq] at h; obtain ⟨rfl, rfl⟩ := h
    intro ok
    simp only [okOf_iff] at ok
    have hr' := hr.step (.load n x.chainable x.async x.cfg x.fallbacks)
    rcases C07_load_result o cm n x.chainable x.async x.cfg x.fallbacks with ⟨h, _⟩ | ⟨_, _, c, h1, h2, _, _, h3⟩
    · rw [h] at ok; cases ok
    · have : c ∈ (cm.load o n x.chainable x.async x.cfg x.fallbacks).1.ctls := by rw [h3]; simp
      have := lcOf_of_mem (C07_names_unique o _ hr') this
      rw [h1, h2] at this
      exact this
  | configure n =>
    simp only [handle, Prod.mk.injEq, Option.some.injEq] at h; obtain ⟨rfl, rfl⟩ := h
    intro ok
    simp only [okOf_iff] at ok
    have hr' := hr.step (.configure n x.cfg x.ord x.rateOk)
    obtain ⟨c, h1, h2, h3, _⟩ := C09_configure_ok o cm hr n x.cfg x.ord x.rateOk ok
    have := lcOf_of_mem (C07_names_unique o _ hr') h1
    rw [h2, h3] at this
    exact this
  | lookup n => simp only [handle, Prod.mk.injEq, Option.some.injEq] at h; obtain ⟨rfl, rfl⟩ := h; rfl
  | cleanup n =>
    simp only [handle, Prod.mk.injEq, Option.some.injEq] at h; obtain ⟨rfl, rfl⟩ := h
    intro ok
    simp only [okOf_iff] at ok
    exact cleanup_effect ok
  | switch d l asap s =>
    intro ok
    have : (cm.switchBegin o l d s asap).2 = .done .ok := by
      simp only [handle] at h
      split at h
      · rename_i r e
        simp only [Prod.mk.injEq, Option.some.injEq] at h
        obtain ⟨rfl, rfl⟩ := h
        simp only [okOf_iff] at ok
        rw [e, ok]
      · simp at h
    by_cases he : (cm.switchBegin o l d .strict asap).2 = .done .error
    · refine .inr ⟨?_, he⟩
      rintro rfl
      rw [this] at he; simp at he
    · have ag := switchBegin_agree o cm l d s asap he
      rcases switchBegin_strict o cm l d asap he with ⟨rfl, rfl, _⟩ | ⟨hw, _⟩
      · simp
      · rw [ag, withStrictness, hw] at this; simp at this
  | unload n =>
    simp only [handle, Prod.mk.injEq, Option.some.injEq] at h; obtain ⟨rfl, rfl⟩ := h
    intro ok
    simp only [okOf_iff] at ok
    have := C08_unload_ok o cm n ok
    unfold CM.lcOf
    cases hf : (cm.unload o n).1.find n with
    | none => rfl
    | some c =>
      obtain ⟨h1, h2⟩ := find_some hf
      rw [this] at h1
      have := (List.mem_filter.1 h1).2
      simp [h2] at this
  | setHw n t =>
    simp only [handle] at h
    split at h
    · rename_i hf
      simp only [Prod.mk.injEq, Option.some.injEq] at h; obtain ⟨rfl, rfl⟩ := h
      simp [Effect, hf]
    · simp only [Prod.mk.injEq, Option.some.injEq] at h; obtain ⟨rfl, rfl⟩ := h
      exact ⟨rfl, fun ok => setHw_effect hr (okOf_iff.1 ok)⟩

/-- A request executed by the controller manager is an operation of it. -/
theorem handle_reach {o : Oracle} {cm cm' : CM} (hr : Reach o cm) (hp : cm.pending = false) {x : Extra} {r : Req}
    {a : Option Resp} (h : handle o cm x r = (cm', a)) : Reach o cm' := by
  cases r with
  | list => simp only [handle, Prod.mk.injEq] at h; obtain ⟨rfl, -⟩ := h; exact hr
  | listHw => simp only [handle, Prod.mk.injEq] at h; obtain ⟨rfl, -⟩ := h; exact hr
  | setParam n p => simp only [handle, Prod.mk.injEq] at h; obtain ⟨rfl, -⟩ := h; exact hr
  | load n =>
    simp only [handle, Prod.mk.injEq] at h; obtain ⟨rfl, -⟩ := h
    exact hr.step (.load n x.chainable x.async x.cfg x.fallbacks)
  | configure n =>
    simp only [handle, Prod.mk.injEq] at h; obtain ⟨rfl, -⟩ := h
    exact hr.step (.configure n x.cfg x.ord x.rateOk)
  | unload n =>
    simp only [handle, Prod.mk.injEq] at h; obtain ⟨rfl, -⟩ := h
    exact hr.step (.unload n)
  | lookup n => simp only [handle, Prod.mk.injEq] at h; obtain ⟨rfl, -⟩ := h; exact hr
  | cleanup n =>
    simp only [handle, Prod.mk.injEq] at h; obtain ⟨rfl, -⟩ := h
    exact hr.step (.cleanup n)
  | switch d l asap s =>
    have := hr.step (.switchBegin l d s asap)
    simp only [CM.step, hp, Bool.false_eq_true, if_false] at this
    simp only [handle] at h
    split at h <;>
    · rename_i e
      simp only [Prod.mk.injEq] at h; obtain ⟨rfl, -⟩ := h
      rw [e] at this; exact this
  | setHw n t =>
    simp only [handle] at h
    split at h
    · simp only [Prod.mk.injEq] at h; obtain ⟨rfl, -⟩ := h; exact hr
    · simp only [Prod.mk.injEq] at h; obtain ⟨rfl, -⟩ := h
      exact hr.step (.setHw n t)

theorem handle_none {o : Oracle} {cm cm' : CM} {x : Extra} {r : Req} (h : handle o cm x r = (cm', none)) :
    ∃ d l asap s, r = .switch d l asap s ∧ cm.switchBegin o l d s asap = (cm', .wait) := by
  cases r with
  | switch d l asap s =>
    refine ⟨d, l, asap, s, rfl, ?_⟩
    simp only [handle] at h
    split at h
    · simp at h
    · rename_i e; simp only [Prod.mk.injEq] at h; obtain ⟨rfl, -⟩ := h; exact e
  | setHw n t => simp only [handle] at h; split at h <;> simp at h
  | _ => simp [handle] at h

/-- Only waking and the time out end a waiting call. -/
theorem step_keeps_pending (o : Oracle) {cm : CM} (op : Op) (hp : cm.pending = true) (h : endsSwitch op = false) :
    (cm.step o op).pending = true := by
  cases op <;> simp only [CM.step]
  · rw [(SwSame.load o cm _ _ _ _ _).2]; exact hp
  · rw [(SwSame.configure o cm _ _ _ _).2]; exact hp
  · rw [(SwSame.cleanup o cm _).2]; exact hp
  · rw [(SwSame.unload o cm _).2]; exact hp
  · simp [hp]
  · simp [endsSwitch] at h
  · simp [endsSwitch] at h
  · rw [(Keeps.rtRead o _ cm).2.1]; exact hp
  · obtain ⟨_, _, _, e, _⟩ := rtUpdate_sw o _ _ cm; rw [e]; exact hp
  · rw [(Keeps.rtWrite o _ cm).2.1]; exact hp
  · simp only [CM.setHw]; split <;> exact hp
  · rw [(Keeps.shutdownAll o cm).2.1]; exact hp

/-! ## What is seen of the client follows its program -/

/-- The answers the client accepted. -/
def gots (w : List Wire) : List (Req × Resp) :=
  w.filterMap (fun e => match e with | .got r a => some (r, a) | _ => none)

/-- Answers lead the program from one place to another. -/
inductive Runs : Prog → List (Req × Resp) → Prog → Prop
  | nil {p : Prog} : Runs p [] p
  | cons {r : Req} {k : Resp → Prog} {a : Resp} {l : List (Req × Resp)} {q : Prog} (h : Runs (k a) l q) :
      Runs (.call r k) ((r, a) :: l) q

theorem Runs.snoc {p : Prog} {l : List (Req × Resp)} {r : Req} {k : Resp → Prog} (h : Runs p l (.call r k)) (a : Resp) :
    Runs p (l ++ [(r, a)]) (k a) := by
  generalize hq : Prog.call r k = q at h
  induction h with
  | nil => subst hq; exact .cons .nil
  | cons _ ih => exact .cons (ih hq)

theorem gots_append (u v : List Wire) : gots (u ++ v) = gots u ++ gots v := List.filterMap_append

/-- The request in question is the one the program wants to send. -/
def SentAt (c : Client) (u : List Wire) (r : Req) : Prop :=
  (Wire.interrupted ∉ u → ∃ k, Runs c.main (gots u) (.call r k)) ∧
  ∀ x y, u = x ++ .interrupted :: y → Wire.interrupted ∉ y → ∃ k, Runs c.onInt (gots y) (.call r k)

/-- Where the client is, given what was seen of it. -/
def Pos (c : Client) (w : List Wire) : Status → Prop
  | .locking _ => w = []
  | .running p _ _ false => Wire.interrupted ∉ w ∧ Runs c.main (gots w) p
  | .running p _ _ true => ∃ u v, w = u ++ .interrupted :: v ∧ Wire.interrupted ∉ v ∧ Runs c.onInt (gots v) p
  | .done n =>
    (Wire.interrupted ∉ w ∧ (Runs c.main (gots w) (.exit n) ∨ (n = 1 ∧ ((∃ r k, Runs c.main (gots w) (.call r k)) ∨ w = [])))) ∨
    ∃ u v, w = u ++ .interrupted :: v ∧ Wire.interrupted ∉ v ∧ (Runs c.onInt (gots v) (.exit n) ∨ (v = [] ∧ c.early = some n))
  | .raised => Wire.interrupted ∉ w → ∃ r k, Runs c.main (gots w) (.call r k)

/-- How many requests were sent last, without anything else happening. -/
def trailing (w : List Wire) : Nat := (w.rtakeWhile Wire.isSent).length

/-- The first layer of the invariant. -/
structure InvA (c : Client) (w : World) : Prop where
  pos : Pos c w.wire w.st
  snt : ∀ u id r v, w.wire = u ++ .sent id r :: v → SentAt c u r
  tries : ∀ p t cur h, w.st = .running p t cur h → trailing w.wire = t ∧ t ≤ 3 ∧ (cur = none → t < 3) ∧
    (cur ≠ none → ∃ r k, p = .call r k)
  three : ∀ u l v, w.wire = u ++ l ++ v → (∀ e ∈ l, Wire.isSent e = true) → l.length ≤ 3

theorem Pos.enter {c : Client} {w : List Wire} {p : Prog} {h : Bool}
    (hp : Pos c w (.running p 0 none h)) : Pos c w (Spawn.enter p h) := by
  unfold Spawn.enter
  split
  · cases h with
    | false => exact .inl ⟨hp.1, .inl hp.2⟩
    | true => obtain ⟨u, v, h1, h2, h3⟩ := hp; exact .inr ⟨u, v, h1, h2, .inl h3⟩
  · exact hp

theorem enter_running {p : Prog} {h : Bool} {q : Prog} {t : Nat} {cur : Option Nat} {h' : Bool}
    (e : enter p h = .running q t cur h') : q = p ∧ t = 0 ∧ cur = none ∧ h' = h := by
  unfold enter at e
  split at e
  · cases e
  · cases e; exact ⟨rfl, rfl, rfl, rfl⟩

theorem trailing_snoc (w : List Wire) (e : Wire) :
    trailing (w ++ [e]) = if e.isSent then trailing w + 1 else 0 := by
  unfold trailing
  rw [List.rtakeWhile_concat]
  split <;> simp_all

theorem le_trailing {u l : List Wire} (h : ∀ e ∈ l, Wire.isSent e = true) : l.length ≤ trailing (u ++ l) := by
  induction l using List.reverseRecOn with
  | nil => simp
  | append_singleton l e ih =>
    rw [← List.append_assoc, trailing_snoc, if_pos (h e (by simp))]
    have := ih (fun x hx => h x (by simp [hx]))
    simp; omega

theorem split_snoc {α : Type} {w u v : List α} {x e : α} (h : w ++ [e] = u ++ x :: v) :
    (v = [] ∧ x = e ∧ u = w) ∨ ∃ v', v = v' ++ [e] ∧ w = u ++ x :: v' := by
  rcases List.eq_nil_or_concat v with rfl | ⟨v', y, rfl⟩
  · have h := List.append_inj' h rfl
    exact .inl ⟨rfl, by simpa using h.2.symm, h.1.symm⟩
  · right
    rw [List.concat_eq_append] at h ⊢
    have h : w ++ [e] = (u ++ x :: v') ++ [y] := by simpa using h
    have h := List.append_inj' h rfl
    have : e = y := by simpa using h.2
    exact ⟨v', by rw [this], h.1⟩

theorem split3_snoc {α : Type} {w u l v : List α} {e : α} (h : w ++ [e] = u ++ l ++ v) :
    (v = [] ∧ w ++ [e] = u ++ l) ∨ ∃ v', w = u ++ l ++ v' := by
  rcases List.eq_nil_or_concat v with rfl | ⟨v', y, rfl⟩
  · exact .inl ⟨rfl, by simpa using h⟩
  · right
    rw [List.concat_eq_append] at h
    have h : w ++ [e] = (u ++ l ++ v') ++ [y] := by simpa using h
    exact ⟨v', (List.append_inj' h rfl).1⟩

theorem snt_snoc {c : Client} {w : List Wire} {e : Wire} (h : ∀ u id r v, w = u ++ .sent id r :: v → SentAt c u r)
    (he : ∀ id r, e = .sent id r → SentAt c w r) :
    ∀ u id r v, w ++ [e] = u ++ .sent id r :: v → SentAt c u r := by
  intro u id r v hs
  rcases split_snoc hs with ⟨_, h1, rfl⟩ | ⟨v', _, h1⟩
  · exact he id r h1.symm
  · exact h u id r v' h1

theorem three_snoc {w : List Wire} {e : Wire}
    (h : ∀ u l v, w = u ++ l ++ v → (∀ e ∈ l, Wire.isSent e = true) → l.length ≤ 3)
    (he : e.isSent = true → trailing w < 3) :
    ∀ u l v, w ++ [e] = u ++ l ++ v → (∀ e ∈ l, Wire.isSent e = true) → l.length ≤ 3 := by
  intro u l v hs hl
  rcases split3_snoc hs with ⟨_, h1⟩ | ⟨v', h1⟩
  · have := le_trailing (u := u) hl
    rw [← h1, trailing_snoc] at this
    split at this
    · rename_i h2; have := he h2; omega
    · omega
  · exact h u l v' h1 hl

theorem not_mem_snoc {w : List Wire} {e : Wire} (h : Wire.interrupted ∉ w) (he : e ≠ .interrupted) :
    Wire.interrupted ∉ w ++ [e] := by
  simp [h, he.symm]

/-- Nothing the layer is about changes. -/
theorem InvA.same {c : Client} {w w' : World} (h : InvA c w) (h1 : w'.st = w.st) (h2 : w'.wire = w.wire) : InvA c w' :=
  ⟨by rw [h1, h2]; exact h.pos, by rw [h2]; exact h.snt, by rw [h1, h2]; exact h.tries, by rw [h2]; exact h.three⟩

theorem InvA.enter {c : Client} {w : World} {p : Prog} {b : Bool} (hp : Pos c w.wire (.running p 0 none b))
    (hst : w.st = Spawn.enter p b) (ht : trailing w.wire = 0)
    (hs : ∀ u id r v, w.wire = u ++ .sent id r :: v → SentAt c u r)
    (h3 : ∀ u l v, w.wire = u ++ l ++ v → (∀ e ∈ l, Wire.isSent e = true) → l.length ≤ 3) : InvA c w := by
  refine ⟨by rw [hst]; exact hp.enter, hs, ?_, h3⟩
  intro q t cur h' e
  rw [hst] at e
  obtain ⟨rfl, rfl, rfl, rfl⟩ := enter_running e
  exact ⟨ht, by omega, fun _ => by omega, fun hc => absurd rfl hc⟩

theorem answered_same (w : World) (m : Msg) (r : CM × Option Ret) :
    (answered w m r).st = w.st ∧ (answered w m r).wire = w.wire ∧ (answered w m r).next = w.next ∧
    (answered w m r).inbox = w.inbox := by
  unfold answered
  split <;> exact ⟨rfl, rfl, rfl, rfl⟩

theorem InvA.step {c : Client} {o : Oracle} {w : World} (h : InvA c w) (e : Ev) : InvA c (step c o w e) := by
  obtain ⟨cm, st, next, inbox, serving, outbox, wire⟩ := w
  cases e with
  | env op => simp only [Spawn.step]; split <;> exact h.same rfl rfl
  | loseReq m => exact h.same rfl rfl
  | loseResp m a => exact h.same rfl rfl
  | serve m x =>
    simp only [Spawn.step]
    split
    · split <;> exact h.same rfl rfl
    · exact h
  | wake =>
    simp only [Spawn.step]
    split
    · exact h.same (answered_same _ _ _).1 (answered_same _ _ _).2.1
    · exact h
  | timeout =>
    simp only [Spawn.step]
    split
    · exact h.same (answered_same _ _ _).1 (answered_same _ _ _).2.1
    · exact h
  | locked =>
    simp only [Spawn.step]
    split
    · have hw : wire = [] := h.pos
      subst hw
      exact InvA.enter (p := c.main) (b := false) ⟨by simp, .nil⟩ rfl rfl h.snt h.three
    · exact h
  | lockTimeout =>
    simp only [Spawn.step]
    split
    · have hw : wire = [] := h.pos
      subst hw
      unfold Spawn.lockTimeout
      refine ⟨?_, h.snt, ?_, h.three⟩
      · dsimp only
        split
        · rfl
        · exact .inl ⟨by simp, .inr ⟨rfl, .inr rfl⟩⟩
      · intro p t cur b e
        dsimp only at e
        split at e <;> cases e
    · exact h
  | send =>
    simp only [Spawn.step]
    split
    · rename_i r k tries hd
      obtain ⟨ht, hle, hn, hc⟩ := h.tries _ _ _ _ rfl
      have hn := hn rfl
      have at' : SentAt c wire r := by
        cases hd with
        | false =>
          have hp : Wire.interrupted ∉ wire ∧ Runs c.main (gots wire) (.call r k) := h.pos
          exact ⟨fun _ => ⟨k, hp.2⟩, fun x y e _ => absurd (by rw [e]; simp) hp.1⟩
        | true =>
          obtain ⟨u, v, h1, h2, h3⟩ := h.pos
          refine ⟨fun hi => absurd (by dsimp only at h1; rw [h1]; simp) hi, fun x y e hy => ⟨k, ?_⟩⟩
          have : y = v := by
            dsimp only at h1
            rw [h1] at e
            clear h1 h3 h
            induction u generalizing x with
            | nil =>
              cases x with
              | nil => simpa using e.symm
              | cons b x' =>
                simp only [List.nil_append, List.cons_append, List.cons.injEq] at e
                exact absurd (by rw [e.2]; simp) h2
            | cons a u ih =>
              cases x with
              | nil =>
                simp only [List.nil_append, List.cons_append, List.cons.injEq] at e
                exact absurd (by rw [← e.2]; simp) hy
              | cons b x' =>
                simp only [List.cons_append, List.cons.injEq] at e
                exact ih x' e.2
          rw [this]; exact h3
      refine ⟨?_, ?_, ?_, ?_⟩
      · cases hd with
        | false =>
          have hp : Wire.interrupted ∉ wire ∧ Runs c.main (gots wire) (.call r k) := h.pos
          exact ⟨not_mem_snoc hp.1 (by simp), by rw [gots_append]; simpa [gots] using hp.2⟩
        | true =>
          obtain ⟨u, v, h1, h2, h3⟩ := h.pos
          dsimp only at h1
          refine ⟨u, v ++ [.sent next r], by rw [h1]; simp, not_mem_snoc h2 (by simp), ?_⟩
          rw [gots_append]; simpa [gots] using h3
      · exact snt_snoc h.snt (fun id r' e => by cases e; exact at')
      · intro p t cur b e
        cases e
        refine ⟨?_, by omega, by simp, fun _ => ⟨r, k, rfl⟩⟩
        dsimp only at ht ⊢
        rw [trailing_snoc, ht]; rfl
      · exact three_snoc h.three (fun _ => by dsimp only at ht; omega)
    · exact h
  | noService =>
    simp only [Spawn.step]
    split
    · rename_i r k
      have hp : Wire.interrupted ∉ wire ∧ Runs c.main (gots wire) (.call r k) := h.pos
      refine ⟨.inl ⟨hp.1, .inr ⟨rfl, .inl ⟨r, k, hp.2⟩⟩⟩, h.snt, ?_, h.three⟩
      intro p t cur b e; cases e
    · obtain ⟨u, v, h1, h2, h3⟩ := h.pos
      refine ⟨fun hi => absurd (by dsimp only at h1 ⊢; rw [h1]; simp) hi, h.snt, ?_, h.three⟩
      intro p t cur b e; cases e
    · exact h
  | deliver m a =>
    simp only [Spawn.step]
    split
    · split
      · rename_i r k t id hd
        split
        · refine InvA.enter (p := k a) (b := hd) ?_ rfl ?_ ?_ ?_
          · cases hd with
            | false =>
              have hp : Wire.interrupted ∉ wire ∧ Runs c.main (gots wire) (.call r k) := h.pos
              exact ⟨not_mem_snoc hp.1 (by simp), by rw [gots_append]; exact hp.2.snoc a⟩
            | true =>
              obtain ⟨u, v, h1, h2, h3⟩ := h.pos
              dsimp only at h1
              refine ⟨u, v ++ [.got r a], by dsimp only; rw [h1]; simp, not_mem_snoc h2 (by simp), ?_⟩
              rw [gots_append]; exact h3.snoc a
          · dsimp only; rw [trailing_snoc]; rfl
          · exact snt_snoc h.snt (fun id r' e => by cases e)
          · exact three_snoc h.three (fun e => by cases e)
        · exact h.same rfl rfl
      · exact h.same rfl rfl
    · exact h
  | giveUp =>
    simp only [Spawn.step]
    split
    · rename_i p tries id hd
      obtain ⟨ht, hle, hn, hc⟩ := h.tries _ _ _ _ rfl
      obtain ⟨r, k, rfl⟩ := hc (by simp)
      split
      · rename_i h3
        refine ⟨?_, h.snt, ?_, h.three⟩
        · have := h.pos; cases hd <;> exact this
        · intro p' t cur b e; cases e; exact ⟨ht, hle, fun _ => h3, fun hc => absurd rfl hc⟩
      · refine ⟨?_, h.snt, (by intro p t cur b e; cases e), h.three⟩
        intro hi
        cases hd with
        | true =>
          obtain ⟨u, v, h1, h2, h3⟩ := h.pos
          exact absurd (by dsimp only at h1 ⊢; rw [h1]; simp) hi
        | false =>
          have hp : Wire.interrupted ∉ wire ∧ Runs c.main (gots wire) (.call r k) := h.pos
          exact ⟨r, k, hp.2⟩
    · exact h
  | interrupt =>
    simp only [Spawn.step]
    split
    · have hw : wire = [] := h.pos
      subst hw
      refine ⟨?_, snt_snoc h.snt (fun id r e => by cases e), ?_, three_snoc h.three (fun e => by cases e)⟩
      · dsimp only
        split
        · intro hi; simp at hi
        · rename_i x e
          exact .inr ⟨[], [], rfl, by simp, .inr ⟨rfl, e⟩⟩
      · intro p t cur b e
        dsimp only at e
        split at e <;> cases e
    · exact InvA.enter (p := c.onInt) (b := true) ⟨wire, [], rfl, by simp, .nil⟩ rfl (by dsimp only; rw [trailing_snoc]; rfl)
        (snt_snoc h.snt (fun id r e => by cases e)) (three_snoc h.three (fun e => by cases e))
    · exact h

end Spawn
end Verif
