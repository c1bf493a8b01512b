import Verif.RtList.Model
/-!
# Invariants of the double-buffered list
-/
namespace Verif
namespace RtList

/-- The real-time thread may touch list `i` now. -/
def St.RtUses (s : St) (i : Bool) : Prop := s.rt = .using i ∨ s.rt = .want (some i) ∨ s.rt = .got (some i)

/-- The list the real-time thread has a reference to. -/
def RPc.ref : RPc → Option Bool
  | .using i => some i
  | .want x => x
  | .got x => x
  | _ => none

theorem rtUses_iff {s : St} {i : Bool} : s.RtUses i ↔ s.rt.ref = some i := by
  unfold St.RtUses RPc.ref
  cases s.rt <;> simp

/-- Service `t` may write list `i` now. -/
def St.SvcWrites (s : St) (t : Nat) (i : Bool) : Prop := s.svc t = .edit ∧ i = !s.updated

/-- The lock is what the program counters say. -/
structure Locks (s : St) : Prop where
  own : ∀ t, s.svc t ≠ .idle ↔ s.lock = some (.svc t)
  rt : (∃ i, s.rt = .got i) ↔ s.lock = some .rt
  flip : ∀ t f, s.svc t = .flipped f → s.updated = !f

theorem Locks.init : Locks St.init := by constructor <;> simp [St.init]

theorem Locks.step {s s' : St} {a : Act} (h : Locks s) (e : step s a = some s') : Locks s' := by
  obtain ⟨h1, h2, h3⟩ := h
  cases a <;> simp only [RtList.step] at e <;> (try split at e) <;> (try split at e) <;> (try simp only [reduceCtorEq] at e) <;>
    (try simp only [Option.some.injEq] at e) <;> subst e <;> constructor <;> grind [St.setPc, St.answer]

/-- The state after the real-time loop has taken its first list. -/
structure Inv (s : St) : Prop extends Locks s where
  started : s.used ≠ none
  calm : (∀ t f, s.svc t ≠ .flipped f) →
    s.used = some s.updated ∧ (∀ i, s.rt = .loaded i ∨ s.rt.ref = some i → i = s.updated)
  late : ∀ t f, s.svc t = .flipped f → s.used = some (!f) → ∀ i, s.rt = .loaded i ∨ s.rt.ref = some i → i = !f
  early : ∀ t f, s.svc t = .flipped f → s.used = some f → ∀ i, s.rt.ref = some i → i = f

theorem Inv.step {s s' : St} {a : Act} (h : Inv s) (e : step s a = some s') : Inv s' := by
  have L := h.toLocks.step e
  obtain ⟨⟨h1, h2, h3⟩, h4, h5, h6, h7⟩ := h
  refine { toLocks := L, started := ?_, calm := ?_, late := ?_, early := ?_ }
  · cases a <;> simp only [RtList.step] at e <;> (try split at e) <;> (try split at e) <;> (try simp only [reduceCtorEq] at e) <;>
      (try simp only [Option.some.injEq] at e) <;> subst e <;> grind [St.setPc, St.answer, RPc.ref]
  · have hu : ∀ f, s.used ≠ some f → s.used = some (!f) := by
      intro f hf
      rcases h : s.used with _ | (_ | _)
      · exact absurd h h4
      · cases f <;> simp_all
      · cases f <;> simp_all
    intro hc
    cases a <;> simp only [RtList.step] at e <;> (try split at e) <;> (try split at e) <;> (try simp only [reduceCtorEq] at e) <;>
      (try simp only [Option.some.injEq] at e) <;> subst e <;> (try (rename_i t _; have hct := hc t)) <;>
      grind [St.setPc, St.answer, RPc.ref]
  · intro t f hf hus i hi
    have k1 := h6 t f
    have k2 := h7 t f
    have k3 := h3 t f
    have k4 : s.rt.ref = some i → s.svc t = .flipped f → s.used = some (!f) → i = !f := fun x y z => k1 y z i (.inr x)
    have k5 := h1 t
    cases a <;> simp only [RtList.step] at e <;> (try split at e) <;> (try split at e) <;> (try simp only [reduceCtorEq] at e) <;>
      (try simp only [Option.some.injEq] at e) <;> subst e <;> grind [St.setPc, St.answer, RPc.ref]
  · intro t f hf hus i hi
    have k1 := h6 t f
    have k2 := h7 t f
    have k3 := h3 t f
    have k4 : s.rt.ref = some i → s.svc t = .flipped f → s.used = some (!f) → i = !f := fun x y z => k1 y z i (.inr x)
    have k5 := h1 t
    cases a <;> simp only [RtList.step] at e <;> (try split at e) <;> (try split at e) <;> (try simp only [reduceCtorEq] at e) <;>
      (try simp only [Option.some.injEq] at e) <;> subst e <;> grind [St.setPc, St.answer, RPc.ref]

end RtList
end Verif
