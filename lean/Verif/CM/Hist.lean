import Verif.CM.Run
/-!
# The history only grows
-/
namespace Verif
namespace Sys

/-- The history of `b` extends that of `a`. -/
def Grows (a b : Sys) : Prop := ∃ es, b.rm.tr = es ++ a.rm.tr

theorem Grows.refl (a : Sys) : Grows a a := ⟨[], rfl⟩
theorem Grows.trans {a b c : Sys} (h : Grows a b) (k : Grows b c) : Grows a c := by
  obtain ⟨x, hx⟩ := h
  obtain ⟨y, hy⟩ := k
  exact ⟨y ++ x, by rw [hy, hx, List.append_assoc]⟩
theorem Grows.ofEq {a b : Sys} (h : b.rm.tr = a.rm.tr) : Grows a b := ⟨[], h⟩

theorem Grows.release (s : Sys) (n : Name) : Grows s (s.release n) := by
  unfold Sys.release
  split
  · exact .refl _
  · exact .ofEq (by simp only [Sys.set]; rw [RM.foldl_release])

theorem Grows.trigger (o : Oracle) (s : Sys) (n : Name) (cb : CtlCb) : Grows s (s.trigger o n cb) := by
  by_cases hl : ∃ c, s.k n = some c ∧ cb.legal c.lc = true
  swap
  · rw [trigger_illegal o cb (fun c hc => by
      by_contra hx; exact hl ⟨c, hc, by simpa using hx⟩)]
    exact .refl _
  obtain ⟨c, hc, hleg⟩ := hl
  obtain ⟨es, lc', hev, hcase⟩ := trigger_spec o cb hc hleg
  rcases hcase with ⟨_, _, e⟩ | e <;> rw [e] <;> exact ⟨es, rfl⟩

theorem AStep.grows {o T s s'} (h : AStep o T s s') : Grows s s' := by
  cases h with
  | rm st => obtain ⟨es, e, _⟩ := st.ext; exact ⟨es, e⟩
  | update a hc hl => exact ⟨[_], rfl⟩
  | deact hT => exact (Grows.trigger o s _ _).trans (Grows.release _ _)
  | trig hT hcb => exact Grows.trigger o s _ _
  | act hT h hl =>
    rename_i n l loans rm1
    have hr := claimAll_tr h
    unfold Sys.activate
    split
    · exact .refl _
    · rename_i c hc
      simp only
      have h1 : Grows s (({ s with rm := c.held.foldl RM.release rm1 } : Sys).set n { c with held := loans }) :=
        .ofEq (by simp only [Sys.set]; rw [RM.foldl_release]; exact hr)
      have h2 := h1.trans (Grows.trigger o _ n .activate)
      split
      · exact h2
      · exact h2.trans (Grows.release _ _)
  | claimFail h => exact .ofEq (claimAll_tr h)
  | chain hT =>
    unfold Sys.setChained
    split
    · exact .refl _
    · split
      · simp only; split <;> exact ⟨[_], rfl⟩
      · exact .refl _
  | load hT hn ch as fb cmd => exact ⟨[_], rfl⟩
  | loadFail hT hn a ha => exact ⟨[_], rfl⟩
  | dropExports hT hc hl => exact .ofEq (dropExports_tr _ _)
  | importR hT hc rs => exact .ofEq (importReference_tr _ _ _)
  | importS hT hc ss => exact .ofEq (importExportedState_tr _ _ _)
  | erase hT hc hh => exact .ofEq rfl
  | recfg hT hc hl cmd => exact .ofEq rfl

theorem Steps.grows {o T s s'} (h : Steps o T s s') : Grows s s' := by
  induction h with
  | refl => exact .refl _
  | tail _ h ih => exact ih.trans h.grows

end Sys

namespace CM

theorem step_grows (o : Oracle) {cm : CM} (I : Inv cm) (op : Op) : ∃ es, (cm.step o op).rm.tr = es ++ cm.rm.tr :=
  (step_steps o I op).grows

end CM
end Verif
