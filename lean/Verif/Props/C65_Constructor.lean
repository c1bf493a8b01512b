import Verif.Props.C88_HwStats
/-!
# C65, C88: a controller manager that is made with a description
-/
namespace Verif.Boot
open Verif

/-- **C65, description in the constructor.** If the description given to the constructor is accepted, the controller manager is exactly the one that is
made without a description and then receives it as its first message; so everything said about those holds for it, for any further history. -/
theorem C65_constructor (os : Nat → Oracle) (cfg : Cfg) (d : Desc) (ord gord : List Name) (h : (start os cfg d ord gord).inited = true) (is : List In) :
    run os cfg (start os cfg d ord gord) is = boot os cfg (.desc d ord gord :: is) := by
  have key : start os cfg d ord gord = step os cfg (start os cfg noDesc [] []) (.desc d ord gord) := by
    unfold start at h ⊢
    dsimp only at h ⊢
    unfold step callback
    simp only [initRm, noDesc, if_true, Bool.false_eq_true, if_false]
    simp only [initRm] at h
    cases he : d.empty with
    | true => simp [he] at h
    | false =>
      simp only [he, Bool.false_eq_true, if_false] at h ⊢
      cases hp : d.parsed with
      | none =>
        simp only [hp] at h
        split at h <;> simp at h
      | some specs =>
        simp only [hp] at h ⊢
        generalize loadDesc cfg.handle (os 0) (CM.init (RM.empty cfg.allowInactive cfg.reportDeactivated)).rm specs = L at h ⊢
        obtain ⟨r, b⟩ := L
        cases b with
        | false => simp at h
        | true => cases cfg.enforce <;> simp
  rw [key]
  rfl

/-- The demo robot, described in the constructor. -/
example : (start (fun _ => goodOracle) demoCfg goodDesc [1, 2] [7]).inited = true ∧
    (start (fun _ => goodOracle) demoCfg goodDesc [1, 2] [7]).services = true := by decide +kernel

end Verif.Boot
