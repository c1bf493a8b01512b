import Verif.Handle.Spec
/-!
# Handles that are not moved are registers
-/
namespace Verif.Hdl
open Verif (Dbl)

/-- The object that stands for a register. -/
def Reg.obj (h : Nat) : Reg → Obj
  | .own t v => { val := some ⟨t, v⟩, ty := t, ptr := ptrInto h (some ⟨t, v⟩) }
  | .shared c => { ptr := .cell c }
  | .unset => {}

/-- The memory that stands for the registers. -/
def Regs.mem (s : Regs) : Mem := { obj := fun h => (s.reg h).map (Reg.obj h), cell := s.cell }

theorem Regs.mem_obj (s : Regs) (h : Nat) : s.mem.obj h = (s.reg h).map (Reg.obj h) := rfl

theorem Regs.mem_put (s : Regs) (h : Nat) (g : Option Reg) : (s.put h g).mem = s.mem.put h (g.map (Reg.obj h)) := by
  unfold Regs.mem Regs.put Mem.put
  congr 1
  funext h'
  by_cases e : h' = h
  · subst e; simp
  · simp [e]

theorem Regs.mem_assign (s : Regs) (c : Nat) (x : Dbl) :
    (s.assign c x).mem = { s.mem with cell := fun c' => if c' = c then x else s.mem.cell c' } := rfl

theorem pick_self (T : Ty) (x : T.Val) : pick T (some ⟨T, x⟩) = some x := by
  unfold pick; simp

theorem pick_none (T t : Ty) (x : t.Val) (h : t ≠ T) : pick T (some ⟨t, x⟩) = none := by
  unfold pick; simp [h]

theorem pick_unset (T : Ty) : pick T none = none := rfl

theorem Regs.mem_get (s : Regs) (h : Nat) (T : Ty) (g : Reg) (hg : s.reg h = some g) (got : Bool) :
    s.mem.get h T got = if got then s.read T g else .missed := by
  have ho : s.mem.obj h = some (g.obj h) := by rw [mem_obj, hg]; rfl
  unfold Mem.get
  rw [ho]
  cases got
  · rfl
  · cases g with
    | own t v =>
      cases T <;> cases t <;>
        first
        | rfl
        | (dsimp only [Reg.obj, ptrInto, Bool.not_true, Mem.load]; rw [ho]; rfl)
    | shared c => cases T <;> rfl
    | unset => cases T <;> rfl

theorem Regs.mem_set (s : Regs) (h : Nat) (T : Ty) (x : T.Val) (g : Reg) (hg : s.reg h = some g) :
    s.mem.set h T x true = ((s.write h T x g).1, (s.write h T x g).2.mem) := by
  have ho : s.mem.obj h = some (g.obj h) := by rw [mem_obj, hg]; rfl
  unfold Mem.set
  rw [ho]
  cases g with
  | own t v =>
    cases T <;> cases t <;>
      first
      | rfl
      | (dsimp only [Reg.obj, ptrInto, Bool.not_true, Mem.store, Regs.write]; rw [ho]
         simp only [Reg.obj, pick_self, ptrInto, if_true, Regs.mem_put, Option.map]; rfl)
      | (simp only [Reg.obj, pick_self, ptrInto, if_true, Regs.mem_put, Option.map, Regs.write]; rfl)
  | shared c => cases T <;> rfl
  | unset => cases T <;> rfl

/-- A register that is not a `double` of its own looks the same in every object. -/
theorem Reg.obj_eq {g : Reg} (hg : Reg.ownDouble (some g) = false) (h h' : Nat) : g.obj h = g.obj h' := by
  cases g with
  | own t v => cases t <;> first | rfl | (cases hg)
  | shared c => rfl
  | unset => rfl

theorem copyOf_obj (h h' : Nat) (g : Reg) : copyOf h (g.obj h') = g.obj h := by
  cases g <;> rfl

theorem construct_eq (r : Rounding) (h : Nat) (ty text : List Char) :
    construct r h ty text = (register r ty text).map (Reg.obj h) := by
  unfold construct register
  cases tyOf ty with
  | none => rfl
  | some t =>
    dsimp only
    cases initial r t text <;> rfl

/-- One step. -/
theorem Regs.mem_step (r : Rounding) (s : Regs) (op : Op) (hf : s.fine op = true) :
    Hdl.step r s.mem op = ((s.step r op).1, (s.step r op).2.mem) := by
  cases op with
  | make h ty text =>
    simp only [Hdl.step, Regs.step, mem_obj, construct_eq]
    cases hr : s.reg h with
    | some g => rfl
    | none =>
      simp only [Option.map_none, Option.isSome_none, Bool.false_eq_true, if_false]
      cases register r ty text with
      | none => rfl
      | some g => simp only [Option.map_some, mem_put]
  | wrap h c =>
    simp only [Hdl.step, Regs.step, mem_obj]
    rcases Option.eq_none_or_eq_some (s.reg h) with hr | ⟨g, hr⟩
    · simp only [hr, Option.map_none, Option.isSome_none, Bool.false_eq_true, if_false, mem_put]; rfl
    · simp only [hr, Option.map_some, Option.isSome_some, if_true]
  | copyNew h src =>
    simp only [Hdl.step, Regs.step, mem_obj]
    cases hr : s.reg h <;> cases hq : s.reg src <;> try rfl
    simp only [Option.map_none, Option.map_some, mem_put, copyOf_obj]
  | copyTo h src =>
    simp only [Hdl.step, Regs.step, mem_obj]
    cases hr : s.reg h with
    | none => cases hq : s.reg src <;> rfl
    | some g =>
      cases hq : s.reg src with
      | none => rfl
      | some g' =>
        simp only [Option.map_some, mem_put, copyOf_obj]
        split
        · rename_i e
          subst e
          congr 1
          rw [hr] at hq
          cases hq
          have : s.mem.obj = fun h' => if h' = h then some (Reg.obj h g) else s.mem.obj h' := by
            funext h'
            by_cases e : h' = h
            · subst e; simp only [if_true, mem_obj, hr]; rfl
            · simp only [e, if_false]
          unfold Mem.put
          rw [← this]
        · rfl
  | moveNew h src =>
    simp only [Regs.fine, Bool.not_eq_true'] at hf
    simp only [Hdl.step, Regs.step, mem_obj]
    cases hr : s.reg h <;> cases hq : s.reg src <;> try rfl
    rename_i g
    rw [hq] at hf
    simp only [Option.map_none, Option.map_some, mem_put, Reg.obj_eq hf src h]
    rfl
  | moveTo h src =>
    simp only [Regs.fine, Bool.not_eq_true', bne_iff_ne, ne_eq, Bool.and_eq_true] at hf
    simp only [Hdl.step, Regs.step, mem_obj]
    cases hr : s.reg h with
    | none => cases hq : s.reg src <;> rfl
    | some g =>
      cases hq : s.reg src with
      | none => rfl
      | some g' =>
        rw [hq, hr] at hf
        simp only [Option.map_some, mem_put, Reg.obj_eq hf.1.2 src h, Reg.obj_eq hf.2 h src, if_neg hf.1.1]
  | destroy h =>
    simp only [Hdl.step, Regs.step, mem_obj]
    rcases Option.eq_none_or_eq_some (s.reg h) with hr | ⟨g, hr⟩
    · simp only [hr, Option.map_none, Option.isSome_none, Bool.false_eq_true, if_false]
    · simp only [hr, Option.map_some, mem_put, Option.isSome_some, if_true]; rfl
  | set h T x got =>
    simp only [Hdl.step, Regs.step, mem_obj]
    rcases Option.eq_none_or_eq_some (s.reg h) with hr | ⟨g, hr⟩
    · simp only [hr, Option.map_none, Option.isSome_none, Bool.false_eq_true, if_false]
    · simp only [hr, Option.map_some, Option.isSome_some, if_true]
      cases got with
      | true => rw [mem_set s h T x g hr]; rfl
      | false =>
        unfold Mem.set
        rw [mem_obj, hr]
        rfl
  | get h T got =>
    simp only [Hdl.step, Regs.step, mem_obj]
    rcases Option.eq_none_or_eq_some (s.reg h) with hr | ⟨g, hr⟩
    · simp only [hr, Option.map_none, Option.isSome_none, Bool.false_eq_true, if_false]
    · simp only [hr, Option.map_some, Option.isSome_some, if_true]
      rw [mem_get s h T g hr]
  | poke c x => rfl

theorem Regs.mem_run (r : Rounding) (s : Regs) (ops : List Op) (hf : s.allFine r ops = true) :
    Hdl.run r s.mem ops = ((s.run r ops).1, (s.run r ops).2.mem) := by
  induction ops generalizing s with
  | nil => rfl
  | cons op ops ih =>
    simp only [Regs.allFine, Bool.and_eq_true] at hf
    simp only [Hdl.run, Regs.run, mem_step r s op hf.1]
    rw [ih _ hf.2]

theorem Regs.mem_empty (cells : Nat → Dbl) : (Regs.empty cells).mem = Mem.empty cells := rfl

end Verif.Hdl
