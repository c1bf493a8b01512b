import Verif.Handle.Refine
import Verif.Props.C31_C47_C49_Text
/-!
# C38: a handle reads back the last value written

The specification is `Handle/Spec.lean`: handles as registers. The property is false for handles that are moved (see
`moved_handle_dangles`): the pointer to the value keeps pointing into the object that was moved from. It is proved for all programs
that move no handle with a `double` of its own.
-/
namespace Verif
open Hdl

set_option linter.unusedSectionVars false

/-! ## All programs without such moves -/

/-- **C38.** For every program that moves no handle owning a `double` (and moves no handle onto itself): everything the
program sees is what it would see if handles were registers. Missing: moves of handles owning a `double`, for which it is false
(`moved_handle_dangles`). -/
theorem handles_are_registers_partial (r : Rounding) (cells : Nat → Dbl) (ops : List Op)
    (hf : (Regs.empty cells).allFine r ops = true) :
    (run r (Mem.empty cells) ops).1 = ((Regs.empty cells).run r ops).1 := by
  rw [← Regs.mem_empty, Regs.mem_run r _ ops hf]

/-- What a program may see without undefined behaviour. -/
def Hdl.Obs.defined : Obs → Prop
  | .broken => False
  | .wrote q => q ≠ .ub
  | .read _ q => q ≠ .ub
  | _ => True

theorem Hdl.Regs.write_defined (s : Regs) (h : Nat) (T : Ty) (x : T.Val) (g : Reg) : (s.write h T x g).1 ≠ .ub := by
  cases g with
  | own t v => simp only [Regs.write]; split <;> simp
  | shared c => cases T <;> simp [Regs.write]
  | unset => simp [Regs.write]

theorem Hdl.Regs.read_defined (s : Regs) (T : Ty) (g : Reg) : s.read T g ≠ .ub := by
  cases g with
  | own t v => cases T <;> cases t <;> simp [Regs.read]
  | shared c => cases T <;> simp [Regs.read]
  | unset => simp [Regs.read]

theorem Hdl.Regs.step_defined (r : Rounding) (s : Regs) (op : Op) : (s.step r op).1.defined := by
  cases op with
  | set h T x got =>
    unfold Regs.step
    rcases Option.eq_none_or_eq_some (s.reg h) with hr | ⟨g, hr⟩ <;> simp only [hr]
    · trivial
    · cases got with
      | false => simp [Obs.defined]
      | true => simpa [Obs.defined] using Regs.write_defined s h T x g
  | get h T got =>
    unfold Regs.step
    rcases Option.eq_none_or_eq_some (s.reg h) with hr | ⟨g, hr⟩ <;> simp only [hr]
    · trivial
    · cases got with
      | false => simp [Obs.defined]
      | true => simpa [Obs.defined] using Regs.read_defined s T g
  | make h ty text =>
    unfold Regs.step
    dsimp only
    repeat' split
    all_goals trivial
  | wrap h c => unfold Regs.step; dsimp only; split <;> trivial
  | copyNew h src => unfold Regs.step; dsimp only; split <;> trivial
  | copyTo h src => unfold Regs.step; dsimp only; split <;> trivial
  | moveNew h src => unfold Regs.step; dsimp only; split <;> trivial
  | moveTo h src => unfold Regs.step; dsimp only; split <;> trivial
  | destroy h => unfold Regs.step; dsimp only; split <;> trivial
  | poke c x => trivial

/-- **C38, no undefined behaviour** in such programs. -/
theorem handles_defined_partial (r : Rounding) (cells : Nat → Dbl) (ops : List Op)
    (hf : (Regs.empty cells).allFine r ops = true) :
    ∀ o ∈ (run r (Mem.empty cells) ops).1, o.defined := by
  rw [handles_are_registers_partial r cells ops hf]
  generalize Regs.empty cells = s at *
  clear hf
  induction ops generalizing s with
  | nil => simp [Regs.run]
  | cons op ops ih =>
    intro o ho
    simp only [Regs.run, List.mem_cons] at ho
    rcases ho with rfl | ho
    · exact Regs.step_defined r s op
    · exact ih _ o ho

/-! ## The value written last -/

/-- The operation may change which value the handle `h` has of its own: it writes it, assigns it, moves it, ends it. -/
def Hdl.Op.concerns (h : Nat) : Op → Bool
  | .make h' _ _ => h' == h
  | .wrap h' _ => h' == h
  | .copyNew h' _ => h' == h
  | .copyTo h' _ => h' == h
  | .moveNew h' src => h' == h || src == h
  | .moveTo h' src => h' == h || src == h
  | .destroy h' => h' == h
  | .set h' _ _ _ => h' == h
  | .get _ _ _ => false
  | .poke _ _ => false

theorem Hdl.Regs.step_other (r : Rounding) (s : Regs) (op : Op) (h : Nat) (hc : op.concerns h = false) :
    (s.step r op).2.reg h = s.reg h := by
  have aux : ∀ (s : Regs) (h' : Nat) (g : Option Reg), h' ≠ h → (s.put h' g).reg h = s.reg h := by
    intro s h' g hne
    exact if_neg (Ne.symm hne)
  cases op with
  | set h' T x got =>
    simp only [Op.concerns, beq_eq_false_iff_ne] at hc
    unfold Regs.step
    rcases Option.eq_none_or_eq_some (s.reg h') with hr | ⟨g, hr⟩ <;> simp only [hr]
    cases got with
    | false => rfl
    | true =>
      simp only [if_true]
      cases g with
      | own t v =>
        simp only [Regs.write]
        split
        · exact aux _ _ _ hc
        · rfl
      | shared c => cases T <;> rfl
      | unset => rfl
  | get h' T got =>
    unfold Regs.step
    rcases Option.eq_none_or_eq_some (s.reg h') with hr | ⟨g, hr⟩ <;> simp only [hr]
  | poke c x => rfl
  | moveNew h' src =>
    simp only [Op.concerns, Bool.or_eq_false_iff, beq_eq_false_iff_ne] at hc
    unfold Regs.step
    dsimp only
    split
    · rw [aux _ _ _ hc.2, aux _ _ _ hc.1]
    · rfl
  | moveTo h' src =>
    simp only [Op.concerns, Bool.or_eq_false_iff, beq_eq_false_iff_ne] at hc
    unfold Regs.step
    dsimp only
    split
    · rw [aux _ _ _ hc.2, aux _ _ _ hc.1]
    · rfl
  | _ =>
    simp only [Op.concerns, beq_eq_false_iff_ne] at hc
    unfold Regs.step
    dsimp only
    repeat' split
    all_goals first | rfl | exact aux _ _ _ hc

theorem Hdl.Regs.run_other (r : Rounding) (s : Regs) (ops : List Op) (h : Nat) (hc : ∀ op ∈ ops, op.concerns h = false) :
    (s.run r ops).2.reg h = s.reg h := by
  induction ops generalizing s with
  | nil => rfl
  | cons op ops ih =>
    unfold Regs.run
    dsimp only
    rw [ih _ (fun o ho => hc o (List.mem_cons_of_mem _ ho)), Regs.step_other r s op h (hc op List.mem_cons_self)]

theorem Hdl.Regs.allFine_append (r : Rounding) (s : Regs) (a b : List Op) :
    s.allFine r (a ++ b) = (s.allFine r a && (s.run r a).2.allFine r b) := by
  induction a generalizing s with
  | nil => simp [Regs.allFine, Regs.run]
  | cons op a ih =>
    simp only [List.cons_append, Regs.allFine, ih, Regs.run]
    rw [Bool.and_assoc]

/-- The memory after a program. -/
def Hdl.after (r : Rounding) (cells : Nat → Dbl) (ops : List Op) : Mem := (run r (Mem.empty cells) ops).2

theorem Hdl.after_eq (r : Rounding) (cells : Nat → Dbl) (ops : List Op) (hf : (Regs.empty cells).allFine r ops = true) :
    after r cells ops = ((Regs.empty cells).run r ops).2.mem := by
  unfold after
  rw [← Regs.mem_empty, Regs.mem_run r _ ops hf]

/-- The handle has a value of its own (it was made from a data type, or copied or assigned from such a one, and not made
around a variable of the hardware). -/
def Hdl.Mem.owns (m : Mem) (h : Nat) : Prop := ∃ o, m.obj h = some o ∧ o.val.isSome = true

theorem Hdl.run_append (r : Rounding) (m : Mem) (a b : List Op) :
    run r m (a ++ b) = ((run r m a).1 ++ (run r (run r m a).2 b).1, (run r (run r m a).2 b).2) := by
  induction a generalizing m with
  | nil => rfl
  | cons op a ih => simp only [List.cons_append, run, ih]

/-- **C38, the last value written is read.** Take any program, a write of `x` to a handle with a value of its own that succeeds,
and any continuation that does not write, assign, move or end this handle: a read that obtains the lock then yields `x`.
(Programs that move no handle owning a `double`.) -/
theorem written_value_is_read_partial (r : Rounding) (cells : Nat → Dbl) (before later : List Op) (h : Nat) (T : Ty)
    (x : T.Val) (hf : (Regs.empty cells).allFine r (before ++ .set h T x true :: later) = true)
    (hown : (after r cells before).owns h)
    (hok : ((after r cells before).set h T x true).1 = .ok ())
    (hl : ∀ op ∈ later, op.concerns h = false) :
    (after r cells (before ++ .set h T x true :: later)).get h T true = .ok x := by
  have hf' := hf
  rw [Regs.allFine_append, Bool.and_eq_true] at hf'
  rw [after_eq r cells _ hf]
  rw [after_eq r cells _ hf'.1] at hok hown
  have hrun : ((Regs.empty cells).run r (before ++ .set h T x true :: later)).2 =
      ((((Regs.empty cells).run r before).2.step r (.set h T x true)).2.run r later).2 := by
    have app : ∀ (s : Regs) (a b : List Op), (s.run r (a ++ b)).2 = ((s.run r a).2.run r b).2 := by
      intro s a b
      induction a generalizing s with
      | nil => rfl
      | cons op a ih => exact ih _
    rw [app]; rfl
  rw [hrun]
  generalize ((Regs.empty cells).run r before).2 = s at *
  obtain ⟨o, ho, hv⟩ := hown
  rw [Regs.mem_obj] at ho
  cases hg : s.reg h with
  | none => rw [hg] at ho; cases ho
  | some g =>
    rw [hg] at ho
    cases ho
    rw [Regs.mem_set s h T x g hg] at hok
    have hreg : (s.step r (.set h T x true)).2.reg h = some (.own T x) := by
      simp only [Regs.step, hg, if_true]
      cases g with
      | own t v =>
        simp only [Regs.write] at hok ⊢
        by_cases e : t = T
        · rw [if_pos e]
          exact if_pos rfl
        · rw [if_neg e] at hok
          cases hok
      | shared c => cases hv
      | unset => cases hv
    rw [Regs.mem_get _ h T (.own T x) (by rw [Regs.run_other r _ later h hl, hreg])]
    simp [Regs.read]

/-- The register of a handle, in the memory. -/
theorem Hdl.Regs.mem_shared {s : Regs} {h c : Nat} {o : Obj} (ho : s.mem.obj h = some o) (hp : o.ptr = .cell c) :
    s.reg h = some (.shared c) := by
  rw [Regs.mem_obj] at ho
  cases hg : s.reg h with
  | none => rw [hg] at ho; cases ho
  | some g =>
    rw [hg] at ho
    cases ho
    cases g with
    | own t v => cases t <;> cases hp
    | shared c' => cases hp; rfl
    | unset => cases hp

/-- **C38, handles around a variable of the hardware.** After any such program, a handle made around the variable `c` (or a
copy or move of such a handle) reads the present value of that variable, whoever assigned it, and writes to it. -/
theorem wrapped_variable_partial (r : Rounding) (cells : Nat → Dbl) (ops : List Op) (h c : Nat) (o : Obj)
    (hf : (Regs.empty cells).allFine r ops = true)
    (ho : (after r cells ops).obj h = some o) (hp : o.ptr = .cell c) (x : Dbl) :
    (after r cells ops).get h .double true = .ok ((after r cells ops).cell c) ∧
    ((after r cells ops).set h .double x true).1 = .ok () ∧
    ((after r cells ops).set h .double x true).2.cell c = x ∧
    (∀ c' ≠ c, ((after r cells ops).set h .double x true).2.cell c' = (after r cells ops).cell c') ∧
    ((after r cells ops).set h .double x true).2.obj = (after r cells ops).obj := by
  rw [after_eq r cells _ hf] at ho ⊢
  generalize ((Regs.empty cells).run r ops).2 = s at *
  have hg := Regs.mem_shared ho hp
  rw [Regs.mem_get s h .double _ hg, Regs.mem_set s h .double x _ hg]
  refine ⟨rfl, rfl, ?_, ?_, rfl⟩
  · simp [Regs.write, Regs.assign, Regs.mem]
  · intro c' hne
    simp [Regs.write, Regs.assign, Regs.mem, hne]

theorem Hdl.set_double (m : Mem) (h : Nat) (o : Obj) (x : Dbl) (ho : m.obj h = some o) :
    m.set h .double x true = if o.ptr = .null then (.thrown, m) else
      ((m.store o.ptr x).elim (.ub, m) (fun m' => (.ok (), m'))) := by
  unfold Mem.set
  rw [ho]
  rcases o with ⟨v, t, p⟩
  cases p with
  | null => rfl
  | cell c => rfl
  | own k =>
    rw [if_neg (by simp)]
    change (match m.store (.own k) x with
      | some m' => (R.ok (), m')
      | none => (R.ub, m)) = _
    generalize m.store (.own k) x = q
    cases q <;> rfl

theorem Hdl.set_other (m : Mem) (h : Nat) (o : Obj) (T : Ty) (x : T.Val) (hT : T ≠ .double) (ho : m.obj h = some o) :
    m.set h T x true = (pick T o.val).elim (.thrown, m) (fun _ => (.ok (), m.put h (some { o with val := some ⟨T, x⟩ }))) := by
  unfold Mem.set
  rw [ho]
  have aux : ∀ q : Option T.Val, (match q with
      | some _ => (R.ok (), m.put h (some { o with val := some ⟨T, x⟩ }))
      | none => (R.thrown, m)) = q.elim (.thrown, m) (fun _ => (.ok (), m.put h (some { o with val := some ⟨T, x⟩ }))) := by
    intro q; cases q <;> rfl
  cases T <;> first | (exact absurd rfl hT) | (rw [← aux]; rfl)

theorem Hdl.set_unlocked {m : Mem} {h : Nat} {T : Ty} {x : T.Val} (hl : (m.obj h).isSome = true) :
    m.set h T x false = (.missed, m) := by
  obtain ⟨o, ho⟩ := Option.isSome_iff_exists.1 hl
  unfold Mem.set
  rw [ho]; rfl

theorem Hdl.get_unlocked {m : Mem} {h : Nat} {T : Ty} (hl : (m.obj h).isSome = true) : m.get h T false = .missed := by
  obtain ⟨o, ho⟩ := Option.isSome_iff_exists.1 hl
  unfold Mem.get
  rw [ho]; rfl

/-- **C38, an access without the lock, or one that throws, changes nothing** – in any memory. -/
theorem failed_write_changes_nothing (m : Mem) (h : Nat) (T : Ty) (x : T.Val) (got : Bool)
    (hn : (m.set h T x got).1 ≠ .ok ()) : (m.set h T x got).2 = m := by
  rcases Option.eq_none_or_eq_some (m.obj h) with ho | ⟨o, ho⟩
  · unfold Mem.set
    rw [ho]
  · cases got with
    | false => rw [set_unlocked (by rw [ho]; rfl)]
    | true =>
      by_cases hT : T = .double
      · subst hT
        rw [set_double m h o x ho] at hn ⊢
        split
        · rfl
        · rename_i hp
          rw [if_neg hp] at hn
          cases hs : m.store o.ptr x with
          | none => rfl
          | some m' => rw [hs] at hn; exact absurd rfl hn
      · rw [set_other m h o T x hT ho] at hn ⊢
        cases hs : pick T o.val with
        | none => rfl
        | some m' => rw [hs] at hn; exact absurd rfl hn

/-- **C38, a locked access to a live handle is never reported as missed; one without the lock always is.** -/
theorem missed_iff_no_lock (m : Mem) (h : Nat) (T : Ty) (got : Bool) (hl : (m.obj h).isSome = true) :
    (∀ x, (m.set h T x got).1 = .missed ↔ got = false) ∧ (m.get h T got = .missed ↔ got = false) := by
  obtain ⟨o, ho⟩ := Option.isSome_iff_exists.1 hl
  cases got with
  | false => exact ⟨fun x => by rw [set_unlocked hl]; simp, by rw [get_unlocked hl]; simp⟩
  | true =>
    constructor
    · intro x
      by_cases hT : T = .double
      · subst hT
        rw [set_double m h o x ho]
        split
        · simp
        · cases m.store o.ptr x <;> simp
      · rw [set_other m h o T x hT ho]
        cases pick T o.val <;> simp
    · unfold Mem.get
      rw [ho]
      have aux : ∀ (T : Ty) (q : Option T.Val), (match q with
          | some x => R.ok x
          | none => R.thrown) ≠ .missed := by intro T q; cases q <;> simp
      have aux2 : ∀ (q : Option Dbl), (match q with
          | some x => R.ok x
          | none => R.ub) ≠ .missed := by intro q; cases q <;> simp
      have aux3 : ∀ (q : Option Bool), (match q with
          | some x => R.ok (ofBool x)
          | none => R.thrown) ≠ .missed := by intro q; cases q <;> simp
      refine ⟨fun hh => ?_, fun hh => by cases hh⟩
      cases T with
      | double =>
        rcases o with ⟨v, t, p⟩
        cases t with
        | double =>
          cases p with
          | null => cases hh
          | cell c => cases hh
          | own k => exact absurd hh (aux2 (m.load (.own k)))
        | bool => exact absurd hh (aux3 (pick .bool v))
        | _ => cases hh
      | _ => exact absurd hh (aux _ (pick _ o.val))

/-! ## The initial value -/

/-- **C38, initial values.** Constructing a handle succeeds exactly if the data type is one of the nine and the text is empty or
a value of that type; a read then yields that value (NaN, `false` and the largest integer for an empty text). -/
theorem initial_value_is_read (r : Rounding) (m : Mem) (h : Nat) (type text : List Char) (hfree : m.obj h = none) :
    ((step r m (.make h type text)).1 = .done ↔ ∃ t v, tyOf type = some t ∧ initial r t text = .ok v) ∧
    ((step r m (.make h type text)).1 = .threw ↔ ¬ ∃ t v, tyOf type = some t ∧ initial r t text = .ok v) ∧
    ∀ t v, tyOf type = some t → initial r t text = .ok v →
      (step r m (.make h type text)).2.get h t true = .ok v := by
  simp only [step, hfree, Option.isSome_none, Bool.false_eq_true, if_false, construct]
  cases ht : tyOf type with
  | none => refine ⟨?_, ?_, ?_⟩ <;> simp
  | some t =>
    dsimp only
    cases hi : initial r t text with
    | ok v =>
      refine ⟨?_, ?_, ?_⟩
      · simp [hi]
      · simp [hi]
      · rintro t' v' h1 h2
        cases h1
        rw [hi] at h2
        cases h2
        dsimp only
        unfold Mem.get Mem.put Mem.load
        simp only [if_true, Bool.not_true, Bool.false_eq_true, if_false]
        cases t <;> first | rfl | simp [pick_self, ptrInto]
    | _ =>
      refine ⟨?_, ?_, ?_⟩
      · simp [hi]
      · simp [hi]
      · rintro t' v' h1 h2
        cases h1
        rw [hi] at h2
        cases h2

/-- **C38 (booleans as numbers).** In every memory, a handle of type `bool` read as a `double` gives 1 if it is read as `true` and 0 if it is read
as `false`. -/
theorem boolean_reads_as_number (m : Mem) (h : Nat) (o : Obj) (ho : m.obj h = some o) (ht : o.ty = .bool) :
    (m.get h .bool true = .ok true → m.get h .double true = .ok (1 : Dbl)) ∧
    (m.get h .bool true = .ok false → m.get h .double true = .ok (0 : Dbl)) := by
  obtain ⟨v, ty, p⟩ := o
  dsimp only at ht
  subst ht
  constructor
  all_goals
    intro hb
    simp only [Mem.get, ho, Bool.not_true, Bool.false_eq_true, if_false] at hb ⊢
    cases hp : pick .bool v with
    | none => rw [hp] at hb; cases hb
    | some b => rw [hp] at hb; cases hb; rfl

-- a handle of type `bool` holding `true`
example : ∃ m : Mem, ∃ o, m.obj 3 = some o ∧ o.ty = .bool ∧ m.get 3 .bool true = .ok true ∧ m.get 3 .double true = .ok (1 : Dbl) :=
  ⟨(Mem.empty (fun _ => 0)).put 3 (some { val := some ⟨.bool, true⟩, ty := .bool, ptr := .null }), _, rfl, rfl, rfl, rfl⟩

/-- The defaults. -/
theorem default_values (r : Rounding) :
    initial r .double [] = .ok Dbl.nan ∧ initial r .float [] = .ok Dbl.nan ∧ initial r .bool [] = .ok false ∧
    initial r .uint8 [] = .ok (255 : Int) ∧ initial r .int8 [] = .ok (127 : Int) ∧
    initial r .uint16 [] = .ok (65535 : Int) ∧ initial r .int16 [] = .ok (32767 : Int) ∧
    initial r .uint32 [] = .ok (4294967295 : Int) ∧ initial r .int32 [] = .ok (2147483647 : Int) :=
  ⟨rfl, rfl, rfl, rfl, rfl, rfl, rfl, rfl, rfl⟩

/-- The names of the data types (hardware_info.hpp:228-253). -/
def Hdl.Ty.name : Ty → String
  | .double => "double"
  | .float => "float32"
  | .bool => "bool"
  | .uint8 => "uint8"
  | .int8 => "int8"
  | .uint16 => "uint16"
  | .int16 => "int16"
  | .uint32 => "uint32"
  | .int32 => "int32"

/-- **C38, data types.** A handle gets the type of that name; every other name is refused. -/
theorem type_of_name (s : List Char) (t : Ty) : tyOf s = some t ↔ s = t.name.toList := by
  constructor
  · intro h
    unfold tyOf at h
    repeat' split at h
    all_goals first | (cases h; assumption) | cases h
  · rintro rfl
    cases t <;> decide

/-- **C38, initial values of signed integers**: exactly the texts of an integer of `2^(bits-1)` values on either side of zero. -/
theorem signed_initial_value (r : Rounding) (text : List Char) (hne : text ≠ []) (v : Int) :
    (initial r .int8 text = .ok v ↔ Text.IntText text v ∧ -2 ^ 7 ≤ v ∧ v < 2 ^ 7) ∧
    (initial r .int16 text = .ok v ↔ Text.IntText text v ∧ -2 ^ 15 ≤ v ∧ v < 2 ^ 15) ∧
    (initial r .int32 text = .ok v ↔ Text.IntText text v ∧ -2 ^ 31 ≤ v ∧ v < 2 ^ 31) := by
  have h8 := (Text.C47_signed (Ty.lo .int8) (Ty.hi .int8) (by decide) (by decide) text).1 v
  have h16 := (Text.C47_signed (Ty.lo .int16) (Ty.hi .int16) (by decide) (by decide) text).1 v
  have h32 := (Text.C47_signed (Ty.lo .int32) (Ty.hi .int32) (by decide) (by decide) text).1 v
  have e8 : initial r .int8 text = Text.stoi (Ty.lo .int8) (Ty.hi .int8) text := if_neg hne
  have e16 : initial r .int16 text = Text.stoi (Ty.lo .int16) (Ty.hi .int16) text := if_neg hne
  have e32 : initial r .int32 text = Text.stoi (Ty.lo .int32) (Ty.hi .int32) text := if_neg hne
  rw [e8, e16, e32]
  refine ⟨h8.trans ?_, h16.trans ?_, h32.trans ?_⟩ <;> simp only [Ty.lo, Ty.hi] <;>
    constructor <;> rintro ⟨a, b, c⟩ <;> refine ⟨a, ?_, ?_⟩ <;> omega

/-- **C38, initial values of unsigned integers**: exactly the texts of an integer from 0 to `2^bits - 1`, for texts other than those
of numbers below `-(2^64 - 2^32)`. -/
theorem unsigned_initial_value_partial (r : Rounding) (text : List Char) (hne : text ≠ []) (v : Int)
    (hc : ∀ v, Text.IntText text v → -(2 ^ 64 - 2 ^ 32 : Int) < v) :
    (initial r .uint8 text = .ok v ↔ Text.IntText text v ∧ 0 ≤ v ∧ v < 2 ^ 8) ∧
    (initial r .uint16 text = .ok v ↔ Text.IntText text v ∧ 0 ≤ v ∧ v < 2 ^ 16) ∧
    (initial r .uint32 text = .ok v ↔ Text.IntText text v ∧ 0 ≤ v ∧ v < 2 ^ 32) := by
  have aux : ∀ (hi : Nat), hi < 2 ^ 32 → ∀ q : Text.Out Nat, q = Text.stoui hi text →
      ((match q with
        | .ok n => Text.Out.ok (n : Int) | .invalid => .invalid | .range => .range | .ub => .ub) = .ok v ↔
      Text.IntText text v ∧ 0 ≤ v ∧ v ≤ hi) := by
    intro hi hh q hq
    have h := (Text.C47_unsigned_partial hi (by omega) text (fun w hw => by have := hc w hw; omega)).1
    constructor
    · intro e
      cases q with
      | ok n =>
        cases e
        have := (h n).1 hq.symm
        exact ⟨this.1, by omega, by exact_mod_cast this.2⟩
      | invalid => cases e
      | range => cases e
      | ub => cases e
    · rintro ⟨a, b, c⟩
      obtain ⟨n, rfl⟩ := Int.eq_ofNat_of_zero_le b
      have := (h n).2 ⟨a, by exact_mod_cast c⟩
      rw [hq, this]
  have e8 : initial r .uint8 text = (match Text.stoui 255 text with
      | .ok n => Text.Out.ok (n : Int) | .invalid => .invalid | .range => .range | .ub => .ub) := if_neg hne
  have e16 : initial r .uint16 text = (match Text.stoui 65535 text with
      | .ok n => Text.Out.ok (n : Int) | .invalid => .invalid | .range => .range | .ub => .ub) := if_neg hne
  have e32 : initial r .uint32 text = (match Text.stoui 4294967295 text with
      | .ok n => Text.Out.ok (n : Int) | .invalid => .invalid | .range => .range | .ub => .ub) := if_neg hne
  rw [e8, e16, e32]
  refine ⟨(aux 255 (by decide) _ rfl).trans ?_, (aux 65535 (by decide) _ rfl).trans ?_, (aux 4294967295 (by decide) _ rfl).trans ?_⟩ <;>
    constructor <;> rintro ⟨a, b, c⟩ <;> refine ⟨a, ?_, ?_⟩ <;> omega

example : initial ⟨fun _ => none, fun _ => none⟩ .int8 "-128".toList = .ok (-128 : Int) ∧
    initial ⟨fun _ => none, fun _ => none⟩ .uint8 "255".toList = .ok (255 : Int) ∧
    initial ⟨fun _ => none, fun _ => none⟩ .int8 "128".toList = .range := by decide +kernel

/-! ## Loaned interfaces -/

theorem Hdl.loanedSet_try {m : Mem} {h : Nat} {T : Ty} {x : T.Val} (hl : (m.obj h).isSome = true) (max nr k : Nat)
    (rest : List Bool) (hk : nr + k < max) (hm : max < 4294967296) :
    loanedSet h T x max nr (List.replicate k false ++ rest) m = loanedSet h T x max (nr + k) rest m := by
  induction k generalizing nr with
  | zero => rfl
  | succ k ih =>
    rw [List.replicate_succ, List.cons_append]
    conv_lhs => unfold loanedSet
    rw [set_unlocked hl]
    dsimp only
    rw [Nat.mod_eq_of_lt (by omega), if_neg (by omega), ih (nr + 1) (by omega)]
    congr 1
    omega

/-- **C38, `set_value` of a loaned command interface** (without limiter): it succeeds, throws or fails as the first attempt that
obtains the lock does, if that is among the first `max_tries`; if none of these does it returns false and nothing is changed. -/
theorem loaned_set_result (m : Mem) (h : Nat) (T : Ty) (x : T.Val) (max : Nat) (rest : List Bool)
    (hl : (m.obj h).isSome = true) (hm : max < 4294967296) (h1 : 1 ≤ max) :
    (∀ k < max, loanedSet h T x max 0 (List.replicate k false ++ true :: rest) m =
      (some (m.set h T x true).1, (m.set h T x true).2)) ∧
    loanedSet h T x max 0 (List.replicate max false ++ rest) m = (some .missed, m) := by
  constructor
  · intro k hk
    rw [loanedSet_try hl max 0 k _ (by omega) hm]
    unfold loanedSet
    have hn := (missed_iff_no_lock m h T true hl).1 x
    cases hq : m.set h T x true with
    | mk q m' =>
      rw [hq] at hn
      cases q with
      | missed => exact absurd (hn.1 rfl) (by simp)
      | _ => rfl
  · obtain ⟨n, rfl⟩ : ∃ n, max = n + 1 := ⟨max - 1, by omega⟩
    rw [List.replicate_succ', List.append_assoc, loanedSet_try hl (n + 1) 0 n _ (by omega) hm]
    simp only [List.cons_append, List.nil_append]
    unfold loanedSet
    rw [set_unlocked hl]
    dsimp only
    rw [Nat.mod_eq_of_lt (by omega), if_pos (by omega)]

theorem Hdl.loanedGet_try {m : Mem} {h : Nat} {T : Ty} (hl : (m.obj h).isSome = true) (max nr k : Nat)
    (rest : List Bool) (hk : nr + k < max) (hm : max < 4294967296) :
    loanedGet m h T max nr (List.replicate k false ++ rest) = loanedGet m h T max (nr + k) rest := by
  induction k generalizing nr with
  | zero => rfl
  | succ k ih =>
    rw [List.replicate_succ, List.cons_append]
    conv_lhs => unfold loanedGet
    rw [get_unlocked hl]
    dsimp only
    rw [Nat.mod_eq_of_lt (by omega), if_pos (by omega), ih (nr + 1) (by omega)]
    congr 1
    omega

/-- **C38, `get_optional` of a loaned interface**: the answer of the first attempt that obtains the lock, if that is among the
first `max_tries`; otherwise no value. -/
theorem loaned_get_result (m : Mem) (h : Nat) (T : Ty) (max : Nat) (rest : List Bool)
    (hl : (m.obj h).isSome = true) (hm : max < 4294967296) (h1 : 1 ≤ max) :
    (∀ k < max, loanedGet m h T max 0 (List.replicate k false ++ true :: rest) = some (m.get h T true)) ∧
    loanedGet m h T max 0 (List.replicate max false ++ rest) = some .missed := by
  constructor
  · intro k hk
    rw [loanedGet_try hl max 0 k _ (by omega) hm]
    unfold loanedGet
    have hn := (missed_iff_no_lock m h T true hl).2
    cases hq : m.get h T true with
    | missed => rw [hq] at hn; exact absurd (hn.1 rfl) (by simp)
    | _ => rfl
  · obtain ⟨n, rfl⟩ : ∃ n, max = n + 1 := ⟨max - 1, by omega⟩
    rw [List.replicate_succ', List.append_assoc, loanedGet_try hl (n + 1) 0 n _ (by omega) hm]
    simp only [List.cons_append, List.nil_append]
    unfold loanedGet
    rw [get_unlocked hl]
    dsimp only
    rw [Nat.mod_eq_of_lt (by omega), if_neg (by omega)]

/-- **The exception `max_tries = 0`**: `get_optional` tries once, `set_value` goes on trying (for 2^32 attempts). -/
theorem loaned_set_zero_tries (m : Mem) (h : Nat) (T : Ty) (x : T.Val) (hl : (m.obj h).isSome = true) (k : Nat)
    (hk : k < 4294967296) : loanedSet h T x 0 0 (List.replicate k false) m = (none, m) := by
  have : ∀ nr, nr + k < 4294967296 → loanedSet h T x 0 nr (List.replicate k false) m = (none, m) := by
    induction k with
    | zero => intro nr _; rfl
    | succ k ih =>
      intro nr hn
      rw [List.replicate_succ]
      unfold loanedSet
      rw [set_unlocked hl]
      dsimp only
      rw [Nat.mod_eq_of_lt (by omega), if_neg (by omega)]
      exact ih (by omega) (nr + 1) (by omega)
  exact this 0 (by omega)

/-! ## Concrete cases -/

/-- Exact numbers. -/
def Hdl.exact : Rounding := ⟨fun q => some (.fin q), fun q => some (.fin q)⟩

/-- Everything zero. -/
def Hdl.zeros : Nat → Dbl := fun _ => 0

/-- A program with a number, a counter and a copy of the number. -/
def Hdl.sample : List Op :=
  [.make 1 "double".toList "1.5".toList, .make 2 "int8".toList [], .copyNew 3 1, .wrap 4 7, .moveNew 5 4,
   .set 3 .double (.fin 2) true, .get 1 .double true, .get 3 .double true, .set 2 .int8 (5 : Int) true, .get 2 .int8 true,
   .get 2 .double true, .poke 7 (.fin 9), .get 5 .double true, .get 4 .double true, .set 1 .double (.fin 3) false]

example : (Regs.empty zeros).allFine exact sample = true := by decide +kernel

example : (run exact (Mem.empty zeros) sample).1 =
    [.done, .done, .done, .done, .done, .wrote (.ok ()), .read .double (.ok (.fin (3 / 2))), .read .double (.ok (.fin 2)),
     .wrote (.ok ()), .read .int8 (.ok (5 : Int)), .read .double .thrown, .done, .read .double (.ok (.fin 9)),
     .read .double .thrown, .wrote .missed] := by decide +kernel

example : (after exact zeros sample).owns 2 ∧ ((after exact zeros sample).set 2 .int8 (6 : Int) true).1 = .ok () := by
  refine ⟨⟨{ val := some ⟨.int8, (5 : Int)⟩, ty := .int8 }, by decide +kernel, rfl⟩, by decide +kernel⟩

example : ∃ o, (after exact zeros sample).obj 5 = some o ∧ o.ptr = .cell 7 := ⟨{ ptr := .cell 7 }, by decide +kernel, rfl⟩

example : loanedSet 1 .double (.fin 8) 3 0 [false, false, true] (after exact zeros sample) =
    (some ((after exact zeros sample).set 1 .double (.fin 8) true).1, ((after exact zeros sample).set 1 .double (.fin 8) true).2) :=
  (loaned_set_result _ 1 .double (.fin 8) 3 [] (by decide +kernel) (by omega) (by omega)).1 2 (by omega)

/-! ## What is false -/

/-- **A handle that was moved has lost its value.** Moving a handle made from a data type leaves the new one pointing into the
old one: reading or writing it is undefined, before and after the old one is destroyed. This is what happens to an interface
returned by an overridden `export_command_interfaces` (hardware_component.cpp:303) or by
`on_export_reference_interfaces` (chainable_controller_interface.cpp:216) if it was made from a description. -/
theorem moved_handle_dangles :
    (run exact (Mem.empty zeros)
      [.make 1 "double".toList "1.5".toList, .moveNew 2 1, .get 2 .double true, .destroy 1, .get 2 .double true,
       .set 2 .double (.fin 2) true]).1 =
      [.done, .done, .read .double .ub, .done, .read .double .ub, .wrote .ub] ∧
    ((Regs.empty zeros).run exact
      [.make 1 "double".toList "1.5".toList, .moveNew 2 1, .get 2 .double true, .destroy 1, .get 2 .double true,
       .set 2 .double (.fin 2) true]).1 =
      [.done, .done, .read .double (.ok (.fin (3 / 2))), .done, .read .double (.ok (.fin (3 / 2))), .wrote (.ok ())] := by
  decide +kernel

/-- **Two handles exchanged by a move assignment** each write the other's value: what is set on one is read on the other. -/
theorem swapped_handles_cross :
    (run exact (Mem.empty zeros)
      [.make 1 "double".toList "1".toList, .make 2 "double".toList "2".toList, .moveTo 1 2, .get 1 .double true,
       .copyNew 3 1, .get 3 .double true]).1 =
      [.done, .done, .done, .read .double (.ok (.fin 1)), .done, .read .double (.ok (.fin 2))] := by
  decide +kernel

/-- **Moving a handle onto itself** locks its mutex twice. -/
theorem self_move_broken (m : Mem) (h : Nat) (r : Rounding) (hl : (m.obj h).isSome = true) :
    (step r m (.moveTo h h)).1 = .broken := by
  obtain ⟨o, ho⟩ := Option.isSome_iff_exists.1 hl
  simp [step, ho]

/-- `is_castable_to_double` (hardware_info.hpp:260-277): all types. -/
def Hdl.castable : Ty → Bool := fun _ => true

/-- **Castable to double, yet not readable as double**: every integer or `float32` handle. -/
theorem castable_but_throws (t : Ty) (v : t.Val) (s : Regs) (h : Nat)
    (hs : s.reg h = some (.own t v)) (h1 : t ≠ .double) (h2 : t ≠ .bool) :
    castable t = true ∧ s.mem.get h .double true = .thrown := by
  refine ⟨rfl, ?_⟩
  rw [Regs.mem_get s h .double _ hs]
  cases t <;> first | rfl | (exact absurd rfl h1) | (exact absurd rfl h2)

end Verif
