import Verif.Num.Dbl
import Mathlib.Tactic.Linarith
/-!
# Order lemmas about `double`
-/
namespace Verif.Dbl

@[simp] theorem isNan_fin (q : Rat) : (fin q).isNan = false := rfl
@[simp] theorem isNan_nan : nan.isNan = true := rfl
@[simp] theorem isNan_ninf : ninf.isNan = false := rfl
@[simp] theorem isNan_pinf : pinf.isNan = false := rfl
@[simp] theorem isFinite_fin (q : Rat) : (fin q).isFinite = true := rfl
@[simp] theorem isFinite_nan : nan.isFinite = false := rfl
@[simp] theorem isFinite_ninf : ninf.isFinite = false := rfl
@[simp] theorem isFinite_pinf : pinf.isFinite = false := rfl
theorem zero_eq : (0 : Dbl) = fin 0 := rfl

@[simp] theorem lt_nan_left (a : Dbl) : lt nan a = false := by cases a <;> rfl
@[simp] theorem lt_nan_right (a : Dbl) : lt a nan = false := by cases a <;> rfl
@[simp] theorem le_nan_left (a : Dbl) : le nan a = false := by cases a <;> rfl
@[simp] theorem le_nan_right (a : Dbl) : le a nan = false := by cases a <;> rfl

theorem le_refl {a : Dbl} (h : a.isNan = false) : le a a = true := by
  cases a <;> simp_all [le]

theorem lt_irrefl (a : Dbl) : lt a a = false := by cases a <;> simp [lt]

theorem le_trans {a b c : Dbl} (h : le a b = true) (g : le b c = true) : le a c = true := by
  cases a <;> cases b <;> cases c <;> simp_all [le]
  exact _root_.le_trans h g

theorem le_of_lt {a b : Dbl} (h : lt a b = true) : le a b = true := by
  cases a <;> cases b <;> simp_all [le, lt]
  exact _root_.le_of_lt h

theorem lt_of_lt_of_le {a b c : Dbl} (h : lt a b = true) (g : le b c = true) : lt a c = true := by
  cases a <;> cases b <;> cases c <;> simp_all [le, lt]
  linarith

theorem lt_of_le_of_lt {a b c : Dbl} (h : le a b = true) (g : lt b c = true) : lt a c = true := by
  cases a <;> cases b <;> cases c <;> simp_all [le, lt]
  linarith

theorem le_of_not_lt {a b : Dbl} (ha : a.isNan = false) (hb : b.isNan = false) (h : lt b a = false) :
    le a b = true := by
  cases a <;> cases b <;> simp_all [le, lt]

theorem not_lt_of_le {a b : Dbl} (h : le a b = true) : lt b a = false := by
  cases a <;> cases b <;> simp_all [le, lt]

theorem not_nan_left {a b : Dbl} (h : le a b = true) : a.isNan = false := by
  cases a <;> simp_all

theorem not_nan_right {a b : Dbl} (h : le a b = true) : b.isNan = false := by
  cases b <;> simp_all

theorem lt_not_nan_left {a b : Dbl} (h : lt a b = true) : a.isNan = false := not_nan_left (le_of_lt h)
theorem lt_not_nan_right {a b : Dbl} (h : lt a b = true) : b.isNan = false := not_nan_right (le_of_lt h)

theorem ne_of_lt {a b : Dbl} (h : lt a b = true) : a ≠ b := by
  rintro rfl; rw [lt_irrefl] at h; exact absurd h (by decide)

theorem le_antisymm {a b : Dbl} (h : le a b = true) (g : le b a = true) : a = b := by
  cases a <;> cases b <;> simp_all [le]
  linarith

/-! ### `min`, `max`, `clamp` -/

theorem min_le_left {a b : Dbl} (ha : a.isNan = false) : le (min a b) a = true := by
  unfold min; split
  · exact le_of_lt ‹_›
  · exact le_refl ha

theorem min_le_right {a b : Dbl} (ha : a.isNan = false) (hb : b.isNan = false) : le (min a b) b = true := by
  unfold min; split
  · exact le_refl hb
  · exact le_of_not_lt ha hb (Bool.eq_false_iff.2 ‹_›)

theorem le_max_left {a b : Dbl} (ha : a.isNan = false) : le a (max a b) = true := by
  unfold max; split
  · exact le_of_lt ‹_›
  · exact le_refl ha

theorem le_max_right {a b : Dbl} (ha : a.isNan = false) (hb : b.isNan = false) : le b (max a b) = true := by
  unfold max; split
  · exact le_refl hb
  · exact le_of_not_lt hb ha (Bool.eq_false_iff.2 ‹_›)

theorem le_min {a b c : Dbl} (h : le c a = true) (g : le c b = true) : le c (min a b) = true := by
  unfold min; split <;> assumption

theorem max_le {a b c : Dbl} (h : le a c = true) (g : le b c = true) : le (max a b) c = true := by
  unfold max; split <;> assumption

theorem min_not_nan {a b : Dbl} (ha : a.isNan = false) : (min a b).isNan = false := not_nan_left (min_le_left ha)
theorem max_not_nan {a b : Dbl} (ha : a.isNan = false) : (max a b).isNan = false := not_nan_right (le_max_left ha)

@[simp] theorem min_nan_left (b : Dbl) : min nan b = nan := by unfold min; simp
@[simp] theorem max_nan_left (b : Dbl) : max nan b = nan := by unfold max; simp
@[simp] theorem min_nan_right (a : Dbl) : min a nan = a := by unfold min; simp
@[simp] theorem max_nan_right (a : Dbl) : max a nan = a := by unfold max; simp

theorem min_fin (a b : Rat) : min (fin a) (fin b) = fin (Min.min a b) := by
  unfold min; simp only [lt_fin, decide_eq_true_eq]
  split
  · rw [_root_.min_eq_right (by linarith)]
  · rw [_root_.min_eq_left (by linarith)]

theorem max_fin (a b : Rat) : max (fin a) (fin b) = fin (Max.max a b) := by
  unfold max; simp only [lt_fin, decide_eq_true_eq]
  split
  · rw [_root_.max_eq_right (by linarith)]
  · rw [_root_.max_eq_left (by linarith)]

/-- With a proper range, `std::clamp` of a number gives a number in the range. -/
theorem clamp_within {v lo hi : Dbl} (hv : v.isNan = false) (h : le lo hi = true) :
    le lo (clamp v lo hi) = true ∧ le (clamp v lo hi) hi = true := by
  have hlo := not_nan_left h
  have hhi := not_nan_right h
  unfold clamp
  split
  · exact ⟨le_refl hlo, h⟩
  · rename_i g
    split
    · exact ⟨h, le_refl hhi⟩
    · rename_i g'
      exact ⟨le_of_not_lt hlo hv (by simpa using g), le_of_not_lt hv hhi (by simpa using g')⟩

/-- Whatever the two bounds are, `std::clamp` of a number stays inside an interval containing both. -/
theorem clamp_within_outer {v lo hi L U : Dbl} (hv : v.isNan = false) (h1 : le L lo = true) (h2 : le lo U = true)
    (h3 : le L hi = true) (h4 : le hi U = true) :
    le L (clamp v lo hi) = true ∧ le (clamp v lo hi) U = true := by
  unfold clamp
  split
  · exact ⟨h1, h2⟩
  · rename_i g
    split
    · exact ⟨h3, h4⟩
    · rename_i g'
      exact ⟨le_trans h1 (le_of_not_lt (not_nan_left h2) hv (by simpa using g)),
        le_trans (le_of_not_lt hv (not_nan_right h3) (by simpa using g')) h4⟩

/-- A value inside the range is left as it is. -/
theorem clamp_inside {v lo hi : Dbl} (h : le lo v = true) (g : le v hi = true) : clamp v lo hi = v := by
  unfold clamp
  rw [not_lt_of_le h, not_lt_of_le g]; rfl

/-- `std::clamp` changes the value exactly if it is below the lower or above the upper bound. -/
theorem clamp_ne_iff (v lo hi : Dbl) : clamp v lo hi ≠ v ↔ (lt v lo || lt hi v) = true := by
  unfold clamp
  split
  · rename_i g; simp [g]; exact (ne_of_lt g).symm
  · rename_i g
    split
    · rename_i g'; simp [g']; exact ne_of_lt g'
    · rename_i g'; simp [g, g']

theorem clamp_fin (v lo hi : Rat) (h : lo ≤ hi) : clamp (fin v) (fin lo) (fin hi) = fin (Max.max lo (Min.min v hi)) := by
  unfold clamp; simp only [lt_fin, decide_eq_true_eq]
  split
  · rw [_root_.max_eq_left]; exact _root_.le_trans (_root_.min_le_left _ _) (by linarith)
  · split
    · rw [_root_.min_eq_right (by linarith), _root_.max_eq_right h]
    · rw [_root_.min_eq_left (by linarith), _root_.max_eq_right (by linarith)]

/-- Between two finite numbers there are only finite numbers. -/
theorem fin_of_between {a b : Rat} {v : Dbl} (h : le (fin a) v = true) (g : le v (fin b) = true) :
    ∃ q, v = fin q ∧ a ≤ q ∧ q ≤ b := by
  cases v <;> simp_all [le]

end Verif.Dbl
