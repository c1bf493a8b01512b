import Verif.Core.Types
import Mathlib.Data.List.Nodup
/-! Helper lemmas about the list helpers. -/
namespace Verif

variable {α β : Type} [DecidableEq α]

@[simp] theorem mem_addItem {l : List α} {a b : α} : b ∈ addItem l a ↔ b ∈ l ∨ b = a := by
  unfold addItem; split <;> simp_all

@[simp] theorem mem_addItems {l items : List α} {b : α} :
    b ∈ addItems l items ↔ b ∈ l ∨ b ∈ items := by
  unfold addItems
  induction items generalizing l with
  | nil => simp
  | cons a t ih => simp [ih, or_assoc]

theorem nodup_addItem {l : List α} {a : α} (h : l.Nodup) : (addItem l a).Nodup := by
  unfold addItem; split
  · exact h
  · rename_i hn
    rw [List.nodup_append]
    refine ⟨h, by simp, ?_⟩
    intro x hx y hy
    simp at hy; subst hy; intro he; subst he; exact hn hx

theorem nodup_addItems {l items : List α} (h : l.Nodup) : (addItems l items).Nodup := by
  unfold addItems
  induction items generalizing l with
  | nil => simpa
  | cons a t ih => simp; exact ih (nodup_addItem h)

theorem mem_of_mem_removeItem {l : List α} {a b : α} (h : b ∈ removeItem l a) : b ∈ l :=
  List.mem_of_mem_erase h

theorem mem_removeItem_of_ne {l : List α} {a b : α} (h : b ≠ a) :
    b ∈ removeItem l a ↔ b ∈ l := by
  unfold removeItem; exact List.mem_erase_of_ne h

theorem mem_removeItem {l : List α} {a b : α} (hn : l.Nodup) :
    b ∈ removeItem l a ↔ b ∈ l ∧ b ≠ a := by
  unfold removeItem
  rw [hn.mem_erase_iff]; exact and_comm

theorem nodup_removeItem {l : List α} {a : α} (h : l.Nodup) : (removeItem l a).Nodup := h.erase a

theorem nodup_removeItems {l items : List α} (h : l.Nodup) : (removeItems l items).Nodup := by
  unfold removeItems
  induction items generalizing l with
  | nil => simpa
  | cons a t ih => simp; exact ih (nodup_removeItem h)

theorem mem_removeItems {l items : List α} {b : α} (hn : l.Nodup) :
    b ∈ removeItems l items ↔ b ∈ l ∧ b ∉ items := by
  unfold removeItems
  induction items generalizing l with
  | nil => simp
  | cons a t ih =>
    simp only [List.foldl_cons]
    rw [ih (nodup_removeItem hn), mem_removeItem hn]
    simp [and_assoc]

theorem mem_of_mem_removeItems {l items : List α} {b : α} (h : b ∈ removeItems l items) : b ∈ l := by
  unfold removeItems at h
  induction items generalizing l with
  | nil => simpa using h
  | cons a t ih => exact mem_of_mem_removeItem (ih h)

theorem mem_removeItems_of_not_mem {l items : List α} {b : α} (h : b ∉ items) :
    b ∈ removeItems l items ↔ b ∈ l := by
  unfold removeItems
  induction items generalizing l with
  | nil => simp
  | cons a t ih =>
    simp at h
    simp only [List.foldl_cons]
    rw [ih h.2, mem_removeItem_of_ne h.1]

@[simp] theorem hasItem_iff {l : List α} {a : α} : hasItem l a = true ↔ a ∈ l := by
  simp [hasItem]

@[simp] theorem upd_self (f : α → β) (a : α) (b : β) : upd f a b a = b := by simp [upd]
theorem upd_ne (f : α → β) {a x : α} (b : β) (h : x ≠ a) : upd f a b x = f x := by simp [upd, h]
theorem upd_apply (f : α → β) (a x : α) (b : β) : upd f a b x = if x = a then b else f x := rfl

/-- Fold invariant: a property preserved by each step holds at the end. -/
theorem foldl_inv {γ : Type} (P : β → Prop) (f : β → γ → β) (l : List γ) (b : β)
    (hb : P b) (hf : ∀ b c, c ∈ l → P b → P (f b c)) : P (l.foldl f b) := by
  induction l generalizing b with
  | nil => simpa
  | cons c t ih =>
    simp only [List.foldl_cons]
    exact ih _ (hf _ _ (by simp) hb) (fun b c hc => hf b c (by simp [hc]))

end Verif
