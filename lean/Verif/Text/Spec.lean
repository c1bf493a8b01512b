import Mathlib.Data.Nat.Digits.Defs
import Mathlib.Data.Rat.Defs
/-!
# What the texts mean

Independent of the model: blanks, bracketed lists, decimal numbers and integers as texts.
-/
namespace Verif.Text

/-- Only blanks: space, tab, newline, carriage return, form feed, vertical tab. -/
def Blanks (w : List Char) : Prop := ∀ c ∈ w, c ∈ [' ', '\t', '\n', '\r', Char.ofNat 12, Char.ofNat 11]

/-- An element of a list: not empty, without blanks, commas and brackets. -/
def Token (t : List Char) : Prop := t ≠ [] ∧ ∀ c ∈ t, ¬ Blanks [c] ∧ c ≠ ',' ∧ c ≠ '[' ∧ c ≠ ']'

/-- The text between the brackets is `l`: elements separated by commas, with any blanks around them. -/
inductive Items : List Char → List (List Char) → Prop where
  | one {a t b} : Blanks a → Token t → Blanks b → Items (a ++ t ++ b) [t]
  | more {a t b r l} : Blanks a → Token t → Blanks b → Items r l → Items (a ++ t ++ b ++ ',' :: r) (t :: l)

/-- The text `s` is the bracketed list `l`. -/
def ListText (s : List Char) (l : List (List Char)) : Prop :=
  ∃ w, s = '[' :: (w ++ [']']) ∧ ((Blanks w ∧ l = []) ∨ Items w l)

/-- Digits only. -/
def Digits (ds : List Char) : Prop := ∀ c ∈ ds, c ∈ ['0', '1', '2', '3', '4', '5', '6', '7', '8', '9']

/-- The number written by these digits. -/
def decimalValue (ds : List Char) : Nat := Nat.ofDigits 10 (ds.reverse.map (fun c => c.toNat - '0'.toNat))

/-- `s` is a sign and the sign is `neg`. -/
def SignText (s : List Char) (neg : Bool) : Prop := (s = [] ∧ neg = false) ∨ (s = ['+'] ∧ neg = false) ∨ (s = ['-'] ∧ neg = true)

/-- An exponent with value `e`, possibly missing. -/
def ExpText (s : List Char) (e : Int) : Prop :=
  (s = [] ∧ e = 0) ∨ ∃ m sg neg ds, s = m :: (sg ++ ds) ∧ (m = 'e' ∨ m = 'E') ∧ SignText sg neg ∧ Digits ds ∧ ds ≠ [] ∧
    e = if neg then -(decimalValue ds : Int) else decimalValue ds

/-- An unsigned decimal number with value `q`: digits with an optional point, at least one digit, an optional exponent. -/
def Decimal (s : List Char) (q : Rat) : Prop :=
  ∃ i f p x e, s = i ++ p ++ x ∧ Digits i ∧ Digits f ∧ (i ≠ [] ∨ f ≠ []) ∧ ((p = [] ∧ f = []) ∨ p = '.' :: f) ∧ ExpText x e ∧
    q = (decimalValue (i ++ f) : Rat) / 10 ^ f.length * 10 ^ e

/-- A decimal number with an optional sign. -/
def RealText (s : List Char) (q : Rat) : Prop :=
  ∃ sg neg t r, s = sg ++ t ∧ SignText sg neg ∧ Decimal t r ∧ q = if neg then -r else r

/-- An integer: blanks, an optional sign, digits. -/
def IntText (s : List Char) (v : Int) : Prop :=
  ∃ w sg neg ds, s = w ++ sg ++ ds ∧ Blanks w ∧ SignText sg neg ∧ Digits ds ∧ ds ≠ [] ∧
    v = if neg then -(decimalValue ds : Int) else decimalValue ds

end Verif.Text
