import Verif.Text.Regex
import Mathlib.Data.Rat.Defs
import Mathlib.Algebra.Order.Floor.Ring
import Mathlib.Data.Rat.Floor
/-!
# Text conversions of hardware descriptions

Strings are lists of characters. The C locale is assumed (`std::tolower`, `isspace`, the regex traits).
-/
namespace Verif.Text

/-- Result of a conversion: a value, a C++ exception, or undefined behaviour (lexical_casts.hpp throughout). -/
inductive Out (α : Type) where
  | ok (a : α)
  | invalid
  | range
  | ub
deriving DecidableEq, Repr

/-- The blanks of the C locale: `\s` of the regular expressions (lexical_casts.hpp:117-148) and the list in helpers.hpp:199. -/
def isBlank (c : Char) : Bool :=
  c == ' ' || c == '\t' || c == '\n' || c == '\r' || c == Char.ofNat 12 || c == Char.ofNat 11

/-- helpers.hpp:197-207 `strip`: from the first to the last non-blank character. -/
def strip (s : List Char) : List Char := ((s.dropWhile isBlank).reverse.dropWhile isBlank).reverse

/-- lexical_casts.cpp:129 `std::tolower` in the C locale. -/
def lowerChar (c : Char) : Char :=
  if 'A'.toNat ≤ c.toNat ∧ c.toNat ≤ 'Z'.toNat then Char.ofNat (c.toNat + 32) else c

/-- lexical_casts.cpp:124-131 `to_lower_case`. -/
def toLowerCase (s : List Char) : List Char := s.map lowerChar

/-- lexical_casts.cpp:133-150 `parse_bool`. -/
def parseBool (s : List Char) : Out Bool :=
  let t := toLowerCase s
  if t = ['t', 'r', 'u', 'e'] then .ok true
  else if t = ['f', 'a', 'l', 's', 'e'] then .ok false
  else .invalid

/-! ## Real numbers -/

/-- A decimal digit (from_chars, lexical_casts.cpp:52). -/
def isDigit (c : Char) : Bool := decide ('0'.toNat ≤ c.toNat ∧ c.toNat ≤ '9'.toNat)

/-- The number written by a sequence of digits (from_chars, lexical_casts.cpp:52; strtol, lexical_casts.hpp:52). -/
def digitsVal (ds : List Char) : Nat := ds.foldl (fun n c => n * 10 + (c.toNat - '0'.toNat)) 0

/-- The optional exponent in `std::from_chars` (lexical_casts.cpp:52): its value and what is left. A malformed exponent is not consumed. -/
def scanExp : List Char → Int × List Char
  | [] => (0, [])
  | c :: t =>
    if c = 'e' ∨ c = 'E' then
      match t with
      | [] => (0, c :: t)
      | d :: u =>
        if d = '-' then
          if u.takeWhile isDigit = [] then (0, c :: t) else (-(digitsVal (u.takeWhile isDigit) : Int), u.dropWhile isDigit)
        else if d = '+' then
          if u.takeWhile isDigit = [] then (0, c :: t) else (digitsVal (u.takeWhile isDigit), u.dropWhile isDigit)
        else if t.takeWhile isDigit = [] then (0, c :: t) else (digitsVal (t.takeWhile isDigit), t.dropWhile isDigit)
    else (0, c :: t)

/-- An optional point and the digits after it, in `std::from_chars` (lexical_casts.cpp:52), and what is left. -/
def splitPoint : List Char → List Char × List Char
  | '.' :: t => (t.takeWhile isDigit, t.dropWhile isDigit)
  | s => ([], s)

/-- `std::from_chars` without the sign (lexical_casts.cpp:52): digits with an optional point, and an optional exponent. The exact value
and what is left. The texts for infinities and NaN are not accepted here: `stod` rejects them in any case (lexical_casts.cpp:55). -/
def scanAbs (s : List Char) : Option (Rat × List Char) :=
  let i := s.takeWhile isDigit
  let p := splitPoint (s.dropWhile isDigit)
  if i = [] ∧ p.1 = [] then none
  else
    let e := scanExp p.2
    some ((digitsVal (i ++ p.1) : Rat) / 10 ^ p.1.length * 10 ^ e.1, e.2)

/-- `std::from_chars` for floating-point numbers (lexical_casts.cpp:52). -/
def fromChars : List Char → Option (Rat × List Char)
  | '-' :: t => (scanAbs t).map (fun r => (-r.1, r.2))
  | s => scanAbs s

/-- lexical_casts.cpp:42-50: a leading plus sign is skipped. -/
def skipPlus : List Char → List Char
  | '+' :: u => u
  | s => s

/-- lexical_casts.cpp:52-62: everything must be consumed and the value must be finite. -/
def fromAll {F : Type} (round : Rat → Option F) (t : List Char) : Out F :=
  match fromChars t with
  | some (q, []) => match round q with
    | some x => .ok x
    | none => .invalid
  | _ => .invalid

/-- lexical_casts.cpp:33-63 and 101-109 `stod` (the C++20 branch). `round` is the conversion of an exact value into the floating-point type,
`none` where the value is out of its range. (The empty text has no digits, hence 36-39 and 46-49 need no case of their own.) -/
def stod {F : Type} (round : Rat → Option F) (s : List Char) : Out F := fromAll round (skipPlus s)

/-! ## Integers -/

/-- The optional sign in `strtol`/`strtoul` (called by lexical_casts.hpp:52, 81): negative?, and what is left. -/
def splitSign : List Char → Bool × List Char
  | '-' :: t => (true, t)
  | '+' :: t => (false, t)
  | s => (false, s)

/-- `strtol`/`strtoul` up to the range check (called by lexical_casts.hpp:52, 81): blanks, a sign, digits. Negative?, the absolute value,
what is left; `none` if there are no digits. -/
def scanInt (s : List Char) : Option (Bool × Nat × List Char) :=
  let p := splitSign (s.dropWhile isBlank)
  if p.2.takeWhile isDigit = [] then none
  else some (p.1, digitsVal (p.2.takeWhile isDigit), p.2.dropWhile isDigit)

/-- lexical_casts.hpp:46-64 `stoi_generic<T>` with `lo`, `hi` the limits of `T` (`long` has 64 bits). -/
def stoi (lo hi : Int) (s : List Char) : Out Int :=
  match scanInt s with
  | none => .invalid
  | some (neg, a, rest) =>
    let v : Int := if neg then -(a : Int) else a
    if v < -2 ^ 63 ∨ 2 ^ 63 - 1 < v then .range
    else if rest ≠ [] then .invalid
    else if v < lo ∨ hi < v then .range
    else .ok v

/-- lexical_casts.hpp:74-93 `stoui_generic<T>` with `hi` the largest value of `T` (`unsigned long` has 64 bits; `strtoul` negates modulo
2^64). -/
def stoui (hi : Nat) (s : List Char) : Out Nat :=
  match scanInt s with
  | none => .invalid
  | some (neg, a, rest) =>
    if 2 ^ 64 - 1 < a then .range
    else
      let v := if neg then (2 ^ 64 - a) % 2 ^ 64 else a
      if rest ≠ [] then .invalid
      else if hi < v then .range
      else .ok v

/-! ## Arrays -/

/-- lexical_casts.hpp:117, between the first `(` and its `)`. -/
def flatBody : Re :=
  .seq (.star (.cls (fun c => c != '[' && c != ']'))) (.seq (.star (.cls isBlank))
    (.star (.seq (.chr ',') (.seq (.star (.cls isBlank)) (.seq (.plus (.cls (fun c => c != '[' && c != ']'))) (.star (.cls isBlank)))))))

/-- lexical_casts.hpp:117 `array_regex`. -/
def arrayRe : Re := .seq (.chr '[') (.seq (.star (.cls isBlank)) (.seq (.opt flatBody) (.chr ']')))

/-- lexical_casts.hpp:125 `empty_or_spaces_regex`. -/
def emptyRe : Re := .seq (.chr '[') (.seq (.star (.cls isBlank)) (.chr ']'))

/-- lexical_casts.hpp:133, between the first `(` and its `)`. -/
def commaBody : Re :=
  .seq (.plus (.cls (fun c => c != ',' && !isBlank c)))
    (.star (.seq (.star (.cls isBlank)) (.seq (.chr ',') (.seq (.star (.cls isBlank)) (.plus (.cls (fun c => c != ',' && !isBlank c)))))))

/-- lexical_casts.hpp:133 `comma_separated_regex`. -/
def commaRe : Re :=
  .seq (.chr '[') (.seq (.star (.cls isBlank)) (.seq (.opt commaBody) (.seq (.star (.cls isBlank)) (.chr ']'))))

/-- The characters of `value_regex` (lexical_casts.hpp:148). -/
def isValueChar (c : Char) : Bool := !isBlank c && c != ',' && c != '[' && c != ']'

/-- lexical_casts.hpp:148-154: all (longest, leftmost) matches of `value_regex`; `cur` is the match being read. -/
def values (cur : List Char) : List Char → List (List Char)
  | [] => if cur = [] then [] else [cur]
  | c :: t => if isValueChar c then values (cur ++ [c]) t else if cur = [] then values [] t else cur :: values [] t

/-- lexical_casts.hpp:152-181: convert the values one by one; the first that cannot be converted decides. -/
def convertAll {T : Type} (elem : List Char → Out T) : List (List Char) → Out (List T)
  | [] => .ok []
  | v :: t => match elem v with
    | .ok a => match convertAll elem t with
      | .ok l => .ok (a :: l)
      | .invalid => .invalid
      | .range => .range
      | .ub => .ub
    | .invalid => .invalid
    | .range => .range
    | .ub => .ub

/-- lexical_casts.hpp:114-183 `parse_array<T>`; `elem` converts one element (156-178). -/
def parseArray {T : Type} (elem : List Char → Out T) (s : List Char) : Out (List T) :=
  if !arrayRe.accepts s then .invalid
  else if emptyRe.accepts s then .ok []
  else if !commaRe.accepts s then .invalid
  else if s = ['[', ']'] then .ok []
  else convertAll elem (values [] s)

/-- lexical_casts.cpp:152-155 `parse_string_array` = `parse_array<std::string>` (lexical_casts.hpp:156-159). -/
def parseStringArray (s : List Char) : Out (List (List Char)) := parseArray .ok s

/-- lexical_casts.hpp:160-163: elements of `parse_array<bool>`. -/
def parseBoolArray (s : List Char) : Out (List Bool) := parseArray parseBool s

/-- lexical_casts.hpp:164-176: elements of `parse_array<double>`. -/
def parseRealArray {F : Type} (round : Rat → Option F) (s : List Char) : Out (List F) := parseArray (stod round) s

/-- lexical_casts.hpp:168: `static_cast<T>` of a floating-point number with value `q` into an integer type: truncation; undefined if the
truncated value is not representable. -/
def castInt (lo hi : Int) (q : Rat) : Out Int :=
  let v : Int := if 0 ≤ q then ⌊q⌋ else ⌈q⌉
  if lo ≤ v ∧ v ≤ hi then .ok v else .ub

/-- lexical_casts.hpp:164-176: elements of `parse_array<T>` for an integer type `T`. `val` is the exact value of a floating-point number. -/
def parseIntArray {F : Type} (round : Rat → Option F) (val : F → Rat) (lo hi : Int) (s : List Char) : Out (List Int) :=
  parseArray (fun v => match stod round v with
    | .ok x => castInt lo hi (val x)
    | _ => .invalid) s

end Verif.Text
