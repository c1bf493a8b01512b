import Verif.Sem.Model
/-!
# What is expected of semantic components
-/
namespace Verif.Sem

/-- The full name asked for: a full name, or a joint with the type of interface. -/
def wanted (type n : Name) : Name := if type = [] then n else n ++ '/' :: type

/-- `v` is the last value the interface `n` answered with in this history of answers, `d` if it never answered. -/
def LastAnswer (d : Dbl) (n : Name) (hist : List (Name → Option Dbl)) (v : Dbl) : Prop :=
  (∃ a f b, hist = a ++ f :: b ∧ f n = some v ∧ ∀ g ∈ b, g n = none) ∨ ((∀ g ∈ hist, g n = none) ∧ v = d)

/-- A period in which a controller is active: the interfaces it got, and the answers of the handles each time the sensor is asked. -/
structure Session where
  ifs : List Loan
  reads : List (Name → Option Dbl)

/-- The interfaces are different ones and those the sensor needs are among them. -/
def Provides (names : List Name) (ifs : List Loan) : Prop := (ifs.map Loan.name).Nodup ∧ ∀ n ∈ names, ∃ l ∈ ifs, l.name = n

/-- What a controller that uses the sensor properly does in such a period. -/
def Session.ops (s : Session) : List Op := .assign s.ifs :: (s.reads.map .read ++ [.release, .clear])

/-- All answers of the handles in some sessions. -/
def answers (l : List Session) : List (Name → Option Dbl) := l.flatMap Session.reads

end Verif.Sem
