import Verif.Model.Str

/-!
# Addresses and host names
-/

namespace Verif.Spec

/-- The characters of IPv4 notation, with wildcard and prefix length. -/
def v4Chars : Str := b!"0123456789.*/"

/-- The characters of IPv6 notation, with wildcard and prefix length. -/
def v6Chars : Str := b!"0123456789abcdefABCDEF:*/"

/-- Two or more characters of IPv4 notation, or of IPv6 notation. -/
def AddressLike (x : Str) : Prop :=
  2 ≤ x.length ∧ ((∀ c ∈ x, c ∈ v4Chars) ∨ ∀ c ∈ x, c ∈ v6Chars)

instance (x : Str) : Decidable (AddressLike x) := inferInstanceAs (Decidable (_ ∧ _))

/-- Each element once, in the order of the first occurrences. -/
def nubs : List Str → List Str
  | [] => []
  | a :: t => a :: (nubs t).filter (· ≠ a)

/-- ASCII letters. -/
def AsciiLetter (c : Byte) : Prop := 65 ≤ c ∧ c ≤ 90 ∨ 97 ≤ c ∧ c ≤ 122

/-- Letters of ISO 8859-1. -/
def LatinLetter (c : Byte) : Prop :=
  AsciiLetter c ∨ c = 0xAA ∨ c = 0xB5 ∨ c = 0xBA ∨ 0xC0 ≤ c ∧ c ≠ 0xD7 ∧ c ≠ 0xF7

instance (c : Byte) : Decidable (AsciiLetter c) := inferInstanceAs (Decidable (_ ∨ _))
instance (c : Byte) : Decidable (LatinLetter c) := inferInstanceAs (Decidable (_ ∨ _))

/-- A label of a host name: 1 to 63 letters, digits, hyphens and asterisks, with no
hyphen at either end. -/
def IsLabel (letter : Byte → Prop) (s : Str) : Prop :=
  0 < s.length ∧ s.length ≤ 63 ∧
    (∀ c ∈ s, letter c ∨ (48 ≤ c ∧ c ≤ 57) ∨ c = 42 ∨ c = 45) ∧
    s.head? ≠ some 45 ∧ s.getLast? ≠ some 45

instance (letter : Byte → Prop) [DecidablePred letter] (s : Str) : Decidable (IsLabel letter s) :=
  inferInstanceAs (Decidable (_ ∧ _))

/-- The labels written in a list of arguments, each of which may hold several
labels separated by dots. -/
def labelsOf (args : List Str) : List Str := args.flatMap (Str.split1 46)

/-- Number of characters in a list of labels. -/
def totalLength (l : List Str) : Nat := (l.map List.length).sum

end Verif.Spec
