import Verif.Model.Str

/-!
# Days and clock times, apart from the model
-/

namespace Verif.Spec

/-- The seven days. -/
inductive Weekday where
  | sun | mon | tue | wed | thu | fri | sat
  deriving DecidableEq, Repr

namespace Weekday

def all : List Weekday := [sun, mon, tue, wed, thu, fri, sat]

/-- The number of the day, Sunday first. -/
def number : Weekday → Int
  | sun => 1 | mon => 2 | tue => 3 | wed => 4 | thu => 5 | fri => 6 | sat => 7

/-- The short name that is printed. -/
def name : Weekday → Str
  | sun => b!"Sun" | mon => b!"Mon" | tue => b!"Tues" | wed => b!"Wed"
  | thu => b!"Thur" | fri => b!"Fri" | sat => b!"Sat"

/-- The accepted spellings, in lower case. -/
def spellings : Weekday → List Str
  | sun => [b!"sun", b!"sunday", b!"1"]
  | mon => [b!"mon", b!"monday", b!"2"]
  | tue => [b!"tues", b!"tuesday", b!"3"]
  | wed => [b!"wed", b!"wednesday", b!"4"]
  | thu => [b!"thur", b!"thurs", b!"thursday", b!"5"]
  | fri => [b!"fri", b!"friday", b!"6"]
  | sat => [b!"sat", b!"saturday", b!"7"]

/-- The text names the day, in any letter case. -/
def NamedBy (d : Weekday) (s : Str) : Prop := Str.lower s ∈ d.spellings

instance (d : Weekday) (s : Str) : Decidable (d.NamedBy s) := inferInstanceAs (Decidable (_ ∈ _))

end Weekday

/-- The text of a set of days: the short names in the order of the week. -/
def daysText (held : Weekday → Bool) : Str :=
  Str.join b!"," ((Weekday.all.filter held).map Weekday.name)

/-- Two decimal digits. -/
def twoDigits (n : Nat) : Str := [UInt8.ofNat (48 + n / 10), UInt8.ofNat (48 + n % 10)]

/-- The four digits of a clock time. -/
def clockText (h m : Nat) : Str := twoDigits h ++ twoDigits m

/-- A clock time: hour at most 23 and minute at most 59, or 2400. -/
def IsClock (s : Str) : Prop :=
  (∃ h m, h < 24 ∧ m < 60 ∧ s = clockText h m) ∨ s = clockText 24 0

end Verif.Spec
