import Verif.Spec.Attr
import Verif.Spec.Misc

/-!
# Attribute filters
-/

namespace Verif.Spec
open Verif

/-- A text as white space clean-up leaves it, apart from its beginning: ASCII, no tab
or line feed, no two spaces in a row, no white space at the end. -/
structure Tidy (f : Str) : Prop where
  ascii : Str.IsAscii f
  lines : ∀ c ∈ f, c ≠ 9 ∧ c ≠ 10
  single : Str.containsStr f b!"  " = false
  ends : ∃ t c, f = t ++ [c] ∧ ¬ White c

/-- No quotation mark at the end. -/
def NoQuote (f : Str) : Prop := ∀ t c, f = t ++ [c] → c ≠ 34 ∧ c ≠ 39 ∧ c ≠ 96

/-- An attribute with its filter. -/
abbrev Pair := Str × Str

/-- `attribute:filter`. -/
def pairText (p : Pair) : Str := p.1 ++ b!":" ++ p.2

/-- The text of an operation. -/
def opText (delete : Bool) (ps : List Pair) : Str :=
  (if delete then b!"delete=" else b!"add=") ++ Str.join b!" && " (ps.map pairText)

end Verif.Spec
