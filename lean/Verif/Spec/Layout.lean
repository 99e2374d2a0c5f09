import Verif.Spec.Misc
import Verif.Spec.Case

/-!
# What a text says besides its layout

Outside of quotation marks, white space matters only between two words, and letter case
may not matter.
-/

namespace Verif.Spec
open Verif

/-- The bytes that separate words themselves: parentheses and those of operators. -/
def Mark (c : Byte) : Prop := c = 40 ∨ c = 41 ∨ c = 61 ∨ c = 33 ∨ c = 60 ∨ c = 62

instance (c : Byte) : Decidable (Mark c) := inferInstanceAs (Decidable (_ ∨ _))

/-- Where a reader is: after a mark (or at the start), after a word, after a word and white
space, or within quotation marks. -/
inductive Place where
  | mark | word | gap | quoted
  deriving DecidableEq

/-- One byte: what remains of it, and the new place; `low`: letter case does not matter. -/
def look (low : Bool) (p : Place) (c : Byte) : Str × Place :=
  if p = .quoted then ([c], if c = 34 then .word else .quoted)
  else if White c then ([], if p = .word then .gap else p)
  else if Mark c then ([c], .mark)
  else ((if p = .gap then [32] else []) ++ [if low then Str.lowerByte c else c],
    if c = 34 then .quoted else .word)

/-- A text from some place on: what remains of it, and the last place. -/
def plainFrom (low : Bool) (p : Place) : Str → Str × Place
  | [] => ([], p)
  | c :: t => ((look low p c).1 ++ (plainFrom low (look low p c).2 t).1, (plainFrom low (look low p c).2 t).2)

/-- What the text says: no white space outside of quotation marks but one blank between words,
and if `low`, only small letters outside of quotation marks. -/
def plain (low : Bool) (s : Str) : Str := (plainFrom low .mark s).1

example : plain false b!" ( ssf  >=\"1 2\" AND( b = c ) )" = b!"(ssf>=\"1 2\" AND(b=c))" := by decide +kernel
example : plain true b!"a = \"Bc\" AND d" = b!"a=\"Bc\" and d" := by decide +kernel

end Verif.Spec
