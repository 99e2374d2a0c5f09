import Verif.Model.Filter
import Verif.Spec.Filter

/-!
# Operations over attribute filters
-/

namespace Verif.Filter
open Verif Verif.Spec

/-- The filter of a pair. -/
def ofPair (p : Pair) : AttributeFilter := some ⟨some p.1, some p.2⟩

/-- The texts of two pairs are the same. -/
def samePair (p q : Pair) : Bool := pairText p == pairText q

/-- The constant of an operation. -/
def opOf (delete : Bool) : AttributeOperation := if delete then DelOp else AddOp

/-- The operation with these pairs. -/
def opWith (delete : Bool) (ps : List Pair) : AFO :=
  ⟨AttributeOperation.makeLabel (opOf delete), ps.map ofPair⟩

/-- Pairs of attribute names and filters that are set. -/
def Set (ps : List Pair) : Prop := ∀ p ∈ ps, AttrName p.1 ∧ p.2 ≠ []

/-- Pairs that survive the clean-up of white space. -/
def Clean (ps : List Pair) : Prop :=
  ∀ p ∈ ps, AttrName p.1 ∧ Str.IsAscii p.1 ∧ Tidy p.2 ∧ Str.containsStr p.2 b!"&&" = false

/-- The last filter does not end with a quotation mark. -/
def Unquoted (ps : List Pair) : Prop := ∀ l p, ps = l ++ [p] → NoQuote p.2

/-- The text of a list of operations with the delimiter `d`. -/
def opsText (d : Byte) (ops : List (Bool × List Pair)) : Str :=
  Str.join [d] (ops.map fun o => opText o.1 o.2)

/-- Neither word that starts an operation is in the filters, nor is the delimiter in
attributes or filters. -/
def Plainly (d : Byte) (ps : List Pair) : Prop :=
  ∀ p ∈ ps, Str.containsStr p.2 b!"add=" = false ∧ Str.containsStr p.2 b!"delete=" = false ∧
    d ∉ p.1 ∧ d ∉ p.2

end Verif.Filter
