import Verif.Spec.FilterOps
import Verif.Spec.Lists
import Verif.Spec.Inside

/-!
# Texts of attribute filter operations as they may be written
-/

namespace Verif.Filter
open Verif Verif.Spec Verif.Attr

/-- The pieces of a text between `&&`, from the left. -/
inductive Cut : Str → List Str → Prop
  | last {p : Str} (h : ∀ u v, p ≠ u ++ b!"&&" ++ v) : Cut p [p]
  | more {p rest : Str} {ps : List Str} (h : ∀ u v, p ++ b!"&" ≠ u ++ b!"&&" ++ v) (h' : Cut rest ps) :
      Cut (p ++ b!"&&" ++ rest) (p :: ps)

/-- The word in front of an operation. -/
def opWord (delete : Bool) : Str := if delete then b!"delete=" else b!"add="

/-- The text names an operation and these pairs, with white space around them. -/
def Says (t : Str) (delete : Bool) (ps : List Pair) : Prop :=
  ∃ rest pieces, t = opWord delete ++ rest ∧ Cut (Str.trimSpace rest) pieces ∧
    pieces.map Str.trimSpace = ps.map pairText ∧ ∀ p ∈ ps, AttrName p.1

/-- How often `w` occurs in a text. -/
def occ (w : Str) : Str → Nat
  | [] => 0
  | a :: t => (if w.isPrefixOf (a :: t) then 1 else 0) + occ w t

/-- The same text. -/
def sameOp (a b : AFO) : Bool := a.string == b.string

/-- The pairs with a filter. -/
def withFilter (ps : List Pair) : List Pair := ps.filter fun p => p.2 != []

/-- The operations with filters. -/
def withEntries (os : List AFO) : List AFO := os.filter fun o => o.entries != []

/-- The value `v` is read as the operation `o`: inside of white space and quotation marks,
once, it begins with the word of an operation, and twice, it names an operation and pairs,
those of `o`.  Pairs without filter and repetitions are left out. -/
def Reads (v : Str) (o : AFO) : Prop :=
  ∃ t t' delete ps, Spec.Inside v t ∧ (∃ d rest, t = opWord d ++ rest) ∧ Spec.Inside t t' ∧
    Says t' delete ps ∧ o = opWith delete (firsts samePair (withFilter ps))

/-- Every value is read as the operation at its place. -/
inductive ReadsEach : List Str → List AFO → Prop
  | nil : ReadsEach [] []
  | cons (v : Str) (o : AFO) (vs : List Str) (os : List AFO) :
      Reads v o → ReadsEach vs os → ReadsEach (v :: vs) (o :: os)

end Verif.Filter
