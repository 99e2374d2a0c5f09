import Verif.Model.Target
import Verif.Spec.Keyword
import Verif.Spec.Lists

/-!
# Target rules and their keywords
-/

namespace Verif.Rules
open Verif Verif.Spec

/-- The rule is initialized and its keyword is `k`, in any letter case. -/
def Has (r : TRule) (k : TKw) : Prop := r.core.init = true ∧ Str.eqFold r.core.kw k.name = true

/-- Two rules with their keywords have the same keyword. -/
def sameKey (a b : TRule × TKw) : Bool := decide (a.2 = b.2)

/-- The argument is a rule with keyword. -/
def Offers (x : TRArg) (p : TRule × TKw) : Prop := x = .rule p.1 ∧ Has p.1 p.2

/-- What C43 claims of a list. -/
structure Sound (es : List TRule) : Prop where
  length : es.length ≤ 9
  known : ∀ r ∈ es, ∃ k, Has r k
  distinct : ∀ (i j : Nat) (a b : TRule) (k : TKw), i < j → es[i]? = some a → es[j]? = some b →
    Has a k → ¬ Has b k

/-- A call that changes a list. -/
inductive TCall where
  | push (stop : Bool) (xs : List TRArg)
  | pop

def TCall.run (es : List TRule) : TCall → List TRule
  | .push stop xs => TRs.push stop es xs
  | .pop => (TRs.pop es).1

end Verif.Rules
