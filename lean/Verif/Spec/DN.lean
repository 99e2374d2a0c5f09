import Verif.Spec.Lists

/-!
# Distinguished names
-/

namespace Verif.Spec
open Verif

/-- The local scheme. -/
def scheme : Str := b!"ldap:///"

/-- A text with its local scheme, if any, removed once. -/
def Bare (v w : Str) : Prop := v = scheme ++ w ∨ (v = w ∧ ∀ x, v ≠ scheme ++ x)

/-- The aliases of distinguished names that may stand in a rule. -/
def aliasNames : List Str := [b!"all", b!"anyone", b!"self", b!"parent"]

end Verif.Spec
