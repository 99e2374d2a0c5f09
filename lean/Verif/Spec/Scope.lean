import Verif.Spec.Case

/-!
# Search scopes as documented
-/

namespace Verif.Spec

/-- The four search scopes. -/
inductive Scope where
  | base | one | sub | subordinate
  deriving DecidableEq, Repr

namespace Scope

def all : List Scope := [base, one, sub, subordinate]

/-- The notation in target rules. -/
def targetText : Scope → Str
  | base => b!"base" | one => b!"onelevel" | sub => b!"subtree" | subordinate => b!"subordinate"

/-- The notations understood when reading, in lower case. -/
def spellings : Scope → List Str
  | base => [b!"base", b!"baseobject"]
  | one => [b!"one", b!"onelevel"]
  | sub => [b!"sub", b!"subtree"]
  | subordinate => [b!"children", b!"subordinate"]

/-- The number of a scope in the LDAP protocol, as in the comments of the constants. -/
def number : Scope → Int
  | base => 0 | one => 1 | sub => 2 | subordinate => 3

end Scope

end Verif.Spec
