import Verif.Props.Levels
import Verif.Model.Builders
import Verif.Model.BindText
import Verif.Model.Values

/-!
# Outputs in /repo/levels_test.go

The values here are the ones the tests of the repository expect.  They check the reading of the
code; no theorem uses them.
-/

namespace Verif.Samples.Levels
open Verif Verif.Attr Verif.Levels Verif.Builders

abbrev S : Shifty 16 := .anyRef 16

/-- The text of a bind rule. -/
def text (r : Bind.BRule) : Str :=
  r.text (Bind.BExpr.texts ⟨.anyRef 16, .anyRef 8, Sec.authNames, false⟩)

/-- `UAT(AT("manager"), AV("uid=frank,…"))`. -/
def frank : ABTV := userOrGroupAttr BindUAT [.at_ (AT b!"manager"), .av (AV b!"uid=frank,ou=People,dc=example,dc=com")]

/-! /repo/levels_test.go:8-103 -/
example : levelString Level8 = b!"8" := by decide +kernel
example : methodsLen (brm (.anyRef 8) (.inh (Inherit frank [.int 1, .int 3]))) = 2 := by decide +kernel
example : string S (Inherit frank [.int 1, .int 3]) =
    b!"parent[1,3].manager#uid=frank,ou=People,dc=example,dc=com" := by decide +kernel
example : valid none = false := by decide +kernel
example : text (inhCond Eq' (Inherit frank [.int 1, .int 3])) =
    b!"userattr = \"parent[1,3].manager#uid=frank,ou=People,dc=example,dc=com\"" := by decide +kernel
example : text (inhCond Ne' (Inherit frank [.int 1, .int 3])) =
    b!"userattr != \"parent[1,3].manager#uid=frank,ou=People,dc=example,dc=com\"" := by decide +kernel
example : Levels.isZero (Inherit frank [.int 1, .int 3]) = false ∧ len S (Inherit frank [.int 1, .int 3]) = 2 ∧
    positive S (Inherit frank [.int 1, .int 3]) (.int 5) = false ∧
    len S (shift (Inherit frank [.int 1, .int 3]) [.int 7]) = 3 := by decide +kernel
example : len S (unshift (unshift (unshift (Inherit frank [.int 1, .int 3, .int 8]) [.int 1]) [.str b!"1"])
    [.level Level1]) = 2 := by decide +kernel

/-! /repo/levels_test.go:105-178 -/
example : keyword (Inherit (userOrGroupAttr BindUAT [.at_ (AT b!"manager"), .bt USERDN]) [.int 6, .int 7]) =
    some BindUAT := by decide +kernel
example : positive S (Inherit (userOrGroupAttr BindUAT [.at_ (AT b!"manager"), .bt USERDN]) [.int 6, .int 7])
    (.str b!"6") = true := by decide +kernel
example : text (inhCond Eq' (Inherit (userOrGroupAttr BindUAT [.at_ (AT b!"manager"), .bt USERDN])
    [.level Level0, .level Level1, .level Level2, .level Level8])) =
    b!"userattr = \"parent[0,1,2,8].manager#USERDN\"" := by decide +kernel
example : text (inhCond Eq' (Inherit (userOrGroupAttr BindUAT [.at_ (AT b!"manager"), .av (AV b!"USERDN")])
    [.int 0, .int 1, .int 2, .int 8])) = b!"userattr = \"parent[0,1,2,8].manager#USERDN\"" := by decide +kernel
example : text (inhCond Eq' (Inherit (userOrGroupAttr BindGAT [.at_ (AT b!"owner"), .bt USERDN]) [.int 3, .int 4])) =
    b!"groupattr = \"parent[3,4].owner#USERDN\"" := by decide +kernel

/-! /repo/levels_test.go:180-250 -/
example : string S none = b!"<invalid_inheritance>" ∧ Levels.isZero none = true ∧
    (inhCond Eq' none).isZero = true ∧ (inhCond Ne' none).isZero = true := by decide +kernel

/-- Whether a text is refused with an error. -/
def refused (s : Str) : Bool :=
  match parseInheritance s with
  | .err => true
  | _ => false

example : [b!"100.manager#USERDN", b!"parent[100].manager#USERDN", b!"parent[].manager#SELFDN", b!"parent[4]#ROLEDN",
    b!"parent[-1,20,3,476,5,666,7,666,9]?manager#LDAPURI", b!"parent[0]].owner#GROUPDN",
    b!"Parent[1,3,5,7)owner]#LDAPURI", b!"parent[1,3,5,7)owner#LDAPURI", b!"parent[1,2,3,4].squatcobbler", b!""].map
    refused = List.replicate 10 true := by decide +kernel

/-- The text after reading. -/
def reread (s : Str) : Str :=
  match parseInheritance s with
  | .ok i => string S i
  | _ => b!"?"

example : [b!"parent[0,5,9].manager#USERDN", b!"parent[1].manager#SELFDN", b!"parent[4].terminated#ROLEDN",
    b!"parent[0,1,2,3,4,5,6,7,8,9].manager#LDAPURI", b!"parent[0].owner#GROUPDN"].map reread =
    [b!"parent[0,5,9].manager#USERDN", b!"parent[1].manager#SELFDN", b!"parent[4].terminated#ROLEDN",
    b!"parent[0,1,2,3,4,5,6,7,8,9].manager#LDAPURI", b!"parent[0].owner#GROUPDN"] := by decide +kernel

end Verif.Samples.Levels
