import Verif.Samples.Levels
import Verif.Model.Reports
import Verif.Model.Length
import Verif.Model.Find
import Verif.Model.Compare
import Verif.Props.Attr

/-!
# Outputs in /repo/attr_test.go

The values here are the ones the tests of the repository expect.  They check the reading of the
code; no theorem uses them.
-/

namespace Verif.Samples.Attr
open Verif Verif.Attr Verif.Builders Verif.Rules

abbrev eq := EqualFold.ref.eq
abbrev text := Samples.Levels.text

/-! /repo/attr_test.go:15-104 -/
example : (AT b!"homeDirectory").string = b!"homeDirectory" := by decide +kernel
example : (AT b!"cACertificate").string ≠ (AT b!"cacertificate").string := by decide +kernel
example : Length.lenAT (AT b!"owner") = 1 ∧ AttributeType.isZero (AT b!"owner") = false := by decide +kernel
example : methodsLen (trm (.at_ none)) = 2 := by decide +kernel
example : (atCond Eq' (AT b!"*")).string = b!"( targetattr = \"*\" )" := by decide +kernel
example : (atCond Ne' (AT b!"aci")).string = b!"( targetattr != \"aci\" )" := by decide +kernel

/-! /repo/attr_test.go:106-188 -/

/-- `TAs("cn", AT("givenName"), "sn", "objectClass", AT("l"))`. -/
def five : ATs :=
  TAs eq [.str b!"cn", .at_ (AT b!"givenName"), .str b!"sn", .str b!"objectClass", .at_ (AT b!"l")]

example : (atsCond Eq' (some five)).string =
    b!"( targetattr = \"cn || givenName || sn || objectClass || l\" )" := by decide +kernel
example : Uri.attrsText five = b!"cn,givenName,sn,objectClass,l" := by decide +kernel
example : (TAs eq [.str b!"cn", .str b!"sn", .str b!"uid"]).entries.length = 3 := by decide +kernel
example : containsAT eq five.entries (.str b!"l") = true := by decide +kernel

/-! /repo/attr_test.go:230-334 -/
example : (atsCond Ne' (some (TAs eq [.at_ (AT b!"aci")]))).string = b!"( targetattr != \"aci\" )" := by decide +kernel
example : (Find.indexAT (fun _ _ => none) five.entries 2).string = b!"sn" := by decide +kernel
example : ((TAs eq [.str b!"cn", .at_ (AT b!"givenName"), .str b!"sn", .str b!"objectClass"]).push eq
    [.str b!"l"]).entries = five.entries := by decide +kernel
example : methodsLen (trm (.ats (some five))) = 2 ∧ methodsLen (trm (.uriAts five)) = 0 := by decide +kernel
example : (Find.popAT five.entries).string = b!"l" := by decide +kernel

/-! /repo/attr_test.go:336-412 -/
example : (Reports.targetKeyword (.ats (some five))).map TargetKeyword.string = some b!"targetattr" := by
  decide +kernel
example : (Reports.targetKeyword (.uriAts five)).map TargetKeyword.string = some b!"targetfilter" := by
  decide +kernel

/-! /repo/attr_test.go:414-640 -/
example : ((mkABTV BindUAT []).set [.at_ (AT b!"owner"), .bt GROUPDN]).string = some b!"owner#GROUPDN" := by
  decide +kernel
example : (userOrGroupAttr BindUAT [.at_ (AT b!"manager"), .bt USERDN]).string = some b!"manager#USERDN" := by
  decide +kernel
example : (userOrGroupAttr BindGAT [.at_ (AT b!"owner"), .bt SELFDN]).string = some b!"owner#SELFDN" := by
  decide +kernel
example : (match ABTV.zero.parse b!"manager#USERDN" [] with | .ok a => a.string | .error _ => none) =
    some b!"manager#USERDN" := by decide +kernel
example : ABTV.zero.isZero = true ∧ BindKeyword.string ABTV.zero.keyword = b!"userattr" := by decide +kernel
example : (ABTV.zero.set [.at_ (AT b!"manager"), .bt USERDN]).string = some b!"manager#USERDN" := by decide +kernel
example : (ABTV.zero.set [.str b!"manager", .str b!"USERDN"]).string = some b!"manager#USERDN" := by decide +kernel
example : text (pairCond Eq' (mkABTV BindUAT [.str b!"cACertificate", .str b!"USERDN"])) ≠
    text (pairCond Eq' (mkABTV BindGAT [.str b!"cACertificate", .bt USERDN])) := by decide +kernel
example : text (pairCond Eq' (userOrGroupAttr BindUAT [.at_ (AT b!"manager"), .bt USERDN])) =
    b!"userattr = \"manager#USERDN\"" := by decide +kernel
example : text (pairCond Ne' (userOrGroupAttr BindUAT [.at_ (AT b!"manager"), .bt USERDN])) =
    b!"userattr != \"manager#USERDN\"" := by decide +kernel
example : methodsLen (brm (.anyRef 8) (.pair ABTV.zero)) = 2 := by decide +kernel
example : (AV b!"/home/jesse").string = b!"/home/jesse" := by decide +kernel

/-! /repo/attr_test.go:642-851 -/
example : (match ABTV.zero.parse b!"fartknocker" [] with | .ok _ => true | .error _ => false) = false := by
  decide +kernel
example : (mkABTV BindGAT [.at_ (AT b!"manager"), .bt SELFDN]).string = some b!"manager#SELFDN" := by decide +kernel
example : (TAs eq [.at_ (AT b!"cn"), .at_ (AT b!"givenName"), .at_ (AT b!"color;lang-fr"), .at_ (AT b!"objectClass"),
    .at_ (AT b!"drink"), .at_ (AT b!"")]).entries.map AttributeType.string =
    [b!"cn", b!"givenName", b!"color;lang-fr", b!"objectClass", b!"drink"] := by decide +kernel
example : AttributeType.string none = b!"<invalid_attribute_type>" := by decide +kernel

end Verif.Samples.Attr
