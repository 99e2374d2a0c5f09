import Verif.Samples.Bind
import Verif.Props.Oid
import Verif.Model.Builders

/-!
# Outputs in /repo/target_test.go

The values here are the ones the tests of the repository expect.  They check the reading of the
code; no theorem uses them.
-/

namespace Verif.Samples.Target
open Verif Verif.Attr Verif.Builders Verif.Rules Verif.DN Verif.DNList

abbrev eq := EqualFold.ref.eq
abbrev read := Oid.plainReader.read

/-! /repo/target_test.go:8-62 -/
def ctrls : Oid.OIDs := (Oid.Ctrls eq read []).push eq read
  [.oid (Oid.Ctrl read [.str b!"1.3.6.1.4.1.56521.101.2.1.1"]), .oid (Oid.Ctrl read [.str b!"1.3.6.1.4.1.56521.101.2.2.2"]),
   .oid (Oid.Ctrl read [.str b!"1.3.6.1.4.1.56521.101.3.1"])]

example : (oidsCond Eq' ctrls).string =
    b!"( targetcontrol = \"1.3.6.1.4.1.56521.101.2.1.1 || 1.3.6.1.4.1.56521.101.2.2.2 || 1.3.6.1.4.1.56521.101.3.1\" )" := by
  decide +kernel
example : (scopeEq SearchScope.SingleLevel).string = b!"( targetscope = \"onelevel\" )" := by decide +kernel

/-! /repo/target_test.go:64-102: a keyword of the wrong class. -/
example : TargetRule.valid (TargetRule.setKeyword (TargetRule.setKeyword ⟨true, [], 0⟩ (.str b!"binddn")) (.bind BindUDN)) true
    = false := by decide +kernel

/-! /repo/target_test.go:152-215 -/
def ext : Oid.OIDs := (Oid.ExtOps eq read []).push eq read
  [.str b!"1.3.6.1.4.1.56521.999.5", .str b!"1.3.6.1.4.1.56521.999.6", .str b!"1.3.6.1.4.1.56521.999.7"]

example : ((oidsCond Eq' ext).setQuoteStyle 0).string =
    b!"( extop = \"1.3.6.1.4.1.56521.999.5\" || \"1.3.6.1.4.1.56521.999.6\" || \"1.3.6.1.4.1.56521.999.7\" )" := by
  decide +kernel

def five : ATs := (TAs eq []).push eq
  [.at_ (AT b!"cn"), .at_ (AT b!"sn"), .at_ (AT b!"givenName"), .at_ (AT b!"homeDirectory"), .at_ (AT b!"uid")]

example : ((attrsCond Eq' five).setQuoteStyle MultivalSliceQuotes).string =
    b!"( targetattr = \"cn\" || \"sn\" || \"givenName\" || \"homeDirectory\" || \"uid\" )" := by decide +kernel
example : (attrsCond Eq' ((TAs eq []).push eq [.at_ (AT b!"cn"), .at_ (AT b!"sn"), .at_ (AT b!"givenName")])).string =
    b!"( targetattr = \"cn || sn || givenName\" )" := by decide +kernel

/-! /repo/target_test.go:228-390 -/
def jesse : TRule := targetDNCond Eq' (TDN b!"uid=jesse,ou=People,dc=example,dc=com")

example : TRs.string (TRs.push false [] [.rule jesse,
    .rule (filterCond Eq' (Filter.mkFilter b!"(&(uid=jesse)(objectClass=*))")),
    .rule (oidCond Eq' (Oid.ExtOp read [.str b!"1.3.6.1.4.1.56521.999.5"]))]) =
    b!"( target = \"ldap:///uid=jesse,ou=People,dc=example,dc=com\" )( targetfilter = \"(&(uid=jesse)(objectClass=*))\" )( extop = \"1.3.6.1.4.1.56521.999.5\" )" := by
  decide +kernel
example : [1, 2].map (fun i => ((TargetRuleMethods.index (trm (.dn (TTDN b!"uid=*,ou=People,dc=example,dc=com"))) (.int i)).2.map
      TRule.string)) =
    [some b!"( target_to = \"ldap:///uid=*,ou=People,dc=example,dc=com\" )",
     some b!"( target_to != \"ldap:///uid=*,ou=People,dc=example,dc=com\" )"] := by decide +kernel
example : [1, 2].map (fun i => ((TargetRuleMethods.index (trm (.dn (TFDN b!"uid=*,ou=People,dc=example,dc=com"))) (.int i)).2.map
      TRule.string)) =
    [some b!"( target_from = \"ldap:///uid=*,ou=People,dc=example,dc=com\" )",
     some b!"( target_from != \"ldap:///uid=*,ou=People,dc=example,dc=com\" )"] := by decide +kernel

def six : ATs := TAs eq [.str b!"cn", .str b!"sn", .str b!"givenName", .str b!"objectClass", .str b!"uid", .str b!"homeDirectory"]

example : [(b!"=", 0), (b!"!=", 1)].map (fun (t, i) =>
      ((TargetRuleMethods.index (trm (.ats (some six))) (.str t)).2.map fun r => (r.setQuoteStyle i).string)) =
    [some b!"( targetattr = \"cn\" || \"sn\" || \"givenName\" || \"objectClass\" || \"uid\" || \"homeDirectory\" )",
     some b!"( targetattr != \"cn || sn || givenName || objectClass || uid || homeDirectory\" )"] := by decide +kernel
example : methodsLen (trm (.scope SearchScope.SingleLevel)) = 1 ∧ targetMethodsValid (none : MethodMap TRule) = some false := by
  decide +kernel
example : targetMethodsValid (trm (.filter (Filter.mkFilter b!"(&(objectClass=employee)(terminated=FALSE))"))) = some true ∧
    (TargetRuleMethods.index (trm (.filter (Filter.mkFilter b!"(&(objectClass=employee)(terminated=FALSE))"))) (.int 2)).2.map
      TRule.string = some b!"( targetfilter != \"(&(objectClass=employee)(terminated=FALSE))\" )" := by decide +kernel

/-! /repo/target_test.go:396-535 -/
example : (TR (.target TargetScope) (.cop Eq') (.scope SearchScope.SingleLevel)).string = b!"( targetscope = \"onelevel\" )" := by
  decide +kernel
example : TRs.contains (TRs.push true [] [.rule jesse, .rule (scopeEq SearchScope.Subordinate)]) (.target TargetScope) = true := by
  decide +kernel

def from_ : TRule := targetDNCond Eq' (TFDN b!"ou=People,dc=example,dc=com")
def any_ : TRule := filterCond Ne' (Filter.mkFilter b!"(objectClass=*")
def level : TRule := scopeEq SearchScope.SingleLevel
def four : List TRule := TRs.push true [] [.rule jesse, .rule from_, .rule any_, .rule level]

example : (four[2]?.map fun r => Cop.string r.core.op) = some b!"!=" ∧
    (four[3]?.map fun r => TargetKeyword.string r.keyword) = some b!"targetscope" := by decide +kernel
example : (TRs.push true [] [.rule jesse, .rule from_, .rule any_, .rule (attrsCond Eq' six), .rule level]).length = 5 := by
  decide +kernel
example : (Edit.TOp.run (fun es _ => es) (Edit.TOp.run (fun es _ => es) ⟨false, TRs.push true [] [.rule jesse, .rule from_, .rule any_]⟩
    (.readOnly [])) (.push true [.rule (attrsCond Eq' six), .rule level])).es.length = 3 := by decide +kernel
example : four.length = 4 ∧ (TRs.pop four).1.length = 3 ∧ (TRs.pop four).2.string = b!"( targetscope = \"onelevel\" )" := by
  decide +kernel

def restricted : List TRule := TRs.push true [] [.rule jesse, .rule from_,
  .rule (filterCond Ne' (Filter.mkFilter b!"(&(objectClass=restricted)(roleSuffix=executive))")), .rule level]

example : TRs.string restricted =
    b!"( target = \"ldap:///uid=jesse,ou=People,dc=example,dc=com\" )( target_from = \"ldap:///ou=People,dc=example,dc=com\" )( targetfilter != \"(&(objectClass=restricted)(roleSuffix=executive))\" )( targetscope = \"onelevel\" )" := by
  decide +kernel
example : (Bind.LTRs.noPadding [false] ⟨[], restricted.map fun r => (r, true)⟩).string =
    b!"( target = \"ldap:///uid=jesse,ou=People,dc=example,dc=com\" ) ( target_from = \"ldap:///ou=People,dc=example,dc=com\" ) ( targetfilter != \"(&(objectClass=restricted)(roleSuffix=executive))\" ) ( targetscope = \"onelevel\" )" := by
  decide +kernel

/-! /repo/target_test.go:560-735 -/
example : (TR (.target TargetScope) (.cop Eq') (.scope SearchScope.Subordinate)).string = b!"( targetscope = \"subordinate\" )" ∧
    (scopeEq SearchScope.BaseObject).string = b!"( targetscope = \"base\" )" := by decide +kernel
example : (TR (.target TargetFrom) (.cop Ne') (.dn (TFDN b!"uid=*,ou=Contractors,ou=People,dc=example,dc=com"))).string =
    b!"( target_from != \"ldap:///uid=*,ou=Contractors,ou=People,dc=example,dc=com\" )" := by decide +kernel
example : (filterCond Ne' (Filter.mkFilter b!"(&(objectClass=*)(employeeStatus=ACTIVE))")).stringPad false =
    b!"(targetfilter!=\"(&(objectClass=*)(employeeStatus=ACTIVE))\")" := by decide +kernel
example : (TRule.setExpression ⟨TargetRule.setOperator (TargetRule.setKeyword ⟨true, [], 0⟩ (.target TargetAttr)) (.cop Ne'),
    .nil, false, false⟩ (.at_ (AT b!"aci"))).string = b!"( targetattr != \"aci\" )" := by decide +kernel

def three : TDNs := TDNs.push eq ⟨Target, []⟩ [.dn (TDN b!"ldap:///uid=jesse,ou=People,dc=example,dc=com"),
  .dn (TDN b!"ldap:///uid=courtney,ou=People,dc=example,dc=com"), .dn (TDN b!"ldap:///uid=jimmy,ou=People,dc=example,dc=com")]

example : [0, 1].map (fun i => ((TR (.target Target) (.cop Ne') (.dns three)).setQuoteStyle i).string) =
    [b!"( target != \"ldap:///uid=jesse,ou=People,dc=example,dc=com\" || \"ldap:///uid=courtney,ou=People,dc=example,dc=com\" || \"ldap:///uid=jimmy,ou=People,dc=example,dc=com\" )",
     b!"( target != \"ldap:///uid=jesse,ou=People,dc=example,dc=com || ldap:///uid=courtney,ou=People,dc=example,dc=com || ldap:///uid=jimmy,ou=People,dc=example,dc=com\" )"] := by
  decide +kernel

end Verif.Samples.Target
