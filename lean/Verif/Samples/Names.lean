import Verif.Samples.Bind
import Verif.Model.Compare
import Verif.Model.Length
import Verif.Model.Find
import Verif.Props.Oid

/-!
# Outputs in /repo/dn_test.go, /repo/oid_test.go and /repo/uri_test.go

The values here are the ones the tests of the repository expect.  They check the reading of the
code; no theorem uses them.
-/

namespace Verif.Samples.Names
open Verif Verif.Attr Verif.Builders Verif.Rules Verif.DN Verif.DNList

abbrev eq := EqualFold.ref.eq

/-! ## Identifiers -/

abbrev read := Oid.plainReader.read
def o5 : Str := b!"1.3.6.1.4.1.56521.999.5"
def o7 : Str := b!"1.3.6.1.4.1.56521.999.7"
def exops : Oid.OIDs := (Oid.ExtOps eq read []).push eq read [.oid (Oid.ExtOp read [.str o5]), .oid (Oid.ExtOp read [.str o7])]
def ctrls : Oid.OIDs := (Oid.Ctrls eq read []).push eq read [.oid (Oid.Ctrl read [.str o5]), .oid (Oid.Ctrl read [.str o7])]

/-! /repo/oid_test.go:8-216 -/
def nine : List Str := [b!"83", b!"84", b!"85", b!"86", b!"87", b!"88", b!"89", b!"90", b!"91"].map
  (b!"1.3.6.1.4.1.56521.999." ++ ·)

example : Oid.string none = Oid.badDotNot ∧ Oid.string none = b!"<invalid_object_identifier>" := by decide +kernel
example : ((Oid.Ctrls eq read []).push eq read [.oid none]).entries = [] := by decide +kernel
example : ((Oid.Ctrls eq read []).push eq read [.str b!""]).entries = [] := by decide +kernel
example : nine.all (fun s => ((Oid.ExtOps eq read [.str s]).contains eq (.str s))) = true := by decide +kernel
example : nine.all (fun s => (((trm (.oid (Oid.ExtOp read [.str s]))).getD []).map fun e => (e.1, e.2.string)) =
    [(Eq', b!"( extop = \"" ++ s ++ b!"\" )"), (Ne', b!"( extop != \"" ++ s ++ b!"\" )")]) = true := by decide +kernel
/-- Pushing a popped identifier and its text leaves one of them. -/
example : (((ctrls.pop).1.push eq read [.oid ctrls.pop.2, .str (Oid.string ctrls.pop.2), .other, .str b!""])) = ctrls := by
  decide +kernel

/-! /repo/oid_test.go:218-306 -/
example : Oid.string (Oid.ExtOp read [.str o5]) = o5 ∧ Oid.string (Oid.Ctrl read [.str o5]) = o5 := by decide +kernel
example : (oidsCond Eq' ctrls).string = b!"( targetcontrol = \"1.3.6.1.4.1.56521.999.5 || 1.3.6.1.4.1.56521.999.7\" )" := by
  decide +kernel
example : (oidsCond Eq' exops).string = b!"( extop = \"1.3.6.1.4.1.56521.999.5 || 1.3.6.1.4.1.56521.999.7\" )" := by
  decide +kernel
example : (Oid.keyword (Oid.OID read (.str o5) TargetExtOp)).map TargetKeyword.string = some b!"extop" := by decide +kernel

/-! /repo/oid_test.go:312-372 -/
def three : Oid.OIDs := exops.push eq read [.oid (Oid.ExtOp read [.str b!"1.3.6.1.4.1.56521.999.9"])]

example : Oid.string three.pop.2 = b!"1.3.6.1.4.1.56521.999.9" ∧ three.pop.1.entries.length = 2 := by decide +kernel
example : (oidCond Eq' (Oid.ExtOp read [.str o5])).string = b!"( extop = \"1.3.6.1.4.1.56521.999.5\" )" := by decide +kernel
example : (oidsCond Ne' ctrls).string = b!"( targetcontrol != \"1.3.6.1.4.1.56521.999.5 || 1.3.6.1.4.1.56521.999.7\" )" := by
  decide +kernel
example : (oidCond Ne' (Oid.ExtOp read [.str o5])).string = b!"( extop != \"1.3.6.1.4.1.56521.999.5\" )" := by decide +kernel

/-! /repo/oid_test.go:378-562 -/
example : Length.lenOID (Oid.ExtOp read [.str o5]) = 1 ∧ ctrls.entries.length = 2 := by decide +kernel
example : TargetKeyword.string (Reports.oidsKeyword (some ctrls)) = b!"targetcontrol" ∧ ctrls.kind = b!"targetcontrol" := by
  decide +kernel
example : Oid.kind (Oid.ExtOp read [.str o5]) = b!"extop" := by decide +kernel
example : TExpr.texts (.oids ctrls) = [o5, o7] := by decide +kernel
example : Oid.isZero none = true := by decide +kernel
example : (Oid.Ctrls eq read [.str o5, .str b!"1.3.6.1.4.1.56521.999.6", .str o7]).contains eq (.str o5) = true := by
  decide +kernel
example : (Oid.keyword (Find.indexO (fun _ _ => none) ctrls.entries 1)).map TargetKeyword.string = some b!"targetcontrol" := by
  decide +kernel
example : (((trm (.oids none)).getD []).map Prod.fst).contains Gt' = false ∧
    (((trm (.oid none)).getD []).map Prod.fst).contains Gt' = false := by decide +kernel
example : Oid.string (Reports.oidsF read (some (Oid.Ctrls eq read [])) [.str o5]) = o5 := by decide +kernel

/-! ## Distinguished names -/

def jesse : Str := b!"uid=jesse,ou=People,dc=example,dc=com"
def jimmy : Str := b!"uid=jimmy,ou=People,dc=example,dc=com"
def courtney : Str := b!"uid=courtney,ou=People,dc=example,dc=com"
def tolana : Str := b!"cn=Courtney Tolana,ou=Contractors,ou=People,dc=example,dc=com"

/-- The text of a rule. -/
def rule (r : Verif.Bind.BRule) : Str := Samples.Bind.text (.rule r)

/-! /repo/dn_test.go:12-84 -/
example : BindDN.string none = badBDN ∧ isZero none = true := by decide +kernel
example : [UDN, RDN, GDN].all (fun f => [jesse, tolana].all fun s =>
    BindDN.string (BindDN.set (f s) s []) = BindDN.string (f s)) = true := by decide +kernel
example : [BindUDN, BindRDN, BindGDN].all (fun k =>
    ((brm (.anyRef 8) (.dn (BindDN.set (BindDN.set (BindDN.set (UDN tolana) b!"159" []) b!"" []) jesse [k]))).getD []).all
      fun e => rule { e.2 with paren := true } =
        b!"( " ++ BindKeyword.string k ++ b!" " ++ Cop.string e.1 ++ b!" \"ldap:///uid=jesse,ou=People,dc=example,dc=com\" )") =
    true := by decide +kernel

/-! /repo/dn_test.go:86-165 -/
example : TargetDN.string none = badTDN := by decide +kernel
example : [Target, TargetTo, TargetFrom].all (fun k =>
    ((trm (.dn (TargetDN.set (TDN jesse) b!"#barf" [k]))).getD []).all fun e => e.2.string =
      b!"( " ++ TargetKeyword.string k ++ b!" " ++ Cop.string e.1 ++ b!" \"" ++
        TargetDN.string (TargetDN.set (TDN jesse) b!"#barf" [k]) ++ b!"\" )") = true := by decide +kernel

/-! /repo/dn_test.go:167-279: the third name is a URI, read as a name. -/
def contractors : Uri.LDAPURI := Uri.mkURI eq
  [.str b!"ldap:///ou=People,dc=example,dc=com?cn,sn,givenName?one?(&(objectClass=contractor)(status=active))"]

/-- The calls of the loop: the list, and whether its length grew by one. -/
def turn (k : BindKeyword) (l : BDNs) (s : Str) : BDNs × Bool :=
  let n : BDNs := (((l.push eq [.dn (UDN b!"anyone")]).push eq [.uri (Uri.mkURI eq [.str b!"ldap:///?"])]).push eq
    [.uri (Uri.mkURI eq [.str b!"l"])]).push eq [.uri contractors]
  let m := (((n.push eq [.dn (some (newDN s k))]).push eq []).push eq [.str b!""]).push eq [.other]
  let p := (m.pop.1.push eq [.dn m.pop.2]).push eq [.dn (some (newDN s k))]
  (p, p.entries.length == n.entries.length + 1)

def third : Str := b!"ldap:///ou=People,dc=example,dc=com?cn,sn,objectClass?one?(objectClass=employee)"

example : [BindUDN, BindRDN, BindGDN].all (fun k =>
    (turn k (mkBDNs eq k []) jesse).2 && (turn k (turn k (mkBDNs eq k []) jesse).1 tolana).2 &&
      (turn k (turn k (turn k (mkBDNs eq k []) jesse).1 tolana).1 third).2) = true := by decide +kernel
example : ((mkBDNs eq BindUDN []).push eq [.dn none]).entries.length = 0 := by decide +kernel

/-! /repo/dn_test.go:281-387 -/
def turnT (k : TargetKeyword) (l : DNList.TDNs) (s : Str) : DNList.TDNs × Bool :=
  let m := (((l.push eq [.dn (some (newDN s k))]).push eq []).push eq [.str b!""]).push eq [.other]
  let p := (m.pop.1.push eq [.dn m.pop.2]).push eq [.dn (some (newDN s k))]
  (p, p.entries.length == l.entries.length + 1)

example : [Target, TargetTo, TargetFrom].all (fun k =>
    (turnT k (mkTDNs eq k []) jesse).2 && (turnT k (turnT k (mkTDNs eq k []) jesse).1 tolana).2) = true := by
  decide +kernel

/-! /repo/dn_test.go:418-545 -/
example : (GDNs eq [.str b!"cn=Executives,ou=Groups,dc=example,dc=com",
    .str b!"cn=Executive Assistants,ou=Groups,dc=example,dc=com"]).contains eq
    (.str b!"cn=Executives,ou=Groups,dc=example,dc=com") = true := by decide +kernel
example : (TFDNs eq [.str b!"cn=*,ou=Profiles,dc=example,dc=com", .str b!"cn=*,ou=People,dc=example,dc=com"]).contains eq
    (.str b!"cn=*,ou=Groups,dc=example,dc=com") = false := by decide +kernel
def both : BDNs := (UDNs eq []).push eq [.str jesse, .str jimmy]
def bothT : DNList.TDNs := (TDNsOf eq []).push eq [.str jesse, .str jimmy]
example : both.entries.length = 2 ∧ bothT.entries.length = 2 := by decide +kernel
example : BindDN.string both.pop.2 = b!"ldap:///uid=jimmy,ou=People,dc=example,dc=com" ∧
    TargetDN.string bothT.pop.2 = b!"ldap:///uid=jimmy,ou=People,dc=example,dc=com" := by decide +kernel
example : Str.join b!" || " (both.entries.map BEntry.string) =
    b!"ldap:///uid=jesse,ou=People,dc=example,dc=com || ldap:///uid=jimmy,ou=People,dc=example,dc=com" := by decide +kernel
example : ((UDNs eq []).push eq [.dn (Reports.bdnsF (some (UDNs eq [])) jesse)]).entries.map BEntry.string =
    [b!"ldap:///uid=jesse,ou=People,dc=example,dc=com"] := by decide +kernel
example : ((TDNsOf eq []).push eq [.dn (Reports.tdnsF (some (TDNsOf eq [])) jesse)]).entries.map TargetDN.string =
    [b!"ldap:///uid=jesse,ou=People,dc=example,dc=com"] := by decide +kernel

/-! /repo/dn_test.go:548-632 -/
example : rule (bindDNsCond Eq' (some (UDNs eq [.str jesse]))) = b!"userdn = \"ldap:///uid=jesse,ou=People,dc=example,dc=com\"" ∧
    rule (bindDNsCond Ne' (some (UDNs eq [.str jesse]))) = b!"userdn != \"ldap:///uid=jesse,ou=People,dc=example,dc=com\"" := by
  decide +kernel
example : (targetDNsCond Eq' (some (TDNsOf eq [.str jesse]))).string =
      b!"( target = \"ldap:///uid=jesse,ou=People,dc=example,dc=com\" )" ∧
    (targetDNsCond Ne' (some (TDNsOf eq [.str jesse]))).string =
      b!"( target != \"ldap:///uid=jesse,ou=People,dc=example,dc=com\" )" := by decide +kernel
example : (Reports.bdnsKeyword (some (UDNs eq [.str jesse]))).map BindKeyword.string = some b!"userdn" ∧
    (Reports.tdnsKeyword (some (TDNsOf eq [.str jesse]))).map TargetKeyword.string = some b!"target" := by decide +kernel
example : Str.join b!" || " ((UDNs eq [.str jesse, .str courtney]).entries.map BEntry.string) =
    b!"ldap:///uid=jesse,ou=People,dc=example,dc=com || ldap:///uid=courtney,ou=People,dc=example,dc=com" := by decide +kernel
example : (RDNs eq [.str b!"cn=Default,ou=Profiles,dc=example,dc=com",
    .str b!"cn=Administrative,ou=Profiles,dc=example,dc=com"]).entries.length = 2 := by decide +kernel
example : (GDNs eq [.str b!"uid=Executives,ou=Groups,dc=example,dc=com",
    .str b!"uid=Executive Assistants,ou=Groups,dc=example,dc=com"]).entries.map BEntry.string =
    [b!"ldap:///uid=Executives,ou=Groups,dc=example,dc=com",
      b!"ldap:///uid=Executive Assistants,ou=Groups,dc=example,dc=com"] := by decide +kernel

/-! /repo/dn_test.go:639-717 -/
example : (Find.indexB (fun _ _ => none) (UDNs eq [.str jesse, .str courtney]).entries 0).string =
    b!"ldap:///uid=jesse,ou=People,dc=example,dc=com" := by decide +kernel
example : (Find.indexT (fun _ _ => none) (TFDNs eq [.str jesse, .str courtney]).entries 0).string =
    b!"ldap:///uid=jesse,ou=People,dc=example,dc=com" := by decide +kernel
example : Compare.bindDN id (UDN jesse) (UDN (b!"ldap:///" ++ jesse)) = true := by decide +kernel
example : (UDNs eq [.str jesse, .str courtney]).entries.map BEntry.string ≠
    (UDNs eq [.str courtney, .str jesse]).entries.map BEntry.string := by decide +kernel
example : Compare.targetDN id (TDN b!"cn=Courtney tolana,ou=People,dc=example,dc=com")
    (TDN b!"cn=Courtney Tolana,ou=People,dc=example,dc=com") = false := by decide +kernel

/-! /repo/dn_test.go:744-926 -/
example : (keyword (UDN jesse)).map BindKeyword.string = some b!"userdn" := by decide +kernel
example : Length.lenDN (UDN jesse) = 1 ∧ Length.lenDN (TFDN b!"uid=*,ou=People,dc=example,dc=com") = 1 := by decide +kernel
example : rule (bindDNCond Eq' (UDN jesse)) = b!"userdn = \"ldap:///uid=jesse,ou=People,dc=example,dc=com\"" := by decide +kernel
example : rule (bindDNCond Ne' (UDN courtney)) = b!"userdn != \"ldap:///uid=courtney,ou=People,dc=example,dc=com\"" := by
  decide +kernel
example : (targetDNCond Eq' (TTDN b!"cn=Distribution List,ou=Groups,dc=example,dc=com")).string =
    b!"( target_to = \"ldap:///cn=Distribution List,ou=Groups,dc=example,dc=com\" )" := by decide +kernel
example : (targetDNCond Ne' (TFDN courtney)).string =
    b!"( target_from != \"ldap:///uid=courtney,ou=People,dc=example,dc=com\" )" := by decide +kernel
example : methodsLen (brm (.anyRef 8) (.dn none)) = 2 ∧ methodsLen (brm (.anyRef 8) (.dns none)) = 2 ∧
    methodsLen (trm (.dn none)) = 2 ∧ methodsLen (trm (.dns none)) = 2 := by decide +kernel
example : [TDN, TTDN, TFDN].map (fun f => TargetDN.string (f b!"cn=Executives,ou=Groups,dc=example,dc=com")) =
    List.replicate 3 b!"ldap:///cn=Executives,ou=Groups,dc=example,dc=com" := by decide +kernel
example : rule (bindDNCond Eq' (BindDN.set none b!"cn=Role Profile,ou=Roles,dc=example,dc=com" [BindRDN])) =
    b!"roledn = \"ldap:///cn=Role Profile,ou=Roles,dc=example,dc=com\"" := by decide +kernel
example : (targetDNCond Ne' (TargetDN.set none b!"cn=*,($attr.ou),dc=example,dc=com" [Target])).string =
    b!"( target != \"ldap:///cn=*,($attr.ou),dc=example,dc=com\" )" := by decide +kernel
example : [TDNsOf eq [.str jesse, .str courtney], TTDNs eq [.str jesse, .str courtney],
    TFDNs eq [.str jesse, .str courtney]].map (fun l => ((Reports.tdnsKeyword (some l)).map TargetKeyword.string,
      l.entries.length)) = [(some b!"target", 2), (some b!"target_to", 2), (some b!"target_from", 2)] := by decide +kernel

/-! ## Resource identifiers -/

/-- `Parse` and then `String`; none if the text is refused. -/
def reread (s : Str) : Option Str :=
  match Uri.parseLDAPURI eq s [] with
  | .ok u => some u.string
  | .error _ => none

/-! /repo/uri_test.go:8-51 -/
example : [b!"ldap:///ou=People,dc=example,dc=com?cn,sn,givenName,objectClass,uid?one?(&(objectClass=employee)(employeeStatus=active))",
    b!"ldap:///ou=People,dc=example,dc=com?manager#SELFDN", b!"ldap:///ou=People,dc=example,dc=com??sub?"].all
    (fun s => reread s = some s) = true := by decide +kernel
example : reread b!"ldap:///ou=People,dc=example,dc=com?#SELFDN" = none := by decide +kernel

/-! /repo/uri_test.go:53-125 -/
def people : Uri.LDAPURI := (Uri.mkURI eq []).set eq [.part (.scope SearchScope.SingleLevel),
  .part (.dn (UDN b!"ou=People,dc=example,dc=com")),
  .part (.filter (Filter.mkFilter b!"(&(objectClass=employee)(employeeStatus=active))"))]

example : rule (uriCond Eq' people) =
    b!"userdn = \"ldap:///ou=People,dc=example,dc=com??one?(&(objectClass=employee)(employeeStatus=active))\"" := by
  decide +kernel
example : rule { uriCond Ne' ((people.set eq [.part (.dn (GDN b!"ou=Groups,dc=example,dc=com"))]).set eq
      [.part (.filter (Filter.mkFilter b!"(&(objectClass=groupOfNames)(ownerStatus=active))"))]) with paren := true } =
    b!"( groupdn != \"ldap:///ou=Groups,dc=example,dc=com??one?(&(objectClass=groupOfNames)(ownerStatus=active))\" )" := by
  decide +kernel
example : Uri.LDAPURI.string people =
    b!"ldap:///ou=People,dc=example,dc=com??one?(&(objectClass=employee)(employeeStatus=active))" := by decide +kernel

/-! /repo/uri_test.go:127-182 -/
example : Uri.LDAPURI.string none = [] ∧ (uriCond Eq' none).isZero = true := by decide +kernel
example : [b!"ou=People,dc=example,dc=com???",
    b!"ldap://ldap.example.com/dc=example,dc=com?objectClass?sub?(objectClass=*)",
    b!"http:///ou=People,dc=example,dc=com???"].all (fun s => reread s = none) = true := by decide +kernel
example : reread b!"ldap:///ou=People,dc=example,dc=com?owner#GROUPDN" =
    some b!"ldap:///ou=People,dc=example,dc=com?owner#GROUPDN" := by decide +kernel

/-! /repo/uri_test.go:184-298 -/
example : Uri.LDAPURI.string (Uri.mkURI eq [.part (.dn (UDN b!"ou=People,o=example")),
    .part (.filter (Filter.mkFilter b!"(objectClass=employee)")), .part (.scope SearchScope.Subtree)]) =
    b!"ldap:///ou=People,o=example??sub?(objectClass=employee)" := by decide +kernel

def raw : Str := b!"ldap:///ou=People,dc=example,dc=com?cn,sn,givenName,objectClass,uid?one?(&(objectClass=employee)(terminated=FALSE))"

example : reread raw = some raw ∧ Uri.LDAPURI.string (Uri.LDAPURI.set eq none [.str raw]) = raw := by decide +kernel
example : Uri.LDAPURI.valid none = false := by decide +kernel

def groups : Uri.LDAPURI := Uri.mkURI eq [.part (.dn (GDN b!"ou=Groups,dc=example,dc=com")),
  .part (.filter (Filter.mkFilter b!"(&(objectClass=distributionList)(status=active))"))]

example : (groups.bind Uri.Uri.keyword).map BindKeyword.string = some b!"groupdn" ∧ Length.lenURI groups = 0 := by decide +kernel
example : rule (uriCond Eq' (Uri.mkURI eq [.part (.dn (GDN b!"ou=Groups,dc=example,dc=com")),
    .part (.attrs (Uri.UAs.push eq [.str b!"cn", .str b!"sn", .str b!"givenName", .str b!"objectClass", .str b!"uid"])),
    .part (.filter (Filter.mkFilter b!"(&(objectClass=distributionList)(status=active))")),
    .part (.scope SearchScope.SingleLevel)])) =
    b!"groupdn = \"ldap:///ou=Groups,dc=example,dc=com?cn,sn,givenName,objectClass,uid?one?(&(objectClass=distributionList)(status=active))\"" := by
  decide +kernel
example : rule (uriCond Ne' (Uri.mkURI eq [.str raw])) = b!"userdn != \"" ++ raw ++ b!"\"" := by decide +kernel
example : methodsLen (brm (.anyRef 8) (.uri none)) = 2 := by decide +kernel

end Verif.Samples.Names
