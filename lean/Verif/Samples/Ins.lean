import Verif.Samples.Bind
import Verif.Model.Ins
import Verif.Props.Bind
import Verif.Props.Oid

/-!
# Outputs in /repo/pb_test.go and /repo/ins_test.go

The values here are the ones the tests of the repository expect.  They check the reading of the
code; no theorem uses them.  The parser of go-antlraci is not modelled; where a test reads a
text, what the parser returns is written down here.
-/

namespace Verif.Samples.Whole
open Verif Verif.Attr Verif.Builders Verif.Rules Verif.Bind Verif.PB

abbrev S : Shifty 16 := .anyRef 16

def world : World := ⟨S, plainEnv, Samples.Bind.text, TRs.string, Oid.plainReader.read⟩

/-- No text is read. -/
def mute : Str → Option Store := fun _ => none

/-! /repo/pb_test.go:8-55 -/
example : PB.string world (PBR (Rights.Allow S [.str b!"read", .str b!"search", .str b!"compare"])
      (some (Samples.Bind.frame b!"1400" b!"2300"))) =
    b!"allow(read,search,compare) timeofday >= \"1400\" AND timeofday < \"2300\";" := by decide +kernel
example : PB.string world (PBR (Rights.Allow S [.right Rights.NoAccess])
      (some (.rule (bindDNCond Eq' (DN.UDN b!"uid=disgruntled_employee,ou=People,dc=example,dc=com"))))) =
    b!"allow(none) userdn = \"ldap:///uid=disgruntled_employee,ou=People,dc=example,dc=com\";" := by decide +kernel

/-! /repo/pb_test.go:91-271 -/
def fired : PBRule := PBR (Rights.Deny S [.right Rights.AllAccess, .right Rights.ProxyAccess])
  (some (.rule (bindDNCond Eq' (DN.GDN b!"cn=disgruntled_employees,ou=Groups,dc=example,dc=com"))))
def courtney : PBRule := PBR (Rights.Allow S [.right Rights.AllAccess])
  (some (.rule (bindDNCond Eq' (DN.UDN b!"cn=Courtney Tolana,ou=Admin,ou=People,dc=example,dc=com"))))
def both : List PBRule := PBRs world mute true [.rule fired, .rule courtney]

example : both.length = 2 := by decide +kernel
example : PB.listString world both =
    b!"deny(all,proxy) groupdn = \"ldap:///cn=disgruntled_employees,ou=Groups,dc=example,dc=com\"; allow(all) userdn = \"ldap:///cn=Courtney Tolana,ou=Admin,ou=People,dc=example,dc=com\";" := by
  decide +kernel
example : PB.string world (PB.pop both).2 =
    b!"allow(all) userdn = \"ldap:///cn=Courtney Tolana,ou=Admin,ou=People,dc=example,dc=com\";" := by decide +kernel

/-! /repo/pb_test.go:284-400: rules that are refused, and one that is not. -/
def pbSet (xs : List PB.SetArg) : PBRule := PB.set mute none xs

def refused : List PBRule :=
  [PBR none none, PBR (Rights.Deny S [.right Rights.ProxyAccess]) none,
   pbSet [.perm none, .ctx (.rule (bindDNCond Eq' (DN.GDN b!"cn=disgruntled_employees,ou=Groups,dc=example,dc=com")))],
   pbSet [.perm (Rights.Allow S [.str b!"read", .str b!"search", .str b!"compare"]), .ctx (.rule (bindDNCond Ne' (DN.RDN b!"")))],
   PB.set mute (pbSet [.str b!"pspspsppspspsp"]) [.other, .str b!"pspspsppspspsp"],
   PBR none (some (Samples.Bind.stack .and [Samples.Bind.ssf Eq' 128]))]

def five : PBRule := pbSet [.perm (Rights.Deny S [.right Rights.AllAccess, .right Rights.ProxyAccess]),
  .ctx (.rule (bindDNCond Eq' (DN.GDN b!"cn=disgruntled_employees,ou=Groups,dc=example,dc=com")))]

/-- The text of `five` is read as `five`, no other text is read. -/
def fiveReader (s : Str) : Option Store := if s = PB.string world five then five else none

example : (PB.push world mute [] (refused.map .rule)).length = 0 := by decide +kernel
example : (PB.push world mute [] (refused.map .rule ++ [.other, .rule five])).length = 1 := by decide +kernel
example : (PB.push world fiveReader [] [.rule five, .str (PB.string world five)]).length = 1 := by decide +kernel

/-! /repo/ins_test.go:37-125 -/
def anyone : TRule := targetDNCond Eq' (DN.TDN b!"uid=*,ou=People,dc=example,dc=com")
def targets : List TRule := TRs.push false [] [.rule anyone]
def rsc : Rights.Permission := Rights.Allow S [.right Rights.ReadAccess, .right Rights.CompareAccess, .right Rights.SearchAccess]
def evening : BCtx := Samples.Bind.paren (Samples.Bind.stack .and
  [.rule (todCond Ge' (Samples.Bind.tod b!"1730")), .rule (todCond Lt' (Samples.Bind.tod b!"2400"))])
def label : Str := b!"Limit people access to timeframe"
def simple : Ins.Instruction :=
  Ins.set world mute (Ins.ACI world mute [.str label, .trs targets, .pbr (PBR rsc (some evening))]) [.trs targets]
def simpleText : Str :=
  b!"( target = \"ldap:///uid=*,ou=People,dc=example,dc=com\" )(version 3.0; acl \"Limit people access to timeframe\"; allow(read,search,compare) ( timeofday >= \"1730\" AND timeofday < \"2400\" );)"

example : Ins.string world simple = simpleText := by decide +kernel

/-- The text of the instruction is read as it, no other text is read. -/
def simpleReader (s : Str) : Option Ins.Instruction := if s = simpleText then some simple else none

def list1 : List Ins.Instruction := Ins.push world simpleReader [] [.other, .ins none, .str b!"", .other, .ins simple]

example : (Ins.push world simpleReader (Ins.pop list1).1
      [.ins (Ins.pop list1).2, .str (Ins.string world (Ins.pop list1).2), .str b!"<3 <3 <3"]).map (Ins.string world) =
    [simpleText] := by decide +kernel
example : Ins.listString world list1 = simpleText := by decide +kernel

/-! /repo/ins_test.go:156-213 and 270-420 -/
def ors : BCtx := Samples.Bind.paren (Samples.Bind.stack .or
  [.rule (bindDNCond Eq' (DN.UDN b!"uid=jesse,ou=admin,dc=example,dc=com")),
   .rule (bindDNCond Eq' (DN.UDN b!"uid=courtney,ou=admin,dc=example,dc=com"))])
def nots : BCtx := Samples.Bind.paren (Samples.Bind.stack .not
  [.rule (pairCond Eq' (userOrGroupAttr BindUAT [.at_ (AT b!"ninja"), .av (AV b!"FALSE")]))])
def nested (t : BCtx) : BCtx := Samples.Bind.paren (Samples.Bind.stack .and [t, ors, nots])
def nestedText : Str :=
  b!"allow(read,search,compare) ( ( timeofday >= \"1730\" AND timeofday < \"2400\" ) AND ( userdn = \"ldap:///uid=jesse,ou=admin,dc=example,dc=com\" OR userdn = \"ldap:///uid=courtney,ou=admin,dc=example,dc=com\" ) AND NOT ( userattr = \"ninja#FALSE\" ) );"

example : [evening, Samples.Bind.paren (Samples.Bind.frame b!"1730" b!"2400")].map (fun t =>
      let i := Ins.set world mute none [.str label, .trs targets, .pbr (PBR rsc (some (nested t)))]
      (Ins.string world i, TRs.string (Ins.trs i), PB.listString world (Ins.pbrs i))) =
    List.replicate 2 (b!"( target = \"ldap:///uid=*,ou=People,dc=example,dc=com\" )(version 3.0; acl \"Limit people access to timeframe\"; " ++ nestedText ++ b!")",
      b!"( target = \"ldap:///uid=*,ou=People,dc=example,dc=com\" )", nestedText) := by decide +kernel

/-! /repo/ins_test.go:422-455 -/
example : Ins.acl (Ins.set world mute none [.str b!"This is an access control label"]) = b!"This is an access control label" ∧
    Ins.valid none = false := by decide +kernel

/-! /repo/ins_test.go:456-520 -/
def raw (kw : Str) (style : Int) (vs : List Str) : TRule := ⟨⟨true, kw, Eq'⟩, .raw style vs, false, false⟩
def leaf (kw : Str) (op : Cop) (v : Str) : PTree := .cond ⟨⟨true, kw, op⟩, .raw 1 [v], false, false, false⟩

def longTokens : Ins.Tokens :=
  ⟨b!"Allow read and write for anyone using greater than or equal 128 SSF - extra nesting",
   [raw b!"targetfilter" 1 [b!"(&(objectClass=employee)(objectClass=engineering))"],
    raw b!"targetcontrol" 0 [b!"1.2.3.4", b!"1.2.3.5"], raw b!"targetscope" 1 [b!"onelevel"]],
   [some ⟨⟨some true, [b!"read", b!"write"]⟩,
      .stack b!"AND" true [.stack b!"AND" true [
        .stack b!"AND" true [.stack b!"AND" true [leaf b!"userdn" Eq' b!"ldap:///anyone"],
          .stack b!"AND" true [leaf b!"ssf" Ge' b!"71"]],
        .stack b!"NOT" true [.stack b!"OR" false [leaf b!"dayofweek" Eq' b!"Wed", leaf b!"dayofweek" Eq' b!"Fri"]]]]⟩,
    some ⟨⟨some false, [b!"proxy", b!"selfwrite"]⟩,
      .stack b!"AND" true [.stack b!"AND" true [leaf b!"userdn" Eq' b!"ldap:///all"]]⟩]⟩

def longText : Str :=
  b!"( targetfilter = \"(&(objectClass=employee)(objectClass=engineering))\" )( targetcontrol = \"1.2.3.4\" || \"1.2.3.5\" )( targetscope = \"onelevel\" )(version 3.0; acl \"Allow read and write for anyone using greater than or equal 128 SSF - extra nesting\"; allow(read,write) ( ( ( userdn = \"ldap:///anyone\" ) AND ( ssf >= \"71\" ) ) AND NOT ( dayofweek = \"Wed\" OR dayofweek = \"Fri\" ) ); deny(selfwrite,proxy) ( userdn = \"ldap:///all\" );)"

/-- What is read. -/
def long : Ins.Instruction :=
  match Ins.parse world mute longTokens with
  | .ok i => i
  | _ => none

example : Ins.string world long = longText := by decide +kernel
example : Ins.listString world (Ins.push world simpleReader [] [.ins simple, .ins long]) = simpleText ++ [10] ++ longText := by
  decide +kernel

end Verif.Samples.Whole
