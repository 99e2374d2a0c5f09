import Verif.Samples.Levels
import Verif.Model.Layout
import Verif.Model.Edit
import Verif.Model.Piece
import Verif.Model.Reports

/-!
# Outputs in /repo/bind_test.go

The values here are the ones the tests of the repository expect.  They check the reading of the
code; no theorem uses them.
-/

namespace Verif.Samples.Bind
open Verif Verif.Attr Verif.Builders Verif.Bind

abbrev eq := EqualFold.ref.eq

/-- The texts of values. -/
def val : BExpr → List Str := BExpr.texts ⟨.anyRef 16, .anyRef 8, Sec.authNames, false⟩

/-- The text of a rule or of a stack. -/
def text (c : BCtx) : Str := c.text val fun _ _ => b!"?"

/-- A stack of the given contexts. -/
def stack (w : Word) (xs : List BCtx) : BCtx := .rules w false (pushB false [] (xs.map .ctx))

/-- `Paren()`. -/
def paren : BCtx → BCtx
  | .rule r => .rule { r with paren := !r.paren }
  | .zero => .zero
  | .rules w p es => .rules w (!p) es

def tod (s : Str) : Time.TimeOfDay := Time.ToD [.str s]

/-- `Timeframe(ToD(a), ToD(b))`. -/
def frame (a b : Str) : BCtx := timeframe false (tod a) (tod b)

def ssf (op : Cop) (n : Int) : BCtx := .rule (ssfCond op (Sec.SSF [.int n]))

def admins : BCtx := .rule (bindDNCond Eq' (DN.GDN b!"cn=X.500 Administrators,ou=Groups,dc=example,dc=com"))

/-! /repo/bind_test.go:8-28 -/
example : ∀ e ∈ ((brm (.anyRef 8) (.ssf (Sec.SSF [.int 256]))).getD []),
    text (.rule e.2) = b!"ssf " ++ Cop.string e.1 ++ b!" \"256\"" := by decide +kernel

/-! /repo/bind_test.go:30-58 -/
example : [b!"BAND", b!"AND", b!"aNd", b!"and", b!"andy", b!"OR", b!"or", b!"oR", b!"orwellian", b!"NOT", b!"not",
    b!"nOT", b!"AND NOT", b!"and not", b!"aNd NoT", b!"andnot", b!"and not a moment too soon...", b!"", b!"&*#($"].map
    (fun s => (wordToStack s).isSome) =
    [false, true, true, true, false, true, true, true, false, true, true, true, true, true, true, true, false, false,
      false] := by decide +kernel

/-! /repo/bind_test.go:155-235 -/
def tree : List BCtx := [paren admins, paren (frame b!"1730" b!"2330"),
  stack .or [paren (.rule (pairCond Eq' (userOrGroupAttr BindUAT [.str b!"manager", .str b!"LDAPURL"]))),
    paren (.rule (pairCond Eq' (userOrGroupAttr BindGAT [.str b!"owner", .bt SELFDN]))),
    paren (.rule (uriCond Eq' (Uri.mkURI eq [.part (.dn (DN.UDN b!"ou=People,dc=example,dc=com")),
      .part (.scope SearchScope.Subtree)]))),
    stack .and [ssf Ge' 128]]]

/-! /repo/bind_test.go:237-285 -/
example : text (stack .and [paren admins, paren (frame b!"1730" b!"2330")]) =
    b!"( groupdn = \"ldap:///cn=X.500 Administrators,ou=Groups,dc=example,dc=com\" ) AND ( timeofday >= \"1730\" AND timeofday < \"2330\" )" := by
  decide +kernel

def people : BCtx := paren (.rule (uriCond Eq' (Uri.mkURI eq
  [.part (.dn (DN.UDN b!"ou=People,dc=example,dc=com")), .part (.scope SearchScope.Subtree)])))

def manager : BCtx := paren (.rule (pairCond Eq' (userOrGroupAttr BindUAT [.str b!"manager", .str b!"LDAPURL"])))

example : text (paren (stack .or [manager, people])) =
    b!"( ( userattr = \"manager#LDAPURL\" ) OR ( userdn = \"ldap:///ou=People,dc=example,dc=com??sub?\" ) )" := by
  decide +kernel
example : text (stack .and [paren (.rule (ipCond Eq' (Net.IP [b!"192.168."]))),
    stack .not [paren (stack .or [manager, people])]]) =
    b!"( ip = \"192.168.\" ) AND NOT ( ( userattr = \"manager#LDAPURL\" ) OR ( userdn = \"ldap:///ou=People,dc=example,dc=com??sub?\" ) )" := by
  decide +kernel

/-! /repo/bind_test.go:287-378 -/
example : ((brm (.anyRef 8) (.dn (DN.GDN b!"cn=X.500 Administrators,ou=Groups,dc=example,dc=com"))).getD []).map
    (fun e => (e.1.description, text (paren (.rule e.2)))) =
    [(b!"Equal To", b!"( groupdn = \"ldap:///cn=X.500 Administrators,ou=Groups,dc=example,dc=com\" )"),
     (b!"Not Equal To", b!"( groupdn != \"ldap:///cn=X.500 Administrators,ou=Groups,dc=example,dc=com\" )")] := by
  decide +kernel

/-- What `Index` of the methods of `SSF(256)` gives. -/
def called (x : OpArg) : Str × Option Str :=
  let m := brm (.anyRef 8) (.ssf (Sec.SSF [.int 256]))
  ((BindRuleMethods.index m x).1.context, (BindRuleMethods.index m x).2.map fun r => text (paren (.rule r)))

example : [OpArg.int 1, .int 2, .int 3, .int 4, .int 5, .int 6].map called =
    [(b!"Eq", some b!"( ssf = \"256\" )"), (b!"Ne", some b!"( ssf != \"256\" )"), (b!"Lt", some b!"( ssf < \"256\" )"),
     (b!"Gt", some b!"( ssf > \"256\" )"), (b!"Le", some b!"( ssf <= \"256\" )"),
     (b!"Ge", some b!"( ssf >= \"256\" )")] := by decide +kernel
example : [OpArg.str b!"=", .str b!"!=", .str b!"<", .str b!">", .str b!"<=", .str b!">="].map called =
    [(b!"Eq", some b!"( ssf = \"256\" )"), (b!"Ne", some b!"( ssf != \"256\" )"), (b!"Lt", some b!"( ssf < \"256\" )"),
     (b!"Gt", some b!"( ssf > \"256\" )"), (b!"Le", some b!"( ssf <= \"256\" )"),
     (b!"Ge", some b!"( ssf >= \"256\" )")] := by decide +kernel

/-! /repo/bind_test.go:380-500 -/
example : bindMethodsValid none = none ∨ bindMethodsValid none = some false := by decide +kernel
example : methodsLen (brm (.anyRef 8) (.ssf none)) = 6 := by decide +kernel
example : text (ssf Eq' 128) ≠ text (ssf Eq' 127) := by decide +kernel
example : text (frame b!"0130" b!"1605") ≠ text (frame b!"1215" b!"1605") := by decide +kernel
example : (ssfCond Ne' (Sec.SSF [.int 0])).keyword.string = b!"ssf" := by decide +kernel
example : val (bindDNCond Eq' (DN.UDN b!"uid=jesse,ou=Contractors,ou=People,dc=example,dc=com")).ex =
    [b!"ldap:///uid=jesse,ou=Contractors,ou=People,dc=example,dc=com"] := by decide +kernel
example : badBindRule.isZero = true ∧ badBindRule.valid = false := by decide +kernel

/-! /repo/bind_test.go:502-535 -/
def three : BRule :=
  let c0 := BindRule.setKeyword ⟨true, [], 0⟩ (.bind BindUDN)
  let c1 := [OpArg.str b!"!=", .int 2, .int 54738372, .cop Ne'].foldl BindRule.setOperator c0
  { badBindRule with
    core := c1
    paren := true
    ex := .dns (DNList.UDNs eq [.dn (DN.UDN b!"ldap:///uid=jesse,ou=People,dc=example,dc=com"),
        .dn (DN.UDN b!"ldap:///uid=courtney,ou=People,dc=example,dc=com"),
        .dn (DN.UDN b!"ldap:///uid=jimmy,ou=People,dc=example,dc=com")]) }

example : text (.rule (three.setQuoteStyle 0)) =
    b!"( userdn != \"ldap:///uid=jesse,ou=People,dc=example,dc=com\" || \"ldap:///uid=courtney,ou=People,dc=example,dc=com\" || \"ldap:///uid=jimmy,ou=People,dc=example,dc=com\" )" := by
  decide +kernel
example : text (.rule ((three.setQuoteStyle 0).setQuoteStyle 1)) =
    b!"( userdn != \"ldap:///uid=jesse,ou=People,dc=example,dc=com || ldap:///uid=courtney,ou=People,dc=example,dc=com || ldap:///uid=jimmy,ou=People,dc=example,dc=com\" )" := by
  decide +kernel

/-! /repo/bind_test.go:537-650 -/

/-- The days `Weekdays` gives for an operator. -/
def days (x : OpArg) : BCtx :=
  .rule ((dayRule (some (dowMethods (.anyRef 8) weekdays)) x).getD badBindRule)

/-- A context with padding on and letter case not folded. -/
def lay : BCtx → LCtx
  | .rule r => .rule r true
  | .zero => .zero
  | .rules w p _ => .rules w p true false []

def rule (c : BCtx) : LCtx := lay c

example : (LCtx.rules .or true true false
    [.rules .and false true true
      [rule (.rule (bindDNCond Eq' (DN.GDN b!"cn=Accounting,ou=Groups,dc=example,dc=com"))),
       .rules .and true true true [rule (.rule (todCond Ge' (tod b!"0900"))), rule (.rule (todCond Lt' (tod b!"1830")))],
       rule (paren (days (.str b!"=")))],
     .rules .and true true false
      [rule (.rule (bindDNCond Eq' (DN.RDN b!"cn=Superusers,ou=Groups,dc=example,dc=com"))),
       rule (.rule (pairCond Eq' (userOrGroupAttr BindGAT [.str b!"privilegeLevel", .str b!"GAMMA5"])))]]).text val
      (fun _ _ => b!"?") =
    b!"( groupdn = \"ldap:///cn=Accounting,ou=Groups,dc=example,dc=com\" and ( timeofday >= \"0900\" and timeofday < \"1830\" ) and ( dayofweek = \"Mon,Tues,Wed,Thur,Fri\" ) OR ( roledn = \"ldap:///cn=Superusers,ou=Groups,dc=example,dc=com\" AND groupattr = \"privilegeLevel#GAMMA5\" ) )" := by
  decide +kernel

def am (a : Sec.AuthenticationMethod) : BCtx := .rule (amCond Eq' a)

example : ((LCtx.rules .and false true false [rule (ssf Ge' 128), rule (am Sec.EXTERNAL)]).setFold []).text val
    (fun _ _ => b!"?") = b!"ssf >= \"128\" and authmethod = \"SASL EXTERNAL\"" := by decide +kernel
example : text (stack .and [ssf Ge' 128, am Sec.EXTERNAL]) = b!"ssf >= \"128\" AND authmethod = \"SASL EXTERNAL\"" := by
  decide +kernel

/-! /repo/bind_test.go:140-235: `Traverse`, and a write through what it returns (C61) -/
example : text (Piece.traverse (fun _ _ => none) (stack .and tree) [2, 3, 0]) = b!"ssf >= \"128\"" := by decide +kernel

/-! /repo/bind_test.go:652-760: replacing, reading only, adding, removing -/

def far : Edit.Far := ⟨fun _ _ => none, fun es _ => (es, false), fun es _ _ => (es, false), fun es _ _ => es⟩

/-- The text of an AND stack. -/
def stackText (s : Edit.Stack) : Str := text (.rules .and false (s.es.filterMap id))

def strong : Edit.Stack := Edit.Stack.push false ⟨false, []⟩ [some (ssf Ge' 128), some (am Sec.DIGESTMD5)]

example : stackText (strong.replace far (some (am Sec.EXTERNAL)) 1) =
    b!"ssf >= \"128\" AND authmethod = \"SASL EXTERNAL\"" := by decide +kernel
example : stackText ((strong.readOnly []).replace far (some (am Sec.EXTERNAL)) 1) =
    b!"ssf >= \"128\" AND authmethod = \"SASL DIGEST-MD5\"" := by decide +kernel

def brs : Edit.Stack := Edit.Stack.push false ⟨false, []⟩ [some (frame b!"0900" b!"1830"), some (days (.cop Eq'))]

example : stackText (Edit.Stack.push false (Edit.Stack.push false ⟨false, []⟩ [some (frame b!"0900" b!"1830")])
    [some (days (.cop Eq'))]) =
    b!"timeofday >= \"0900\" AND timeofday < \"1830\" AND dayofweek = \"Mon,Tues,Wed,Thur,Fri\"" := by decide +kernel
example : ((brs.pop none).2.map text) = some b!"dayofweek = \"Mon,Tues,Wed,Thur,Fri\"" := by decide +kernel

/-! /repo/bind_test.go:762-880 -/
example : Piece.isNesting (.rules .and false (brs.es.filterMap id)) = true := by decide +kernel
example : (brs.index far 0).map text = some b!"timeofday >= \"0900\" AND timeofday < \"1830\"" := by decide +kernel
example : ((LCtx.rules .and true true false [.rules .and false true false [rule (.rule (todCond Ge' (tod b!"0900"))),
      rule (.rule (todCond Lt' (tod b!"1830")))], rule (days (.cop Eq'))]).noPadding []).text val (fun _ _ => b!"?") =
    b!"(timeofday >= \"0900\" AND timeofday < \"1830\" AND dayofweek = \"Mon,Tues,Wed,Thur,Fri\")" := by
  decide +kernel
example : brs.es.length = 2 := by decide +kernel
example : text (paren (.rules .and false (brs.es.filterMap id))) =
    b!"( timeofday >= \"0900\" AND timeofday < \"1830\" AND dayofweek = \"Mon,Tues,Wed,Thur,Fri\" )" := by
  decide +kernel

/-! /repo/bind_test.go:882-960 -/
example : text (.rule (BR (.bind BindUDN) (.cop Eq') (.dn (DN.UDN b!"uid=jesse,ou=People,dc=example,dc=com")))) =
    b!"userdn = \"ldap:///uid=jesse,ou=People,dc=example,dc=com\"" := by decide +kernel
example : text (days (.cop Eq')) = b!"dayofweek = \"Mon,Tues,Wed,Thur,Fri\"" := by decide +kernel
example : (dayRule (some (dowMethods (.anyRef 8) weekend)) (.cop Ne')).map (fun r => text (.rule r)) =
    some b!"dayofweek != \"Sun,Sat\"" := by decide +kernel
example : Cop.description (BindRule.setOperator (BindRule.setKeyword ⟨true, [], 0⟩ (.bind BindUDN)) (.cop Ne')).op =
    b!"Not Equal To" := by decide +kernel

/-! /repo/bind_test.go:962-1050 -/

/-- What the parser returns for `(timeofday>="0415")`. -/
def night : LCtx := .rule ⟨⟨true, b!"timeofday", Ge'⟩, .raw 0 [b!"0415"], true, false, true⟩ true

example : night.isParen = true ∧ night.text val (fun _ _ => b!"?") = b!"( timeofday >= \"0415\" )" ∧
    (night.setParen [false]).isParen = false ∧
    (night.noPadding [false]).text val (fun _ _ => b!"?") = b!"( timeofday >= \"0415\" )" := by decide +kernel

end Verif.Samples.Bind
