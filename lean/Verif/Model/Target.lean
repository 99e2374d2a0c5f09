import Verif.Model.Keyword
import Verif.Model.Scope
import Verif.Model.Stack
import Verif.Model.DNList
import Verif.Model.Oid
import Verif.Model.Filter

/-!
# /repo/target.go, the builders of target rules, and their reading in /repo/parse.go

A `TargetRule` is a `stackage.Condition`, a pointer: a method that sets a part of it is
modelled by the rule afterwards.  Contract of go-stackage used here:
`Condition.Keyword`, `Operator` and `Expression` return what was set;
`Encap` with a quotation mark turns the marks around the value on, `Encap` without
arguments turns them off; `String` prints keyword, operator and value with the marks.
Padding is on (`RulePadding`, /repo/misc.go:68) and target rules print in parentheses.
-/

namespace Verif.Rules
open Verif Verif.Misc Verif.Attr Verif.DN Verif.Filter

/-- The expression value of a target rule: nothing, the value of the parser (quotation
style and texts), or a value of this package.  `text` is any other value that prints as
one text. -/
inductive TExpr where
  | nil
  | raw (style : Int) (values : List Str)
  | scope (s : SearchScope)
  | filter (f : SearchFilter)
  | attrs (a : ATs)
  | oids (o : Oid.OIDs)
  | dns (d : DNList.TDNs)
  | afos (a : Filter.AFOs)
  | at_ (a : AttributeType)
  | oid (o : Oid.ObjectIdentifier)
  | dn (d : TargetDN)
  | text (s : Str)

/-- `TargetRule`: keyword and operator, the value, whether the value as a whole has
quotation marks and whether the single values of a list have them. -/
structure TRule where
  core : RuleCore
  ex : TExpr
  outer : Bool
  slice : Bool

/-- `badTargetRule`, the zero value. -/
def badTargetRule : TRule := ⟨⟨false, [], 0⟩, .nil, false, false⟩

/-- `TargetRule.IsZero`, /repo/target.go:481-483. -/
def TRule.isZero (r : TRule) : Bool := !r.core.init

/-- `TargetRule.Keyword`, /repo/target.go:459-462. -/
def TRule.keyword (r : TRule) : TargetKeyword := matchTKW r.core.kw

/-- `TargetRule.SetExpression`, /repo/target.go:445-454, on an initialized rule.  The marks of the
single values belong to the list that is the value: a new list has none.  Lists that were in a
rule before are in Model/Share. -/
def TRule.setExpression (r : TRule) (ex : TExpr) : TRule :=
  { r with ex := ex, outer := true, slice := false }

/-- `newTargetRule`, /repo/target.go:222-234, and `TR`. -/
def TR (kw : KwArg) (op : OpArg) (ex : TExpr) : TRule :=
  TRule.setExpression
    { badTargetRule with
      core := TargetRule.setOperator (TargetRule.setKeyword ⟨true, [], 0⟩ kw) op } ex

/-- Whether the expression is nil. -/
def TExpr.isNil : TExpr → Bool
  | .nil => true
  | _ => false

/-- `stackage.Condition.Valid` (contract): keyword, operator and expression are set. -/
def TRule.condOk (r : TRule) : Bool := r.core.kw != [] && r.core.op != 0 && !r.ex.isNil

/-- `TargetRule.Valid` (true: nil error), /repo/target.go:239-254. -/
def TRule.valid (r : TRule) : Bool := TargetRule.valid r.core r.condOk

/-- `MultivalSliceQuotes`, /repo/misc.go:59. -/
def MultivalSliceQuotes : Int := 0

/-- `MultivalOuterQuotes`, /repo/misc.go:50. -/
def MultivalOuterQuotes : Int := 1

/-- The `setQuoteStyle` methods of the lists, /repo/dn.go:638-652 and 657-671, /repo/attr.go:601-615
and /repo/oid.go:400-414, with `n` entries: whether the single values have quotation
marks afterwards. -/
def quoteSlices (n : Nat) (style : Int) : Bool := if n < 2 then false else style = MultivalSliceQuotes

/-- The type switch of `TargetRule.SetQuoteStyle`, /repo/target.go:346-364: none for the
default case, which ends the method; otherwise the setting of the single values. -/
def TRule.sliceAfter (r : TRule) (style : Int) : Option Bool :=
  match r.ex with
  | .dns d =>
    if r.keyword = Target ∨ r.keyword = TargetTo ∨ r.keyword = TargetFrom then
      some (quoteSlices d.entries.length style) else some r.slice
  | .attrs a =>
    if r.keyword = TargetAttr then some (quoteSlices a.entries.length style) else some r.slice
  | .oids o =>
    if r.keyword = TargetExtOp ∨ r.keyword = TargetCtrl then
      some (quoteSlices o.entries.length style) else some r.slice
  | _ => none

/-- `TargetRule.SetQuoteStyle`, /repo/target.go:343-387. -/
def TRule.setQuoteStyle (r : TRule) (style : Int) : TRule :=
  match r.sliceAfter style with
  | none => { r with outer := true }
  | some s => { r with slice := s, outer := !decide (style = MultivalSliceQuotes) }

/-- The text of an entry of a list of object identifiers. -/
def oidEntryText : Oid.Entry → Str
  | .oid o => Oid.string o
  | .kw k => TargetKeyword.string k

/-- The texts of the values of a rule. -/
def TExpr.texts : TExpr → List Str
  | .nil => []
  | .raw _ vs => vs
  | .scope s => [SearchScope.string s]
  | .filter f => [SearchFilter.string f]
  | .attrs a => a.entries.map AttributeType.string
  | .oids o => o.entries.map oidEntryText
  | .dns d => d.entries.map TargetDN.string
  | .afos a => [a.string]
  | .at_ a => [AttributeType.string a]
  | .oid o => [Oid.string o]
  | .dn d => [TargetDN.string d]
  | .text s => [s]

/-- Quotation marks around a text, when they are on. -/
def quoteIf (b : Bool) (s : Str) : Str := if b then b!"\"" ++ s ++ b!"\"" else s

/-- `TargetRule.String`, /repo/target.go:304-315 (contract of go-stackage), for a rule
that is complete; lists are joined by ` || ` (/repo/attr.go:797, /repo/dn.go:1569,
/repo/oid.go:558). -/
def TRule.string (r : TRule) : Str :=
  if r.isZero then []
  else b!"( " ++ r.core.kw ++ b!" " ++ Cop.string r.core.op ++ b!" "
    ++ quoteIf r.outer (Str.join b!" || " (r.ex.texts.map (quoteIf r.slice))) ++ b!" )"

/-! ## Builders -/

/-- `SearchScope.Eq`, /repo/scope.go:89-94. -/
def scopeEq (s : SearchScope) : TRule :=
  if s = SearchScope.noScope then badTargetRule
  else TR (.target TargetScope) (.cop Eq') (.scope s)

/-- `SearchScope.Ne`, /repo/scope.go:103. -/
def scopeNe (_s : SearchScope) : TRule := badTargetRule

/-- `SearchFilter.Eq` and `Ne`, /repo/filter.go:162-181. -/
def filterCond (op : Cop) (f : SearchFilter) : TRule :=
  if SearchFilter.isZero f then badTargetRule else TR (.target TargetFilter) (.cop op) (.filter f)

/-- `AttributeTypes.Eq` and `Ne`, /repo/attr.go:555-573, on an initialized list. -/
def attrsCond (op : Cop) (a : ATs) : TRule := TR (.target TargetAttr) (.cop op) (.attrs a)

/-- `TargetDistinguishedNames.Eq` and `Ne`, /repo/dn.go:764-771, 800-807 and 862-888, on an
initialized list, whose keyword is the one of its constructor. -/
def dnsCond (op : Cop) (d : DNList.TDNs) : TRule := TR (.target d.kw) (.cop op) (.dns d)

/-- `ObjectIdentifiers.Eq` and `Ne`, /repo/oid.go:624-641, on an initialized list. -/
def oidsCond (op : Cop) (o : Oid.OIDs) : TRule := TR (.str o.kind) (.cop op) (.oids o)

/-! ## Lists of target rules -/

/-- An argument of `TargetRules.Push`, of type `any`. -/
inductive TRArg where
  | rule (r : TRule)
  | other

/-- `TargetRules.contains`, /repo/target.go:712-736, for the candidate text. -/
def containsKw (es : List TRule) (c : Str) : Bool :=
  es.any fun r => Str.eqFold (TargetKeyword.string r.keyword) c

/-- The candidate of `TargetRules.contains`, /repo/target.go:717-725. -/
def kwCandidate : KwArg → Str
  | .str s => s
  | .bind k => BindKeyword.string k
  | .target k => TargetKeyword.string k
  | .other => []

/-- `TargetRules.Contains`, /repo/target.go:705-707. -/
def TRs.contains (es : List TRule) (x : KwArg) : Bool := containsKw es (kwCandidate x)

/-- `TargetRules.pushPolicy`, /repo/target.go:675-698, and the capacity of nine,
/repo/target.go:527. -/
def acceptTR (es : List TRule) : TRArg → Option TRule
  | .rule r =>
    if es.length ≥ 9 then none
    else if r.isZero then none
    else if r.keyword = 0 then none
    else if containsKw es (TargetKeyword.string r.keyword) then none
    else some r
  | .other => none

/-- `TargetRules.Push`, /repo/target.go:598-601; `TRs`, /repo/target.go:524-553, is a push
into the empty list. -/
def TRs.push (stop : Bool) (es : List TRule) (x : List TRArg) : List TRule :=
  stackPush stop acceptTR es x

/-- `TargetRules.Pop`, /repo/target.go:608-612. -/
def TRs.pop (es : List TRule) : List TRule × TRule := (es.dropLast, es.getLast?.getD badTargetRule)

/-- `TargetRules.String`, /repo/target.go:560-562: no delimiter. -/
def TRs.string (es : List TRule) : Str := Str.join [] (es.map TRule.string)

/-! ## Reading -/

/-- `assertTargetFilter`, /repo/parse.go:591-605. -/
def assertTargetFilter : List Str → Except Unit SearchFilter
  | [v] =>
    if (unquote (condenseWHSP v)).length < 3 then .error ()
    else .ok (mkFilter (unquote (condenseWHSP v)))
  | _ => .error ()

/-- The list of `assertTargetTFDN`, /repo/parse.go:670-678. -/
def tfdnList (key : TargetKeyword) : DNList.TDNs :=
  if key = TargetTo then ⟨TargetTo, []⟩ else if key = TargetFrom then ⟨TargetFrom, []⟩
  else ⟨Target, []⟩

/-- `assertTargetTFDN`, /repo/parse.go:660-694. -/
def assertTargetTFDN (eq : Str → Str → Bool) (values : List Str) (key : TargetKeyword) :
    Except Unit DNList.TDNs :=
  if values.length = 0 then .error () else DNList.setTargetValues eq (tfdnList key) key values

/-- The loop of `assertTargetAttributes`, /repo/parse.go:713-724, `n` turns; every turn
reads the first value. -/
def targetAttrsLoop (eq : Str → Str → Bool) (first : Str) (ex : ATs) : Nat → Except Unit ATs
  | 0 => .ok ex
  | n + 1 =>
    if (unquote (condenseWHSP first)).length = 0 then .error ()
    else if AttributeType.isZero (AT (unquote (condenseWHSP first))) then .error ()
    else targetAttrsLoop eq first (ex.push eq [.at_ (AT (unquote (condenseWHSP first)))]) n

/-- `assertTargetAttributes`, /repo/parse.go:701-727. -/
def assertTargetAttributes (eq : Str → Str → Bool) : List Str → Except Unit ATs
  | [] => .error ()
  | v :: vs => targetAttrsLoop eq v (TAs eq []) (vs.length + 1)

/-- The switch of `TargetRule.assertExpressionValue`, /repo/parse.go:543-580. -/
def readTarget (eq : Str → Str → Bool) (read : Str → Option Str) (key : TargetKeyword)
    (values : List Str) : Except Unit TExpr :=
  if key = TargetScope then (SearchScope.assertTargetScope values).map .scope
  else if key = TargetAttrFilters then (Filter.assertTargetAttrFilters values).map .afos
  else if key = TargetFilter then (assertTargetFilter values).map .filter
  else if key = TargetAttr then (assertTargetAttributes eq values).map .attrs
  else if key = TargetCtrl ∨ key = TargetExtOp then (Oid.assertTargetOID eq read values key).map .oids
  else if key = Target ∨ key = TargetTo ∨ key = TargetFrom then
    (assertTargetTFDN eq values key).map .dns
  else .error ()

/-- `TargetRule.assertExpressionValue`, /repo/parse.go:521-589: the rule afterwards and
whether the error is nil. -/
def TRule.assertValue (eq : Str → Str → Bool) (read : Str → Option Str) (r : TRule) : TRule × Bool :=
  match r.ex with
  | .raw style values =>
    match readTarget eq read (matchTKW (TargetKeyword.string r.keyword)) values with
    | .error _ => (r, false)
    | .ok ex => ((r.setExpression ex).setQuoteStyle style, true)
  | _ => (r, false)

/-- The second loop of `processTargetRules`, /repo/parse.go:491-511: it ends at the first
error. -/
def assertAll (eq : Str → Str → Bool) (read : Str → Option Str) : List TRule → List TRule × Bool
  | [] => ([], true)
  | r :: rs =>
    if (r.assertValue eq read).2 then
      ((r.assertValue eq read).1 :: (assertAll eq read rs).1, (assertAll eq read rs).2)
    else (r :: rs, false)

/-- The first loop of `processTargetRules`, /repo/parse.go:482-485, one push per rule. -/
def transferTRs (es : List TRule) (rs : List TRule) : List TRule :=
  rs.foldl (fun es r => TRs.push true es [.rule r]) es

/-- `processTargetRules`, /repo/parse.go:472-514: the list and whether the error is nil. -/
def processTargetRules (eq : Str → Str → Bool) (read : Str → Option Str) (rs : List TRule) :
    List TRule × Bool := assertAll eq read (transferTRs [] rs)

/-- `parseTargetRule`, /repo/parse.go:404-409, for a text the parser reads as `r`: the
error of `assertExpressionValue` is not looked at. -/
def parseTargetRule (eq : Str → Str → Bool) (read : Str → Option Str) (r : TRule) : Except Unit TRule :=
  .ok (r.assertValue eq read).1

end Verif.Rules
