import Verif.Model.Builders

/-!
# The methods `Keyword` and `Kind` of values, and the makers of list members

`Keyword` returns an interface value; `none` is nil.
-/

namespace Verif.Reports
open Verif Verif.Misc Verif.Attr Verif.DN Verif.Filter Verif.Bind Verif.Rules Verif.Builders

/-- `BindDistinguishedNames.Keyword`, /repo/dn.go:1044-1059; the category of a list is the
word of its keyword, /repo/dn.go:1448-1557. -/
def bdnsKeyword : Option DNList.BDNs → Option BindKeyword
  | none => none
  | some l =>
    if Str.lower (BindKeyword.string l.kw) = BindKeyword.string BindUDN then some BindUDN
    else if Str.lower (BindKeyword.string l.kw) = BindKeyword.string BindGDN then some BindGDN
    else if Str.lower (BindKeyword.string l.kw) = BindKeyword.string BindRDN then some BindRDN
    else none

/-- `TargetDistinguishedNames.Keyword`, /repo/dn.go:1080-1095. -/
def tdnsKeyword : Option DNList.TDNs → Option TargetKeyword
  | none => none
  | some l =>
    if Str.lower (TargetKeyword.string l.kw) = TargetKeyword.string Target then some Target
    else if Str.lower (TargetKeyword.string l.kw) = TargetKeyword.string TargetTo then some TargetTo
    else if Str.lower (TargetKeyword.string l.kw) = TargetKeyword.string TargetFrom then some TargetFrom
    else none

/-- `ObjectIdentifiers.Keyword`, /repo/oid.go:334-341. -/
def oidsKeyword : Option Oid.OIDs → TargetKeyword
  | none => 0
  | some o => matchTKW o.kind

/-- `AttributeTypes.Kind`, /repo/attr.go:657-662, of a list made by `TAs`, whose category is
set at /repo/attr.go:803-805; none is the uninitialized list. -/
def atsKind : Option ATs → Str
  | none => b!"<uninitialized>"
  | some _ => TargetKeyword.string TargetAttr

/-- `AttributeTypes.Keyword`, /repo/attr.go:679-685, for this kind. -/
def kindKeyword (kind : Str) : TargetKeyword :=
  if kind = b!"<uri_search_attributes>" then TargetFilter else matchTKW kind

/-- The `Keyword` methods of the values of bind rules: /repo/dn.go:176-181, /repo/uri.go:326-344,
/repo/levels.go:238-250, /repo/attr.go:187-195, /repo/net.go:108-110 and 39-41,
/repo/time.go:123-125 and 401-403, /repo/sec.go:126-128.  The outer none: an authentication
method has no such method. -/
def bindKeyword : BVal → Option (Option BindKeyword)
  | .dn d => some (DN.keyword d)
  | .dns d => some (bdnsKeyword d)
  | .uri none => some none
  | .uri (some u) => some u.keyword
  | .inh i => some (Levels.keyword i)
  | .pair a => some (some a.keyword)
  | .ip _ => some (some BindIP)
  | .fqdn _ => some (some BindDNS)
  | .dow _ => some (some BindDoW)
  | .tod _ => some (some BindToD)
  | .am _ => none
  | .ssf _ => some (some BindSSF)

/-- The `Keyword` methods of the values of target rules: /repo/scope.go:108-110,
/repo/filter.go:111-113, 749-751 and 404-406, /repo/attr.go:398 and 679-685,
/repo/oid.go:81-86 and 334-341, /repo/dn.go:186-191 and 1080-1095.  A list made by `UAs` has
the kind set at /repo/attr.go:822. -/
def targetKeyword : TVal → Option TargetKeyword
  | .scope _ => some TargetScope
  | .filter _ => some TargetFilter
  | .at_ _ => none
  | .ats a => some (kindKeyword (atsKind a))
  | .uriAts _ => some (kindKeyword b!"<uri_search_attributes>")
  | .oid o => Oid.keyword o
  | .oids o => some (oidsKeyword o)
  | .dn d => DN.keyword d
  | .dns d => tdnsKeyword d
  | .afo _ => some TargetAttrFilters
  | .afos _ => some TargetAttrFilters

/-- The `Kind` methods of the values of target rules: /repo/attr.go:393 and 657-662 (a list made by
`UAs` has the category set at /repo/attr.go:821), /repo/oid.go:91-96 and 656-669, /repo/dn.go:217-219,
/repo/filter.go:572-574 and 830-836.  The outer none: scopes, filters and lists of names have no such
method. -/
def targetKind : TVal → Option Str
  | .scope _ => none
  | .filter _ => none
  | .at_ _ => some []
  | .ats a => some (atsKind a)
  | .uriAts _ => some b!"<uri_search_attributes>"
  | .oid o => some (Oid.kind o)
  | .oids none => some b!"<uninitialized>"
  | .oids (some o) => some o.kind
  | .dn _ => some b!"target"
  | .dns _ => none
  | .afo _ => some (TargetKeyword.string TargetAttrFilters)
  | .afos _ => some (TargetKeyword.string TargetAttrFilters)

/-- The `Kind` methods of the values of bind rules: /repo/dn.go:210-212, /repo/uri.go:349-355,
/repo/net.go:115-117; the other values have none. -/
def bindKind : BVal → Option Str
  | .dn _ => some b!"bind"
  | .uri u => some (match bindKeyword (.uri u) with
    | some (some k) => BindKeyword.string k
    | _ => [])
  | .ip _ => some (BindKeyword.string BindIP)
  | _ => none

/-- `BindDistinguishedNames.F`, /repo/dn.go:1066-1075. -/
def bdnsF (l : Option DNList.BDNs) : Str → BindDN :=
  if bdnsKeyword l = some BindGDN then GDN else if bdnsKeyword l = some BindRDN then RDN else UDN

/-- `TargetDistinguishedNames.F`, /repo/dn.go:1102-1111. -/
def tdnsF (l : Option DNList.TDNs) : Str → TargetDN :=
  if tdnsKeyword l = some TargetTo then TTDN else if tdnsKeyword l = some TargetFrom then TFDN else TDN

/-- `ObjectIdentifiers.F`, /repo/oid.go:475-482. -/
def oidsF (read : Str → Option Str) (l : Option Oid.OIDs) : List Oid.Arg → Oid.ObjectIdentifier :=
  if oidsKeyword l = TargetExtOp then Oid.ExtOp read else Oid.Ctrl read

end Verif.Reports
