import Verif.Model.Reports

/-!
# The keyword of a list is set again
-/

namespace Verif.Reset
open Verif Verif.Misc Verif.Attr

/-- An argument of `resetKeyword`, of type `any`. -/
inductive RArg where
  | bind (k : BindKeyword)
  | target (k : TargetKeyword)
  | str (s : Str)
  | other

/-- `BindDistinguishedNames.resetKeyword` with a text, /repo/dn.go:485-510. -/
def bdnsText (r : DNList.BDNs) (s : Str) : DNList.BDNs :=
  if r.entries.length > 0 then r
  else if Str.lower s = BindKeyword.string BindUDN then { r with kw := BindUDN }
  else if Str.lower s = BindKeyword.string BindRDN then { r with kw := BindRDN }
  else if Str.lower s = BindKeyword.string BindGDN then { r with kw := BindGDN }
  else r

/-- `BindDistinguishedNames.resetKeyword`, /repo/dn.go:485-510.  The category and the push
policy are set together. -/
def bdnsReset (r : DNList.BDNs) : RArg → DNList.BDNs
  | .bind k => if r.entries.length > 0 then r else bdnsText r (BindKeyword.string k)
  | .str s => bdnsText r s
  | _ => r

/-- `TargetDistinguishedNames.resetKeyword` with a text, /repo/dn.go:517-541. -/
def tdnsText (r : DNList.TDNs) (s : Str) : DNList.TDNs :=
  if r.entries.length > 0 then r
  else if Str.lower s = TargetKeyword.string Target then { r with kw := Target }
  else if Str.lower s = TargetKeyword.string TargetTo then { r with kw := TargetTo }
  else if Str.lower s = TargetKeyword.string TargetFrom then { r with kw := TargetFrom }
  else r

/-- `TargetDistinguishedNames.resetKeyword`, /repo/dn.go:517-541. -/
def tdnsReset (r : DNList.TDNs) : RArg → DNList.TDNs
  | .target k => if r.entries.length > 0 then r else tdnsText r (TargetKeyword.string k)
  | .str s => tdnsText r s
  | _ => r

/-- `ObjectIdentifiers.resetKeyword` with a text, /repo/oid.go:488-508. -/
def oidsText (r : Oid.OIDs) (s : Str) : Oid.OIDs :=
  if r.entries.length = 0 then
    if Str.lower s = TargetKeyword.string TargetExtOp then { r with kw := TargetExtOp }
    else if Str.lower s = TargetKeyword.string TargetCtrl then { r with kw := TargetCtrl }
    else r
  else r

/-- `ObjectIdentifiers.resetKeyword`, /repo/oid.go:488-508. -/
def oidsReset (r : Oid.OIDs) : RArg → Oid.OIDs
  | .target k => if r.entries.length = 0 then oidsText r (TargetKeyword.string k) else r
  | .str s => oidsText r s
  | _ => r

/-- `AttributeTypes`: the category and the entries. -/
structure ATList where
  cat : Str
  entries : List AttributeType

/-- `AttributeTypes.resetKeyword` with a text, /repo/attr.go:528-551. -/
def atsText (r : ATList) (s : Str) : ATList :=
  if r.entries.length > 0 then r
  else if Str.lower s = TargetKeyword.string TargetAttr then { r with cat := Str.lower s }
  else if Str.lower s = BindKeyword.string BindUAT ∨ Str.lower s = BindKeyword.string BindGAT then { r with cat := s }
  else r

/-- `AttributeTypes.resetKeyword`, /repo/attr.go:528-551: keywords of both kinds. -/
def atsReset (r : ATList) : RArg → ATList
  | .bind k => if r.entries.length > 0 then r else atsText r (BindKeyword.string k)
  | .target k => if r.entries.length > 0 then r else atsText r (TargetKeyword.string k)
  | .str s => atsText r s
  | .other => r

/-- `AttributeTypes.Keyword`, /repo/attr.go:679-685, of an initialized list. -/
def atsKeyword (r : ATList) : TargetKeyword := Reports.kindKeyword r.cat

end Verif.Reset
