import Verif.Model.DN
import Verif.Model.Scope

/-!
# /repo/uri.go, `parseLDAPURI` of /repo/parse.go and `SearchFilter` of /repo/filter.go

Simplification: Go shares the attribute list between copies of one URI; here a URI
is a value.
-/

namespace Verif.Filter
open Verif

/-- `SearchFilter`, /repo/filter.go:18-27: a pointer to a string. -/
abbrev SearchFilter := Option Str

/-- `SearchFilter.IsZero`, /repo/filter.go:32-37. -/
def SearchFilter.isZero : SearchFilter → Bool
  | none => true
  | some s => s.length == 0

/-- `SearchFilter.String`, /repo/filter.go:119-125. -/
def SearchFilter.string : SearchFilter → Str
  | none => []
  | some s => s

/-- `Filter` with one argument, /repo/filter.go:88-94 and 152-157. -/
def mkFilter (x : Str) : SearchFilter := some x

/-- `SearchFilter.Set`, /repo/filter.go:140-157: an empty text changes nothing. -/
def SearchFilter.set (r : SearchFilter) (x : Str) : SearchFilter :=
  if x.length = 0 then some (SearchFilter.string r) else some x

end Verif.Filter

namespace Verif.Uri
open Verif Verif.Misc Verif.Attr Verif.DN Verif.Filter
open Verif.Levels (LocalScheme)

/-- `ldapURI`, /repo/uri.go:30-36. -/
structure Uri where
  dn : BindDN
  scope : SearchScope
  avbt : ABTV
  attrs : ATs
  filter : SearchFilter

/-- `LDAPURI`, /repo/uri.go:22-24: a pointer. -/
abbrev LDAPURI := Option Uri

/-- `UAs()`, /repo/attr.go:815-826. -/
def UAs : ATs := ⟨[], []⟩

/-- `newLDAPURI()` with no arguments, /repo/uri.go:66-71. -/
def newURI : Uri := ⟨none, SearchScope.noScope, ABTV.zero, UAs, none⟩

/-- `badURI`, /repo/uri.go:10. -/
def badURI : Str := b!"<invalid_ldap_uri>"

/-- A typed argument of `ldapURI.set`, of type `any`. -/
inductive Part where
  | dn (d : BindDN)
  | scope (s : SearchScope)
  | avbt (a : ABTV)
  | filter (f : SearchFilter)
  | attrs (a : ATs)
  | other

/-- `AttributeTypes.transfer`, /repo/attr.go:690-694: `stackage.Stack.Transfer` pushes
every entry into the destination (contract). -/
def transfer (eq : Str → Str → Bool) (src dest : ATs) : ATs :=
  ATs.push eq dest (src.entries.map PushArg.at_)

/-- One round of `ldapURI.set` for an argument that is no string, /repo/uri.go:453-473. -/
def Uri.set1 (eq : Str → Str → Bool) (r : Uri) : Part → Uri
  | .dn d => { r with dn := d }
  | .scope s => { r with scope := s }
  | .avbt a => { r with avbt := a }
  | .filter f => { r with filter := f }
  | .attrs a => { r with attrs := transfer eq a r.attrs }
  | .other => r

/-- The keyword handed to `parseATBTV` by `uriAssertATB`, /repo/uri.go:158-163. -/
def atbKey : List BindKeyword → BindKeyword
  | [] => BindUAT
  | k :: _ => if k = BindGAT then BindGAT else BindUAT

/-- The list made by `uriAssertATB`, /repo/uri.go:177-184. -/
def atbList (eq : Str → Str → Bool) (raw : Str) : ATs :=
  ATs.push eq UAs ((Str.split1 44 (Str.dropSpaces raw)).map fun a => PushArg.at_ (AT a))

/-- `ldapURI.uriAssertATB`, /repo/uri.go:141-191. -/
def uriAssertATB (eq : Str → Str → Bool) (r : Uri) (raw : Str) (bkw : List BindKeyword) :
    Except Unit Uri :=
  if raw.length = 0 then .ok r
  else if Str.containsStr raw b!"#" then
    match parseATBTV raw [some (atbKey bkw)] with
    | .error _ => .error ()
    | .ok abv => .ok (r.set1 eq (.avbt abv))
  else .ok (r.set1 eq (.attrs (atbList eq raw)))

/-- Case 2 of `assertURIComponents`, /repo/uri.go:119-122. -/
def setScope (eq : Str → Str → Bool) (r : Uri) (v : Str) : Uri :=
  if v.length > 0 then r.set1 eq (.scope (SearchScope.strToScope v)) else r

/-- `ldapURI.assertURIComponents`, /repo/uri.go:85-131.  Fields after the fourth are
looked at by no case. -/
def assertURIComponents (eq : Str → Str → Bool) (r : Uri) (vals : List Str)
    (kw : List BindKeyword) : Except Unit Uri :=
  match vals with
  | [] => .ok r
  | [d] => .ok (r.set1 eq (.dn (UDN d)))
  | [d, a] => uriAssertATB eq (r.set1 eq (.dn (UDN d))) a kw
  | [d, a, s] => (uriAssertATB eq (r.set1 eq (.dn (UDN d))) a kw).map fun r => setScope eq r s
  | d :: a :: s :: f :: _ =>
    (uriAssertATB eq (r.set1 eq (.dn (UDN d))) a kw).map fun r =>
      (setScope eq r s).set1 eq (.filter (mkFilter f))

/-- `parseLDAPURI`, /repo/parse.go:1048-1073, and `LDAPURI.Parse`,
/repo/parse.go:1033-1041. -/
def parseLDAPURI (eq : Str → Str → Bool) (x : Str) (bkw : List BindKeyword) :
    Except Unit Uri :=
  if !Str.hasPrefix x LocalScheme then .error ()
  else assertURIComponents eq newURI (Str.split1 63 (x.drop LocalScheme.length)) bkw

/-- An argument of `ldapURI.set`. -/
inductive Arg where
  | str (s : Str)
  | part (p : Part)

/-- `ldapURI.set`, /repo/uri.go:439-477. -/
def Uri.set (eq : Str → Str → Bool) (r : Uri) : List Arg → Uri
  | [] => r
  | .part p :: xs => Uri.set eq (r.set1 eq p) xs
  | .str s :: xs =>
    match parseLDAPURI eq s [] with
    | .ok l => l
    | .error _ => Uri.set eq r xs

/-- `URI`, /repo/uri.go:59-71. -/
def mkURI (eq : Str → Str → Bool) (x : List Arg) : LDAPURI := some (newURI.set eq x)

/-- `LDAPURI.Set`, /repo/uri.go:426-434. -/
def LDAPURI.set (eq : Str → Str → Bool) (r : LDAPURI) (x : List Arg) : LDAPURI :=
  match r with
  | none => mkURI eq x
  | some u => some (u.set eq x)

/-- Text of the attribute list made by `UAs`, /repo/attr.go:815-826 (contract of
go-stackage: entries joined by commas; `AttributeTypes.IsZero` is false for an
initialized stack). -/
def attrsText (a : ATs) : Str := Str.join b!"," (a.entries.map AttributeType.string)

/-- `ldapURI.valid` (true: nil error), /repo/uri.go:402-404. -/
def Uri.valid (r : Uri) : Bool := !DN.isZero r.dn

/-- `ldapURI.string`, /repo/uri.go:360-385.  A panic while the attribute pair is
printed is caught by `fmt`. -/
def Uri.string (r : Uri) : Str :=
  if !r.valid then badURI
  else if !SearchFilter.isZero r.filter then
    BindDN.string r.dn ++ (b!"?" ++ attrsText r.attrs
      ++ (b!"?" ++ r.scope.standard ++ b!"?" ++ SearchFilter.string r.filter))
  else if !r.avbt.isZero then
    BindDN.string r.dn ++ (b!"?" ++ (r.avbt.string).getD Levels.fmtPanic)
  else BindDN.string r.dn ++ b!"??" ++ r.scope.standard ++ b!"?"

/-- `LDAPURI.String`, /repo/uri.go:307-313. -/
def LDAPURI.string : LDAPURI → Str
  | none => []
  | some u => u.string

/-- `LDAPURI.Valid` (true: nil error), /repo/uri.go:390-395. -/
def LDAPURI.valid : LDAPURI → Bool
  | none => false
  | some u => u.valid

/-- `LDAPURI.Keyword`, /repo/uri.go:326-344; `none` is nil.  The method `isZero` called at line 331
is the one of the pointer in the pair, /repo/attr.go:200-205, and not `IsZero` of the pair. -/
def Uri.keyword (u : Uri) : Option BindKeyword :=
  if !u.valid then none
  else if !cellIsZero u.avbt.cell then
    (if u.avbt.kw = BindUAT ∨ u.avbt.kw = BindGAT then some u.avbt.kw else none)
  else match DN.keyword u.dn with
    | none => none
    | some k => if k = BindGDN ∨ k = BindRDN ∨ k = BindUDN then some k else none

/-- The bind keyword chosen by `makeBindRule`, /repo/uri.go:267-284. -/
def Uri.ruleKeyword (u : Uri) : BindKeyword :=
  if !u.avbt.isZero && u.avbt.kw == BindUAT then BindUAT
  else match u.dn with
    | some d => if d.kw = BindGDN then BindGDN else BindUDN
    | none => BindUDN

end Verif.Uri
