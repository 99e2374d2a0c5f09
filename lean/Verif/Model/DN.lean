import Verif.Model.Levels

/-!
# /repo/dn.go: one distinguished name

Lists of distinguished names, which may also hold LDAP URIs, are in
`Verif.Model.DNList`.
-/

namespace Verif.DN
open Verif Verif.Misc
open Verif.Levels (LocalScheme)

/-- `distinguishedName`, /repo/dn.go:123-126.  The keyword is an interface in Go; a
bind DN only ever gets a `BindKeyword`, a target DN only a `TargetKeyword`, both
`uint8`.  `none` in `text` is the nil pointer. -/
structure DName where
  kw : UInt8
  text : Option Str
  deriving DecidableEq

/-- `BindDistinguishedName`, /repo/dn.go:68-70: a pointer. -/
abbrev BindDN := Option DName

/-- `TargetDistinguishedName`, /repo/dn.go:97-99: a pointer. -/
abbrev TargetDN := Option DName

/-- `badBDN`, /repo/dn.go:45. -/
def badBDN : Str := b!"<invalid_bind_distinguished_name>"

/-- `badTDN`, /repo/dn.go:46. -/
def badTDN : Str := b!"<invalid_target_distinguished_name>"

/-- `chopDNPfx`, /repo/dn.go:1702-1707. -/
def chopDNPfx (x : Str) : Str :=
  if Str.hasPrefix x LocalScheme then x.drop LocalScheme.length else x

/-- `newDistinguishedName`, /repo/dn.go:467-477. -/
def newDN (x : Str) (kw : UInt8) : DName :=
  if x.length ≠ 0 then ⟨kw, some (chopDNPfx x)⟩ else ⟨kw, none⟩

/-- `distinguishedName.isZero`, /repo/dn.go:387-392, which `IsZero` and `Valid` of both
kinds of name call (/repo/dn.go:133-171, 300-310). -/
def isZero : Option DName → Bool
  | none => true
  | some d => d.text.isNone

/-- The body of both `String` methods, /repo/dn.go:243-249, 276-282. -/
def stringWith (bad : Str) : Option DName → Str
  | none => bad
  | some d =>
    match d.text with
    | none => bad
    | some t => LocalScheme ++ t

/-- `BindDistinguishedName.String`, /repo/dn.go:243-249. -/
def BindDN.string (r : BindDN) : Str := stringWith badBDN r

/-- `TargetDistinguishedName.String`, /repo/dn.go:276-282. -/
def TargetDN.string (r : TargetDN) : Str := stringWith badTDN r

/-- `BindDistinguishedName.Keyword` and `TargetDistinguishedName.Keyword`,
/repo/dn.go:176-191; `none` is nil. -/
def keyword : Option DName → Option UInt8
  | none => none
  | some d => if d.text.isNone then none else some d.kw

/-- `UDN`, `RDN`, `GDN`, /repo/dn.go:415-435. -/
def UDN (x : Str) : BindDN := some (newDN x BindUDN)
def RDN (x : Str) : BindDN := some (newDN x BindRDN)
def GDN (x : Str) : BindDN := some (newDN x BindGDN)

/-- `TDN`, `TTDN`, `TFDN`, /repo/dn.go:442-462. -/
def TDN (x : Str) : TargetDN := some (newDN x Target)
def TTDN (x : Str) : TargetDN := some (newDN x TargetTo)
def TFDN (x : Str) : TargetDN := some (newDN x TargetFrom)

/-- `distinguishedName.set`, /repo/dn.go:400-406. -/
def DName.set (r : DName) (x : Str) (kw : UInt8) : DName :=
  if x.length = 0 then r else newDN x kw

/-- The keyword chosen by `BindDistinguishedName.Set`, /repo/dn.go:326-336. -/
def bindSetKey : List BindKeyword → BindKeyword
  | [] => BindUDN
  | k :: _ => if k = BindGDN ∨ k = BindRDN then k else BindUDN

/-- The keyword chosen by `TargetDistinguishedName.Set`, /repo/dn.go:362-372. -/
def targetSetKey : List TargetKeyword → TargetKeyword
  | [] => Target
  | k :: _ => if k = TargetTo ∨ k = TargetFrom then k else Target

/-- The last lines of both `Set` methods, /repo/dn.go:338-345, 374-381. -/
def setWith (r : Option DName) (x : Str) (key : UInt8) : Option DName :=
  match isZero r, r with
  | false, some d => some (d.set x key)
  | _, _ => some ((newDN x key).set x key)

/-- `BindDistinguishedName.Set`, /repo/dn.go:322-346. -/
def BindDN.set (r : BindDN) (x : Str) (kw : List BindKeyword) : BindDN :=
  setWith r x (bindSetKey kw)

/-- `TargetDistinguishedName.Set`, /repo/dn.go:358-382. -/
def TargetDN.set (r : TargetDN) (x : Str) (kw : List TargetKeyword) : TargetDN :=
  setWith r x (targetSetKey kw)

/-- The four aliases of /repo/dn.go:1724-1729, as `isDNAlias` prints them. -/
def aliases : List BindDN := [UDN b!"all", UDN b!"anyone", UDN b!"self", UDN b!"parent"]

/-- `isDNAlias`, /repo/dn.go:1709-1719. -/
def isDNAlias (x : Str) : Bool := aliases.any fun d => Str.eqFold x (BindDN.string d)

/-- `isInvalidDNSyntax`, /repo/dn.go:931-933. -/
def isInvalidDNSyntax (dn : Str) : Bool :=
  dn.length < 3 || !(Str.containsStr dn b!"=" || !isDNAlias dn)

end Verif.DN
