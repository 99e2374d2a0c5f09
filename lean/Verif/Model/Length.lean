import Verif.Model.Builders

/-!
# The `Len` methods of single values

Those of sets and lists are with their types: `Time.len`, `Levels.len`, `Net.IPAddr.len`,
`Net.FQDN.Len`, `Builders.methodsLen`.
-/

namespace Verif.Length
open Verif Verif.Attr Verif.DN

/-- `AttributeType.Len`, /repo/attr.go:444-449, with `Valid`, /repo/attr.go:454-460. -/
def lenAT (r : AttributeType) : Nat := if AttributeType.isZero r then 0 else 1

/-- `BindDistinguishedName.Len` and `TargetDistinguishedName.Len`, /repo/dn.go:261-266 and
289-294, with `Valid`, /repo/dn.go:133-154. -/
def lenDN (r : Option DName) : Nat := if DN.isZero r then 0 else 1

/-- `ObjectIdentifier.Len`, /repo/oid.go:69-74, with `Valid`, /repo/oid.go:154-174, whose
further tests are met by every value that is not zero. -/
def lenOID (r : Oid.ObjectIdentifier) : Nat := if Oid.isZero r then 0 else 1

/-- `LDAPURI.Len`, /repo/uri.go:78-80. -/
def lenURI (_r : Uri.LDAPURI) : Nat := 0

end Verif.Length
