import Verif.Model.Uri
import Verif.Model.Filter
import Verif.Model.Oid
import Verif.Model.Sec
import Verif.Model.Net
import Verif.Model.Levels

/-!
# The `Valid` methods that are not with their types (true: nil error)
-/

namespace Verif.Valid
open Verif

/-- `AttributeType.Valid`, /repo/attr.go:454-460. -/
def attrType (r : Attr.AttributeType) : Bool := if Attr.AttributeType.isZero r then false else true

/-- `AttributeBindTypeOrValue.Valid`, /repo/attr.go:303-310. -/
def pair (r : Attr.ABTV) : Bool := if !r.isZero then true else false

/-- `validDistinguishedName`, /repo/dn.go:158-171, for `Valid` of both kinds of name,
/repo/dn.go:133-135 and 154-156. -/
def name (r : Option DN.DName) : Bool := if DN.isZero r then false else true

/-- `SearchFilter.Valid`, /repo/filter.go:48-55. -/
def filter (r : Filter.SearchFilter) : Bool := if Filter.SearchFilter.isZero r then false else true

/-- `ObjectIdentifier.Valid`, /repo/oid.go:154-174. -/
def oid (r : Oid.ObjectIdentifier) : Bool := if Oid.isZero r then false else true

/-- `SecurityStrengthFactor.Valid`, /repo/sec.go:227. -/
def factor (_r : Sec.SecurityStrengthFactor) : Bool := true

end Verif.Valid
