import Verif.Model.Valid
import Verif.Model.Ins

/-!
# The `IsZero` methods that are not with their types
-/

namespace Verif.Unset
open Verif

/-- `IPAddr.IsZero`, /repo/net.go:188-194 and 211-213. -/
def addresses (r : Net.IPAddr) : Bool := if r.isNone then true else r.isNone

/-- `FQDN.IsZero`, /repo/net.go:446-452. -/
def host (r : Net.FQDN) : Bool := r.isNone

/-- `LDAPURI.IsZero`, /repo/uri.go:293-302. -/
def uri (r : Uri.LDAPURI) : Bool := r.isNone

/-- `Instruction.IsZero`, /repo/ins.go:281-287. -/
def instruction (r : Ins.Instruction) : Bool := r.isNone

end Verif.Unset
