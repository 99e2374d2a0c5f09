import Verif.Model.Compare
import Verif.Model.Ins

/-!
# The `Compare` methods of rules

As in `Verif.Model.Compare`.  A rule that is not initialized is a zero value of its type; the
lists are initialized.
-/

namespace Verif.Compare
open Verif Verif.Misc

/-- What reflection (/repo/misc.go:306) takes for a zero value: a stack or a condition with a nil pointer. -/
def zeroCtx : Bind.BCtx → Bool
  | .zero => true
  | .rule r => r.isZero
  | .rules _ _ _ => false

/-- `BindRule.Compare`, /repo/bind.go:260-262, and `BindRules.Compare`, /repo/bind.go:399-401. -/
def bindContext (w : PB.World) (sha : Str → Str) (r x : Bind.BCtx) : Bool :=
  compareHashInstance sha (seen (zeroCtx r) (w.text r)) (seen (zeroCtx x) (w.text x))

/-- `PermissionBindRule.Compare`, /repo/pb.go:162-164. -/
def permissionBindRule (w : PB.World) (sha : Str → Str) (r x : PB.PBRule) : Bool :=
  compareHashInstance sha (seen r.isNone (PB.string w r)) (seen x.isNone (PB.string w x))

/-- `PermissionBindRules.Compare`, /repo/pb.go:233-235. -/
def permissionBindRules (w : PB.World) (sha : Str → Str) (r x : List PB.PBRule) : Bool :=
  compareHashInstance sha (seen false (PB.listString w r)) (seen false (PB.listString w x))

/-- `TargetRule.Compare`, /repo/target.go:278-280. -/
def targetRule (sha : Str → Str) (r x : Rules.TRule) : Bool :=
  compareHashInstance sha (seen r.isZero r.string) (seen x.isZero x.string)

/-- `TargetRules.Compare`, /repo/target.go:495-497. -/
def targetRules (sha : Str → Str) (r x : List Rules.TRule) : Bool :=
  compareHashInstance sha (seen false (Rules.TRs.string r)) (seen false (Rules.TRs.string x))

end Verif.Compare
