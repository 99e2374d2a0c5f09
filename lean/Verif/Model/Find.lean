import Verif.Model.DNList
import Verif.Model.Oid
import Verif.Model.Ops
import Verif.Model.Ins

/-!
# The methods by which lists show their entries

go-stackage: `Len` is the number of the entries and `Index` of a number from zero to `Len` minus
one is the entry at this place.  What `Index` gives for another number is not known from the
repository, so it is a parameter `far` (none: no value).
-/

namespace Verif.Find
open Verif Verif.Attr Verif.DN Verif.DNList Verif.Oid Verif.Filter Verif.Rules Verif.PB Verif.Ins

/-- `stackage.Stack.Index` (contract). -/
def stackIndex {α : Type} (far : List α → Int → Option α) (es : List α) (i : Int) : Option α :=
  if 0 ≤ i ∧ i < es.length then es[i.toNat]? else far es i

/-- `AttributeTypes.Index`, /repo/attr.go:634-641. -/
def indexAT (far : List AttributeType → Int → Option AttributeType) (es : List AttributeType) (i : Int) :
    AttributeType := (stackIndex far es i).getD none

/-- `BindDistinguishedNames.Index`, /repo/dn.go:993-1008. -/
def indexB (far : List BEntry → Int → Option BEntry) (es : List BEntry) (i : Int) : BEntry :=
  match stackIndex far es i with
  | some (.dn d) => .dn d
  | some (.uri u) => .uri u
  | none => .dn none

/-- `TargetDistinguishedNames.Index`, /repo/dn.go:1013-1021. -/
def indexT (far : List TargetDN → Int → Option TargetDN) (es : List TargetDN) (i : Int) : TargetDN :=
  (stackIndex far es i).getD none

/-- `ObjectIdentifiers.Index`, /repo/oid.go:287-293: an entry that is no identifier gives the zero
one. -/
def indexO (far : List Entry → Int → Option Entry) (es : List Entry) (i : Int) : ObjectIdentifier :=
  match stackIndex far es i with
  | some e => e.asOid
  | none => none

/-- `AttributeFilterOperation.Index`, /repo/filter.go:763-769. -/
def indexF (far : List AttributeFilter → Int → Option AttributeFilter) (es : List AttributeFilter) (i : Int) :
    AttributeFilter := (stackIndex far es i).getD none

/-- `AttributeFilterOperations.Index`, /repo/filter.go:546-553; none is the operation that is not
initialized. -/
def indexA (far : List AFO → Int → Option AFO) (es : List AFO) (i : Int) : Option AFO := stackIndex far es i

/-- `TargetRules.Index`, /repo/target.go:625-629. -/
def indexR (far : List TRule → Int → Option TRule) (es : List TRule) (i : Int) : TRule :=
  (stackIndex far es i).getD badTargetRule

/-- `PermissionBindRules.Index`, /repo/pb.go:212-219. -/
def indexP (far : List PBRule → Int → Option PBRule) (es : List PBRule) (i : Int) : PBRule :=
  (stackIndex far es i).getD none

/-- `Instructions.Index`, /repo/ins.go:228-235. -/
def indexI (far : List Instruction → Int → Option Instruction) (es : List Instruction) (i : Int) :
    Instruction := (stackIndex far es i).getD none

/-- What `AttributeTypes.Pop` returns, /repo/attr.go:699-706. -/
def popAT (es : List AttributeType) : AttributeType := es.getLast?.getD none

/-- `Len` of all nine types: /repo/attr.go:627-629, /repo/dn.go:979-988, /repo/oid.go:280-282,
/repo/filter.go:539-541 and 756-758, /repo/target.go:591-593, /repo/pb.go:198-200 and
/repo/ins.go:100-102. -/
def len {α : Type} (es : List α) : Nat := es.length

end Verif.Find
