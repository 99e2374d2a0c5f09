import Verif.Model.Filter
import Verif.Model.Stack

/-!
# /repo/filter.go: more of the lists of attribute filter operations
-/

namespace Verif.Filter
open Verif Verif.Misc Verif.Attr

/-- `AttributeFilterOperations.contains`, /repo/filter.go:428-454, and `Contains`,
/repo/filter.go:419-421. -/
def AFOs.contains (es : List AFO) : AFOsArg → Bool
  | .str s => containsText (es.map AFO.string) s
  | .afo a => containsText (es.map AFO.string) a.string
  | .other => false

/-- `AttributeFilterOperations.pushPolicy`, /repo/filter.go:621-647: texts are not parsed
here; an initialized operation is valid. -/
def acceptAFO (es : List AFO) (x : AFOsArg) : Option AFO :=
  if AFOs.contains es x then none
  else match x with
    | .afo a => if a.entries.length > 0 then some a else none
    | _ => none

/-- `AFOs` with any arguments, /repo/filter.go:360-390: they go to the stack directly. -/
def makeAFOs (stop : Bool) (xs : List AFOsArg) : AFOs := ⟨44, stackPush stop acceptAFO [] xs⟩

/-- `AttributeFilterOperations.Pop`, /repo/filter.go:527-534: the list and what is returned; none
is the operation that is not initialized. -/
def AFOs.pop (r : AFOs) : AFOs × Option AFO := ({ r with entries := r.entries.dropLast }, r.entries.getLast?)

end Verif.Filter
