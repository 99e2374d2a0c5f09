import Verif.Model.Rights

/-!
# Filling one map from another
-/

namespace Verif.Rights

/-- Lookup in `rightsNames` after the loop of /repo/rights.go:321-324 has walked `rightsMap` in the
order of the list: a later entry of the same name replaces an earlier one. -/
def rightsNamesOn (m : List (Right × Str)) (s : Str) : Option Right :=
  m.foldl (fun r e => if e.2 = s then some e.1 else r) none

end Verif.Rights
