import Verif.Props.Rights

/-!
# Outputs in /repo/rights_test.go

The values here are the ones the tests of the repository expect.  They check the reading of the
code; no theorem uses them.
-/

namespace Verif.Samples.Rights
open Verif Verif.Rights

abbrev S : Shifty 16 := .anyRef 16

/-! /repo/rights_test.go:8-58 -/
example : string S (Allow S [.right ReadAccess, .right CompareAccess]) = b!"allow(read,compare)" := by decide +kernel
example : string S (Allow S [.right ReadAccess, .right CompareAccess, .right SearchAccess, .right ImportAccess,
    .right ExportAccess, .right SelfWriteAccess, .right DeleteAccess, .right AddAccess, .right WriteAccess]) =
    b!"allow(all)" := by decide +kernel
example : string S (Allow S [.right ReadAccess, .right CompareAccess, .right SearchAccess]) =
    b!"allow(read,search,compare)" := by decide +kernel
example : string S (Deny S [.right AllAccess]) = b!"deny(all)" := by decide +kernel

/-! /repo/rights_test.go:60-93 -/
example : [NoAccess, ReadAccess, WriteAccess, AddAccess, DeleteAccess, SearchAccess, CompareAccess, SelfWriteAccess,
    ProxyAccess, ImportAccess, ExportAccess, AllAccess].map (fun r => (r.string, r.toNat)) =
    [(b!"none", 0), (b!"read", 1), (b!"write", 2), (b!"add", 4), (b!"delete", 8), (b!"search", 16), (b!"compare", 32),
      (b!"selfwrite", 64), (b!"proxy", 128), (b!"import", 256), (b!"export", 512), (b!"all", 895)] := by decide +kernel

/-! /repo/rights_test.go:104-158 -/
example : isZero none = true ∧ valid none = false := by decide +kernel
example : disposition (Allow S [.str b!"read", .str b!"write", .str b!"compare", .str b!"selfwrite"]) = b!"allow" := by
  decide +kernel
example : string S (Allow S [.str b!"read", .str b!"write", .str b!"compare", .str b!"selfwrite"]) =
    b!"allow(read,write,compare,selfwrite)" := by decide +kernel
example : positive S (shift S (Allow S []) [.right ReadAccess, .right ProxyAccess]) (.str b!"proxy") = true := by
  decide +kernel
example : len S (shift S (Deny S []) [.right ReadAccess, .right WriteAccess, .right CompareAccess, .right SearchAccess,
    .right ProxyAccess]) = 5 := by decide +kernel
example : positive S (Deny S [.str b!"read", .str b!"write", .str b!"proxy", .str b!"search"]) (.str b!"read") = true := by
  decide +kernel
example : positive S (unshift S (shift S (Deny S []) [.right ReadAccess, .right WriteAccess, .right CompareAccess,
    .right SearchAccess, .right ProxyAccess]) [.right CompareAccess]) (.str b!"compare") = false := by decide +kernel

/-! /repo/rights_test.go:160-229 -/
example : string S none = b!"<invalid_permission>" ∧
    isZero (shift S (shift S (unshift S none [.str b!"all"]) [.int (-1985)]) [.int 45378297659]) = true := by
  decide +kernel
example : positive S (Allow S [.right NoAccess]) (.int 0) = true ∧
    positive S (Allow S [.right NoAccess]) (.str b!"none") = true ∧
    positive S (Allow S [.right NoAccess]) (.right NoAccess) = true := by decide +kernel
example : ∀ e ∈ rightsMap.tail, ∀ x ∈ [Arg.right e.1, .str e.2],
    (let p := shift S (Allow S [.right NoAccess]) [x]
     positive S p x = true ∧ positive S (unshift S p [x]) x = false) := by decide +kernel

end Verif.Samples.Rights
