import Verif.Model.Uri

/-!
# The parts given to a URI
-/

namespace Verif.Uri
open Verif Verif.Attr Verif.DN Verif.Filter

def nameOf : Part → Option BindDN
  | .dn d => some d
  | _ => none

def scopeOf : Part → Option SearchScope
  | .scope s => some s
  | _ => none

def pairOf : Part → Option ABTV
  | .avbt a => some a
  | _ => none

def filterOf : Part → Option SearchFilter
  | .filter f => some f
  | _ => none

def listOf : Part → Option ATs
  | .attrs a => some a
  | _ => none

/-- The one given last, or what was there before. -/
def lastOr {α : Type} (old : α) (given : List α) : α := given.getLast?.getD old

/-- No kind of part is given twice. -/
def OneOfEach (ps : List Part) : Prop :=
  (ps.filterMap nameOf).length ≤ 1 ∧ (ps.filterMap scopeOf).length ≤ 1 ∧ (ps.filterMap pairOf).length ≤ 1 ∧
  (ps.filterMap filterOf).length ≤ 1 ∧ (ps.filterMap listOf).length ≤ 1

/-- The keyword documented for the rule of a URI, /repo/uri.go:199-203: `userattr` if a pair is set,
otherwise the keyword of the name. -/
def Documented (u : Uri) (k : BindKeyword) : Prop :=
  (u.avbt.isZero = false ∧ k = BindUAT) ∨
  (u.avbt.isZero = true ∧ ∃ t, u.dn = some ⟨k, t⟩)

/-- A pair with an attribute or with something to compare it with. -/
def HasPart (a : ABTV) : Prop := ∃ c, a.cell = some c ∧ (c.at_ ≠ none ∨ c.v ≠ .nil)

end Verif.Uri
