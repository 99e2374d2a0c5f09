import Verif.Model.PB
import Verif.Spec.Lists

/-!
# Permission bind rules
-/

namespace Verif.PB
open Verif Verif.Bind Verif.Spec

/-- The rule has a permission and a bind context. -/
def Complete (r : PBRule) : Prop := ∃ c b, r = some ⟨some c, some b⟩

/-- The texts of the rules are the same up to letter case. -/
def sameText (w : World) (a b : PBRule) : Bool := w.env.eq (string w a) (string w b)

/-- The argument stands for the complete rule. -/
def Offers (rd : Str → Option Store) (x : PArg) (r : PBRule) : Prop :=
  Complete r ∧ (x = .rule r ∨ ∃ s st, x = .str s ∧ rd s = some st ∧ r = some st)

/-- The argument is a text that cannot be read. -/
def Unreadable (rd : Str → Option Store) (x : PArg) : Prop := ∃ s, x = .str s ∧ rd s = none

/-- A call that changes a list. -/
inductive PCall where
  | push (xs : List PArg)
  | pop

def PCall.run (w : World) (rd : Str → Option Store) (es : List PBRule) : PCall → List PBRule
  | .push xs => PB.push w rd es xs
  | .pop => (PB.pop es).1

/-- The bind context can be used: it is valid, and if it is a list, it is not empty. -/
def Meaningful : BCtx → Prop
  | .rule r => r.valid = true
  | .zero => False
  | .rules _ _ es => es ≠ []

/-! ## Set -/

/-- The permission an argument of `Set` gives. -/
def SetArg.perm? (rd : Str → Option Store) : SetArg → Option Rights.Permission
  | .str s => (rd s).map (·.p)
  | .perm p => some p
  | _ => none

/-- The bind context an argument of `Set` gives. -/
def SetArg.ctx? (rd : Str → Option Store) : SetArg → Option (Option BCtx)
  | .str s => (rd s).map (·.b)
  | .ctx b => some (some b)
  | _ => none

/-- The argument of `Set` is refused: a text that cannot be read, an invalid permission,
or an invalid bind context. -/
def Refused (rd : Str → Option Store) : SetArg → Prop
  | .str s => rd s = none
  | .perm p => p = none
  | .ctx (.rule r) => r.valid = false
  | .ctx .zero => True
  | .ctx (.rules _ _ _) => False
  | .other => False

/-- The arguments in front of the first refused one. -/
inductive Front (rd : Str → Option Store) : List SetArg → List SetArg → Prop where
  | nil : Front rd [] []
  | stop {x : SetArg} {xs : List SetArg} : Refused rd x → Front rd (x :: xs) []
  | cons {x : SetArg} {xs ys : List SetArg} : ¬ Refused rd x → Front rd xs ys → Front rd (x :: xs) (x :: ys)

/-- The arguments in front of the first refused one of each call. -/
inductive Fronts (rd : Str → Option Store) : List (List SetArg) → List SetArg → Prop where
  | nil : Fronts rd [] []
  | cons {c : List SetArg} {cs : List (List SetArg)} {xs ys : List SetArg} : Front rd c xs → Fronts rd cs ys →
      Fronts rd (c :: cs) (xs ++ ys)

/-- The last value given, if any. -/
def lastOf {α β : Type} (f : α → Option β) (xs : List α) : Option β := (xs.filterMap f).getLast?

end Verif.PB
