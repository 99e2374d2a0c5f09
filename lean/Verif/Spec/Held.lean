import Verif.Model.Held
import Verif.Spec.Target

/-!
# What a list of target rules in memory must keep to
-/

namespace Verif.Held
open Verif Verif.Rules Verif.Spec

/-- Entry number `i` of the list at `a` is the rule at `x`. -/
def Entry (m : Mem) (a i x : Nat) : Prop := ∃ es, m.lists[a]? = some es ∧ es[i]? = some x

/-- The rule at `x` is initialized and its keyword is `k`. -/
def Is (m : Mem) (x : Nat) (k : TKw) : Prop := ∃ r, m.rules[x]? = some r ∧ Has r k

/-- The list at `a` has at most nine entries, and their keywords are known and different. -/
structure Keeps (m : Mem) (a : Nat) : Prop where
  short : ∀ i x, Entry m a i x → i < 9
  known : ∀ i x, Entry m a i x → ∃ k, Is m x k
  distinct : ∀ i j x y k, i < j → Entry m a i x → Entry m a j y → Is m x k → ¬ Is m y k

/-- The argument of `SetKeyword` names the keyword `k`. -/
def Names : KwArg → TKw → Prop
  | .str s, k => Str.eqFold s k.name = true
  | .target c, k => TargetKeyword.string c = k.name
  | _, _ => False

/-- The statement gives no rule in a list a keyword that is unknown or that another rule of
the list has. -/
def Careful (m : Mem) : Stmt → Prop
  | .keyword v kw => kw = .other ∨ ∀ x a i, m.rvar v = some x → Entry m a i x →
      ∃ k, Names kw k ∧ ∀ j y, Entry m a j y → y ≠ x → ¬ Is m y k
  | _ => True

/-- So does every statement of a program, when its turn comes. -/
def CarefulRun (o : Outside) (m : Mem) : List Stmt → Prop
  | [] => True
  | s :: p => Careful m s ∧ CarefulRun o (m.exec o s) p

/-- The variable whose list a statement may change. -/
def Stmt.onList : Stmt → Option Nat
  | .push l _ => some l
  | .pop _ l => some l
  | _ => none

/-- The variable whose rule a statement may change. -/
def Stmt.onRule : Stmt → Option Nat
  | .keyword v _ => some v
  | .operator v _ => some v
  | .expression v _ => some v
  | .quote v _ => some v
  | _ => none

end Verif.Held
