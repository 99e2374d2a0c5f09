import Verif.Model.Nest

/-!
# What nesting of stacks means
-/

namespace Verif.Nest
open Verif Verif.Bind

/-- `String` ends, however many calls it takes, and gives this text. -/
def Prints (P : Printer) (m : Mem) (e : Ent) (t : Str) : Prop :=
  ∃ n, textIn P m.heap n e = some t

/-- A context stands for this tree. -/
def Stands (m : Mem) (e : Ent) (c : BCtx) : Prop := ∃ n, treeIn m.heap n e = some c

/-- The stack at `a` has the stack at `b` among its entries. -/
def Entry (m : Mem) (a b : Nat) : Prop := ∃ c, m.heap[a]? = some c ∧ Ent.stack b ∈ c.es

/-- The stack at `b` is nested within that at `a`, at any depth. -/
inductive Within (m : Mem) : Nat → Nat → Prop where
  | here {a b : Nat} : Entry m a b → Within m a b
  | there {a b c : Nat} : Entry m a b → Within m b c → Within m a c

/-- The context is the stack at `a`, or a stack this one is nested within. -/
def Contains (m : Mem) (e : Ent) (a : Nat) : Prop :=
  ∃ b, e = .stack b ∧ (b = a ∨ Within m b a)

/-- The statement puts into a stack nothing that contains this stack. -/
def Careful (m : Mem) : Stmt → Prop
  | .push v xs => ∀ a, m.vars v = some (.stack a) → ∀ x e, some x ∈ xs → m.vars x = some e →
      ¬ Contains m e a
  | .replace v x _ => ∀ a, m.vars v = some (.stack a) → ∀ e, m.vars x = some e → ¬ Contains m e a
  | _ => True

/-- So does every statement of a program, when its turn comes. -/
def CarefulRun (o : Outside) (m : Mem) : List Stmt → Prop
  | [] => True
  | s :: p => Careful m s ∧ CarefulRun o (m.exec o s) p

/-- The variable whose stack a statement may change. -/
def Stmt.target : Stmt → Option Nat
  | .push v _ => some v
  | .pop _ v => some v
  | .replace v _ _ => some v
  | .paren v _ => some v
  | _ => none

/-- The variable a statement assigns to. -/
def Stmt.assigned : Stmt → Option Nat
  | .rule v _ => some v
  | .zero v => some v
  | .make v _ _ => some v
  | .copy w _ => some w
  | .pop w _ => some w
  | .index w _ _ => some w
  | _ => none

end Verif.Nest
