import Verif.Spec.BindText
import Verif.Spec.Values

/-!
# What a parser returns, as it stands in the text
-/

namespace Verif.Back
open Verif Verif.Spec Verif.Bind

/-- The condition of a parser as it stands in the text: for the quotation style 0
(`MultivalSliceQuotes`) every value has quotation marks, otherwise all values have them
together. -/
def shownCond (q : BRule) : BRule :=
  match q.ex with
  | .raw style _ => { q with outer := decide (style ≠ 0), slice := decide (style = 0) }
  | _ => q

mutual

/-- The stacks and conditions of a parser as a context. -/
def treeCtx : PTree → BCtx
  | .cond q => .rule (shownCond q)
  | .stack k p es =>
    match kindOf k with
    | some w => .rules w p (treeCtxs es)
    | none => .zero
  | .other => .zero

def treeCtxs : List PTree → List BCtx
  | [] => []
  | e :: es => treeCtx e :: treeCtxs es

end

/-- The texts of the condition are read as a value that has these texts.  A list of names with one
entry is not in the quotation style 0. -/
def Standard (F : EqualFold) (P : Printing) (q : BRule) : Prop :=
  q.slice = false ∧ ∃ k style vs x, RawBind q k style vs ∧ BindValue F k vs x ∧ x.texts P = vs ∧
    (demandsB k = .names → style = 0 → 2 ≤ vs.length)

/-- No two bars stand side by side. -/
def NoBars (v : Str) : Prop := ∀ a b : Str, v ≠ a ++ b!"||" ++ b

/-- A condition of a parser that splits texts where it should: keyword and operator are real ones,
and the values have neither quotation marks nor double bars.  A single value is not in the
quotation style 0. -/
def FairCond (q : BRule) : Prop :=
  q.core.init = true ∧ (∃ k : BKw, q.core.kw = k.name) ∧ Cop.valid q.core.op = true ∧ q.slice = false ∧
    ∃ style vs, q.ex = .raw style vs ∧ vs ≠ [] ∧ (∀ v ∈ vs, (34 : Byte) ∉ v ∧ NoBars v) ∧
      (vs.length = 1 → style ≠ 0)

/-- The stacks and conditions of a parser for the text `s`: their text is `s`, no stack is empty, a
NOT stack has one entry, and without parentheses NOT binds more tightly than AND, and AND more
tightly than OR; at the top is a stack without parentheses. -/
def Splits (P : Printing) (many : Bool → List Str → Str) (s : Str) (t : PTree) : Prop :=
  (∃ k es, t = .stack k false es) ∧ (treeCtx t).Sound ∧ (treeCtx t).Clear ∧
    (∀ q ∈ t.conds, FairCond q) ∧ (treeCtx t).text (BExpr.texts P) many = s

/-- The rule shows all of it: its value is sound for its keyword, stands between quotation marks,
and has neither these nor double bars within. -/
def Whole (F : EqualFold) (P : Printing) (r : BRule) : Prop :=
  Shown (BExpr.texts P) r ∧ (∃ k : BKw, r.core.kw = k.name ∧ Sound F k r.ex) ∧ ∀ v ∈ r.ex.texts P, NoBars v

end Verif.Back
