import Verif.Model.BindText
import Verif.Spec.Bind

/-!
# What the texts of bind rules show
-/

namespace Verif.Bind
open Verif Verif.Spec Verif.Rules

mutual

/-- The context can be printed: all rules are complete, no stack is empty, and every NOT
stack negates one entry. -/
def BCtx.Sound : BCtx → Prop
  | .rule r => r.valid = true
  | .zero => False
  | .rules w _ es => es ≠ [] ∧ (w = .not → es.length = 1) ∧ BCtx.AllSound es

def BCtx.AllSound : List BCtx → Prop
  | [] => True
  | e :: es => BCtx.Sound e ∧ BCtx.AllSound es

end

/-- Keyword and operator are real ones, every value of the rule is between quotation marks,
alone or with the others, and has no such mark itself. -/
def Shown (val : BExpr → List Str) (r : BRule) : Prop :=
  (∃ k : BKw, r.core.kw = k.name) ∧ Cop.valid r.core.op = true ∧
    val r.ex ≠ [] ∧ (∀ v ∈ val r.ex, (34 : Byte) ∉ v) ∧ (r.outer = !r.slice)

/-- How loosely the parts of the text of a context are held together: 0 for a rule, for what is
in parentheses or negated, and for what is empty, 1 for a conjunction, and 2 for a disjunction.
Only several entries make a conjunction or disjunction. -/
def BCtx.loose : BCtx → Nat
  | .rule _ => 0
  | .zero => 0
  | .rules .not _ _ => 0
  | .rules _ true _ => 0
  | .rules _ false [] => 0
  | .rules _ false [e] => e.loose
  | .rules .and false (_ :: _ :: _) => 1
  | .rules .or false (_ :: _ :: _) => 2

mutual

/-- NOT binds more tightly than AND, and AND more tightly than OR, unless there are parentheses: no
disjunction without parentheses is an entry of a conjunction, and neither of them is negated. -/
def BCtx.Clear : BCtx → Prop
  | .rule _ => True
  | .zero => True
  | .rules .not p es => (p = true ∨ ∀ e ∈ es, e.loose = 0) ∧ BCtx.AllClear es
  | .rules .and _ es => (2 ≤ es.length → ∀ e ∈ es, e.loose ≤ 1) ∧ BCtx.AllClear es
  | .rules .or _ es => BCtx.AllClear es

def BCtx.AllClear : List BCtx → Prop
  | [] => True
  | e :: es => BCtx.Clear e ∧ BCtx.AllClear es

end

/-- What a rule asks: its keyword, its operator, and the texts that stand between quotation
marks, which are the values one by one, or all values as one text with bars between them. -/
def BRule.asks (val : BExpr → List Str) (r : BRule) : Str × Cop × List Str :=
  (r.core.kw, r.core.op, if r.slice then val r.ex else [Str.join b!" || " (val r.ex)])

/-- Both contexts hold under the same circumstances, when a rule is true or false by what it
asks. -/
def SameMeaning (val : BExpr → List Str) (c c' : BCtx) : Prop :=
  ∀ (neg : List Bool → Bool) (v : Str × Cop × List Str → Bool),
    c.eval neg (fun r => v (r.asks val)) = c'.eval neg (fun r => v (r.asks val))

end Verif.Bind
