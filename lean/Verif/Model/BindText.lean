import Verif.Model.Bind

/-!
# The texts of bind rules

`BindRule.String` and `BindRules.String` wrap methods of go-stackage.  Contract, as shown
by the outputs in /repo/bind_test.go:243-283 and 547-625 and /repo/ins_test.go:167-217: a
condition prints keyword, operator and value, separated by spaces; AND and OR stacks print
the texts of their entries with the word between them; a NOT stack with one entry prints
the word before the entry; parentheses stand around what is within, after the word NOT.
Padding is on and letter case is not folded (`RulePadding` and `StackPadding`, /repo/misc.go:68 and 77).  Nothing is
assumed about NOT stacks with several entries.
-/

namespace Verif.Bind
open Verif Verif.Rules

/-- Parentheses around a text, when they are on. -/
def wrapIf (b : Bool) (s : Str) : Str := if b then b!"( " ++ s ++ b!" )" else s

/-- The text of an initialized rule without its parentheses; `val` are the texts of the
values of an expression. -/
def BRule.bare (val : BExpr → List Str) (r : BRule) : Str :=
  r.core.kw ++ b!" " ++ Cop.string r.core.op ++ b!" "
    ++ quoteIf r.outer (Str.join b!" || " ((val r.ex).map (quoteIf r.slice)))

/-- `BindRule.String`, /repo/bind.go:345-350. -/
def BRule.text (val : BExpr → List Str) (r : BRule) : Str :=
  if r.isZero then [] else wrapIf r.paren (r.bare val)

/-- The text of a stack from those of its entries; `many` is the text of a NOT stack with
several entries. -/
def stackText (many : Bool → List Str → Str) (w : Word) (p : Bool) (ts : List Str) : Str :=
  match w, ts with
  | _, [] => []
  | .and, t :: ts => wrapIf p (Str.join b!" AND " (t :: ts))
  | .or, t :: ts => wrapIf p (Str.join b!" OR " (t :: ts))
  | .not, [t] => b!"NOT " ++ wrapIf p t
  | .not, t :: t' :: ts => many p (t :: t' :: ts)

mutual

/-- `BindRules.String`, /repo/bind.go:809-811, and `BindRule.String`. -/
def BCtx.text (val : BExpr → List Str) (many : Bool → List Str → Str) : BCtx → Str
  | .rule r => r.text val
  | .zero => []
  | .rules w p es => stackText many w p (BCtx.texts val many es)

/-- The texts of entries; empty ones are left out. -/
def BCtx.texts (val : BExpr → List Str) (many : Bool → List Str → Str) : List BCtx → List Str
  | [] => []
  | e :: es =>
    if BCtx.text val many e = [] then BCtx.texts val many es
    else BCtx.text val many e :: BCtx.texts val many es

end

end Verif.Bind
