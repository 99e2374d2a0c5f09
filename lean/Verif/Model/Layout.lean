import Verif.Model.BindText
import Verif.Model.Target

/-!
# Settings for the texts of rules: padding and the letter case of words

Contract of go-stackage, as shown by the outputs in /repo/bind_test.go:594-632, 785-797 and
1006-1015 and in /repo/parse_test.go:177-190 and 220-233: a condition without padding has
no blanks around its operator and within its parentheses; a stack without padding has none
within its parentheses; a folded stack has its word in small letters.  `NoPadding` without
an argument turns the setting round.
-/

namespace Verif.Bind
open Verif Verif.Rules

/-- A blank, when padding is on. -/
def sp (pad : Bool) : Str := if pad then b!" " else []

/-- Parentheses around a text, when they are on. -/
def wrapPad (b pad : Bool) (s : Str) : Str := if b then b!"(" ++ sp pad ++ s ++ sp pad ++ b!")" else s

/-- A bind context together with the settings of all that is in it. -/
inductive LCtx where
  | rule (r : BRule) (pad : Bool)
  | zero
  | rules (w : Word) (paren pad fold : Bool) (es : List LCtx)

/-- `BindRule.String`, /repo/bind.go:345-350, after `NoPadding`, /repo/bind.go:355-362. -/
def BRule.textPad (val : BExpr → List Str) (r : BRule) (pad : Bool) : Str :=
  if r.isZero then []
  else wrapPad r.paren pad (r.core.kw ++ sp pad ++ Cop.string r.core.op ++ sp pad
    ++ quoteIf r.outer (Str.join b!" || " ((val r.ex).map (quoteIf r.slice))))

/-- The word of a stack, after `Fold`, /repo/bind.go:976-979. -/
def Word.text (fold : Bool) : Word → Str
  | .and => if fold then b!"and" else b!"AND"
  | .or => if fold then b!"or" else b!"OR"
  | .not => if fold then b!"not" else b!"NOT"

/-- The text of a stack from those of its entries; `many` is the text of a NOT stack with
several entries. -/
def stackTextPad (many : Bool → List Str → Str) (w : Word) (p pad fold : Bool) (ts : List Str) : Str :=
  match w, ts with
  | _, [] => []
  | .not, [t] => w.text fold ++ b!" " ++ wrapPad p pad t
  | .not, t :: t' :: ts => many p (t :: t' :: ts)
  | _, t :: ts => wrapPad p pad (Str.join (b!" " ++ w.text fold ++ b!" ") (t :: ts))

mutual

/-- `BindRules.String`, /repo/bind.go:809-811, after `Paren`, `Fold` and `NoPadding`,
/repo/bind.go:961-999. -/
def LCtx.text (val : BExpr → List Str) (many : Bool → List Str → Str) : LCtx → Str
  | .rule r pad => r.textPad val pad
  | .zero => []
  | .rules w p pad fold es => stackTextPad many w p pad fold (LCtx.texts val many es)

/-- The texts of entries; empty ones are left out. -/
def LCtx.texts (val : BExpr → List Str) (many : Bool → List Str → Str) : List LCtx → List Str
  | [] => []
  | e :: es =>
    if LCtx.text val many e = [] then LCtx.texts val many es
    else LCtx.text val many e :: LCtx.texts val many es

end

/-- An optional Boolean argument of a setting. -/
def setting (old : Bool) : List Bool → Bool
  | [] => !old
  | b :: _ => b

/-- `BindRule.NoPadding`, /repo/bind.go:355-362, and `BindRules.NoPadding`,
/repo/bind.go:996-999. -/
def LCtx.noPadding (state : List Bool) : LCtx → LCtx
  | .rule r pad => if r.isZero then .rule r pad else .rule r (!setting (!pad) state)
  | .zero => .zero
  | .rules w p pad fold es => .rules w p (!setting (!pad) state) fold es

/-- `BindRules.Fold`, /repo/bind.go:976-979; a rule has no such method. -/
def LCtx.setFold (state : List Bool) : LCtx → LCtx
  | .rules w p pad fold es => .rules w p pad (setting fold state) es
  | c => c

/-- `BindRules.Paren`, /repo/bind.go:961-964, and `BindRule.Paren`,
/repo/bind.go:294-297; a nil condition is left as it is. -/
def LCtx.setParen (state : List Bool) : LCtx → LCtx
  | .rule r pad => if r.isZero then .rule r pad else .rule { r with paren := setting r.paren state } pad
  | .zero => .zero
  | .rules w p pad fold es => .rules w (setting p state) pad fold es

/-- `IsParen`, /repo/bind.go:302-304 and 969-971. -/
def LCtx.isParen : LCtx → Bool
  | .rule r _ => if r.isZero then false else r.paren
  | .zero => false
  | .rules _ p _ _ _ => p

/-! ## Target rules -/

/-- `TargetRule.String`, /repo/target.go:304-315, after `NoPadding`, /repo/target.go:320-327. -/
def _root_.Verif.Rules.TRule.stringPad (r : TRule) (pad : Bool) : Str :=
  if r.isZero then []
  else b!"(" ++ sp pad ++ (r.core.kw ++ sp pad ++ Cop.string r.core.op ++ sp pad
    ++ quoteIf r.outer (Str.join b!" || " (r.ex.texts.map (quoteIf r.slice)))) ++ sp pad ++ b!")"

/-- `TargetRules` with the padding of each rule and the delimiter, empty at first,
/repo/target.go:529. -/
structure LTRs where
  delim : Str
  es : List (TRule × Bool)

/-- `TargetRules.String`, /repo/target.go:560-562. -/
def LTRs.string (t : LTRs) : Str := Str.join t.delim (t.es.map fun e => e.1.stringPad e.2)

/-- `TargetRules.NoPadding`, /repo/target.go:642-660, of an initialized stack. -/
def LTRs.noPadding (state : List Bool) (t : LTRs) : LTRs :=
  let s := match state with
    | [] => t.delim.length == 0
    | b :: _ => b
  { t with delim := if s then [] else b!" " }

end Verif.Bind
