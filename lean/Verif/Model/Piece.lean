import Verif.Model.BindText
import Verif.Model.Target

/-!
# Rules put together step by step

The setters of `BindRule` and `TargetRule` on one variable, and what a condition of go-stackage
keeps besides keyword, operator and value: its ID and the type of its operator.  Contract of
go-stackage: setters of an uninitialized condition have no effect; a fresh condition has the
ID `fresh` and no operator; `SetID` and `SetOperator` store, and `ID` and `Operator` give what was
stored.
-/

namespace Verif.Piece
open Verif Verif.Bind Verif.Rules

/-- A call on a rule; `E` is the type of values. -/
inductive Call (E : Type) where
  | init
  | keyword (k : KwArg)
  | operator (o : OpArg)
  | expression (e : E)
  | quote (style : Int)
  | paren (b : Bool)

/-- The operator held by a condition: none, a `ComparisonOperator` of this package, or one of
go-stackage, as the parser makes. -/
inductive Held where
  | none
  | own (c : Cop)
  | foreign (c : Cop)
  deriving DecidableEq

/-- A variable holding a rule: the rule, the ID and the operator of its condition. -/
structure Var (R : Type) where
  rule : R
  id : Str
  held : Held

/-- `castCop`, /repo/stackage.go:291-300. -/
def castCop : Held → Cop
  | .own c => c
  | _ => 0

/-- The operator held after a setter has been called with `o`: what it stores does not depend on
what was there before. -/
def heldAfter (set : RuleCore → OpArg → RuleCore) (core : RuleCore) (o : OpArg) (h : Held) : Held :=
  if (set { core with op := 0 } o).op = 0 then h else .own (set { core with op := 0 } o).op

/-! ## Bind rules -/

/-- A `BindRule` that was declared and not set. -/
def zeroB : Var BRule := ⟨badBindRule, [], .none⟩

/-- The methods of `BindRule`: `Init`, /repo/bind.go:166-173, `SetKeyword`, `SetOperator`,
`SetExpression`, `SetQuoteStyle`, /repo/bind.go:698-802, and `Paren`, /repo/bind.go:295-298.
The effect on the variable they are called on; `SetKeyword` and `SetExpression` initialize a copy
of an unset receiver, which leaves the variable as it was. -/
def callB (fresh : Str) (v : Var BRule) : Call BExpr → Var BRule
  | .init =>
    if v.rule.core.init then v
    else ⟨{ badBindRule with core := ⟨true, [], 0⟩ }, fresh, .none⟩
  | .keyword k => { v with rule := { v.rule with core := BindRule.setKeyword v.rule.core k } }
  | .operator o =>
    { v with
      rule := { v.rule with core := BindRule.setOperator v.rule.core o }
      held := heldAfter BindRule.setOperator v.rule.core o v.held }
  | .expression e => if v.rule.core.init then { v with rule := v.rule.setExpression e } else v
  | .quote s => if v.rule.core.init then { v with rule := v.rule.setQuoteStyle s } else v
  | .paren b => if v.rule.core.init then { v with rule := { v.rule with paren := b } } else v

/-- What the methods of `BindRule` return.  `SetKeyword` initializes a copy of an unset receiver and
returns it without the keyword, /repo/bind.go:699-704; `SetExpression` returns an unset receiver,
/repo/bind.go:749-754. -/
def retB (fresh : Str) (v : Var BRule) : Call BExpr → Var BRule
  | .keyword k => if v.rule.core.init then callB fresh v (.keyword k) else callB fresh v .init
  | c => callB fresh v c

/-- `newBindRule`, /repo/bind.go:134-146, with the ID set at line 142. -/
def newB (kw : KwArg) (op : OpArg) (ex : BExpr) : Var BRule :=
  ⟨BR kw op ex, b!"bind",
    heldAfter BindRule.setOperator (BindRule.setKeyword ⟨true, [], 0⟩ kw) op .none⟩

/-- `BindRule.ID`, /repo/bind.go:323-328. -/
def idB (v : Var BRule) : Str := if v.rule.isZero then b!"bind" else v.id

/-- `BindRule.Category`, /repo/bind.go:333-338. -/
def categoryB (v : Var BRule) : Str := if v.rule.isZero then [] else BindKeyword.string v.rule.keyword

/-- `BindRule.Operator`, /repo/bind.go:376-378. -/
def operatorB (v : Var BRule) : Cop := castCop v.held

/-- `BindRule.Len`, /repo/bind.go:276-281. -/
def lenB (v : Var BRule) : Nat := if v.rule.isZero then 0 else 1

/-! ## Target rules -/

/-- A `TargetRule` that was declared and not set. -/
def zeroT : Var TRule := ⟨badTargetRule, [], .none⟩

/-- The methods of `TargetRule`: `Init`, /repo/target.go:209-217, and the setters,
/repo/target.go:343-454.  There is no method `Paren`; texts are always in parentheses. -/
def callT (fresh : Str) (v : Var TRule) : Call TExpr → Var TRule
  | .init =>
    if v.rule.core.init then v
    else ⟨{ badTargetRule with core := ⟨true, [], 0⟩ }, fresh, .none⟩
  | .keyword k => { v with rule := { v.rule with core := TargetRule.setKeyword v.rule.core k } }
  | .operator o =>
    { v with
      rule := { v.rule with core := TargetRule.setOperator v.rule.core o }
      held := heldAfter TargetRule.setOperator v.rule.core o v.held }
  | .expression e => if v.rule.core.init then { v with rule := v.rule.setExpression e } else v
  | .quote s => if v.rule.core.init then { v with rule := v.rule.setQuoteStyle s } else v
  | .paren _ => v

/-- What the methods of `TargetRule` return.  `SetExpression` returns an initialized copy of an unset
receiver, with the value, /repo/target.go:446-453. -/
def retT (fresh : Str) (v : Var TRule) : Call TExpr → Var TRule
  | .expression e => callT fresh (callT fresh v .init) (.expression e)
  | c => callT fresh v c

/-- `newTargetRule`, /repo/target.go:222-234, with the ID set at line 230. -/
def newT (kw : KwArg) (op : OpArg) (ex : TExpr) : Var TRule :=
  ⟨TR kw op ex, b!"target",
    heldAfter TargetRule.setOperator (TargetRule.setKeyword ⟨true, [], 0⟩ kw) op .none⟩

/-- `TargetRule.ID`, /repo/target.go:295-297. -/
def idT (_v : Var TRule) : Str := b!"target"

/-- `TargetRule.Category`, /repo/target.go:285-290. -/
def categoryT (v : Var TRule) : Str :=
  if v.rule.isZero then [] else TargetKeyword.string v.rule.keyword

/-- `TargetRule.Operator`, /repo/target.go:467-469. -/
def operatorT (v : Var TRule) : Cop := castCop v.held

/-- `TargetRule.Len`, /repo/target.go:261-266. -/
def lenT (v : Var TRule) : Nat := if v.rule.isZero then 0 else 1

/-- `TargetRule.Valid`, /repo/target.go:239-254, with the operator that is held:
`keywordAllowsComparisonOperator` knows operators of this package only (/repo/cop.go:139-148). -/
def validT (v : Var TRule) : Bool :=
  if v.rule.isZero then false
  else
    match v.held with
    | .own c => keywordAllows (.str v.rule.core.kw) (.cop c) && v.rule.condOk
    | _ => false

/-! ## Stacks of bind rules -/

/-- `BindRules.Category`, /repo/bind.go:837-842, with the categories set at
/repo/bind.go:425, 464 and 503; and that of a rule without ID. -/
def category : BCtx → Str
  | .rule r => if r.isZero then [] else BindKeyword.string r.keyword
  | .zero => b!"<uninitialized_bindrules>"
  | .rules .and _ _ => b!"and"
  | .rules .or _ _ => b!"or"
  | .rules .not _ _ => b!"not"

/-- `BindRules.Keyword`, /repo/bind.go:867-870, `BindRule.Keyword`, /repo/bind.go:367-371; the
category of an uninitialized stack of go-stackage is empty. -/
def ctxKeyword : BCtx → BindKeyword
  | .rule r => r.keyword
  | .zero => matchBKW []
  | c => matchBKW (category c)

/-- `Kind`, /repo/bind.go:267-269 and 406-408. -/
def kind : BCtx → Str
  | .rule _ => b!"condition"
  | _ => b!"stack"

/-- `Len`, /repo/bind.go:276-281 and 847-852. -/
def len : BCtx → Nat
  | .rule r => if r.isZero then 0 else 1
  | .zero => 0
  | .rules _ _ es => es.length

/-- `IsNesting`, /repo/bind.go:288-290 and 857-862; contract of go-stackage: whether some entry
is a stack. -/
def isNesting : BCtx → Bool
  | .rules _ _ es => es.any BCtx.isStack
  | _ => false

/-- `Index`, /repo/bind.go:253-255 and 937-948; `far` is what go-stackage gives for an index that
is not that of an entry. -/
def index (far : List BCtx → Int → Option BCtx) : BCtx → Int → Option BCtx
  | .rule r, _ => some (.rule r)
  | .zero, i => far [] i
  | .rules _ _ es, i => if 0 ≤ i ∧ i < es.length then es[i.toNat]? else far es i

/-- `stackage.Stack.Traverse` (contract) on the entries of a stack, for a path of indices of
entries: the entry at its end; `far` otherwise. -/
def walk (far : List BCtx → List Int → Option BCtx) : List BCtx → List Int → Option BCtx
  | es, [] => far es []
  | es, i :: is =>
    if 0 ≤ i ∧ i < es.length then
      match es[i.toNat]?, is with
      | some c, [] => some c
      | some (.rules _ _ es'), is => walk far es' is
      | _, _ => far es (i :: is)
    else far es (i :: is)

/-- `Traverse`, /repo/bind.go:246-248 and 1004-1020. -/
def traverse (far : List BCtx → List Int → Option BCtx) : BCtx → List Int → BCtx
  | .rule r, _ => .rule r
  | .zero, is => (walk far [] is).getD .zero
  | .rules _ _ es, is => (walk far es is).getD .zero

end Verif.Piece
