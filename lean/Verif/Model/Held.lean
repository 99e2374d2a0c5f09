import Verif.Model.Target

/-!
# Lists of target rules in memory

A `TargetRule` is a `stackage.Condition` and a `TargetRules` is a `stackage.Stack`, both
structs with a pointer.  `Push` asks the push policy about the rule as it is then and keeps the
pointer, so that setters called on the rule later on change what the list holds.
`Verif.Model.Target` follows one list of rules that do not change; here rules and lists are in a
memory.

Contract of go-stackage: `Push` keeps the value it is given, `Pop` and `Index` return the
value that is kept.  What `Index` returns for a number outside of the list is a parameter.

Simplifications: no list is read-only, and the values of rules are not shared (see
`Verif.Model.Share`).
-/

namespace Verif.Held
open Verif Verif.Rules

/-- Memory: the rules and the lists at the addresses 0, 1, 2, ..., a list being the addresses of its
rules, and what the variables for rules and for lists hold; none is the zero value. -/
structure Mem where
  rules : List TRule
  lists : List (List Nat)
  rvar : Nat → Option Nat
  lvar : Nat → Option Nat

/-- What is not known of go-stackage: whether a refused argument ends `Push`, and what `Index`
returns for a number outside of the list. -/
structure Outside where
  stop : Bool
  index : List Nat → Int → Option Nat

/-- An argument of type `any`: what a variable for rules holds, or something that is no rule
(none). -/
abbrev Arg := Option Nat

/-- A statement. -/
inductive Stmt where
  /-- `v = TR(kw, op, ex)` -/
  | rule (v : Nat) (kw : KwArg) (op : OpArg) (ex : TExpr)
  /-- `v = TargetRule{}` -/
  | zero (v : Nat)
  /-- `v.Init()` -/
  | init (v : Nat)
  /-- `w = v` for rules -/
  | copy (w v : Nat)
  /-- `v.SetKeyword(kw)` -/
  | keyword (v : Nat) (kw : KwArg)
  /-- `v.SetOperator(op)` -/
  | operator (v : Nat) (op : OpArg)
  /-- `v.SetExpression(ex)` -/
  | expression (v : Nat) (ex : TExpr)
  /-- `v.SetQuoteStyle(n)` -/
  | quote (v : Nat) (n : Int)
  /-- `l = TRs(xs...)` -/
  | list (l : Nat) (xs : List Arg)
  /-- `k = l` for lists -/
  | same (k l : Nat)
  /-- `l.Push(xs...)` -/
  | push (l : Nat) (xs : List Arg)
  /-- `v = l.Pop()` -/
  | pop (v l : Nat)
  /-- `v = l.Index(i)` -/
  | index (v l : Nat) (i : Int)

/-- No rules, no lists, and every variable has its zero value. -/
def Mem.empty : Mem := ⟨[], [], fun _ => none, fun _ => none⟩

/-- The rule at an address. -/
def at_ (h : List TRule) (x : Nat) : TRule := (h[x]?).getD badTargetRule

/-- What an argument stands for. -/
def Mem.arg (m : Mem) (x : Arg) : Option Nat := x.bind m.rvar

/-- `TargetRules.pushPolicy`, /repo/target.go:675-698, and the capacity, /repo/target.go:527, for the
rules as they are at the time of the call. -/
def accept (h : List TRule) (es : List Nat) : Option Nat → Option Nat
  | some x => if (acceptTR (es.map (at_ h)) (.rule (at_ h x))).isSome then some x else none
  | none => none

/-- Assignment to a variable for rules. -/
def Mem.put (m : Mem) (v : Nat) (x : Option Nat) : Mem :=
  { m with rvar := fun y => if y = v then x else m.rvar y }

/-- Assignment to a variable for lists. -/
def Mem.putList (m : Mem) (l : Nat) (a : Option Nat) : Mem :=
  { m with lvar := fun y => if y = l then a else m.lvar y }

/-- A change of the rule a variable holds. -/
def Mem.change (m : Mem) (v : Nat) (f : TRule → TRule) : Mem :=
  match m.rvar v with
  | some x => { m with rules := m.rules.modify x f }
  | none => m

/-- A change of the list a variable holds. -/
def Mem.edit (m : Mem) (l : Nat) (f : List Nat → List Nat) : Mem :=
  match m.lvar l with
  | some a => { m with lists := m.lists.modify a f }
  | none => m

/-- What the list a variable holds has as its entries. -/
def Mem.entries (m : Mem) (l : Nat) : List Nat :=
  match m.lvar l with
  | some a => (m.lists[a]?).getD []
  | none => []

/-- `stackage.Stack.Index`. -/
def indexAt (o : Outside) (es : List Nat) (i : Int) : Option Nat :=
  if 0 ≤ i ∧ i < es.length then es[i.toNat]? else o.index es i

/-- One statement: `TR`, `TargetRule.Init`, /repo/target.go:209-217, the setters,
/repo/target.go:343-454, `TRs`, /repo/target.go:524-553, `Push`, /repo/target.go:598-601, `Pop`,
/repo/target.go:608-612, and `Index`, /repo/target.go:625-629. -/
def Mem.exec (o : Outside) (m : Mem) : Stmt → Mem
  | .rule v kw op ex => Mem.put { m with rules := m.rules ++ [TR kw op ex] } v (some m.rules.length)
  | .zero v => m.put v none
  | .init v =>
    match m.rvar v with
    | some _ => m
    | none =>
      Mem.put { m with rules := m.rules ++ [{ badTargetRule with core := ⟨true, [], 0⟩ }] } v
        (some m.rules.length)
  | .copy w v => m.put w (m.rvar v)
  | .keyword v kw => m.change v fun r => { r with core := TargetRule.setKeyword r.core kw }
  | .operator v op => m.change v fun r => { r with core := TargetRule.setOperator r.core op }
  | .expression v ex => m.change v fun r => r.setExpression ex
  | .quote v n => m.change v fun r => r.setQuoteStyle n
  | .list l xs =>
    Mem.putList { m with lists := m.lists ++ [stackPush o.stop (accept m.rules) [] (xs.map m.arg)] } l
      (some m.lists.length)
  | .same k l => m.putList k (m.lvar l)
  | .push l xs => m.edit l fun es => stackPush o.stop (accept m.rules) es (xs.map m.arg)
  | .pop v l => (m.edit l List.dropLast).put v (m.entries l).getLast?
  | .index v l i => m.put v (indexAt o (m.entries l) i)

/-- A program. -/
def Mem.run (o : Outside) (m : Mem) (p : List Stmt) : Mem := p.foldl (Mem.exec o) m

/-- `TargetRules.String`, /repo/target.go:560-562, of the list at an address. -/
def Mem.text (m : Mem) (a : Nat) : Str := TRs.string (((m.lists[a]?).getD []).map (at_ m.rules))

end Verif.Held
