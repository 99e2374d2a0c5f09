import Verif.Model.BindText

/-!
# Stacks of bind rules in memory

`BindRules` is a `stackage.Stack`, a pointer.  A stack that is pushed into another one is
not copied: the outer stack holds the pointer.  The other model files follow the tree of
what a stack holds; this one follows memory, in which a stack may be held by several
others, or by itself.

Contract of go-stackage, besides that of `Verif.Bind` and `Verif.Edit`: `Push` and
`Replace` keep the value they are given, `Pop` and `Index` return the value that is kept,
and `String` of a stack calls `String` of every entry.  What numbers outside of a stack do
is a parameter; it brings in no other values than those given.

Simplifications: bind rules are values (the sharing of their parts is followed in
`Verif.Model.Share`), only bind contexts are given to `Replace` (see `Verif.Model.Edit` for
other values), no stack is read-only, and letter case and padding are as they are by
default.
-/

namespace Verif.Nest
open Verif Verif.Bind

/-- A `BindContext` that is not nil: a rule, an uninitialized `BindRules`, or the address
of a stack. -/
inductive Ent where
  | rule (r : BRule)
  | zero
  | stack (a : Nat)

/-- What is stored for a stack: its word, its parentheses and its entries. -/
structure Cell where
  word : Word
  paren : Bool
  es : List Ent

/-- Memory: the stacks at the addresses 0, 1, 2, ..., and what the variables of type
`BindContext` hold; none is nil. -/
structure Mem where
  heap : List Cell
  vars : Nat → Option Ent

/-- What is not known of go-stackage: whether a refused argument ends `Push`, and what
numbers outside of the stack do. -/
structure Outside where
  stop : Bool
  index : List Ent → Int → Option Ent
  index_mem : ∀ es i e, index es i = some e → e ∈ es
  replace : List Ent → Option Ent → Int → List Ent
  replace_mem : ∀ es x i e, e ∈ replace es x i → e ∈ es ∨ x = some e

/-- An argument of type `any`: what a variable holds, or something that is no bind
context (none). -/
abbrev Arg := Option Nat

/-- A statement. -/
inductive Stmt where
  /-- `v = r` for a rule. -/
  | rule (v : Nat) (r : BRule)
  /-- `v = BindRules{}` -/
  | zero (v : Nat)
  /-- `v = And(xs...)`, `v = Or(xs...)`, `v = Not(xs...)` -/
  | make (v : Nat) (w : Word) (xs : List Arg)
  /-- `w = v` -/
  | copy (w v : Nat)
  /-- `v.Push(xs...)` -/
  | push (v : Nat) (xs : List Arg)
  /-- `w = v.Pop()` -/
  | pop (w v : Nat)
  /-- `w = v.Index(i)` -/
  | index (w v : Nat) (i : Int)
  /-- `v.Replace(x, i)` -/
  | replace (v x : Nat) (i : Int)
  /-- `v.Paren(b)` -/
  | paren (v : Nat) (b : Bool)

/-- Every variable is nil and there are no stacks. -/
def Mem.empty : Mem := ⟨[], fun _ => none⟩

/-- What an argument stands for. -/
def Mem.arg (m : Mem) (x : Arg) : Option Ent := x.bind m.vars

/-- Assignment to a variable. -/
def Mem.put (m : Mem) (v : Nat) (x : Option Ent) : Mem :=
  ⟨m.heap, fun y => if y = v then x else m.vars y⟩

/-- A change of the stack a variable holds; a rule, an uninitialized stack and nil have no
stack to be changed. -/
def Mem.change (m : Mem) (v : Nat) (f : Cell → Cell) : Mem :=
  match m.vars v with
  | some (.stack a) => ⟨m.heap.modify a f, m.vars⟩
  | _ => m

/-- The entries of the stack a variable holds. -/
def Mem.entries (m : Mem) (v : Nat) : List Ent :=
  match m.vars v with
  | some (.stack a) => (m.heap[a]?.map Cell.es).getD []
  | _ => []

/-- `BindRules.pushPolicy`, /repo/bind.go:1035-1061: any stack that is initialized passes,
so also the receiver. -/
def accept : Option Ent → Option Ent
  | some (.rule r) =>
    if matchBKW (BindKeyword.string r.keyword) ≠ 0 then some (.rule r) else none
  | some (.stack a) => some (.stack a)
  | _ => none

/-- `stackage.Stack.Replace`. -/
def replaceAt (o : Outside) (es : List Ent) (x : Option Ent) (i : Int) : List Ent :=
  match x with
  | some e => if 0 ≤ i ∧ i < es.length then es.set i.toNat e else o.replace es (some e) i
  | none => o.replace es none i

/-- `stackage.Stack.Index`. -/
def indexAt (o : Outside) (es : List Ent) (i : Int) : Option Ent :=
  if 0 ≤ i ∧ i < es.length then es[i.toNat]? else o.index es i

/-- One statement: `And`, `Or` and `Not`, /repo/bind.go:420-525; `BindRules.Push`,
/repo/bind.go:875-878; `Pop`, /repo/bind.go:888-906; `Replace`, /repo/bind.go:919-933;
`Index`, /repo/bind.go:938-948; `Paren`, /repo/bind.go:961-964. -/
def Mem.exec (o : Outside) (m : Mem) : Stmt → Mem
  | .rule v r => m.put v (some (.rule r))
  | .zero v => m.put v (some .zero)
  | .make v w xs =>
    Mem.put ⟨m.heap ++ [⟨w, false, stackPush o.stop (fun _ => accept) [] (xs.map m.arg)⟩], m.vars⟩
      v (some (.stack m.heap.length))
  | .copy w v => m.put w (m.vars v)
  | .push v xs =>
    m.change v fun c => { c with es := stackPush o.stop (fun _ => accept) c.es (xs.map m.arg) }
  | .pop w v => (m.change v fun c => { c with es := c.es.dropLast }).put w (m.entries v).getLast?
  | .index w v i => m.put w (indexAt o (m.entries v) i)
  | .replace v x i => m.change v fun c => { c with es := replaceAt o c.es (m.vars x) i }
  | .paren v b => m.change v fun c => { c with paren := b }

/-- A program. -/
def Mem.run (o : Outside) (m : Mem) (p : List Stmt) : Mem := p.foldl (Mem.exec o) m

/-! ## Printing -/

/-- What printing depends on: the texts of expression values, and of NOT stacks with
several entries (see `Verif.Model.BindText`). -/
structure Printer where
  val : BExpr → List Str
  many : Bool → List Str → Str

/-- `BindRules.String`, /repo/bind.go:809-811, and `BindRule.String`,
/repo/bind.go:345-350, with stacks nested at most `n` deep: none when there are more calls
of `String` within each other than that.  Entries without text are left out. -/
def textIn (P : Printer) (h : List Cell) : Nat → Ent → Option Str
  | _, .rule r => some (r.text P.val)
  | _, .zero => some []
  | 0, .stack _ => none
  | n + 1, .stack a =>
    match h[a]? with
    | none => some []
    | some c =>
      (c.es.mapM (textIn P h n)).map fun ts => stackText P.many c.word c.paren (ts.filter (· ≠ []))

/-- The tree of what a context holds, as the other model files follow it, with stacks
nested at most `n` deep. -/
def treeIn (h : List Cell) : Nat → Ent → Option BCtx
  | _, .rule r => some (.rule r)
  | _, .zero => some .zero
  | 0, .stack _ => none
  | n + 1, .stack a =>
    match h[a]? with
    | none => some .zero
    | some c => (c.es.mapM (treeIn h n)).map (.rules c.word c.paren)

end Verif.Nest
