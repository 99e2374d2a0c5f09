import Verif.Model.Bind
import Verif.Model.Find
import Verif.Model.Target

/-!
# Editing stacks of bind rules

Contract of go-stackage: `Insert` puts a value before the entry of the given number,
`Remove` takes an entry out, `Replace` puts a value in the place of an entry; none of these
three asks the push policy.  A read-only stack is not changed by any of them, nor by `Push`
and `Pop` (/repo/bind_test.go:682-698 and /repo/target_test.go:479-495).  What a number
outside of the stack does is not known; it is a parameter.
-/

namespace Verif.Edit
open Verif Verif.Bind Verif.Rules

/-- A value of type `any`: a bind context, or something else (none). -/
abbrev Item := Option BCtx

/-- A stack that is initialized: read-only or not, and its entries. -/
structure Stack where
  ro : Bool
  es : List Item

/-- What is not known: the effect of numbers outside of the stack. -/
structure Far where
  index : List Item → Int → Option Item
  remove : List Item → Int → List Item × Bool
  insert : List Item → Item → Int → List Item × Bool
  replace : List Item → Item → Int → List Item

/-- `BindRules.Index`, /repo/bind.go:938-948; none is nil. -/
def Stack.index (far : Far) (s : Stack) (i : Int) : Option BCtx := (Find.stackIndex far.index s.es i).join

/-- The policy, /repo/bind.go:1035-1061, on values of type `any`. -/
def acceptItem : Item → Option Item
  | none => none
  | some c => (acceptB (.ctx c)).map some

/-- `BindRules.Push`, /repo/bind.go:875-878. -/
def Stack.push (stop : Bool) (s : Stack) (xs : List Item) : Stack :=
  if s.ro then s else { s with es := stackPush stop (fun _ => acceptItem) s.es xs }

/-- `BindRules.Pop`, /repo/bind.go:888-906.  What a read-only stack returns is a parameter. -/
def Stack.pop (still : Option BCtx) (s : Stack) : Stack × Option BCtx :=
  if s.ro then (s, still) else ({ s with es := s.es.dropLast }, s.es.getLast?.join)

/-- `BindRules.remove`, /repo/bind.go:911-914. -/
def Stack.remove (far : Far) (s : Stack) (i : Int) : Stack × Bool :=
  if s.ro then (s, false)
  else if 0 ≤ i ∧ i < s.es.length then ({ s with es := s.es.eraseIdx i.toNat }, true)
  else ({ s with es := (far.remove s.es i).1 }, (far.remove s.es i).2)

/-- `BindRules.insert`, /repo/bind.go:984-991: contexts only. -/
def Stack.insert (far : Far) (s : Stack) (x : Item) (i : Int) : Stack × Bool :=
  match x with
  | none => (s, false)
  | some c =>
    if s.ro then (s, false)
    else if 0 ≤ i ∧ i ≤ s.es.length then ({ s with es := s.es.insertIdx i.toNat (some c) }, true)
    else ({ s with es := (far.insert s.es (some c) i).1 }, (far.insert s.es (some c) i).2)

/-- `BindRules.Replace`, /repo/bind.go:919-933. -/
def Stack.replace (far : Far) (s : Stack) (x : Item) (i : Int) : Stack :=
  if s.ro then s
  else if 0 ≤ i ∧ i < s.es.length then { s with es := s.es.set i.toNat x }
  else { s with es := far.replace s.es x i }

/-- `BindRules.ReadOnly`, /repo/bind.go:953-956: without an argument the setting is turned
round. -/
def Stack.readOnly (state : List Bool) (s : Stack) : Stack :=
  { s with ro := match state with | [] => !s.ro | b :: _ => b }

/-- `BindRules.reset`, /repo/bind.go:823-825. -/
def Stack.reset (s : Stack) : Stack := if s.ro then s else { s with es := [] }

/-- A call of a method. -/
inductive Op where
  | push (stop : Bool) (xs : List Item)
  | pop (still : Option BCtx)
  | remove (i : Int)
  | insert (x : Item) (i : Int)
  | replace (x : Item) (i : Int)
  | readOnly (state : List Bool)
  | reset

/-- The stack after a call. -/
def Op.run (far : Far) (s : Stack) : Op → Stack
  | .push stop xs => s.push stop xs
  | .pop still => (s.pop still).1
  | .remove i => (s.remove far i).1
  | .insert x i => (s.insert far x i).1
  | .replace x i => s.replace far x i
  | .readOnly b => s.readOnly b
  | .reset => s.reset

/-! ## Target rules -/

/-- An initialized stack of target rules. -/
structure TStack where
  ro : Bool
  es : List TRule

/-- A call of a method of `TargetRules`. -/
inductive TOp where
  | push (stop : Bool) (xs : List TRArg)
  | pop
  | remove (i : Int)
  | readOnly (state : List Bool)
  | reset

/-- `TargetRules.Push`, `Pop`, `remove`, `ReadOnly` and `reset`, /repo/target.go:574-577,
598-601, 608-612, 617-620 and 634-637.  The parameter is what `Remove` does with a number
outside of the stack. -/
def TOp.run (far : List TRule → Int → List TRule) (s : TStack) : TOp → TStack
  | .push stop xs => if s.ro then s else { s with es := TRs.push stop s.es xs }
  | .pop => if s.ro then s else { s with es := (TRs.pop s.es).1 }
  | .remove i =>
    if s.ro then s
    else if 0 ≤ i ∧ i < s.es.length then { s with es := s.es.eraseIdx i.toNat }
    else { s with es := far s.es i }
  | .readOnly state => { s with ro := match state with | [] => !s.ro | b :: _ => b }
  | .reset => if s.ro then s else { s with es := [] }

/-- `TargetRules.Index`, /repo/target.go:625-629. -/
def TStack.index (far : List TRule → Int → Option TRule) (s : TStack) (i : Int) : TRule :=
  Find.indexR far s.es i

end Verif.Edit
