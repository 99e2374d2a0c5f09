import Verif.Model.BindText
import Verif.Model.Builders

/-!
# Lists that several rules hold

A list of names, attributes or object identifiers is a `stackage.Stack` and a rule is a
`stackage.Condition`, both structs with a pointer.  `Eq` and `Ne` hand the list on, so that
the rule holds the list itself and not a copy, and `SetQuoteStyle` of a rule sets the
quotation of the single values in the list (/repo/bind.go:775 and /repo/target.go:350-360),
where all rules made from the list find it.  `Verif.Bind.BRule` and `Verif.Rules.TRule` follow
one rule, with the setting of its list in the field `slice`; here lists and rules are in a
memory.

Contract of go-stackage: the text of a stack has the quotation of the stack around each value.
-/

namespace Verif.Share
open Verif Verif.Bind Verif.Rules

/-- A type of lists, with the methods that change a list and those that make rules.  `cond` is
none when `Eq` (false) or `Ne` (true) returns the zero rule, which holds nothing.  `view` is the
rule with the list as it stands and the quotation of the values that is set in the list. -/
structure Lst where
  Obj : Type
  Ctor : Type
  Edit : Type
  Rule : Type
  make : Ctor → Obj
  edit : Obj → Edit → Obj
  cond : Bool → Obj → Option Rule
  view : Rule → Obj → Bool → Rule
  style : Rule → Int → Rule
  slice : Rule → Bool
  text : Rule → Str

/-- Memory: lists with the setting of their values, rules with the place of their list, and what
the variables for lists and for rules point to. -/
structure Store (K : Lst) where
  lists : List (K.Obj × Bool)
  rules : List (K.Rule × Nat)
  lvar : Nat → Option Nat
  rvar : Nat → Option Nat

/-- A statement. -/
inductive Stmt (K : Lst) where
  /-- `v = UDNs(...)` -/
  | list (v : Nat) (c : K.Ctor)
  /-- `w = v` for lists -/
  | same (w v : Nat)
  /-- `v.Push(...)` or `v.Pop()` -/
  | edit (v : Nat) (x : K.Edit)
  /-- `r = v.Eq()` or `r = v.Ne()` -/
  | rule (r : Nat) (ne : Bool) (v : Nat)
  /-- `q = r` for rules -/
  | copy (q r : Nat)
  /-- `r.SetQuoteStyle(n)` -/
  | style (r : Nat) (n : Int)

/-- The start of a program. -/
def Store.empty (K : Lst) : Store K := ⟨[], [], fun _ => none, fun _ => none⟩

variable {K : Lst}

/-- Assignment to a variable. -/
def put (f : Nat → Option Nat) (v : Nat) (a : Option Nat) : Nat → Option Nat :=
  fun u => if u = v then a else f u

/-- The rule a variable stands for, with the place of its list and the list. -/
def Store.find (m : Store K) (r : Nat) : Option (Nat × K.Rule × Nat × K.Obj × Bool) :=
  match m.rvar r with
  | none => none
  | some i =>
    match m.rules[i]? with
    | none => none
    | some (rl, a) =>
      match m.lists[a]? with
      | none => none
      | some (o, s) => some (i, rl, a, o, s)

/-- One statement. -/
def Store.exec (m : Store K) : Stmt K → Store K
  | .list v c => { m with lists := m.lists ++ [(K.make c, false)], lvar := put m.lvar v (some m.lists.length) }
  | .same w v => { m with lvar := put m.lvar w (m.lvar v) }
  | .edit v x =>
    match m.lvar v with
    | none => m
    | some a =>
      match m.lists[a]? with
      | none => m
      | some (o, s) => { m with lists := m.lists.set a (K.edit o x, s) }
  | .rule r ne v =>
    match m.lvar v with
    | none => { m with rvar := put m.rvar r none }
    | some a =>
      match (m.lists[a]?).bind fun l => K.cond ne l.1 with
      | none => { m with rvar := put m.rvar r none }
      | some rl => { m with rules := m.rules ++ [(rl, a)], rvar := put m.rvar r (some m.rules.length) }
  | .copy q r => { m with rvar := put m.rvar q (m.rvar r) }
  | .style r n =>
    match m.find r with
    | none => m
    | some (i, rl, a, o, s) =>
      { m with
        rules := m.rules.set i (K.style (K.view rl o s) n, a)
        lists := m.lists.set a (o, K.slice (K.style (K.view rl o s) n)) }

/-- A program. -/
def Store.run (m : Store K) (p : List (Stmt K)) : Store K := p.foldl Store.exec m

/-- `String` of the rule a variable stands for; empty for the zero rule. -/
def Store.text (m : Store K) (r : Nat) : Str :=
  match m.find r with
  | none => []
  | some (_, rl, _, o, s) => K.text (K.view rl o s)

/-! ## The types -/

/-- The three functions that make lists of names for bind rules. -/
inductive UGR where
  | user | group | role

/-- Their keywords, /repo/dn.go:1448-1557. -/
def UGR.kw : UGR → BindKeyword
  | .user => BindUDN
  | .group => BindGDN
  | .role => BindRDN

/-- The three functions that make lists of names for target rules. -/
inductive TTF where
  | target | to | fro

/-- Their keywords, /repo/dn.go:1568-1677. -/
def TTF.kw : TTF → TargetKeyword
  | .target => Target
  | .to => TargetTo
  | .fro => TargetFrom

/-- The operator of `Eq` and `Ne`. -/
def opOf (ne : Bool) : Cop := if ne then Ne' else Eq'

/-- The texts of the names in the list of a bind rule. -/
def bindVals : BExpr → List Str
  | .dns d => d.entries.map DNList.BEntry.string
  | _ => []

/-- A rule, unless it is the zero rule. -/
def heldB (r : BRule) : Option BRule := if r.isZero then none else some r

/-- A rule, unless it is the zero rule. -/
def heldT (r : TRule) : Option TRule := if r.isZero then none else some r

/-- `BindDistinguishedNames`: `UDNs`, `GDNs`, `RDNs`, `Push` and `Pop` (none), /repo/dn.go:1118-1139
and 1311-1320, `Eq` and `Ne`, /repo/dn.go:748-755 and 782-789. -/
def bindNames (eq : Str → Str → Bool) : Lst where
  Obj := DNList.BDNs
  Ctor := UGR × List DNList.BArg
  Edit := Option (List DNList.BArg)
  Rule := BRule
  make c := DNList.mkBDNs eq c.1.kw c.2
  edit o x := match x with
    | none => o.pop.1
    | some x => o.push eq x
  cond ne o := heldB (Builders.bindDNsCond (opOf ne) (some o))
  view r o s := { r with ex := .dns o, slice := s }
  style := BRule.setQuoteStyle
  slice := BRule.slice
  text := BRule.text bindVals

/-- `TargetDistinguishedNames`: `TDNs`, `TTDNs`, `TFDNs`, `Push` and `Pop` (none),
/repo/dn.go:1183-1205 and 1325-1334, `Eq` and `Ne`, /repo/dn.go:764-771 and 800-807. -/
def targetNames (eq : Str → Str → Bool) : Lst where
  Obj := DNList.TDNs
  Ctor := TTF × List DNList.TArg
  Edit := Option (List DNList.TArg)
  Rule := TRule
  make c := DNList.mkTDNs eq c.1.kw c.2
  edit o x := match x with
    | none => o.pop.1
    | some x => o.push eq x
  cond ne o := heldT (Builders.targetDNsCond (opOf ne) (some o))
  view r o s := { r with ex := .dns o, slice := s }
  style := TRule.setQuoteStyle
  slice := TRule.slice
  text := TRule.string

/-- `AttributeTypes`: `TAs`, /repo/attr.go:795-808, `Push` and `Pop` (none), /repo/attr.go:699-722,
`Eq` and `Ne`, /repo/attr.go:555-573. -/
def attrs (eq : Str → Str → Bool) : Lst where
  Obj := Attr.ATs
  Ctor := List Attr.PushArg
  Edit := Option (List Attr.PushArg)
  Rule := TRule
  make c := Attr.TAs eq c
  edit o x := match x with
    | none => o.pop
    | some x => o.push eq x
  cond ne o := heldT (Builders.atsCond (opOf ne) (some o))
  view r o s := { r with ex := .attrs o, slice := s }
  style := TRule.setQuoteStyle
  slice := TRule.slice
  text := TRule.string

/-- `ObjectIdentifiers`: `Ctrls` (false) and `ExtOps` (true), /repo/oid.go:554-619, `Push` and
`Pop` (none), /repo/oid.go:316-329 and 388-395, `Eq` and `Ne`, /repo/oid.go:624-641. -/
def oids (eq : Str → Str → Bool) (read : Str → Option Str) : Lst where
  Obj := Oid.OIDs
  Ctor := Bool × List Oid.Arg
  Edit := Option (List Oid.Arg)
  Rule := TRule
  make c := if c.1 then Oid.ExtOps eq read c.2 else Oid.Ctrls eq read c.2
  edit o x := match x with
    | none => o.pop.1
    | some x => o.push eq read x
  cond ne o := heldT (if ne then Builders.oidsNe (some o) else Builders.oidsEq (some o))
  view r o s := { r with ex := .oids o, slice := s }
  style := TRule.setQuoteStyle
  slice := TRule.slice
  text := TRule.string

/-- The types of lists a rule can hold. -/
inductive Ty where
  | bindNames | targetNames | attrs | oids
  deriving DecidableEq

/-- The type named. -/
def lst (eq : Str → Str → Bool) (read : Str → Option Str) : Ty → Lst
  | .bindNames => Share.bindNames eq
  | .targetNames => Share.targetNames eq
  | .attrs => Share.attrs eq
  | .oids => Share.oids eq read

end Verif.Share
