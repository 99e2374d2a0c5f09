import Verif.Model.Held
import Verif.Model.Ins

/-!
# Instructions in memory

An `Instruction` is a pointer to a label and two lists; a list is a pointer to its entries;
target rules, permission bind rules, permissions and bind contexts are pointers as well.
`Verif.Model.Ins` follows the tree of what an instruction holds; here everything an instruction is
made of is in memory, and several instructions may hold the same rule.

A statement names the storage it is about by its address, whatever variable, copy, list entry
or method result leads a program to it.  So every program is a list of such statements.

Contract of go-stackage: `Push` keeps the value it is given and `Index` returns the value that is
kept.

Simplifications: a bind context is the tree of its contents (see `Verif.Model.Nest`), and what
its methods do to it is left open; arguments that are texts are left out, as they make new
storage which other statements here can make.
-/

namespace Verif.Heap
open Verif Verif.Bind Verif.Rules Verif.PB

/-- `permissionBindRule`, /repo/pb.go:30-33: the addresses of permission and bind context; none is
nil. -/
structure PCell where
  p : Option Nat
  b : Option Nat

/-- `instruction`, /repo/ins.go:68-72: the label and the addresses of the lists. -/
structure ICell where
  acl : Str
  t : Nat
  p : Nat

/-- Memory: what is stored at the addresses 0, 1, 2, ... of each type. -/
structure Mem where
  perms : List Rights.Cell
  ctxs : List BCtx
  pbrs : List PCell
  plists : List (List Nat)
  trules : List TRule
  tlists : List (List Nat)
  inss : List ICell
  ilists : List (List Nat)

/-- Nothing is stored. -/
def Mem.empty : Mem := ⟨[], [], [], [], [], [], [], []⟩

/-- An argument of `PermissionBindRule.Set`; none is nil. -/
inductive PSet where
  | perm (a : Option Nat)
  | ctx (a : Nat)
  | other

/-- An argument of `Instruction.Set` and `ACI`; none is an uninitialized value. -/
inductive ISet where
  | str (s : Str)
  | trs (l : Option Nat)
  | tr (a : Option Nat)
  | pbr (a : Option Nat)
  | pbrs (l : Option Nat)
  | other

/-- A call of a setter of `TargetRule`. -/
inductive TSet where
  | keyword (k : KwArg)
  | operator (o : OpArg)
  | expression (e : TExpr)
  | quote (n : Int)

/-- A statement. -/
inductive Stmt where
  /-- `Allow(xs...)` (true) or `Deny(xs...)` -/
  | perm (disp : Bool) (xs : List Rights.Arg)
  /-- `Shift(xs...)` of the permission at `a` -/
  | shift (a : Nat) (xs : List Rights.Arg)
  /-- `Unshift(xs...)` -/
  | unshift (a : Nat) (xs : List Rights.Arg)
  /-- A bind rule or a list of bind rules is made. -/
  | ctx (b : BCtx)
  /-- A method leaves the bind context at `a` with this content. -/
  | ctxTo (a : Nat) (b : BCtx)
  /-- `PBR(p, b)` -/
  | pbr (p b : Option Nat)
  /-- `Set(xs...)` of a nil permission bind rule -/
  | pbrNew (xs : List PSet)
  /-- `Set(xs...)` of the one at `a` -/
  | pbrSet (a : Nat) (xs : List PSet)
  /-- `PBRs(xs...)` -/
  | plist (xs : List (Option Nat))
  /-- `Push(xs...)` of the list of permission bind rules at `l` -/
  | ppush (l : Nat) (xs : List (Option Nat))
  /-- `Pop()` -/
  | ppop (l : Nat)
  /-- `TR(kw, op, ex)` -/
  | trule (kw : KwArg) (op : OpArg) (ex : TExpr)
  /-- A setter of the target rule at `a` -/
  | tset (a : Nat) (c : TSet)
  /-- `TRs(xs...)` -/
  | tlist (xs : List (Option Nat))
  /-- `Push(xs...)` of the list of target rules at `l` -/
  | tpush (l : Nat) (xs : List (Option Nat))
  /-- `Pop()` -/
  | tpop (l : Nat)
  /-- `ACI(xs...)`, or `Set(xs...)` of a nil instruction -/
  | aci (xs : List ISet)
  /-- `Set(xs...)` of the instruction at `i` -/
  | iset (i : Nat) (xs : List ISet)
  /-- `ACIs(xs...)` -/
  | ilist (xs : List (Option Nat))
  /-- `Push(xs...)` of the list of instructions at `l` -/
  | ipush (l : Nat) (xs : List (Option Nat))
  /-- `Pop()` -/
  | ipop (l : Nat)

/-- What is not known: what printing depends on, and whether a refused argument ends `Push`. -/
structure Outside where
  w : World
  stop : Bool

/-! ## What is seen at an address -/

/-- The permission bind rule at an address. -/
def Mem.seeP (m : Mem) (a : Nat) : PBRule :=
  (m.pbrs[a]?).map fun c => ⟨c.p.bind fun q => m.perms[q]?, c.b.bind fun b => m.ctxs[b]?⟩

/-- The target rules of a list. -/
def Mem.seeT (m : Mem) (l : Nat) : List TRule := ((m.tlists[l]?).getD []).map (Held.at_ m.trules)

/-- The permission bind rules of a list. -/
def Mem.seePs (m : Mem) (l : Nat) : List PBRule := ((m.plists[l]?).getD []).map m.seeP

/-- The instruction at an address. -/
def Mem.seeI (m : Mem) (i : Nat) : Ins.Instruction :=
  (m.inss[i]?).map fun c => ⟨c.acl, m.seeT c.t, m.seePs c.p⟩

/-- `Instruction.String`, /repo/ins.go:160-170. -/
def Mem.text (o : Outside) (m : Mem) (i : Nat) : Str := Ins.string o.w (m.seeI i)

/-- `Instructions.String`, /repo/ins.go:153-155. -/
def Mem.listText (o : Outside) (m : Mem) (l : Nat) : Str :=
  Ins.listString o.w (((m.ilists[l]?).getD []).map m.seeI)

/-! ## Calls -/

/-- `PermissionBindRules.pushPolicy`, /repo/pb.go:278-302, for what memory holds then. -/
def Mem.acceptP (o : Outside) (m : Mem) (es : List Nat) : Option Nat → Option Nat
  | some a =>
    if (PB.accept o.w (fun _ => none) (es.map m.seeP) (.rule (m.seeP a))).isSome then some a else none
  | none => none

/-- `PermissionBindRules.Push`, /repo/pb.go:240-259: each argument by itself. -/
def Mem.pushP (o : Outside) (m : Mem) (l : Nat) (xs : List (Option Nat)) : Mem :=
  { m with plists := m.plists.modify l fun es =>
      xs.foldl (fun es x => stackPush o.stop (m.acceptP o) es [x]) es }

/-- `TargetRules.Push`, /repo/target.go:598-601. -/
def Mem.pushT (o : Outside) (m : Mem) (l : Nat) (xs : List (Option Nat)) : Mem :=
  { m with tlists := m.tlists.modify l fun es => stackPush o.stop (Held.accept m.trules) es xs }

/-- `Instructions.pushPolicy`, /repo/ins.go:82-95. -/
def Mem.acceptI (o : Outside) (m : Mem) (es : List Nat) : Option Nat → Option Nat
  | some i => if (Ins.accept o.w (es.map m.seeI) (.ins (m.seeI i))).isSome then some i else none
  | none => none

/-- `Instructions.Push`, /repo/ins.go:177-194. -/
def Mem.pushI (o : Outside) (m : Mem) (l : Nat) (xs : List (Option Nat)) : Mem :=
  { m with ilists := m.ilists.modify l fun es =>
      xs.foldl (fun es x => stackPush o.stop (m.acceptI o) es [x]) es }

/-- `permissionBindRule.set`, /repo/pb.go:98-123. -/
def Mem.setP (m : Mem) (c : PCell) : List PSet → PCell
  | [] => c
  | .perm (some q) :: xs => if (m.perms[q]?).isSome then m.setP { c with p := some q } xs else c
  | .perm none :: _ => c
  | .ctx b :: xs =>
    match m.ctxs[b]? with
    | some t => if ctxValid t then m.setP { c with b := some b } xs else c
    | none => c
  | .other :: xs => m.setP c xs

/-- The setters of `TargetRule`, /repo/target.go:343-454. -/
def tcall (r : TRule) : TSet → TRule
  | .keyword k => { r with core := TargetRule.setKeyword r.core k }
  | .operator a => { r with core := TargetRule.setOperator r.core a }
  | .expression e => r.setExpression e
  | .quote n => r.setQuoteStyle n

/-- `instruction.assertInstruction`, /repo/ins.go:348-384, for the instruction at `i`, whose lists are
at `t` and `p`. -/
def Mem.assert1 (o : Outside) (i t p : Nat) (m : Mem) : ISet → Mem
  | .str s =>
    { m with inss := m.inss.modify i fun c =>
        if s.length > 0 ∧ c.acl.length = 0 then { c with acl := s } else c }
  | .trs (some l) =>
    ((m.tlists[l]?).getD []).foldl (fun m a =>
      if matchTKW (TargetKeyword.string (Held.at_ m.trules a).keyword) ≠ 0 then m.pushT o t [some a]
      else m) m
  | .tr a => m.pushT o t [a]
  | .pbr a => m.pushP o p [a]
  | .pbrs (some l) => ((m.plists[l]?).getD []).foldl (fun m a => m.pushP o p [some a]) m
  | _ => m

/-- `instruction.set`, /repo/ins.go:342-346. -/
def Mem.setI (o : Outside) (m : Mem) (i t p : Nat) (xs : List ISet) : Mem :=
  xs.foldl (Mem.assert1 o i t p) m

/-- One statement: `Allow`, `Deny`, `Shift` and `Unshift`, /repo/rights.go:52-72 and 251-270; `PBR` and
`Set`, /repo/pb.go:49-93; `PBRs`, `Push` and `Pop`, /repo/pb.go:240-273 and 346-375; `TR`, /repo/target.go:188-234;
`TRs`, `Push` and `Pop`, /repo/target.go:524-612; `ACI` and `Set`, /repo/ins.go:303-337; `ACIs`, `Push` and
`Pop`, /repo/ins.go:26-53 and 177-206. -/
def Mem.exec (o : Outside) (m : Mem) : Stmt → Mem
  | .perm disp xs => { m with perms := m.perms ++ [Rights.newPermission o.w.S disp xs] }
  | .shift a xs =>
    { m with perms := m.perms.modify a fun c => { c with bits := xs.foldl (Rights.shift1 o.w.S) c.bits } }
  | .unshift a xs =>
    { m with perms := m.perms.modify a fun c => { c with bits := xs.foldl (Rights.unshift1 o.w.S) c.bits } }
  | .ctx b => { m with ctxs := m.ctxs ++ [b] }
  | .ctxTo a b => { m with ctxs := m.ctxs.modify a fun _ => b }
  | .pbr p b =>
    if PB.valid (some ⟨p.bind fun q => m.perms[q]?, b.bind fun b => m.ctxs[b]?⟩) then
      { m with pbrs := m.pbrs ++ [⟨p, b⟩] }
    else m
  | .pbrNew xs => { m with pbrs := m.pbrs ++ [m.setP ⟨none, none⟩ xs] }
  | .pbrSet a xs =>
    if PB.isZero (m.seeP a) then { m with pbrs := m.pbrs ++ [m.setP ⟨none, none⟩ xs] }
    else { m with pbrs := m.pbrs.modify a fun c => m.setP c xs }
  | .plist xs => { m with plists := m.plists ++ [stackPush o.stop (m.acceptP o) [] xs] }
  | .ppush l xs => m.pushP o l xs
  | .ppop l => { m with plists := m.plists.modify l List.dropLast }
  | .trule kw op ex => { m with trules := m.trules ++ [TR kw op ex] }
  | .tset a c => { m with trules := m.trules.modify a fun r => tcall r c }
  | .tlist xs => { m with tlists := m.tlists ++ [stackPush o.stop (Held.accept m.trules) [] xs] }
  | .tpush l xs => m.pushT o l xs
  | .tpop l => { m with tlists := m.tlists.modify l List.dropLast }
  | .aci xs =>
    Mem.setI o { m with
      inss := m.inss ++ [⟨[], m.tlists.length, m.plists.length⟩]
      tlists := m.tlists ++ [[]]
      plists := m.plists ++ [[]] } m.inss.length m.tlists.length m.plists.length xs
  | .iset i xs =>
    match m.inss[i]? with
    | some c => m.setI o i c.t c.p xs
    | none => m
  | .ilist xs =>
    Mem.pushI o { m with ilists := m.ilists ++ [[]] } m.ilists.length xs
  | .ipush l xs => m.pushI o l xs
  | .ipop l => { m with ilists := m.ilists.modify l List.dropLast }

/-- A program. -/
def Mem.run (o : Outside) (m : Mem) (p : List Stmt) : Mem := p.foldl (Mem.exec o) m

end Verif.Heap
