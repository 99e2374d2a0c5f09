import Verif.Model.Ins
import Verif.Model.Filter
import Verif.Model.Net
import Verif.Model.Sec
import Verif.Model.Time
import Verif.Model.Builders

/-!
# Variables, copies and storage

Most types of /repo are structs whose one field is a pointer ("(pointer!)" in the
comments of the source), so that assigning a value to another variable, passing it to a
function or storing it in a list or rule shares its storage.  The other model files
follow one value; this one follows memory.

A program here is a list of statements about the variables of one type: declaring,
constructing, copying, calling a method that may change the receiver, and assigning
what such a method returns.

Simplification: only the outermost pointer of a type is followed.  The parts of an
attribute filter, inheritance, LDAP URI, permission bind rule or instruction are values
here.
-/

namespace Verif.Alias
open Verif

/-- What a method does with the storage of its receiver. -/
inductive Eff (α : Type) where
  /-- Nothing is changed. -/
  | keep
  /-- The storage pointed to by the receiver gets this content. -/
  | write (o : α)
  /-- The receiver variable is pointed to new storage with this content. -/
  | fresh (o : α)
  /-- Only the returned value points to new storage; the method has a value receiver. -/
  | give (o : α)

/-- A type of /repo that is a struct with a pointer.  `Tag` is what the struct holds
besides the pointer.  `make` are its constructors, none of which share storage with
anything. -/
structure Cls where
  Tag : Type
  Obj : Type
  Ctor : Type
  Call : Type
  zero : Tag
  make : Ctor → Tag × Option Obj
  eff : Tag → Option Obj → Call → Eff Obj

/-- What a variable holds: the struct with its pointer, nil or an address. -/
structure Ref (K : Cls) where
  tag : K.Tag
  ptr : Option Nat

/-- Memory: what is stored at the addresses 0, 1, 2, ..., and what the variables hold. -/
structure Mem (K : Cls) where
  heap : List K.Obj
  vars : Nat → Ref K

/-- A statement. -/
inductive Stmt (K : Cls) where
  /-- `var v T` -/
  | zero (v : Nat)
  /-- `v = Ctor(...)` -/
  | make (v : Nat) (x : K.Ctor)
  /-- `w = v` -/
  | copy (w v : Nat)
  /-- `v.Method(...)` -/
  | call (v : Nat) (c : K.Call)
  /-- `w = v.Method(...)` -/
  | assign (w v : Nat) (c : K.Call)

/-- Every variable has the zero value and nothing is stored. -/
def Mem.empty (K : Cls) : Mem K := ⟨[], fun _ => ⟨K.zero, none⟩⟩

/-- The struct held, with the content of its storage. -/
def Mem.look {K : Cls} (m : Mem K) (r : Ref K) : K.Tag × Option K.Obj :=
  (r.tag, r.ptr.bind fun a => m.heap[a]?)

/-- What a variable stands for. -/
def Mem.see {K : Cls} (m : Mem K) (v : Nat) : K.Tag × Option K.Obj := m.look (m.vars v)

/-- Assignment to a variable. -/
def Mem.put {K : Cls} (m : Mem K) (v : Nat) (r : Ref K) : Mem K :=
  ⟨m.heap, fun x => if x = v then r else m.vars x⟩

/-- New storage and its address. -/
def Mem.alloc {K : Cls} (m : Mem K) (o : K.Obj) : Mem K := ⟨m.heap ++ [o], m.vars⟩

/-- Storing at the address of a pointer. -/
def Mem.store {K : Cls} (m : Mem K) (p : Option Nat) (o : K.Obj) : Mem K :=
  match p with
  | none => m
  | some a => ⟨m.heap.set a o, m.vars⟩

/-- A method call: the memory after it and what it returns.  Every method of
`Verif.Alias.Ty` returns its receiver. -/
def Mem.invoke {K : Cls} (m : Mem K) (v : Nat) (c : K.Call) : Mem K × Ref K :=
  match K.eff (m.see v).1 (m.see v).2 c with
  | .keep => (m, m.vars v)
  | .write o => (m.store (m.vars v).ptr o, m.vars v)
  | .fresh o =>
    ((m.alloc o).put v ⟨(m.vars v).tag, some m.heap.length⟩,
      ⟨(m.vars v).tag, some m.heap.length⟩)
  | .give o => (m.alloc o, ⟨K.zero, some m.heap.length⟩)

/-- One statement. -/
def Mem.exec {K : Cls} (m : Mem K) : Stmt K → Mem K
  | .zero v => m.put v ⟨K.zero, none⟩
  | .make v x =>
    match K.make x with
    | (t, none) => m.put v ⟨t, none⟩
    | (t, some o) => (m.alloc o).put v ⟨t, some m.heap.length⟩
  | .copy w v => m.put w (m.vars v)
  | .call v c => (m.invoke v c).1
  | .assign w v c => (m.invoke v c).1.put w (m.invoke v c).2

/-- A program. -/
def Mem.run {K : Cls} (m : Mem K) (p : List (Stmt K)) : Mem K := p.foldl Mem.exec m

/-! ## The types -/

/-- `BindDistinguishedName`: `UDN`, `GDN`, `RDN`, /repo/dn.go:415-435, and `Set`,
/repo/dn.go:322-346; `distinguishedName.set` stores through the pointer
(/repo/dn.go:405). -/
def bindDN : Cls where
  Tag := Unit
  Obj := DN.DName
  Ctor := BindKeyword × Str
  Call := Str × List BindKeyword
  zero := ()
  make c := ((), some (DN.newDN c.2 c.1))
  eff _ o c :=
    match o with
    | none => .fresh ((DN.newDN c.1 (DN.bindSetKey c.2)).set c.1 (DN.bindSetKey c.2))
    | some d =>
      if d.text.isNone then .fresh ((DN.newDN c.1 (DN.bindSetKey c.2)).set c.1 (DN.bindSetKey c.2))
      else .write (d.set c.1 (DN.bindSetKey c.2))

/-- `TargetDistinguishedName`: `TDN`, `TTDN`, `TFDN`, /repo/dn.go:442-462, and `Set`,
/repo/dn.go:358-382. -/
def targetDN : Cls where
  Tag := Unit
  Obj := DN.DName
  Ctor := TargetKeyword × Str
  Call := Str × List TargetKeyword
  zero := ()
  make c := ((), some (DN.newDN c.2 c.1))
  eff _ o c :=
    match o with
    | none => .fresh ((DN.newDN c.1 (DN.targetSetKey c.2)).set c.1 (DN.targetSetKey c.2))
    | some d =>
      if d.text.isNone then
        .fresh ((DN.newDN c.1 (DN.targetSetKey c.2)).set c.1 (DN.targetSetKey c.2))
      else .write (d.set c.1 (DN.targetSetKey c.2))

/-- `SearchFilter`: `Filter`, /repo/filter.go:88-94, and `Set`, /repo/filter.go:140-157.
The storage made for a nil receiver holds the empty text. -/
def filter : Cls where
  Tag := Unit
  Obj := Str
  Ctor := Str
  Call := Str
  zero := ()
  make x := ((), some x)
  eff _ o x :=
    match o with
    | none => .fresh x
    | some s => .write (if x.length = 0 then s else x)

/-- `AttributeFilter`: `AF`, /repo/filter.go:219-230, and `Set`,
/repo/filter.go:237-244. -/
def attrFilter : Cls where
  Tag := Unit
  Obj := Filter.Atf
  Ctor := List Filter.AFArg
  Call := List Filter.AFArg
  zero := ()
  make x := ((), some (Filter.Atf.set ⟨none, none⟩ x))
  eff _ o x :=
    match o with
    | none => .fresh (Filter.Atf.set ⟨none, none⟩ x)
    | some a =>
      if Filter.AttributeFilter.isZero (some a) then .fresh (Filter.Atf.set ⟨none, none⟩ x)
      else .write (a.set x)

/-- Whether a call is of `Shift` (true) or `Unshift`. -/
abbrev Shifting := Bool

/-- `Permission`: `Allow` and `Deny`, /repo/rights.go:52-72, `Shift` and `Unshift`,
/repo/rights.go:251-270. -/
def permission (S : Shifty 16) : Cls where
  Tag := Unit
  Obj := Rights.Cell
  Ctor := Bool × List Rights.Arg
  Call := Shifting × List Rights.Arg
  zero := ()
  make c := ((), some (Rights.newPermission S c.1 c.2))
  eff _ o c :=
    match o with
    | none => .keep
    | some p =>
      .write { p with bits :=
        if c.1 then c.2.foldl (Rights.shift1 S) p.bits else c.2.foldl (Rights.unshift1 S) p.bits }

/-- `Inheritance`: `Inherit`, /repo/levels.go:52-65, `Shift` and `Unshift`,
/repo/levels.go:309-338, 403-426.  The receivers are values, so the storage `Shift`
makes for a zero receiver is seen by the caller only in what is returned. -/
def inheritance : Cls where
  Tag := Unit
  Obj := Levels.Inh
  Ctor := Attr.ABTV × List Levels.Arg
  Call := Shifting × List Levels.Arg
  zero := ()
  make c := ((), Levels.Inherit c.1 c.2)
  eff _ o c :=
    match o with
    | none => if c.1 then .give (Levels.Inh.shift ⟨0#16, Attr.ABTV.zero⟩ c.2) else .keep
    | some i =>
      if i.abtv.isZero then
        if c.1 then .give (Levels.Inh.shift ⟨0#16, Attr.ABTV.zero⟩ c.2) else .keep
      else .write (if c.1 then i.shift c.2 else i.unshift c.2)

/-- `DayOfWeek`: `DoW`, /repo/time.go:113-118, `Shift` and `Unshift`,
/repo/time.go:170-227.  `shifty.BitValue` holds a pointer: `cast` copies the struct
(/repo/shifty.go:25-27) and the shift is seen by the receiver. -/
def days : Cls where
  Tag := Unit
  Obj := BitVec 8
  Ctor := List Time.Arg
  Call := Shifting × List Time.Arg
  zero := ()
  make x := ((), some (x.foldl Time.shift1 0#8))
  eff _ o c :=
    match o with
    | none => if c.1 then .fresh (c.2.foldl Time.shift1 0#8) else .keep
    | some v => .write (if c.1 then c.2.foldl Time.shift1 v else c.2.foldl Time.unshift1 v)

/-- `TimeOfDay`: `ToD`, /repo/time.go:366-376, and `Set`, /repo/time.go:534-537, which
always makes new storage. -/
def clock : Cls where
  Tag := Unit
  Obj := Byte × Byte
  Ctor := Option Time.TArg
  Call := Time.TArg
  zero := ()
  make x :=
    match x with
    | none => ((), some (0, 0))
    | some t => ((), some (Time.assertToD (0, 0) t))
  eff _ _ t := .fresh (Time.assertToD (0, 0) t)

/-- `SecurityStrengthFactor`: `SSF`, /repo/sec.go:115-121, and `Set`,
/repo/sec.go:253-289. -/
def strength : Cls where
  Tag := Unit
  Obj := Option Byte
  Ctor := Option Sec.Arg
  Call := Sec.Arg
  zero := ()
  make x :=
    match x with
    | none => ((), some none)
    | some a => ((), some (Sec.ssfSet none a))
  eff _ o a :=
    match o with
    | none => .fresh (Sec.ssfSet (some 0) a)
    | some b => .write (Sec.ssfSet b a)

/-- `IPAddr`: `IP`, /repo/net.go:17-27, and `Set`, /repo/net.go:124-141. -/
def addresses : Cls where
  Tag := Unit
  Obj := List Str
  Ctor := List Str
  Call := List Str
  zero := ()
  make x := ((), some (Net.ipSet [] x))
  eff _ o x :=
    match o with
    | none => .fresh (Net.ipSet [] x)
    | some l => .write (Net.ipSet l x)

/-- `FQDN`: `DNS`, /repo/net.go:270-276, and `Set`, /repo/net.go:323-358; `IsZero` holds
of the nil pointer only (/repo/net.go:446-452). -/
def host : Cls where
  Tag := Unit
  Obj := List Str
  Ctor := List Str
  Call := List Str
  zero := ()
  make x := ((), some (if 0 < x.length then Net.labelsSet [] x else []))
  eff _ o x :=
    match o with
    | none => .fresh (Net.labelsSet [] x)
    | some l => .write (Net.labelsSet l x)

/-- `AttributeBindTypeOrValue`: `ABTV`, `UAT`, `GAT`, /repo/attr.go:93-133, and `Set`,
/repo/attr.go:138-144.  The keyword is in the struct, not behind the pointer
(/repo/attr.go:54-57). -/
def pair : Cls where
  Tag := BindKeyword
  Obj := Attr.Cell
  Ctor := BindKeyword × List Attr.Arg
  Call := List Attr.Arg
  zero := 0
  make c :=
    if c.1 = BindUAT ∨ c.1 = BindGAT then (c.1, some (Attr.Cell.set ⟨none, .nil⟩ c.2))
    else (0, none)
  eff kw o x :=
    match o with
    | none => .fresh (Attr.Cell.set ⟨none, .nil⟩ x)
    | some a =>
      if kw = 0 then .fresh (Attr.Cell.set ⟨none, .nil⟩ x) else .write (a.set x)

/-- `LDAPURI`: `URI`, /repo/uri.go:59-71, and `Set`, /repo/uri.go:426-477. -/
def uri (eq : Str → Str → Bool) : Cls where
  Tag := Unit
  Obj := Uri.Uri
  Ctor := List Uri.Arg
  Call := List Uri.Arg
  zero := ()
  make x := ((), some (Uri.newURI.set eq x))
  eff _ o x :=
    match o with
    | none => .fresh (Uri.newURI.set eq x)
    | some u => .write (u.set eq x)

/-- `PermissionBindRule`: `PBR`, /repo/pb.go:49-59, and `Set`, /repo/pb.go:87-123. -/
def bound (rd : Str → Option PB.Store) : Cls where
  Tag := Unit
  Obj := PB.Store
  Ctor := Rights.Permission × Option Bind.BCtx
  Call := List PB.SetArg
  zero := ()
  make c := ((), PB.PBR c.1 c.2)
  eff _ o x :=
    match o with
    | none => .fresh (PB.setAll rd ⟨none, none⟩ x)
    | some r =>
      if r.p.isNone && r.b.isNone then .fresh (PB.setAll rd ⟨none, none⟩ x)
      else .write (PB.setAll rd r x)

/-- `Instruction`: `ACI`, /repo/ins.go:303-321, and `Set`, /repo/ins.go:331-384. -/
def instruction (w : PB.World) (rd : Str → Option PB.Store) : Cls where
  Tag := Unit
  Obj := Ins.Body
  Ctor := List Ins.SetArg
  Call := List Ins.SetArg
  zero := ()
  make x := ((), some (Ins.setBody w rd Ins.newACI x))
  eff _ o x :=
    match o with
    | none => .fresh (Ins.setBody w rd Ins.newACI x)
    | some r => .write (Ins.setBody w rd r x)

/-- The types with a method that changes what they point to. -/
inductive Ty where
  | bindDN | targetDN | filter | attrFilter | permission | inheritance | days | clock
  | strength | addresses | host | pair | uri | bound | instruction
  deriving DecidableEq

/-- Everything these types depend on outside /repo. -/
structure Outside where
  S : Shifty 16
  eq : Str → Str → Bool
  w : PB.World
  rd : Str → Option PB.Store

/-- The type named. -/
def cls (e : Outside) : Ty → Cls
  | .bindDN => Alias.bindDN
  | .targetDN => Alias.targetDN
  | .filter => Alias.filter
  | .attrFilter => Alias.attrFilter
  | .permission => Alias.permission e.S
  | .inheritance => Alias.inheritance
  | .days => Alias.days
  | .clock => Alias.clock
  | .strength => Alias.strength
  | .addresses => Alias.addresses
  | .host => Alias.host
  | .pair => Alias.pair
  | .uri => Alias.uri e.eq
  | .bound => Alias.bound e.rd
  | .instruction => Alias.instruction e.w e.rd

/-! ## Rules and lists that hold names -/

/-- A bind rule made from a name.  go-stackage (contract): a condition holds the value it
was given, here a struct with a pointer. -/
structure DNRule where
  rule : Bind.BRule
  ref : Ref bindDN

/-- `v.Eq()` and `v.Ne()`, /repo/dn.go:680-687 and 714-721, with `bindDNToCondition`,
/repo/dn.go:834-860: the keyword is read once, the name itself is handed on. -/
def dnRule (m : Mem bindDN) (op : Cop) (v : Nat) : DNRule :=
  ⟨Builders.bindDNCond op (m.see v).2, m.vars v⟩

/-- The rule as it stands in a later memory; an uninitialized rule holds nothing. -/
def DNRule.now (m : Mem bindDN) (r : DNRule) : Bind.BRule :=
  if r.rule.isZero then r.rule else { r.rule with ex := .dn (m.look r.ref).2 }

/-- The name a reference stands for. -/
def nameAt (m : Mem bindDN) (r : Ref bindDN) : DN.BindDN := (m.look r).2

/-- `BindDistinguishedNames.Push` of names, /repo/dn.go:1118-1139, with
`pushBindDistinguishedNames`, /repo/dn.go:1260-1268: the list holds the struct it was
given. -/
def pushNames (eq : Str → Str → Bool) (m : Mem bindDN) (kw : BindKeyword) :
    List (Ref bindDN) → List Nat → List (Ref bindDN)
  | es, [] => es
  | es, v :: vs =>
    if !DN.isZero (nameAt m (m.vars v)) && DN.keyword (nameAt m (m.vars v)) == some kw then
      if es.any fun r => eq (DN.BindDN.string (nameAt m r)) (DN.BindDN.string (nameAt m (m.vars v))) then
        pushNames eq m kw es vs
      else pushNames eq m kw (es ++ [m.vars v]) vs
    else es

end Verif.Alias
