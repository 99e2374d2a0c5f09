import Verif.Model.Keyword

/-!
# /repo/oid.go: object identifiers and lists of them

go-objectid is not in the repository: `NewDotNotation` followed by `String` is a
parameter `read : Str → Option Str`, none standing for the error.  Its contract
(`DotReader`) says that the text of what was read is not empty and is made of digits
and full stops.

go-stackage: contract as in `Verif.Model.DNList`; the push policies are made from the
converted stack (/repo/oid.go:566-567, 599-600), so they see the entries.
-/

namespace Verif.Oid
open Verif

/-- What is assumed of `objectid.NewDotNotation` and `DotNotation.String`. -/
structure DotReader where
  read : Str → Option Str
  dots : ∀ s t, read s = some t → t ≠ [] ∧ ∀ c ∈ t, c = 46 ∨ (48 ≤ c ∧ c ≤ 57)

/-- `*objectIdentifier`, /repo/oid.go:44-47: the keyword and the text of the dot
notation, none for nil. -/
structure Oid where
  kw : TargetKeyword
  dot : Option Str
  deriving DecidableEq

/-- `ObjectIdentifier`, /repo/oid.go:37-39. -/
abbrev ObjectIdentifier := Option Oid

/-- /repo/oid.go:7. -/
def badDotNot : Str := b!"<invalid_object_identifier>"

/-- `ObjectIdentifier.IsZero`, /repo/oid.go:117-125; `Valid` (/repo/oid.go:154-174)
returns an error exactly when it is true. -/
def isZero : ObjectIdentifier → Bool
  | none => true
  | some o => if o.dot = none then true else o.kw == 0

/-- `ObjectIdentifier.String`, /repo/oid.go:52-57. -/
def string (r : ObjectIdentifier) : Str :=
  if isZero r then badDotNot else (r.bind Oid.dot).getD []

/-- `ObjectIdentifier.Keyword`, /repo/oid.go:81-86; none for nil. -/
def keyword (r : ObjectIdentifier) : Option TargetKeyword :=
  if isZero r then none else r.map Oid.kw

/-- `ObjectIdentifier.Kind`, /repo/oid.go:91-96. -/
def kind (r : ObjectIdentifier) : Str :=
  if isZero r then b!"<uninitialized>" else ((r.map Oid.kw).map TargetKeyword.string).getD []

/-- An argument of `set` and `Push`, of type `any`. -/
inductive Arg where
  | oid (o : ObjectIdentifier)
  | str (s : Str)
  | kw (k : TargetKeyword)
  | other

/-- One turn of the loop of `objectIdentifier.set`, /repo/oid.go:212-224: the dot
notation and whether the error is nil.  After an error of `NewDotNotation` the dot
notation is that of the failed call; it is taken to be nil, which has no effect
because the keyword of such a value is never set. -/
def setOne (read : Str → Option Str) (st : Option Str × Bool) : Arg → Option Str × Bool
  | .oid o => if isZero o then (st.1, false) else (read (string o), (read (string o)).isSome)
  | .str s => (read s, (read s).isSome)
  | _ => st

/-- `newObjectID`, /repo/oid.go:229-236: the value and whether the error is nil. -/
def newObjectID (read : Str → Option Str) (kw : TargetKeyword) (x : List Arg) : Oid × Bool :=
  let st := x.foldl (setOne read) (none, true)
  if st.2 then (⟨kw, st.1⟩, true) else (⟨0, st.1⟩, false)

/-- `OID`, /repo/oid.go:184-187, for a keyword argument that is a `TargetKeyword` (the
type assertion panics for others). -/
def OID (read : Str → Option Str) (x : Arg) (kw : TargetKeyword) : ObjectIdentifier :=
  some (newObjectID read kw [x]).1

/-- An argument of the interface type `Keyword`, /repo/kw.go:12-24. -/
inductive AnyKw where
  | nil
  | bind (k : BindKeyword)
  | target (k : TargetKeyword)
  deriving DecidableEq

/-- `OID`, /repo/oid.go:184-187, for every argument; none is the panic of the type assertion in line
185. -/
def OIDOf (read : Str → Option Str) (x : Arg) : AnyKw → Option ObjectIdentifier
  | .target k => some (OID read x k)
  | _ => none

/-- `Ctrl`, /repo/oid.go:194-197. -/
def Ctrl (read : Str → Option Str) (x : List Arg) : ObjectIdentifier :=
  some (newObjectID read TargetCtrl x).1

/-- `ExtOp`, /repo/oid.go:204-207. -/
def ExtOp (read : Str → Option Str) (x : List Arg) : ObjectIdentifier :=
  some (newObjectID read TargetExtOp x).1

/-- `isDotNot`, /repo/oid.go:238-241. -/
def isDotNot (read : Str → Option Str) (x : Str) : Bool := (read x).isSome

/-- An entry of a list: the push policy lets identifiers and, by its second case,
target keywords pass. -/
inductive Entry where
  | oid (o : ObjectIdentifier)
  | kw (k : TargetKeyword)
  deriving DecidableEq

/-- `ObjectIdentifiers.Index`, /repo/oid.go:287-293, on an entry. -/
def Entry.asOid : Entry → ObjectIdentifier
  | .oid o => o
  | .kw _ => none

/-- `ObjectIdentifiers` made by `ExtOps` or `Ctrls`: the keyword its category and push
policy stand for, and the entries. -/
structure OIDs where
  kw : TargetKeyword
  entries : List Entry
  deriving DecidableEq

/-- The candidate of `contains`, /repo/oid.go:360-369; none for the default case. -/
def candidate : Arg → Option Str
  | .str s => some s
  | .oid o => some (string o)
  | _ => none

/-- The loop of `contains`, /repo/oid.go:371-382. -/
def containsText (eq : Str → Str → Bool) (es : List Entry) (c : Str) : Bool :=
  if c.length = 0 ∨ c = badDotNot then false
  else es.any fun e => eq (string e.asOid) c

/-- `ObjectIdentifiers.contains`, /repo/oid.go:355-383. -/
def OIDs.contains (eq : Str → Str → Bool) (r : OIDs) (x : Arg) : Bool :=
  match candidate x with
  | none => false
  | some c => containsText eq r.entries c

/-- `ObjectIdentifiers.resetKeyword`, /repo/oid.go:488-508, called with a keyword. -/
def OIDs.resetKeyword (r : OIDs) (k : TargetKeyword) : OIDs :=
  if r.entries.length = 0 ∧ (k = TargetExtOp ∨ k = TargetCtrl) then { r with kw := k } else r

/-- `_r.Push(tv)` with the push policies of /repo/oid.go:451-468, 513-547, for an
argument that is no text: `Push` of the package turns texts into identifiers before. -/
def OIDs.pushEntry (eq : Str → Str → Bool) (r : OIDs) : Arg → OIDs
  | .oid o =>
    if r.contains eq (.oid o) then r
    else if isZero o then r
    else if keyword o = some r.kw then { r with entries := r.entries ++ [.oid o] }
    else r
  | .kw k => { r.resetKeyword k with entries := r.entries ++ [.kw k] }
  | _ => r

/-- `ObjectIdentifiers.F`, /repo/oid.go:475-482. -/
def OIDs.F (read : Str → Option Str) (r : OIDs) (x : List Arg) : ObjectIdentifier :=
  if r.kw = TargetExtOp then ExtOp read x else Ctrl read x

/-- One turn of the loop of `ObjectIdentifiers.Push`, /repo/oid.go:319-326. -/
def OIDs.pushOne (eq : Str → Str → Bool) (read : Str → Option Str) (r : OIDs) : Arg → OIDs
  | .str s => r.pushEntry eq (.oid (r.F read [.str s]))
  | x => r.pushEntry eq x

/-- `ObjectIdentifiers.Push`, /repo/oid.go:316-329. -/
def OIDs.push (eq : Str → Str → Bool) (read : Str → Option Str) (r : OIDs) (x : List Arg) : OIDs :=
  x.foldl (OIDs.pushOne eq read) r

/-- `ExtOps`, /repo/oid.go:554-583. -/
def ExtOps (eq : Str → Str → Bool) (read : Str → Option Str) (x : List Arg) : OIDs :=
  OIDs.push eq read ⟨TargetExtOp, []⟩ x

/-- `Ctrls`, /repo/oid.go:590-619. -/
def Ctrls (eq : Str → Str → Bool) (read : Str → Option Str) (x : List Arg) : OIDs :=
  OIDs.push eq read ⟨TargetCtrl, []⟩ x

/-- `ObjectIdentifiers.Pop`, /repo/oid.go:388-395. -/
def OIDs.pop (r : OIDs) : OIDs × ObjectIdentifier :=
  ({ r with entries := r.entries.dropLast }, (r.entries.getLast?.map Entry.asOid).getD none)

/-- `ObjectIdentifiers.Kind`, /repo/oid.go:656-669, of an initialized list. -/
def OIDs.kind (r : OIDs) : Str :=
  if r.kw = TargetExtOp ∨ r.kw = TargetCtrl then Str.lower (TargetKeyword.string r.kw)
  else b!"<uninitialized>"

/-- `ObjectIdentifiers.setExpressionValues`, /repo/oid.go:419-444: the list afterwards
(the receiver is a pointer) and whether the error is nil. -/
def OIDs.setValues (eq : Str → Str → Bool) (read : Str → Option Str) (r : OIDs)
    (key : TargetKeyword) : List Str → OIDs × Bool
  | [] => (r, true)
  | v :: vs =>
    if (newObjectID read key [.str v]).2 then
      OIDs.setValues eq read
        (r.push eq read [.oid (some (newObjectID read key [.str v]).1)]) key vs
    else (r, false)

/-- The list made by `assertTargetOID`, /repo/parse.go:627-632. -/
def oidList (key : TargetKeyword) : OIDs :=
  if key = TargetExtOp then ⟨TargetExtOp, []⟩ else ⟨TargetCtrl, []⟩

/-- `assertTargetOID`, /repo/parse.go:617-647, apart from the quotation style.  The
error of `setExpressionValues` is not looked at. -/
def assertTargetOID (eq : Str → Str → Bool) (read : Str → Option Str) (values : List Str)
    (key : TargetKeyword) : Except Unit OIDs :=
  if values.length = 0 then .error ()
  else
    let ex := ((oidList key).setValues eq read key values).1
    if ex.entries.length = 0 then .error () else .ok ex

end Verif.Oid
