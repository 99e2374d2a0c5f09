import Verif.Model.Keyword

/-!
# /repo/attr.go

Error texts are not modelled: an error is `Except.error ()`.  A Go panic is the
value `none` of `Option`.
-/

namespace Verif.Attr
open Verif Verif.Misc

/-- `AttributeType`, /repo/attr.go:357-359: a pointer to a string. -/
abbrev AttributeType := Option Str

/-- `AttributeValue`, /repo/attr.go:475-477: a pointer to a string. -/
abbrev AttributeValue := Option Str

/-- `badAT`, /repo/attr.go:12. -/
def badAT : Str := b!"<invalid_attribute_type>"

/-- `badAV`, /repo/attr.go:13. -/
def badAV : Str := b!"<invalid_attribute_value>"

/-- `AT`, /repo/attr.go:421-427. -/
def AT (x : Str) : AttributeType := if isIdentifier x || x == b!"*" then some x else none

/-- `AttributeType.String`, /repo/attr.go:432-439. -/
def AttributeType.string (r : AttributeType) : Str := r.getD badAT

/-- `AttributeType.IsZero`, /repo/attr.go:465-470. -/
def AttributeType.isZero : AttributeType → Bool
  | none => true
  | some s => s.length == 0

/-- `AV`, /repo/attr.go:489-494. -/
def AV (x : Str) : AttributeValue := if x.length > 0 then some x else none

/-- `AttributeValue.String`, /repo/attr.go:499-506. -/
def AttributeValue.string (r : AttributeValue) : Str := r.getD badAV

/-- The second slot of `atbtv`, /repo/attr.go:66: nil, a bind type or a value. -/
inductive Slot where
  | nil
  | bt (b : BindType)
  | av (a : AttributeValue)
  deriving DecidableEq

/-- `atbtv`, /repo/attr.go:66.  The first slot is nil or an `AttributeType`; nothing
else is ever stored (`set`, /repo/attr.go:248-271). -/
structure Cell where
  at_ : Option AttributeType
  v : Slot
  deriving DecidableEq

/-- `AttributeBindTypeOrValue`, /repo/attr.go:54-57. -/
structure ABTV where
  kw : BindKeyword
  cell : Option Cell
  deriving DecidableEq

/-- The zero value. -/
def ABTV.zero : ABTV := ⟨0, none⟩

/-- `AttributeBindTypeOrValue.IsZero`, /repo/attr.go:72-78. -/
def ABTV.isZero (r : ABTV) : Bool :=
  match r.cell with
  | none => true
  | some _ => r.kw == 0

/-- `atbtv.isZero`, /repo/attr.go:200-205, of the pointer in a pair. -/
def cellIsZero : Option Cell → Bool
  | none => true
  | some c => c.at_.isNone && decide (c.v = .nil)

/-- An argument of `set`, of type `any`. -/
inductive Arg where
  | at_ (a : AttributeType)
  | av (a : AttributeValue)
  | bt (b : BindType)
  | str (s : Str)
  | other

/-- The second slot for a string, /repo/attr.go:263-267. -/
def slotOfStr (s : Str) : Slot := if matchBT s ≠ 0 then .bt (matchBT s) else .av (AV s)

/-- One round of `atbtv.set`, /repo/attr.go:250-269. -/
def set1 (r : Cell) : Arg → Cell
  | .at_ a => if r.at_ = none then { r with at_ := some a } else r
  | .av a => if r.v = .nil then { r with v := .av a } else r
  | .bt b => if r.v = .nil then { r with v := .bt b } else r
  | .str s => if r.at_ = none then { r with at_ := some (AT s) } else { r with v := slotOfStr s }
  | .other => r

/-- `atbtv.set`, /repo/attr.go:248-271. -/
def Cell.set (r : Cell) (x : List Arg) : Cell := x.foldl set1 r

/-- `userOrGroupAttr` (and `UAT`, `GAT`), /repo/attr.go:107-133. -/
def userOrGroupAttr (t : BindKeyword) (x : List Arg) : ABTV := ⟨t, some (Cell.set ⟨none, .nil⟩ x)⟩

/-- `ABTV`, /repo/attr.go:93-100. -/
def mkABTV (kw : BindKeyword) (x : List Arg) : ABTV :=
  if kw = BindUAT ∨ kw = BindGAT then userOrGroupAttr kw x else ABTV.zero

/-- `AttributeBindTypeOrValue.Set`, /repo/attr.go:138-144: a zero receiver gets a
fresh cell. -/
def ABTV.set (r : ABTV) (x : List Arg) : ABTV :=
  match r.isZero, r.cell with
  | false, some c => { r with cell := some (c.set x) }
  | _, _ => { r with cell := some (Cell.set ⟨none, .nil⟩ x) }

/-- The text of the second slot in `atbtv.String`, /repo/attr.go:222-237, with the
attribute in front; `none` is the panic of `len(*av.string)` on a nil pointer. -/
def slotString (at_ : AttributeType) : Slot → Option Str
  | .nil => some []
  | .bt b => if b = 0 then some [] else some (AttributeType.string at_ ++ 35 :: BindType.string b)
  | .av none => none
  | .av (some s) =>
    if s.length = 0 then some [] else some (AttributeType.string at_ ++ 35 :: s)

/-- `atbtv.String`, /repo/attr.go:210-241; `none` is a panic. -/
def Cell.string (r : Cell) : Option Str :=
  match r.at_ with
  | none => some []
  | some a => slotString a r.v

/-- `AttributeBindTypeOrValue.String`, /repo/attr.go:277-283; `none` is a panic. -/
def ABTV.string (r : ABTV) : Option Str :=
  match r.cell with
  | none => some badAV
  | some c => c.string

/-- `AttributeBindTypeOrValue.Keyword`, /repo/attr.go:187-195. -/
def ABTV.keyword (r : ABTV) : BindKeyword := if r.kw = BindGAT then BindGAT else BindUAT

/-- `parseATBTV`, /repo/attr.go:321-352; `none` in `bkw` is an argument that is not a
`BindKeyword`. -/
def parseATBTV (x : Str) (bkw : List (Option BindKeyword)) : Except Unit ABTV :=
  match Str.cut1 35 x with
  | none => .error ()
  | some (p, q) =>
    if AttributeType.string (AT p) = badAT then .error ()
    else if matchBT q ≠ 0 then
      .ok (userOrGroupAttr (assertATBTVBindKeyword bkw) [.at_ (AT p), .bt (matchBT q)])
    else .ok (userOrGroupAttr (assertATBTVBindKeyword bkw) [.at_ (AT p), .av (AV q)])

/-- `AttributeBindTypeOrValue.Parse`, /repo/attr.go:290-298.  The variadic arguments
are handed on as ONE argument, the slice, which is no `BindKeyword`. -/
def ABTV.parse (_r : ABTV) (raw : Str) (_bkw : List (Option BindKeyword)) : Except Unit ABTV :=
  parseATBTV raw [none]

/-! ## Lists of attribute types -/

/-- An argument of `AttributeTypes.Push` or `Contains`, of type `any`. -/
inductive PushArg where
  | str (s : Str)
  | at_ (a : AttributeType)
  | other
  deriving DecidableEq

/-- `AttributeTypes.contains`, /repo/attr.go:764-786, on the entries `r`; `eq` is
`strings.EqualFold`.  An argument of another type leaves the candidate empty. -/
def containsAT (eq : Str → Str → Bool) (r : List AttributeType) (x : PushArg) : Bool :=
  match x with
  | .str s => r.any fun a => eq (AttributeType.string a) s
  | .at_ a' => r.any fun a => eq (AttributeType.string a) (AttributeType.string a')
  | .other => r.any fun a => eq (AttributeType.string a) []

/-- `AttributeTypes.pushPolicy`, /repo/attr.go:727-750: true accepts.  `bound` is the
receiver the method value was made from. -/
def pushPolicy (eq : Str → Str → Bool) (bound : List AttributeType) (x : PushArg) : Bool :=
  if containsAT eq bound x then false
  else match x with
    | .at_ a => !AttributeType.isZero a
    | _ => false

/-- A stack of attribute types: its entries and the receiver its push policy was made
from.  `TAs` and `UAs`, /repo/attr.go:795-826, evaluate `a.pushPolicy` while the named
result `a` is still the zero value, whose length is zero. -/
structure ATs where
  entries : List AttributeType
  bound : List AttributeType

/-- Conversion of a pushed argument, /repo/attr.go:714-719. -/
def castArg : PushArg → PushArg
  | .str s => .at_ (AT s)
  | x => x

/-- `stackage.Stack.Push` of one argument with this policy (contract). -/
def ATs.push1 (eq : Str → Str → Bool) (r : ATs) (x : PushArg) : ATs :=
  if pushPolicy eq r.bound (castArg x) then
    match castArg x with
    | .at_ a => { r with entries := r.entries ++ [a] }
    | _ => r
  else r

/-- `AttributeTypes.Push`, /repo/attr.go:711-722. -/
def ATs.push (eq : Str → Str → Bool) (r : ATs) (x : List PushArg) : ATs :=
  x.foldl (ATs.push1 eq) r

/-- `AttributeTypes.Pop`, /repo/attr.go:699-706: the new stack. -/
def ATs.pop (r : ATs) : ATs := { r with entries := r.entries.dropLast }

/-- `TAs` and `UAs`, /repo/attr.go:795-826. -/
def TAs (eq : Str → Str → Bool) (x : List PushArg) : ATs := ATs.push eq ⟨[], []⟩ x

end Verif.Attr
