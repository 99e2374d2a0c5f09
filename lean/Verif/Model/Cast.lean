import Verif.Model.Levels

/-!
# Conversions of /repo/stackage.go and the type queries of /repo/misc.go

Values of type `any` are given by what a type switch sees of them.  `S` and `C` stand for
`stackage.Stack` and `stackage.Condition`; the package defines its own types upon them
(/repo/stackage.go:34-155), and a conversion between these types keeps what is stored.
-/

namespace Verif.Cast
open Verif

/-- The types defined upon `stackage.Stack`, /repo/stackage.go:40-154. -/
inductive StackType where
  | bdns | tdns | pbrs | oids | instructions | ats | brs | trs | afo | afos
  deriving DecidableEq

/-- The types defined upon `stackage.Condition`, /repo/stackage.go:75-127. -/
inductive CondType where
  | br | tr
  deriving DecidableEq

/-- Types of single values that occur in the type switches. -/
inductive SingleType where
  | oid | bdn | tdn
  deriving DecidableEq

/-- A value of type `any`: a stack or condition of a type of the package or, with `none`,
of go-stackage itself; a pointer to a condition; a single value; anything else. -/
inductive Dyn (S C : Type) where
  | stack (t : Option StackType) (s : S)
  | cond (t : Option CondType) (c : C)
  | condPtr (p : Option C)
  | single (t : SingleType)
  | other

variable {S C : Type}

/-- `castBTRules`, /repo/stackage.go:407-420; `zero` is the zero stack. -/
def castBTRules (zero : S) : Dyn S C → S × Bool
  | .stack (some .brs) s => (s, true)
  | .stack (some .trs) s => (s, true)
  | .stack (some .pbrs) s => (s, true)
  | _ => (zero, false)

/-- `castDNRules`, /repo/stackage.go:422-433. -/
def castDNRules (zero : S) : Dyn S C → S × Bool
  | .stack (some .bdns) s => (s, true)
  | .stack (some .tdns) s => (s, true)
  | _ => (zero, false)

/-- `castFilterRules`, /repo/stackage.go:435-446. -/
def castFilterRules (zero : S) : Dyn S C → S × Bool
  | .stack (some .afo) s => (s, true)
  | .stack (some .afos) s => (s, true)
  | _ => (zero, false)

/-- `castAsStack`, /repo/stackage.go:373-405, and the `cast` methods of the ten types,
/repo/stackage.go:203-271. -/
def castAsStack (zero : S) (u : Dyn S C) : S × Bool :=
  match u with
  | .stack none s => (s, true)
  | .stack (some .instructions) s => (s, true)
  | .stack (some .oids) s => (s, true)
  | .stack (some .bdns) _ => castDNRules zero u
  | .stack (some .tdns) _ => castDNRules zero u
  | .stack (some .brs) _ => castBTRules zero u
  | .stack (some .trs) _ => castBTRules zero u
  | .stack (some .pbrs) _ => castBTRules zero u
  | .stack (some .ats) s => (s, true)
  | .stack (some .afo) _ => castFilterRules zero u
  | .stack (some .afos) _ => castFilterRules zero u
  | _ => (zero, false)

/-- `castAsCondition`, /repo/stackage.go:173-187; `bad` is what `badCond`,
/repo/stackage.go:448-452, returns: a started condition with an error. -/
def castAsCondition (bad : C) : Dyn S C → C
  | .cond (some .br) c => c
  | .cond (some .tr) c => c
  | _ => bad

/-- `castAsBindRule`, /repo/stackage.go:277-280; `zero` is the zero condition. -/
def castAsBindRule (zero : C) : Dyn S C → Dyn S C
  | .cond none c => .cond (some .br) c
  | _ => .cond (some .br) zero

/-- `castAsBindRules`, /repo/stackage.go:282-285. -/
def castAsBindRules (zero : S) : Dyn S C → Dyn S C
  | .stack none s => .stack (some .brs) s
  | _ => .stack (some .brs) zero

/-- `isStackageStack`, /repo/stackage.go:320-323. -/
def isStackageStack : Dyn S C → Bool
  | .stack none _ => true
  | _ => false

/-- `isPkgStack`, /repo/stackage.go:325-343. -/
def isPkgStack : Dyn S C → Bool
  | .stack (some .brs) _ => true
  | .stack (some .trs) _ => true
  | .stack (some .instructions) _ => true
  | .stack (some .ats) _ => true
  | .single .oid => true
  | .stack (some .oids) _ => true
  | .stack (some .pbrs) _ => true
  | .single .bdn => true
  | .stack (some .bdns) _ => true
  | .single .tdn => true
  | .stack (some .tdns) _ => true
  | .stack (some .afo) _ => true
  | .stack (some .afos) _ => true
  | _ => false

/-- `isStack`, /repo/stackage.go:308-314. -/
def isStack (x : Dyn S C) : Bool := if isStackageStack x then true else isPkgStack x

/-- `isStackageCondition`, /repo/stackage.go:349-356. -/
def isStackageCondition : Dyn S C → Bool
  | .condPtr _ => true
  | .cond none _ => true
  | _ => false

/-- `derefC`, /repo/stackage.go:358-365. -/
def derefC (zero : C) : Dyn S C → C
  | .cond none c => c
  | _ => zero

/-! ## Types of numbers -/

/-- The kinds of integers. -/
inductive IntKind where
  | int | uint | int8 | uint8 | int16 | uint16 | int32 | uint32 | int64 | uint64 | uintptr
  deriving DecidableEq

/-- The types as far as they are looked at.  A type with a name has the kind of the type it
is defined upon. -/
inductive GoType where
  | num (k : IntKind)
  | ptr (t : GoType)
  | other
  deriving DecidableEq

/-- The bits of a type, by the contract of `reflect.Type.Size`; a word has `w` bits. -/
def IntKind.bits (w : Nat) : IntKind → Nat
  | .int | .uint | .uintptr => w
  | .int8 | .uint8 => 8
  | .int16 | .uint16 => 16
  | .int32 | .uint32 => 32
  | .int64 | .uint64 => 64

/-- `isPtr`, /repo/misc.go:325-327, of a value given by its type, which nil has not: then
`Kind` of the nil interface panics. -/
def isPtr : Option GoType → Option Bool
  | none => none
  | some (.ptr _) => some true
  | some _ => some false

/-- `X.Elem()` of a pointer type. -/
def GoType.elem : GoType → GoType
  | .ptr t => t
  | t => t

/-- `isIUint`, /repo/misc.go:341-367; none is a panic. -/
def isIUint (x : Option GoType) : Option Bool := do
  let p ← isPtr x
  let t ← x
  match if p then t.elem else t with
  | .num _ => some true
  | _ => some false

/-- `bitSize`, /repo/misc.go:384-406; none is a panic. -/
def bitSize (w : Nat) (x : Option GoType) : Option Nat :=
  match x with
  | none => some 0
  | some t => do
    let p ← isPtr (some t)
    let is ← isIUint (some t)
    if is then
      match if p then t.elem else t with
      | .num k => some (k.bits w)
      | _ => some 0
    else some 0

/-- The type of `Right`, /repo/rights.go:35, and of `Level`, /repo/levels.go:72. -/
def wordType : GoType := .num .uint16

/-- The type of `Day`, /repo/time.go:32. -/
def dayType : GoType := .num .uint8

/-- `levelBitIter`, /repo/levels.go:10. -/
def levelBitIter (w : Nat) : Option Nat := (bitSize w (some wordType)).map (· - 4)

end Verif.Cast
