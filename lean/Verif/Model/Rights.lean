import Verif.Model.Shifty

/-!
# /repo/rights.go, and the permission reader of /repo/parse.go
-/

namespace Verif.Rights
open Verif

/-- `Right`, /repo/rights.go:35 (`uint16`). -/
abbrev Right := BitVec 16

/-! Constants, /repo/rights.go:10-24. -/
def ReadAccess : Right := 1#16
def WriteAccess : Right := 2#16
def AddAccess : Right := 4#16
def DeleteAccess : Right := 8#16
def SearchAccess : Right := 16#16
def CompareAccess : Right := 32#16
def SelfWriteAccess : Right := 64#16
def ProxyAccess : Right := 128#16
def ImportAccess : Right := 256#16
def ExportAccess : Right := 512#16
def NoAccess : Right := 0#16
def AllAccess : Right := 895#16

/-- `rightsMap`, /repo/rights.go:303-316. -/
def rightsMap : List (Right × Str) :=
  [ (NoAccess, b!"none"), (ReadAccess, b!"read"), (WriteAccess, b!"write"),
    (AddAccess, b!"add"), (DeleteAccess, b!"delete"), (SearchAccess, b!"search"),
    (CompareAccess, b!"compare"), (SelfWriteAccess, b!"selfwrite"), (AllAccess, b!"all"),
    (ProxyAccess, b!"proxy"), (ImportAccess, b!"import"), (ExportAccess, b!"export") ]

/-- Lookup in `rightsNames`, the inverse of `rightsMap`, /repo/rights.go:321-324. -/
def rightsNames (s : Str) : Option Right :=
  (rightsMap.find? fun e => e.2 == s).map (·.1)

/-- `Right.String`, /repo/rights.go:134-146 (the two early returns give what the map
gives; an unknown value gives the empty string). -/
def Right.string (r : Right) : Str :=
  match rightsMap.find? fun e => e.1 == r with
  | some e => e.2
  | none => []

/-- An argument of type `any` as `permission.shift` and its siblings see it. -/
inductive Arg where
  | int (i : Int)
  | right (r : Right)
  | str (s : Str)
  | other

/-- The storage behind a `Permission` made by `Allow`, `Deny` or the parser
(/repo/rights.go:44-47): both pointers are set together there, so the model has no
state with one of them nil. -/
structure Cell where
  disp : Bool
  bits : BitVec 16
  deriving DecidableEq

/-- `Permission`, /repo/rights.go:40-42: nil, or initialised storage. -/
abbrev Permission := Option Cell

variable (S : Shifty 16)

/-- One round of the loop of `permission.shift`, /repo/rights.go:79-88. -/
def shift1 (v : BitVec 16) : Arg → BitVec 16
  | .int i => S.shiftInt v i
  | .right r => Shifty.shift v r
  | .str s => match rightsNames (Str.lower s) with
    | some priv => Shifty.shift v priv
    | none => v
  | .other => v

/-- One round of the loop of `permission.unshift`, /repo/rights.go:97-106. -/
def unshift1 (v : BitVec 16) : Arg → BitVec 16
  | .int i => S.unshiftInt v i
  | .right r => Shifty.unshift v r
  | .str s => match rightsNames (Str.lower s) with
    | some priv => Shifty.unshift v priv
    | none => v
  | .other => v

/-- `newPermission`, /repo/rights.go:66-72. -/
def newPermission (disp : Bool) (x : List Arg) : Cell :=
  { disp := disp, bits := x.foldl (shift1 S) 0#16 }

/-- `Allow`, /repo/rights.go:52-54. -/
def Allow (x : List Arg) : Permission := some (newPermission S true x)

/-- `Deny`, /repo/rights.go:59-61. -/
def Deny (x : List Arg) : Permission := some (newPermission S false x)

/-- `Permission.IsZero`, /repo/rights.go:275-285. -/
def isZero (p : Permission) : Bool := p.isNone

/-- `Permission.Valid` (true: nil error), /repo/rights.go:290-300. -/
def valid (p : Permission) : Bool := p.isSome

/-- `Permission.Shift`, /repo/rights.go:251-258: new content of the shared storage. -/
def shift (p : Permission) (x : List Arg) : Permission :=
  p.map fun c => { c with bits := x.foldl (shift1 S) c.bits }

/-- `Permission.Unshift`, /repo/rights.go:263-270. -/
def unshift (p : Permission) (x : List Arg) : Permission :=
  p.map fun c => { c with bits := x.foldl (unshift1 S) c.bits }

/-- The `int` case of `permission.positive`, /repo/rights.go:113-117. -/
def positiveInt (c : Cell) (i : Int) : Bool :=
  if i = 0 ∧ (c.bits.toNat : Int) = i then true else S.positiveInt c.bits i

/-- `Permission.Positive`, /repo/rights.go:241-246 and 110-129. -/
def positive (p : Permission) (x : Arg) : Bool :=
  match p with
  | none => false
  | some c => match x with
    | .int i => positiveInt S c i
    | .right r => positiveInt S c r.toNat
    | .str s => match rightsNames (Str.lower s) with
      | some priv => positiveInt S c priv.toNat
      | none => false
    | .other => false

/-- `Permission.Len`, /repo/rights.go:158-174. -/
def len (p : Permission) : Nat :=
  match p with
  | none => 0
  | some c => ((List.range 16).filter fun i => S.positive c.bits (BitVec.twoPow 16 i)).length

/-- `Permission.Disposition`, /repo/rights.go:221-236. -/
def disposition (p : Permission) : Str :=
  match p with
  | none => b!"<unknown_disposition>"
  | some c => if c.disp then b!"allow" else b!"deny"

/-- `Permission.sprintf`, /repo/rights.go:214-216. -/
def sprintf (p : Permission) (rights : List Str) : Str :=
  disposition p ++ b!"(" ++ Str.join b!"," rights ++ b!")"

/-- `Permission.String`, /repo/rights.go:179-205. -/
def string (p : Permission) : Str :=
  match p with
  | none => b!"<invalid_permission>"
  | some c =>
    if c.bits = AllAccess then sprintf p [Right.string AllAccess]
    else if c.bits.toNat = 1023 then sprintf p [Right.string AllAccess, Right.string ProxyAccess]
    else if c.bits = NoAccess then sprintf p [Right.string NoAccess]
    else
      let held := (List.range 16).filter fun i => positive S p (.right (BitVec.twoPow 16 i))
      sprintf p (held.map fun i => Right.string (BitVec.twoPow 16 i))

/-- `parser.Permission` of go-antlraci, as used at /repo/parse.go:817-888: the
allow flag (may be nil) and the names of the rights. -/
structure Tokens where
  allow : Option Bool
  rights : List Str

/-- The loop of `unpackageAntlrPermission`, /repo/parse.go:825-831: the check word
`bits` and the permission word. -/
def unpackLoop : List Str → BitVec 16 × BitVec 16 → BitVec 16 × BitVec 16
  | [], acc => acc
  | n :: t, (bits, v) =>
    match rightsNames (Str.lower n) with
    | some r => unpackLoop t (bits ||| r, shift1 S v (.str n))
    | none => unpackLoop t (bits, v)

/-- `unpackageAntlrPermission`, /repo/parse.go:817-888.  The value returned next to
an error is not used by any caller (/repo/parse.go:899-920, 102-109). -/
def unpackage (t : Tokens) : Except Unit Cell :=
  let (bits, v) := unpackLoop S t.rights (0#16, 0#16)
  if bits = v then
    match t.allow with
    | some x => .ok { disp := x, bits := v }
    | none => .error ()
  else .error ()

end Verif.Rights
