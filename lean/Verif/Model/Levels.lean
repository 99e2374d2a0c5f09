import Verif.Model.Shifty
import Verif.Model.Attr

/-!
# /repo/levels.go, and `assertBindUGAttr` of /repo/parse.go
-/

namespace Verif.Levels
open Verif Verif.Misc Verif.Attr

/-- `Level`, /repo/levels.go:72. -/
abbrev Level := BitVec 16

/-! Constants, /repo/levels.go:18-32. -/
def noLvl : Level := 0#16
def Level0 : Level := BitVec.ofNat 16 2
def Level1 : Level := BitVec.ofNat 16 4
def Level2 : Level := BitVec.ofNat 16 8
def Level3 : Level := BitVec.ofNat 16 16
def Level4 : Level := BitVec.ofNat 16 32
def Level5 : Level := BitVec.ofNat 16 64
def Level6 : Level := BitVec.ofNat 16 128
def Level7 : Level := BitVec.ofNat 16 256
def Level8 : Level := BitVec.ofNat 16 512
def Level9 : Level := BitVec.ofNat 16 1024
def AllLevels : Level := BitVec.ofNat 16 2046

/-- `levelMap`, /repo/levels.go:431-442. -/
def levelMap : List (Int × Level) :=
  [ (0, Level0), (1, Level1), (2, Level2), (3, Level3), (4, Level4),
    (5, Level5), (6, Level6), (7, Level7), (8, Level8), (9, Level9) ]

/-- `levelNumbers`, /repo/levels.go:444-455. -/
def levelNumbers : List (Str × Level) :=
  [ (b!"0", Level0), (b!"1", Level1), (b!"2", Level2), (b!"3", Level3), (b!"4", Level4),
    (b!"5", Level5), (b!"6", Level6), (b!"7", Level7), (b!"8", Level8), (b!"9", Level9) ]

/-- `levelBitIter`, /repo/levels.go:10. -/
def levelBitIter : Nat := 12

/-- `assertStrInheritance`, /repo/levels.go:343-352, for one order of the map. -/
def assertStrOn (m : List (Str × Level)) (x : Str) : Level :=
  match m with
  | [] => noLvl
  | (k, v) :: t => if x = k then v else assertStrOn t x

/-- `assertStrInheritance`, /repo/levels.go:343-352. -/
def assertStr (x : Str) : Level := assertStrOn levelNumbers x

/-- `levelMap[x]` with the default of `assertIntInheritance`, /repo/levels.go:357-363. -/
def assertIntOn (m : List (Int × Level)) (x : Int) : Level :=
  match m with
  | [] => noLvl
  | (k, v) :: t => if x = k then v else assertIntOn t x

/-- `assertIntInheritance`, /repo/levels.go:357-363. -/
def assertInt (x : Int) : Level := assertIntOn levelMap x

/-- `Level.String`, /repo/levels.go:288-297, for one order of the map. -/
def levelStringOn (m : List (Str × Level)) (r : Level) : Str :=
  match m with
  | [] => []
  | (k, v) :: t => if r = v then k else levelStringOn t r

/-- `Level.String`, /repo/levels.go:288-297. -/
def levelString (r : Level) : Str := levelStringOn levelNumbers r

/-- An argument of type `any`. -/
inductive Arg where
  | level (l : Level)
  | int (i : Int)
  | str (s : Str)
  | other

/-- The type switch shared by `shift`, `positive` and `unshift`,
/repo/levels.go:327-335, 386-394, 415-423. -/
def level : Arg → Level
  | .level l => l
  | .int i => assertInt i
  | .str s => assertStr s
  | .other => noLvl

/-- `inheritance`, /repo/levels.go:44-47.  The pointer to the level word is never nil:
every place that makes an `inheritance` also makes the word (/repo/levels.go:60-61,
189-190, 311-314). -/
structure Inh where
  levels : BitVec 16
  abtv : ABTV
  deriving DecidableEq

/-- `Inheritance`, /repo/levels.go:37-39. -/
abbrev Inheritance := Option Inh

/-- `Inheritance.IsZero`, /repo/levels.go:77-79, 145-150. -/
def isZero : Inheritance → Bool
  | none => true
  | some i => i.abtv.isZero

/-- `Inheritance.Valid` (true: nil error), /repo/levels.go:84-95. -/
def valid (r : Inheritance) : Bool := !isZero r

/-- One round of `inheritance.shift`, /repo/levels.go:326-337. -/
def shift1 (v : BitVec 16) (a : Arg) : BitVec 16 := Shifty.shift v (level a)

/-- One round of `inheritance.unshift`, /repo/levels.go:414-425. -/
def unshift1 (v : BitVec 16) (a : Arg) : BitVec 16 := Shifty.unshift v (level a)

/-- `inheritance.shift`, /repo/levels.go:321-338. -/
def Inh.shift (r : Inh) (x : List Arg) : Inh := { r with levels := x.foldl shift1 r.levels }

/-- `inheritance.unshift`, /repo/levels.go:413-426. -/
def Inh.unshift (r : Inh) (x : List Arg) : Inh := { r with levels := x.foldl unshift1 r.levels }

/-- `Inherit`, /repo/levels.go:52-65. -/
def Inherit (x : ABTV) (lvl : List Arg) : Inheritance :=
  some { (Inh.shift ⟨0#16, ABTV.zero⟩ lvl) with abtv := x }

/-- `Inheritance.Shift`, /repo/levels.go:309-316: the returned value.  For a zero
receiver this is a fresh inheritance and the receiver is not changed. -/
def shift (r : Inheritance) (x : List Arg) : Inheritance :=
  match isZero r, r with
  | false, some i => some (i.shift x)
  | _, _ => some (Inh.shift ⟨0#16, ABTV.zero⟩ x)

/-- `Inheritance.Unshift`, /repo/levels.go:403-408. -/
def unshift (r : Inheritance) (x : List Arg) : Inheritance :=
  match isZero r, r with
  | false, some i => some (i.unshift x)
  | _, _ => r

/-- `Inheritance.Positive`, /repo/levels.go:368-373, 385-398. -/
def positive (S : Shifty 16) (r : Inheritance) (x : Arg) : Bool :=
  match isZero r, r with
  | false, some i => S.positive i.levels (level x)
  | _, _ => false

/-- The bits looked at by the loops over `levelBitIter`. -/
def scan (S : Shifty 16) (v : BitVec 16) : List Level :=
  ((List.range levelBitIter).map fun i => BitVec.twoPow 16 i).filter fun d => S.positive v d

/-- `Inheritance.Len`, /repo/levels.go:224-233. -/
def len (S : Shifty 16) (r : Inheritance) : Nat :=
  (((List.range levelBitIter).map fun i => BitVec.twoPow 16 i).filter
    fun d => positive S r (.level d)).length

/-- `levels.string`, /repo/levels.go:271-283. -/
def levelsString (S : Shifty 16) (v : BitVec 16) : Str :=
  if v.toNat > 0 then Str.join b!"," ((scan S v).map levelString)
  else Str.join b!"," [levelString Level0]

/-- `badInheritance`, /repo/levels.go:428. -/
def badInheritance : Str := b!"<invalid_inheritance>"

/-- What the `fmt` package prints for `%s` when the `String` method panics. -/
def fmtPanic : Str :=
  b!"%!s(PANIC=String method: runtime error: invalid memory address or nil pointer dereference)"

/-- `Inheritance.String`, /repo/levels.go:257-266. -/
def string (S : Shifty 16) : Inheritance → Str
  | none => badInheritance
  | some i =>
    if i.abtv.isZero then badInheritance
    else b!"parent[" ++ levelsString S i.levels ++ b!"]." ++ (i.abtv.string).getD fmtPanic

/-- `Inheritance.Keyword`, /repo/levels.go:238-250; `none` is nil. -/
def keyword : Inheritance → Option BindKeyword
  | none => none
  | some i =>
    if i.abtv.isZero then none
    else if i.abtv.kw = BindGAT ∨ i.abtv.kw = BindUAT then some i.abtv.kw else none

/-- Outcome of a Go function that returns a value and an error, or panics. -/
inductive Outcome (α : Type) where
  | panic
  | err
  | ok (a : α)

/-- The last part of `parseInheritance`, /repo/levels.go:189-218: `lv` is the text
between the brackets, `rest` what follows the dot. -/
def parseRest (lv rest : Str) : Outcome Inheritance :=
  let w := ((Str.split1 44 (Str.dropSpaces lv)).map Arg.str).foldl shift1 0#16
  if w.toNat = 0 then .err
  else match parseATBTV rest [] with
    | .error _ => .err
    | .ok abv => .ok (some ⟨w, abv⟩)

/-- The check of the byte after the bracket, /repo/levels.go:182-185: indexing an
empty remainder panics. -/
def parseAfter (lv : Str) : Str → Outcome Inheritance
  | [] => .panic
  | c :: rest => if c ≠ 46 then .err else parseRest lv rest

/-- The part of `parseInheritance` after the prefix, /repo/levels.go:167-185. -/
def parseRaw (raw : Str) : Outcome Inheritance :=
  match Str.cut1 93 raw with
  | none => .err
  | some (lv, after) => parseAfter lv after

/-- `parseInheritance`, /repo/levels.go:157-219. -/
def parseInheritance (inh : Str) : Outcome Inheritance :=
  if !Str.hasPrefix (Str.lower inh) b!"parent[" then .err
  else if inh.length < 7 then .panic
  else parseRaw (inh.drop 7)

/-! ## Values of `userattr` and `groupattr` bind rules -/

/-- `LocalScheme`, /repo/dn.go:23. -/
def LocalScheme : Str := b!"ldap:///"

/-- The value made for a `userattr` or `groupattr` bind rule. -/
inductive UGAttr (U : Type) where
  | uri (u : U)
  | inh (i : Inheritance)
  | pair (a : ABTV)

def Outcome.map {α β : Type} (f : α → β) : Outcome α → Outcome β
  | .panic => .panic
  | .err => .err
  | .ok a => .ok (f a)

def Outcome.ofExcept {α : Type} : Except Unit α → Outcome α
  | .error _ => .err
  | .ok a => .ok a

/-- `assertBindUGAttr`, /repo/parse.go:162-183; `uri` stands for `parseLDAPURI`. -/
def assertBindUGAttr {U : Type} (uri : Str → BindKeyword → Except Unit U) (values : List Str)
    (key : BindKeyword) : Outcome (UGAttr U) :=
  match values with
  | [v] =>
    if Str.hasPrefix (unquote (condenseWHSP v)) LocalScheme then
      (Outcome.ofExcept (uri (unquote (condenseWHSP v)) key)).map .uri
    else if Str.hasPrefix (unquote (condenseWHSP v)) b!"parent[" then
      (parseInheritance (unquote (condenseWHSP v))).map .inh
    else (Outcome.ofExcept (parseATBTV (unquote (condenseWHSP v)) [some key])).map .pair
  | _ => .err

end Verif.Levels
