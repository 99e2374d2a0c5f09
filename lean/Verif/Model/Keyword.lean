import Verif.Model.Misc

/-!
# /repo/kw.go and /repo/cop.go

Keywords, bind types and comparison operators are `uint8` values; the exported
types let a user make any of the 256 values.
-/

namespace Verif
open Verif Verif.Misc

/-- `BindKeyword`, /repo/kw.go:29. -/
abbrev BindKeyword := UInt8
/-- `TargetKeyword`, /repo/kw.go:34. -/
abbrev TargetKeyword := UInt8
/-- `BindType`, /repo/kw.go:45. -/
abbrev BindType := UInt8
/-- `ComparisonOperator`, /repo/stackage.go:38. -/
abbrev Cop := UInt8

/-! Bind types, /repo/kw.go:59-66. -/
def USERDN : BindType := 1
def GROUPDN : BindType := 2
def ROLEDN : BindType := 3
def SELFDN : BindType := 4
def LDAPURL : BindType := 5

/-! Bind keywords, /repo/kw.go:71-84. -/
def BindUDN : BindKeyword := 1
def BindRDN : BindKeyword := 2
def BindGDN : BindKeyword := 3
def BindUAT : BindKeyword := 4
def BindGAT : BindKeyword := 5
def BindIP : BindKeyword := 6
def BindDNS : BindKeyword := 7
def BindDoW : BindKeyword := 8
def BindToD : BindKeyword := 9
def BindAM : BindKeyword := 10
def BindSSF : BindKeyword := 11

/-! Target keywords, /repo/kw.go:89-100. -/
def Target : TargetKeyword := 1
def TargetTo : TargetKeyword := 2
def TargetAttr : TargetKeyword := 3
def TargetCtrl : TargetKeyword := 4
def TargetFrom : TargetKeyword := 5
def TargetScope : TargetKeyword := 6
def TargetFilter : TargetKeyword := 7
def TargetAttrFilters : TargetKeyword := 8
def TargetExtOp : TargetKeyword := 9

/-! Operators, /repo/stackage.go:23-32. -/
def badCop : Cop := 0
def Eq' : Cop := 1
def Ne' : Cop := 2
def Lt' : Cop := 3
def Gt' : Cop := 4
def Le' : Cop := 5
def Ge' : Cop := 6

/-- `bkwMap`, /repo/kw.go:206-218.  A Go map has no order; functions that range over
a map take the order as an argument. -/
def bkwMap : List (BindKeyword × Str) :=
  [ (BindUDN, b!"userdn"), (BindRDN, b!"roledn"), (BindGDN, b!"groupdn"),
    (BindUAT, b!"userattr"), (BindGAT, b!"groupattr"), (BindIP, b!"ip"), (BindDNS, b!"dns"),
    (BindDoW, b!"dayofweek"), (BindToD, b!"timeofday"), (BindAM, b!"authmethod"),
    (BindSSF, b!"ssf") ]

/-- `tkwMap`, /repo/kw.go:221-231. -/
def tkwMap : List (TargetKeyword × Str) :=
  [ (Target, b!"target"), (TargetTo, b!"target_to"), (TargetAttr, b!"targetattr"),
    (TargetCtrl, b!"targetcontrol"), (TargetFrom, b!"target_from"),
    (TargetScope, b!"targetscope"), (TargetFilter, b!"targetfilter"),
    (TargetAttrFilters, b!"targattrfilters"), (TargetExtOp, b!"extop") ]

/-- `btMap`, /repo/kw.go:234-240. -/
def btMap : List (BindType × Str) :=
  [ (USERDN, b!"USERDN"), (ROLEDN, b!"ROLEDN"), (SELFDN, b!"SELFDN"),
    (GROUPDN, b!"GROUPDN"), (LDAPURL, b!"LDAPURL") ]

/-- Lookup of a key in a map, with a default: the body of the `String` methods. -/
def lookupD (m : List (UInt8 × Str)) (d : Str) (k : UInt8) : Str :=
  match m.find? fun e => e.1 == k with
  | some e => e.2
  | none => d

/-- `BindType.String`, /repo/kw.go:105-111. -/
def BindType.string (k : BindType) : Str := lookupD btMap b!"<invalid_bind_type>" k
/-- `BindKeyword.String`, /repo/kw.go:130-136. -/
def BindKeyword.string (k : BindKeyword) : Str := lookupD bkwMap b!"<invalid_bind_keyword>" k
/-- `TargetKeyword.String`, /repo/kw.go:141-147. -/
def TargetKeyword.string (k : TargetKeyword) : Str :=
  lookupD tkwMap b!"<invalid_target_keyword>" k

/-- The loop shared by `matchTKW`, `matchBKW` and `matchBT`, /repo/kw.go:168-202, for
one order `m` of the map. -/
def matchOn (m : List (UInt8 × Str)) (kw : Str) : UInt8 :=
  match m with
  | [] => 0
  | e :: t => if Str.eqFold kw e.2 then e.1 else matchOn t kw

/-- `matchTKW`, /repo/kw.go:168-176. -/
def matchTKW (kw : Str) : TargetKeyword := matchOn tkwMap kw
/-- `matchBKW`, /repo/kw.go:181-189. -/
def matchBKW (kw : Str) : BindKeyword := matchOn bkwMap kw
/-- `matchBT`, /repo/kw.go:194-202. -/
def matchBT (kw : Str) : BindType := matchOn btMap kw

/-- `assertATBTVBindKeyword`, /repo/kw.go:149-163: `none` is an argument that is not
a `BindKeyword`. -/
def assertATBTVBindKeyword : List (Option BindKeyword) → BindKeyword
  | [] => BindUAT
  | some k :: _ => if k = BindGAT then k else BindUAT
  | none :: _ => BindUAT

/-- `ComparisonOperator.String`, /repo/cop.go:22-24 (contract of go-stackage). -/
def Cop.string (c : Cop) : Str :=
  if c = Eq' then b!"=" else if c = Ne' then b!"!=" else if c = Lt' then b!"<"
  else if c = Gt' then b!">" else if c = Le' then b!"<=" else if c = Ge' then b!">="
  else b!"<invalid_operator>"

/-- `ComparisonOperator.Context`, /repo/cop.go:35-52. -/
def Cop.context (c : Cop) : Str :=
  if c = Eq' then b!"Eq" else if c = Ne' then b!"Ne" else if c = Lt' then b!"Lt"
  else if c = Le' then b!"Le" else if c = Gt' then b!"Gt" else if c = Ge' then b!"Ge"
  else Cop.string c

/-- `ComparisonOperator.Description`, /repo/cop.go:69-86. -/
def Cop.description (c : Cop) : Str :=
  if c = Eq' then b!"Equal To" else if c = Ne' then b!"Not Equal To"
  else if c = Lt' then b!"Less Than" else if c = Le' then b!"Less Than Or Equal"
  else if c = Gt' then b!"Greater Than" else if c = Ge' then b!"Greater Than Or Equal"
  else Cop.string c

/-- `isValidCopNumeral`, /repo/cop.go:126-128. -/
def isValidCopNumeral (x : Int) : Bool := 1 ≤ x && x ≤ 6

/-- `ComparisonOperator.Valid` (true: nil error), /repo/cop.go:91-97. -/
def Cop.valid (c : Cop) : Bool := isValidCopNumeral c.toNat

/-- An operator argument of type `any`. -/
inductive OpArg where
  | cop (c : Cop)
  | int (i : Int)
  | str (s : Str)
  | other
  deriving DecidableEq

/-- Go's conversion of an `int` to `uint8`. -/
def toU8 (i : Int) : UInt8 := UInt8.ofNat (i % 256).toNat

/-- `ComparisonOperator.Compare`, /repo/cop.go:104-119. -/
def Cop.compare (r : Cop) : OpArg → Bool
  | .cop c => c == r
  | .int i => i == (r.toNat : Int)
  | .str s => strInSliceFold s [Cop.description r, Cop.context r, Cop.string r]
  | .other => false

/-- The values of `comparisonOperatorMap`, /repo/cop.go:236-243. -/
def copMap : List Cop := [Eq', Ne', Lt', Le', Gt', Ge']

/-- `matchCOP`, /repo/cop.go:175-187, for one order of the map. -/
def matchCOPOn : List Cop → Str → Cop
  | [], _ => badCop
  | v :: t, op =>
    if strInSliceFold op [Cop.string v, Cop.context v, Cop.description v] then v
    else matchCOPOn t op

/-- `matchCOP`, /repo/cop.go:175-187. -/
def matchCOP (op : Str) : Cop := matchCOPOn copMap op

/-- `permittedTargetComparisonOperators`, /repo/cop.go:247-257. -/
def permittedTarget : List (TargetKeyword × List Cop) :=
  [ (Target, [Eq', Ne']), (TargetTo, [Eq', Ne']), (TargetFrom, [Eq', Ne']),
    (TargetCtrl, [Eq', Ne']), (TargetAttr, [Eq', Ne']), (TargetExtOp, [Eq', Ne']),
    (TargetScope, [Eq']), (TargetFilter, [Eq', Ne']), (TargetAttrFilters, [Eq']) ]

/-- `permittedBindComparisonOperators`, /repo/cop.go:261-273. -/
def permittedBind : List (BindKeyword × List Cop) :=
  [ (BindUDN, [Eq', Ne']), (BindRDN, [Eq', Ne']), (BindGDN, [Eq', Ne']), (BindIP, [Eq', Ne']),
    (BindAM, [Eq', Ne']), (BindDNS, [Eq', Ne']), (BindUAT, [Eq', Ne']), (BindGAT, [Eq', Ne']),
    (BindDoW, [Eq', Ne']), (BindSSF, [Eq', Ne', Lt', Le', Gt', Ge']),
    (BindToD, [Eq', Ne', Lt', Le', Gt', Ge']) ]

/-- The shared body of `bindKeywordAllowsComparisonOperator` and
`targetKeywordAllowsComparisonOperator`, /repo/cop.go:192-233. -/
def allowsIn (m : List (UInt8 × List Cop)) (key : UInt8) (c : Cop) : Bool :=
  match m.find? fun e => e.1 == key with
  | some e => e.2.any (· == c)
  | none => false

/-- A keyword argument of type `any`. -/
inductive KwArg where
  | bind (k : BindKeyword)
  | target (k : TargetKeyword)
  | str (s : Str)
  | other

/-- `keywordAllowsComparisonOperator`, /repo/cop.go:135-168. -/
def keywordAllows (kw : KwArg) (op : OpArg) : Bool :=
  let go (c : Cop) : Bool :=
    match kw with
    | .str s =>
      if matchBKW s ≠ 0 then allowsIn permittedBind (matchBKW s) c
      else if matchTKW s ≠ 0 then allowsIn permittedTarget (matchTKW s) c
      else false
    | .bind k => allowsIn permittedBind k c
    | .target k => allowsIn permittedTarget k c
    | .other => false
  match op with
  | .str s => go (matchCOP s)
  | .cop c => go c
  | .int i => go (toU8 i)
  | .other => false

/-- The part of a `stackage.Condition` behind a `BindRule` or `TargetRule` that the
setters use: whether it is initialised, the text of its keyword (what
`Condition.Keyword` returns) and its operator (0: none). -/
structure RuleCore where
  init : Bool
  kw : Str
  op : Cop
  deriving DecidableEq

/-- `BindRule.SetOperator`, /repo/bind.go:710-743.  `Condition.SetOperator` of
go-stackage is assumed to store the operator. -/
def BindRule.setOperator (r : RuleCore) (op : OpArg) : RuleCore :=
  let c : Cop := match op with
    | .str s => matchCOP s
    | .cop c => c
    | _ => 0
  if c ≠ Eq' ∧ keywordAllows (.bind (matchBKW r.kw)) op = false then r
  else if c = 0 then r
  else if r.init = false then r
  else { r with op := c }

/-- `TargetRule.SetOperator`, /repo/target.go:406-440. -/
def TargetRule.setOperator (r : RuleCore) (op : OpArg) : RuleCore :=
  match op with
  | .str s => go (matchCOP s)
  | .cop c => go c
  | _ => r
where
  go (c : Cop) : RuleCore :=
    if c = 0 then r
    else if c ≠ Eq' ∧ keywordAllows (.target (matchTKW r.kw)) op = false then r
    else if r.init then { r with op := c } else r

/-- `BindRule.SetKeyword`, /repo/bind.go:698-705: the text of the keyword is stored
as given (a `Keyword` value by its text); an uninitialised rule stays as it is, as the
receiver is a copy.  For what is returned see Model/Piece. -/
def BindRule.setKeyword (r : RuleCore) : KwArg → RuleCore
  | .str s => if r.init then { r with kw := s } else r
  | .bind k => if r.init then { r with kw := BindKeyword.string k } else r
  | .target k => if r.init then { r with kw := TargetKeyword.string k } else r
  | .other => r

/-- `TargetRule.SetKeyword`, /repo/target.go:392-401. -/
def TargetRule.setKeyword (r : RuleCore) : KwArg → RuleCore
  | .str s => if r.init then { r with kw := TargetKeyword.string (matchTKW s) } else r
  | .bind k =>
    if r.init then { r with kw := TargetKeyword.string (matchTKW (BindKeyword.string k)) } else r
  | .target k =>
    if r.init then { r with kw := TargetKeyword.string (matchTKW (TargetKeyword.string k)) } else r
  | .other => r

/-- `TargetRule.Valid` (true: nil error), /repo/target.go:239-254; `condOk` is the
result of go-stackage's `Condition.Valid`. -/
def TargetRule.valid (r : RuleCore) (condOk : Bool) : Bool :=
  if r.init = false then false
  else if keywordAllows (.str r.kw) (.cop r.op) = false then false
  else condOk

/-- A map from operators to builder methods, in one iteration order
(`bindRuleFuncMap`, /repo/bind.go:239, and `targetRuleFuncMap`, /repo/target.go:179);
`none` is the nil pointer. -/
abbrev MethodMap (μ : Type) := Option (List (Cop × μ))

/-- Map lookup. -/
def mapGet {μ : Type} (m : List (Cop × μ)) (c : Cop) : Option μ :=
  (m.find? fun e => e.1 == c).map (·.2)

/-- `rangeBindRuleFuncMap` and `rangeTargetRuleFuncMap`, /repo/bind.go:100-117 and
/repo/target.go:99-116. -/
def rangeFuncMap {μ : Type} (candidate : Str) : List (Cop × μ) → Cop × Option μ
  | [] => (badCop, none)
  | (k, v) :: t =>
    if strInSliceFold candidate [Cop.string k, Cop.context k, Cop.description k] then (k, some v)
    else rangeFuncMap candidate t

/-- The `int` case of `BindRuleMethods.index`, /repo/bind.go:76-91. -/
def BindRuleMethods.byInt {μ : Type} (m : List (Cop × μ)) (tv : Int) : Cop × Option μ :=
  match mapGet m (toU8 tv) with
  | some f => (toU8 tv, some f)
  | none => (badCop, none)

/-- `BindRuleMethods.index`, /repo/bind.go:61-98. -/
def BindRuleMethods.index {μ : Type} (r : MethodMap μ) (idx : OpArg) : Cop × Option μ :=
  match r with
  | none => (badCop, none)
  | some m =>
    match idx with
    | .cop c => byInt m c.toNat
    | .int i => byInt m i
    | .str s => rangeFuncMap s m
    | .other => (badCop, none)

/-- The `int` case of `TargetRuleMethods.index`, /repo/target.go:79-90. -/
def TargetRuleMethods.byInt {μ : Type} (m : List (Cop × μ)) (tv : Int) : Cop × Option μ :=
  if isValidCopNumeral tv = false then (badCop, none)
  else match mapGet m (toU8 tv) with
    | some f => (toU8 tv, some f)
    | none => (badCop, none)

/-- `TargetRuleMethods.index`, /repo/target.go:64-97. -/
def TargetRuleMethods.index {μ : Type} (r : MethodMap μ) (idx : OpArg) : Cop × Option μ :=
  match r with
  | none => (badCop, none)
  | some m =>
    match idx with
    | .cop c => byInt m c.toNat
    | .int i => byInt m i
    | .str s => rangeFuncMap s m
    | .other => (badCop, none)

/-- `BindRuleMethods.Contains`, /repo/bind.go:179-182. -/
def BindRuleMethods.contains {μ : Type} (r : MethodMap μ) (idx : OpArg) : Bool :=
  Cop.valid (BindRuleMethods.index r idx).1

/-- `TargetRuleMethods.Contains`, /repo/target.go:123-126. -/
def TargetRuleMethods.contains {μ : Type} (r : MethodMap μ) (idx : OpArg) : Bool :=
  Cop.valid (TargetRuleMethods.index r idx).1

end Verif
