import Verif.Model.Misc

/-!
# /repo/sec.go

The methods that build bind rules are in `Verif.Model.Bind`.
-/

namespace Verif.Sec
open Verif

/-- `AuthenticationMethod`, /repo/sec.go:12. -/
abbrev AuthenticationMethod := UInt8

/-! /repo/sec.go:31-40 -/

def noAuth : AuthenticationMethod := 0
def Anonymous : AuthenticationMethod := 1
def Simple : AuthenticationMethod := 2
def SSL : AuthenticationMethod := 3
def SASL : AuthenticationMethod := 4
def EXTERNAL : AuthenticationMethod := 5
def DIGESTMD5 : AuthenticationMethod := 6
def GSSAPI : AuthenticationMethod := 7

/-- `authMap`, /repo/sec.go:345-353. -/
def authMap : List (Int × AuthenticationMethod) :=
  [(0, Anonymous), (1, Simple), (2, SSL), (3, SASL), (5, EXTERNAL), (4, DIGESTMD5), (6, GSSAPI)]

/-- `authNames`, /repo/sec.go:362-372. -/
def authNames : List (Str × AuthenticationMethod) :=
  [(b!"none", Anonymous), (b!"simple", Simple), (b!"ssl", SSL), (b!"sasl", SASL),
   (b!"sasl EXTERNAL", EXTERNAL), (b!"sasl DIGEST-MD5", DIGESTMD5), (b!"sasl GSSAPI", GSSAPI)]

/-- `foldAuthenticationMethod`, /repo/sec.go:333-338; `low` is the package variable
`AuthenticationMethodLowerCase`, /repo/sec.go:24. -/
def foldAuthenticationMethod (low : Bool) (x : Str) : Str :=
  if low then Str.lower x else Str.upper x

/-- `AuthenticationMethod.String`, /repo/sec.go:83-92, for `authNames` iterated in
the order of the list. -/
def authString (names : List (Str × AuthenticationMethod)) (low : Bool)
    (r : AuthenticationMethod) : Str :=
  match names with
  | [] => []
  | (k, v) :: m => if v = r then foldAuthenticationMethod low k else authString m low r

/-- Loop over `authMap`, /repo/sec.go:312-317. -/
def byNumber (tv : Int) : List (Int × AuthenticationMethod) → AuthenticationMethod
  | [] => Anonymous
  | (k, v) :: m => if k = tv then v else byNumber tv m

/-- Loop over `authNames`, /repo/sec.go:319-324. -/
def byName (tv : Str) : List (Str × AuthenticationMethod) → AuthenticationMethod
  | [] => Anonymous
  | (k, v) :: m => if Str.eqFold k tv then v else byName tv m

/-- An argument of type `any`. -/
inductive Arg where
  | null
  | str (s : Str)
  | int (i : Int)
  | other

/-- `matchAuthenticationMethod`, /repo/sec.go:307-328, for maps iterated in the order
of the lists. -/
def matchAuthenticationMethod (nums : List (Int × AuthenticationMethod))
    (names : List (Str × AuthenticationMethod)) : Arg → AuthenticationMethod
  | .int i => byNumber i nums
  | .str s => byName s names
  | .null => Anonymous
  | .other => Anonymous

/-- `assertBindAuthenticationMethod`, /repo/parse.go:210-221, with `badAMErr`,
/repo/err.go:78-83.  The two iterations over `authNames` may differ. -/
def assertBindAuthenticationMethod (names names' : List (Str × AuthenticationMethod)) (low : Bool)
    (values : List Str) : Except Unit AuthenticationMethod :=
  match values with
  | [v] =>
    let unq := Misc.unquote (Misc.condenseWHSP v)
    let ex := byName unq names
    if Str.eqFold (authString names' low ex) unq then .ok ex else .error ()
  | _ => .error ()

/-- `SecurityStrengthFactor`, /repo/sec.go:104-110: the outer pointer may be nil, and
so may be the inner one.  Copies of a value share the inner struct; the model
follows one of them. -/
abbrev SecurityStrengthFactor := Option (Option Byte)

/-- `stringToIntSSF`, /repo/sec.go:291-302. -/
def stringToIntSSF (x : Str) : Int :=
  let l := Str.lower x
  if l = b!"full" ∨ l = b!"max" then 256
  else if l = b!"none" ∨ l = b!"off" then 0
  else (Str.atoi x).1

/-- The `int` case of `ssf.set`, /repo/sec.go:276-285. -/
def ssfInt (tv : Int) : Option Byte :=
  if 256 < tv then some (UInt8.ofNat 255)
  else if tv ≤ 0 then none
  else some (UInt8.ofNat (tv - 1).toNat)

/-- `ssf.set`, /repo/sec.go:265-289. -/
def ssfSet (r : Option Byte) : Arg → Option Byte
  | .null => none
  | .str tv => if stringToIntSSF tv = 0 then none else ssfInt (stringToIntSSF tv)
  | .int tv => ssfInt tv
  | .other => r

/-- `SSF`, /repo/sec.go:115-121. -/
def SSF : List Arg → SecurityStrengthFactor
  | [] => some none
  | x :: _ => some (ssfSet none x)

/-- `SecurityStrengthFactor.Set`, /repo/sec.go:253-260: a nil receiver is given a
byte 0 first. -/
def set (r : SecurityStrengthFactor) (x : Arg) : SecurityStrengthFactor :=
  match r with
  | none => some (ssfSet (some 0) x)
  | some b => some (ssfSet b x)

/-- `SecurityStrengthFactor.IsZero`, /repo/sec.go:133-139. -/
def isZero : SecurityStrengthFactor → Bool
  | none => true
  | some b => b.isNone

/-- `SecurityStrengthFactor.String`, /repo/sec.go:208-213. -/
def string : SecurityStrengthFactor → Str
  | some (some b) => Str.ofNat (b.toNat + 1)
  | _ => b!"0"

/-- `assertBindSecurityStrengthFactor`, /repo/parse.go:223-234, with
`badSecurityStrengthFactorErr`, /repo/err.go:49-55. -/
def assertBindSecurityStrengthFactor (values : List Str) : Except Unit SecurityStrengthFactor :=
  match values with
  | [v] =>
    let unq := Misc.unquote (Misc.condenseWHSP v)
    let ex := SSF [.str unq]
    if string ex = unq then .ok ex else .error ()
  | _ => .error ()

end Verif.Sec
