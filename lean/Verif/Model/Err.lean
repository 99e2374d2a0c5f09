import Verif.Model.Keyword

/-!
# /repo/err.go: the errors and their texts

`sprintf` is `fmt.Sprintf` for the verbs that occur in /repo/err.go (`%T`, `%s`, `%v`,
`%d`, `%c`), with the complaints of the fmt package.  A value is given by its type name
and its text, so that its `String` or `Error` method has been called already.  An error
is the text of its `Error` method; `none` is the nil error.
-/

namespace Verif.Err
open Verif

/-- A value handed to the fmt package. -/
inductive Val where
  /-- the nil interface -/
  | nil
  /-- a number; `char` is the character with that number -/
  | num (typ text char : Str)
  /-- a string, or any other value with its text -/
  | txt (typ text : Str)

/-- `%T`. -/
def Val.typ : Val → Str
  | .nil => b!"<nil>"
  | .num t _ _ => t
  | .txt t _ => t

/-- `%v`. -/
def Val.text : Val → Str
  | .nil => b!"<nil>"
  | .num _ s _ => s
  | .txt _ s => s

/-- Type and value, as the fmt package shows them in a complaint. -/
def Val.complaint : Val → Str
  | .nil => b!"<nil>"
  | .num t s _ => t ++ b!"=" ++ s
  | .txt t s => t ++ b!"=" ++ s

/-- The complaint of the fmt package about a verb that does not suit the value. -/
def badVerb (verb : Byte) (a : Val) : Str :=
  b!"%!" ++ [verb] ++ b!"(" ++ a.complaint ++ b!")"

/-- A value shown by a verb. -/
def format (verb : Byte) (a : Val) : Str :=
  if verb = 84 then a.typ
  else if verb = 118 then a.text
  else
    match a with
    | .nil => badVerb verb a
    | .num _ s c => if verb = 100 then s else if verb = 99 then c else badVerb verb a
    | .txt _ s => if verb = 115 then s else badVerb verb a

/-- What the fmt package writes at the end about arguments that were not used. -/
def extra : List Val → Str
  | [] => []
  | a :: as => b!"%!(EXTRA " ++ Str.join b!", " ((a :: as).map Val.complaint) ++ b!")"

/-- `fmt.Sprintf`, with verbs of one byte. -/
def sprintf : Str → List Val → Str
  | [], as => extra as
  | [37], as => b!"%!(NOVERB)" ++ extra as
  | 37 :: v :: fmt, as =>
    if v = 37 then 37 :: sprintf fmt as
    else
      match as with
      | [] => b!"%!" ++ [v] ++ b!"(MISSING)" ++ sprintf fmt []
      | a :: as => format v a ++ sprintf fmt as
  | c :: fmt, as => c :: sprintf fmt as

/-- The argument `msg` of `errorf`, of type `any`. -/
inductive Msg where
  | str (s : Str)
  | err (e : Option Str)
  | other

/-- `errorf`, /repo/err.go:11-24. -/
def errorf (msg : Msg) (x : List Val) : Option Str :=
  match msg with
  | .str tv => if tv.length > 0 then some (sprintf tv x) else none
  | .err (some tv) => some (sprintf tv x)
  | .err none => none
  | .other => none

/-- An error as a value of type `any`; its type is `*errors.errorString`. -/
def errVal : Option Str → Val
  | none => .nil
  | some e => .txt b!"*errors.errorString" e

def strVal (s : Str) : Val := .txt b!"string" s
/-- The text of a whole number. -/
def intText (n : Int) : Str := if n < 0 then 45 :: Str.ofNat n.natAbs else Str.ofNat n.natAbs
/-- An `int`; no message shows an `int` as a character. -/
def intVal (n : Int) : Val := .num b!"int" (intText n) []
/-- The names of the bind keywords in the messages are those of `BindKeyword.String`. -/
def bkwVal (k : BindKeyword) : Val := .txt b!"aci.BindKeyword" (BindKeyword.string k)

/-- `nilInstanceErr`, /repo/err.go:26-28. -/
def nilInstanceErr (x : Val) : Option Str := errorf (.str b!"%T instance is nil") [x]

/-- `badInhErr`, /repo/err.go:33-35. -/
def badInhErr (bad : Str) : Option Str :=
  errorf (.str b!"Bad Inheritance value '%s'; must conform to 'parent[0-9+].<at>#<bt_or_av>'") [strVal bad]

/-- `badCopErr`, /repo/err.go:37-39. -/
def badCopErr (i : Val) : Option Str := errorf (.str b!"%T contains an bogus underlying value") [i]

/-- `badClockTimeErr`, /repo/err.go:41-47. -/
def badClockTimeErr (raw thyme : Str) : Option Str :=
  if thyme ≠ raw then
    errorf (.str b!"Unexpected %s clock time parsing result; want '%s', got '%s' (hint: use military time; 0000 through 2400)")
      [bkwVal BindToD, strVal raw, strVal thyme]
  else none

/-- `badSecurityStrengthFactorErr`, /repo/err.go:49-55. -/
def badSecurityStrengthFactorErr (raw fac : Str) : Option Str :=
  if fac ≠ raw then
    errorf (.str b!"Unexpected security strength factor parsing result; want '%s', got '%s' (hint: valid range is 0-256)")
      [strVal raw, strVal fac]
  else none

/-- `unexpectedBindConditionValueErr`, /repo/err.go:57-62. -/
def unexpectedBindConditionValueErr (key : BindKeyword) (want got : Int) : Option Str :=
  if want ≠ got then
    errorf (.str b!"Unexpected number of %s values; want %d, got %d") [bkwVal key, intVal want, intVal got]
  else none

/-- `badIPErr`, /repo/err.go:64-69. -/
def badIPErr (want got : Int) : Option Str :=
  if want ≠ got then
    errorf (.str b!"Unexpected '%s' values parsed; want '%d', got '%d'") [bkwVal BindIP, intVal want, intVal got]
  else none

/-- `badDNSErr`, /repo/err.go:71-76. -/
def badDNSErr (raw fqdn : Str) : Option Str :=
  if raw ≠ fqdn then
    errorf (.str b!"Unexpected '%s' values parsed; want '%s', got '%s'") [bkwVal BindDNS, strVal raw, strVal fqdn]
  else none

/-- `badAMErr`, /repo/err.go:78-83; `eq` is `strings.EqualFold`. -/
def badAMErr (eq : Str → Str → Bool) (raw am : Str) : Option Str :=
  if !eq am raw then
    errorf (.str b!"Unexpected %s auth method parsing result; want '%s', got '%s'") [bkwVal BindAM, strVal raw, strVal am]
  else none

/-- A keyword, or its name, or another value, given as `any`. -/
inductive KwArg where
  | str (s : Str)
  | kw (name : Str)
  | other

/-- The type switches of `badPTBRuleKeywordErr`, /repo/err.go:87-99. -/
def KwArg.text : KwArg → Str
  | .str s => s
  | .kw s => s
  | .other => []

/-- `badPTBRuleKeywordErr`, /repo/err.go:85-103. -/
def badPTBRuleKeywordErr (candidate : Val) (typ : Str) (want got : KwArg) : Option Str :=
  errorf (.str b!"Unknown or unresolvable %s rule keyword or category for %T: want '%s', got '%s'")
    [strVal typ, candidate, strVal want.text, strVal got.text]

/-- A value of interface type `Keyword`. -/
def kwVal : Option Str → Val
  | none => .nil
  | some s => .txt b!"aci.Keyword" s

/-- `noTBRuleExpressionValues`, /repo/err.go:105-108. -/
def noTBRuleExpressionValues (candidate : Val) (typ : Str) (key : Option Str) : Option Str :=
  errorf (.str b!"Found no %s %s rule expression value(s) during %T assertion")
    [kwVal key, strVal typ, candidate]

/-- `badAttributeBindTypeOrValueErr`, /repo/err.go:110-112. -/
def badAttributeBindTypeOrValueErr (x : Str) : Option Str :=
  errorf (.str b!"Invalid AttributeBindTyoeOrValue instance: must conform to '<at>#<bt_or_av>', got '%s'") [strVal x]

/-- `badObjectIdentifierErr`, /repo/err.go:114-116. -/
def badObjectIdentifierErr (x : Str) : Option Str :=
  errorf (.str b!"Invalid ObjectIdentifier instance: must conform to 'N[.N]+', got '%s'") [strVal x]

def tkwVal (k : TargetKeyword) : Val := .txt b!"aci.TargetKeyword" (TargetKeyword.string k)

/-- `badObjectIdentifierKeywordErr`, /repo/err.go:118-121. -/
def badObjectIdentifierKeywordErr (key : TargetKeyword) : Option Str :=
  errorf (.str b!"Invalid %s and/or %T[%s] value(s)") [strVal b!"ObjectIdentifier", tkwVal key, tkwVal key]

/-- `unexpectedKindErr`, /repo/err.go:123-125. -/
def unexpectedKindErr (receiver : Val) (want got : Str) : Option Str :=
  errorf (.str b!"Unexpected %T.Kind result: should be '%s', got '%s'") [receiver, strVal want, strVal got]

/-- `illegalSliceTypeErr`, /repo/err.go:127-130. -/
def illegalSliceTypeErr (receiver want got : Val) : Option Str :=
  errorf (.str b!"Illegal slice type within %T stack: should be '%T', got '%T'") [receiver, want, got]

/-- The text for a keyword that may be nil, /repo/err.go:134-140, 253-259. -/
def keyText : Option Str → Str
  | none => b!"<unspecified_keyword>"
  | some s => s

/-- `er[0]` when there is one, /repo/err.go:135-137, 254-256. -/
def firstErr : List (Option Str) → Option Str
  | [] => none
  | e :: _ => e

/-- `illegalSyntaxPerTypeErr`, /repo/err.go:132-149. -/
def illegalSyntaxPerTypeErr (candidate : Val) (key : Option Str) (er : List (Option Str)) : Option Str :=
  match firstErr er with
  | some e => errorf (.str (b!"%T [%s] syntax invalid" ++ b!": %v")) [candidate, strVal (keyText key), errVal (some e)]
  | none => errorf (.str b!"%T [%s] syntax invalid") [candidate, strVal (keyText key)]

/-- `afosNonIdempSplitErr`, /repo/err.go:151-154; the rune is given by its number and the
text of its character. -/
def afosNonIdempSplitErr (d l o : Int) (c : Nat) (char : Str) : Option Str :=
  errorf (.str b!"Inappropriate delimiter id [%d]; non-idempotent result following '%c' split: len(vals)=%d, opct=%d")
    [intVal d, .num b!"int32" (Str.ofNat c) char, intVal l, intVal o]

def afoVal : Val := .txt b!"aci.AttributeFilterOperation" []
def aopVal : Val := .txt b!"aci.AttributeOperation" []

/-- `afoMissingPrefixErr`, /repo/err.go:156-159. -/
def afoMissingPrefixErr : Option Str :=
  errorf (.str b!"%T instance is missing required %T prefix: needs either add= or delete=") [afoVal, aopVal]

/-- `aoBadPrefixErr`, /repo/err.go:161-164. -/
def aoBadPrefixErr : Option Str :=
  errorf (.str b!"Invalid %T value prefix; must be add= or delete=") [aopVal]

/-- `uriBadPrefixErr`, /repo/err.go:166-169. -/
def uriBadPrefixErr : Option Str :=
  errorf (.str b!"Invalid %T value prefix; must be %s") [.txt b!"aci.LDAPURI" [], strVal b!"ldap:///"]

/-- `afMissingDelimiterErr`, /repo/err.go:171-174. -/
def afMissingDelimiterErr (af : Val) : Option Str :=
  errorf (.str b!"No attr:filter delimiter (%c) found in %T") [.num b!"int32" b!"58" b!":", af]

def insVal : Val := .txt b!"aci.Instruction" []

/-- `instructionNoLabelErr`, /repo/err.go:176-179. -/
def instructionNoLabelErr : Option Str :=
  errorf (.str b!"%T has no name (ACL); set a string name value using %T.Set") [insVal, insVal]

/-- `levelsNotFoundErr`, /repo/err.go:181-184. -/
def levelsNotFoundErr : Option Str := errorf (.str b!"No level identifiers parsed; aborting") []

/-- `rightNotfound`, /repo/err.go:186-189. -/
def rightNotfound (x : Str) : Option Str := errorf (.str b!"Right '%s' unknown") [strVal x]

/-- `dowBadTimeErr`, /repo/err.go:191-194. -/
def dowBadTimeErr : Option Str :=
  errorf (.str b!"%T instance describes invalid timeofday") [.txt b!"aci.TimeOfDay" []]

/-- `dowBadDayErr`, /repo/err.go:196-199. -/
def dowBadDayErr (x : Val) : Option Str :=
  errorf (.str b!"%T instance describes invalid dayofweek: %v") [.txt b!"aci.DayOfWeek" [], x]

/-- `noPermissionDispErr`, /repo/err.go:201-204. -/
def noPermissionDispErr : Option Str :=
  errorf (.str b!"%T has no disposition (allow/deny), or is ambiguous (nil)") [.txt b!"aci.Permission" []]

def fqdnVal : Val := .txt b!"aci.FQDN" []

/-- `fqdnInvalidLabelErr`, /repo/err.go:206-209. -/
def fqdnInvalidLabelErr (l : Val) : Option Str := errorf (.str b!"%T has a bad label %v") [fqdnVal, l]

/-- `fqdnInvalidLenErr`, /repo/err.go:211-214; `fqdnMax` is 253 (/repo/net.go). -/
def fqdnInvalidLenErr (l : Int) : Option Str :=
  errorf (.str b!"%T size requirements not met (%d v. %d), or len < 2") [fqdnVal, intVal l, intVal 253]

/-- `parseBindRuleInvalidExprTypeErr`, /repo/err.go:216-219. -/
def parseBindRuleInvalidExprTypeErr (receiver want got : Val) : Option Str :=
  errorf (.str b!"Unexpected %T within %T; wanted %T") [got, receiver, want]

/-- `parseBindRulesHierErr`, /repo/err.go:221-224. -/
def parseBindRulesHierErr (stk b : Val) : Option Str :=
  errorf (.str b!"Unable to cast %T hierarchy into %T; aborting") [stk, b]

/-- `unexpectedStringResult`, /repo/err.go:226-229. -/
def unexpectedStringResult (typ want got : Str) : Option Str :=
  errorf (.str b!"Unexpected string %s result; want %s, got %s") [strVal typ, strVal want, strVal got]

/-- `unexpectedValueCountErr`, /repo/err.go:231-234. -/
def unexpectedValueCountErr (typ : Str) (want got : Int) : Option Str :=
  errorf (.str b!"Unexpected number of %s values; want %d, got %d") [strVal typ, intVal want, intVal got]

/-- `bogusValueErr`, /repo/err.go:236-239. -/
def bogusValueErr (typ bogus : Str) : Option Str :=
  errorf (.str b!"Bogus %s value: '%s'") [strVal typ, strVal bogus]

/-- `generalErr`, /repo/err.go:241-244. -/
def generalErr (typ : Str) (err : Option Str) : Option Str :=
  errorf (.str b!"General %s error: %v") [strVal typ, errVal err]

/-- `noValueErr`, /repo/err.go:246-249. -/
def noValueErr (candidate : Val) (typ : Str) : Option Str :=
  errorf (.str b!"Found no %s expression during processing of %T instance") [strVal typ, candidate]

/-- `pushError`, /repo/err.go:251-265. -/
def pushError (receiver candidate : Val) (key : Option Str) (emsg : Str) (er : List (Option Str)) : Option Str :=
  match firstErr er with
  | some e => errorf (.str emsg) [candidate, receiver, strVal (keyText key), errVal (some e)]
  | none => errorf (.str emsg) [candidate, receiver, strVal (keyText key)]

/-- `pushErrorNotUnique`, /repo/err.go:267-270. -/
def pushErrorNotUnique (receiver candidate : Val) (key : Option Str) (er : List (Option Str)) : Option Str :=
  pushError receiver candidate key b!"Cannot push non-unique or ineligible %T into %T [%s]" er

/-- `pushErrorNilOrZero`, /repo/err.go:272-275. -/
def pushErrorNilOrZero (receiver candidate : Val) (key : Option Str) (er : List (Option Str)) : Option Str :=
  pushError receiver candidate key b!"Cannot push zero-length or nil %T into %T [%s]: %v" er

/-- `pushErrorBadType`, /repo/err.go:277-280. -/
def pushErrorBadType (receiver candidate : Val) (key : Option Str) (er : List (Option Str)) : Option Str :=
  pushError receiver candidate key b!"Push request of %T type violates %T [%s] PushPolicy" er

end Verif.Err
