import Verif.Model.Str

/-!
# /repo/misc.go
-/

namespace Verif.Misc
open Verif

/-- `unicode.IsLetter` of a byte taken as a rune (exact on U+0000 to U+00FF),
/repo/misc.go:103. -/
def isLetter (c : Byte) : Bool :=
  (65 ≤ c && c ≤ 90) || (97 ≤ c && c ≤ 122) || c == 0xAA || c == 0xB5 || c == 0xBA ||
  (0xC0 ≤ c && c ≤ 0xD6) || (0xD8 ≤ c && c ≤ 0xF6) || 0xF8 ≤ c

/-- `unicode.IsLower` of a byte taken as a rune, /repo/misc.go:104. -/
def isLower (c : Byte) : Bool :=
  (97 ≤ c && c ≤ 122) || c == 0xB5 || (0xDF ≤ c && c ≤ 0xF6) || 0xF8 ≤ c

/-- `unicode.IsUpper` of a byte taken as a rune, /repo/misc.go:105. -/
def isUpper (c : Byte) : Bool :=
  (65 ≤ c && c ≤ 90) || (0xC0 ≤ c && c ≤ 0xD6) || (0xD8 ≤ c && c ≤ 0xDE)

/-- `unicode.IsDigit` of a byte taken as a rune, /repo/misc.go:102. -/
def isDigit (c : Byte) : Bool := 48 ≤ c && c ≤ 57

/-- `isAlnum`, /repo/misc.go:121-123. -/
def isAlnum (c : Byte) : Bool := isLower c || isUpper c || isDigit c

/-- `isIdentifier`, /repo/misc.go:135-163.  The guards on the first and last byte
are reached only when the string is not empty. -/
def isIdentifier (val : Str) : Bool :=
  match val with
  | [] => false
  | a :: t =>
    if !isLetter a then false
    else if !isAlnum ((a :: t).getLast (by simp)) then false
    else (a :: t).all fun ch => isAlnum ch || ch == 59 || ch == 45

/-- `strInSlice`, /repo/misc.go:170-177. -/
def strInSlice (str : Str) : List Str → Bool
  | [] => false
  | a :: t => if str = a then true else strInSlice str t

/-- `strInSliceFold` with ASCII slices, /repo/misc.go:184-191. -/
def strInSliceFold (str : Str) : List Str → Bool
  | [] => false
  | a :: t => if Str.eqFold str a then true else strInSliceFold str t

/-- The quotation characters of `unquote`: `"`, `'` and backtick. -/
def isQuote (c : Byte) : Bool := c == 34 || c == 39 || c == 96

/-- Remove a leading quotation character, /repo/misc.go:207-210. -/
def dropQuote : Str → Str
  | [] => []
  | c :: t => if isQuote c then t else c :: t

/-- `unquote`, /repo/misc.go:201-219. -/
def unquote (str : Str) : Str :=
  if str.length ≤ 2 then str else (dropQuote (dropQuote str).reverse).reverse

/-- `string(rune(b))` for a byte: its UTF-8 encoding as U+0000 to U+00FF. -/
def encodeByte (b : Byte) : Str :=
  if b < 128 then [b] else [(0xC0 : UInt8) ||| (b >>> 6), (0x80 : UInt8) ||| (b &&& 0x3F)]

/-- Loop of `condenseWHSP`, /repo/misc.go:421-437; `last` is the Go variable. -/
def condenseLoop (last : Bool) : Str → Str
  | [] => []
  | c :: t =>
    if c = 9 ∨ c = 10 ∨ c = 32 then
      if last then condenseLoop true t else 32 :: condenseLoop true t
    else encodeByte c ++ condenseLoop false t

/-- `condenseWHSP`, /repo/misc.go:415-441. -/
def condenseWHSP (b : Str) : Str :=
  Str.trimSpace (condenseLoop false ((Str.trimSpace b).map fun c => if c = 10 then 32 else c))

/-- `isPowerOfTwo`, /repo/misc.go:226-228; `int` has as many bits as a word, `w`. -/
def isPowerOfTwo {w : Nat} (x : BitVec w) : Bool := x &&& (x - 1#w) == 0#w

/-- What `hashInstance` can see of an `any` argument, /repo/misc.go:273-319: nothing
usable (nil, a zero value, or no `String() string` method), a string, or a value
with a `String` method that returns the given text. -/
inductive Hashable where
  | none
  | text (s : Str)
  | stringer (s : Str)

/-- `hashInstance`, /repo/misc.go:273-294, for an arbitrary digest function `sha`
(standing for upper-cased hexadecimal SHA-1). -/
def hashInstance (sha : Str → Str) : Hashable → Except Unit Str
  | .none => .error ()
  | .text s => .ok (sha s)
  | .stringer s => if s.length = 0 then .error () else .ok (sha s)

/-- `compareHashInstance`, /repo/misc.go:250-261. -/
def compareHashInstance (sha : Str → Str) (r x : Hashable) : Bool :=
  match hashInstance sha r with
  | .error _ => false
  | .ok rh => match hashInstance sha x with
    | .error _ => false
    | .ok xh => rh == xh

end Verif.Misc
