/-!
# Strings

A Go string is a finite sequence of bytes; nothing in the package requires it to
be valid UTF-8.  This file models the functions of Go's standard library that
/repo/misc.go:82-110 aliases, on byte lists.
-/

namespace Verif

/-- A byte. -/
abbrev Byte := UInt8

/-- A Go string: its bytes. -/
abbrev Str := List UInt8

/-- `b!"text"` is the list of the bytes of an ASCII literal. -/
macro:max "b!" s:str : term => do
  let bs := s.getString.toUTF8.toList
  let es ← bs.mapM fun b => `($(Lean.Syntax.mkNumLit (toString b.toNat)))
  `(([$(es.toArray),*] : List UInt8))

namespace Str

/-- ASCII lower case of one byte. -/
def lowerByte (c : Byte) : Byte := if 65 ≤ c ∧ c ≤ 90 then c + 32 else c

/-- ASCII upper case of one byte. -/
def upperByte (c : Byte) : Byte := if 97 ≤ c ∧ c ≤ 122 then c - 32 else c

/-- Canonical form for `strings.EqualFold` (`eq`, /repo/misc.go:85) against an
ASCII string.  Simple case folding maps exactly two characters outside ASCII to
ASCII letters: U+212A (E2 84 AA) to `k` and U+017F (C5 BF) to `s`; all other
non-ASCII bytes are kept. -/
def fold : Str → Str
  | [] => []
  | [a] => [lowerByte a]
  | [a, b] => if a = 0xC5 ∧ b = 0xBF then [115] else lowerByte a :: fold [b]
  | a :: b :: c :: t =>
    if a = 0xE2 ∧ b = 0x84 ∧ c = 0xAA then 107 :: fold t
    else if a = 0xC5 ∧ b = 0xBF then 115 :: fold (c :: t)
    else lowerByte a :: fold (b :: c :: t)

/-- `strings.EqualFold` (/repo/misc.go:85) where at least one operand is ASCII
(used only for comparisons with literals of the package). -/
def eqFold (a b : Str) : Bool := fold a == fold b

/-- `strings.ToLower` (`lc`, /repo/misc.go:83), exact for comparison with ASCII
strings.  Outside ASCII only U+212A (E2 84 AA) and U+0130 (C4 B0) have ASCII
lower case forms (`k` and `i`); all other non-ASCII bytes are kept. -/
def lower : Str → Str
  | [] => []
  | [a] => [lowerByte a]
  | [a, b] => if a = 0xC4 ∧ b = 0xB0 then [105] else lowerByte a :: lower [b]
  | a :: b :: c :: t =>
    if a = 0xE2 ∧ b = 0x84 ∧ c = 0xAA then 107 :: lower t
    else if a = 0xC4 ∧ b = 0xB0 then 105 :: lower (c :: t)
    else lowerByte a :: lower (b :: c :: t)

/-- `strings.ToUpper` (`uc`, /repo/misc.go:84), exact for comparison with ASCII
strings.  Outside ASCII only U+017F (C5 BF) and U+0131 (C4 B1) have ASCII upper
case forms (`S` and `I`); all other non-ASCII bytes are kept. -/
def upper : Str → Str
  | [] => []
  | [a] => [upperByte a]
  | a :: b :: t =>
    if a = 0xC5 ∧ b = 0xBF then 83 :: upper t
    else if a = 0xC4 ∧ b = 0xB1 then 73 :: upper t
    else upperByte a :: upper (b :: t)

/-- Put a byte in front of the first piece of a split string. -/
def consHead (a : Byte) : List Str → List Str
  | [] => [[a]]
  | h :: r => (a :: h) :: r

/-- `strings.Split` (`split`, /repo/misc.go:94) with a separator of one byte. -/
def split1 (c : Byte) : Str → List Str
  | [] => [[]]
  | a :: t => if a = c then [] :: split1 c t else consHead a (split1 c t)

/-- `strings.Split` with a separator of two bytes. -/
def split2 (c d : Byte) : Str → List Str
  | [] => [[]]
  | [a] => [[a]]
  | a :: b :: t =>
    if a = c ∧ b = d then [] :: split2 c d t else consHead a (split2 c d (b :: t))

/-- `strings.Join` (`join`, /repo/misc.go:97). -/
def join (sep : Str) : List Str → Str
  | [] => []
  | [a] => a
  | a :: b :: t => a ++ sep ++ join sep (b :: t)

/-- The part before and the part after the first occurrence of a byte: what
`strings.IndexRune` (`idxr`, /repo/misc.go:88) with an ASCII character and the
two slices around the index give; `none` is the index -1. -/
def cut1 (c : Byte) : Str → Option (Str × Str)
  | [] => none
  | a :: t =>
    if a = c then some ([], t)
    else match cut1 c t with
      | none => none
      | some (p, q) => some (a :: p, q)

/-- `strings.HasPrefix` (`hasPfx`, /repo/misc.go:90). -/
def hasPrefix : Str → Str → Bool
  | _, [] => true
  | [], _ :: _ => false
  | a :: s, b :: p => a == b && hasPrefix s p

/-- `strings.HasSuffix` (`hasSfx`, /repo/misc.go:91). -/
def hasSuffix (s p : Str) : Bool := hasPrefix s.reverse p.reverse

/-- `strings.Contains` (`contains`, /repo/misc.go:93). -/
def containsStr (s p : Str) : Bool :=
  match s with
  | [] => hasPrefix [] p
  | a :: t => hasPrefix (a :: t) p || containsStr t p

/-- `strings.TrimPrefix` (`trimPfx`, /repo/misc.go:96). -/
def trimPrefix (s p : Str) : Str := if hasPrefix s p then s.drop p.length else s

/-- ASCII white space of `unicode.IsSpace`. -/
def isSpace1 (a : Byte) : Bool := a == 32 || (9 ≤ a && a ≤ 13)

/-- White space encoded in two bytes: U+0085 and U+00A0. -/
def isSpace2 (a b : Byte) : Bool := a == 0xC2 && (b == 0x85 || b == 0xA0)

/-- White space encoded in three bytes: U+1680, U+2000 to U+200A, U+2028, U+2029,
U+202F, U+205F and U+3000. -/
def isSpace3 (a b c : Byte) : Bool :=
  (a == 0xE1 && b == 0x9A && c == 0x80) ||
  (a == 0xE2 && b == 0x80 && ((0x80 ≤ c && c ≤ 0x8A) || c == 0xA8 || c == 0xA9 || c == 0xAF)) ||
  (a == 0xE2 && b == 0x81 && c == 0x9F) ||
  (a == 0xE3 && b == 0x80 && c == 0x80)

/-- Left half of `strings.TrimSpace`. -/
def trimLeft : Str → Str
  | [] => []
  | [a] => if isSpace1 a then [] else [a]
  | [a, b] =>
    if isSpace1 a then trimLeft [b]
    else if isSpace2 a b then [] else [a, b]
  | a :: b :: c :: t =>
    if isSpace1 a then trimLeft (b :: c :: t)
    else if isSpace2 a b then trimLeft (c :: t)
    else if isSpace3 a b c then trimLeft t
    else a :: b :: c :: t

/-- Right half of `strings.TrimSpace`, on the reversed string. -/
def trimLeftRev : Str → Str
  | [] => []
  | [a] => if isSpace1 a then [] else [a]
  | [a, b] =>
    if isSpace1 a then trimLeftRev [b]
    else if isSpace2 b a then [] else [a, b]
  | a :: b :: c :: t =>
    if isSpace1 a then trimLeftRev (b :: c :: t)
    else if isSpace2 b a then trimLeftRev (c :: t)
    else if isSpace3 c b a then trimLeftRev t
    else a :: b :: c :: t

/-- `strings.TrimSpace` (`trimS`, /repo/misc.go:95). -/
def trimSpace (s : Str) : Str := (trimLeftRev (trimLeft s).reverse).reverse

/-- `strings.ReplaceAll(s, " ", "")`. -/
def dropSpaces (s : Str) : Str := s.filter (· ≠ 32)

/-- The decimal digits of a natural number, most significant first. -/
def decGo : Nat → Nat → Str → Str
  | 0, _, acc => acc
  | f + 1, n, acc =>
    let acc' := (48 + UInt8.ofNat (n % 10)) :: acc
    if n / 10 = 0 then acc' else decGo f (n / 10) acc'

/-- `strconv.Itoa` (`itoa`, /repo/misc.go:100), or `%d`, of a natural number. -/
def ofNat (n : Nat) : Str := decGo (n + 1) n []

/-- Outcome of reading decimal digits into 64 bits (`strconv.ParseUint`). -/
inductive Digits where
  | ok (n : Nat)
  | syn
  | range
  deriving DecidableEq, Repr

/-- The digit loop of `strconv.ParseUint` in base 10: a byte that is no digit is a
syntax error, and overflow is reported before later bytes are looked at. -/
def digitsVal : Str → Nat → Digits
  | [], acc => .ok acc
  | a :: t, acc =>
    if 48 ≤ a ∧ a ≤ 57 then
      if acc * 10 + (a.toNat - 48) ≤ 18446744073709551615
      then digitsVal t (acc * 10 + (a.toNat - 48)) else .range
    else .syn

/-- Unsigned part of `strconv.Atoi`, limited by the largest magnitude `m`. -/
def atoiMag (m : Nat) (d : Str) : Nat × Bool :=
  if d = [] then (0, false) else
  match digitsVal d 0 with
  | .syn => (0, false)
  | .range => (m, false)
  | .ok n => if n ≤ m then (n, true) else (m, false)

/-- `strconv.Atoi` (`atoi`, /repo/misc.go:101) on a 64-bit machine: the returned
integer and whether the error is nil.  Text that is no number gives 0 with an
error; a number outside the range gives the nearest bound with an error. -/
def atoi (s : Str) : Int × Bool :=
  match s with
  | 43 :: d => ((atoiMag 9223372036854775807 d).1, (atoiMag 9223372036854775807 d).2)
  | 45 :: d => (-((atoiMag 9223372036854775808 d).1 : Int), (atoiMag 9223372036854775808 d).2)
  | d => ((atoiMag 9223372036854775807 d).1, (atoiMag 9223372036854775807 d).2)

/-- All bytes are ASCII. -/
def IsAscii (s : Str) : Prop := ∀ c ∈ s, c < 128

instance (s : Str) : Decidable (IsAscii s) := inferInstanceAs (Decidable (∀ c ∈ s, c < 128))

end Str

/-- What is assumed of `strings.EqualFold` when both operands are arbitrary: it is
an equivalence relation, and exact (`Str.fold`) against an ASCII operand. -/
structure EqualFold where
  eq : Str → Str → Bool
  refl : ∀ a, eq a a = true
  symm : ∀ a b, eq a b = true → eq b a = true
  trans : ∀ a b c, eq a b = true → eq b c = true → eq a c = true
  ascii : ∀ a b, Str.IsAscii b → (eq a b = true ↔ Str.fold a = Str.fold b)

/-- The contract can be met. -/
def EqualFold.ref : EqualFold where
  eq := Str.eqFold
  refl a := by simp [Str.eqFold]
  symm a b h := by simp [Str.eqFold] at *; exact h.symm
  trans a b c h k := by simp [Str.eqFold] at *; exact h.trans k
  ascii a b _ := by simp [Str.eqFold]

end Verif
