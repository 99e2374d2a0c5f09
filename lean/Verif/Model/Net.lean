import Verif.Model.Misc

/-!
# /repo/net.go

The methods that build bind rules are in `Verif.Model.Bind`.
-/

namespace Verif.Net
open Verif

/-! ## IP addresses -/

/-- `IPAddr`, /repo/net.go:10-12 and 29-30: nil, or a list of addresses. -/
abbrev IPAddr := Option (List Str)

/-- `rune(byte(lc(string(x[c]))[0]))`, /repo/net.go:153 and 172: the first byte of the
UTF-8 encoding of the lower case of a byte taken as a rune.  Lower casing maps
U+0080 to U+00FF into the same range, and thus to C2 or C3 in the first byte; which
of them does not matter below. -/
def lowFirst (b : Byte) : Byte := if b < 128 then Str.lowerByte b else (0xC0 : UInt8) ||| (b >>> 6)

/-- `isValidV4Char`, /repo/net.go:162-164. -/
def isValidV4Char (c : Byte) : Bool := (48 ≤ c && c ≤ 57) || c == 46 || c == 42 || c == 47

/-- `isValidV6Char`, /repo/net.go:181-183. -/
def isValidV6Char (c : Byte) : Bool :=
  (48 ≤ c && c ≤ 57) || (97 ≤ c && c ≤ 102) || c == 58 || c == 42 || c == 47

/-- `isV4`, /repo/net.go:147-160. -/
def isV4 (x : Str) : Bool := if x.length ≤ 1 then false else x.all fun c => isValidV4Char (lowFirst c)

/-- `isV6`, /repo/net.go:166-179. -/
def isV6 (x : Str) : Bool := if x.length ≤ 1 then false else x.all fun c => isValidV6Char (lowFirst c)

/-- `isValidIP`, /repo/net.go:143-145. -/
def isValidIP (x : Str) : Bool := isV4 x || isV6 x

/-- `ipAddrs.unique`, /repo/net.go:226-233. -/
def unique (r : List Str) (addr : Str) : Bool := !Misc.strInSlice addr r

/-- `ipAddrs.set`, /repo/net.go:133-141. -/
def ipSet (r : List Str) : List Str → List Str
  | [] => r
  | a :: t =>
    if 0 < a.length && unique r a then
      if isValidIP a then ipSet (r ++ [a]) t else ipSet r t
    else ipSet r t

/-- `IP` and `newIPAddr`, /repo/net.go:17-27. -/
def IP (addr : List Str) : IPAddr := some (ipSet [] addr)

/-- `IPAddr.Set`, /repo/net.go:124-131. -/
def IPAddr.set (r : IPAddr) (addr : List Str) : IPAddr := some (ipSet (r.getD []) addr)

/-- `IPAddr.Len`, /repo/net.go:98-103. -/
def IPAddr.len (r : IPAddr) : Nat :=
  match r with
  | none => 0
  | some l => l.length

/-- `IPAddr.Valid` (true: nil error), /repo/net.go:199-209. -/
def IPAddr.valid (r : IPAddr) : Bool :=
  if r.isNone then false else if IPAddr.len r = 0 then false else true

/-- `IPAddr.String`, /repo/net.go:238-248. -/
def IPAddr.string (r : IPAddr) : Str :=
  match r with
  | none => b!"<invalid_address_list>"
  | some l => Str.join b!"," l

/-- The loop over the pieces of a value, /repo/parse.go:248-251. -/
def setEach (r : IPAddr) : List Str → IPAddr
  | [] => r
  | a :: t => setEach (IPAddr.set r [a]) t

/-- `assertBindNet` for keyword `ip`, /repo/parse.go:236-256, with `badIPErr`,
/repo/err.go:64-69. -/
def assertBindIP (values : List Str) : Except Unit IPAddr :=
  match values with
  | [v] =>
    let raw := Str.split1 44 (Misc.unquote (Misc.condenseWHSP v))
    let addr := setEach none raw
    if raw.length = IPAddr.len addr then .ok addr else .error ()
  | _ => .error ()

/-! ## Host names -/

/-- `FQDN`, /repo/net.go:257-265: nil, or a list of labels. -/
abbrev FQDN := Option (List Str)

/-- `fqdnMax`, /repo/net.go:284. -/
def fqdnMax : Nat := 253

/-- `labelMax`, /repo/net.go:285. -/
def labelMax : Nat := 63

/-- `badFQDN`, /repo/net.go:286. -/
def badFQDN : Str := b!"<invalid_fqdn_or_label>"

/-- `labelCharsOK`, /repo/net.go:506-520; `isDigit` and `isLetter` are those of
package `unicode`. -/
def labelCharsOK (c : Byte) (i l : Nat) : Bool :=
  if !Misc.isDigit c && !Misc.isLetter c && c != 46 && c != 42 && c != 45 then false
  else if c = 45 ∧ (i = 0 ∨ i = l) then false
  else true

/-- Loop of `validLabel`, /repo/net.go:496-500. -/
def labelLoop (l : Nat) : Nat → Str → Bool
  | _, [] => true
  | i, c :: t => if !labelCharsOK c i l then false else labelLoop l (i + 1) t

/-- `validLabel`, /repo/net.go:490-504. -/
def validLabel (label : Str) : Bool :=
  if !(decide (0 < label.length) && decide (label.length ≤ labelMax)) then false
  else labelLoop (label.length - 1) 0 label

/-- The inner loop of `processLabel`, /repo/net.go:368-377. -/
def processParts (dl : List Str) (c : Nat) : List Str → Option (List Str × Nat)
  | [] => some (dl, c)
  | s :: sp => if !validLabel s then none else processParts (dl ++ [s]) (c + s.length) sp

/-- The outer loop of `processLabel`, /repo/net.go:361-382; `none` is an early return
with `ok` false. -/
def processLoop (dl : List Str) (c : Nat) : List Str → Option (List Str × Nat)
  | [] => some (dl, c)
  | a :: t =>
    if !validLabel a then none
    else match Str.cut1 46 a with
      | some _ => match processParts dl c (Str.split1 46 a) with
        | none => none
        | some (dl', c') => processLoop dl' c' t
      | none => processLoop (dl ++ [a]) (c + a.length) t

/-- `processLabel`, /repo/net.go:360-386; `none` is `ok` false. -/
def processLabel (label : List Str) : Option (List Str × Nat) :=
  match processLoop [] 0 label with
  | none => none
  | some (dl, c) => if 0 < c && 0 < dl.length then some (dl, c) else none

/-- `labels.set`, /repo/net.go:332-358. -/
def labelsSet (r : List Str) (label : List Str) : List Str :=
  if label.length = 0 then r
  else match processLabel label with
    | none => r
    | some (dl, c) => if r.length + c ≤ fqdnMax then r ++ dl else r

/-- `FQDN.Set`, /repo/net.go:323-330. -/
def FQDN.set (r : FQDN) (label : List Str) : FQDN := some (labelsSet (r.getD []) label)

/-- `DNS`, /repo/net.go:270-276. -/
def DNS (label : List Str) : FQDN :=
  if 0 < label.length then FQDN.set (some []) label else some []

/-- `FQDN.Len`, /repo/net.go:292-297. -/
def FQDN.Len (r : FQDN) : Nat :=
  match r with
  | none => 0
  | some l => l.length

/-- `FQDN.len`, /repo/net.go:472-485: both loops run over the labels. -/
def FQDN.len (r : FQDN) : Nat :=
  match r with
  | none => 0
  | some l => l.foldl (fun c _ => l.foldl (fun c _ => c + 1) c) 0

/-- `FQDN.Valid` (true: nil error), /repo/net.go:457-467.  The second test is reached
only when the list is not nil. -/
def FQDN.valid (r : FQDN) : Bool :=
  if !(decide (0 < FQDN.len r) && decide (FQDN.len r ≤ fqdnMax)) then false
  else if (r.getD []).length < 2 then false else true

/-- `FQDN.String`, /repo/net.go:391-403. -/
def FQDN.string (r : FQDN) : Str :=
  if !FQDN.valid r then badFQDN else Str.join b!"." (r.getD [])

/-- `assertBindNet` for keyword `dns`, /repo/parse.go:236-265, with `badDNSErr`,
/repo/err.go:71-76. -/
def assertBindDNS (values : List Str) : Except Unit FQDN :=
  match values with
  | [v] =>
    let unq := Misc.unquote (Misc.condenseWHSP v)
    let fq := DNS [unq]
    if unq = FQDN.string fq then .ok fq else .error ()
  | _ => .error ()

end Verif.Net
