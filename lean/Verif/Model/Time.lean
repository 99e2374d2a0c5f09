import Verif.Model.Shifty
import Verif.Model.Misc

/-!
# /repo/time.go, and the day and clock readers of /repo/parse.go
-/

namespace Verif.Time
open Verif

/-- `Day`, /repo/time.go:32 (`uint8`). -/
abbrev Day := BitVec 8

/-! Constants, /repo/time.go:16-25.  `Sun` is the second constant of its block, so
`1 << iota` is 2 (the comments in the file say 1). -/
def noDay : Day := 0#8
def Sun : Day := 2#8
def Mon : Day := 4#8
def Tues : Day := 8#8
def Wed : Day := 16#8
def Thur : Day := 32#8
def Fri : Day := 64#8
def Sat : Day := 128#8

/-- `badDoW`, /repo/time.go:27. -/
def badDoW : Str := b!"<invalid_days>"

/-- An argument of type `any` of the day methods. -/
inductive Arg where
  | int (i : Int)
  | str (s : Str)
  | day (d : Day)
  | other

/-- The switch of `matchStrDoW`, /repo/time.go:68-83, on the lower-cased text. -/
def matchLower (l : Str) : Day :=
  if l = b!"sun" ∨ l = b!"sunday" ∨ l = b!"1" then Sun
  else if l = b!"mon" ∨ l = b!"monday" ∨ l = b!"2" then Mon
  else if l = b!"tues" ∨ l = b!"tuesday" ∨ l = b!"3" then Tues
  else if l = b!"wed" ∨ l = b!"wednesday" ∨ l = b!"4" then Wed
  else if l = b!"thur" ∨ l = b!"thurs" ∨ l = b!"thursday" ∨ l = b!"5" then Thur
  else if l = b!"fri" ∨ l = b!"friday" ∨ l = b!"6" then Fri
  else if l = b!"sat" ∨ l = b!"saturday" ∨ l = b!"7" then Sat
  else noDay

/-- `matchStrDoW`, /repo/time.go:66-86. -/
def matchStrDoW (d : Str) : Day := matchLower (Str.lower d)

/-- `matchIntDoW`, /repo/time.go:88-108. -/
def matchIntDoW (d : Int) : Day :=
  if d = 1 then Sun else if d = 2 then Mon else if d = 3 then Tues
  else if d = 4 then Wed else if d = 5 then Thur else if d = 6 then Fri
  else if d = 7 then Sat else noDay

/-- `matchDoW`, /repo/time.go:52-64. -/
def matchDoW : Arg → Day
  | .int i => matchIntDoW i
  | .str s => matchStrDoW s
  | .day d => d
  | .other => noDay

/-- `Day.String`, /repo/time.go:323-343. -/
def Day.string (d : Day) : Str :=
  if d = Sun then b!"Sun" else if d = Mon then b!"Mon" else if d = Tues then b!"Tues"
  else if d = Wed then b!"Wed" else if d = Thur then b!"Thur" else if d = Fri then b!"Fri"
  else if d = Sat then b!"Sat" else badDoW

/-- `DayOfWeek`, /repo/shifty.go:40: the unset value, or an 8-bit word behind a
pointer (`newDoW`, /repo/shifty.go:11-13). -/
abbrev DayOfWeek := Option (BitVec 8)

variable (S : Shifty 8)

/-- One round of the loop of `DayOfWeek.Shift`, /repo/time.go:179-188. -/
def shift1 (v : BitVec 8) : Arg → BitVec 8
  | .int i => if matchDoW (.int i) ≠ noDay then Shifty.shift v (matchDoW (.int i)) else v
  | .str s => if matchDoW (.str s) ≠ noDay then Shifty.shift v (matchDoW (.str s)) else v
  | .day d => Shifty.shift v d
  | .other => v

/-- One round of the loop of `DayOfWeek.Unshift`, /repo/time.go:215-224. -/
def unshift1 (v : BitVec 8) : Arg → BitVec 8
  | .int i => if matchDoW (.int i) ≠ noDay then Shifty.unshift v (matchDoW (.int i)) else v
  | .str s => if matchDoW (.str s) ≠ noDay then Shifty.unshift v (matchDoW (.str s)) else v
  | .day d => Shifty.unshift v d
  | .other => v

/-- `DayOfWeek.Shift`, /repo/time.go:170-191: the new receiver. -/
def shift (r : DayOfWeek) (x : List Arg) : DayOfWeek :=
  some (x.foldl shift1 (r.getD 0#8))

/-- `DayOfWeek.Unshift`, /repo/time.go:206-227. -/
def unshift (r : DayOfWeek) (x : List Arg) : DayOfWeek :=
  r.map fun v => x.foldl unshift1 v

/-- `DoW`, /repo/time.go:113-118. -/
def DoW (x : List Arg) : DayOfWeek := shift (some 0#8) x

/-- `DayOfWeek.IsZero`, /repo/time.go:232-234. -/
def isZero (r : DayOfWeek) : Bool := r.isNone

/-- `DayOfWeek.Positive`, /repo/time.go:196-201. -/
def positive (r : DayOfWeek) (x : Day) : Bool :=
  match r with
  | none => false
  | some v => S.positive v x

/-- The bits found positive by the loops of `Len` and `String`, /repo/time.go:134 and
243.  The size of the unset value is taken to be 0. -/
def bitsOn (r : DayOfWeek) : List Nat :=
  match r with
  | none => []
  | some v => (List.range 8).filter fun i => S.positive v (BitVec.twoPow 8 i)

/-- `DayOfWeek.Len`, /repo/time.go:132-141. -/
def len (r : DayOfWeek) : Nat := (bitsOn S r).length

/-- `DayOfWeek.String`, /repo/time.go:239-255. -/
def string (r : DayOfWeek) : Str :=
  let dows := (bitsOn S r).map fun i => Day.string (BitVec.twoPow 8 i)
  if dows.length > 0 then Str.join b!"," dows else badDoW

/-- `DayOfWeek.Valid` (true: nil error), /repo/time.go:269-280. -/
def valid (r : DayOfWeek) : Bool :=
  if isZero r then false else if string S r = badDoW then false else true

/-- The loop of `parseDoW`, /repo/time.go:40-47. -/
def parseLoop : List Str → BitVec 8 → Except Unit (BitVec 8)
  | [], v => .ok v
  | x :: t, v => if matchStrDoW x = noDay then .error () else parseLoop t (shift1 v (.day (matchStrDoW x)))

/-- `parseDoW`, /repo/time.go:37-50.  The value returned next to an error is used by
no caller (/repo/parse.go:198-208, 383). -/
def parseDoW (dow : Str) : Except Unit DayOfWeek :=
  match parseLoop (Str.split1 44 (Str.dropSpaces dow)) 0#8 with
  | .error e => .error e
  | .ok v => if valid S (some v) then .ok (some v) else .error ()

/-- `assertBindDayOfWeek`, /repo/parse.go:198-208, on the values of the expression. -/
def assertBindDayOfWeek (values : List Str) : Except Unit DayOfWeek :=
  match values with
  | [v] => parseDoW S (Misc.unquote (Misc.condenseWHSP v))
  | _ => .error ()

/-! ## TimeOfDay -/

/-- `TimeOfDay`, /repo/time.go:359-361 and 378: nil, or two bytes. -/
abbrev TimeOfDay := Option (Byte × Byte)

/-- An argument of type `any` of `ToD`: a `time.Time` (whether `IsZero` holds, and
its hour and minute), a string, or something else. -/
inductive TArg where
  | time (zero : Bool) (hour minute : Nat)
  | str (s : Str)
  | other

/-- `fmt.Sprintf("%0<w>d", n)` for a natural number. -/
def padDec (w n : Nat) : Str :=
  List.replicate (w - (Str.ofNat n).length) 48 ++ Str.ofNat n

/-- Whether `time.Parse("1504", s)` succeeds.  The layout is a two-digit hour
(`stdHour`; Go also takes one digit when no digit follows, but then the two-digit
minute cannot follow) and a two-digit minute, with nothing after it. -/
def parse1504 : Str → Bool
  | [a, b, c, d] =>
    Misc.isDigit a && Misc.isDigit b && Misc.isDigit c && Misc.isDigit d &&
    decide ((a.toNat - 48) * 10 + (b.toNat - 48) < 24) &&
    decide ((c.toNat - 48) * 10 + (d.toNat - 48) < 60)
  | _ => false

/-- `binary.BigEndian.PutUint16` of `uint16(n)`, /repo/misc.go:107. -/
def putUint16 (n : Nat) : Byte × Byte := (UInt8.ofNat (n % 65536 / 256), UInt8.ofNat (n % 256))

/-- `binary.BigEndian.Uint16`, /repo/misc.go:106. -/
def getUint16 (b : Byte × Byte) : Nat := b.1.toNat * 256 + b.2.toNat

/-- The string case of `assertToD`, /repo/time.go:558-575: new content of the two
bytes. -/
def assertStr (r : Byte × Byte) (tv : Str) : Byte × Byte :=
  let offset : Int := if tv = b!"2400" then 41 else 0
  let tv := if tv = b!"2400" then b!"2359" else tv
  if parse1504 tv then
    if (Str.atoi tv).2 then putUint16 ((Str.atoi tv).1 + offset).toNat else r
  else r

/-- `assertToD`, /repo/time.go:550-577. -/
def assertToD (r : Byte × Byte) : TArg → Byte × Byte
  | .time zero h m => if !zero then assertStr r (padDec 2 h ++ padDec 2 m) else r
  | .str s => assertStr r s
  | .other => r

/-- `ToD` and `newTimeOfDay`, /repo/time.go:366-376. -/
def ToD : List TArg → TimeOfDay
  | [] => some (0, 0)
  | x :: _ => some (assertToD (0, 0) x)

/-- `TimeOfDay.Set`, /repo/time.go:534-537: the receiver is replaced. -/
def set (_r : TimeOfDay) (t : TArg) : TimeOfDay := ToD [t]

/-- `TimeOfDay.IsZero`, /repo/time.go:525-527 and 539-541. -/
def TimeOfDay.isZero (r : TimeOfDay) : Bool := r.isNone

/-- `TimeOfDay.Valid` (true: nil error), /repo/time.go:515-520. -/
def TimeOfDay.valid (r : TimeOfDay) : Bool := !TimeOfDay.isZero r

/-- `TimeOfDay.String`, /repo/time.go:497-510. -/
def TimeOfDay.string (r : TimeOfDay) : Str :=
  match r with
  | none => b!"<invalid_timeofday>"
  | some b => padDec 4 (getUint16 b)

/-- `assertBindTimeOfDay`, /repo/parse.go:185-196, with `badClockTimeErr`,
/repo/err.go:41-47. -/
def assertBindTimeOfDay (values : List Str) : Except Unit TimeOfDay :=
  match values with
  | [v] =>
    let unq := Misc.unquote (Misc.condenseWHSP v)
    let ex := ToD [.str unq]
    if TimeOfDay.string ex = unq then .ok ex else .error ()
  | _ => .error ()

end Verif.Time
