import Verif.Samples.Bind

/-!
# Outputs in /repo/time_test.go

The values here are the ones the tests of the repository expect.  They check the reading of the
code; no theorem uses them.
-/

namespace Verif.Samples.Time
open Verif Verif.Builders Verif.Time

abbrev S : Shifty 8 := .anyRef 8
abbrev text := Samples.Levels.text

/-! /repo/time_test.go:9-120 -/
example : Day.string Sat = b!"Sat" := by decide +kernel
example : methodsLen (brm S (.dow none)) = 2 := by decide +kernel
example : text (Bind.dowCond S Eq' (shift (shift none [.day Sat]) [.day Thur])) = b!"dayofweek = \"Thur,Sat\"" := by
  decide +kernel
example : text (Bind.dowCond S Ne' (shift (shift none [.day Mon]) [.day Tues])) = b!"dayofweek != \"Mon,Tues\"" := by
  decide +kernel
example : string S (DoW [.day Thur, .str b!"Sat", .int 1]) = b!"Sun,Thur,Sat" := by decide +kernel
example : string S (DoW [.day Thur, .str b!"Sat", .int 1]) = string S (DoW [.day Thur, .str b!"saturday", .int 1]) := by
  decide +kernel
example : len S (DoW [.day Thur, .str b!"Sat", .int 1]) = 3 ∧
    positive S (DoW [.day Thur, .str b!"Sat", .int 1]) Sat = true := by decide +kernel
example : string S (shift (shift (shift none [.day Mon]) [.str b!"SAT"]) [.int 3]) = b!"Mon,Tues,Sat" := by
  decide +kernel
example : string S (unshift (shift (shift (shift none [.day Mon]) [.str b!"wed"]) [.int 3]) [.day Mon, .int 4]) =
    b!"Tues" := by decide +kernel
example : isZero none = true ∧ valid S none = false := by decide +kernel

/-! /repo/time_test.go:122-215 -/
example : (set none (.str b!"1401")).string = b!"1401" := by decide +kernel
example : methodsLen (brm S (.tod none)) = 6 := by decide +kernel
example : [(Eq', b!"2106"), (Ne', b!"1543"), (Lt', b!"0100"), (Le', b!"0001"), (Gt', b!"0901"), (Ge', b!"1003")].map
    (fun e => text (Bind.todCond e.1 (ToD [.str e.2]))) =
    [b!"timeofday = \"2106\"", b!"timeofday != \"1543\"", b!"timeofday < \"0100\"", b!"timeofday <= \"0001\"",
      b!"timeofday > \"0901\"", b!"timeofday >= \"1003\""] := by decide +kernel
example : (ToD [.str b!"2359"]).string = b!"2359" ∧ (ToD [.str b!"1134"]).string ≠ (ToD [.str b!"1136"]).string := by
  decide +kernel
example : TimeOfDay.isZero none = true ∧ TimeOfDay.valid none = false := by decide +kernel

/-! /repo/time_test.go:217-330 -/
def goodTimes : List Str := [b!"2155", b!"0540", b!"2400", b!"0159", b!"0101", b!"0359", b!"1000", b!"1349", b!"0505",
  b!"1338", b!"0000", b!"0003", b!"1206"]

example : goodTimes.map (fun s => (ToD [.str s]).string) = goodTimes := by decide +kernel
example : ∀ op ∈ [Eq', Ne', Lt', Le', Gt', Ge'], ∀ s ∈ goodTimes, text (Bind.todCond op (ToD [.str s])) =
    b!"timeofday " ++ Cop.string op ++ b!" \"" ++ s ++ b!"\"" := by decide +kernel

/-! /repo/time_test.go:332-420 -/
example : [[Arg.day Mon, .day Tues, .day Wed, .day Thur, .day Fri], [.day Mon, .day Tues, .day Wed, .day Fri],
    [.str b!"sun", .str b!"mOn", .int 7], [.day Mon, .day Wed, .day Thur, .day Fri], [.day Tues, .day Wed, .day Fri],
    [.str b!"1", .str b!"2", .int 3, .str b!"wEd", .str b!"6", .str b!"7"], [.day Mon, .day Wed, .str b!"fryDay"],
    [.str b!"thur", .str b!"fRi", .day Sun, .str b!"SAT"], [.day Mon], [.day Sun, .day Sat], [.int 1, .day Tues, .int 6],
    [.str b!"tues", .str b!"WEDNESDAY"], [.day Tues, .str b!"tues", .str b!"TUESday", .int 3, .str b!"3"]].map
    (fun x => (len S (DoW x), string S (DoW x))) =
    [(5, b!"Mon,Tues,Wed,Thur,Fri"), (4, b!"Mon,Tues,Wed,Fri"), (3, b!"Sun,Mon,Sat"), (4, b!"Mon,Wed,Thur,Fri"),
     (3, b!"Tues,Wed,Fri"), (6, b!"Sun,Mon,Tues,Wed,Fri,Sat"), (2, b!"Mon,Wed"), (4, b!"Sun,Thur,Fri,Sat"), (1, b!"Mon"),
     (2, b!"Sun,Sat"), (3, b!"Sun,Tues,Fri"), (2, b!"Tues,Wed"), (1, b!"Tues")] := by decide +kernel

/-! /repo/time_test.go:422-470 -/
example : (ToD [.str b!"2301"]).string = b!"2301" ∧ (set (ToD []) (.str b!"2301")).string = b!"2301" := by decide +kernel
example : Samples.Bind.text (Samples.Bind.paren (Samples.Bind.frame b!"1730" b!"2400")) =
    b!"( timeofday >= \"1730\" AND timeofday < \"2400\" )" := by decide +kernel

/-! /repo/time_test.go:472-545 -/
example : [b!"Sunday", b!"Monday,Saturday", b!"sUN,mon,tues,Wed,THURSDAY,friDAY,SATurDAy", b!"tuesday",
    b!"thursday,monday"].map (fun s => match parseDoW S s with | .ok d => string S d | .error _ => b!"?") =
    [b!"Sun", b!"Mon,Sat", b!"Sun,Mon,Tues,Wed,Thur,Fri,Sat", b!"Tues", b!"Mon,Thur"] := by decide +kernel
example : ([Arg.int 1, .str b!"sunDAY", .str b!"1", .int 8, .day Sat, .str b!"thur", .str b!"thurs", .str b!"3", .int (-1),
    .day Tues, .int 6, .str b!"SQUAtcOBbl3r", .int 5, .int 7, .int 4, .int 3, .int 2, .str b!"Monday", .day Mon].map
    fun a => decide (matchDoW a ≠ noDay)) = [true, true, true, false, true, true, true, true, false, true, true, false,
      true, true, true, true, true, true, true] := by decide +kernel

end Verif.Samples.Time
