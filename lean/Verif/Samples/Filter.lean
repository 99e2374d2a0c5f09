import Verif.Model.Builders
import Verif.Model.Ops
import Verif.Model.Find

/-!
# Outputs in /repo/filter_test.go

The values here are the ones the tests of the repository expect.  They check the reading of the
code; no theorem uses them.
-/

namespace Verif.Samples.Filter
open Verif Verif.Attr Verif.Builders Verif.Rules Verif.Filter

/-- The filter of most tests. -/
def employee : Str := b!"(&(objectClass=employee)(cn=Jesse Coretta))"

/-! /repo/filter_test.go:8-82 -/
example : SearchFilter.string none = [] ∧ (filterCond Eq' none).valid = false ∧ (filterCond Ne' none).valid = false := by
  decide +kernel
example : (mkFilter employee).string = employee ∧
    (filterCond Eq' (mkFilter employee)).string = b!"( targetfilter = \"" ++ employee ++ b!"\" )" ∧
    (filterCond Ne' (mkFilter employee)).string = b!"( targetfilter != \"" ++ employee ++ b!"\" )" := by decide +kernel

/-! /repo/filter_test.go:84-116 -/
def class_ : Str := b!"objectClass:" ++ employee

example : (AF [.str b!"objectClass", .str employee]).string = class_ := by decide +kernel

/-! /repo/filter_test.go:118-165: what is left after the pushes and the `Pop` of the test. -/

/-- The text of a filter read from a text. -/
def reread (s : Str) : Option AttributeFilter :=
  match AttributeFilter.parse s with
  | .ok a => some a
  | .error _ => none

def classAF : AttributeFilter := (reread class_).getD none

def pushed : AFO :=
  ((((mkAFO []).push [.other]).push [.other]).push [.other]).push [.str (AddOp.afo [.str class_]).string]

example : ((pushed.pop.1.push [.af classAF]).push [.str classAF.string]).string = b!"add=" ++ class_ := by decide +kernel

/-! /repo/filter_test.go:167-223 -/
example : (DelOp.afo [.af (AF [.at_ (AT b!"objectClass"), .sf (mkFilter employee)])]).string = b!"delete=" ++ class_ := by
  decide +kernel

def af1 : Str := class_
def af2 : Str := b!"homeDirectory:(&(objectClass=accountant)(cn=Courtney Tolana))"
def af3 : Str := b!"nsroledn:(!(nsroledn=cn=X.500 Administrator))"
def af4 : Str := b!"telephoneNumber:(telephoneNumber=456*)"

def adder : AFO := AddOp.afo [.str af1, .str af2]
def deler : AFO := DelOp.afo [.str af3, .str af4]

example : adder.string = b!"add=" ++ af1 ++ b!" && " ++ af2 ∧ adder.pop.2.string = af2 := by decide +kernel
example : deler.string = b!"delete=" ++ af3 ++ b!" && " ++ af4 := by decide +kernel

/-! /repo/filter_test.go:225-284 -/
def want : Str := b!"add=" ++ af1 ++ b!" && " ++ af2 ++ b!",delete=" ++ af3 ++ b!" && " ++ af4

/-- The list read from a text. -/
def readOps (s : Str) (d : List Int) : Option AFOs :=
  match AFOs.parse s d with
  | .ok a => some a
  | .error _ => none

example : (readOps want []).map (fun a => (a.string, a.entries.map fun o => o.entries.length)) = some (want, [2, 2]) := by
  decide +kernel
example : (readOps want [1]).isNone = true := by decide +kernel

/-! /repo/filter_test.go:286-391, for any setting of the pushes. -/
example : [true, false].all (fun stop => (makeAFOs stop [.afo adder, .afo deler]).string = want) = true := by decide +kernel
example : ((makeAFOs true [.afo adder, .afo deler]).pop.2.map AFO.string) =
    some (b!"delete=" ++ af3 ++ b!" && " ++ af4) := by decide +kernel
example : (afoEq (some (AddOp.afo [.str class_]))).string = b!"( targattrfilters = \"add=" ++ class_ ++ b!"\" )" := by
  decide +kernel

def many : AFOs :=
  ((((makeAFOs true [.afo adder, .afo deler]).push [.other]).push [.afo adder]).push
    [.str adder.string, .other, .str [], .other, .afo (AddOp.afo [])])

example : (afosEq (some (((many.setDelimiter [1]).setDelimiter [0]).setDelimiter []))).string =
    b!"( targattrfilters = \"" ++ want ++ b!"\" )" := by decide +kernel

/-! /repo/filter_test.go:401-543 -/
def home : Str := b!"homeDirectory:" ++ employee
def homeAF : AttributeFilter := AF [.at_ (AT b!"homeDirectory"), .sf (mkFilter employee)]
def gecosAF : AttributeFilter := AF [.at_ (AT b!"gecos"), .sf (mkFilter b!"(|(objectClass=contractor)(objectClass=intern))")]
def uidAF : AttributeFilter := AF [.at_ (AT b!"uidNumber"), .sf (mkFilter b!"(&(objectClass=accounting)(terminated=FALSE))")]
def gidAF : AttributeFilter := AF [.at_ (AT b!"gidNumber"), .sf (mkFilter b!"(objectClass=account)")]

example : homeAF.string = home ∧
    (AttributeFilter.set none [.at_ (AT b!"homeDirectory"), .sf (mkFilter employee)]).string = home := by decide +kernel
example : (reread class_).map (fun a => (a.attributeType.string, a.searchFilter.string)) =
    some (b!"objectClass", employee) ∧ (reread b!"4537895439h").isNone = true := by decide +kernel
example : (reread home).map (fun a => (a.attributeType.string, a.searchFilter.string, a.string)) =
    some (b!"homeDirectory", employee, home) := by decide +kernel
example : AttributeFilter.isZero none = true ∧ AttributeFilter.valid none = false := by decide +kernel

/-! /repo/filter_test.go:552-842 and 1392-1397 -/
def gecos : Str := b!"gecos:(|(objectClass=contractor)(objectClass=intern))"
def two : AFO := AddOp.afo [.af homeAF, .af gecosAF]

example : (mkAFO [.op AddOp, .af homeAF]).string = b!"add=" ++ home := by decide +kernel
example : (DelOp.afo [.af homeAF]).string = b!"delete=" ++ home := by decide +kernel
example : two.contains (.str home) = true := by decide +kernel
example : (afoEq (some two)).string = b!"( targattrfilters = \"add=" ++ home ++ b!" && " ++ gecos ++ b!"\" )" := by
  decide +kernel
example : (AttributeFilter.attributeType (two.entries[1]?.getD none)).string = b!"gecos" := by decide +kernel
example : two.entries.length = 2 := by decide +kernel
example : ((trm (.afo (some (AddOp.afo [.af homeAF])))).getD []).map (fun e => (e.1, e.2.isZero)) =
    [(Eq', false), (Ne', true)] := by decide +kernel
example : AttributeOperation.string (AddOp.afo [.af homeAF]).operation = b!"add" := by decide +kernel
example : two.pop.2.attributeType.string = b!"gecos" := by decide +kernel
example : ((AddOp.afo [.af homeAF]).push [.af gecosAF]).string = b!"add=" ++ home ++ b!" && " ++ gecos := by decide +kernel
example : methodsLen (trm (.afo none)) = 2 ∧ methodsLen (trm (.afos none)) = 2 ∧ methodsLen (trm (.filter none)) = 2 := by
  decide +kernel

/-! /repo/filter_test.go:853-1283 -/
def del : AFO := DelOp.afo [.af uidAF, .af gidAF]
def delText : Str := b!"delete=uidNumber:(&(objectClass=accounting)(terminated=FALSE)) && gidNumber:(objectClass=account)"
def both : AFOs := makeAFOs true [.afo two, .afo del]

example : (makeAFOs true [.afo two]).string = b!"add=" ++ home ++ b!" && " ++ gecos := by decide +kernel
example : (both.entries.map AFO.string).contains delText = true := by decide +kernel
example : (both.entries[1]?.map AFO.string) = some delText := by decide +kernel
example : (both.setDelimiter [1]).string = b!"add=" ++ home ++ b!" && " ++ gecos ++ b!";" ++ delText := by decide +kernel
example : both.string = b!"add=" ++ home ++ b!" && " ++ gecos ++ b!"," ++ delText := by decide +kernel
example : ((makeAFOs true []).push [.afo two]).entries.length = 1 := by decide +kernel
example : ((makeAFOs true []).push [.str two.string]).entries.map (fun o => o.entries.length) = [2] := by decide +kernel

def twice : Str := b!"delete=" ++ class_ ++ b!" && " ++ home

example : (readOps twice []).map AFOs.string = some twice := by decide +kernel

/-- The operation read from a text. -/
def readOp (s : Str) : Option AFO :=
  match parseAFO s with
  | .ok a => some a
  | .error _ => none

example : (readOp (b!"add=" ++ af1 ++ b!" && " ++ af2)).map AFO.string = some (b!"add=" ++ af1 ++ b!" && " ++ af2) := by
  decide +kernel

/-! /repo/filter_test.go:1354-1413 -/
example : AttributeOperation.string AddOp = b!"add" ∧ AttributeOperation.string DelOp = b!"delete" := by decide +kernel
example : (filterCond Ne' (mkFilter b!"(&(objectClass=contractor)(objectClass=intern))")).string =
    b!"( targetfilter != \"(&(objectClass=contractor)(objectClass=intern))\" )" := by decide +kernel

end Verif.Samples.Filter
