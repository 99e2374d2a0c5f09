import Verif.Model.Uri

/-!
# /repo/filter.go: attribute filters and operations on them

go-stackage: contract as in `Verif.Model.DNList`; an `And` stack with the symbol `&&`
prints its entries joined by ` && ` (padding is on: `StackPadding`, /repo/misc.go:77),
a list stack with a delimiter joins by it.  The push policies are made from the
converted stack (/repo/filter.go:372-377, 917-919), so they see the entries.

Entries are values here; in Go an `AttributeFilterOperation` is a pointer, and changing
one after it was pushed changes the list.
-/

namespace Verif.Filter
open Verif Verif.Misc Verif.Attr

/-- `atf`, /repo/filter.go:193-196. -/
structure Atf where
  at_ : AttributeType
  sf : SearchFilter
  deriving DecidableEq

/-- `AttributeFilter`, /repo/filter.go:186-188: a pointer. -/
abbrev AttributeFilter := Option Atf

/-- An argument of `AttributeFilter.Set`, of type `any`. -/
inductive AFArg where
  | str (s : Str)
  | at_ (a : AttributeType)
  | sf (f : SearchFilter)
  | other

/-- One turn of the loop of `atf.set`, /repo/filter.go:278-293. -/
def Atf.set1 (r : Atf) : AFArg → Atf
  | .str s => if isIdentifier s then { r with at_ := AT s } else { r with sf := mkFilter s }
  | .at_ a => { r with at_ := a }
  | .sf f => { r with sf := f }
  | .other => r

/-- `atf.set`, /repo/filter.go:278-293. -/
def Atf.set (r : Atf) (x : List AFArg) : Atf := x.foldl Atf.set1 r

/-- `AF`, /repo/filter.go:219-230. -/
def AF (x : List AFArg) : AttributeFilter := some (Atf.set ⟨none, none⟩ x)

/-- `AttributeFilter.IsZero`, /repo/filter.go:333-339. -/
def AttributeFilter.isZero : AttributeFilter → Bool
  | none => true
  | some r => SearchFilter.isZero r.sf && AttributeType.isZero r.at_

/-- `AttributeFilter.Valid`, /repo/filter.go:316-328; true when there is no error. -/
def AttributeFilter.valid : AttributeFilter → Bool
  | none => false
  | some r => !(SearchFilter.isZero r.sf) && !(AttributeType.isZero r.at_)

/-- `AttributeFilter.String`, /repo/filter.go:298-304. -/
def AttributeFilter.string (r : AttributeFilter) : Str :=
  match r with
  | none => []
  | some a =>
    if AttributeFilter.valid (some a) then
      AttributeType.string a.at_ ++ 58 :: SearchFilter.string a.sf
    else []

/-- `AttributeFilter.Set`, /repo/filter.go:237-244. -/
def AttributeFilter.set (r : AttributeFilter) (x : List AFArg) : AttributeFilter :=
  if AttributeFilter.isZero r then some (Atf.set ⟨none, none⟩ x) else r.map fun a => a.set x

/-- `AttributeFilter.AttributeType`, /repo/filter.go:249-255; `badAttributeType`,
/repo/attr.go:17, is the zero value. -/
def AttributeFilter.attributeType (r : AttributeFilter) : AttributeType :=
  if AttributeFilter.isZero r then none else (r.map Atf.at_).getD none

/-- `AttributeFilter.SearchFilter`, /repo/filter.go:260-266; `badSearchFilter`,
/repo/filter.go:10, is the zero value. -/
def AttributeFilter.searchFilter (r : AttributeFilter) : SearchFilter :=
  if AttributeFilter.isZero r then none else (r.map Atf.sf).getD none

/-- `parseAttributeFilter`, /repo/filter.go:1099-1117. -/
def parseAttributeFilter (raw : Str) : Except Unit AttributeFilter :=
  match Str.cut1 58 raw with
  | none => .error ()
  | some (p, q) =>
    if AttributeType.isZero (AT p) then .error ()
    else .ok (AttributeFilter.set none [.at_ (AT p), .sf (mkFilter q)])

/-- `AttributeFilter.Parse`, /repo/parse.go:1114-1126. -/
def AttributeFilter.parse (raw : Str) : Except Unit AttributeFilter :=
  let raw := unquote (condenseWHSP raw)
  if raw.length < 5 then .error () else parseAttributeFilter raw

/-- `AttributeOperation`, /repo/filter.go:203-212. -/
abbrev AttributeOperation := UInt8
def noAOp : AttributeOperation := 0
def AddOp : AttributeOperation := 1
def DelOp : AttributeOperation := 2

/-- `AttributeOperation.String`, /repo/filter.go:344-349. -/
def AttributeOperation.string (r : AttributeOperation) : Str :=
  if r = DelOp then b!"delete" else b!"add"

/-- `AttributeOperation.makeLabel`, /repo/filter.go:942-944. -/
def AttributeOperation.makeLabel (r : AttributeOperation) : Str :=
  TargetKeyword.string TargetAttrFilters ++ b!"_" ++ AttributeOperation.string r

/-- `AttributeFilterOperation`, an initialized stack: its category and its entries. -/
structure AFO where
  cat : Str
  entries : List AttributeFilter
  deriving DecidableEq

/-- `AttributeFilterOperation.Operation`, /repo/filter.go:956-965. -/
def AFO.operation (r : AFO) : AttributeOperation :=
  let x := Str.lower (Str.trimPrefix r.cat (TargetKeyword.string TargetAttrFilters ++ b!"_"))
  if x = b!"add" then AddOp else if x = b!"delete" then DelOp else noAOp

/-- `AttributeFilterOperation.String`, /repo/filter.go:845-854. -/
def AFO.string (r : AFO) : Str :=
  AttributeOperation.string r.operation ++ b!"=" ++
    Str.join b!" && " (r.entries.map AttributeFilter.string)

/-- `contains`, /repo/filter.go:787-811, for the text of a filter. -/
def containsText (texts : List Str) (candidate : Str) : Bool := texts.any (· == candidate)

/-- `_r.Push(af)` with `AttributeFilterOperation.pushPolicy`, /repo/filter.go:652-680. -/
def pushAF (es : List AttributeFilter) (af : AttributeFilter) : List AttributeFilter :=
  if containsText (es.map AttributeFilter.string) (AttributeFilter.string af) then es
  else if AttributeFilter.valid af then es ++ [af] else es

/-- An argument of `AttributeFilterOperation.Push`, of type `any`. -/
inductive AFOArg where
  | str (s : Str)
  | op (o : AttributeOperation)
  | af (a : AttributeFilter)
  | other

/-- One turn of the loop of `AttributeFilterOperation.Push`, /repo/filter.go:701-723. -/
def AFO.push1 (r : AFO) : AFOArg → AFO
  | .str s => match parseAttributeFilter s with
    | .error _ => r
    | .ok af => { r with entries := pushAF r.entries af }
  | .op o => { r with cat := AttributeOperation.makeLabel o }
  | .af a => { r with entries := pushAF r.entries a }
  | .other => r

/-- `AttributeFilterOperation.Push`, /repo/filter.go:692-723. -/
def AFO.push (r : AFO) (x : List AFOArg) : AFO := x.foldl AFO.push1 r

/-- `AFO`, /repo/filter.go:909-924. -/
def mkAFO (x : List AFOArg) : AFO :=
  AFO.push ⟨TargetKeyword.string TargetAttrFilters, []⟩ x

/-- `AttributeOperation.AFO`, /repo/filter.go:931-937. -/
def AttributeOperation.afo (r : AttributeOperation) (x : List AFOArg) : AFO :=
  AFO.push { mkAFO [] with cat := AttributeOperation.makeLabel r } x

/-- `AttributeFilterOperation.Pop`, /repo/filter.go:728-735. -/
def AFO.pop (r : AFO) : AFO × AttributeFilter :=
  ({ r with entries := r.entries.dropLast }, r.entries.getLast?.getD none)

/-- `AttributeFilterOperation.Contains`, /repo/filter.go:778-811. -/
def AFO.contains (r : AFO) : AFOArg → Bool
  | .str s => containsText (r.entries.map AttributeFilter.string) s
  | .af a => containsText (r.entries.map AttributeFilter.string) (AttributeFilter.string a)
  | _ => false

/-- `hasAttributeFilterOperationPrefix`, /repo/filter.go:970-980. -/
def hasAFOPrefix (raw : Str) : Bool :=
  if Str.hasPrefix raw b!"add=" then true else Str.hasPrefix raw b!"delete="

/-- `parseAttrFilterOperPreamble`, /repo/filter.go:1122-1138. -/
def parsePreamble (raw : Str) : Except Unit (AttributeOperation × Str) :=
  if Str.hasPrefix raw b!"add=" then .ok (AddOp, raw.drop 4)
  else if Str.hasPrefix raw b!"delete=" then .ok (DelOp, raw.drop 7)
  else .error ()

/-- The loop of `parseAttributeFilterOperation`, /repo/filter.go:1085-1090. -/
def parseSeq (afo : AFO) : List Str → Except Unit AFO
  | [] => .ok afo
  | s :: seq =>
    match parseAttributeFilter (Str.trimSpace s) with
    | .error _ => .error ()
    | .ok af => parseSeq (afo.push [.af af]) seq

/-- `parseAttributeFilterOperation`, /repo/filter.go:1067-1094, and
`AttributeFilterOperation.Parse`, /repo/parse.go:1102-1109. -/
def parseAFO (raw : Str) : Except Unit AFO :=
  let raw := unquote (condenseWHSP raw)
  if raw.length < 5 then .error ()
  else match parsePreamble raw with
    | .error _ => .error ()
    | .ok (aop, val) => parseSeq (aop.afo []) (Str.split2 38 38 (Str.trimSpace val))

/-- `AttributeFilterOperations`, an initialized stack: its delimiter and its entries. -/
structure AFOs where
  delim : Byte
  entries : List AFO
  deriving DecidableEq

/-- `AttributeFilterOperations.String`, /repo/filter.go:579-581. -/
def AFOs.string (r : AFOs) : Str := Str.join [r.delim] (r.entries.map AFO.string)

/-- `AttributeFilterOperations.SetDelimiter`, /repo/filter.go:464-497. -/
def AFOs.setDelimiter (r : AFOs) : List Int → AFOs
  | [] => { r with delim := 44 }
  | i :: _ => { r with delim := if i = 1 then 59 else 44 }

/-- `_r.Push(afo)` with `AttributeFilterOperations.pushPolicy`, /repo/filter.go:621-647;
an initialized stack is valid. -/
def pushAFO (es : List AFO) (afo : AFO) : List AFO :=
  if containsText (es.map AFO.string) afo.string then es
  else if afo.entries.length > 0 then es ++ [afo] else es

/-- An argument of `AttributeFilterOperations.Push`, of type `any`. -/
inductive AFOsArg where
  | str (s : Str)
  | afo (a : AFO)
  | other

/-- One turn of the loop of `AttributeFilterOperations.Push`, /repo/filter.go:508-519. -/
def AFOs.push1 (r : AFOs) : AFOsArg → AFOs
  | .str s => match parseAFO s with
    | .error _ => r
    | .ok a => if a.entries.length > 0 then { r with entries := pushAFO r.entries a } else r
  | .afo a => { r with entries := pushAFO r.entries a }
  | .other => r

/-- `AttributeFilterOperations.Push`, /repo/filter.go:502-522. -/
def AFOs.push (r : AFOs) (x : List AFOsArg) : AFOs := x.foldl AFOs.push1 r

/-- `AFOs` with at most one argument, an operation, /repo/filter.go:360-387; the
arguments go to the stack directly. -/
def mkAFOs : Option AFO → AFOs
  | none => ⟨44, []⟩
  | some a => ⟨44, pushAFO [] a⟩

/-- The loop of `strings.Count`, `skip` bytes of a match being left out. -/
def countGo (p : Str) : Nat → Str → Nat
  | _, [] => 0
  | skip + 1, _ :: t => countGo p skip t
  | 0, a :: t => if Str.hasPrefix (a :: t) p then 1 + countGo p (p.length - 1) t else countGo p 0 t

/-- `ctstr` (`strings.Count`), /repo/misc.go:86, for a text that is not empty. -/
def countStr (s p : Str) : Nat := countGo p 0 s

/-- `afosDelim`, /repo/filter.go:982-992. -/
def afosDelim (delim : Int) : Byte := if delim = 1 then 59 else 44

/-- The loop of `parseAttributeFilterOperations`, /repo/filter.go:1038-1060. -/
def parseVals (afos : AFOs) : List Str → Except Unit AFOs
  | [] => .ok afos
  | v :: vals =>
    if hasAFOPrefix (unquote (condenseWHSP v)) then
      match parseAFO (unquote (condenseWHSP v)) with
      | .error _ => .error ()
      | .ok a => parseVals (afos.push [.afo a]) vals
    else .error ()

/-- `parseAttributeFilterOperations`, /repo/filter.go:997-1062. -/
def parseAFOs (raw : Str) (delim : Int) : Except Unit AFOs :=
  let opct := countStr raw b!"add=" + countStr raw b!"delete="
  if opct = 0 then .error ()
  else
    let vals := Str.split1 (afosDelim delim) raw
    if opct ≠ vals.length then .error () else parseVals (mkAFOs none) vals

/-- `AttributeFilterOperations.Parse`, /repo/parse.go:1082-1097. -/
def AFOs.parse (raw : Str) : List Int → Except Unit AFOs
  | [] => parseAFOs raw 0
  | d :: _ => parseAFOs raw (if d = 1 then d else 0)

/-- `assertTargetAttrFilters`, /repo/parse.go:735-773, for one value; other numbers of
values are refused. -/
def assertTargetAttrFilters (values : List Str) : Except Unit AFOs :=
  match values with
  | [v] =>
    let value := unquote (condenseWHSP v)
    if value.length < 3 then .error ()
    else if (44 : Byte) ∈ value then parseAFOs v 0
    else if (59 : Byte) ∈ value then parseAFOs value 1
    else if hasAFOPrefix value then (parseAFO value).map fun a => mkAFOs (some a)
    else (parseAttributeFilter value).map fun a => mkAFOs (some (AddOp.afo [.af a]))
  | _ => .error ()

end Verif.Filter
