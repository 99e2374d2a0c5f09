import Verif.Model.Misc

/-!
# /repo/scope.go

`Eq` and `Ne`, which build target rules, are in `Verif.Model.Target`.
-/

namespace Verif
open Verif

/-- `SearchScope`, /repo/scope.go:14. -/
abbrev SearchScope := UInt8

namespace SearchScope

/-! /repo/scope.go:38-44 -/

def noScope : SearchScope := 0
def BaseObject : SearchScope := 1
def SingleLevel : SearchScope := 2
def Subtree : SearchScope := 3
def Subordinate : SearchScope := 4

/-- `SearchScope.targetScope`, /repo/scope.go:56-69. -/
def targetScope (r : SearchScope) : Str :=
  if r = BaseObject then b!"base"
  else if r = SingleLevel then b!"onelevel"
  else if r = Subtree then b!"subtree"
  else if r = Subordinate then b!"subordinate"
  else []

/-- `SearchScope.standard`, /repo/scope.go:74-84. -/
def standard (r : SearchScope) : Str :=
  if r = SingleLevel then b!"one"
  else if r = Subtree then b!"sub"
  else b!"base"

/-- `SearchScope.String` and `SearchScope.Target`, /repo/scope.go:132-134 and 148-150. -/
def string (r : SearchScope) : Str := targetScope r

/-- `strToScope`, /repo/scope.go:155-169. -/
def strToScope (x : Str) : SearchScope :=
  let l := Str.lower x
  if l = b!"base" ∨ l = b!"baseobject" then BaseObject
  else if l = b!"one" ∨ l = b!"onelevel" then SingleLevel
  else if l = b!"sub" ∨ l = b!"subtree" then Subtree
  else if l = b!"children" ∨ l = b!"subordinate" then Subordinate
  else noScope

/-- `intToScope`, /repo/scope.go:174-186. -/
def intToScope (x : Int) : SearchScope :=
  if x = 1 then SingleLevel
  else if x = 2 then Subtree
  else if x = 3 then Subordinate
  else BaseObject

/-- The argument of `Scope`: a string, an `int`, or something else. -/
inductive Arg where
  | str (s : Str)
  | int (i : Int)
  | other

/-- `Scope`, /repo/scope.go:24-33. -/
def scope : Arg → SearchScope
  | .str s => strToScope s
  | .int i => intToScope i
  | .other => noScope

/-- `assertTargetScope`, /repo/parse.go:780-803; the argument is the list of values
of the rule expression. -/
def assertTargetScope (values : List Str) : Except Unit SearchScope :=
  match values with
  | [v] =>
    let value := Misc.unquote (Misc.condenseWHSP v)
    if value.length = 0 then .error ()
    else if strToScope value = noScope then .error ()
    else .ok (strToScope value)
  | _ => .error ()

end SearchScope

end Verif
