import Verif.Model.Rights
import Verif.Model.Bind
import Verif.Model.Target

/-!
# /repo/pb.go and the reading of permission bind rules in /repo/parse.go

A `PermissionBindRule` is a pointer to its two parts; it is modelled by the parts.
-/

namespace Verif.PB
open Verif Verif.Bind Verif.Levels

/-- What printing and reading depend on: go-shifty, the surroundings of reading bind
rules, the texts of bind contexts and of lists of target rules, and the reader of dotted
numbers. -/
structure World where
  S : Shifty 16
  env : Env
  text : BCtx → Str
  targets : List Rules.TRule → Str
  dot : Str → Option Str

/-- `permissionBindRule`, /repo/pb.go:30-33; `b` is none for a nil interface. -/
structure Store where
  p : Rights.Permission
  b : Option BCtx

/-- `PermissionBindRule`, /repo/pb.go:26-28: a nil pointer, or the parts. -/
abbrev PBRule := Option Store

/-- `PermissionBindRule.IsZero`, /repo/pb.go:75-82. -/
def isZero : PBRule → Bool
  | none => true
  | some r => Rights.isZero r.p && r.b.isNone

/-- `PermissionBindRule.Valid` (true: nil error), /repo/pb.go:68-70 and 135-150. -/
def valid (r : PBRule) : Bool :=
  if isZero r then false
  else match r with
    | none => false
    | some r => if Rights.valid r.p then r.b.isSome else false

/-- `PBR`, /repo/pb.go:49-59. -/
def PBR (p : Rights.Permission) (b : Option BCtx) : PBRule :=
  if valid (some ⟨p, b⟩) then some ⟨p, b⟩ else none

/-- `badPB`, /repo/pb.go:13. -/
def badPB : Str := b!"<invalid_pbrule>"

/-- `sprintf("%s %s;", ...)`, /repo/pb.go:172-174. -/
def pbText (w : World) (p : Rights.Permission) (b : BCtx) : Str :=
  Rights.string w.S p ++ b!" " ++ w.text b ++ b!";"

/-- `PermissionBindRule.String`, /repo/pb.go:155-157 and 169-178. -/
def string (w : World) (r : PBRule) : Str :=
  if valid r then
    match r with
    | some ⟨p, some b⟩ => pbText w p b
    | _ => badPB
  else badPB

/-- `BindContext.Valid` (true: nil error), /repo/bind.go:310-318 and 1025-1028. -/
def ctxValid : BCtx → Bool
  | .rule r => r.valid
  | .zero => false
  | .rules _ _ _ => true

/-! ## Reading -/

/-- What the parser returns for a permission bind rule. -/
structure Tokens where
  p : Rights.Tokens
  b : PTree

/-- The part of `processPermissionBindRule` after the permission, /repo/parse.go:906-916. -/
def withBind (c : Rights.Cell) : Outcome (BCtx × Bool) → Outcome Store
  | .panic => .panic
  | .err => .err
  | .ok (b, ok) => if ok then .ok ⟨some c, some b⟩ else .err

/-- `processPermissionBindRule`, /repo/parse.go:899-920. -/
def process (w : World) (t : Tokens) : Outcome Store :=
  match Rights.unpackage w.S t.p with
  | .error _ => .err
  | .ok c => withBind c (convert w.env w.text t.b)

/-- `parsePermissionBindRule`, /repo/parse.go:890-897, with the parser `parser`.  A panic
leaves every list as it is, like an error, so that both are none here. -/
def read (w : World) (parser : Str → Option Tokens) (s : Str) : Option Store :=
  match parser s with
  | none => none
  | some t => match process w t with
    | .ok r => some r
    | _ => none

/-- An argument of `PermissionBindRule.Set`, of type `any`. -/
inductive SetArg where
  | str (s : Str)
  | perm (p : Rights.Permission)
  | ctx (b : BCtx)
  | other

/-- `permissionBindRule.set`, /repo/pb.go:98-123, with the reader `rd`. -/
def setAll (rd : Str → Option Store) (r : Store) : List SetArg → Store
  | [] => r
  | .str s :: xs =>
    match rd s with
    | none => r
    | some r' => setAll rd r' xs
  | .perm p :: xs => if Rights.valid p then setAll rd { r with p := p } xs else r
  | .ctx b :: xs => if ctxValid b then setAll rd { r with b := some b } xs else r
  | .other :: xs => setAll rd r xs

/-- The storage of `PermissionBindRule.Set`, /repo/pb.go:88-90. -/
def storage : PBRule → Store
  | none => ⟨none, none⟩
  | some r => if isZero (some r) then ⟨none, none⟩ else r

/-- `PermissionBindRule.Set`, /repo/pb.go:87-93. -/
def set (rd : Str → Option Store) (r : PBRule) (xs : List SetArg) : PBRule :=
  some (setAll rd (storage r) xs)

/-! ## Lists of permission bind rules -/

/-- An argument of `PermissionBindRules.Push`, of type `any`. -/
inductive PArg where
  | rule (r : PBRule)
  | str (s : Str)
  | nil
  | other

/-- The candidate of `PermissionBindRules.contains`, /repo/pb.go:321-329. -/
def candidate (rd : Str → Option Store) : PArg → PBRule
  | .rule r => r
  | .str s => rd s
  | _ => none

/-- `PermissionBindRules.contains`, /repo/pb.go:316-339. -/
def contains (w : World) (rd : Str → Option Store) (es : List PBRule) (x : PArg) : Bool :=
  es.any fun e => w.env.eq (string w e) (string w (candidate rd x))

/-- The type switch of `PermissionBindRules.pushPolicy`, /repo/pb.go:291-299. -/
def acceptType : PArg → Option PBRule
  | .rule r => if valid r then some r else none
  | _ => none

/-- `PermissionBindRules.pushPolicy`, /repo/pb.go:278-302. -/
def accept (w : World) (rd : Str → Option Store) (es : List PBRule) : PArg → Option PBRule
  | .nil => none
  | x => if contains w rd es x then none else acceptType x

/-- `stackage.Stack.Push` of one argument. -/
def push1 (w : World) (rd : Str → Option Store) (es : List PBRule) (x : PArg) : List PBRule :=
  stackPush true (accept w rd) es [x]

/-- `PermissionBindRules.Push`, /repo/pb.go:240-259, on an initialized list. -/
def push (w : World) (rd : Str → Option Store) (es : List PBRule) : List PArg → List PBRule
  | [] => es
  | .str s :: xs =>
    match rd s with
    | none => es
    | some r => push w rd (push1 w rd es (.rule (some r))) xs
  | x :: xs => push w rd (push1 w rd es x) xs

/-- `PBRs`, /repo/pb.go:346-375: here the arguments go to the stack directly. -/
def PBRs (w : World) (rd : Str → Option Store) (stop : Bool) (xs : List PArg) : List PBRule :=
  stackPush stop (accept w rd) [] xs

/-- `PermissionBindRules.Pop`, /repo/pb.go:266-273. -/
def pop (es : List PBRule) : List PBRule × PBRule := (es.dropLast, es.getLast?.getD none)

/-- `PermissionBindRules.String`, /repo/pb.go:226-228: a list with a space as delimiter
and without padding, /repo/pb.go:349-354. -/
def listString (w : World) (es : List PBRule) : Str := Str.join b!" " (es.map (string w))

/-- The loop of `processPermissionBindRules`, /repo/parse.go:926-934: the list and whether
the error is nil.  Members of another type are none. -/
def processLoop (w : World) (rd : Str → Option Store) (es : List PBRule) :
    List (Option Tokens) → Outcome (List PBRule × Bool)
  | [] => .ok (es, true)
  | none :: ts => processLoop w rd es ts
  | some t :: ts =>
    match process w t with
    | .panic => .panic
    | .err => .ok (es, false)
    | .ok r => processLoop w rd (push w rd es [.rule (some r)]) ts

/-- `processPermissionBindRules`, /repo/parse.go:922-937. -/
def processAll (w : World) (rd : Str → Option Store) (ts : List (Option Tokens)) :
    Outcome (List PBRule × Bool) := processLoop w rd [] ts

end Verif.PB
