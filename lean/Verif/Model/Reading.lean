import Verif.Model.Ins

/-!
# Reading texts into receivers

`parse.go`: `parseBindRules`, `parseTargetRules` and the `Parse` methods around them.  The
parser of go-antlraci is a parameter; `none` is an error.
-/

namespace Verif.Bind
open Verif Verif.Rules Verif.Levels

/-- `parseBindRules` and `ParseBindRules` of a text, /repo/parse.go:43-45 and 69-97, with the
parser `parser`. -/
def readRules (env : Env) (text : BCtx → Str) (parser : Str → Option PTree) (raw : Str) : Outcome BCtx :=
  match parser (Misc.condenseWHSP raw) with
  | none => .err
  | some t => parseBindRules env text t

/-- The assignment of `BindRules.Parse`, /repo/parse.go:58-61: only a stack is stored. -/
def storeRules (r : BCtx) : BCtx → BCtx
  | .rules w p es => .rules w p es
  | .zero => .zero
  | .rule _ => r

/-- `BindRules.Parse`, /repo/parse.go:52-64: the receiver afterwards and whether the error is
nil. -/
def BCtx.parseInto (env : Env) (text : BCtx → Str) (parser : Str → Option PTree) (r : BCtx) (raw : Str) :
    Outcome (BCtx × Bool) :=
  match readRules env text parser raw with
  | .panic => .panic
  | .err => .ok (r, false)
  | .ok c => .ok (storeRules r c, true)

end Verif.Bind

namespace Verif.Rules
open Verif Verif.Levels

/-- `parseTargetRules` and `ParseTargetRules` of a text, /repo/parse.go:444-446 and 451-470,
with the parser `parser` and the texts `text` of the stacks it returns: the rules and whether
the error is nil. -/
def readTargets (eq : Str → Str → Bool) (read : Str → Option Str) (text : List TRule → Str)
    (parser : Str → Option (List TRule)) (raw : Str) : List TRule × Bool :=
  match parser (Misc.condenseWHSP raw) with
  | none => ([], false)
  | some rs => if text rs = [] then ([], false) else processTargetRules eq read rs

/-- `TargetRules.Parse`, /repo/parse.go:431-439: the receiver afterwards and whether the error
is nil. -/
def TRs.parseInto (eq : Str → Str → Bool) (read : Str → Option Str) (text : List TRule → Str)
    (parser : Str → Option (List TRule)) (r : List TRule) (raw : Str) : List TRule × Bool :=
  if (readTargets eq read text parser raw).2 then readTargets eq read text parser raw else (r, false)

end Verif.Rules

namespace Verif.PB
open Verif Verif.Rules Verif.Levels

/-- `PermissionBindRules.Parse`, /repo/parse.go:959-971, with the parser `parser`: the receiver
afterwards and whether the error is nil. -/
def parseInto (w : World) (rd : Str → Option Store) (parser : Str → Option (List (Option Tokens)))
    (r : List PBRule) (raw : Str) : Outcome (List PBRule × Bool) :=
  match parser raw with
  | none => .ok (r, false)
  | some ts =>
    match processAll w rd ts with
    | .panic => .panic
    | .err => .err
    | .ok (p, ok) => if ok then .ok (p, true) else .ok (r, false)

end Verif.PB

namespace Verif.Ins
open Verif Verif.Rules Verif.PB Verif.Levels

/-- The end of `Instruction.Parse`, /repo/parse.go:1020-1023. -/
def clobber (r : Instruction) : Outcome Instruction → Outcome (Instruction × Bool)
  | .panic => .panic
  | .err => .err
  | .ok i => if valid i then .ok (i, true) else .ok (r, false)

/-- `Instruction.Parse`, /repo/parse.go:982-1026, with the parser `parser`: the receiver
afterwards and whether the error is nil. -/
def parseInto (w : World) (rd : Str → Option Store) (parser : Str → Option Tokens) (r : Instruction)
    (raw : Str) : Outcome (Instruction × Bool) :=
  match parser (Misc.condenseWHSP raw) with
  | none => .ok (r, false)
  | some t => clobber r (parse w rd t)

end Verif.Ins

namespace Verif.Single
open Verif Verif.Rules Verif.Bind Verif.Levels

/-- `if err != nil { return err }; *r = _r`, the end of the `Parse` methods of single values:
the receiver afterwards and whether the error is nil. -/
def store {α : Type} (r : α) : Except Unit α → Outcome (α × Bool)
  | .error _ => .ok (r, false)
  | .ok a => .ok (a, true)

/-- `BindRule.Parse`, /repo/parse.go:25-33, with the parser `parser`. -/
def bindInto (parser : Str → Option BRule) (r : BRule) (raw : Str) : Outcome (BRule × Bool) :=
  match parser raw with
  | none => .ok (r, false)
  | some b =>
    match parseBindRule b with
    | .panic => .panic
    | .err => .ok (r, false)
    | .ok b => .ok (b, true)

/-- `TargetRule.Parse`, /repo/parse.go:416-424, with the parser `parser`. -/
def targetInto (eq : Str → Str → Bool) (read : Str → Option Str) (parser : Str → Option TRule) (r : TRule)
    (raw : Str) : Outcome (TRule × Bool) :=
  match parser raw with
  | none => .ok (r, false)
  | some t => store r (parseTargetRule eq read t)

/-- `parsePermission`, /repo/parse.go:808-815, and `Permission.Parse`, /repo/parse.go:102-109,
with the parser `parser`. -/
def permissionInto (S : Shifty 16) (parser : Str → Option Rights.Tokens) (r : Rights.Permission) (raw : Str) :
    Outcome (Rights.Permission × Bool) :=
  match parser raw with
  | none => .ok (r, false)
  | some t => store r ((Rights.unpackage S t).map some)

/-- `PermissionBindRule.Parse`, /repo/parse.go:944-952, with the parser `parser`. -/
def pbInto (w : PB.World) (parser : Str → Option PB.Tokens) (r : PB.PBRule) (raw : Str) :
    Outcome (PB.PBRule × Bool) :=
  match parser raw with
  | none => .ok (r, false)
  | some t =>
    match PB.process w t with
    | .panic => .panic
    | .err => .ok (r, false)
    | .ok s => .ok (some s, true)

/-- `LDAPURI.Parse`, /repo/parse.go:1033-1041. -/
def uriInto (eq : Str → Str → Bool) (r : Uri.LDAPURI) (raw : Str) : Outcome (Uri.LDAPURI × Bool) :=
  store r ((Uri.parseLDAPURI eq raw []).map some)

/-- `AttributeBindTypeOrValue.Parse`, /repo/attr.go:290-298. -/
def pairInto (bkw : List (Option BindKeyword)) (r : Attr.ABTV) (raw : Str) : Outcome (Attr.ABTV × Bool) :=
  store r (r.parse raw bkw)

/-- `AttributeFilterOperations.Parse`, /repo/parse.go:1082-1097. -/
def operationsInto (delim : List Int) (r : Filter.AFOs) (raw : Str) : Outcome (Filter.AFOs × Bool) :=
  store r (Filter.AFOs.parse raw delim)

/-- `AttributeFilterOperation.Parse`, /repo/parse.go:1102-1109. -/
def operationInto (r : Filter.AFO) (raw : Str) : Outcome (Filter.AFO × Bool) := store r (Filter.parseAFO raw)

/-- `AttributeFilter.Parse`, /repo/parse.go:1114-1126. -/
def filterInto (r : Filter.AttributeFilter) (raw : Str) : Outcome (Filter.AttributeFilter × Bool) :=
  store r (Filter.AttributeFilter.parse raw)

end Verif.Single
