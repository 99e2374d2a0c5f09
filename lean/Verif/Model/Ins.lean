import Verif.Model.PB

/-!
# /repo/ins.go and the reading of instructions in /repo/parse.go

An `Instruction` is a pointer to its parts; it is modelled by the parts.
-/

namespace Verif.Ins
open Verif Verif.PB Verif.Rules Verif.Levels

/-- `instruction`, /repo/ins.go:68-72. -/
structure Body where
  acl : Str
  trs : List TRule
  pbrs : List PBRule

/-- `Instruction`, /repo/ins.go:17-19: a nil pointer, or the parts. -/
abbrev Instruction := Option Body

/-- `newACI` without arguments, /repo/ins.go:312-321. -/
def newACI : Body := ⟨[], [], []⟩

/-- An argument of `Instruction.Set`, of type `any`. -/
inductive SetArg where
  | str (s : Str)
  | trs (rs : List TRule)
  | tr (r : TRule)
  | pbr (r : PBRule)
  | pbrs (rs : List PBRule)
  | other

/-- `instruction.setLabel`, /repo/ins.go:363-369. -/
def setLabel (r : Body) (x : Str) : Body :=
  if x.length > 0 ∧ r.acl.length = 0 then { r with acl := x } else r

/-- One turn of `instruction.targetPush`, /repo/ins.go:373-376. -/
def pushTarget (es : List TRule) (t : TRule) : List TRule :=
  if matchTKW (TargetKeyword.string t.keyword) ≠ 0 then TRs.push true es [.rule t] else es

/-- `instruction.assertInstruction`, /repo/ins.go:348-361, with `targetPush` and
`permissionBindRulesPush`, /repo/ins.go:371-384. -/
def assert1 (w : World) (rd : Str → Option Store) (r : Body) : SetArg → Body
  | .str s => setLabel r s
  | .trs rs => { r with trs := rs.foldl pushTarget r.trs }
  | .tr t => { r with trs := TRs.push true r.trs [.rule t] }
  | .pbr x => { r with pbrs := PB.push w rd r.pbrs [.rule x] }
  | .pbrs xs => { r with pbrs := xs.foldl (fun es x => PB.push w rd es [.rule x]) r.pbrs }
  | .other => r

/-- `instruction.set`, /repo/ins.go:342-346. -/
def setBody (w : World) (rd : Str → Option Store) (r : Body) (xs : List SetArg) : Body :=
  xs.foldl (assert1 w rd) r

/-- `Instruction.Set`, /repo/ins.go:331-337. -/
def set (w : World) (rd : Str → Option Store) (r : Instruction) (xs : List SetArg) : Instruction :=
  some (setBody w rd (r.getD newACI) xs)

/-- `ACI`, /repo/ins.go:303-305 and 312-321. -/
def ACI (w : World) (rd : Str → Option Store) (xs : List SetArg) : Instruction :=
  some (if xs.length > 0 then setBody w rd newACI xs else newACI)

/-- `Instruction.Valid` (true: nil error), /repo/ins.go:271-287. -/
def valid (r : Instruction) : Bool := r.isSome

/-- `Instruction.ACL`, /repo/ins.go:261-266. -/
def acl : Instruction → Str
  | none => []
  | some r => r.acl

/-- `Instruction.TRs`, /repo/ins.go:240-246. -/
def trs : Instruction → List TRule
  | none => []
  | some r => r.trs

/-- `Instruction.PBRs`, /repo/ins.go:251-256. -/
def pbrs : Instruction → List PBRule
  | none => []
  | some r => r.pbrs

/-- `badACI`, /repo/ins.go:79. -/
def badACI : Str := b!"<invalid_aci>"

/-- `version`, /repo/ins.go:10 and 389-391. -/
def version : Str := b!"version 3.0"

/-- `Instruction.String`, /repo/ins.go:160-170. -/
def string (w : World) : Instruction → Str
  | none => badACI
  | some r => w.targets r.trs ++ b!"(" ++ version ++ b!"; acl \"" ++ r.acl ++ b!"\"; "
      ++ listString w r.pbrs ++ b!")"

/-! ## Reading -/

/-- What the parser returns for an instruction. -/
structure Tokens where
  label : Str
  targets : List TRule
  rules : List (Option PB.Tokens)

/-- The end of `Instruction.Parse`, /repo/parse.go:1014-1025: the errors of reading the
target rules and the permission bind rules are not looked at. -/
def assemble (w : World) (rd : Str → Option Store) (t : List TRule × Bool) (a : Str) :
    Outcome (List PBRule × Bool) → Outcome Instruction
  | .panic => .panic
  | .err => .err
  | .ok (p, _) => .ok (set w rd none [.trs t.1, .str a, .pbrs p])

/-- `Instruction.Parse`, /repo/parse.go:982-1026, for a text the parser reads as `t`. -/
def parse (w : World) (rd : Str → Option Store) (t : Tokens) : Outcome Instruction :=
  assemble w rd (processTargetRules w.env.eq w.dot t.targets) t.label (processAll w rd t.rules)

/-- `Instruction.Parse` of a text, with the parser `parser`; an error and a panic are
none, as in `PB.read`. -/
def readText (w : World) (rd : Str → Option Store) (parser : Str → Option Tokens) (s : Str) :
    Option Instruction :=
  match parser (Misc.condenseWHSP s) with
  | none => none
  | some t => match parse w rd t with
    | .ok i => some i
    | _ => none

/-! ## Lists of instructions -/

/-- An argument of `Instructions.Push`, of type `any`. -/
inductive IArg where
  | ins (i : Instruction)
  | str (s : Str)
  | other

/-- The candidate of `Instructions.contains`, /repo/ins.go:121-130. -/
def candidate (w : World) : IArg → Str
  | .ins i => Misc.condenseWHSP (string w i)
  | .str s => Misc.condenseWHSP s
  | .other => Misc.condenseWHSP []

/-- `Instructions.contains`, /repo/ins.go:116-139. -/
def contains (w : World) (es : List Instruction) (x : IArg) : Bool :=
  es.any fun e => w.env.eq (string w e) (candidate w x)

/-- The type switch of `Instructions.pushPolicy`, /repo/ins.go:88-92. -/
def acceptType : IArg → Option Instruction
  | .ins i => if valid i then some i else none
  | _ => none

/-- `Instructions.pushPolicy`, /repo/ins.go:82-95. -/
def accept (w : World) (es : List Instruction) (x : IArg) : Option Instruction :=
  if contains w es x then none else acceptType x

/-- `stackage.Stack.Push` of one argument. -/
def push1 (w : World) (es : List Instruction) (x : IArg) : List Instruction :=
  stackPush true (accept w) es [x]

/-- One turn of `Instructions.Push`, /repo/ins.go:182-190, with the reader `rd`. -/
def pushOne (w : World) (rd : Str → Option Instruction) (es : List Instruction) : IArg → List Instruction
  | .str s =>
    match rd s with
    | none => es
    | some i => push1 w es (.ins i)
  | x => push1 w es x

/-- `Instructions.Push`, /repo/ins.go:177-194, on an initialized list; `ACIs`,
/repo/ins.go:26-53, is a push into the empty one. -/
def push (w : World) (rd : Str → Option Instruction) (es : List Instruction) (xs : List IArg) :
    List Instruction := xs.foldl (pushOne w rd) es

/-- `Instructions.Pop`, /repo/ins.go:199-206. -/
def pop (es : List Instruction) : List Instruction × Instruction :=
  (es.dropLast, es.getLast?.getD none)

/-- `Instructions.String`, /repo/ins.go:153-155: a list with a line feed as delimiter and
without padding, /repo/ins.go:27-32. -/
def listString (w : World) (es : List Instruction) : Str := Str.join [10] (es.map (string w))

end Verif.Ins
