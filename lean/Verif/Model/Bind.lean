import Verif.Model.Keyword
import Verif.Model.Stack
import Verif.Model.Time
import Verif.Model.Net
import Verif.Model.Sec
import Verif.Model.Levels
import Verif.Model.DNList
import Verif.Model.Target

/-!
# /repo/bind.go and the reading of bind rules in /repo/parse.go

A `BindRule` is a `stackage.Condition` and a `BindRules` a `stackage.Stack`, both
pointers; they are modelled by the tree of their contents.  Contract of go-stackage:
`Condition.Valid` wants keyword, operator and expression; `Stack.Valid` fails on an
uninitialized stack only; `Stack.Kind` is the word of the stack; `Replace` puts a value
in the place of an entry; the text of a stack is empty exactly when the texts of all its
entries are.
-/

namespace Verif.Bind
open Verif Verif.Misc Verif.Attr Verif.DN Verif.Levels

/-- The expression value of a bind rule: nothing, the value of the parser (quotation
style and texts), or a value of this package.  `text` is any other value that prints as
one text. -/
inductive BExpr where
  | nil
  | raw (style : Int) (values : List Str)
  | dns (d : DNList.BDNs)
  | dn (d : BindDN)
  | uri (u : Uri.LDAPURI)
  | inh (i : Inheritance)
  | pair (a : ABTV)
  | ip (a : Net.IPAddr)
  | fqdn (f : Net.FQDN)
  | dow (d : Time.DayOfWeek)
  | tod (t : Time.TimeOfDay)
  | am (a : Sec.AuthenticationMethod)
  | ssf (s : Sec.SecurityStrengthFactor)
  | text (s : Str)

/-- Whether the expression is nil. -/
def BExpr.isNil : BExpr → Bool
  | .nil => true
  | _ => false

/-- `BindRule`: keyword and operator, the value, whether the value as a whole has
quotation marks, whether the single values of a list have them, and whether the rule is
in parentheses. -/
structure BRule where
  core : RuleCore
  ex : BExpr
  outer : Bool
  slice : Bool
  paren : Bool

/-- `badBindRule`, /repo/bind.go:8, the zero value. -/
def badBindRule : BRule := ⟨⟨false, [], 0⟩, .nil, false, false, false⟩

/-- `BindRule.IsZero`, /repo/bind.go:390-392. -/
def BRule.isZero (r : BRule) : Bool := !r.core.init

/-- `BindRule.Keyword`, /repo/bind.go:367-371. -/
def BRule.keyword (r : BRule) : BindKeyword := matchBKW r.core.kw

/-- `stackage.Condition.Valid` (contract): keyword, operator and expression are set. -/
def BRule.condOk (r : BRule) : Bool := r.core.kw != [] && r.core.op != 0 && !r.ex.isNil

/-- `BindRule.Valid` (true: nil error), /repo/bind.go:310-318. -/
def BRule.valid (r : BRule) : Bool := if r.isZero then false else r.condOk

/-- `BindRule.SetExpression`, /repo/bind.go:748-755, on an initialized rule.  The marks of the
single values belong to the list that is the value (`setQuoteStyle`, /repo/dn.go:638-652): a new
list has none.  Lists that were in a rule before are in Model/Share. -/
def BRule.setExpression (r : BRule) (ex : BExpr) : BRule := { r with ex := ex, slice := false }

/-- `newBindRule`, /repo/bind.go:134-146, and `BR`. -/
def BR (kw : KwArg) (op : OpArg) (ex : BExpr) : BRule :=
  { badBindRule with
    core := BindRule.setOperator (BindRule.setKeyword ⟨true, [], 0⟩ kw) op
    ex := ex
    outer := true }

/-- The type switch of `BindRule.SetQuoteStyle`, /repo/bind.go:771-780: none for the
default case, which ends the method; otherwise the setting of the single values. -/
def BRule.sliceAfter (r : BRule) (style : Int) : Option Bool :=
  match r.ex with
  | .dns d =>
    if r.keyword = BindUDN ∨ r.keyword = BindGDN ∨ r.keyword = BindRDN then
      some (Rules.quoteSlices d.entries.length style) else some r.slice
  | _ => none

/-- `BindRule.SetQuoteStyle`, /repo/bind.go:768-802. -/
def BRule.setQuoteStyle (r : BRule) (style : Int) : BRule :=
  match r.sliceAfter style with
  | none => { r with outer := true }
  | some s => { r with slice := s, outer := !decide (style = Rules.MultivalSliceQuotes) }

/-! ## Stacks of bind rules -/

/-- The Boolean word of a stack. -/
inductive Word where
  | and | or | not
  deriving DecidableEq

/-- `BindContext`: a `BindRule`, an uninitialized `BindRules`, or a stack with its word,
its parentheses and its entries. -/
inductive BCtx where
  | rule (r : BRule)
  | zero
  | rules (w : Word) (paren : Bool) (es : List BCtx)

/-- An argument of `BindRules.Push`, of type `any`. -/
inductive BArg where
  | ctx (c : BCtx)
  | other

/-- `BindRules.pushPolicy`, /repo/bind.go:1035-1061, for one argument.  `Keyword` never
returns nil, so that the error of `Valid` is always replaced. -/
def acceptB : BArg → Option BCtx
  | .ctx .zero => none
  | .ctx (.rules w p es) => some (.rules w p es)
  | .ctx (.rule r) => if matchBKW (BindKeyword.string r.keyword) ≠ 0 then some (.rule r) else none
  | .other => none

/-- `BindRules.Push`, /repo/bind.go:875-878, on an initialized stack; `And`, `Or` and
`Not`, /repo/bind.go:420-525, are pushes into an empty one. -/
def pushB (stop : Bool) (es : List BCtx) (xs : List BArg) : List BCtx :=
  stackPush stop (fun _ => acceptB) es xs

/-- `BindRules.Pop`, /repo/bind.go:888-906: the entries left, and the context. -/
def popB (es : List BCtx) : List BCtx × Option BCtx := (es.dropLast, es.getLast?)

/-- `BindContext.Kind` is `stack`, /repo/bind.go:406-408. -/
def BCtx.isStack : BCtx → Bool
  | .rule _ => false
  | _ => true

/-- `isCloaked`, /repo/bind.go:657-669; the category of `Not` ends with `not`, those of
`And`, `Or` and an uninitialized stack do not. -/
def isCloaked : BCtx → Bool
  | .rules w p [e] => w ≠ .not && e.isStack && !p
  | _ => false

/-- `uncloak`, /repo/bind.go:645-652. -/
def uncloak : BCtx → BCtx
  | .rules _ _ (e :: _) => if isCloaked e then uncloak e else e
  | c => c

/-- `uncloakBindRules`, /repo/bind.go:633-640, for one entry. -/
def uncloakEntry (e : BCtx) : BCtx := if isCloaked e then uncloak e else e

/-- `uncloakBindRules`, /repo/bind.go:633-640. -/
def uncloakRules : BCtx → BCtx
  | .rules w p es => .rules w p (es.map uncloakEntry)
  | c => c

/-- `wordToStack`, /repo/bind.go:671-693. -/
def wordToStack (k : Str) : Option Word :=
  if Str.hasSuffix (Str.upper k) b!"NOT" then some .not
  else if Str.eqFold k b!"AND" then some .and
  else if Str.eqFold k b!"OR" then some .or
  else none

/-! ## Printing that crashes -/

/-- Whether `String` of a value crashes: that of a pair with an attribute and an empty value does,
/repo/attr.go:210-241.  go-stackage calls it for the text of a condition and does not catch the crash
(contract); in the texts of addresses and inheritances the fmt package catches it. -/
def BExpr.crashes : BExpr → Bool
  | .pair a => a.string.isNone
  | _ => false

/-- Whether `BindRule.String` crashes, /repo/bind.go:345-350; the value of a rule that is not complete
is not printed. -/
def BRule.crashes (r : BRule) : Bool := r.valid && r.ex.crashes

mutual

/-- Whether `BindRules.String` crashes, /repo/bind.go:809-811: every entry is printed. -/
def BCtx.crashes : BCtx → Bool
  | .rule r => r.crashes
  | .zero => false
  | .rules _ _ es => BCtx.anyCrashes es

/-- Whether printing one of the entries crashes. -/
def BCtx.anyCrashes : List BCtx → Bool
  | [] => false
  | e :: es => BCtx.crashes e || BCtx.anyCrashes es

end

/-! ## Reading -/

/-- What reading depends on besides the text: `strings.EqualFold`, go-shifty, the
iteration orders of the map of authentication methods, and the setting of their letter
case. -/
structure Env where
  eq : Str → Str → Bool
  shifty : Shifty 8
  names : List (Str × Sec.AuthenticationMethod)
  names' : List (Str × Sec.AuthenticationMethod)
  low : Bool

/-- The value of `assertBindUGAttr`. -/
def ofUGAttr : UGAttr Uri.Uri → BExpr
  | .uri u => .uri (some u)
  | .inh i => .inh i
  | .pair a => .pair a

/-- The switch of `BindRule.assertExpressionValue`, /repo/parse.go:352-380, with
`assertBindTimeDay`, `assertBindSec` and `assertBindNet`, /repo/parse.go:130-160 and
236-266. -/
def readBind (env : Env) (key : BindKeyword) (values : List Str) : Outcome BExpr :=
  if key = BindUDN ∨ key = BindRDN ∨ key = BindGDN then
    (Outcome.ofExcept (DNList.assertBindUGRDN env.eq values key)).map .dns
  else if key = BindIP then (Outcome.ofExcept (Net.assertBindIP values)).map .ip
  else if key = BindDNS then (Outcome.ofExcept (Net.assertBindDNS values)).map .fqdn
  else if key = BindUAT ∨ key = BindGAT then
    (assertBindUGAttr (fun x k => Uri.parseLDAPURI env.eq x [k]) values key).map ofUGAttr
  else if key = BindDoW then (Outcome.ofExcept (Time.assertBindDayOfWeek env.shifty values)).map .dow
  else if key = BindToD then (Outcome.ofExcept (Time.assertBindTimeOfDay values)).map .tod
  else if key = BindAM then
    (Outcome.ofExcept (Sec.assertBindAuthenticationMethod env.names env.names' env.low values)).map .am
  else if key = BindSSF then (Outcome.ofExcept (Sec.assertBindSecurityStrengthFactor values)).map .ssf
  else .err

/-- `BindRule.assertExpressionValue`, /repo/parse.go:331-392: the rule with its value. -/
def BRule.assertValue (env : Env) (r : BRule) : Outcome BRule :=
  match r.ex with
  | .raw style values =>
    (readBind env (matchBKW (BindKeyword.string r.keyword)) values).map
      fun ex => (r.setExpression ex).setQuoteStyle style
  | _ => .err

/-- What the parser returns: conditions in stacks.  `other` is any other member of a
stack. -/
inductive PTree where
  | cond (r : BRule)
  | stack (kind : Str) (paren : Bool) (es : List PTree)
  | other

/-- The end of `convertBindRulesHierarchy`, /repo/bind.go:616-630: `none` for the return
in the middle of the loop.  The result is printed, so that a value that cannot be printed
crashes here. -/
def finish (text : BCtx → Str) (w : Word) : Outcome (Option (List BCtx)) → Outcome (BCtx × Bool)
  | .panic => .panic
  | .err => .err
  | .ok none => .ok (.zero, false)
  | .ok (some es) =>
    if BCtx.anyCrashes es then .panic
    else .ok (uncloakRules (.rules w false es), decide ((text (.rules w false es)).length > 0))

/-- The parentheses of a nested stack, /repo/bind.go:607-614. -/
def setParen (p : Bool) : BCtx → BCtx
  | .rules w _ es => uncloakRules (.rules w p es)
  | c => c

mutual

/-- `convertBindRulesHierarchy`, /repo/bind.go:543-631, with the texts `text` of bind
contexts: the result and the Boolean.  For a stack of unknown kind the loop does not run
and the text of the result is empty. -/
def convert (env : Env) (text : BCtx → Str) : PTree → Outcome (BCtx × Bool)
  | .stack k _ es =>
    match wordToStack k with
    | none => .ok (.zero, false)
    | some w => finish text w (convertList env text [] es)
  | _ => .ok (.zero, false)

/-- The loop of `convertBindRulesHierarchy`, /repo/bind.go:561-618, with the entries so
far: `none` when a nested stack is not converted.  An error of
`assertExpressionValue` ends the loop. -/
def convertList (env : Env) (text : BCtx → Str) (acc : List BCtx) :
    List PTree → Outcome (Option (List BCtx))
  | [] => .ok (some acc)
  | .cond r :: es =>
    match r.assertValue env with
    | .panic => .panic
    | .err => .ok (some acc)
    | .ok r' => convertList env text (pushB true acc [.ctx (.rule r')]) es
  | .stack k p sub :: es =>
    match convert env text (.stack k p sub) with
    | .panic => .panic
    | .err => .err
    | .ok (c, ok) =>
      if ok then convertList env text (pushB true acc [.ctx (setParen p c)]) es else .ok none
  | .other :: es => convertList env text acc es

end

/-- `parseBindRules`, /repo/parse.go:69-97, for a text the parser reads as `t`. -/
def parseBindRules (env : Env) (text : BCtx → Str) (t : PTree) : Outcome BCtx :=
  match convert env text t with
  | .panic => .panic
  | .err => .err
  | .ok (c, ok) => if ok then .ok c else .err

/-- `parseBindRule`, /repo/parse.go:35-38, for a text the parser reads as `r`: the value
stays what the parser returned. -/
def parseBindRule (r : BRule) : Outcome BRule := .ok r

/-! ## Builders of `TimeOfDay` and `DayOfWeek` -/

/-- `TimeOfDay.Eq`, `Ne`, `Lt`, `Le`, `Gt` and `Ge`, /repo/time.go:408-465. -/
def todCond (op : Cop) (t : Time.TimeOfDay) : BRule :=
  if Time.TimeOfDay.valid t then BR (.bind BindToD) (.cop op) (.tod t) else badBindRule

/-- `Timeframe`, /repo/time.go:389-396. -/
def timeframe (stop : Bool) (notBefore notAfter : Time.TimeOfDay) : BCtx :=
  .rules .and false
    (pushB stop [] [.ctx (.rule (todCond Ge' notBefore)), .ctx (.rule (todCond Lt' notAfter))])

/-- `DayOfWeek.Eq` and `Ne`, /repo/time.go:285-302. -/
def dowCond (S : Shifty 8) (op : Cop) (d : Time.DayOfWeek) : BRule :=
  if Time.valid S d then BR (.bind BindDoW) (.cop op) (.dow d) else badBindRule

/-- The map of `DayOfWeek.BRM`, /repo/time.go:313-318. -/
def dowMethods (S : Shifty 8) (d : Time.DayOfWeek) : List (Cop × BRule) :=
  [(Eq', dowCond S Eq' d), (Ne', dowCond S Ne' d)]

/-- The body of `Weekdays` and `Weekend`, /repo/time.go:148-165, for a map; none for the
call of a nil method. -/
def dayRule (m : MethodMap BRule) (cop : OpArg) : Option BRule :=
  if Cop.valid (BindRuleMethods.index m cop).1 then (BindRuleMethods.index m cop).2
  else some badBindRule

/-- The days of `Weekdays`, /repo/time.go:149. -/
def weekdays : Time.DayOfWeek :=
  Time.DoW [.day Time.Mon, .day Time.Tues, .day Time.Wed, .day Time.Thur, .day Time.Fri]

/-- The days of `Weekend`, /repo/time.go:161. -/
def weekend : Time.DayOfWeek := Time.DoW [.day Time.Sun, .day Time.Sat]

end Verif.Bind
