import Verif.Model.Share

/-!
# One list and the rules made from it
-/

namespace Verif.Share
open Verif Verif.Bind Verif.Rules

/-- Something done after the rules were made: a change of the list, or `SetQuoteStyle` of one of
the rules. -/
inductive Ev (K : Lst) where
  | edit (x : K.Edit)
  | style (i : Nat) (n : Int)

/-- The statement for it: the list is variable 0. -/
def Ev.stmt {K : Lst} : Ev K → Stmt K
  | .edit x => .edit 0 x
  | .style i n => .style i n

/-- The program: variable 0 is the list, and the variables 0, 1, ... for rules are made from it,
each with `Eq` (false) or `Ne` (true); then something is done. -/
def prog {K : Lst} (c : K.Ctor) (nes : List Bool) (evs : List (Ev K)) : List (Stmt K) :=
  .list 0 c :: (nes.zipIdx.map fun x => .rule x.2 x.1 0) ++
    evs.map Ev.stmt

/-- Only rules that were made get a style. -/
def Known {K : Lst} (nes : List Bool) (evs : List (Ev K)) : Prop :=
  ∀ i n, Ev.style i n ∈ evs → i < nes.length

/-- The texts in a list. -/
def values (eq : Str → Str → Bool) (read : Str → Option Str) : (t : Ty) → (lst eq read t).Obj → List Str
  | .bindNames, o => (o : DNList.BDNs).entries.map DNList.BEntry.string
  | .targetNames, o => (o : DNList.TDNs).entries.map DN.TargetDN.string
  | .attrs, o => (o : Attr.ATs).entries.map Attr.AttributeType.string
  | .oids, o => (o : Oid.OIDs).entries.map fun
    | .oid i => Oid.string i
    | .kw k => TargetKeyword.string k

/-- The keyword of a list. -/
def keyword (eq : Str → Str → Bool) (read : Str → Option Str) : (t : Ty) → (lst eq read t).Obj → Str
  | .bindNames, o =>
    if (o : DNList.BDNs).kw = BindUDN then b!"userdn"
    else if (o : DNList.BDNs).kw = BindGDN then b!"groupdn"
    else b!"roledn"
  | .targetNames, o =>
    if (o : DNList.TDNs).kw = Target then b!"target"
    else if (o : DNList.TDNs).kw = TargetTo then b!"target_to"
    else b!"target_from"
  | .attrs, _ => b!"targetattr"
  | .oids, o => if (o : Oid.OIDs).kw = TargetExtOp then b!"extop" else b!"targetcontrol"

/-- What the list holds after some events. -/
def content {K : Lst} (c : K.Ctor) (evs : List (Ev K)) : K.Obj :=
  evs.foldl (fun o e => match e with | .edit x => K.edit o x | .style _ _ => o) (K.make c)

/-- Whether each value is in quotation marks, the latest event coming first: the last
`SetQuoteStyle` of any of the rules decides, and a list of fewer than two values gets none. -/
def sepRev {K : Lst} (count : K.Obj → Nat) (c : K.Ctor) : List (Ev K) → Bool
  | [] => false
  | .edit _ :: before => sepRev count c before
  | .style _ n :: before => decide (n = 0) && decide (2 ≤ count (content c before.reverse))

/-- The same, the latest event coming last. -/
def separate {K : Lst} (count : K.Obj → Nat) (c : K.Ctor) (evs : List (Ev K)) : Bool :=
  sepRev count c evs.reverse

/-- The styles set for a rule. -/
def stylesOf {K : Lst} (i : Nat) (evs : List (Ev K)) : List Int :=
  evs.filterMap fun
    | .edit _ => none
    | .style j n => if j = i then some n else none

/-- Whether the values as a whole are in quotation marks: the last `SetQuoteStyle` of the rule
itself decides. -/
def around {K : Lst} (i : Nat) (evs : List (Ev K)) : Bool :=
  match (stylesOf i evs).getLast? with
  | none => true
  | some n => decide (n ≠ 0)

/-- A text in quotation marks, if they are on. -/
def marked (b : Bool) (s : Str) : Str := if b = true then b!"\"" ++ s ++ b!"\"" else s

/-- The text of a rule: target rules are in parentheses. -/
def framed : Ty → Str → Str
  | .bindNames, s => s
  | _, s => b!"( " ++ s ++ b!" )"

/-- The whole text of a rule with the given keyword, operator and values, with quotation marks
around the whole and around each value. -/
def ruleOf (t : Ty) (kw : Str) (ne whole each : Bool) (vals : List Str) : Str :=
  framed t (kw ++ b!" " ++ (if ne then b!"!=" else b!"=") ++ b!" " ++
    marked whole (Str.join b!" || " (vals.map (marked each))))

/-- The variables a statement mentions: for lists (false) and for rules (true). -/
def Stmt.names {K : Lst} : Stmt K → List (Bool × Nat)
  | .list v _ => [(false, v)]
  | .same w v => [(false, w), (false, v)]
  | .edit v _ => [(false, v)]
  | .rule r _ v => [(true, r), (false, v)]
  | .copy q r => [(true, q), (true, r)]
  | .style r _ => [(true, r)]

/-- No statement mentions variables both inside and outside `W`. -/
def Closed {K : Lst} (W : Bool × Nat → Bool) (p : List (Stmt K)) : Prop :=
  ∀ s ∈ p, ∀ v ∈ s.names, ∀ w ∈ s.names, W v = W w

/-- No statement mentions a variable in `W`. -/
def Outside {K : Lst} (W : Bool × Nat → Bool) (p : List (Stmt K)) : Prop :=
  ∀ s ∈ p, ∀ v ∈ s.names, W v = false

end Verif.Share
