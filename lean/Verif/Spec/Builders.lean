import Verif.Model.Builders
import Verif.Props.Bind

/-!
# Values that rules can be made from

The keyword the documentation gives a value, whether the value can be used, and the
expression of its rules.
-/

namespace Verif.Builders
open Verif Verif.Spec Verif.Attr Verif.DN Verif.Filter

/-- The keywords of distinguished names in bind rules. -/
def dnKw (k : BKw) : Prop := k = .userdn ∨ k = .roledn ∨ k = .groupdn

/-- The keywords of attribute pairs. -/
def pairKw (k : BKw) : Prop := k = .userattr ∨ k = .groupattr

/-- The keyword of the rules made from a URI, as its documentation says
(/repo/uri.go:200-203): `userattr` with a pair, otherwise that of the name. -/
def uriSpeaks (u : Uri.Uri) (k : BKw) : Prop :=
  if u.avbt.isZero = false then k = .userattr
  else ∃ d, u.dn = some d ∧ d.kw = bkwConst k ∧ dnKw k

/-- The keyword of the bind rules made from a value. -/
def BVal.Speaks : BVal → BKw → Prop
  | .dn d, k => ∃ n, d = some n ∧ n.kw = bkwConst k ∧ dnKw k
  | .dns d, k => ∃ l, d = some l ∧ l.kw = bkwConst k ∧ dnKw k
  | .uri u, k => ∃ v, u = some v ∧ uriSpeaks v k
  | .inh i, k => ∃ j, i = some j ∧ j.abtv.kw = bkwConst k ∧ pairKw k
  | .pair a, k => a.kw = bkwConst k ∧ pairKw k
  | .ip _, k => k = .ip
  | .fqdn _, k => k = .dns
  | .dow _, k => k = .dayofweek
  | .tod _, k => k = .timeofday
  | .am _, k => k = .authmethod
  | .ssf _, k => k = .ssf

/-- The value has something to compare with. -/
def BVal.Filled (S : Shifty 8) : BVal → Prop
  | .dn d => ∃ n t, d = some n ∧ n.text = some t
  | .dns d => d ≠ none
  | .uri u => ∃ v n t, u = some v ∧ v.dn = some n ∧ n.text = some t
  | .inh i => ∃ j, i = some j ∧ j.abtv.cell ≠ none ∧ j.abtv.kw ≠ 0
  | .pair a => ∃ c, a.cell = some c ∧ (c.at_ ≠ none ∨ c.v ≠ .nil)
  | .ip a => a.valid = true
  | .fqdn f => f.valid = true
  | .dow d => Time.valid S d = true
  | .tod t => t ≠ none
  | .am a => a ≠ 0
  | .ssf _ => True

/-- The value as an expression. -/
def BVal.expr : BVal → Bind.BExpr
  | .dn d => .dn d
  | .dns none => .nil
  | .dns (some d) => .dns d
  | .uri u => .uri u
  | .inh i => .inh i
  | .pair a => .pair a
  | .ip a => .ip a
  | .fqdn f => .fqdn f
  | .dow d => .dow d
  | .tod t => .tod t
  | .am a => .am a
  | .ssf s => .ssf s

/-- The keywords of distinguished names in target rules. -/
def tdnKw (k : TKw) : Prop := k = .target ∨ k = .target_to ∨ k = .target_from

/-- The keywords of object identifiers. -/
def oidKw (k : TKw) : Prop := k = .targetcontrol ∨ k = .extop

/-- The keyword of the target rules made from a value; a list for URIs makes none. -/
def TVal.Speaks : TVal → TKw → Prop
  | .scope _, k => k = .targetscope
  | .filter _, k => k = .targetfilter
  | .at_ _, k => k = .targetattr
  | .ats a, k => a.isSome = true ∧ k = .targetattr
  | .uriAts _, _ => False
  | .oid o, k => ∃ n, o = some n ∧ n.kw = tkwConst k ∧ oidKw k
  | .oids o, k => ∃ l, o = some l ∧ l.kw = tkwConst k ∧ oidKw k
  | .dn d, k => ∃ n, d = some n ∧ n.kw = tkwConst k ∧ tdnKw k
  | .dns d, k => ∃ l, d = some l ∧ l.kw = tkwConst k ∧ tdnKw k
  | .afo _, k => k = .targattrfilters
  | .afos _, k => k = .targattrfilters

/-- The value has something to compare with. -/
def TVal.Filled : TVal → Prop
  | .scope s => s ≠ 0
  | .filter f => ∃ t, f = some t ∧ t ≠ []
  | .at_ a => ∃ t, a = some t ∧ t ≠ []
  | .ats a => a ≠ none
  | .uriAts _ => False
  | .oid o => ∃ n t, o = some n ∧ n.dot = some t
  | .oids o => o ≠ none
  | .dn d => ∃ n t, d = some n ∧ n.text = some t
  | .dns d => d ≠ none
  | .afo a => a ≠ none
  | .afos a => a ≠ none

/-- The value as an expression; one filter operation is given as text. -/
def TVal.expr : TVal → Rules.TExpr
  | .scope s => .scope s
  | .filter f => .filter f
  | .at_ a => .at_ a
  | .ats none => .nil
  | .ats (some a) => .attrs a
  | .uriAts a => .attrs a
  | .oid o => .oid o
  | .oids none => .nil
  | .oids (some o) => .oids o
  | .dn d => .dn d
  | .dns none => .nil
  | .dns (some d) => .dns d
  | .afo none => .nil
  | .afo (some a) => .text a.string
  | .afos none => .nil
  | .afos (some a) => .afos a

/-- The value is a filter operation or a list of them. -/
def TVal.isOp : TVal → Bool
  | .afo _ => true
  | .afos _ => true
  | _ => false

/-- The numbers and names of operators in the documentation of `Index`
(/repo/bind.go:39-44, /repo/target.go:42-47); the symbols there are all `=`. -/
def documented : List (Int × Str × Str) :=
  [ (1, b!"Eq", b!"Equal To"), (2, b!"Ne", b!"Not Equal To"), (3, b!"Lt", b!"Less Than"),
    (4, b!"Le", b!"Less Than Or Equal"), (5, b!"Gt", b!"Greater Than"),
    (6, b!"Ge", b!"Greater Than Or Equal") ]

/-- The row of the documentation for an operator. -/
def rowOf : Spec.Rel → Int × Str × Str
  | .eq => (1, b!"Eq", b!"Equal To")
  | .ne => (2, b!"Ne", b!"Not Equal To")
  | .lt => (3, b!"Lt", b!"Less Than")
  | .le => (4, b!"Le", b!"Less Than Or Equal")
  | .gt => (5, b!"Gt", b!"Greater Than")
  | .ge => (6, b!"Ge", b!"Greater Than Or Equal")

end Verif.Builders
