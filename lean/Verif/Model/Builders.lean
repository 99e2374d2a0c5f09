import Verif.Model.Bind

/-!
# The methods that make rules from values, and their tables

A method table holds method values; calling one has no effect besides its result, so
that the table holds the results.  Its nil pointer is `none`, as in `MethodMap`.
-/

namespace Verif.Builders
open Verif Verif.Misc Verif.Attr Verif.DN Verif.Filter Verif.Bind Verif.Rules

/-- A table with `Eq` and `Ne`; `newBindRuleMethods`, /repo/bind.go:25-32, and
`newTargetRuleMethods`, /repo/target.go:24-35, copy the map they are given. -/
def eqNe {ρ : Type} (f : Cop → ρ) : List (Cop × ρ) := [(Eq', f Eq'), (Ne', f Ne')]

/-- A table with all six operators. -/
def allSix {ρ : Type} (f : Cop → ρ) : List (Cop × ρ) :=
  [(Eq', f Eq'), (Ne', f Ne'), (Lt', f Lt'), (Le', f Le'), (Gt', f Gt'), (Ge', f Ge')]

/-! ## Bind rules -/

/-- `AttributeBindTypeOrValue.Eq` and `Ne`, /repo/attr.go:149-166. -/
def pairCond (op : Cop) (a : ABTV) : BRule :=
  if cellIsZero a.cell then badBindRule else BR (.bind a.kw) (.cop op) (.pair a)

/-- The keyword of the pair of an inheritance. -/
def inhKw : Levels.Inheritance → BindKeyword
  | none => 0
  | some i => i.abtv.kw

/-- `Inheritance.Eq` and `Ne`, /repo/levels.go:123-140. -/
def inhCond (op : Cop) (i : Levels.Inheritance) : BRule :=
  if Levels.valid i then BR (.bind (inhKw i)) (.cop op) (.inh i) else badBindRule

/-- `IPAddr.Eq` and `Ne`, /repo/net.go:53-70. -/
def ipCond (op : Cop) (a : Net.IPAddr) : BRule :=
  if a.valid then BR (.bind BindIP) (.cop op) (.ip a) else badBindRule

/-- `FQDN.Eq` and `Ne`, /repo/net.go:408-425. -/
def fqdnCond (op : Cop) (f : Net.FQDN) : BRule :=
  if f.valid then BR (.bind BindDNS) (.cop op) (.fqdn f) else badBindRule

/-- `AuthenticationMethod.Eq` and `Ne`, /repo/sec.go:61-78. -/
def amCond (op : Cop) (a : Sec.AuthenticationMethod) : BRule :=
  if a = Sec.noAuth then badBindRule else BR (.bind BindAM) (.cop op) (.am a)

/-- `SecurityStrengthFactor.Eq`, `Ne`, `Lt`, `Le`, `Gt` and `Ge`, /repo/sec.go:144-183. -/
def ssfCond (op : Cop) (s : Sec.SecurityStrengthFactor) : BRule :=
  BR (.bind BindSSF) (.cop op) (.ssf s)

/-- The `Keyword` argument made from a keyword that may be nil. -/
def bindKwArg : Option BindKeyword → KwArg
  | none => .other
  | some k => .bind k

/-- `BindDistinguishedName.Eq` and `Ne`, /repo/dn.go:680-687 and 714-721, with
`dnToCondition` and `bindDNToCondition`, /repo/dn.go:809-860. -/
def bindDNCond (op : Cop) (d : BindDN) : BRule :=
  if DN.isZero d then badBindRule else BR (bindKwArg (DN.keyword d)) (.cop op) (.dn d)

/-- `BindDistinguishedNames.Eq` and `Ne`, /repo/dn.go:748-755 and 782-789, with
`dnToCondition` and `bindDNToCondition`, /repo/dn.go:809-860; none is the uninitialized
list. -/
def bindDNsCond (op : Cop) : Option DNList.BDNs → BRule
  | none => badBindRule
  | some d => BR (.bind d.kw) (.cop op) (.dns d)

/-- `LDAPURI.makeBindRule`, /repo/uri.go:246-288, which `Eq` and `Ne`,
/repo/uri.go:205-226, call. -/
def uriCond (op : Cop) : Uri.LDAPURI → BRule
  | none => badBindRule
  | some u => if u.valid then BR (.bind u.ruleKeyword) (.cop op) (.uri (some u)) else badBindRule

/-- A value with a method `BRM`. -/
inductive BVal where
  | dn (d : BindDN)
  | dns (d : Option DNList.BDNs)
  | uri (u : Uri.LDAPURI)
  | inh (i : Levels.Inheritance)
  | pair (a : ABTV)
  | ip (a : Net.IPAddr)
  | fqdn (f : Net.FQDN)
  | dow (d : Time.DayOfWeek)
  | tod (t : Time.TimeOfDay)
  | am (a : Sec.AuthenticationMethod)
  | ssf (s : Sec.SecurityStrengthFactor)

/-- The `BRM` methods: /repo/dn.go:566-587, /repo/uri.go:236-241, /repo/levels.go:113-118,
/repo/attr.go:177-182, /repo/net.go:81-86 and 436-441, /repo/time.go:313-318 and 476-485,
/repo/sec.go:51-56 and 194-203. -/
def brm (S : Shifty 8) : BVal → MethodMap BRule
  | .dn d => some (eqNe (bindDNCond · d))
  | .dns d => some (eqNe (bindDNsCond · d))
  | .uri u => some (eqNe (uriCond · u))
  | .inh i => some (eqNe (inhCond · i))
  | .pair a => some (eqNe (pairCond · a))
  | .ip a => some (eqNe (ipCond · a))
  | .fqdn f => some (eqNe (fqdnCond · f))
  | .dow d => some (eqNe (dowCond S · d))
  | .tod t => some (allSix (todCond · t))
  | .am a => some (eqNe (amCond · a))
  | .ssf s => some (allSix (ssfCond · s))

/-- `BindRuleMethods.Valid` (true: nil error), /repo/bind.go:194-207; `none` is the call
of a nil method. -/
def bindMethodsValid (m : MethodMap BRule) : Option Bool :=
  if m.isNone then some false else (BindRuleMethods.index m (.cop Eq')).2.map BRule.valid

/-- `BindRuleMethods.Len`, /repo/bind.go:212-218, and `TargetRuleMethods.Len`,
/repo/target.go:156-162. -/
def methodsLen {ρ : Type} : MethodMap ρ → Nat
  | none => 0
  | some m => m.length

/-! ## Target rules -/

/-- `AttributeType.Eq` and `Ne`, /repo/attr.go:371-388. -/
def atCond (op : Cop) (a : AttributeType) : TRule :=
  if AttributeType.isZero a then badTargetRule else TR (.target TargetAttr) (.cop op) (.at_ a)

/-- `AttributeTypes.Eq` and `Ne`, /repo/attr.go:555-573; none is the uninitialized list. -/
def atsCond (op : Cop) : Option ATs → TRule
  | none => badTargetRule
  | some a => attrsCond op a

/-- `ObjectIdentifier.Eq` and `Ne`, /repo/oid.go:130-149; `Valid`, /repo/oid.go:154-174,
fails exactly when `IsZero` is true. -/
def oidCond (op : Cop) : Oid.ObjectIdentifier → TRule
  | none => badTargetRule
  | some o =>
    if Oid.isZero (some o) then badTargetRule else TR (.target o.kw) (.cop op) (.oid (some o))

/-- `ObjectIdentifiers.Eq`, /repo/oid.go:624-629: `Valid` looks at the kind; none is the
uninitialized list. -/
def oidsEq : Option Oid.OIDs → TRule
  | none => badTargetRule
  | some o => if o.kind = b!"<uninitialized>" then badTargetRule else oidsCond Eq' o

/-- `ObjectIdentifiers.Ne`, /repo/oid.go:636-641. -/
def oidsNe : Option Oid.OIDs → TRule
  | none => badTargetRule
  | some o => oidsCond Ne' o

/-- The `Keyword` argument made from a keyword that may be nil. -/
def targetKwArg : Option TargetKeyword → KwArg
  | none => .other
  | some k => .target k

/-- `TargetDistinguishedName.Eq` and `Ne`, /repo/dn.go:696-703 and 732-739, with
`dnToCondition` and `targetDNToCondition`, /repo/dn.go:809-832 and 862-888. -/
def targetDNCond (op : Cop) (d : TargetDN) : TRule :=
  if DN.isZero d then badTargetRule else TR (targetKwArg (DN.keyword d)) (.cop op) (.dn d)

/-- `TargetDistinguishedNames.Eq` and `Ne`, /repo/dn.go:764-771 and 800-807; none is the
uninitialized list. -/
def targetDNsCond (op : Cop) : Option DNList.TDNs → TRule
  | none => badTargetRule
  | some d => dnsCond op d

/-- `AttributeFilterOperations.Eq`, /repo/filter.go:586-591; none is the uninitialized
list. -/
def afosEq : Option AFOs → TRule
  | none => badTargetRule
  | some a => TR (.target TargetAttrFilters) (.cop Eq') (.afos a)

/-- `AttributeFilterOperation.Eq`, /repo/filter.go:868-873: the value is the text; none is
the uninitialized operation. -/
def afoEq : Option AFO → TRule
  | none => badTargetRule
  | some a => TR (.target TargetAttrFilters) (.cop Eq') (.text a.string)

/-- A value with a method `TRM`.  A list of attributes made by `UAs` has another kind
than one made by `TAs`, /repo/attr.go:795-826. -/
inductive TVal where
  | scope (s : SearchScope)
  | filter (f : SearchFilter)
  | at_ (a : AttributeType)
  | ats (a : Option ATs)
  | uriAts (a : ATs)
  | oid (o : Oid.ObjectIdentifier)
  | oids (o : Option Oid.OIDs)
  | dn (d : TargetDN)
  | dns (d : Option DNList.TDNs)
  | afo (a : Option AFO)
  | afos (a : Option AFOs)

/-- The `TRM` methods: /repo/scope.go:121-125, /repo/filter.go:76-81, 611-616 and 893-898,
/repo/attr.go:411-416 and 586-595, /repo/oid.go:107-112 and 252-257, /repo/dn.go:598-619.
That of a list of attributes, /repo/attr.go:586-595, is nil unless its keyword is
`targetattr`: an uninitialized list has none, a list made by `UAs` has `targetfilter`.
The methods `Ne` of filter operations, /repo/filter.go:600 and 882, return the zero
rule. -/
def trm : TVal → MethodMap TRule
  | .scope s => some [(Eq', scopeEq s)]
  | .filter f => some (eqNe (filterCond · f))
  | .at_ a => some (eqNe (atCond · a))
  | .ats none => none
  | .ats (some a) => some (eqNe (atsCond · (some a)))
  | .uriAts _ => none
  | .oid o => some (eqNe (oidCond · o))
  | .oids o => some [(Eq', oidsEq o), (Ne', oidsNe o)]
  | .dn d => some (eqNe (targetDNCond · d))
  | .dns d => some (eqNe (targetDNsCond · d))
  | .afo a => some [(Eq', afoEq a), (Ne', badTargetRule)]
  | .afos a => some [(Eq', afosEq a), (Ne', badTargetRule)]

/-- `TargetRuleMethods.Valid` (true: nil error), /repo/target.go:138-151; `none` is the
call of a nil method. -/
def targetMethodsValid (m : MethodMap TRule) : Option Bool :=
  if m.isNone then some false else (TargetRuleMethods.index m (.cop Eq')).2.map TRule.valid

end Verif.Builders
