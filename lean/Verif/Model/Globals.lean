import Verif.Model.Alias
import Verif.Model.DNList
import Verif.Model.Target

/-!
# The predefined names as variables

`AllDN`, `AnyDN`, `SelfDN` and `ParentDN` of /repo/dn.go:24-36 are exported variables, and
`isDNAlias` asks them, whatever they hold when it is called.  `Verif.DN.isDNAlias` takes
the names `init` gives them; here they are the variables 0 to 3 of a memory, and the
functions that ask `isDNAlias` are repeated with this memory.  The names may then be any
texts, so that they are compared with the contract of `strings.EqualFold`.
-/

namespace Verif.Globals
open Verif Verif.Alias Verif.DN Verif.DNList Verif.Misc

/-- `init`, /repo/dn.go:1724-1729. -/
def initNames : List (Stmt bindDN) :=
  [.make 0 (BindUDN, b!"all"), .make 1 (BindUDN, b!"anyone"), .make 2 (BindUDN, b!"self"),
    .make 3 (BindUDN, b!"parent")]

/-- The memory at the start of a program. -/
def start : Mem bindDN := (Mem.empty bindDN).run initNames

/-- `isDNAlias`, /repo/dn.go:1709-1719. -/
def isDNAlias (eq : Str → Str → Bool) (m : Mem bindDN) (x : Str) : Bool :=
  [0, 1, 2, 3].any fun v => eq x (BindDN.string (nameAt m (m.vars v)))

/-- `isInvalidDNSyntax`, /repo/dn.go:931-933. -/
def isInvalidDNSyntax (eq : Str → Str → Bool) (m : Mem bindDN) (dn : Str) : Bool :=
  dn.length < 3 || !(Str.containsStr dn b!"=" || !isDNAlias eq m dn)

/-- One value of `BindDistinguishedNames.setExpressionValues`, /repo/dn.go:904-925. -/
def setBindValue (eq : Str → Str → Bool) (m : Mem bindDN) (r : BDNs) (key : BindKeyword) (v : Str) :
    Except Unit BDNs :=
  if Str.hasPrefix v Levels.LocalScheme && Str.containsStr v b!"?" then
    match Uri.parseLDAPURI eq v [key] with
    | .error _ => .error ()
    | .ok u => .ok (r.push eq [.uri (some u)])
  else if !isInvalidDNSyntax eq m (chopDNPfx (condenseWHSP v))
      && !Str.containsStr (chopDNPfx (condenseWHSP v)) b!"?" then
    .ok (r.push eq [.dn (some (newDN (chopDNPfx (condenseWHSP v)) key))])
  else .error ()

/-- `BindDistinguishedNames.setExpressionValues`, /repo/dn.go:893-929. -/
def setBindValues (eq : Str → Str → Bool) (m : Mem bindDN) (r : BDNs) (key : BindKeyword) :
    List Str → Except Unit BDNs
  | [] => .ok r
  | v :: vs =>
    match setBindValue eq m r key v with
    | .error _ => .error ()
    | .ok r' => setBindValues eq m r' key vs

/-- `TargetDistinguishedNames.setExpressionValues`, /repo/dn.go:938-960. -/
def setTargetValues (eq : Str → Str → Bool) (m : Mem bindDN) (r : TDNs) (key : TargetKeyword) :
    List Str → Except Unit TDNs
  | [] => .ok r
  | v :: vs =>
    if isInvalidDNSyntax eq m (chopDNPfx (condenseWHSP v)) then .error ()
    else setTargetValues eq m
      (r.push eq [.dn (some (newDN (chopDNPfx (condenseWHSP v)) key))]) key vs

/-- `assertBindUGRDN`, /repo/parse.go:281-324, apart from the quotation style. -/
def assertBindUGRDN (eq : Str → Str → Bool) (m : Mem bindDN) (values : List Str)
    (key : BindKeyword) : Except Unit BDNs :=
  match values with
  | [] => .error ()
  | v :: _ =>
    if (unquote (condenseWHSP v)).length < 3 then .error ()
    else setBindValues eq m (ugrList eq key) key values

/-- `assertTargetTFDN`, /repo/parse.go:660-694. -/
def assertTargetTFDN (eq : Str → Str → Bool) (m : Mem bindDN) (values : List Str)
    (key : TargetKeyword) : Except Unit TDNs :=
  if values.length = 0 then .error () else setTargetValues eq m (Rules.tfdnList key) key values

end Verif.Globals
