import Verif.Model.DN
import Verif.Model.Uri

/-!
# The scheme of names as a variable

`LocalScheme` of /repo/dn.go:23 is an exported variable, which the functions on names and
addresses ask whenever they are called.  `Verif.DN` and `Verif.Uri` take the value it has at
the start; here these functions are repeated with the value as a parameter, for programs that
assign it.

Simplification: names and addresses are values; what sharing pointers does to them is the
subject of `Verif.Model.Alias`.
-/

namespace Verif.Scheme
open Verif Verif.DN Verif.Uri Verif.Attr Verif.Filter

/-- `chopDNPfx`, /repo/dn.go:1702-1707. -/
def chopDNPfx (sch x : Str) : Str :=
  if Str.hasPrefix x sch then x.drop sch.length else x

/-- `newDistinguishedName`, /repo/dn.go:467-477, which `UDN`, `RDN`, `GDN`, `TDN`, `TTDN` and
`TFDN` call, /repo/dn.go:415-462. -/
def newDN (sch x : Str) (kw : UInt8) : DName :=
  if x.length ≠ 0 then ⟨kw, some (chopDNPfx sch x)⟩ else ⟨kw, none⟩

/-- The body of both `String` methods, /repo/dn.go:243-249, 276-282. -/
def stringWith (sch bad : Str) : Option DName → Str
  | none => bad
  | some d =>
    match d.text with
    | none => bad
    | some t => sch ++ t

/-- `distinguishedName.set`, /repo/dn.go:400-406. -/
def set (sch : Str) (r : DName) (x : Str) (kw : UInt8) : DName :=
  if x.length = 0 then r else newDN sch x kw

/-- The last lines of both `Set` methods, /repo/dn.go:338-345, 374-381. -/
def setWith (sch : Str) (r : Option DName) (x : Str) (key : UInt8) : Option DName :=
  match isZero r, r with
  | false, some d => some (set sch d x key)
  | _, _ => some (set sch (newDN sch x key) x key)

/-- `ldapURI.assertURIComponents`, /repo/uri.go:85-131. -/
def assertURIComponents (eq : Str → Str → Bool) (sch : Str) (r : Uri) (vals : List Str)
    (kw : List BindKeyword) : Except Unit Uri :=
  match vals with
  | [] => .ok r
  | [d] => .ok (r.set1 eq (.dn (some (newDN sch d BindUDN))))
  | [d, a] => uriAssertATB eq (r.set1 eq (.dn (some (newDN sch d BindUDN)))) a kw
  | [d, a, s] =>
    (uriAssertATB eq (r.set1 eq (.dn (some (newDN sch d BindUDN)))) a kw).map fun r => setScope eq r s
  | d :: a :: s :: f :: _ =>
    (uriAssertATB eq (r.set1 eq (.dn (some (newDN sch d BindUDN)))) a kw).map fun r =>
      (setScope eq r s).set1 eq (.filter (mkFilter f))

/-- `parseLDAPURI`, /repo/parse.go:1048-1073, and `LDAPURI.Parse`, /repo/parse.go:1033-1041. -/
def parseLDAPURI (eq : Str → Str → Bool) (sch x : Str) (bkw : List BindKeyword) : Except Unit Uri :=
  if !Str.hasPrefix x sch then .error ()
  else assertURIComponents eq sch newURI (Str.split1 63 (x.drop sch.length)) bkw

/-- `ldapURI.string`, /repo/uri.go:360-385. -/
def uriString (sch : Str) (r : Uri) : Str :=
  if !r.valid then badURI
  else if !SearchFilter.isZero r.filter then
    stringWith sch badBDN r.dn ++ (b!"?" ++ attrsText r.attrs
      ++ (b!"?" ++ r.scope.standard ++ b!"?" ++ SearchFilter.string r.filter))
  else if !r.avbt.isZero then
    stringWith sch badBDN r.dn ++ (b!"?" ++ (r.avbt.string).getD Levels.fmtPanic)
  else stringWith sch badBDN r.dn ++ b!"??" ++ r.scope.standard ++ b!"?"

/-- One step of a program with variables for names and for addresses. -/
inductive Step where
  /-- An assignment to the exported variable of /repo/dn.go:23. -/
  | assign (s : Str)
  /-- One of the six functions of /repo/dn.go:415-462. -/
  | make (v : Nat) (x : Str) (kw : UInt8)
  /-- `Set` of a name, /repo/dn.go:322-382, with the keyword it decides upon. -/
  | set (v : Nat) (x : Str) (kw : UInt8)
  /-- `Parse` of an address, /repo/parse.go:1033-1041. -/
  | parse (v : Nat) (x : Str)
  /-- `Set` of an address with a name, /repo/uri.go:426-434. -/
  | name (v w : Nat)

/-- The value of `LocalScheme` and of the variables of the program. -/
structure State where
  sch : Str
  names : Nat → Option DName
  uris : Nat → LDAPURI

/-- The start of a program. -/
def start : State := ⟨Levels.LocalScheme, fun _ => none, fun _ => none⟩

/-- The effect of one step. -/
def State.step (eq : Str → Str → Bool) (m : State) : Step → State
  | .assign s => { m with sch := s }
  | .make v x kw => { m with names := fun u => if u = v then some (newDN m.sch x kw) else m.names u }
  | .set v x kw => { m with names := fun u => if u = v then setWith m.sch (m.names v) x kw else m.names u }
  | .parse v x =>
    match parseLDAPURI eq m.sch x [] with
    | .error _ => m
    | .ok r => { m with uris := fun u => if u = v then some r else m.uris u }
  | .name v w =>
    { m with uris := fun u =>
      if u = v then some (((m.uris v).getD newURI).set1 eq (.dn (m.names w))) else m.uris u }

/-- The effect of a program. -/
def State.run (eq : Str → Str → Bool) (m : State) (p : List Step) : State := p.foldl (State.step eq) m

/-- The text of a variable for a name, printed as a bind or as a target name. -/
def State.bindText (m : State) (v : Nat) : Str := stringWith m.sch badBDN (m.names v)
def State.targetText (m : State) (v : Nat) : Str := stringWith m.sch badTDN (m.names v)

/-- The text of a variable for an address, `LDAPURI.String`, /repo/uri.go:307-313. -/
def State.uriText (m : State) (v : Nat) : Str :=
  match m.uris v with
  | none => []
  | some u => uriString m.sch u

end Verif.Scheme
