import Verif.Model.Uri

/-!
# /repo/dn.go: lists of distinguished names

go-stackage is not in the repository.  Contract used here: `Push` of one argument
asks the push policy and appends the argument when it returns nil; `Pop` removes and
returns the last entry; `Index` returns the entry; a stack value is a pointer, so the
policy made from `d` after the conversion (/repo/dn.go:1465-1466) sees the entries.

Every argument that reaches the policy has methods `String` and `Kind`, so the type
switch of `distinguishedNamesPushPolicy` (/repo/dn.go:1399-1426) always takes its
first case, which sets an empty stack to the keyword it already has, and returns nil.
-/

namespace Verif.DNList
open Verif Verif.Misc Verif.DN Verif.Uri

/-- An entry of a bind DN list. -/
inductive BEntry where
  | dn (d : BindDN)
  | uri (u : LDAPURI)

/-- `DistinguishedNameContext.String`. -/
def BEntry.string : BEntry → Str
  | .dn d => BindDN.string d
  | .uri u => LDAPURI.string u

/-- An argument of `BindDistinguishedNames.Push`, of type `any`. -/
inductive BArg where
  | str (s : Str)
  | dn (d : BindDN)
  | uri (u : LDAPURI)
  | other

/-- An argument of `TargetDistinguishedNames.Push`, of type `any`. -/
inductive TArg where
  | str (s : Str)
  | dn (d : TargetDN)
  | other

/-- `pushBindDistinguishedNames`, /repo/dn.go:1244-1276. -/
def pushBindArg (kw : BindKeyword) : BArg → Option BEntry
  | .str s => if s.length > 0 then some (.dn (some (newDN s kw))) else none
  | .dn d => if !isZero d && keyword d == some kw then some (.dn d) else none
  | .uri u => some (.uri u)
  | .other => none

/-- `pushTargetDistinguishedNames`, /repo/dn.go:1278-1306. -/
def pushTargetArg (kw : TargetKeyword) : TArg → Option TargetDN
  | .str s => if s.length > 0 then some (some (newDN s kw)) else none
  | .dn d => if !isZero d && keyword d == some kw then some d else none
  | .other => none

/-- The loop of `contains`, /repo/dn.go:1168-1173, 1234-1239, on the texts of the
entries. -/
def containsText (eq : Str → Str → Bool) (texts : List Str) (candidate : Str) : Bool :=
  texts.any fun t => eq t candidate

/-- `BindDistinguishedNames` made by `UDNs`, `RDNs` or `GDNs`: its category and its
entries. -/
structure BDNs where
  kw : BindKeyword
  entries : List BEntry

/-- `TargetDistinguishedNames` made by `TDNs`, `TTDNs` or `TFDNs`. -/
structure TDNs where
  kw : TargetKeyword
  entries : List TargetDN

/-- `_r.Push(dn)`, /repo/dn.go:1135, with the policies of /repo/dn.go:1339-1364. -/
def pushEntry (eq : Str → Str → Bool) (es : List BEntry) (e : BEntry) : List BEntry :=
  if containsText eq (es.map BEntry.string) e.string then es else es ++ [e]

/-- `_r.Push(dn)`, /repo/dn.go:1201, with the policies of /repo/dn.go:1369-1394. -/
def pushTargetEntry (eq : Str → Str → Bool) (es : List TargetDN) (e : TargetDN) :
    List TargetDN :=
  if containsText eq (es.map TargetDN.string) (TargetDN.string e) then es else es ++ [e]

/-- The loop of `BindDistinguishedNames.Push`, /repo/dn.go:1127-1136. -/
def pushLoop (eq : Str → Str → Bool) (kw : BindKeyword) (es : List BEntry) :
    List BArg → List BEntry
  | [] => es
  | x :: xs =>
    match pushBindArg kw x with
    | none => es
    | some e => pushLoop eq kw (pushEntry eq es e) xs

/-- The loop of `TargetDistinguishedNames.Push`, /repo/dn.go:1192-1202. -/
def pushTargetLoop (eq : Str → Str → Bool) (kw : TargetKeyword) (es : List TargetDN) :
    List TArg → List TargetDN
  | [] => es
  | x :: xs =>
    match pushTargetArg kw x with
    | none => es
    | some e => pushTargetLoop eq kw (pushTargetEntry eq es e) xs

/-- `BindDistinguishedNames.Push`, /repo/dn.go:1118-1139, on an initialized list; the
zero value has no keyword and is returned unchanged. -/
def BDNs.push (eq : Str → Str → Bool) (r : BDNs) (x : List BArg) : BDNs :=
  { r with entries := pushLoop eq r.kw r.entries x }

/-- `TargetDistinguishedNames.Push`, /repo/dn.go:1183-1205. -/
def TDNs.push (eq : Str → Str → Bool) (r : TDNs) (x : List TArg) : TDNs :=
  { r with entries := pushTargetLoop eq r.kw r.entries x }

/-- `UDNs`, `RDNs`, `GDNs`, /repo/dn.go:1448-1557. -/
def mkBDNs (eq : Str → Str → Bool) (kw : BindKeyword) (x : List BArg) : BDNs :=
  BDNs.push eq ⟨kw, []⟩ x
def UDNs (eq : Str → Str → Bool) (x : List BArg) : BDNs := mkBDNs eq BindUDN x
def RDNs (eq : Str → Str → Bool) (x : List BArg) : BDNs := mkBDNs eq BindRDN x
def GDNs (eq : Str → Str → Bool) (x : List BArg) : BDNs := mkBDNs eq BindGDN x

/-- `TDNs`, `TTDNs`, `TFDNs`, /repo/dn.go:1568-1677. -/
def mkTDNs (eq : Str → Str → Bool) (kw : TargetKeyword) (x : List TArg) : TDNs :=
  TDNs.push eq ⟨kw, []⟩ x
def TDNsOf (eq : Str → Str → Bool) (x : List TArg) : TDNs := mkTDNs eq Target x
def TTDNs (eq : Str → Str → Bool) (x : List TArg) : TDNs := mkTDNs eq TargetTo x
def TFDNs (eq : Str → Str → Bool) (x : List TArg) : TDNs := mkTDNs eq TargetFrom x

/-- The candidate text of `BindDistinguishedNames.contains`, /repo/dn.go:1158-1166; `F`
(/repo/dn.go:1066-1075) makes a name with the keyword of the list. -/
def bindCandidate (kw : BindKeyword) : BArg → Str
  | .str s => BindDN.string (some (newDN s kw))
  | .dn d => BindDN.string d
  | .uri u => LDAPURI.string u
  | .other => []

/-- `BindDistinguishedNames.Contains`, /repo/dn.go:1146-1176. -/
def BDNs.contains (eq : Str → Str → Bool) (r : BDNs) (x : BArg) : Bool :=
  containsText eq (r.entries.map BEntry.string) (bindCandidate r.kw x)

/-- The candidate text of `TargetDistinguishedNames.contains`, /repo/dn.go:1224-1232. -/
def targetCandidate (kw : TargetKeyword) : TArg → Str
  | .str s => TargetDN.string (some (newDN s kw))
  | .dn d => TargetDN.string d
  | .other => []

/-- `TargetDistinguishedNames.Contains`, /repo/dn.go:1212-1242. -/
def TDNs.contains (eq : Str → Str → Bool) (r : TDNs) (x : TArg) : Bool :=
  containsText eq (r.entries.map TargetDN.string) (targetCandidate r.kw x)

/-- The type assertion of `BindDistinguishedNames.Pop`, /repo/dn.go:1313-1317. -/
def popped : Option BEntry → BindDN
  | some (.dn d) => d
  | _ => none

/-- `BindDistinguishedNames.Pop`, /repo/dn.go:1311-1320: the list afterwards and the
returned name. -/
def BDNs.pop (r : BDNs) : BDNs × BindDN :=
  ({ r with entries := r.entries.dropLast }, popped r.entries.getLast?)

/-- `TargetDistinguishedNames.Pop`, /repo/dn.go:1325-1334. -/
def TDNs.pop (r : TDNs) : TDNs × TargetDN :=
  ({ r with entries := r.entries.dropLast }, r.entries.getLast?.getD none)

/-- One value of `BindDistinguishedNames.setExpressionValues`, /repo/dn.go:904-925; the
error stops the loop.  The check of the URI uses `containsStr` with `?`. -/
def setBindValue (eq : Str → Str → Bool) (r : BDNs) (key : BindKeyword) (v : Str) :
    Except Unit BDNs :=
  if Str.hasPrefix v Levels.LocalScheme && Str.containsStr v b!"?" then
    match parseLDAPURI eq v [key] with
    | .error _ => .error ()
    | .ok u => .ok (r.push eq [.uri (some u)])
  else if !isInvalidDNSyntax (chopDNPfx (condenseWHSP v))
      && !Str.containsStr (chopDNPfx (condenseWHSP v)) b!"?" then
    .ok (r.push eq [.dn (some (newDN (chopDNPfx (condenseWHSP v)) key))])
  else .error ()

/-- `BindDistinguishedNames.setExpressionValues`, /repo/dn.go:893-929. -/
def setBindValues (eq : Str → Str → Bool) (r : BDNs) (key : BindKeyword) :
    List Str → Except Unit BDNs
  | [] => .ok r
  | v :: vs =>
    match setBindValue eq r key v with
    | .error _ => .error ()
    | .ok r' => setBindValues eq r' key vs

/-- `TargetDistinguishedNames.setExpressionValues`, /repo/dn.go:938-960. -/
def setTargetValues (eq : Str → Str → Bool) (r : TDNs) (key : TargetKeyword) :
    List Str → Except Unit TDNs
  | [] => .ok r
  | v :: vs =>
    if isInvalidDNSyntax (chopDNPfx (condenseWHSP v)) then .error ()
    else setTargetValues eq
      (r.push eq [.dn (some (newDN (chopDNPfx (condenseWHSP v)) key))]) key vs

/-- The list made for a key by `assertBindUGRDN`, /repo/parse.go:300-308. -/
def ugrList (eq : Str → Str → Bool) (key : BindKeyword) : BDNs :=
  if key = BindRDN then RDNs eq [] else if key = BindGDN then GDNs eq [] else UDNs eq []

/-- `assertBindUGRDN`, /repo/parse.go:281-324, apart from the quotation style. -/
def assertBindUGRDN (eq : Str → Str → Bool) (values : List Str) (key : BindKeyword) :
    Except Unit BDNs :=
  match values with
  | [] => .error ()
  | v :: _ =>
    if (unquote (condenseWHSP v)).length < 3 then .error ()
    else setBindValues eq (ugrList eq key) key values

end Verif.DNList
