import Verif.Model.Builders

/-!
# Outputs in /repo/kw_test.go, /repo/cop_test.go, /repo/misc_test.go and /repo/scope_test.go

The values here are the ones the tests of the repository expect.  They check the reading of the
code; no theorem uses them.
-/

namespace Verif.Samples.Words
open Verif Verif.Attr Verif.Builders Verif.Rules

/-! /repo/kw_test.go:8-41 -/
example : [b!"bagels", b!"63", b!"a^574384", b!"", b!"userdnssf"].all
    (fun s => matchBT s = 0 ∧ matchTKW s = 0 ∧ matchBKW s = 0) = true := by decide +kernel

/-! /repo/kw_test.go:43-205 -/
example : [USERDN, GROUPDN, ROLEDN, SELFDN, LDAPURL].map BindType.string =
    [b!"USERDN", b!"GROUPDN", b!"ROLEDN", b!"SELFDN", b!"LDAPURL"] := by decide +kernel
example : [BindUDN, BindRDN, BindGDN, BindUAT, BindGAT, BindIP, BindDNS, BindDoW, BindToD, BindAM, BindSSF].map BindKeyword.string =
    [b!"userdn", b!"roledn", b!"groupdn", b!"userattr", b!"groupattr", b!"ip", b!"dns", b!"dayofweek", b!"timeofday",
     b!"authmethod", b!"ssf"] := by decide +kernel
example : [Target, TargetTo, TargetAttr, TargetCtrl, TargetFrom, TargetScope, TargetFilter, TargetAttrFilters, TargetExtOp].map
      TargetKeyword.string =
    [b!"target", b!"target_to", b!"targetattr", b!"targetcontrol", b!"target_from", b!"targetscope", b!"targetfilter",
     b!"targattrfilters", b!"extop"] := by decide +kernel

/-! /repo/cop_test.go:8-97 -/
example : [Eq', Ne', Lt', Gt', Le', Ge'].map (fun c => (c.toNat, c.description, c.context, c.string)) =
    [(1, b!"Equal To", b!"Eq", b!"="), (2, b!"Not Equal To", b!"Ne", b!"!="), (3, b!"Less Than", b!"Lt", b!"<"),
     (4, b!"Greater Than", b!"Gt", b!">"), (5, b!"Less Than Or Equal", b!"Le", b!"<="),
     (6, b!"Greater Than Or Equal", b!"Ge", b!">=")] := by decide +kernel
example : Cop.compare Ne' (.cop Eq') = false ∧ Cop.valid 12 = false := by decide +kernel

/-! /repo/cop_test.go:99-170 -/
def two : List OpArg := [.str b!"eq", .str b!"ne"]

def permutations : List (KwArg × List OpArg) :=
  [(.target Target, [.str b!"eq", .str b!"ne", .cop Eq', .cop Ne', .int 1, .int 2]),
   (.target TargetTo, two), (.target TargetFrom, two), (.target TargetCtrl, two), (.target TargetAttr, two),
   (.target TargetFilter, [.str b!"eq", .str b!"ne", .cop Ne', .int 2]), (.target TargetExtOp, two),
   (.target TargetScope, [.str b!"eq"]), (.target TargetAttrFilters, [.str b!"eq", .int 1, .cop Eq']),
   (.bind BindUDN, [.str b!"eq", .str b!"ne", .cop Eq', .str b!"equal to", .str b!"EQ"]),
   (.bind BindGDN, [.str b!"eq", .cop Ne', .str b!"not equal to", .str b!"NE", .str b!"ne"]),
   (.bind BindRDN, two), (.bind BindDNS, two), (.bind BindUAT, two), (.bind BindGAT, two), (.bind BindDoW, two),
   (.bind BindIP, two), (.bind BindAM, two),
   (.bind BindToD, [.str b!"eq", .int 4, .str b!"ne", .cop Le', .str b!"LE", .int 6, .str b!"le", .cop Lt', .str b!"LT",
     .str b!"lt", .int 3, .cop Ge', .str b!"GE", .str b!"ge", .cop Gt', .str b!"GT", .str b!"gt"]),
   (.bind BindSSF, [.str b!"eq", .int 1, .str b!"ne", .cop Le', .str b!"LE", .int 5, .str b!"le", .cop Lt', .str b!"LT",
     .int 2, .str b!"lt", .cop Ge', .str b!"GE", .str b!"ge", .cop Gt', .str b!"GT", .str b!"gt"])]

example : permutations.all (fun e => e.2.all (keywordAllows e.1)) = true := by decide +kernel

/-! /repo/misc_test.go:7-42 and 216-290 -/
def pair : List Bool := [true, true, false, false, false, false]
def single : List Bool := [true, false, false, false, false, false]

/-- The operators that go with each keyword. -/
def table : List (KwArg × Str × List Bool) :=
  ([BindUDN, BindRDN, BindGDN, BindIP, BindAM, BindDNS, BindUAT, BindGAT, BindDoW].map fun k => (.bind k, k.string, pair)) ++
  ([BindSSF, BindToD].map fun k => (.bind k, k.string, List.replicate 6 true)) ++
  ([Target, TargetTo, TargetFrom, TargetCtrl, TargetAttr, TargetExtOp, TargetFilter].map fun k => (.target k, k.string, pair)) ++
  ([TargetScope, TargetAttrFilters].map fun k => (.target k, k.string, single))

example : [0, 1, 2, 3, 4, 5].all (fun (i : Nat) => matchCOP (Cop.string (UInt8.ofNat (i + 1))) == UInt8.ofNat (i + 1)) = true := by
  decide +kernel
example : keywordAllows (.target Target) .other = false := by decide +kernel
example : table.all (fun (k, s, bs) => [0, 1, 2, 3, 4, 5].all fun (i : Nat) =>
      keywordAllows k (.cop (UInt8.ofNat (i + 1))) == bs[i]?.getD true &&
      keywordAllows k (.str (Cop.string (UInt8.ofNat (i + 1)))) == bs[i]?.getD true &&
      keywordAllows (.str s) (.cop (UInt8.ofNat (i + 1))) == bs[i]?.getD true) = true := by decide +kernel

/-! /repo/misc_test.go:84-120: the entries of a list, and some of them reversed. -/
def words : List Str := [b!"cAndidate1", b!"blarGetty", b!"CANndidate7", b!"squatcobbler", b!"<censored>"]

example : words.map (fun s => (Misc.strInSlice s words, Misc.strInSliceFold s words)) = List.replicate 5 (true, true) ∧
    [b!"ytteGralb", b!"7etadidnNAC", b!">derosnec<"].map (fun s => (Misc.strInSlice s words, Misc.strInSliceFold s words)) =
      List.replicate 3 (false, false) := by decide +kernel

/-! /repo/misc_test.go:122-144 -/
example : [b!"cn", b!"givenName", b!"objectClass", b!"-DRINK", b!"DRINK", b!"license", b!"", b!">rjd2<", b!"color;lang-fr",
      b!"😀🐾💜", b!"1.3.6.1.4.1.56521"].map Misc.isIdentifier =
    [true, true, true, false, true, true, false, false, true, false, false] := by decide +kernel

/-! /repo/scope_test.go:8-100 -/
example : [b!"baSe", b!"oNe", b!"sub"].all (fun s => SearchScope.scope (.str s) ≠ SearchScope.noScope) = true ∧
    [0, 1, 2].all (fun i => SearchScope.scope (.int i) ≠ SearchScope.noScope) = true := by decide +kernel
example : [(0, b!"baSe", b!"base"), (1, b!"oNelevEL", b!"onelevel"), (2, b!"subTREe", b!"subtree"),
      (3, b!"subORdinate", b!"subordinate")].all (fun (i, s, t) =>
        SearchScope.targetScope (SearchScope.scope (.int i)) = t ∧
        (scopeEq (SearchScope.scope (.str s))).string = b!"( targetscope = \"" ++ t ++ b!"\" )" ∧
        (scopeNe (SearchScope.scope (.str s))).isZero) = true := by decide +kernel
example : SearchScope.string SearchScope.SingleLevel = b!"onelevel" ∧ SearchScope.string SearchScope.Subordinate = b!"subordinate" ∧
    ((trm (.scope SearchScope.SingleLevel)).getD []).map Prod.fst = [Eq'] := by decide +kernel

end Verif.Samples.Words
