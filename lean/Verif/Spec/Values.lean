import Verif.Model.Values
import Verif.Spec.BindValues
import Verif.Spec.Ops
import Verif.Spec.UriText
import Verif.Props.Filter

/-!
# Values whose text says all of them

These are conditions on the values alone; nothing is said about reading.
-/

namespace Verif.Back
open Verif Verif.Spec Verif.Bind Verif.Rules Verif.Attr

/-- Nothing is to be taken away from the text: no white space around it or doubled, no quotation
marks around it, and nothing outside ASCII. -/
def Settled (t : Str) : Prop := Inside t t

/-- The pair has the keyword, an attribute, and a bind type or a value that is not empty and no
name of a bind type; `t` is the attribute, a number sign and the type or value. -/
inductive SoundPair (key : BindKeyword) : ABTV → Str → Prop
  | type {p : Str} (b : BTy) (hp : AttrName p) :
      SoundPair key ⟨key, some ⟨some (some p), .bt (btConst b)⟩⟩ (p ++ b!"#" ++ b.name)
  | value {p q : Str} (hp : AttrName p) (hq : ∀ b, ¬ BindTypeText b q) (h : q ≠ []) :
      SoundPair key ⟨key, some ⟨some (some p), .av (some q)⟩⟩ (p ++ b!"#" ++ q)

/-- The address has a name without question mark and scheme, and one of these: attributes, a scope
that is printed and a filter without question mark; a pair alone, without question mark; a scope
and an empty filter. -/
def SoundUri (key : BindKeyword) (u : Uri.Uri) : Prop :=
  (∃ d, u.dn = some ⟨BindUDN, some d⟩ ∧ d ≠ [] ∧ (63 : Byte) ∉ d ∧ ∀ y, d ≠ scheme ++ y) ∧
  ((∃ (f : Str) (names : List Str) (k : Scope), u.filter = some f ∧ f ≠ [] ∧ (63 : Byte) ∉ f ∧ u.attrs = ⟨names.map some, []⟩ ∧
      (∀ n ∈ names, AttrName n) ∧ u.scope = SearchScope.const k ∧ k ≠ .subordinate ∧ u.avbt = ⟨0, none⟩) ∨
   (∃ t, SoundPair key u.avbt t ∧ (63 : Byte) ∉ t ∧ u.filter = none ∧ u.attrs = ⟨[], []⟩ ∧ u.scope = 0) ∨
   (∃ k, u.filter = some [] ∧ u.avbt = ⟨0, none⟩ ∧ u.attrs = ⟨[], []⟩ ∧ u.scope = SearchScope.const k ∧
      k ≠ .subordinate))

/-- The entry of a list of names is a good name without scheme, question mark and needless white
space, or such an address. -/
inductive SoundEntry (key : BindKeyword) : DNList.BEntry → Prop
  | name {w : Str} (h : GoodName w) (hs : ∀ y, w ≠ scheme ++ y) (hq : (63 : Byte) ∉ w)
      (hc : Condenses (scheme ++ w) (scheme ++ w)) : SoundEntry key (.dn (some ⟨key, some w⟩))
  | address {u : Uri.Uri} (h : SoundUri (Uri.pairKey [key]) u) : SoundEntry key (.uri (some u))

/-- The value for the keyword `k`. -/
inductive Sound (F : EqualFold) : BKw → BExpr → Prop
  | names {k : BKw} {es : List DNList.BEntry} (hk : demandsB k = .names) (hne : es ≠ [])
      (he : ∀ e ∈ es, SoundEntry (bkwConst k) e) (hd : Distinct (fun a b => F.eq a.string b.string) es) :
      Sound F k (.dns ⟨bkwConst k, es⟩)
  | uri {k : BKw} {u : Uri.Uri} (hk : demandsB k = .attribute) (h : SoundUri (bkwConst k) u)
      (hs : Settled u.string) : Sound F k (.uri (some u))
  | inherit {k : BKw} {w : BitVec 16} {A : ABTV} {t : Str} (hk : demandsB k = .attribute) (h : SoundPair BindUAT A t)
      (hn : ∃ n : Fin 10, w.getLsbD (n.1 + 1) = true) (hw : ∀ j, ¬ (1 ≤ j ∧ j ≤ 10) → w.getLsbD j = false)
      (hs : Settled (inheritText (fun n => w.getLsbD (n.1 + 1)) t)) : Sound F k (.inh (some ⟨w, A⟩))
  | pair {k : BKw} {A : ABTV} {t : Str} (hk : demandsB k = .attribute) (h : SoundPair (bkwConst k) A t)
      (hs : Settled t) : Sound F k (.pair A)
  | address {l : List Str} (hne : l ≠ []) (hd : l.Nodup) (h : ∀ a ∈ l, AddressLike a) : Sound F .ip (.ip (some l))
  | host {l : List Str} (h2 : 2 ≤ l.length) (h15 : l.length ≤ 15) (h63 : (Str.join b!"." l).length ≤ 63)
      (h : ∀ p ∈ l, IsLabel AsciiLetter p) : Sound F .dns (.fqdn (some l))
  | noHost : Sound F .dns (.fqdn (some []))
  | days {w : BitVec 8} (h0 : w.getLsbD 0 = false) (hn : w ≠ 0#8) : Sound F .dayofweek (.dow (some w))
  | time {h m : Nat} {a b : Byte} (hc : Clock h m) (hn : a.toNat * 256 + b.toNat = 100 * h + m) :
      Sound F .timeofday (.tod (some (a, b)))
  | method (a : Auth) : Sound F .authmethod (.am (Sec.authConst a))
  | factor (o : Option Byte) : Sound F .ssf (.ssf (some o))

/-- The value for the target keyword `k`.  Attributes may be several only if they are all the
same, object identifiers have to be read as they are written by `d`, and operations have to be
separated by commas. -/
inductive SoundT (E : EqualFold) (d : Oid.DotReader) : TKw → TExpr → Prop
  | scope (s : Scope) : SoundT E d .targetscope (.scope (SearchScope.const s))
  | filter {t : Str} (h : 3 ≤ t.length) (hs : Settled t) : SoundT E d .targetfilter (.filter (some t))
  | attrs {t : Str} (n : Nat) (h : AttrName t) (hs : Settled t) :
      SoundT E d .targetattr (.attrs ⟨List.replicate (n + 1) (some t), []⟩)
  | oids {k : TKw} {ts : List Str} (hk : demands k = .identifiers) (hne : ts ≠ []) (hd : ts.Nodup)
      (h : ∀ t ∈ ts, d.read t = some t) :
      SoundT E d k (.oids ⟨tkwConst k, ts.map fun t => .oid (some ⟨tkwConst k, some t⟩)⟩)
  | names {k : TKw} {ns : List Str} (hk : demands k = .names) (hne : ns ≠ [])
      (h : ∀ n ∈ ns, GoodName n ∧ (∀ y, n ≠ scheme ++ y) ∧ Condenses (scheme ++ n) (scheme ++ n))
      (hd : Distinct (fun a b => E.eq (scheme ++ a) (scheme ++ b)) ns) :
      SoundT E d k (.dns ⟨tkwConst k, ns.map fun n => some ⟨tkwConst k, some n⟩⟩)
  | ops {ops : List (Bool × List Pair)} (h : Filter.Ops 44 ops)
      (h1 : ops.length = 1 → ∀ o ∈ ops, Filter.Plainly 59 o.2) :
      SoundT E d .targattrfilters (.afos ⟨44, ops.map fun o => Filter.opWith o.1 o.2⟩)

/-- A text that is read without surprises for the keyword `k`: ASCII without quotation marks and
question marks; for names not two schemes; for attributes no scheme in front and no number sign at
the end. -/
structure Calm (k : BKw) (v : Str) : Prop where
  ascii : Str.IsAscii v
  quotes : (34 : Byte) ∉ v ∧ (39 : Byte) ∉ v ∧ (96 : Byte) ∉ v
  mark : (63 : Byte) ∉ v
  names : demandsB k = .names → ∀ y, ¬ Condenses v (scheme ++ (scheme ++ y))
  attr : demandsB k = .attribute → (∀ y, ¬ Condenses v (scheme ++ y)) ∧ ∀ y, ¬ Condenses v (y ++ b!"#")

/-- A text that is read without surprises for the target keyword `k`: ASCII without quotation marks;
for names not two schemes; operations are left out here. -/
structure CalmT (k : TKw) (v : Str) : Prop where
  ascii : Str.IsAscii v
  quotes : (34 : Byte) ∉ v ∧ (39 : Byte) ∉ v ∧ (96 : Byte) ∉ v
  names : demands k = .names → ∀ y, ¬ Condenses v (scheme ++ (scheme ++ y))
  noOps : k ≠ .targattrfilters

end Verif.Back
