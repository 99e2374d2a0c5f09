import Verif.Model.Bind
import Verif.Spec.Bind
import Verif.Spec.Net
import Verif.Spec.TargetValues
import Verif.Spec.UriText
import Verif.Props.Sec

/-!
# The types of the values of bind rules
-/

namespace Verif.Bind
open Verif Verif.Spec Verif.Rules

/-- A type of values. -/
inductive BType where
  | names | address | host | attribute | days | clock | method | strength
  deriving DecidableEq, Repr

/-- The type ACIv3 demands for the value of a keyword. -/
def demandsB : BKw → BType
  | .userdn => .names
  | .roledn => .names
  | .groupdn => .names
  | .userattr => .attribute
  | .groupattr => .attribute
  | .ip => .address
  | .dns => .host
  | .dayofweek => .days
  | .timeofday => .clock
  | .authmethod => .method
  | .ssf => .strength

/-- The type of a value; none for texts that are not read and for a single name. -/
def typeOfB : BExpr → Option BType
  | .dns _ => some .names
  | .uri _ => some .attribute
  | .inh _ => some .attribute
  | .pair _ => some .attribute
  | .ip _ => some .address
  | .fqdn _ => some .host
  | .dow _ => some .days
  | .tod _ => some .clock
  | .am _ => some .method
  | .ssf _ => some .strength
  | _ => none

/-- The text is an address with attributes, scope or filter: it begins with the scheme and
has a question mark. -/
def UriText (v : Str) : Prop := (∃ w, v = scheme ++ w) ∧ 63 ∈ v

/-- The text `v` is taken as the entry `e` of a list of names of keyword `key`: an address if
it has a question mark, otherwise a name. -/
def TakenEntry (key : BindKeyword) (v : Str) (e : DNList.BEntry) : Prop :=
  (UriText v ∧ ∃ u, Uri.TextOf (Uri.pairKey [key]) v u ∧ e = .uri (some u)) ∨
  (¬ UriText v ∧ ∃ c u w, Condenses v c ∧ Bare c u ∧ GoodName u ∧ 63 ∉ u ∧ Bare u w ∧
    e = .dn (some ⟨key, some w⟩))

/-- The texts `vs` are the value `x` for the keyword `k`.  Only names may be several.  The text
`<invalid_fqdn_or_label>` is taken as a host name without labels; see C58. -/
inductive BindValue (F : EqualFold) : BKw → List Str → BExpr → Prop
  | names {k : BKw} {v t : Str} {vs : List Str} (hk : demandsB k = .names) (hv : Inside v t) (h3 : 3 ≤ t.length)
      (entry : Str → DNList.BEntry) (he : ∀ x ∈ v :: vs, TakenEntry (bkwConst k) x (entry x)) :
      BindValue F k (v :: vs)
        (.dns ⟨bkwConst k, firsts (fun a b => F.eq a.string b.string) ((v :: vs).map entry)⟩)
  | uri {k : BKw} {v t : Str} {u : Uri.Uri} (hk : demandsB k = .attribute) (hv : Inside v t)
      (h : Uri.TextOf (bkwConst k) t u) : BindValue F k [v] (.uri (some u))
  | inherit {k : BKw} {v t : Str} {i : Levels.Inheritance} (hk : demandsB k = .attribute) (hv : Inside v t)
      (hp : ∃ w, t = b!"parent[" ++ w) (h : Uri.InheritText t i) : BindValue F k [v] (.inh i)
  | pair {k : BKw} {v t : Str} {A : Attr.ABTV} (hk : demandsB k = .attribute) (hv : Inside v t)
      (hs : ∀ w, t ≠ scheme ++ w) (hp : ∀ w, t ≠ b!"parent[" ++ w) (h : Uri.PairText (bkwConst k) t A) :
      BindValue F k [v] (.pair A)
  | address {v t : Str} (hv : Inside v t) (hd : (Str.split1 44 t).Nodup)
      (h : ∀ a ∈ Str.split1 44 t, AddressLike a) : BindValue F .ip [v] (.ip (some (Str.split1 44 t)))
  | host {v t : Str} (hv : Inside v t) (h2 : 2 ≤ (Str.split1 46 t).length) (h15 : (Str.split1 46 t).length ≤ 15)
      (h63 : t.length ≤ 63) (h : ∀ p ∈ Str.split1 46 t, IsLabel LatinLetter p) :
      BindValue F .dns [v] (.fqdn (some (Str.split1 46 t)))
  | noHost {v : Str} (hv : Inside v b!"<invalid_fqdn_or_label>") : BindValue F .dns [v] (.fqdn (some []))
  | days {v t : Str} {w : BitVec 8} (hv : Inside v t)
      (h : ∀ e ∈ Str.split1 44 (Str.dropSpaces t), ∃ d : Weekday, d.NamedBy e)
      (hw : ∀ d : Weekday, w.getLsbD d.number.toNat = true ↔ ∃ e ∈ Str.split1 44 (Str.dropSpaces t), d.NamedBy e)
      (h0 : w.getLsbD 0 = false) : BindValue F .dayofweek [v] (.dow (some w))
  | time {v : Str} {h m : Nat} {a b : Byte} (hc : Clock h m) (hv : Inside v (clockText h m))
      (hn : a.toNat * 256 + b.toNat = 100 * h + m) : BindValue F .timeofday [v] (.tod (some (a, b)))
  | method {v t : Str} {a : Auth} (hv : Inside v t) (h : Str.eqFold a.name t = true) :
      BindValue F .authmethod [v] (.am (Sec.authConst a))
  | noFactor {v : Str} (hv : Inside v b!"0") : BindValue F .ssf [v] (.ssf (some none))
  | factor {v : Str} {b : Byte} (hv : Inside v (Str.ofNat (b.toNat + 1))) :
      BindValue F .ssf [v] (.ssf (some (some b)))

/-- The condition `r` can be read. -/
def ReadableB (F : EqualFold) (r : BRule) : Prop := ∃ k style vs x, RawBind r k style vs ∧ BindValue F k vs x

/-- The condition `r` can be read, but what is read has no text: its value is the name of an attribute,
the mark `#` and nothing behind it. -/
def BareMark (r : BRule) : Prop :=
  ∃ k style v p, demandsB k = .attribute ∧ RawBind r k style [v] ∧ Inside v (p ++ b!"#") ∧ AttrName p

/-- The condition `r` is read as the rule `r'`: keyword, operator and parentheses stay, and the value
is that of the texts. -/
def ReadAsB (F : EqualFold) (r r' : BRule) : Prop :=
  ∃ k style vs, RawBind r k style vs ∧ BindValue F k vs r'.ex ∧ r'.core = r.core ∧ r'.paren = r.paren

/-- The conditions are read as the rules, one by one. -/
inductive ReadAllB (F : EqualFold) : List BRule → List BRule → Prop where
  | nil : ReadAllB F [] []
  | cons {r r' : BRule} {rs rs' : List BRule} : ReadAsB F r r' → ReadAllB F rs rs' →
      ReadAllB F (r :: rs) (r' :: rs')

/-- A condition and the rules it is read as have the same truth value. -/
def AgreeB (F : EqualFold) (σ τ : BRule → Bool) : Prop := ∀ r r', ReadAsB F r r' → τ r' = σ r

/-- The surroundings of reading: comparison of texts by `F`, and the table of authentication
methods in any order. -/
def Proper (env : Env) (F : EqualFold) : Prop :=
  env.eq = F.eq ∧ env.names.Perm Sec.authNames ∧ env.names'.Perm Sec.authNames

end Verif.Bind
