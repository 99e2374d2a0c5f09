import Verif.Model.Uri
import Verif.Spec.DN
import Verif.Spec.Scope
import Verif.Spec.Lists
import Verif.Props.Attr
import Verif.Props.Scope

/-!
# The texts of attribute pairs, inheritances and LDAP URIs
-/

namespace Verif.Uri
open Verif Verif.Spec Verif.Attr Verif.DN Verif.Filter

/-- The text of a pair with the keyword `key`: an attribute, a number sign, and a bind type in
any letter case or a value. -/
inductive PairText (key : BindKeyword) : Str → ABTV → Prop
  | type {p q : Str} {b : BTy} (hp : AttrName p) (hq : BindTypeText b q) :
      PairText key (p ++ b!"#" ++ q) ⟨key, some ⟨some (some p), .bt (btConst b)⟩⟩
  | value {p q : Str} (hp : AttrName p) (hq : ∀ b, ¬ BindTypeText b q) (h : q ≠ []) :
      PairText key (p ++ b!"#" ++ q) ⟨key, some ⟨some (some p), .av (some q)⟩⟩
  | empty {p : Str} (hp : AttrName p) : PairText key (p ++ b!"#") ⟨key, some ⟨some (some p), .av none⟩⟩

/-- The text of an inheritance: `parent[` in any letter case, levels, `].` and a pair, with the
keyword `userattr`.  Bit `n + 1` of the value stands for level `n`. -/
def InheritText (x : Str) (i : Levels.Inheritance) : Prop :=
  ∃ pre lv rest w A, x = pre ++ lv ++ b!"]." ++ rest ∧ AnyCase b!"parent[" pre ∧ (93 : Byte) ∉ lv ∧
    (∃ n, Lists lv n) ∧ PairText BindUAT rest A ∧ i = some ⟨w, A⟩ ∧
    (∀ n : Fin 10, w.getLsbD (n.1 + 1) = true ↔ Lists lv n) ∧ ∀ j, ¬ (1 ≤ j ∧ j ≤ 10) → w.getLsbD j = false

/-- The name in front of the first question mark; it may lack, and may have a scheme of its own. -/
def NamePart (n : Str) (d : BindDN) : Prop :=
  (n = [] ∧ d = some ⟨BindUDN, none⟩) ∨ (n ≠ [] ∧ ∃ w, Bare n w ∧ d = some ⟨BindUDN, some w⟩)

/-- What is between the first and the second question mark: nothing, a pair, or attributes between
commas.  Spaces do not count there, and what is no attribute is left out. -/
def AttrPart (key : BindKeyword) (a : Option Str) (pair : ABTV) (attrs : ATs) : Prop :=
  ((a = none ∨ a = some []) ∧ pair = ⟨0, none⟩ ∧ attrs = ⟨[], []⟩) ∨
  (∃ s, a = some s ∧ 35 ∈ s ∧ PairText key s pair ∧ attrs = ⟨[], []⟩) ∨
  (∃ s names, a = some s ∧ s ≠ [] ∧ 35 ∉ s ∧ pair = ⟨0, none⟩ ∧ attrs = ⟨names.map some, []⟩ ∧
    Picks (fun x n => x = n ∧ AttrName n) (Str.split1 44 (Str.dropSpaces s)) names)

/-- The third part: a scope in any letter case; other texts count as none. -/
def ScopePart (s : Option Str) (v : SearchScope) : Prop :=
  (∃ t, ∃ k : Scope, s = some t ∧ Str.lower t ∈ k.spellings ∧ v = SearchScope.const k) ∨
  ((∀ t, s = some t → ∀ k : Scope, Str.lower t ∉ k.spellings) ∧ v = 0)

/-- The text `x` with pairs of the keyword `key` is read as `u`. -/
def TextOf (key : BindKeyword) (x : Str) (u : Uri) : Prop :=
  ∃ n parts, x = scheme ++ Str.join b!"?" (n :: parts) ∧ (∀ p ∈ n :: parts, (63 : Byte) ∉ p) ∧
    NamePart n u.dn ∧ AttrPart key parts[0]? u.avbt u.attrs ∧ ScopePart parts[1]? u.scope ∧ u.filter = parts[2]?

/-- All parts of the text are well formed: a name, nothing or a pair with something behind the number
sign or a list of attributes, nothing or a scope, a filter, and nothing more. -/
def WellFormed (x : Str) : Prop :=
  ∃ n parts, x = scheme ++ Str.join b!"?" (n :: parts) ∧ (∀ p ∈ n :: parts, (63 : Byte) ∉ p) ∧ n ≠ [] ∧
    parts.length ≤ 3 ∧
    (∀ a, parts[0]? = some a → a = [] ∨ (∃ p q, a = p ++ b!"#" ++ q ∧ AttrName p ∧ q ≠ []) ∨
      (35 ∉ a ∧ ∀ y ∈ Str.split1 44 (Str.dropSpaces a), AttrName y)) ∧
    ∀ s, parts[1]? = some s → s = [] ∨ ∃ k : Scope, Str.lower s ∈ k.spellings

/-- The keyword of a pair: `groupattr` if this is asked for, otherwise `userattr`. -/
def pairKey (bkw : List BindKeyword) : BindKeyword := if bkw.head? = some BindGAT then BindGAT else BindUAT

end Verif.Uri
