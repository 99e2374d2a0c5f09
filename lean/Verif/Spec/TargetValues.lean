import Verif.Model.Target
import Verif.Spec.Keyword
import Verif.Spec.DN
import Verif.Spec.Scope
import Verif.Spec.Inside
import Verif.Spec.Ops
import Verif.Props.Keyword
import Verif.Props.Scope

/-!
# The types of the values of target rules
-/

namespace Verif.Rules
open Verif Verif.Spec Verif.Attr Verif.Filter

/-- A type of values. -/
inductive VType where
  | scope | filter | attributes | identifiers | names | operations
  deriving DecidableEq, Repr

/-- The type ACIv3 demands for the value of a keyword. -/
def demands : TKw → VType
  | .targetscope => .scope
  | .targetfilter => .filter
  | .targetattr => .attributes
  | .targetcontrol => .identifiers
  | .extop => .identifiers
  | .target => .names
  | .target_to => .names
  | .target_from => .names
  | .targattrfilters => .operations

/-- The type of a value; none for texts that are not read and for single members of lists. -/
def typeOf : TExpr → Option VType
  | .scope _ => some .scope
  | .filter _ => some .filter
  | .attrs _ => some .attributes
  | .oids _ => some .identifiers
  | .dns _ => some .names
  | .afos _ => some .operations
  | _ => none

/-- The name is long enough, and if it is without `=`, it is not an alias with a second scheme. -/
def GoodName (w : Str) : Prop :=
  3 ≤ w.length ∧ (61 ∈ w ∨ ∀ a ∈ aliasNames, Str.fold w ≠ Str.fold (scheme ++ a))

/-- The text `v` is taken as the name `w`: white space is condensed, the scheme is removed, what
is left has to be good, and a second scheme is removed. -/
def TakenAs (v w : Str) : Prop := ∃ c u, Condenses v c ∧ Bare c u ∧ GoodName u ∧ Bare u w

/-- The text between the delimiters `c` stands for these operations, each of which is kept once
if it has filters: as many pieces as words of operations, and every piece is one operation. -/
def OpList (c : Byte) (v : Str) (l : AFOs) : Prop :=
  ∃ os : List AFO, ReadsEach (Str.split1 c v) os ∧ occ b!"add=" v + occ b!"delete=" v = os.length ∧
    l = ⟨44, firsts sameOp (withEntries os)⟩

/-- The value of one text for `targattrfilters`; `t` is what is inside the white space and
quotation marks of `v`.  With a comma or a semicolon it is a list, otherwise one operation if it
begins with the word of one, otherwise one filter to add. -/
def OpsValue (v t : Str) (l : AFOs) : Prop :=
  (44 ∈ t ∧ OpList 44 v l) ∨
  (44 ∉ t ∧ 59 ∈ t ∧ OpList 59 t l) ∨
  (44 ∉ t ∧ 59 ∉ t ∧ (∃ delete rest, t = opWord delete ++ rest) ∧ ∃ u delete ps, Inside t u ∧ Says u delete ps ∧
    l = ⟨44, withEntries [opWith delete (firsts samePair (withFilter ps))]⟩) ∨
  (44 ∉ t ∧ 59 ∉ t ∧ (∀ delete rest, t ≠ opWord delete ++ rest) ∧ ∃ a f, t = a ++ b!":" ++ f ∧ AttrName a ∧
    l = ⟨44, withEntries [opWith false (withFilter [(a, f)])]⟩)

/-- The texts `vs` are the value `x` for the keyword `k`.  Of several attributes only the first
text counts, and it is there as often as there are texts; object identifiers count up to the first
text that is none; see C44 and C59. -/
inductive TargetValue (E : EqualFold) (d : Oid.DotReader) : TKw → List Str → TExpr → Prop
  | scope {v t : Str} {s : Scope} (h : Inside v t) (h' : Str.lower t ∈ s.spellings) :
      TargetValue E d .targetscope [v] (.scope (SearchScope.const s))
  | filter {v t : Str} (h : Inside v t) (h' : 3 ≤ t.length) : TargetValue E d .targetfilter [v] (.filter (some t))
  | attrs {v t : Str} {vs : List Str} (h : Inside v t) (h' : AttrName t) :
      TargetValue E d .targetattr (v :: vs) (.attrs ⟨List.replicate (vs.length + 1) (some t), []⟩)
  | oids {k : TKw} {vs : List Str} (hk : demands k = .identifiers) (h : upToGap (vs.map d.read) ≠ []) :
      TargetValue E d k vs (.oids ⟨tkwConst k,
        (firsts (fun a b => a == b) (upToGap (vs.map d.read))).map fun t => .oid (some ⟨tkwConst k, some t⟩)⟩)
  | names {k : TKw} {vs : List Str} (hk : demands k = .names) (h : vs ≠ []) (name : Str → Str)
      (h' : ∀ v ∈ vs, TakenAs v (name v)) :
      TargetValue E d k vs (.dns ⟨tkwConst k,
        (firsts (fun a b => E.eq (scheme ++ a) (scheme ++ b)) (vs.map name)).map fun n => some ⟨tkwConst k, some n⟩⟩)
  | ops {v t : Str} {l : AFOs} (h : Inside v t) (h' : 3 ≤ t.length) (hl : OpsValue v t l) :
      TargetValue E d .targattrfilters [v] (.afos l)

end Verif.Rules
