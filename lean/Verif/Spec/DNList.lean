import Verif.Model.DNList
import Verif.Spec.DN

/-!
# Which arguments a list of distinguished names takes, and as what
-/

namespace Verif.Spec
open Verif Verif.DN Verif.DNList

/-- What an argument stands for in a bind list of keyword `kw`: a text that is not
empty stands for the name with that keyword and without scheme, a name that is set and
has that keyword stands for itself, and so does a URI. -/
def bindOffer (kw : BindKeyword) (x : BArg) (e : BEntry) : Prop :=
  (∃ s w, x = .str s ∧ s ≠ [] ∧ Bare s w ∧ e = .dn (some ⟨kw, some w⟩)) ∨
  (∃ w, x = .dn (some ⟨kw, some w⟩) ∧ e = .dn (some ⟨kw, some w⟩)) ∨
  (∃ u, x = .uri u ∧ e = .uri u)

/-- The same for target lists. -/
def targetOffer (kw : TargetKeyword) (x : TArg) (e : TargetDN) : Prop :=
  (∃ s w, x = .str s ∧ s ≠ [] ∧ Bare s w ∧ e = some ⟨kw, some w⟩) ∨
  (∃ w, x = .dn (some ⟨kw, some w⟩) ∧ e = some ⟨kw, some w⟩)

/-- The text of a name without scheme: `ldap:///` in front. -/
def nameText (w : Str) : Str := scheme ++ w

end Verif.Spec
