import Verif.Model.Piece
import Verif.Props.Keyword

/-!
# What a history of calls on a rule stands for
-/

namespace Verif.Piece
open Verif Verif.Spec

/-- The text of a keyword handed to `SetKeyword` of a bind rule. -/
def KwArg.words : KwArg → Option Str
  | .str s => some s
  | .bind k => some (BindKeyword.string k)
  | .target k => some (TargetKeyword.string k)
  | .other => none

/-- The last text handed to `SetKeyword`. -/
def lastWord {E : Type} (p : List (Call E)) : Option Str :=
  (p.filterMap fun c => match c with | .keyword k => KwArg.words k | _ => none).getLast?

/-- The last value handed to `SetExpression`. -/
def lastValue {E : Type} (p : List (Call E)) : Option E :=
  (p.filterMap fun c => match c with | .expression e => some e | _ => none).getLast?

/-- An argument denotes an operator that goes with the bind keyword of this text; equality goes
with all. -/
def TakenB (word : Option Str) (a : OpArg) (q : Rel) : Prop :=
  OpDenotes a q ∧ (q = .eq ∨ ∃ s k, word = some s ∧ Str.eqFold s (BKw.name k) = true ∧ k.allows q = true)

/-- The same for target keywords. -/
def TakenT (word : Option Str) (a : OpArg) (q : Rel) : Prop :=
  OpDenotes a q ∧ (q = .eq ∨ ∃ s k, word = some s ∧ Str.eqFold s (TKw.name k) = true ∧ k.allows q = true)

/-- After the calls `p` the operator is `q`: one call gave it, it went with the keyword of that
time, and no later one did. -/
def LastOperator {E : Type} (taken : Option Str → OpArg → Rel → Prop) (p : List (Call E)) (q : Rel) : Prop :=
  ∃ p1 a p2, p = p1 ++ .operator a :: p2 ∧ taken (lastWord p1) a q ∧
    ∀ p3 a' p4 q', p2 = p3 ++ .operator a' :: p4 → ¬ taken (lastWord (p1 ++ .operator a :: p3)) a' q'

end Verif.Piece
