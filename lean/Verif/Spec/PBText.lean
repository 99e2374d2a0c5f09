import Verif.Model.PB
import Verif.Spec.BindValues
import Verif.Spec.PB
import Verif.Spec.Rights

/-!
# What the text of a permission bind rule says
-/

namespace Verif.PB
open Verif Verif.Spec Verif.Bind

/-- The permission allows or denies, as the text does, the rights the text names and no others.
Words that name no right are passed over. -/
def SaysRights (t : Rights.Tokens) (p : Rights.Permission) : Prop :=
  ∃ c, p = some c ∧ t.allow = some c.disp ∧ c.bits.toNat < 1024 ∧
    ∀ q : Priv, q.InSum c.bits.toNat ↔ ∃ w ∈ t.rights, q.NamedBy (Str.lower w)

/-- The context means what the tree means, and its rules are those of the tree in their order. -/
def SaysBind (F : EqualFold) (t : PTree) (b : BCtx) : Prop :=
  (∀ neg σ τ, AgreeB F σ τ → b.eval neg τ = t.eval neg σ) ∧ ReadAllB F t.conds b.leaves

/-- The rule has the permission and the bind context of the text. -/
def Says (F : EqualFold) (t : Tokens) (r : Store) : Prop :=
  SaysRights t.p r.p ∧ ∃ b, r.b = some b ∧ SaysBind F t.b b

/-- The text allows or denies something under conditions that all can be read: a stack with known
words and without empty stacks, all of whose conditions have an operator and a readable value, which is
not the name of an attribute and a mark alone. -/
def Legible (F : EqualFold) (t : Tokens) : Prop :=
  t.p.allow ≠ none ∧ (∃ k p es, t.b = .stack k p es) ∧ t.b.Known ∧ t.b.Filled ∧
    ∀ r ∈ t.b.conds, ReadableB F r ∧ r.core.init = true ∧ r.core.op ≠ 0 ∧ ¬ BareMark r

/-- Nothing of the text can be used: it does not say whether it allows or denies, or its bind rules
are no stack, an empty stack, or one that begins with an unreadable condition. -/
def Hopeless (F : EqualFold) (t : Tokens) : Prop :=
  t.p.allow = none ∨ (∀ k p es, t.b ≠ .stack k p es) ∨
  ∃ k p es, t.b = .stack k p es ∧ (es = [] ∨ ∃ r es', es = .cond r :: es' ∧ ¬ ReadableB F r)

/-- The texts say what the rules say, one by one; members that are no permission bind rules are
passed over. -/
inductive SaysAll (F : EqualFold) : List (Option Tokens) → List Store → Prop where
  | nil : SaysAll F [] []
  | skip {ts : List (Option Tokens)} {rs : List Store} : SaysAll F ts rs → SaysAll F (none :: ts) rs
  | cons {t : Tokens} {ts : List (Option Tokens)} {r : Store} {rs : List Store} :
      Says F t r → SaysAll F ts rs → SaysAll F (some t :: ts) (r :: rs)

end Verif.PB
