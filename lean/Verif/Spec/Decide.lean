import Verif.Spec.PBText

/-!
# What permission bind rules decide
-/

namespace Verif.Decide
open Verif Verif.Spec Verif.Bind

/-- Of the permission bind rules of a text, as the parser returns them, one allows (or denies) the right and
holds, if `σ` tells which conditions hold, and `neg` what a negation of several of them means. -/
def TextGives (neg : List Bool → Bool) (σ : BRule → Bool) (allow : Bool) (q : Priv) (ts : List (Option PB.Tokens)) :
    Prop :=
  ∃ t, some t ∈ ts ∧ t.p.allow = some allow ∧ (∃ u ∈ t.p.rights, q.NamedBy (Str.lower u)) ∧ t.b.eval neg σ = true

/-- Of a list of permission bind rules, one allows (or denies) the right and holds, if `τ` tells which bind rules
hold. -/
def Gives (neg : List Bool → Bool) (τ : BRule → Bool) (allow : Bool) (q : Priv) (l : List PB.PBRule) : Prop :=
  ∃ c b, some ⟨some c, some b⟩ ∈ l ∧ c.disp = allow ∧ q.InSum c.bits.toNat ∧ b.eval neg τ = true

/-- A text permits what it allows and does not deny. -/
def TextPermits (neg : List Bool → Bool) (σ : BRule → Bool) (q : Priv) (ts : List (Option PB.Tokens)) : Prop :=
  TextGives neg σ true q ts ∧ ¬ TextGives neg σ false q ts

/-- A list permits what it allows and does not deny. -/
def Permits (neg : List Bool → Bool) (τ : BRule → Bool) (q : Priv) (l : List PB.PBRule) : Prop :=
  Gives neg τ true q l ∧ ¬ Gives neg τ false q l

/-- The text without what reading cuts off: in each stack the entries from the first unreadable condition on. -/
def cutText (ok : BRule → Bool) (ts : List (Option PB.Tokens)) : List (Option PB.Tokens) :=
  ts.map (Option.map fun t => { t with b := t.b.cut ok })

end Verif.Decide
