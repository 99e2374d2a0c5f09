import Verif.Model.Globals
import Verif.Spec.Alias
import Verif.Spec.TargetValues

/-!
# What it means that reading depends on the text alone
-/

namespace Verif.Globals
open Verif Verif.Alias Verif.Spec

/-- The variable a statement assigns to. -/
def assigned : Stmt bindDN → Option Nat
  | .zero v => some v
  | .make v _ => some v
  | .copy w _ => some w
  | .call _ _ => none
  | .assign w _ _ => some w

/-- The program leaves the four predefined names alone: it assigns to none of them, and calls
no method on them or on anything it has copied from them.  `W` holds at least the predefined
names and all their copies. -/
def LeavesNames (p : List (Stmt bindDN)) : Prop :=
  ∃ W : Nat → Bool, (∀ v, v < 4 → W v = true) ∧ Closed W p ∧ Quiet W p ∧
    ∀ s ∈ p, ∀ v, assigned s = some v → 4 ≤ v

/-- In both memories all lists of texts are read alike, as bind names and as target names. -/
def ReadAlike (F : EqualFold) (m n : Mem bindDN) (values : List Str) : Prop :=
  (∀ k, assertBindUGRDN F.eq m values k = assertBindUGRDN F.eq n values k) ∧
    ∀ k, assertTargetTFDN F.eq m values k = assertTargetTFDN F.eq n values k

/-- What is left of the text for the check of its syntax: white space condensed and one scheme
removed. -/
def Checked (v w : Str) : Prop := ∃ c, Condenses v c ∧ Bare c w

/-- The text `w` holds an `=`, or it is no text any name may have, in any letter case: it does not
begin with the scheme and does not stand for invalid names. -/
def Ordinary (F : EqualFold) (w : Str) : Prop :=
  61 ∈ w ∨ ((∀ t, F.eq w (scheme ++ t) = false) ∧
    F.eq w b!"<invalid_bind_distinguished_name>" = false)

end Verif.Globals
