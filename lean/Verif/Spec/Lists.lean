import Verif.Model.Str

/-!
# Lists built by pushing
-/

namespace Verif.Spec
open Verif

/-- The first of each group of equal members, in order. -/
def firsts {α : Type} (same : α → α → Bool) : List α → List α
  | [] => []
  | a :: l => a :: (firsts same l).filter fun b => !same a b

/-- The members in front of the first missing one. -/
def upToGap {α : Type} : List (Option α) → List α
  | some a :: l => a :: upToGap l
  | _ => []

/-- What one call offers to a list, when `offers x e` says that the argument `x` is
eligible and stands for the entry `e`: the entries in order, up to the first argument
that is not eligible. -/
inductive CallOffers {A E : Type} (offers : A → E → Prop) : List A → List E → Prop
  | nil : CallOffers offers [] []
  | stop {x : A} {xs : List A} (h : ∀ e, ¬ offers x e) : CallOffers offers (x :: xs) []
  | cons {x : A} {xs : List A} {e : E} {es : List E} (h : offers x e)
      (h' : CallOffers offers xs es) : CallOffers offers (x :: xs) (e :: es)

/-- What a history of calls offers, in order. -/
inductive HistOffers {A E : Type} (offers : A → E → Prop) : List (List A) → List E → Prop
  | nil : HistOffers offers [] []
  | cons {c : List A} {cs : List (List A)} {es fs : List E} (h : CallOffers offers c es)
      (h' : HistOffers offers cs fs) : HistOffers offers (c :: cs) (es ++ fs)

/-- What a sequence of arguments stands for, in order; arguments that stand for nothing
are passed over. -/
inductive Picks {A E : Type} (offers : A → E → Prop) : List A → List E → Prop
  | nil : Picks offers [] []
  | skip {x : A} {xs : List A} {es : List E} (h : ∀ e, ¬ offers x e) (h' : Picks offers xs es) :
      Picks offers (x :: xs) es
  | take {x : A} {xs : List A} {e : E} {es : List E} (h : offers x e) (h' : Picks offers xs es) :
      Picks offers (x :: xs) (e :: es)

/-- No two members, at different places, are related. -/
def Distinct {α : Type} (same : α → α → Bool) (l : List α) : Prop :=
  ∀ (i j : Nat) (a b : α), i < j → l[i]? = some a → l[j]? = some b → same a b = false

end Verif.Spec
