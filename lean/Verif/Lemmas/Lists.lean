import Verif.Spec.Lists

/-!
# Pushing into a list that refuses what it holds
-/

namespace Verif.Spec
open Verif

variable {α : Type}

/-- Append unless a member is related. -/
def addNew (same : α → α → Bool) (l : List α) (a : α) : List α :=
  if l.any (fun b => same b a) then l else l ++ [a]

theorem foldl_addNew_eq (same : α → α → Bool)
    (tr : ∀ a b c, same a b = true → same b c = true → same a c = true)
    (l acc : List α) :
    l.foldl (addNew same) acc
      = acc ++ (firsts same l).filter fun b => !acc.any fun a => same a b := by
  induction l generalizing acc with
  | nil => simp [firsts]
  | cons a l ih =>
    rw [List.foldl_cons, ih, addNew, firsts]
    by_cases h : (acc.any fun b => same b a) = true
    · rw [if_pos h, List.filter_cons, h]
      simp only [Bool.not_true, Bool.false_eq_true, if_false]
      congr 1
      rw [List.filter_filter]
      apply List.filter_congr
      intro b _
      cases hb : acc.any fun a => same a b
      · simp only [Bool.not_false, Bool.true_and]
        symm
        rw [Bool.not_eq_true', Bool.eq_false_iff]
        intro hab
        obtain ⟨x, hx, hxa⟩ := List.any_eq_true.1 h
        have : (acc.any fun a => same a b) = true := List.any_eq_true.2 ⟨x, hx, tr _ _ _ hxa hab⟩
        rw [this] at hb; cases hb
      · simp
    · rw [if_neg h, List.filter_cons]
      simp only [Bool.not_eq_true] at h
      rw [h]
      simp only [Bool.not_false, if_true, List.append_assoc, List.singleton_append]
      congr 2
      rw [List.filter_filter]
      apply List.filter_congr
      intro b _
      simp [List.any_append]

theorem foldl_addNew (same : α → α → Bool)
    (tr : ∀ a b c, same a b = true → same b c = true → same a c = true) (l : List α) :
    l.foldl (addNew same) [] = firsts same l := by
  rw [foldl_addNew_eq same tr]; simp

theorem distinct_append {same : α → α → Bool} {l : List α} {a : α} (h : Distinct same l)
    (ha : ∀ b ∈ l, same b a = false) : Distinct same (l ++ [a]) := by
  intro i j x y hij hx hy
  rw [List.getElem?_append] at hx hy
  by_cases hj : j < l.length
  · rw [if_pos hj] at hy
    rw [if_pos (by omega)] at hx
    exact h i j x y hij hx hy
  · rw [if_neg hj] at hy
    have hj0 : j - l.length = 0 := by
      rcases Nat.eq_zero_or_pos (j - l.length) with h0 | h0
      · exact h0
      · rw [List.getElem?_eq_none (by simp only [List.length_singleton]; omega)] at hy; cases hy
    rw [hj0] at hy
    simp at hy; subst hy
    rw [if_pos (by omega)] at hx
    exact ha x (List.mem_of_getElem? hx)

theorem distinct_addNew {same : α → α → Bool} {l : List α} {a : α} (h : Distinct same l) :
    Distinct same (addNew same l a) := by
  rw [addNew]
  by_cases hc : (l.any fun b => same b a) = true
  · rw [if_pos hc]; exact h
  · rw [if_neg hc]
    refine distinct_append h ?_
    intro b hb
    rw [Bool.eq_false_iff]
    intro hba
    exact hc (List.any_eq_true.2 ⟨b, hb, hba⟩)

theorem distinct_foldl {same : α → α → Bool} (l : List α) {acc : List α} (h : Distinct same acc) :
    Distinct same (l.foldl (addNew same) acc) := by
  induction l generalizing acc with
  | nil => exact h
  | cons a l ih => exact ih (distinct_addNew h)

theorem distinct_dropLast {same : α → α → Bool} {l : List α} (h : Distinct same l) :
    Distinct same l.dropLast := by
  intro i j x y hij hx hy
  rw [List.getElem?_dropLast] at hx hy
  split at hx
  · split at hy
    · exact h i j x y hij hx hy
    · cases hy
  · cases hx

theorem distinct_nil (same : α → α → Bool) : Distinct same ([] : List α) := by
  intro i j x y _ hx; simp at hx

theorem mem_foldl_addNew {same : α → α → Bool} {l acc : List α} {a : α}
    (h : a ∈ l.foldl (addNew same) acc) : a ∈ acc ∨ a ∈ l := by
  induction l generalizing acc with
  | nil => exact Or.inl h
  | cons b l ih =>
    rcases ih h with h | h
    · rw [addNew] at h
      split at h
      · exact Or.inl h
      · rcases List.mem_append.1 h with h | h
        · exact Or.inl h
        · simp at h; subst h; simp
    · simp [h]

theorem foldl_addNew_flatMap {β : Type} (same : α → α → Bool) (f : β → List α) (l : List β)
    (acc : List α) :
    l.foldl (fun acc b => (f b).foldl (addNew same) acc) acc
      = (l.flatMap f).foldl (addNew same) acc := by
  induction l generalizing acc with
  | nil => rfl
  | cons b l ih => simp [ih]

theorem callOffers_iff {A E : Type} {offers : A → E → Prop} {f : A → Option E}
    (hf : ∀ x e, f x = some e ↔ offers x e) (xs : List A) (es : List E) :
    CallOffers offers xs es ↔ es = upToGap (xs.map f) := by
  induction xs generalizing es with
  | nil =>
    constructor
    · intro h; cases h; rfl
    · rintro rfl; exact .nil
  | cons x xs ih =>
    constructor
    · intro h
      cases h with
      | stop h =>
        have : f x = none := by
          cases e : f x with
          | none => rfl
          | some e' => exact absurd ((hf x e').1 e) (h e')
        simp [this, upToGap]
      | cons h h' =>
        rw [List.map_cons, (hf x _).2 h, upToGap, (ih _).1 h']
    · rintro rfl
      cases e : f x with
      | none =>
        rw [List.map_cons, e]
        exact .stop fun e' he' => by rw [(hf x e').2 he'] at e; cases e
      | some e' =>
        rw [List.map_cons, e, upToGap]
        exact .cons ((hf x e').1 e) ((ih _).2 rfl)

theorem histOffers_iff {A E : Type} {offers : A → E → Prop} {f : A → Option E}
    (hf : ∀ x e, f x = some e ↔ offers x e) (cs : List (List A)) (es : List E) :
    HistOffers offers cs es ↔ es = cs.flatMap fun xs => upToGap (xs.map f) := by
  induction cs generalizing es with
  | nil =>
    constructor
    · intro h; cases h; rfl
    · rintro rfl; exact .nil
  | cons c cs ih =>
    constructor
    · intro h
      cases h with
      | cons h h' => rw [List.flatMap_cons, (callOffers_iff hf _ _).1 h, (ih _).1 h']
    · rintro rfl
      rw [List.flatMap_cons]
      exact .cons ((callOffers_iff hf _ _).2 rfl) ((ih _).2 rfl)

end Verif.Spec
