import Verif.Model.Str
import Verif.Lemmas.Byte

/-!
# Splitting, joining and letter case
-/

namespace Verif.Str

theorem split1_ne_nil (c : Byte) (s : Str) : split1 c s ≠ [] := by
  cases s with
  | nil => simp [split1]
  | cons a t =>
    simp only [split1]
    split
    · simp
    · cases split1 c t <;> simp [consHead]

theorem split1_cons_ne {c a : Byte} (h : a ≠ c) (s : Str) :
    split1 c (a :: s) = consHead a (split1 c s) := by simp [split1, h]

theorem split1_of_not_mem {c : Byte} {s : Str} (h : c ∉ s) : split1 c s = [s] := by
  induction s with
  | nil => rfl
  | cons a t ih =>
    simp only [List.mem_cons, not_or] at h
    rw [split1, if_neg (Ne.symm h.1), ih h.2]; rfl

theorem split1_append {c : Byte} {s t : Str} (h : c ∉ s) :
    split1 c (s ++ c :: t) = s :: split1 c t := by
  induction s with
  | nil => simp [split1]
  | cons a s ih =>
    simp only [List.mem_cons, not_or] at h
    rw [List.cons_append, split1, if_neg (Ne.symm h.1), ih h.2]; rfl

/-- Splitting what was joined gives the pieces back. -/
theorem split1_join {c : Byte} {l : List Str} (hl : l ≠ []) (h : ∀ s ∈ l, c ∉ s) :
    split1 c (join [c] l) = l := by
  induction l with
  | nil => exact absurd rfl hl
  | cons a l ih =>
    cases l with
    | nil => simpa [join] using split1_of_not_mem (h a (by simp))
    | cons b l =>
      rw [join, List.append_assoc]
      rw [show ([c] ++ join [c] (b :: l) : Str) = c :: join [c] (b :: l) from rfl]
      rw [split1_append (h a (by simp)), ih (by simp) (fun s hs => h s (by simp [hs]))]

theorem split1_not_mem {c : Byte} {s p : Str} (h : p ∈ split1 c s) : c ∉ p := by
  induction s generalizing p with
  | nil => simp [split1] at h; subst h; simp
  | cons a t ih =>
    rw [split1] at h
    split at h
    · rcases List.mem_cons.1 h with rfl | h
      · simp
      · exact ih h
    · next hne =>
      cases hs : split1 c t with
      | nil => exact absurd hs (split1_ne_nil c t)
      | cons x r =>
        rw [hs, consHead] at h
        rcases List.mem_cons.1 h with rfl | h
        · simp only [List.mem_cons, not_or]
          exact ⟨Ne.symm hne, ih (by rw [hs]; simp)⟩
        · exact ih (by rw [hs]; simp [h])

/-- Joining what was split gives the text back. -/
theorem join_split1 (c : Byte) (s : Str) : join [c] (split1 c s) = s := by
  induction s with
  | nil => rfl
  | cons a t ih =>
    rw [split1]
    split
    · next h =>
      subst h
      cases hs : split1 a t with
      | nil => exact absurd hs (split1_ne_nil a t)
      | cons x r => rw [hs] at ih; rw [join]; simp [ih]
    · cases hs : split1 c t with
      | nil => exact absurd hs (split1_ne_nil c t)
      | cons x r =>
        rw [hs] at ih
        rw [consHead]
        cases r with
        | nil => simp only [join] at ih ⊢; rw [ih]
        | cons y r => simp only [join, List.cons_append] at ih ⊢; rw [ih]

theorem lowerByte_eq {c : Byte} (h : ¬ (97 ≤ c ∧ c ≤ 122)) (a : Byte) (hu : ¬ (65 ≤ c ∧ c ≤ 90)) :
    lowerByte a = c ↔ a = c := by
  unfold lowerByte
  by_cases ha : 65 ≤ a ∧ a ≤ 90
  · rw [if_pos ha]
    constructor
    · intro e
      exfalso; apply h
      subst e
      have : ∀ a : Byte, 65 ≤ a → a ≤ 90 → 97 ≤ a + 32 ∧ a + 32 ≤ 122 := by decide +kernel
      exact this a ha.1 ha.2
    · rintro rfl; exact absurd ha hu
  · rw [if_neg ha]

/-- Lower-casing does not move an ASCII separator that is no letter. -/
theorem split1_lower {c : Byte} (hc : c < 128) (h : ¬ (97 ≤ c ∧ c ≤ 122)) (hu : ¬ (65 ≤ c ∧ c ≤ 90))
    (s : Str) : split1 c (lower s) = (split1 c s).map lower := by
  have hb : ∀ a : Byte, lowerByte a = c ↔ a = c := fun a => lowerByte_eq h a hu
  have h107 : (107 : Byte) ≠ c := by rintro rfl; exact h (by decide)
  have h105 : (105 : Byte) ≠ c := by rintro rfl; exact h (by decide)
  have hi : ∀ a : Byte, 128 ≤ a → a ≠ c := by
    rintro a ha rfl; exact absurd hc (by simpa using ha)
  have mc : ∀ (a : Byte) (l : List Str), (∀ x r, l = x :: r → lower (a :: x) = lowerByte a :: lower x) →
      l ≠ [] → consHead (lowerByte a) (l.map lower) = (consHead a l).map lower := by
    intro a l hl hne
    cases l with
    | nil => exact absurd rfl hne
    | cons x r => simp only [List.map_cons, consHead, hl x r rfl]
  have l1 : ∀ a : Byte, lower [a] = [lowerByte a] := fun _ => by simp [lower]
  have l2 : ∀ a b : Byte, lower [a, b] = if a = 0xC4 ∧ b = 0xB0 then [105] else lowerByte a :: lower [b] :=
    fun a b => by simp [lower]
  have hd : ∀ (u x : Str) (r : List Str), split1 c u = x :: r → ∃ w, u = x ++ w ∧ (w = [] ∨ ∃ w', w = c :: w') := by
    intro u x r hx
    have := join_split1 c u
    rw [hx] at this
    cases r with
    | nil => exact ⟨[], by simpa [join] using this.symm, Or.inl rfl⟩
    | cons y r => exact ⟨c :: join [c] (y :: r), by simpa [join] using this.symm, Or.inr ⟨_, rfl⟩⟩
  -- a prefix of the text that ends at the separator is lower-cased byte-wise like the text
  have key : ∀ (a : Byte) (u x : Str) (r : List Str), split1 c u = x :: r →
      (lower (a :: u) = lowerByte a :: lower u) → lower (a :: x) = lowerByte a :: lower x := by
    intro a u x r hx hl
    obtain ⟨w, rfl, hw⟩ := hd u x r hx
    match x with
    | [] => simp [lower]
    | [b] =>
      rw [l2]
      split
      · next hab =>
        exfalso
        obtain ⟨rfl, rfl⟩ := hab
        cases w with
        | nil => rw [List.append_nil, l2, if_pos (by decide), l1] at hl; simp at hl
        | cons y w =>
          rw [List.singleton_append, lower, if_neg (fun e => absurd e.1 (by decide)), if_pos (by decide)] at hl
          simp only [List.cons.injEq] at hl
          exact absurd hl.1 (by decide)
      · rfl
    | b :: d :: x =>
      rw [lower]
      rw [List.cons_append, List.cons_append, lower] at hl
      split
      · next hab =>
        rw [if_pos hab] at hl
        simp only [List.cons.injEq] at hl
        obtain ⟨rfl, _⟩ := hab
        exact absurd hl.1 (by decide)
      · next hab =>
        rw [if_neg hab] at hl
        split
        · next hab2 =>
          rw [if_pos hab2] at hl
          simp only [List.cons.injEq] at hl
          obtain ⟨rfl, _⟩ := hab2
          exact absurd hl.1 (by decide)
        · rfl
  have plainStep : ∀ (a : Byte) (u : Str), lower (a :: u) = lowerByte a :: lower u →
      split1 c (lower u) = (split1 c u).map lower →
      split1 c (lower (a :: u)) = (split1 c (a :: u)).map lower := by
    intro a u hl ih
    rw [hl, split1, split1]
    by_cases ha : a = c
    · rw [if_pos ((hb a).2 ha), if_pos ha, ih]; simp [lower]
    · rw [if_neg (fun e => ha ((hb a).1 e)), if_neg ha, ih]
      exact mc a _ (fun x r hx => key a u x r hx hl) (split1_ne_nil c u)
  induction s using lower.induct with
  | case1 => simp [lower, split1]
  | case2 a =>
    have := plainStep a [] (by simp [lower]) (by simp [lower, split1])
    simpa using this
  | case3 a b h =>
    obtain ⟨rfl, rfl⟩ := h
    rw [lower, if_pos (by decide)]
    simp [split1, h105, hi 0xC4 (by decide), hi 0xB0 (by decide), consHead, lower]
  | case4 a b h ih =>
    exact plainStep a [b] (by rw [l2, if_neg h]) ih
  | case5 a b d t h ih =>
    obtain ⟨rfl, rfl, rfl⟩ := h
    rw [lower, if_pos (by decide)]
    rw [split1_cons_ne h107, split1_cons_ne (hi _ (by decide)), split1_cons_ne (hi _ (by decide)),
      split1_cons_ne (hi _ (by decide)), ih]
    cases hs : split1 c t with
    | nil => exact absurd hs (split1_ne_nil c t)
    | cons x r => simp only [List.map_cons, consHead]; rw [lower, if_pos (by decide)]
  | case6 a b d t h1 h ih =>
    obtain ⟨rfl, rfl⟩ := h
    rw [lower, if_neg h1, if_pos (by decide)]
    rw [split1_cons_ne h105, split1_cons_ne (hi _ (by decide)), split1_cons_ne (hi _ (by decide)), ih]
    cases hs : split1 c (d :: t) with
    | nil => exact absurd hs (split1_ne_nil c _)
    | cons x r =>
      simp only [List.map_cons, consHead]
      have : lower (0xC4 :: 0xB0 :: x) = 105 :: lower x := by
        cases x with
        | nil => simp [lower]
        | cons e x => rw [lower, if_neg (by intro hh; exact absurd hh.1 (by decide)), if_pos (by decide)]
      rw [this]
  | case7 a b d t h1 h2 ih =>
    exact plainStep a (b :: d :: t) (by rw [lower, if_neg h1, if_neg h2]) ih

end Verif.Str
