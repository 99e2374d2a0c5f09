import Verif.Model.Levels
import Verif.Spec.Attr
import Verif.Lemmas.Byte
import Verif.Lemmas.Str
import Verif.Lemmas.Keyword
import Verif.Lemmas.Case

namespace Verif
open Verif.Spec Verif.Misc

/-! ## Strings -/

namespace Str

theorem cut1_append {c : Byte} {s t : Str} (h : c ∉ s) : cut1 c (s ++ c :: t) = some (s, t) := by
  induction s with
  | nil => simp [cut1]
  | cons a s ih =>
    have ha : a ≠ c := fun e => h (by simp [e])
    simp [cut1, ha, ih (fun hc => h (by simp [hc]))]

theorem cut1_some {c : Byte} {s p q : Str} (h : cut1 c s = some (p, q)) :
    s = p ++ c :: q ∧ c ∉ p := by
  induction s generalizing p with
  | nil => simp [cut1] at h
  | cons a s ih =>
    by_cases ha : a = c
    · subst ha
      simp [cut1] at h
      obtain ⟨rfl, rfl⟩ := h
      simp
    · simp only [cut1, ha, if_false] at h
      cases hc : cut1 c s with
      | none => simp [hc] at h
      | some pq =>
        obtain ⟨p', q'⟩ := pq
        simp [hc] at h
        obtain ⟨rfl, rfl⟩ := h
        obtain ⟨rfl, hn⟩ := ih hc
        refine ⟨rfl, ?_⟩
        simp [Ne.symm ha, hn]

theorem cut1_none_iff {c : Byte} {s : Str} : cut1 c s = none ↔ c ∉ s := by
  constructor
  · intro h hc
    obtain ⟨p, q, rfl, hp⟩ : ∃ p q, s = p ++ c :: q ∧ c ∉ p := by
      have : ∀ s : Str, c ∈ s → ∃ p q, s = p ++ c :: q ∧ c ∉ p := by
        intro s
        induction s with
        | nil => intro h; cases h
        | cons a s ih =>
          intro h
          by_cases ha : a = c
          · exact ⟨[], s, by simp [ha], by simp⟩
          · obtain ⟨p, q, rfl, hp⟩ := ih (by simpa [Ne.symm ha] using h)
            exact ⟨a :: p, q, rfl, by simp [Ne.symm ha, hp]⟩
      exact this s hc
    rw [cut1_append hp] at h; cases h
  · intro h
    cases hc : cut1 c s with
    | none => rfl
    | some pq => exact absurd (by rw [(cut1_some (p := pq.1) (q := pq.2) hc).1]; simp) h

theorem hasPrefix_iff {s p : Str} : hasPrefix s p = true ↔ ∃ r, s = p ++ r := by
  induction p generalizing s with
  | nil => simp [hasPrefix]
  | cons b p ih =>
    cases s with
    | nil => simp [hasPrefix]
    | cons a s =>
      simp only [hasPrefix, Bool.and_eq_true, beq_iff_eq, ih, List.cons_append, List.cons.injEq]
      constructor
      · rintro ⟨rfl, r, rfl⟩; exact ⟨r, rfl, rfl⟩
      · rintro ⟨r, rfl, rfl⟩; exact ⟨rfl, r, rfl⟩

/-- Lower case of a string that starts with neither of the two special characters. -/
theorem lower_cons (a : Byte) (t : Str) :
    lower (a :: t) = lowerByte a :: lower t ∨ ∃ u, lower (a :: t) = 105 :: u ∨ lower (a :: t) = 107 :: u := by
  match t with
  | [] => left; rfl
  | [b] =>
    by_cases h : a = 0xC4 ∧ b = 0xB0
    · right; refine ⟨[], Or.inl ?_⟩; simp [lower, h]
    · left; simp [lower, h]
  | b :: c :: t =>
    by_cases h1 : a = 0xE2 ∧ b = 0x84 ∧ c = 0xAA
    · right; refine ⟨lower t, Or.inr ?_⟩; simp [lower, h1]
    · by_cases h2 : a = 0xC4 ∧ b = 0xB0
      · right; refine ⟨lower (c :: t), Or.inl ?_⟩
        rw [lower, if_neg h1, if_pos h2]
      · left; rw [lower, if_neg h1, if_neg h2]

/-- A lower case prefix without `i` and `k` is a prefix of the original, letter by
letter. -/
theorem lower_prefix {p s : Str} (hp : ∀ c ∈ p, c ≠ 105 ∧ c ≠ 107) (h : hasPrefix (lower s) p = true) :
    ∃ q r, s = q ++ r ∧ q.map lowerByte = p ∧ lower s = p ++ lower r := by
  induction p generalizing s with
  | nil => exact ⟨[], s, rfl, rfl, rfl⟩
  | cons b p ih =>
    obtain ⟨r, hr⟩ := hasPrefix_iff.1 h
    match s with
    | [] => simp [lower] at hr
    | a :: t =>
      rcases lower_cons a t with e | ⟨u, e | e⟩
      · rw [e] at hr h
        simp only [List.cons_append, List.cons.injEq] at hr
        obtain ⟨q, r', rfl, hq, hl⟩ := ih (fun c hc => hp c (by simp [hc]))
          (hasPrefix_iff.2 ⟨r, hr.2⟩)
        exact ⟨a :: q, r', rfl, by simp [hq, hr.1], by rw [e, hl, hr.1]; rfl⟩
      · rw [e] at hr; simp at hr; exact absurd hr.1.symm (hp b (by simp)).1
      · rw [e] at hr; simp at hr; exact absurd hr.1.symm (hp b (by simp)).2

theorem lower_append_ascii {q r : Str} (hq : IsAscii q) : lower (q ++ r) = q.map lowerByte ++ lower r := by
  induction q with
  | nil => rfl
  | cons a q ih =>
    have ⟨ha, hq⟩ := ascii_cons hq
    have h4 : a ≠ 0xC4 := by rintro rfl; exact absurd ha (by decide)
    have he : a ≠ 0xE2 := by rintro rfl; exact absurd ha (by decide)
    have : ∀ t, lower (a :: t) = lowerByte a :: lower t := by
      intro t
      match t with
      | [] => rfl
      | [b] => simp [lower, h4]
      | b :: c :: t => simp [lower, h4, he]
    rw [List.cons_append, this, ih hq]; rfl

end Str

/-! ## Identifiers -/

theorem isLower_isUpper : ∀ c : Byte, (isLower c || isUpper c) = true ↔ Cased c := by decide +kernel

theorem isDigit_iff' : ∀ c : Byte, isDigit c = true ↔ Digit c := by decide +kernel

theorem isAlnum_iff (c : Byte) : isAlnum c = true ↔ Cased c ∨ Digit c := by
  rw [isAlnum, Bool.or_eq_true, isLower_isUpper, isDigit_iff']

theorem letter_alnum : ∀ c : Byte, isLetter c = true → isAlnum c = true → Cased c := by
  decide +kernel

theorem cased_letter : ∀ c : Byte, Cased c → isLetter c = true := by decide +kernel

theorem cased_not : ∀ c : Byte, Cased c → c ≠ 59 ∧ c ≠ 45 := by decide +kernel

theorem letter_not : ∀ c : Byte, isLetter c = true → c ≠ 59 ∧ c ≠ 45 := by decide +kernel

theorem isIdentifier_iff (s : Str) : isIdentifier s = true ↔ Identifier s := by
  cases s with
  | nil => simp [isIdentifier, Identifier]
  | cons a t =>
    have hl : ∀ x : Byte, (∃ t' z, a :: t = t' ++ [z] ∧ z = x) ↔ (a :: t).getLast (by simp) = x := by
      intro x
      constructor
      · rintro ⟨t', z, e, rfl⟩; simp [e]
      · intro h
        exact ⟨(a :: t).dropLast, x, by rw [← h, List.dropLast_concat_getLast], rfl⟩
    constructor
    · intro h
      unfold isIdentifier at h
      by_cases h1 : isLetter a = true
      · by_cases h2 : isAlnum ((a :: t).getLast (by simp)) = true
        · simp only [h1, h2, Bool.not_true, Bool.false_eq_true, if_false, List.all_eq_true] at h
          have hall : ∀ c ∈ a :: t, Cased c ∨ Digit c ∨ c = 59 ∨ c = 45 := by
            intro c hc
            have := h c hc
            simp only [Bool.or_eq_true, beq_iff_eq, isAlnum_iff] at this
            rcases this with ((x | x) | x) | x <;> simp [x]
          have ha : isAlnum a = true := by
            have := h a (by simp)
            simp only [Bool.or_eq_true, beq_iff_eq] at this
            have hn := letter_not a h1
            rcases this with (x | x) | x
            · exact x
            · exact absurd x hn.1
            · exact absurd x hn.2
          obtain ⟨t', z, e, hz⟩ := (hl _).2 rfl
          exact ⟨⟨a, t, rfl, letter_alnum a h1 ha⟩, ⟨t', z, e, by rw [hz]; exact (isAlnum_iff _).1 h2⟩, hall⟩
        · simp [h1, h2] at h
      · simp [h1] at h
    · rintro ⟨⟨a', t', e, ha⟩, ⟨t'', z, e', hz⟩, hall⟩
      have ea : a = a' := by simp at e; exact e.1
      subst ea
      have hlast : (a :: t).getLast (by simp) = z := (hl z).1 ⟨t'', z, e', rfl⟩
      unfold isIdentifier
      simp only [cased_letter a ha, hlast, (isAlnum_iff z).2 hz, Bool.not_true, Bool.false_eq_true,
        if_false, List.all_eq_true]
      intro c hc
      simp only [Bool.or_eq_true, beq_iff_eq, isAlnum_iff]
      rcases hall c hc with x | x | x | x <;> simp [x]

theorem identifier_no_hash {s : Str} (h : AttrName s) : (35 : Byte) ∉ s := by
  rcases h with h | rfl
  · intro hm
    have := h.2.2 35 hm
    exact absurd this (by decide)
  · decide

namespace Attr

theorem AT_some (s : Str) : AT s = some s ↔ AttrName s := by
  unfold AT AttrName
  rw [← isIdentifier_iff]
  by_cases h : (isIdentifier s || s == b!"*") = true
  · simp only [h, if_true, true_iff]; simpa using h
  · simp only [h]
    simp only [Bool.or_eq_true, beq_iff_eq] at h
    simp [h]

theorem AT_none (s : Str) : AT s = none ↔ ¬ AttrName s := by
  constructor
  · intro h h'; rw [(AT_some s).2 h'] at h; cases h
  · intro h
    unfold AT
    rw [if_neg]
    intro h'
    apply h
    unfold AttrName
    rw [← isIdentifier_iff]
    simpa using h'

theorem attrName_ne_bad {s : Str} (h : AttrName s) : s ≠ badAT := by
  rintro rfl
  rcases h with h | h
  · exact absurd ((isIdentifier_iff _).2 h) (by decide +kernel)
  · exact absurd h (by decide)

theorem AT_string_bad (s : Str) : AttributeType.string (AT s) = badAT ↔ ¬ AttrName s := by
  constructor
  · intro h h'
    rw [(AT_some s).2 h'] at h
    exact attrName_ne_bad h' h
  · intro h; rw [(AT_none s).2 h]; rfl

/-- The kind of value stored for the text after the number sign. -/
def slotOf (q : Str) : Slot := if matchBT q ≠ 0 then .bt (matchBT q) else .av (AV q)

/-- `parseATBTV` in one line. -/
theorem parse_eq (x : Str) (bkw : List (Option BindKeyword)) :
    parseATBTV x bkw = match Str.cut1 35 x with
      | none => .error ()
      | some (p, q) => if AT p = none then .error ()
        else .ok ⟨assertATBTVBindKeyword bkw, some ⟨some (AT p), slotOf q⟩⟩ := by
  unfold parseATBTV
  cases Str.cut1 35 x with
  | none => rfl
  | some pq =>
    obtain ⟨p, q⟩ := pq
    simp only
    by_cases hp : AttrName p
    · have h1 : ¬ AttributeType.string (AT p) = badAT := fun h => (AT_string_bad p).1 h hp
      have h2 : ¬ AT p = none := fun h => (AT_none p).1 h hp
      rw [if_neg h1, if_neg h2]
      by_cases hq : matchBT q ≠ 0
      · simp [hq, slotOf, userOrGroupAttr, Cell.set, set1]
      · simp [hq, slotOf, userOrGroupAttr, Cell.set, set1]
    · rw [if_pos ((AT_string_bad p).2 hp), if_pos ((AT_none p).2 hp)]

theorem parse_ok {x : Str} {bkw : List (Option BindKeyword)} {A : ABTV} :
    parseATBTV x bkw = .ok A ↔ ∃ p q, x = p ++ 35 :: q ∧ AttrName p ∧
      A = ⟨assertATBTVBindKeyword bkw, some ⟨some (some p), slotOf q⟩⟩ := by
  rw [parse_eq]
  constructor
  · intro h
    cases hc : Str.cut1 35 x with
    | none => simp [hc] at h
    | some pq =>
      obtain ⟨p, q⟩ := pq
      simp only [hc] at h
      by_cases hp : AttrName p
      · rw [if_neg (fun e => (AT_none p).1 e hp), (AT_some p).2 hp] at h
        exact ⟨p, q, (Str.cut1_some hc).1, hp, (Except.ok.inj h).symm⟩
      · rw [if_pos ((AT_none p).2 hp)] at h; cases h
  · rintro ⟨p, q, rfl, hp, rfl⟩
    rw [Str.cut1_append (identifier_no_hash hp)]
    simp only
    rw [if_neg (fun e => (AT_none p).1 e hp), (AT_some p).2 hp]

theorem keyword_cases (bkw : List (Option BindKeyword)) :
    assertATBTVBindKeyword bkw = BindUAT ∨ assertATBTVBindKeyword bkw = BindGAT := by
  match bkw with
  | [] => left; rfl
  | none :: _ => left; rfl
  | some k :: t =>
    by_cases h : k = BindGAT
    · right; simp [assertATBTVBindKeyword, h]
    · left; simp [assertATBTVBindKeyword, h]

theorem keyword_ne_zero (bkw : List (Option BindKeyword)) : assertATBTVBindKeyword bkw ≠ 0 := by
  rcases keyword_cases bkw with h | h <;> rw [h] <;> decide

theorem parse_not_zero {x : Str} {bkw : List (Option BindKeyword)} {A : ABTV}
    (h : parseATBTV x bkw = .ok A) : A.isZero = false := by
  obtain ⟨p, q, _, _, rfl⟩ := parse_ok.1 h
  simp [ABTV.isZero, keyword_ne_zero]

end Attr
end Verif
