import Verif.Lemmas.Misc
import Verif.Lemmas.Inside

/-!
# C54 to C56: white space, quotes, comparison
-/

namespace Verif.Misc
open Verif Verif.Spec

/-! ## C54 -/

/-- What C54 says of one text: the words are the same in the same order (so nothing
but white space changes and words stay separated), no tab, line feed or double space
remains, no white space remains at either end, and condensing again changes nothing. -/
structure Condensed (s out : Str) : Prop where
  words : Spec.words out = Spec.words s
  ink : Spec.ink out = Spec.ink s
  blanks : (9 : Byte) ∉ out ∧ (10 : Byte) ∉ out ∧ ∀ a b, out ≠ a ++ b!"  " ++ b
  ends : ∀ h : out ≠ [], ¬ White (out.head h) ∧ ¬ White (out.getLast h)
  again : condenseWHSP out = out

/-- The full claim of C54. -/
def Harmless : Prop := ∀ s, Condensed s (condenseWHSP s)

/-- **C54, negation**: the two bytes of `é` become four, because each byte is taken for
a character of its own. -/
theorem C54_counterexample : ¬ Harmless := by
  intro h
  have := (h [0xC3, 0xA9]).ink
  have e : condenseWHSP [0xC3, 0xA9] = [0xC3, 0x83, 0xC2, 0xA9] := by decide +kernel
  rw [e] at this
  exact absurd this (by decide)

private theorem tight_facts {b : Bool} {s : Str} (h : Tight b s) :
    (9 : Byte) ∉ s ∧ (10 : Byte) ∉ s ∧ ∀ u v, s ≠ u ++ b!"  " ++ v := by
  refine ⟨?_, ?_, ?_⟩
  · induction s generalizing b with
    | nil => simp
    | cons c s ih =>
      simp only [List.mem_cons, not_or]
      exact ⟨Ne.symm h.1, ih h.2.2.2⟩
  · induction s generalizing b with
    | nil => simp
    | cons c s ih =>
      simp only [List.mem_cons, not_or]
      exact ⟨Ne.symm h.2.1, ih h.2.2.2⟩
  · rintro u v rfl
    rw [List.append_assoc] at h
    have := tight_append_right h
    have h2 := this.2.2.2
    exact h2.2.2.1 rfl rfl

/-- **C54, part.** For every ASCII text condensing is harmless in the full sense.
Missing: bytes above 127, which are re-encoded. -/
theorem C54_ascii_partial (s : Str) (h : Str.IsAscii s) : Condensed s (condenseWHSP s) where
  words := words_condense h
  ink := by rw [ink_words, ink_words, words_condense h]
  blanks := tight_facts (condense_tight s)
  ends := by
    intro hne
    have := trim_ends (condenseLoop_ascii (nl_ascii (trim_ascii h)) false) hne
    have hw : ∀ c : Byte, Solid c → ¬ White c := by
      intro c hc hw
      have := (isSpace1_white c).2 hw
      rw [hc.2] at this; cases this
    exact ⟨hw _ this.1, hw _ this.2⟩
  again := condense_idem h

/-- **C54, part**, for every byte string: no tab, line feed or double space remains. Missing: the bytes above 127 do not
stay as they are. -/
theorem C54_blanks_partial (s : Str) :
    (9 : Byte) ∉ condenseWHSP s ∧ (10 : Byte) ∉ condenseWHSP s ∧
      ∀ a b, condenseWHSP s ≠ a ++ b!"  " ++ b := tight_facts (condense_tight s)

/-- **C54, part**, for every byte string: what condensing does, exactly.  White space
around the text is removed, every run of blanks within becomes one space, and all other
ASCII bytes stay.  Missing: bytes above 127 do not stay. -/
theorem C54_exact_partial (s : Str) : Condenses s (condenseWHSP s) ∧ ∀ u, Condenses s u → u = condenseWHSP s :=
  ⟨condenses_of s, fun _ h => ((condenses_iff _ _).1 h).symm⟩

example : Condenses b!" a \t b\n" b!"a b" := (condenses_iff _ _).2 (by decide +kernel)

example : Str.IsAscii b!"  a \t b\n\nc " ∧ condenseWHSP b!"  a \t b\n\nc " = b!"a b c" := by
  decide +kernel

/-! ## C55 -/

/-- **C55.** Removing quotes from a text enclosed in double quotes gives the text back,
whatever bytes it holds. -/
theorem C55_undo (t : Str) (h : t ≠ []) : unquote (b!"\"" ++ t ++ b!"\"") = t := by
  have hl : 0 < t.length := List.length_pos_iff.2 h
  have h1 : ¬ (b!"\"" ++ t ++ b!"\"").length ≤ 2 := by simp; omega
  rw [unquote, if_neg h1]
  simp [dropQuote, isQuote]

/-- **C55**, short text is never changed. -/
theorem C55_short (t : Str) (h : t.length ≤ 2) : unquote t = t := by simp [unquote, h]

/-- **C55**, text without quotation marks at its ends is never changed. -/
theorem C55_plain (a z : Byte) (t : Str) (ha : a ≠ 34 ∧ a ≠ 39 ∧ a ≠ 96)
    (hz : z ≠ 34 ∧ z ≠ 39 ∧ z ≠ 96) : unquote (a :: t ++ [z]) = a :: t ++ [z] := by
  have h1 : isQuote a = false := by simp [isQuote, ha]
  have h2 : isQuote z = false := by simp [isQuote, hz]
  unfold unquote
  split
  · rfl
  · simp [dropQuote, h1, h2]

/-- **C55**, what can be removed: at most one quotation mark on either side. -/
theorem C55_at_most_one (t : Str) : ∃ p q, t = p ++ unquote t ++ q ∧
    (p = [] ∨ p = [34] ∨ p = [39] ∨ p = [96]) ∧ (q = [] ∨ q = [34] ∨ q = [39] ∨ q = [96]) := by
  have drop : ∀ s : Str, ∃ p, s = p ++ dropQuote s ∧ (p = [] ∨ p = [34] ∨ p = [39] ∨ p = [96]) := by
    intro s
    cases s with
    | nil => exact ⟨[], rfl, Or.inl rfl⟩
    | cons c s =>
      by_cases h : isQuote c = true
      · refine ⟨[c], by simp [dropQuote, h], Or.inr ?_⟩
        simp only [isQuote, Bool.or_eq_true, beq_iff_eq] at h
        rcases h with (h | h) | h <;> simp [h]
      · exact ⟨[], by simp [dropQuote, h], Or.inl rfl⟩
  unfold unquote
  split
  · exact ⟨[], [], by simp, Or.inl rfl, Or.inl rfl⟩
  · obtain ⟨p, hp, hp'⟩ := drop t
    obtain ⟨q, hq, hq'⟩ := drop (dropQuote t).reverse
    refine ⟨p, q, ?_, hp', ?_⟩
    · have := congrArg List.reverse hq
      simp only [List.reverse_reverse, List.reverse_append] at this
      have hqr : q.reverse = q := by rcases hq' with rfl | rfl | rfl | rfl <;> rfl
      rw [hqr] at this
      rw [List.append_assoc, ← this, ← hp]
    · exact hq'

/-- **C55**, exactly: from a text of three bytes or more a quotation mark at either end is
removed, whatever its kind and whether the other end has one; and nothing else. -/
theorem C55_exact (u t : Str) : unquote u = t ↔ Unquotes u t := (unquotes_iff u t).symm

example : unquote b!"\"a\"" = b!"a" ∧ unquote b!"\"\"" = b!"\"\"" := by decide

/-! ## C56 -/

/-- The text `Compare` sees of a value, if the value is usable. -/
def usableText : Hashable → Option Str
  | .none => Option.none
  | .text s => some s
  | .stringer s => if s = [] then Option.none else some s

private theorem hash_eq (sha : Str → Str) (x : Hashable) :
    hashInstance sha x = match usableText x with
      | none => .error ()
      | some s => .ok (sha s) := by
  cases x with
  | none => rfl
  | text s => rfl
  | stringer s =>
    by_cases h : s = []
    · subst h; rfl
    · simp [hashInstance, usableText, h]

/-- **C56.** `Compare` is symmetric. -/
theorem C56_symmetric (sha : Str → Str) (r x : Hashable) :
    compareHashInstance sha r x = compareHashInstance sha x r := by
  simp only [compareHashInstance, hash_eq]
  cases usableText r <;> cases usableText x <;> simp [Bool.beq_comm]

/-- **C56.** Two usable values with equal text compare equal; in particular every
usable value equals itself. -/
theorem C56_equal (sha : Str → Str) (r x : Hashable) (t : Str) (hr : usableText r = some t)
    (hx : usableText x = some t) : compareHashInstance sha r x = true := by
  simp [compareHashInstance, hash_eq, hr, hx]

/-- **C56.** With a collision-free hash, values compare equal exactly when both are
usable and have the same text. -/
theorem C56_exact (sha : Str → Str) (inj : ∀ a b, sha a = sha b → a = b) (r x : Hashable) :
    compareHashInstance sha r x = true ↔ ∃ t, usableText r = some t ∧ usableText x = some t := by
  simp only [compareHashInstance, hash_eq]
  cases hr : usableText r <;> cases hx : usableText x <;> simp
  constructor
  · intro h; exact (inj _ _ h).symm
  · rintro rfl; rfl

example : usableText (.stringer b!"read") = some b!"read" ∧
    compareHashInstance id (.stringer b!"read") (.text b!"read") = true ∧
    compareHashInstance id (.stringer b!"read") (.text b!"write") = false := by decide

end Verif.Misc
