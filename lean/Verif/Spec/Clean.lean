import Verif.Model.Str

/-!
# Values with white space and quotes around them
-/

namespace Verif.Spec

/-- One white space character (Unicode property White_Space), in UTF-8. -/
inductive Space : Str → Prop
  | ascii (a : Byte) : a = 9 ∨ a = 10 ∨ a = 11 ∨ a = 12 ∨ a = 13 ∨ a = 32 → Space [a]
  | two (b : Byte) : b = 0x85 ∨ b = 0xA0 → Space [0xC2, b]
  | ogham : Space [0xE1, 0x9A, 0x80]
  | general (c : Byte) : 0x80 ≤ c ∧ c ≤ 0x8A ∨ c = 0xA8 ∨ c = 0xA9 ∨ c = 0xAF →
      Space [0xE2, 0x80, c]
  | math : Space [0xE2, 0x81, 0x9F]
  | ideographic : Space [0xE3, 0x80, 0x80]

/-- A run of white space. -/
inductive Spaces : Str → Prop
  | nil : Spaces []
  | cons (a s : Str) : Space a → Spaces s → Spaces (a ++ s)

/-- A run of white space in which the lone bytes 85 and A0 (Latin-1 next line and
no-break space, not valid in UTF-8) count as well. -/
inductive Blanks : Str → Prop
  | nil : Blanks []
  | space (a s : Str) : Space a → Blanks s → Blanks (a ++ s)
  | lone (b : Byte) (s : Str) : b = 0x85 ∨ b = 0xA0 → Blanks s → Blanks (b :: s)

/-- A quotation mark, or nothing. -/
inductive Quote? : Str → Prop
  | absent : Quote? []
  | double : Quote? [34]
  | single : Quote? [39]
  | back : Quote? [96]

/-- Visible ASCII. -/
def Plain (t : Str) : Prop := ∀ c ∈ t, 33 ≤ c ∧ c ≤ 126

instance (t : Str) : Decidable (Plain t) := inferInstanceAs (Decidable (∀ c ∈ t, _))

/-- The value `v` is the text `t`, possibly with a quotation mark on either side,
and blanks outside of these. -/
def Framed (t v : Str) : Prop :=
  ∃ l p q r, v = l ++ p ++ t ++ q ++ r ∧ Blanks l ∧ Blanks r ∧ Quote? p ∧ Quote? q

end Verif.Spec
