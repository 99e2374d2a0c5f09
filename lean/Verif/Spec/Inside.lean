import Verif.Spec.Clean

/-!
# What a value says, inside of white space and quotation marks

Stated for all byte strings, without reference to the functions of /repo/misc.go.
-/

namespace Verif.Spec

/-- `m` is `v` without the white space around it: the rest is white space, and no more
can be taken away. -/
def Trimmed (v m : Str) : Prop :=
  (∃ l r, v = l ++ m ++ r ∧ Spaces l ∧ Spaces r) ∧
  (∀ a t, Space a → m ≠ a ++ t) ∧ (∀ a t, Space a → m ≠ t ++ a)

/-- Tab, line feed or space. -/
def Blank (c : Byte) : Prop := c = 9 ∨ c = 10 ∨ c = 32

instance (c : Byte) : Decidable (Blank c) := inferInstanceAs (Decidable (_ ∨ _))

/-- `s` is `m` with every run of blanks made one space.  Bytes above 127 become the
character with their number, in UTF-8. -/
inductive Squeezed : Str → Str → Prop
  | nil : Squeezed [] []
  | blanks (w t s : Str) : w ≠ [] → (∀ c ∈ w, Blank c) → (∀ c ∈ t.head?, ¬ Blank c) →
      Squeezed t s → Squeezed (w ++ t) (32 :: s)
  | ascii (c : Byte) (t s : Str) : ¬ Blank c → c < 0x80 → Squeezed t s → Squeezed (c :: t) (c :: s)
  | middle (c : Byte) (t s : Str) : 0x80 ≤ c → c < 0xC0 → Squeezed t s →
      Squeezed (c :: t) (0xC2 :: c :: s)
  | upper (c : Byte) (t s : Str) : 0xC0 ≤ c → Squeezed t s →
      Squeezed (c :: t) (0xC3 :: (c - 0x40) :: s)

/-- `u` is `v` without white space around it and with single spaces between its words. -/
def Condenses (v u : Str) : Prop := ∃ m s, Trimmed v m ∧ Squeezed m s ∧ Trimmed s u

/-- `t` is `u` without a quotation mark at either end, if there is one; texts of one or
two bytes stay as they are. -/
def Unquotes (u t : Str) : Prop :=
  (u.length ≤ 2 ∧ t = u) ∨
  (2 < u.length ∧ ∃ p q, u = p ++ t ++ q ∧ Quote? p ∧ Quote? q ∧
    (p = [] → ∀ c ∈ u.head?, ¬ Quote? [c]) ∧ (q = [] → ∀ c ∈ u.getLast?, ¬ Quote? [c]))

/-- `t` is what the value `v` says inside of white space and quotation marks. -/
def Inside (v t : Str) : Prop := ∃ u, Condenses v u ∧ Unquotes u t

end Verif.Spec
