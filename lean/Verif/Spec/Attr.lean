import Verif.Model.Str

/-!
# Attribute names, pairs and levels
-/

namespace Verif.Spec
open Verif

/-- A lower or upper case letter of ISO 8859-1 (the code looks at single bytes). -/
def Cased (c : Byte) : Prop :=
  (65 ≤ c ∧ c ≤ 90) ∨ (97 ≤ c ∧ c ≤ 122) ∨ c = 0xB5 ∨
  (0xC0 ≤ c ∧ c ≠ 0xD7 ∧ c ≠ 0xF7)

/-- A decimal digit. -/
def Digit (c : Byte) : Prop := 48 ≤ c ∧ c ≤ 57

instance (c : Byte) : Decidable (Cased c) := inferInstanceAs (Decidable (_ ∨ _))
instance (c : Byte) : Decidable (Digit c) := inferInstanceAs (Decidable (_ ∧ _))

/-- A well formed attribute identifier. -/
def Identifier (s : Str) : Prop :=
  (∃ a t, s = a :: t ∧ Cased a) ∧ (∃ t z, s = t ++ [z] ∧ (Cased z ∨ Digit z)) ∧
  ∀ c ∈ s, Cased c ∨ Digit c ∨ c = 59 ∨ c = 45

/-- An ASCII letter. -/
def Letter (c : Byte) : Prop := (65 ≤ c ∧ c ≤ 90) ∨ (97 ≤ c ∧ c ≤ 122)

instance (c : Byte) : Decidable (Letter c) := inferInstanceAs (Decidable (_ ∨ _))

/-- The attribute descriptions of RFC 4512, as the documentation describes them. -/
def Descr (s : Str) : Prop :=
  (∃ a t, s = a :: t ∧ Letter a) ∧ (∃ t z, s = t ++ [z] ∧ (Letter z ∨ Digit z)) ∧
  ∀ c ∈ s, Letter c ∨ Digit c ∨ c = 59 ∨ c = 45

/-- What may stand in front of the number sign of a pair. -/
def AttrName (s : Str) : Prop := Identifier s ∨ s = b!"*"

/-- The decimal numeral of a level. -/
def numeral (n : Fin 10) : Str := [48 + UInt8.ofNat n.1]

/-- A level is listed between the brackets: one of the pieces between commas is its
numeral, spaces not counted. -/
def Lists (lv : Str) (n : Fin 10) : Prop := numeral n ∈ Str.split1 44 (Str.dropSpaces lv)

instance (lv : Str) (n : Fin 10) : Decidable (Lists lv n) := inferInstanceAs (Decidable (_ ∈ _))

/-- The levels of a set in ascending order, separated by commas. -/
def levelList (f : Fin 10 → Bool) : Str :=
  Str.join b!"," (((List.finRange 10).filter f).map numeral)

/-- The text of an inheritance. -/
def inheritText (f : Fin 10 → Bool) (pair : Str) : Str :=
  b!"parent[" ++ levelList f ++ b!"]." ++ pair

end Verif.Spec
