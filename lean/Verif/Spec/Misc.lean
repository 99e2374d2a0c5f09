import Verif.Model.Str

/-!
# Words and blanks of ASCII text
-/

namespace Verif.Spec
open Verif

/-- ASCII white space. -/
def White (c : Byte) : Prop := c = 32 ∨ (9 ≤ c ∧ c ≤ 13)

instance (c : Byte) : Decidable (White c) := inferInstanceAs (Decidable (_ ∨ _))

/-- The pieces of a text between white space, some of which may be empty. -/
def pieces : Str → List Str
  | [] => [[]]
  | a :: t => if White a then [] :: pieces t else Str.consHead a (pieces t)

/-- The words of a text: its pieces that are not empty. -/
def words (s : Str) : List Str := (pieces s).filter (· ≠ [])

/-- The bytes of a text that are no white space. -/
def ink (s : Str) : Str := s.filter fun c => ¬ White c

end Verif.Spec
