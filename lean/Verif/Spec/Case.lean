import Verif.Model.Str

/-!
# Letter case
-/

namespace Verif.Spec

/-- The two strings differ at most in the case of ASCII letters. -/
def AnyCase (t s : Str) : Prop := s.map Str.lowerByte = t.map Str.lowerByte

instance (t s : Str) : Decidable (AnyCase t s) := inferInstanceAs (Decidable (_ = _))

end Verif.Spec
