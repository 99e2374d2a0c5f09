import Verif.Spec.Case

/-!
# Strength factors and authentication methods as documented
-/

namespace Verif.Spec

/-- A number forced into the range of strength factors, 0 to 256. -/
def clampSSF (v : Int) : Nat := (max 0 (min v 256)).toNat

/-- Decimal notation of an integer: digits, possibly after a sign. -/
def IsInteger (s : Str) : Prop :=
  ∃ sign d, s = sign ++ d ∧ (sign = [] ∨ sign = b!"+" ∨ sign = b!"-") ∧ d ≠ [] ∧
    ∀ c ∈ d, 48 ≤ c ∧ c ≤ 57

/-- The words for the largest and smallest strength factor, in any letter case. -/
def IsSSFWord (s : Str) : Prop :=
  Str.lower s ∈ [b!"full", b!"max", b!"none", b!"off"]

/-- Authentication methods. -/
inductive Auth where
  | none | simple | ssl | sasl | external | digest | gssapi
  deriving DecidableEq, Repr

namespace Auth

def all : List Auth := [none, simple, ssl, sasl, external, digest, gssapi]

def name : Auth → Str
  | none => b!"none" | simple => b!"simple" | ssl => b!"ssl" | sasl => b!"sasl"
  | external => b!"sasl EXTERNAL" | digest => b!"sasl DIGEST-MD5" | gssapi => b!"sasl GSSAPI"

/-- The numbers in the comments of the constants. -/
def number : Auth → Int
  | none => 0 | simple => 1 | ssl => 2 | sasl => 3 | external => 4 | digest => 5 | gssapi => 6

end Auth

end Verif.Spec
