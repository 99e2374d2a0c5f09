import Verif.Model.Str

/-!
# Contract of `github.com/JesseCoretta/go-shifty` v1.0.1

`shifty.BitValue` is a bit word behind a pointer; /repo/shifty.go:11-36 makes 8-bit
words for days and 16-bit words for rights and levels.  The source of the package
is not available.  Assumed: `Shift` ORs and `Unshift` clears an operand that fits
the word, `Int` reads the word, `Size` is its width, and `Positive` of a single bit
reads this bit.  Nothing is assumed of `Positive` on zero or on several bits, nor
of operands that do not fit the word; these are the arbitrary fields below.
-/

namespace Verif

structure Shifty (w : Nat) where
  /-- `BitValue.Positive` for an operand that fits the word. -/
  positive : BitVec w → BitVec w → Bool
  /-- On a single bit `Positive` reads the bit. -/
  positive_bit : ∀ v i, i < w → positive v (BitVec.twoPow w i) = v.getLsbD i
  /-- `BitValue.Positive` for an integer that does not fit the word. -/
  positiveOut : BitVec w → Int → Bool
  /-- `BitValue.Shift` for an integer that does not fit the word. -/
  shiftOut : BitVec w → Int → BitVec w
  /-- `BitValue.Unshift` for an integer that does not fit the word. -/
  unshiftOut : BitVec w → Int → BitVec w

namespace Shifty

variable {w : Nat}

/-- An integer fits a word of `w` bits. -/
def Fits (w : Nat) (i : Int) : Prop := 0 ≤ i ∧ i < 2 ^ w

instance (w : Nat) (i : Int) : Decidable (Fits w i) := inferInstanceAs (Decidable (_ ∧ _))

/-- `BitValue.Shift` with an operand of the word's own type. -/
def shift (v x : BitVec w) : BitVec w := v ||| x

/-- `BitValue.Unshift` with an operand of the word's own type. -/
def unshift (v x : BitVec w) : BitVec w := v &&& ~~~ x

/-- `BitValue.Shift` with an `int`. -/
def shiftInt (S : Shifty w) (v : BitVec w) (i : Int) : BitVec w :=
  if Fits w i then shift v (BitVec.ofInt w i) else S.shiftOut v i

/-- `BitValue.Unshift` with an `int`. -/
def unshiftInt (S : Shifty w) (v : BitVec w) (i : Int) : BitVec w :=
  if Fits w i then unshift v (BitVec.ofInt w i) else S.unshiftOut v i

/-- `BitValue.Positive` with an `int`. -/
def positiveInt (S : Shifty w) (v : BitVec w) (i : Int) : Bool :=
  if Fits w i then S.positive v (BitVec.ofInt w i) else S.positiveOut v i

/-- An implementation that meets the contract: `Positive` asks for any of the
operand's bits, and operands that do not fit are ignored. -/
def anyRef (w : Nat) : Shifty w where
  positive v x := v &&& x != 0#w
  positive_bit v i h := by
    rw [Bool.eq_iff_iff]
    constructor
    · intro hne
      cases hb : v.getLsbD i with
      | true => rfl
      | false =>
        exfalso
        have : v &&& BitVec.twoPow w i = 0#w := by
          apply BitVec.eq_of_getLsbD_eq
          intro j hj
          by_cases hij : i = j
          · subst hij; simp [hb]
          · simp [BitVec.getLsbD_twoPow, hij]
        simp [this] at hne
    · intro hb
      simp only [bne_iff_ne, ne_eq]
      intro h0
      have := congrArg (fun u => u.getLsbD i) h0
      simp [h] at this
      rw [BitVec.getLsbD_eq_getElem h] at hb
      simp [hb] at this
  positiveOut _ _ := false
  shiftOut v _ := v
  unshiftOut v _ := v

end Shifty
end Verif
