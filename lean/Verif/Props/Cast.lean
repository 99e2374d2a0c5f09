import Verif.Model.Cast
import Verif.Props.Levels

/-!
# C104: conversions keep what is stored
# C105: numbers and their types are known
-/

namespace Verif.Cast
open Verif

variable {S C : Type}

/-! ## C104 -/

/-- **C104** for stacks: exactly the values whose type is `stackage.Stack` or is defined
upon it are converted, to the stack they hold; all others give the zero stack. -/
theorem C104_stacks (zero : S) (u : Dyn S C) :
    (∀ t s, u = .stack t s → castAsStack zero u = (s, true)) ∧
      ((∀ t s, u ≠ .stack t s) → castAsStack zero u = (zero, false)) := by
  constructor
  · rintro t s rfl
    rcases t with _ | t
    · rfl
    · cases t <;> rfl
  · intro h
    cases u with
    | stack t s => exact absurd rfl (h t s)
    | _ => rfl

example : castAsStack [] (.stack (some .afos) [7] : Dyn (List Nat) Nat) = ([7], true) := rfl

/-- **C104** for rules: a rule is converted to the condition it holds, and a condition or
stack of go-stackage made a bind rule or bind rules is converted back to itself. -/
theorem C104_rules (zero : S) (none_ bad : C) (t : CondType) (c : C) (s : S) :
    castAsCondition bad (.cond (some t) c : Dyn S C) = c ∧
    castAsCondition bad (castAsBindRule none_ (.cond none c) : Dyn S C) = c ∧
    castAsStack zero (castAsBindRules zero (.stack none s) : Dyn S C) = (s, true) ∧
    (∀ u : Dyn S C, (∀ c, u ≠ .cond none c) → castAsBindRule none_ u = .cond (some .br) none_) ∧
    (∀ u : Dyn S C, (∀ s, u ≠ .stack none s) → castAsBindRules zero u = .stack (some .brs) zero) := by
  refine ⟨by cases t <;> rfl, rfl, rfl, fun u h => ?_, fun u h => ?_⟩
  · cases u with
    | cond t c => rcases t with _ | t
                  · exact absurd rfl (h c)
                  · rfl
    | _ => rfl
  · cases u with
    | stack t c => rcases t with _ | t
                   · exact absurd rfl (h c)
                   · rfl
    | _ => rfl

/-- **C104**: what `isStack` accepts can be converted. -/
def StacksKnown : Prop :=
  ∀ (nil : Nat) (u : Dyn Nat Nat), isStack u = true → (castAsStack nil u).2 = true

/-- **C104**: anything that is no rule gives the zero condition, as documented;
`badCond` starts the condition, so that it is not the zero one. -/
def OthersEmpty : Prop :=
  ∀ (nil bad : Nat), bad ≠ nil → ∀ u : Dyn Nat Nat, (∀ t c, u ≠ .cond (some t) c) →
    castAsCondition bad u = nil

/-- **C104**: what `isStackageCondition` accepts, `derefC` resolves. -/
def ConditionsKnown : Prop :=
  ∀ (nil c : Nat), derefC nil (.condPtr (some c) : Dyn Nat Nat) = c

/-- **C104** fails: `isStack` accepts single values; the condition made of something else is
not the zero one; a pointer to a condition passes for a condition but is not resolved. -/
theorem C104_counterexample : ¬ StacksKnown ∧ ¬ OthersEmpty ∧ ¬ ConditionsKnown ∧
    isStackageCondition (.condPtr (some 1) : Dyn Nat Nat) = true := by
  refine ⟨fun h => ?_, fun h => ?_, fun h => ?_, rfl⟩
  · exact absurd (h 0 (.single .bdn) rfl) (by decide)
  · exact absurd (h 0 1 (by decide) .other (by intro t c h; cases h)) (by decide)
  · exact absurd (h 0 1) (by decide)

/-- **C104** for the questions: a value that is no single one is a stack exactly if it can
be converted, one that is no pointer is a condition exactly if it holds one, which is the
one it resolves to.  Missing: single values and pointers. -/
theorem C104_known_partial (zero : S) (none_ bad : C) (u : Dyn S C) :
    ((∀ t, u ≠ .single t) → (isStack u = true ↔ (castAsStack zero u).2 = true)) ∧
    (isStackageStack u = true ↔ ∃ s, u = .stack none s) ∧
    ((∀ p, u ≠ .condPtr p) → (isStackageCondition u = true ↔ ∃ c, u = .cond none c)) ∧
    (∀ c, u = .cond none c → derefC none_ u = c) ∧
    ((∀ t c, u ≠ .cond (some t) c) → castAsCondition bad u = bad) := by
  refine ⟨fun h => ?_, ?_, fun h => ?_, ?_, fun h => ?_⟩
  · cases u with
    | stack t s =>
      rcases t with _ | t
      · exact ⟨fun _ => rfl, fun _ => rfl⟩
      · cases t <;> exact ⟨fun _ => rfl, fun _ => rfl⟩
    | single t => exact absurd rfl (h t)
    | cond t c => exact ⟨fun e => absurd e (by simp [isStack, isStackageStack, isPkgStack]), fun e => absurd e (by simp [castAsStack])⟩
    | condPtr p => exact ⟨fun e => absurd e (by simp [isStack, isStackageStack, isPkgStack]), fun e => absurd e (by simp [castAsStack])⟩
    | other => exact ⟨fun e => absurd e (by simp [isStack, isStackageStack, isPkgStack]), fun e => absurd e (by simp [castAsStack])⟩
  · cases u with
    | stack t s => rcases t with _ | t <;> simp [isStackageStack]
    | _ => simp [isStackageStack]
  · cases u with
    | condPtr p => exact absurd rfl (h p)
    | cond t s => rcases t with _ | t <;> simp [isStackageCondition]
    | _ => simp [isStackageCondition]
  · rintro c rfl; rfl
  · cases u with
    | cond t c => rcases t with _ | t
                  · rfl
                  · exact absurd rfl (h t c)
    | _ => rfl

example : isStack (.stack (some .brs) 3 : Dyn Nat Nat) = true ∧ isStackageCondition (.cond none 3 : Dyn Nat Nat) = true ∧
    castAsCondition 9 (.other : Dyn Nat Nat) = 9 := ⟨rfl, rfl, rfl⟩

/-! ## C105 -/

/-- **C105** for powers: `isPowerOfTwo` is true of the powers of two only. -/
def PowersOnly : Prop :=
  ∀ x : BitVec 64, Misc.isPowerOfTwo x = true → ∃ k : Nat, x.toInt = 2 ^ k

/-- **C105** for types: `isIUint` answers for every value. -/
def KindsAnswered : Prop := ∀ x : Option GoType, isIUint x ≠ none

/-- **C105** fails: 0 passes for a power of two, and nil makes `isIUint` panic. -/
theorem C105_counterexample : ¬ PowersOnly ∧ ¬ KindsAnswered := by
  constructor
  · intro h
    obtain ⟨k, hk⟩ := h 0#64 (by decide)
    rw [show (0#64).toInt = 0 by decide] at hk
    have : (0 : Int) < 2 ^ k := Int.pow_pos (by decide)
    omega
  · intro h
    exact h none rfl

/-- **C105** for powers, by bits: `isPowerOfTwo` is true exactly of the numbers with one bit
at most. -/
theorem C105_bits (w : Nat) (x : BitVec w) :
    Misc.isPowerOfTwo x = true ↔ x = 0#w ∨ ∃ k, k < w ∧ x = BitVec.twoPow w k := by
  have key : Misc.isPowerOfTwo x = true ↔ x.toNat &&& (x - 1#w).toNat = 0 := by
    unfold Misc.isPowerOfTwo
    rw [beq_iff_eq, ← BitVec.toNat_inj, BitVec.toNat_and]
    simp
  by_cases h0 : x = 0#w
  · subst h0
    exact ⟨fun _ => .inl rfl, fun _ => by rw [key]; simp⟩
  · have hx : x.toNat ≠ 0 := fun e => h0 (BitVec.eq_of_toNat_eq (by simpa using e))
    have hlt := x.isLt
    have hsub : (x - 1#w).toNat = x.toNat - 1 := by
      have hw : 1 < 2 ^ w := by
        have := x.isLt; omega
      rw [BitVec.toNat_sub, BitVec.toNat_ofNat, Nat.mod_eq_of_lt hw,
        show 2 ^ w - 1 + x.toNat = (x.toNat - 1) + 2 ^ w by omega, Nat.add_mod_right,
        Nat.mod_eq_of_lt (by omega)]
    rw [key, hsub, Nat.and_sub_one_eq_zero_iff_isPowerOfTwo hx]
    constructor
    · rintro ⟨k, hk⟩
      have hkw : k < w := by
        rw [hk] at hlt
        exact (Nat.pow_lt_pow_iff_right (by decide)).1 hlt
      refine .inr ⟨k, hkw, BitVec.eq_of_toNat_eq ?_⟩
      rw [BitVec.toNat_twoPow, hk, Nat.mod_eq_of_lt (hk ▸ hlt)]
    · rintro (h | ⟨k, hk, rfl⟩)
      · exact absurd h h0
      · refine ⟨k, ?_⟩
        rw [BitVec.toNat_twoPow, Nat.mod_eq_of_lt (Nat.pow_lt_pow_right (by decide) hk)]

/-- **C105** for powers: of the positive numbers, `isPowerOfTwo` is true exactly of the powers
of two.  Missing: 0 and, which is not positive, the least number. -/
theorem C105_powers_partial (w : Nat) (x : BitVec w) (h : 0 < x.toInt) :
    Misc.isPowerOfTwo x = true ↔ ∃ k : Nat, x.toInt = 2 ^ k := by
  have hn : x.toInt = (x.toNat : Int) := by
    rw [BitVec.toInt_eq_toNat_cond] at h ⊢
    split
    · rfl
    · rename_i hc
      rw [if_neg hc] at h
      have := x.isLt
      omega
  have hlt := x.isLt
  rw [C105_bits, hn]
  constructor
  · rintro (rfl | ⟨k, hk, rfl⟩)
    · simp at h
    · refine ⟨k, ?_⟩
      rw [BitVec.toNat_twoPow, Nat.mod_eq_of_lt (Nat.pow_lt_pow_right (by decide) hk)]
      simp
  · rintro ⟨k, hk⟩
    have hk' : x.toNat = 2 ^ k := by exact_mod_cast hk
    have hkw : k < w := by
      rw [hk'] at hlt
      exact (Nat.pow_lt_pow_iff_right (by decide)).1 hlt
    refine .inr ⟨k, hkw, BitVec.eq_of_toNat_eq ?_⟩
    rw [BitVec.toNat_twoPow, hk', Nat.mod_eq_of_lt (hk' ▸ hlt)]

example : (0 : Int) < (4#64).toInt ∧ Misc.isPowerOfTwo 4#64 = true ∧ Misc.isPowerOfTwo 6#64 = false ∧
    Misc.isPowerOfTwo (BitVec.intMin 64) = true := by decide

/-- The type of a number, or of what a pointer points to. -/
def numberOf : GoType → Option IntKind
  | .num k => some k
  | .ptr (.num k) => some k
  | _ => none

/-- **C105** for types: a value of any type but nil is a number exactly if its type, or the
one it points to, is an integer type, and `bitSize` is its size, or 0 for everything else,
nil included.  Missing: nil for `isIUint` and `isPtr`, which panic. -/
theorem C105_types_partial (w : Nat) (t : GoType) :
    isIUint (some t) = some (numberOf t).isSome ∧
    bitSize w (some t) = some (((numberOf t).map (IntKind.bits w)).getD 0) ∧
    bitSize w none = some 0 := by
  refine ⟨?_, ?_, rfl⟩
  · cases t with
    | num k => rfl
    | ptr t => cases t <;> rfl
    | other => rfl
  · cases t with
    | num k => rfl
    | ptr t => cases t <;> rfl
    | other => rfl

example : numberOf (.ptr (.num .uint8)) = some .uint8 ∧ numberOf (.ptr (.ptr (.num .uint8))) = none := ⟨rfl, rfl⟩

/-- **C105** for the types that are shifted: days have 8 bits, rights and levels 16, on any
machine, and the loops over levels look at as many bits as is computed from this, which
covers all ten levels. -/
theorem C105_package (w : Nat) :
    bitSize w (some dayType) = some 8 ∧ bitSize w (some wordType) = some 16 ∧
    bitSize w (some (.ptr dayType)) = some 8 ∧ bitSize w (some (.ptr wordType)) = some 16 ∧
    levelBitIter w = some Levels.levelBitIter ∧
    ∀ n : Fin 10, ∃ i, i < Levels.levelBitIter ∧ Levels.const n = BitVec.twoPow 16 i := by
  refine ⟨rfl, rfl, rfl, rfl, rfl, fun n => ⟨n.1 + 1, ?_, ?_⟩⟩
  · have := n.2
    show n.1 + 1 < 12
    omega
  · revert n; decide

end Verif.Cast
