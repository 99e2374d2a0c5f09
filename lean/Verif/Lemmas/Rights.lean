import Verif.Lemmas.RightsTable
import Verif.Lemmas.History

namespace Verif.Rights
open Verif Verif.Spec

theorem idx_lt (p : Priv) : idx p < 10 := by cases p <;> decide

theorem weight_eq (p : Priv) : p.weight = 2 ^ idx p := by cases p <;> decide

theorem inSum_iff (p : Priv) (n : Nat) : p.InSum n ↔ n.testBit (idx p) = true := by
  rw [Priv.InSum, weight_eq, Nat.testBit_eq_decide_div_mod_eq]
  simp

theorem rightsNames_eq_some {t : Str} {r : Right} (h : rightsNames t = some r) :
    (r, t) ∈ rightsMap := by
  unfold rightsNames at h
  cases hf : rightsMap.find? (fun e => e.2 == t) with
  | none => simp [hf] at h
  | some e =>
    simp [hf] at h
    have h1 := List.mem_of_find?_eq_some hf
    have h2 := List.find?_some hf
    simp at h2
    subst h2; subst h; exact h1

theorem rightsNames_bit {t : Str} {r : Right} (h : rightsNames t = some r) (p : Priv) :
    r.getLsbD (idx p) = true ↔ p.NamedBy t :=
  table_bits _ (rightsNames_eq_some h) p p.mem_all

theorem rightsNames_none {t : Str} (h : rightsNames t = none) (p : Priv) : ¬ p.NamedBy t := by
  rintro (rfl | ⟨rfl, _⟩)
  · cases p <;> exact absurd h (by decide)
  · exact absurd h (by decide)

theorem rightsNames_name (p : Priv) : rightsNames p.name = some (BitVec.twoPow 16 (idx p)) := by
  cases p <;> decide

theorem getLsbD_ofInt_nat (i : Int) (h : Shifty.Fits 16 i) (k : Nat) (hk : k < 16) :
    (BitVec.ofInt 16 i).getLsbD k = i.toNat.testBit k := by
  obtain ⟨h0, h1⟩ := h
  obtain ⟨n, rfl⟩ := Int.eq_ofNat_of_zero_le h0
  rw [BitVec.ofInt_natCast, BitVec.getLsbD_ofNat]
  simp [hk]

variable (S : Shifty 16)

theorem shift1_bit (v : BitVec 16) (a : Arg) (p : Priv)
    (hok : ∀ i, a = .int i → Shifty.Fits 16 i) (m : Arg → Prop)
    (m1 : ∀ i, m (.int i) ↔ p.InSum i.toNat) (m2 : ∀ r, m (.right r) ↔ p.InSum r.toNat)
    (m3 : ∀ s, m (.str s) ↔ p.NamedBy (Str.lower s)) (m4 : m .other ↔ False) :
    ((shift1 S v a).getLsbD (idx p) = true ↔ m a ∨ v.getLsbD (idx p) = true) ∧
    ((unshift1 S v a).getLsbD (idx p) = true ↔ ¬ m a ∧ v.getLsbD (idx p) = true) := by
  have hlt : idx p < 16 := by have := idx_lt p; omega
  cases a with
  | int i =>
    have hf := hok i rfl
    rw [m1, inSum_iff, ← getLsbD_ofInt_nat i hf _ hlt]
    simp only [shift1, unshift1, Shifty.shiftInt, Shifty.unshiftInt, if_pos hf, Shifty.shift,
      Shifty.unshift, BitVec.getLsbD_or, BitVec.getLsbD_and, BitVec.getLsbD_not, hlt]
    constructor
    · rw [Bool.or_eq_true, or_comm]
    · simp [and_comm]
  | right r =>
    rw [m2, inSum_iff]
    have : r.toNat.testBit (idx p) = r.getLsbD (idx p) := rfl
    rw [this]
    simp only [shift1, unshift1, Shifty.shift,
      Shifty.unshift, BitVec.getLsbD_or, BitVec.getLsbD_and, BitVec.getLsbD_not, hlt]
    constructor
    · rw [Bool.or_eq_true, or_comm]
    · simp [and_comm]
  | str s =>
    rw [m3]
    simp only [shift1, unshift1]
    cases hn : rightsNames (Str.lower s) with
    | none =>
      have := rightsNames_none hn p
      simp [this]
    | some r =>
      have := rightsNames_bit hn p
      rw [← this]
      simp only [Shifty.shift,
        Shifty.unshift, BitVec.getLsbD_or, BitVec.getLsbD_and, BitVec.getLsbD_not, hlt]
      constructor
      · rw [Bool.or_eq_true, or_comm]
      · simp [and_comm]
  | other =>
    simp [shift1, unshift1, m4]

theorem positiveInt_bit (c : Cell) (i : Nat) (h : i < 16) :
    positiveInt S c ((2 ^ i : Nat) : Int) = c.bits.getLsbD i := by
  have h0 : ¬ (((2 ^ i : Nat) : Int) = 0 ∧ (c.bits.toNat : Int) = ((2 ^ i : Nat) : Int)) := by
    rintro ⟨h1, _⟩
    have : 2 ^ i > 0 := Nat.two_pow_pos i
    omega
  have hf : Shifty.Fits 16 ((2 ^ i : Nat) : Int) := by
    refine ⟨Int.natCast_nonneg _, ?_⟩
    have : 2 ^ i < 2 ^ 16 := Nat.pow_lt_pow_right (by decide) h
    exact_mod_cast this
  have hb : BitVec.ofInt 16 ((2 ^ i : Nat) : Int) = BitVec.twoPow 16 i := by
    apply BitVec.eq_of_toNat_eq
    rw [BitVec.ofInt_natCast]
    simp [BitVec.toNat_twoPow]
  rw [positiveInt, if_neg h0, Shifty.positiveInt, if_pos hf, hb, S.positive_bit _ _ h]

theorem positive_bit (c : Cell) (i : Nat) (h : i < 16) :
    positive S (some c) (.right (BitVec.twoPow 16 i)) = c.bits.getLsbD i := by
  have : (BitVec.twoPow 16 i).toNat = 2 ^ i := by
    rw [BitVec.toNat_twoPow, Nat.mod_eq_of_lt (Nat.pow_lt_pow_right (by decide) h)]
  simp only [positive, this, positiveInt_bit S c i h]

theorem string_eq (c : Cell) : string S (some c) = wordText c.disp c.bits := by
  have : ((List.range 16).filter fun i => positive S (some c) (.right (BitVec.twoPow 16 i)))
      = (List.range 16).filter fun i => c.bits.getLsbD i := by
    apply List.filter_congr
    intro i hi
    exact positive_bit S c i (by simpa using hi)
  simp only [string, this, wordText, sprintf, disposition]
  repeat' split
  all_goals rfl

theorem ofNat_of_lt (v : BitVec 16) : v = BitVec.ofNat 16 v.toNat := by simp

theorem wordText_eq (v : BitVec 16) (h : v.toNat < 1024) (a : Bool) :
    wordText a v = permText a (heldOf v) := by
  have := wordText_table v.toNat h a
  rwa [← ofNat_of_lt] at this

theorem unpackLoop_eq (l : List Str) (b v : BitVec 16) :
    unpackLoop S l (b, v) =
      ((l.map Str.lower).foldl addName b, (l.map Str.lower).foldl addName v) := by
  induction l generalizing b v with
  | nil => rfl
  | cons n t ih =>
    simp only [unpackLoop, List.map_cons, List.foldl_cons]
    cases h : rightsNames (Str.lower n) with
    | none => simp only [ih, addName, h]
    | some r => simp only [ih, shift1, addName, h, Shifty.shift]

theorem unpackage_eq (t : Tokens) : unpackage S t =
    match t.allow with
    | some x => .ok { disp := x, bits := union (t.rights.map Str.lower) }
    | none => .error () := by
  simp only [unpackage, unpackLoop_eq, union]
  simp only [if_true]
  cases t.allow <;> rfl

theorem union_bit_aux (l : List Str) (v : BitVec 16) (p : Priv) :
    (l.foldl addName v).getLsbD (idx p) = true ↔ v.getLsbD (idx p) = true ∨ ∃ w ∈ l, p.NamedBy w := by
  induction l generalizing v with
  | nil => simp
  | cons w t ih =>
    simp only [List.foldl_cons, ih, List.mem_cons]
    cases h : rightsNames w with
    | none =>
      have := rightsNames_none h p
      simp [this, addName, h]
    | some r =>
      have := rightsNames_bit h p
      simp [this, addName, h, or_assoc]

theorem union_bit (l : List Str) (p : Priv) :
    (union l).getLsbD (idx p) = true ↔ ∃ w ∈ l, p.NamedBy w := by
  simp [union, union_bit_aux]

theorem eq_of_held {v w : BitVec 16} (hv : v.toNat < 1024) (hw : w.toNat < 1024)
    (h : ∀ p, heldOf v p = heldOf w p) : v = w := by
  have hf : heldOf v = heldOf w := funext h
  have e1 := union_table _ hv
  have e2 := union_table _ hw
  rw [← ofNat_of_lt] at e1 e2
  rw [← e1, ← e2, words, words, hf]

end Verif.Rights
