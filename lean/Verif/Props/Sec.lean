import Verif.Model.Sec
import Verif.Spec.Sec
import Verif.Lemmas.Case
import Verif.Lemmas.Clean
import Verif.Lemmas.Num
import Verif.Lemmas.Inside

/-!
# C26 to C28: strength factors and authentication methods
-/

namespace Verif.Sec
open Verif Verif.Spec

/-! ## Strength factors -/

private theorem string_ssfInt (v : Int) : string (some (ssfInt v)) = Str.ofNat (clampSSF v) := by
  unfold ssfInt clampSSF
  by_cases h1 : 256 < v
  · rw [if_pos h1]
    have : (max 0 (min v 256)).toNat = 256 := by omega
    rw [this]; decide +kernel
  · rw [if_neg h1]
    by_cases h2 : v ≤ 0
    · rw [if_pos h2]
      have : (max 0 (min v 256)).toNat = 0 := by omega
      rw [this]; decide +kernel
    · rw [if_neg h2]
      show Str.ofNat ((UInt8.ofNat (v - 1).toNat).toNat + 1) = _
      have hlt : (v - 1).toNat < 256 := by omega
      rw [UInt8.toNat_ofNat', Nat.mod_eq_of_lt (by omega)]
      congr 1; omega

private theorem ssfSet_str (r : Option Byte) (s : Str) :
    ssfSet r (.str s) = ssfInt (stringToIntSSF s) := by
  simp only [ssfSet]
  by_cases h : stringToIntSSF s = 0
  · rw [if_pos h, h]; decide
  · rw [if_neg h]

private theorem string_set_str (r : SecurityStrengthFactor) (s : Str) :
    string (set r (.str s)) = Str.ofNat (clampSSF (stringToIntSSF s)) := by
  cases r <;> simp only [set, ssfSet_str, string_ssfInt]

private theorem lower_of_digit {c : Byte} {t : Str} (hc : c < 97) (hu : ¬ (65 ≤ c ∧ c ≤ 90)) :
    ∃ u, Str.lower (c :: t) = c :: u := by
  have e : Str.lowerByte c = c := by simp [Str.lowerByte, hu]
  match t with
  | [] => exact ⟨[], by simp [Str.lower, e]⟩
  | [b] =>
    refine ⟨Str.lower [b], ?_⟩
    have h : ¬ (c = 0xC4 ∧ b = 0xB0) := by rintro ⟨rfl, -⟩; exact absurd hc (by decide)
    simp [Str.lower, h, e]
  | b :: d :: t =>
    refine ⟨Str.lower (b :: d :: t), ?_⟩
    rw [Str.lower, if_neg (by rintro ⟨rfl, -⟩; exact absurd hc (by decide)),
      if_neg (by rintro ⟨rfl, -⟩; exact absurd hc (by decide)), e]

private theorem stringToIntSSF_sign {c : Byte} {t : Str} (hc : c < 97)
    (hu : ¬ (65 ≤ c ∧ c ≤ 90)) : stringToIntSSF (c :: t) = (Str.atoi (c :: t)).1 := by
  obtain ⟨u, hu⟩ := lower_of_digit (t := t) hc hu
  unfold stringToIntSSF
  simp only [hu, List.cons.injEq]
  rw [if_neg, if_neg]
  · rintro (⟨rfl, -⟩ | ⟨rfl, -⟩) <;> exact absurd hc (by decide)
  · rintro (⟨rfl, -⟩ | ⟨rfl, -⟩) <;> exact absurd hc (by decide)

private theorem stringToIntSSF_ofNat (n : Nat) :
    stringToIntSSF (Str.ofNat n) = ((min n 9223372036854775807 : Nat) : Int) := by
  rw [← Str.atoi_ofNat_val]
  obtain ⟨a, t, e⟩ := List.exists_cons_of_ne_nil (Str.ofNat_ne_nil n)
  have ha := Str.ofNat_digits n a (by rw [e]; simp)
  rw [e]
  have : ∀ a : Byte, 48 ≤ a ∧ a ≤ 57 → a < 97 ∧ ¬ (65 ≤ a ∧ a ≤ 90) := by decide +kernel
  exact stringToIntSSF_sign (this a ha).1 (this a ha).2

/-- **C26.** A factor set from an integer prints this integer, forced into the range
0 to 256, whatever the factor was before. -/
theorem C26_from_int (r : SecurityStrengthFactor) (v : Int) :
    string (set r (.int v)) = Str.ofNat (clampSSF v) ∧
      string (SSF [.int v]) = Str.ofNat (clampSSF v) := by
  refine ⟨?_, string_ssfInt v⟩
  cases r <;> exact string_ssfInt v

/-- **C26.** The words `full` and `max`, in any letter case, give 256, `none` and `off`
give 0. -/
theorem C26_words (r : SecurityStrengthFactor) (w : Str) :
    (Str.lower w = b!"full" ∨ Str.lower w = b!"max" →
      string (set r (.str w)) = b!"256" ∧ string (SSF [.str w]) = b!"256") ∧
    (Str.lower w = b!"none" ∨ Str.lower w = b!"off" →
      string (set r (.str w)) = b!"0" ∧ string (SSF [.str w]) = b!"0") := by
  have hs : string (SSF [.str w]) = Str.ofNat (clampSSF (stringToIntSSF w)) := by
    show string (some (ssfSet none (.str w))) = _
    rw [ssfSet_str, string_ssfInt]
  rw [string_set_str, hs, and_self, and_self]
  have h1 : Str.ofNat (clampSSF 256) = b!"256" := by decide +kernel
  have h0 : Str.ofNat (clampSSF 0) = b!"0" := by decide +kernel
  constructor
  · rintro (h | h) <;> · simp only [stringToIntSSF, h]; exact h1
  · rintro (h | h) <;> · simp only [stringToIntSSF, h]; exact h0

example : Str.lower b!"FULL" = b!"full" ∧ Str.lower b!"Off" = b!"off" := by decide +kernel

/-- **C26.** A factor set from the decimal text of a natural number, of any size,
prints this number, limited to 256. -/
theorem C26_from_text (r : SecurityStrengthFactor) (n : Nat) :
    string (set r (.str (Str.ofNat n))) = Str.ofNat (min n 256) ∧
      string (SSF [.str (Str.ofNat n)]) = Str.ofNat (min n 256) := by
  have e : clampSSF (stringToIntSSF (Str.ofNat n)) = min n 256 := by
    rw [stringToIntSSF_ofNat, clampSSF]; omega
  refine ⟨by rw [string_set_str, e], ?_⟩
  show string (some (ssfSet none (.str (Str.ofNat n)))) = _
  rw [ssfSet_str, string_ssfInt, e]

/-- **C26.** Text of a negative number means 0. -/
theorem C26_negative_text (r : SecurityStrengthFactor) (n : Nat) :
    string (set r (.str (45 :: Str.ofNat n))) = b!"0" := by
  have e : stringToIntSSF (45 :: Str.ofNat n) = -((min n 9223372036854775808 : Nat) : Int) := by
    rw [stringToIntSSF_sign (by decide) (by decide)]
    simp only [Str.atoi]
    rw [Str.atoiMag_ofNat _ _ (by omega)]
  rw [string_set_str, e]
  have : clampSSF (-((min n 9223372036854775808 : Nat) : Int)) = 0 := by rw [clampSSF]; omega
  rw [this]; decide +kernel

/-- **C26.** What a factor prints is always a number from 0 to 256, and it prints the
same after being set from its own text. -/
theorem C26_prints_number (r : SecurityStrengthFactor) :
    ∃ n, n ≤ 256 ∧ string r = Str.ofNat n ∧ ∀ r', string (set r' (.str (string r))) = string r := by
  have key : ∀ n, n ≤ 256 → string r = Str.ofNat n →
      ∃ n, n ≤ 256 ∧ string r = Str.ofNat n ∧ ∀ r', string (set r' (.str (string r))) = string r := by
    intro n hn e
    refine ⟨n, hn, e, fun r' => ?_⟩
    rw [e, (C26_from_text r' n).1, Nat.min_eq_left hn]
  match r, key with
  | none, key => exact key 0 (by omega) (by decide +kernel)
  | some none, key => exact key 0 (by omega) (by decide +kernel)
  | some (some b), key => exact key (b.toNat + 1) (by have := b.toNat_lt; omega) rfl

private theorem ofNat_plain (n : Nat) : Plain (Str.ofNat n) ∧
    ∀ c ∈ Str.ofNat n, Misc.isQuote c = false := by
  have : ∀ c : Byte, 48 ≤ c ∧ c ≤ 57 → (33 ≤ c ∧ c ≤ 126) ∧ Misc.isQuote c = false := by
    decide +kernel
  exact ⟨fun c hc => (this c (Str.ofNat_digits n c hc)).1,
    fun c hc => (this c (Str.ofNat_digits n c hc)).2⟩

/-- **C26**, in a bind rule: the value is accepted only if it is the plain decimal
text of a number from 0 to 256, apart from quotation marks and blanks around it, and
this is the number stored. -/
theorem C26_bind_value (values : List Str) (ex : SecurityStrengthFactor)
    (h : assertBindSecurityStrengthFactor values = .ok ex) :
    ∃ v n, values = [v] ∧ n ≤ 256 ∧ Framed (Str.ofNat n) v ∧ string ex = Str.ofNat n := by
  unfold assertBindSecurityStrengthFactor at h
  split at h
  · next v =>
    simp only at h
    split at h
    · next he =>
      simp only [Except.ok.injEq] at h
      subst h
      obtain ⟨n, hn, e, -⟩ := C26_prints_number (SSF [.str (Misc.unquote (Misc.condenseWHSP v))])
      exact ⟨v, n, rfl, hn, clean_inv (ofNat_plain n).1 (Str.ofNat_ne_nil n) (by rw [← he, e]), e⟩
    · exact absurd h (by simp)
  · exact absurd h (by simp)

/-- **C26**, in a bind rule: every number from 0 to 256 is accepted, with any white
space around it and in quotes or not. -/
theorem C26_bind_accepts (l p q r : Str) (n : Nat) (hn : n ≤ 256) (hl : Spaces l) (hr : Spaces r)
    (hp : Quote? p) (hq : Quote? q) (hpq : p = [] ↔ q = []) :
    ∃ ex, assertBindSecurityStrengthFactor [l ++ p ++ Str.ofNat n ++ q ++ r] = .ok ex ∧
      string ex = Str.ofNat n := by
  have hne := Str.ofNat_ne_nil n
  have hlen : 2 < (p ++ Str.ofNat n ++ q).length ∨ p = [] ∧ q = [] := by
    by_cases h : p = []
    · exact .inr ⟨h, hpq.1 h⟩
    · left
      have h' : q ≠ [] := fun e => h (hpq.2 e)
      have a := List.length_pos_iff.2 h
      have b := List.length_pos_iff.2 h'
      have c := List.length_pos_iff.2 hne
      simp only [List.length_append]; omega
  have hclean := clean_frame_short hl hr hp hq (ofNat_plain n).1 hne hlen
    ((ofNat_plain n).2 _ (List.head_mem hne)) ((ofNat_plain n).2 _ (List.getLast_mem hne))
  have e := (C26_from_text none n).2
  rw [Nat.min_eq_left hn] at e
  refine ⟨SSF [.str (Str.ofNat n)], ?_, e⟩
  simp only [assertBindSecurityStrengthFactor, hclean, e, if_true]

example : (assertBindSecurityStrengthFactor [b!" \"256\" "]).toOption = some (some (some 255)) ∧
    (assertBindSecurityStrengthFactor [b!"257"]).toOption = none ∧
    (assertBindSecurityStrengthFactor [b!"max"]).toOption = none := by decide +kernel

/-- Input of `Set` that denotes a factor. -/
def Denotes : Arg → Prop
  | .null => True
  | .int _ => True
  | .str s => IsInteger s ∨ IsSSFWord s
  | .other => False

/-- The claim of **C27**. -/
def UnusableIgnored : Prop := ∀ r x, ¬ Denotes x → string (set r x) = string r

private theorem not_word {c : Byte} {t : Str} (hc : c < 97) (hu : ¬ (65 ≤ c ∧ c ≤ 90)) :
    ¬ IsSSFWord (c :: t) := by
  obtain ⟨u, hu⟩ := lower_of_digit (t := t) hc hu
  simp only [IsSSFWord, hu, List.mem_cons, List.cons.injEq, List.not_mem_nil, or_false]
  rintro (⟨rfl, -⟩ | ⟨rfl, -⟩ | ⟨rfl, -⟩ | ⟨rfl, -⟩) <;> exact absurd hc (by decide)

private theorem not_integer {s : Str} {c : Byte} (h : c ∈ s)
    (hc : ¬ (48 ≤ c ∧ c ≤ 57) ∧ c ≠ 43 ∧ c ≠ 45) : ¬ IsInteger s := by
  rintro ⟨sign, d, rfl, hs, -, hd⟩
  rcases List.mem_append.1 h with h | h
  · rcases hs with rfl | rfl | rfl
    · simp at h
    · simp only [List.mem_singleton] at h; exact hc.2.1 h
    · simp only [List.mem_singleton] at h; exact hc.2.2 h
  · exact hc.1 (hd c h)

/-- **C27** does not hold, in three ways: text that is no number sets a factor to 0;
text that starts with a number too large for 64 bits sets it to 256, even if it is no
number; and a value of a foreign type sets a nil factor to 1. -/
theorem C27_counterexample : ¬ UnusableIgnored ∧
    (∃ x, ¬ Denotes x ∧ string (SSF [.int 128]) = b!"128" ∧
      string (set (SSF [.int 128]) x) = b!"0") ∧
    (∃ x, ¬ Denotes x ∧ string (set (SSF [.int 0]) x) = b!"256") ∧
    (∃ x, ¬ Denotes x ∧ string none = b!"0" ∧ string (set none x) = b!"1") := by
  have hx : ¬ Denotes (.str b!"tls") := by
    simp only [Denotes]
    rintro (h | h)
    · exact not_integer (c := 116) (by simp) (by decide) h
    · exact absurd h (by simp only [IsSSFWord]; decide)
  refine ⟨fun h => ?_, ⟨_, hx, by decide +kernel, by decide +kernel⟩,
    ⟨.str b!"18446744073709551616 bits", ?_, by decide +kernel⟩,
    ⟨.other, fun h => h, by decide +kernel, by decide +kernel⟩⟩
  · exact absurd (h (SSF [.int 128]) (.str b!"tls") hx) (by decide +kernel)
  · simp only [Denotes]
    rintro (h | h)
    · exact not_integer (c := 98) (by simp) (by decide) h
    · exact not_word (by decide) (by decide) h

/-- What does hold for **C27**: a value of a foreign type changes nothing unless the
factor is nil, and text of at most 19 bytes that denotes no factor never raises one:
it sets 0 (see `C27_exact_partial` for text of any length).  Missing: nil factors, and that the
factor is kept. -/
theorem C27_never_rises_partial :
    (∀ b, string (set (some b) .other) = string (some b)) ∧
    ∀ r s, s.length ≤ 19 → ¬ Denotes (.str s) → string (set r (.str s)) = b!"0" := by
  refine ⟨fun _ => rfl, fun r s hlen hs => ?_⟩
  simp only [Denotes, not_or] at hs
  obtain ⟨hi, hw⟩ := hs
  have hmag : ∀ (m : Nat) (sign d : Str), s = sign ++ d →
      (sign = [] ∨ sign = b!"+" ∨ sign = b!"-") → (Str.atoiMag m d).1 = 0 := by
    intro m sign d e hsign
    rw [Str.atoiMag]
    by_cases hd : d = []
    · rw [if_pos hd]
    · rw [if_neg hd]
      cases hv : Str.digitsVal d 0 with
      | syn => rfl
      | range =>
        exfalso
        refine Str.digitsVal_no_range (s := d) (acc := 0) ?_ hv
        have : d.length ≤ 19 := by rw [e, List.length_append] at hlen; omega
        calc (0 + 1) * 10 ^ d.length ≤ (0 + 1) * 10 ^ 19 :=
              Nat.mul_le_mul_left _ (Nat.pow_le_pow_right (by omega) this)
          _ ≤ 18446744073709551616 := by decide
      | ok n => exact absurd ⟨sign, d, e, hsign, hd, Str.digitsVal_ok hv⟩ hi
  have h0 : (Str.atoi s).1 = 0 := by
    unfold Str.atoi
    split
    · next d => simp [hmag 9223372036854775807 b!"+" d rfl (by simp)]
    · next d => simp [hmag 9223372036854775808 b!"-" d rfl (by simp)]
    · simp [hmag 9223372036854775807 [] s rfl (by simp)]
  have e : stringToIntSSF s = 0 := by
    simp only [IsSSFWord, List.mem_cons, List.not_mem_nil, or_false, not_or] at hw
    simp only [stringToIntSSF, hw, or_self, if_false, h0]
  rw [string_set_str, e]; decide +kernel

example : (b!"12e3").length ≤ 19 ∧ ¬ Denotes (.str b!"12e3") := by
  refine ⟨by decide, ?_⟩
  simp only [Denotes]
  rintro (h | h)
  · exact not_integer (c := 101) (by simp) (by decide) h
  · exact not_word (by decide) (by decide) h

/-- The number decimal digits stand for. -/
def digitsNumber (d : Str) : Nat := d.foldl (fun n c => 10 * n + (c.toNat - 48)) 0

private theorem fold_le : ∀ (d : Str) (n : Nat), n ≤ d.foldl (fun n c => 10 * n + (c.toNat - 48)) n
  | [], _ => Nat.le_refl _
  | c :: d, n => Nat.le_trans (by omega) (fold_le d (10 * n + (c.toNat - 48)))

private theorem range_iff : ∀ (s : Str) (acc : Nat), acc ≤ 18446744073709551615 →
    (Str.digitsVal s acc = .range ↔ ∃ d t, s = d ++ t ∧ (∀ c ∈ d, 48 ≤ c ∧ c ≤ 57) ∧
      18446744073709551616 ≤ d.foldl (fun n c => 10 * n + (c.toNat - 48)) acc)
  | [], acc, ha => by
    refine ⟨fun h => (by cases h), ?_⟩
    rintro ⟨d, t, e, -, h⟩
    obtain ⟨rfl, -⟩ := List.append_eq_nil_iff.1 e.symm
    simp only [List.foldl_nil] at h; omega
  | a :: s, acc, ha => by
    rw [Str.digitsVal]
    by_cases hd : 48 ≤ a ∧ a ≤ 57
    · rw [if_pos hd]
      by_cases hn : acc * 10 + (a.toNat - 48) ≤ 18446744073709551615
      · rw [if_pos hn, range_iff s _ hn]
        constructor
        · rintro ⟨d, t, rfl, h1, h2⟩
          refine ⟨a :: d, t, rfl, ?_, ?_⟩
          · intro c hc
            rcases List.mem_cons.1 hc with rfl | hc
            · exact hd
            · exact h1 c hc
          · rw [List.foldl_cons, Nat.mul_comm 10 acc]; exact h2
        · rintro ⟨d, t, e, h1, h2⟩
          cases d with
          | nil => simp only [List.foldl_nil] at h2; omega
          | cons b d =>
            obtain ⟨rfl, rfl⟩ := List.cons.inj e
            rw [List.foldl_cons, Nat.mul_comm 10 acc] at h2
            exact ⟨d, t, rfl, fun c hc => h1 c (List.mem_cons_of_mem _ hc), h2⟩
      · rw [if_neg hn]
        refine ⟨fun _ => ⟨[a], s, rfl, ?_, ?_⟩, fun _ => rfl⟩
        · intro c hc; rw [List.mem_singleton.1 hc]; exact hd
        · simp only [List.foldl_cons, List.foldl_nil]; omega
    · rw [if_neg hd]
      refine ⟨fun h => (by cases h), ?_⟩
      rintro ⟨d, t, e, h1, h2⟩
      cases d with
      | nil => simp only [List.foldl_nil] at h2; omega
      | cons b d =>
        obtain ⟨rfl, -⟩ := List.cons.inj e
        exact absurd (h1 a (List.mem_cons_self ..)) hd

/-- **C27**, exactly what text that denotes no factor does, to every factor and for every length:
it sets 256 if it begins with a number of more than 64 bits that is not negative, and 0 otherwise.
Missing: that the factor is kept, which is false. -/
theorem C27_exact_partial (r : SecurityStrengthFactor) (s : Str) (hs : ¬ Denotes (.str s)) :
    ((∃ sign d t, s = sign ++ d ++ t ∧ (sign = [] ∨ sign = b!"+") ∧
        (∀ c ∈ d, 48 ≤ c ∧ c ≤ 57) ∧ 2 ^ 64 ≤ digitsNumber d) →
      string (set r (.str s)) = b!"256") ∧
    ((¬ ∃ sign d t, s = sign ++ d ++ t ∧ (sign = [] ∨ sign = b!"+") ∧
        (∀ c ∈ d, 48 ≤ c ∧ c ≤ 57) ∧ 2 ^ 64 ≤ digitsNumber d) →
      string (set r (.str s)) = b!"0") := by
  simp only [Denotes, not_or] at hs
  obtain ⟨hi, hw⟩ := hs
  have hmag : ∀ (m : Nat) (sign d : Str), s = sign ++ d →
      (sign = [] ∨ sign = b!"+" ∨ sign = b!"-") →
      (Str.atoiMag m d).1 = if Str.digitsVal d 0 = .range then m else 0 := by
    intro m sign d e hsign
    rw [Str.atoiMag]
    by_cases hd : d = []
    · rw [if_pos hd, hd]; rfl
    · rw [if_neg hd]
      cases hv : Str.digitsVal d 0 with
      | syn => rfl
      | range => rfl
      | ok n => exact absurd ⟨sign, d, e, hsign, hd, Str.digitsVal_ok hv⟩ hi
  have e : stringToIntSSF s = (Str.atoi s).1 := by
    simp only [IsSSFWord, List.mem_cons, List.not_mem_nil, or_false, not_or] at hw
    simp only [stringToIntSSF, hw, or_self, if_false]
  have hr : ∀ d, Str.digitsVal d 0 = .range ↔ ∃ u t, d = u ++ t ∧ (∀ c ∈ u, 48 ≤ c ∧ c ≤ 57) ∧
      2 ^ 64 ≤ digitsNumber u := fun d => range_iff d 0 (by omega)
  have big : (Str.atoi s).1 = 9223372036854775807 → string (set r (.str s)) = b!"256" := by
    intro h; rw [string_set_str, e, h]; decide +kernel
  have low : (Str.atoi s).1 ≤ 0 → string (set r (.str s)) = b!"0" := by
    intro h; rw [string_set_str, e]
    have : clampSSF (Str.atoi s).1 = 0 := by simp only [clampSSF]; omega
    rw [this]; decide +kernel
  unfold Str.atoi at big low
  split at big
  · next d =>
    simp only [hmag 9223372036854775807 b!"+" d rfl (by simp)] at big low
    constructor
    · rintro ⟨sign, u, t, es, h, h1, h2⟩
      refine big ?_
      rw [if_pos]; · rfl
      rcases h with rfl | rfl
      · cases u with
        | nil => exact absurd h2 (by decide)
        | cons c u =>
          obtain ⟨rfl, -⟩ := List.cons.inj es
          exact absurd (h1 43 (List.mem_cons_self ..)) (by decide)
      · obtain ⟨-, rfl⟩ := List.cons.inj es
        exact (hr _).2 ⟨u, t, rfl, h1, h2⟩
    · intro hn
      refine low ?_
      rw [if_neg]; · exact Int.le_refl _
      intro h
      obtain ⟨u, t, rfl, h1, h2⟩ := (hr _).1 h
      exact hn ⟨b!"+", u, t, rfl, Or.inr rfl, h1, h2⟩
  · next d =>
    simp only [hmag 9223372036854775808 b!"-" d rfl (by simp)] at low
    constructor
    · rintro ⟨sign, u, t, es, h, h1, h2⟩
      exfalso
      rcases h with rfl | rfl
      · cases u with
        | nil => exact absurd h2 (by decide)
        | cons c u =>
          obtain ⟨rfl, -⟩ := List.cons.inj es
          exact absurd (h1 45 (List.mem_cons_self ..)) (by decide)
      · exact absurd (List.cons.inj es).1 (by decide)
    · intro _
      refine low ?_
      split <;> simp
  · next n1 n2 =>
    have e0 := hmag 9223372036854775807 [] s rfl (by simp)
    simp only [e0] at big
    constructor
    · rintro ⟨sign, u, t, es, h, h1, h2⟩
      refine big ?_
      rw [if_pos]; · rfl
      rcases h with rfl | rfl
      · exact (hr _).2 ⟨u, t, es, h1, h2⟩
      · exact absurd es (n1 (u ++ t))
    · intro hn
      refine low ?_
      split
      · next d => exact absurd rfl (n1 d)
      · next d => exact absurd rfl (n2 d)
      · rw [e0, if_neg]; · exact Int.le_refl _
        intro h
        obtain ⟨u, t, hu, h1, h2⟩ := (hr _).1 h
        exact hn ⟨[], u, t, hu, Or.inl rfl, h1, h2⟩

example : ¬ Denotes (.str b!"+18446744073709551616 bits") ∧
    string (set (SSF [.int 128]) (.str b!"+18446744073709551616 bits")) = b!"256" ∧
    string (set (SSF [.int 128]) (.str b!"18446744073709551615 bits")) = b!"0" ∧
    digitsNumber b!"18446744073709551616" = 2 ^ 64 := by
  refine ⟨?_, by decide +kernel, by decide +kernel, by decide +kernel⟩
  simp only [Denotes]
  rintro (h | h)
  · exact not_integer (c := 98) (by simp) (by decide) h
  · exact not_word (by decide) (by decide) h

/-! ## Authentication methods -/

/-- The exported constant of each method. -/
def authConst : Auth → AuthenticationMethod
  | .none => Anonymous | .simple => Simple | .ssl => SSL | .sasl => SASL
  | .external => EXTERNAL | .digest => DIGESTMD5 | .gssapi => GSSAPI

private theorem authConst_injective (a b : Auth) (h : authConst a = authConst b) : a = b := by
  revert h; cases a <;> cases b <;> decide

private theorem name_injective (a b : Auth) (h : Str.fold a.name = Str.fold b.name) : a = b := by
  revert h; cases a <;> cases b <;> decide +kernel

theorem names_mem (a : Auth) : (a.name, authConst a) ∈ authNames := by
  cases a <;> decide +kernel

theorem names_cov {e} (h : e ∈ authNames) : ∃ a : Auth, e = (a.name, authConst a) := by
  have : ∀ e ∈ authNames, ∃ a ∈ Auth.all, e = (a.name, authConst a) := by decide +kernel
  obtain ⟨a, -, h⟩ := this e h
  exact ⟨a, h⟩

private theorem byName_hit {m : List (Str × AuthenticationMethod)}
    (hcov : ∀ e ∈ m, ∃ a : Auth, e = (a.name, authConst a)) {a : Auth} {s : Str}
    (hm : (a.name, authConst a) ∈ m) (h : Str.eqFold a.name s = true) : byName s m = authConst a := by
  induction m with
  | nil => simp at hm
  | cons e m ih =>
    obtain ⟨b, rfl⟩ := hcov e (by simp)
    rw [byName]
    by_cases hb : Str.eqFold b.name s = true
    · rw [if_pos hb]
      simp only [Str.eqFold, beq_iff_eq] at h hb
      rw [name_injective a b (h.trans hb.symm)]
    · rw [if_neg hb]
      rcases List.mem_cons.1 hm with e | hm
      · simp only [Prod.mk.injEq] at e
        rw [← authConst_injective _ _ e.2] at hb; exact absurd h hb
      · exact ih (fun e he => hcov e (by simp [he])) hm

private theorem byName_miss {m : List (Str × AuthenticationMethod)}
    (hcov : ∀ e ∈ m, ∃ a : Auth, e = (a.name, authConst a)) {s : Str}
    (h : ∀ a : Auth, Str.eqFold a.name s = false) : byName s m = Anonymous := by
  induction m with
  | nil => rfl
  | cons e m ih =>
    obtain ⟨b, rfl⟩ := hcov e (by simp)
    rw [byName, if_neg (by simp [h b])]
    exact ih (fun e he => hcov e (by simp [he]))

theorem authString_hit {m : List (Str × AuthenticationMethod)}
    (hcov : ∀ e ∈ m, ∃ a : Auth, e = (a.name, authConst a)) {a : Auth} (low : Bool)
    (hm : (a.name, authConst a) ∈ m) : authString m low (authConst a) =
      foldAuthenticationMethod low a.name := by
  induction m with
  | nil => simp at hm
  | cons e m ih =>
    obtain ⟨b, rfl⟩ := hcov e (by simp)
    rw [authString]
    by_cases hb : authConst b = authConst a
    · rw [if_pos hb, authConst_injective _ _ hb]
    · rw [if_neg hb]
      rcases List.mem_cons.1 hm with e | hm
      · simp only [Prod.mk.injEq] at e; exact absurd e.2.symm hb
      · exact ih (fun e he => hcov e (by simp [he])) hm

private theorem byNumber_perm {m m' : List (Int × AuthenticationMethod)} (h : m.Perm m')
    (hd : (m.map Prod.fst).Nodup) (i : Int) : byNumber i m = byNumber i m' := by
  induction h with
  | nil => rfl
  | cons x _ ih =>
    obtain ⟨k, v⟩ := x
    simp only [byNumber, ih (List.nodup_cons.1 hd).2]
  | swap x y l =>
    obtain ⟨k, v⟩ := x
    obtain ⟨k', v'⟩ := y
    simp only [List.map_cons, List.nodup_cons, List.mem_cons, not_or] at hd
    simp only [byNumber]
    by_cases h1 : k' = i
    · rw [if_pos h1, if_neg (fun h => hd.1.1 (h1.trans h.symm)), if_pos h1]
    · rw [if_neg h1, if_neg h1]
  | trans h1 _ ih1 ih2 => rw [ih1 hd, ih2 ((h1.map _).nodup_iff.1 hd)]

/-- **C28.** A text is resolved to the method carrying it, in any letter case and
for every iteration order of the map; a text no method carries gives the anonymous
method. -/
theorem C28_by_name (nums : List (Int × AuthenticationMethod))
    (names : List (Str × AuthenticationMethod)) (hn : names.Perm authNames) (s : Str) :
    (∀ a : Auth, Str.eqFold a.name s = true →
      matchAuthenticationMethod nums names (.str s) = authConst a) ∧
    ((∀ a : Auth, Str.eqFold a.name s = false) →
      matchAuthenticationMethod nums names (.str s) = authConst .none) := by
  have hcov : ∀ e ∈ names, ∃ a : Auth, e = (a.name, authConst a) :=
    fun e he => names_cov (hn.mem_iff.1 he)
  exact ⟨fun a h => byName_hit hcov (hn.mem_iff.2 (names_mem a)) h, fun h => byName_miss hcov h⟩

/-- **C28.** Every method prints its own name, in small letters when the setting says so and
otherwise in capital letters, and resolving this text gives the method again, whatever the
setting and the iteration orders. -/
theorem C28_round_trip (nums : List (Int × AuthenticationMethod))
    (names names' : List (Str × AuthenticationMethod)) (hn : names.Perm authNames)
    (hn' : names'.Perm authNames) (low : Bool) (a : Auth) :
    AnyCase a.name (authString names low (authConst a)) ∧
      (low = true → ∀ c ∈ authString names low (authConst a), ¬ (65 ≤ c ∧ c ≤ 90)) ∧
      (low = false → ∀ c ∈ authString names low (authConst a), ¬ (97 ≤ c ∧ c ≤ 122)) ∧
      matchAuthenticationMethod nums names' (.str (authString names low (authConst a))) =
        authConst a := by
  have hcov : ∀ e ∈ names, ∃ a : Auth, e = (a.name, authConst a) :=
    fun e he => names_cov (hn.mem_iff.1 he)
  have e := authString_hit hcov low (hn.mem_iff.2 (names_mem a))
  rw [e]
  refine ⟨by cases low <;> cases a <;> decide +kernel, by cases low <;> cases a <;> decide +kernel,
    by cases low <;> cases a <;> decide +kernel, (C28_by_name nums names' hn' _).1 a ?_⟩
  cases low <;> cases a <;> decide +kernel

/-- **C28**, in a bind rule: a value is accepted exactly when it is the name of a
method in any letter case, after removing blanks and quotation marks around it, and
it is resolved to this method.  Unknown names are refused. -/
theorem C28_bind_value (names names' : List (Str × AuthenticationMethod))
    (hn : names.Perm authNames) (hn' : names'.Perm authNames) (low : Bool) (v : Str)
    (am : AuthenticationMethod) :
    assertBindAuthenticationMethod names names' low [v] = .ok am ↔
      ∃ (t : Str) (a : Auth), Inside v t ∧ Str.eqFold a.name t = true ∧ am = authConst a := by
  simp only [inside_iff, exists_and_left, exists_eq_left']
  generalize hu : Misc.unquote (Misc.condenseWHSP v) = u
  have hcov' : ∀ e ∈ names', ∃ a : Auth, e = (a.name, authConst a) :=
    fun e he => names_cov (hn'.mem_iff.1 he)
  have hstr : ∀ a : Auth, Str.fold (authString names' low (authConst a)) = Str.fold a.name := by
    intro a
    rw [authString_hit hcov' low (hn'.mem_iff.2 (names_mem a))]
    cases low <;> cases a <;> decide +kernel
  simp only [assertBindAuthenticationMethod, hu]
  by_cases h : ∃ a : Auth, Str.eqFold a.name u = true
  · obtain ⟨a, ha⟩ := h
    have e : byName u names = authConst a := (C28_by_name [] names hn u).1 a ha
    have hf : Str.eqFold (authString names' low (authConst a)) u = true := by
      simp only [Str.eqFold, beq_iff_eq] at ha ⊢
      rw [hstr, ha]
    rw [e, if_pos hf]
    simp only [Except.ok.injEq]
    constructor
    · rintro rfl; exact ⟨a, ha, rfl⟩
    · rintro ⟨b, hb, rfl⟩
      simp only [Str.eqFold, beq_iff_eq] at ha hb
      rw [name_injective a b (ha.trans hb.symm)]
  · have h' : ∀ a : Auth, Str.eqFold a.name u = false := by
      intro a
      cases hb : Str.eqFold a.name u with
      | false => rfl
      | true => exact absurd ⟨a, hb⟩ h
    have e : byName u names = authConst .none := (C28_by_name [] names hn u).2 h'
    rw [e, if_neg]
    · simp only [reduceCtorEq, false_iff, not_exists, not_and]
      intro a ha; rw [h' a] at ha; exact absurd ha (by simp)
    · have := h' .none
      simp only [Str.eqFold, beq_eq_false_iff_ne, ne_eq, beq_iff_eq] at this ⊢
      rw [hstr]; exact this

/-- Any other count of values is refused. -/
theorem C28_bind_count (names names' : List (Str × AuthenticationMethod)) (low : Bool)
    (values : List Str) (h : values.length ≠ 1) :
    assertBindAuthenticationMethod names names' low values = .error () := by
  match values, h with
  | [], _ => rfl
  | [_], h => exact absurd rfl h
  | _ :: _ :: _, _ => rfl

example : (assertBindAuthenticationMethod authNames authNames false [b!"\"SASL external\""]).toOption =
    some EXTERNAL ∧
    (assertBindAuthenticationMethod authNames authNames false [b!"tls"]).toOption = none := by
  decide +kernel

/-- What **C28** claims of numbers: the documented number of a method is resolved to
this method. -/
def NumberResolves (nums : List (Int × AuthenticationMethod)) (a : Auth) : Prop :=
  ∀ names, matchAuthenticationMethod nums names (.int a.number) = authConst a

/-- **C28** does not hold for numbers: those of EXTERNAL and DIGEST-MD5 are swapped. -/
theorem C28_counterexample (nums : List (Int × AuthenticationMethod)) (hm : nums.Perm authMap) :
    ¬ NumberResolves nums .external ∧ ¬ NumberResolves nums .digest ∧
      (∀ names, matchAuthenticationMethod nums names (.int Auth.external.number) = authConst .digest) ∧
      (∀ names, matchAuthenticationMethod nums names (.int Auth.digest.number) = authConst .external) := by
  have h : ∀ i, byNumber i nums = byNumber i authMap :=
    byNumber_perm hm ((hm.map _).nodup_iff.2 (by decide))
  have h4 : ∀ names, matchAuthenticationMethod nums names (.int Auth.external.number) = authConst .digest := by
    intro names; exact (h 4).trans (by decide)
  have h5 : ∀ names, matchAuthenticationMethod nums names (.int Auth.digest.number) = authConst .external := by
    intro names; exact (h 5).trans (by decide)
  refine ⟨fun hh => ?_, fun hh => ?_, h4, h5⟩
  · have := hh []; rw [h4] at this; exact absurd this (by decide)
  · have := hh []; rw [h5] at this; exact absurd this (by decide)

/-- **C28**, numbers, except the two that are swapped; a number of no method gives
the anonymous one.  Missing: EXTERNAL and DIGEST-MD5, for which the claim is false. -/
theorem C28_by_number_partial (nums : List (Int × AuthenticationMethod)) (hm : nums.Perm authMap) :
    (∀ a : Auth, a ≠ .external → a ≠ .digest → NumberResolves nums a) ∧
    ∀ i : Int, (∀ a : Auth, i ≠ a.number) → ∀ names,
      matchAuthenticationMethod nums names (.int i) = authConst .none := by
  have h : ∀ i, byNumber i nums = byNumber i authMap :=
    byNumber_perm hm ((hm.map _).nodup_iff.2 (by decide))
  refine ⟨fun a h1 h2 names => (h _).trans ?_, fun i hi names => (h i).trans ?_⟩
  · revert h1 h2; cases a <;> decide
  · have a0 := hi .none
    have a1 := hi .simple
    have a2 := hi .ssl
    have a3 := hi .sasl
    have a4 := hi .external
    have a5 := hi .digest
    have a6 := hi .gssapi
    simp only [Auth.number, ne_eq, eq_comm (a := i)] at a0 a1 a2 a3 a4 a5 a6
    simp [authMap, byNumber, a0, a1, a2, a3, a4, a5, a6, authConst]

example : authMap.Perm authMap ∧ ∀ a : Auth, (7 : Int) ≠ a.number :=
  ⟨.refl _, by intro a; cases a <;> decide⟩

end Verif.Sec
