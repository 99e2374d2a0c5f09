import Verif.Model.Time
import Verif.Spec.Time
import Verif.Lemmas.Num
import Verif.Lemmas.Clean

namespace Verif.Time
open Verif Verif.Spec

/-- Position of a day in the word. -/
def idx : Weekday → Nat
  | .sun => 1 | .mon => 2 | .tue => 3 | .wed => 4 | .thu => 5 | .fri => 6 | .sat => 7

theorem idx_lt (d : Weekday) : idx d < 8 := by cases d <;> decide

def heldOf (v : BitVec 8) (d : Weekday) : Bool := v.getLsbD (idx d)

/-- Bit of the result of one round of the loops. -/
theorem matchInt_bit (i : Int) (d : Weekday) :
    (matchIntDoW i).getLsbD (idx d) = true ↔ i = d.number := by
  have h : ∀ n : Fin 9, ((matchIntDoW (n : Nat)).getLsbD (idx d) = true ↔ ((n : Nat) : Int) = d.number) := by
    cases d <;> decide
  by_cases h0 : 0 ≤ i ∧ i < 9
  · obtain ⟨n, rfl⟩ := Int.eq_ofNat_of_zero_le h0.1
    exact h ⟨n, by omega⟩
  · have : matchIntDoW i = noDay := by
      simp only [matchIntDoW]
      repeat (split; omega)
      rfl
    rw [this]
    constructor
    · cases d <;> (intro h; exact absurd h (by decide))
    · rintro rfl; cases d <;> exact absurd h0 (by decide)

theorem matchLower_spelled (d : Weekday) (s : Str) :
    (matchLower s).getLsbD (idx d) = true ↔ s ∈ d.spellings := by
  have fwd : ∀ d, s ∈ Weekday.spellings d → matchLower s = BitVec.twoPow 8 (idx d) := by
    intro d h
    have : ∀ t ∈ Weekday.spellings d, matchLower t = BitVec.twoPow 8 (idx d) := by
      cases d <;> decide
    exact this s h
  constructor
  · intro h
    have : (∃ d', s ∈ Weekday.spellings d') ∨ matchLower s = noDay := by
      by_cases e : ∃ d', s ∈ Weekday.spellings d'
      · exact Or.inl e
      · right
        simp only [not_exists] at e
        have e1 := e .sun; have e2 := e .mon; have e3 := e .tue; have e4 := e .wed
        have e5 := e .thu; have e6 := e .fri; have e7 := e .sat
        simp only [Weekday.spellings, List.mem_cons, List.not_mem_nil, or_false] at e1 e2 e3 e4 e5 e6 e7
        simp only [matchLower, e1, e2, e3, e4, e5, e6, e7, if_false]
    rcases this with ⟨d', h'⟩ | h'
    · have e := fwd d' h'
      rw [e] at h
      have : d' = d := by revert h; cases d <;> cases d' <;> decide
      subst this; exact h'
    · rw [h'] at h; cases d <;> exact absurd h (by decide)
  · intro h
    rw [fwd d h]; cases d <;> decide

theorem matchStr_bit (s : Str) (d : Weekday) :
    (matchStrDoW s).getLsbD (idx d) = true ↔ d.NamedBy s := matchLower_spelled d (Str.lower s)

theorem matchLower_even (s : Str) : (matchLower s).getLsbD 0 = false := by
  simp only [matchLower]
  repeat (split; decide)
  decide

theorem matchInt_even (i : Int) : (matchIntDoW i).getLsbD 0 = false := by
  simp only [matchIntDoW]
  repeat (split; decide)
  decide

theorem matchLower_noDay (s : Str) : matchLower s = noDay ↔ ∀ d : Weekday, s ∉ d.spellings := by
  constructor
  · intro h d hd
    have := (matchLower_spelled d s).2 hd
    rw [h] at this
    cases d <;> exact absurd this (by decide)
  · intro h
    apply BitVec.eq_of_getLsbD_eq
    intro i hi
    have hb : ∀ d : Weekday, (matchLower s).getLsbD (idx d) = false := by
      intro d
      cases hh : (matchLower s).getLsbD (idx d) with
      | false => rfl
      | true => exact absurd ((matchLower_spelled d s).1 hh) (h d)
    have hn : noDay.getLsbD i = false := by simp [noDay]
    rw [hn]
    match i, hi with
    | 0, _ => exact matchLower_even s
    | 1, _ => exact hb .sun
    | 2, _ => exact hb .mon
    | 3, _ => exact hb .tue
    | 4, _ => exact hb .wed
    | 5, _ => exact hb .thu
    | 6, _ => exact hb .fri
    | 7, _ => exact hb .sat

theorem shift_bit (v x : BitVec 8) (i : Nat) :
    (Shifty.shift v x).getLsbD i = true ↔ x.getLsbD i = true ∨ v.getLsbD i = true := by
  simp [Shifty.shift, or_comm]

theorem unshift_bit (v x : BitVec 8) (i : Nat) (h : i < 8) :
    (Shifty.unshift v x).getLsbD i = true ↔ ¬ x.getLsbD i = true ∧ v.getLsbD i = true := by
  simp [Shifty.unshift, h, and_comm]

theorem cond_shift_bit (v x : BitVec 8) (i : Nat) :
    (if x ≠ noDay then Shifty.shift v x else v).getLsbD i = true ↔
      x.getLsbD i = true ∨ v.getLsbD i = true := by
  split
  · exact shift_bit v x i
  · next h =>
    simp only [ne_eq, Decidable.not_not] at h
    simp [h, noDay]

theorem cond_unshift_bit (v x : BitVec 8) (i : Nat) (hi : i < 8) :
    (if x ≠ noDay then Shifty.unshift v x else v).getLsbD i = true ↔
      ¬ x.getLsbD i = true ∧ v.getLsbD i = true := by
  split
  · exact unshift_bit v x i hi
  · next h =>
    simp only [ne_eq, Decidable.not_not] at h
    simp [h, noDay]

/-- A bit set by one round of `Shift`. -/
theorem shift1_bit (v : BitVec 8) (a : Arg) (i : Nat) :
    (shift1 v a).getLsbD i = true ↔ (matchDoW a).getLsbD i = true ∨ v.getLsbD i = true := by
  cases a with
  | int j => exact cond_shift_bit v _ i
  | str s => exact cond_shift_bit v _ i
  | day d => exact shift_bit v d i
  | other => simp [shift1, matchDoW, noDay]

theorem unshift1_bit (v : BitVec 8) (a : Arg) (i : Nat) (hi : i < 8) :
    (unshift1 v a).getLsbD i = true ↔ ¬ (matchDoW a).getLsbD i = true ∧ v.getLsbD i = true := by
  cases a with
  | int j => exact cond_unshift_bit v _ i hi
  | str s => exact cond_unshift_bit v _ i hi
  | day d => exact unshift_bit v d i hi
  | other => simp [unshift1, matchDoW, noDay]

theorem bitsOn_some (S : Shifty 8) (v : BitVec 8) :
    bitsOn S (some v) = (List.range 8).filter fun i => v.getLsbD i := by
  simp only [bitsOn]
  apply List.filter_congr
  intro i hi
  exact S.positive_bit _ _ (by simpa using hi)

/-- The printed text depends on the word alone. -/
def wordText (v : BitVec 8) : Str :=
  let dows := ((List.range 8).filter fun i => v.getLsbD i).map fun i => Day.string (BitVec.twoPow 8 i)
  if dows.length > 0 then Str.join b!"," dows else badDoW

theorem string_some (S : Shifty 8) (v : BitVec 8) : string S (some v) = wordText v := by
  simp only [string, bitsOn_some, wordText]

theorem word_cases (P : BitVec 8 → Prop) (h : ∀ n : Fin 256, P (BitVec.ofNat 8 n.1)) (v : BitVec 8) :
    P v := by
  have := h ⟨v.toNat, v.isLt⟩
  simpa using this

theorem wordText_table : ∀ n : Fin 256, (BitVec.ofNat 8 n.1).getLsbD 0 = false →
    BitVec.ofNat 8 n.1 ≠ 0#8 →
    wordText (BitVec.ofNat 8 n.1) = daysText (heldOf (BitVec.ofNat 8 n.1)) := by
  decide +kernel

theorem wordText_eq (v : BitVec 8) (h0 : v.getLsbD 0 = false) (h : v ≠ 0#8) :
    wordText v = daysText (heldOf v) :=
  word_cases (fun v => v.getLsbD 0 = false → v ≠ 0#8 → wordText v = daysText (heldOf v))
    wordText_table v h0 h

/-- The reader's loop on lower-cased pieces. -/
def lowerLoop : List Str → BitVec 8 → Option (BitVec 8)
  | [], v => some v
  | x :: t, v => if matchLower x = noDay then none else lowerLoop t (v ||| matchLower x)

theorem parseLoop_eq (l : List Str) (v : BitVec 8) :
    parseLoop l v = match lowerLoop (l.map Str.lower) v with
      | some v => .ok v
      | none => .error () := by
  induction l generalizing v with
  | nil => rfl
  | cons x t ih =>
    simp only [parseLoop, List.map_cons, lowerLoop]
    show (if matchLower (Str.lower x) = noDay then _ else parseLoop t (shift1 v (.day (matchLower (Str.lower x))))) = _
    by_cases h : matchLower (Str.lower x) = noDay
    · rw [if_pos h, if_pos h]
    · rw [if_neg h, if_neg h, ih]; rfl

theorem round_table : ∀ n : Fin 256, (BitVec.ofNat 8 n.1).getLsbD 0 = false →
    BitVec.ofNat 8 n.1 ≠ 0#8 →
    lowerLoop (Str.split1 44 (Str.lower (daysText (heldOf (BitVec.ofNat 8 n.1))))) 0#8 =
      some (BitVec.ofNat 8 n.1) := by
  decide +kernel

theorem lowerLoop_some {l : List Str} {v w : BitVec 8} (h : lowerLoop l v = some w) :
    (∀ x ∈ l, ∃ d : Weekday, x ∈ d.spellings) ∧
    (∀ d, w.getLsbD (idx d) = true ↔ v.getLsbD (idx d) = true ∨ ∃ x ∈ l, x ∈ d.spellings) ∧
    (v.getLsbD 0 = false → w.getLsbD 0 = false) := by
  induction l generalizing v with
  | nil =>
    simp only [lowerLoop, Option.some.injEq] at h
    subst h; simp
  | cons x t ih =>
    simp only [lowerLoop] at h
    split at h
    · exact absurd h (by simp)
    · next hx =>
      obtain ⟨h1, h2, h3⟩ := ih h
      refine ⟨?_, ?_, ?_⟩
      · intro y hy
        rcases List.mem_cons.1 hy with rfl | hy
        · exact Classical.byContradiction fun hn =>
            hx ((matchLower_noDay y).2 fun d hd => hn ⟨d, hd⟩)
        · exact h1 y hy
      · intro d
        rw [h2 d]
        simp only [BitVec.getLsbD_or, Bool.or_eq_true, matchLower_spelled, List.mem_cons,
          exists_eq_or_imp, or_assoc]
      · intro hv
        apply h3
        rw [BitVec.getLsbD_or, hv, matchLower_even]; rfl

theorem lowerLoop_none {l : List Str} {v : BitVec 8} (h : lowerLoop l v = none) :
    ∃ x ∈ l, ∀ d : Weekday, x ∉ d.spellings := by
  induction l generalizing v with
  | nil => simp [lowerLoop] at h
  | cons x t ih =>
    simp only [lowerLoop] at h
    split at h
    · next hx => exact ⟨x, by simp, (matchLower_noDay x).1 hx⟩
    · obtain ⟨y, hy, hd⟩ := ih h
      exact ⟨y, by simp [hy], hd⟩

theorem wordText_bad : ∀ n : Fin 256, (BitVec.ofNat 8 n.1).getLsbD 0 = false →
    (wordText (BitVec.ofNat 8 n.1) = badDoW ↔ BitVec.ofNat 8 n.1 = 0#8) := by decide +kernel

theorem valid_some (S : Shifty 8) (v : BitVec 8) (h0 : v.getLsbD 0 = false) :
    valid S (some v) = true ↔ v ≠ 0#8 := by
  have := word_cases (fun v => v.getLsbD 0 = false → (wordText v = badDoW ↔ v = 0#8))
    wordText_bad v h0
  simp only [valid, isZero, Option.isNone_some, string_some]
  simp [this]

/-- The reader, through the loop on lower-cased pieces. -/
theorem parseDoW_eq (S : Shifty 8) (t : Str) (l : List Str)
    (hl : l = (Str.split1 44 (Str.dropSpaces t)).map Str.lower) :
    (lowerLoop l 0#8 = none ∧ parseDoW S t = .error ()) ∨
    ∃ v, lowerLoop l 0#8 = some v ∧
      parseDoW S t = if valid S (some v) then .ok (some v) else .error () := by
  subst hl
  rw [parseDoW, parseLoop_eq]
  cases hl : lowerLoop ((Str.split1 44 (Str.dropSpaces t)).map Str.lower) 0#8 with
  | none => exact Or.inl ⟨rfl, rfl⟩
  | some v => exact Or.inr ⟨v, rfl, rfl⟩

/-! ## Clock times -/

theorem padDec4 {n : Nat} (h : n < 10000) : padDec 4 n =
    [Str.digit (n / 1000), Str.digit (n / 100 % 10), Str.digit (n / 10 % 10), Str.digit (n % 10)] := by
  have z : Str.digit 0 = 48 := by decide
  by_cases h1 : n < 10
  · have e1 : n / 1000 = 0 := by omega
    have e2 : n / 100 % 10 = 0 := by omega
    have e3 : n / 10 % 10 = 0 := by omega
    have e4 : n % 10 = n := by omega
    simp [padDec, Str.ofNat_small h1, e1, e2, e3, e4, z, List.replicate]
  · by_cases h2 : n < 100
    · have e1 : n / 1000 = 0 := by omega
      have e2 : n / 100 % 10 = 0 := by omega
      have e3 : n / 10 % 10 = n / 10 := by omega
      simp [padDec, Str.ofNat_big (Nat.le_of_not_lt h1), Str.ofNat_small (n := n / 10) (by omega),
        e1, e2, e3, z, List.replicate]
    · by_cases h3 : n < 1000
      · have e1 : n / 1000 = 0 := by omega
        have e2 : n / 10 / 10 = n / 100 % 10 := by omega
        rw [padDec, Str.ofNat_big (Nat.le_of_not_lt h1), Str.ofNat_big (n := n / 10) (by omega),
          Str.ofNat_small (n := n / 10 / 10) (by omega), e1, e2, z]
        rfl
      · have e2 : n / 10 / 10 % 10 = n / 100 % 10 := by omega
        have e3 : n / 10 / 10 / 10 = n / 1000 := by omega
        rw [padDec, Str.ofNat_big (Nat.le_of_not_lt h1), Str.ofNat_big (n := n / 10) (by omega),
          Str.ofNat_big (n := n / 10 / 10) (by omega),
          Str.ofNat_small (n := n / 10 / 10 / 10) (by omega), e2, e3]
        rfl

theorem uint16_round {n : Nat} (h : n < 65536) : getUint16 (putUint16 n) = n := by
  simp only [getUint16, putUint16, UInt8.toNat_ofNat']
  omega

theorem clockText_digits (h m : Nat) : clockText h m =
    [Str.digit (h / 10), Str.digit (h % 10), Str.digit (m / 10), Str.digit (m % 10)] := rfl

theorem assertStr_clock {r : Byte × Byte} {h m : Nat} (hh : h < 24) (hm : m < 60) :
    assertStr r (clockText h m) = putUint16 (h * 100 + m) := by
  have hne : clockText h m ≠ b!"2400" := by
    rw [clockText_digits]
    intro e
    simp only [List.cons.injEq] at e
    have e1 : h / 10 = 2 := by
      have := (Str.digit_props ⟨h / 10, by omega⟩).2.2
      simp only [e.1] at this
      exact this.symm
    have e2 : h % 10 = 4 := by
      have := (Str.digit_props ⟨h % 10, by omega⟩).2.2
      simp only [e.2.1] at this
      exact this.symm
    omega
  have d1 := Str.digit_props ⟨h / 10, by omega⟩
  have d2 := Str.digit_props ⟨h % 10, by omega⟩
  have d3 := Str.digit_props ⟨m / 10, by omega⟩
  have d4 := Str.digit_props ⟨m % 10, by omega⟩
  have hp : parse1504 (clockText h m) = true := by
    rw [clockText_digits]
    simp only [parse1504, Misc.isDigit, d1, d2, d3, d4]
    simp only [decide_true, Bool.and_self, Bool.true_and, Bool.and_eq_true, decide_eq_true_eq]
    omega
  have ha := Str.atoi_four (a := h / 10) (b := h % 10) (c := m / 10) (d := m % 10)
    (by omega) (by omega) (by omega) (by omega)
  rw [← clockText_digits] at ha
  simp only [assertStr, if_neg hne, hp, if_true, ha]
  congr 1
  omega

theorem clock_table (h m : Nat) (hh : h < 24) (hm : m < 60) :
    TimeOfDay.string (ToD [.str (clockText h m)]) = clockText h m := by
  simp only [ToD, assertToD, TimeOfDay.string, assertStr_clock hh hm]
  rw [uint16_round (by omega), padDec4 (by omega), clockText_digits]
  have e1 : (h * 100 + m) / 1000 = h / 10 := by omega
  have e2 : (h * 100 + m) / 100 % 10 = h % 10 := by omega
  have e3 : (h * 100 + m) / 10 % 10 = m / 10 := by omega
  have e4 : (h * 100 + m) % 10 = m % 10 := by omega
  rw [e1, e2, e3, e4]

theorem padDec2 {n : Nat} (h : n < 100) : padDec 2 n = twoDigits n := by
  have z : Str.digit 0 = 48 := by decide
  show _ = [Str.digit (n / 10), Str.digit (n % 10)]
  by_cases h1 : n < 10
  · have e1 : n / 10 = 0 := by omega
    have e2 : n % 10 = n := by omega
    simp [padDec, Str.ofNat_small h1, e1, e2, z]
  · simp [padDec, Str.ofNat_big (Nat.le_of_not_lt h1), Str.ofNat_small (n := n / 10) (by omega)]

theorem time_table (h m : Nat) (hh : h < 24) (hm : m < 60) :
    TimeOfDay.string (ToD [.time false h m]) = clockText h m := by
  rw [← clock_table h m hh hm]
  simp only [ToD, assertToD, Bool.not_false, if_true, padDec2 (n := h) (by omega),
    padDec2 (n := m) (by omega)]
  rfl

theorem digit_eq {a : Byte} (h : Misc.isDigit a = true) :
    ∃ n : Nat, n < 10 ∧ a = UInt8.ofNat (48 + n) ∧ a.toNat - 48 = n := by
  have : ∀ a : Byte, Misc.isDigit a = true →
      a.toNat - 48 < 10 ∧ a = UInt8.ofNat (48 + (a.toNat - 48)) := by decide +kernel
  exact ⟨a.toNat - 48, (this a h).1, (this a h).2, rfl⟩

theorem parse1504_clock {s : Str} (h : parse1504 s = true) :
    ∃ h' m, h' < 24 ∧ m < 60 ∧ s = clockText h' m := by
  unfold parse1504 at h
  split at h
  · next a b c d =>
    simp only [Bool.and_eq_true, decide_eq_true_eq] at h
    obtain ⟨⟨⟨⟨⟨ha, hb⟩, hc⟩, hd⟩, h1⟩, h2⟩ := h
    obtain ⟨i, hi, rfl, ei⟩ := digit_eq ha
    obtain ⟨j, hj, rfl, ej⟩ := digit_eq hb
    obtain ⟨k, hk, rfl, ek⟩ := digit_eq hc
    obtain ⟨l, hl, rfl, el⟩ := digit_eq hd
    rw [ei, ej] at h1
    rw [ek, el] at h2
    refine ⟨i * 10 + j, k * 10 + l, h1, h2, ?_⟩
    have e1 : (i * 10 + j) / 10 = i := by omega
    have e2 : (i * 10 + j) % 10 = j := by omega
    have e3 : (k * 10 + l) / 10 = k := by omega
    have e4 : (k * 10 + l) % 10 = l := by omega
    simp [clockText, twoDigits, e1, e2, e3, e4]
  · exact absurd h (by simp)

theorem toD_bad {s : Str} (h : ¬ IsClock s) : ToD [.str s] = some (0, 0) := by
  have h1 : s ≠ b!"2400" := by
    rintro rfl; exact h (Or.inr (by decide))
  have h2 : parse1504 s = false := by
    cases hp : parse1504 s with
    | false => rfl
    | true => exact absurd (Or.inl (parse1504_clock hp)) h
  simp [ToD, assertToD, assertStr, h1, h2]

theorem clock_string {s : Str} (h : IsClock s) : TimeOfDay.string (ToD [.str s]) = s := by
  rcases h with ⟨h', m, hh, hm, rfl⟩ | rfl
  · exact clock_table h' m hh hm
  · decide +kernel

theorem clock_plain {s : Str} (h : IsClock s) : Plain s ∧ s.length = 4 ∧
    ∀ c ∈ s, Misc.isQuote c = false := by
  have t : ∀ h m : Nat, h < 25 → m < 60 → Plain (clockText h m) ∧ (clockText h m).length = 4 ∧
      ∀ c ∈ clockText h m, Misc.isQuote c = false := by
    intro h m hh hm
    rw [clockText_digits]
    have p : ∀ n : Fin 10, (33 ≤ Str.digit n ∧ Str.digit n ≤ 126) ∧
        Misc.isQuote (Str.digit n) = false := by decide
    have p1 := p ⟨h / 10, by omega⟩
    have p2 := p ⟨h % 10, by omega⟩
    have p3 := p ⟨m / 10, by omega⟩
    have p4 := p ⟨m % 10, by omega⟩
    refine ⟨?_, rfl, ?_⟩
    · intro c hc
      simp only [List.mem_cons, List.not_mem_nil, or_false] at hc
      rcases hc with rfl | rfl | rfl | rfl
      · exact p1.1
      · exact p2.1
      · exact p3.1
      · exact p4.1
    · intro c hc
      simp only [List.mem_cons, List.not_mem_nil, or_false] at hc
      rcases hc with rfl | rfl | rfl | rfl
      · exact p1.2
      · exact p2.2
      · exact p3.2
      · exact p4.2
  rcases h with ⟨h', m, hh, hm, rfl⟩ | rfl
  · exact t h' m (by omega) hm
  · exact t 24 0 (by decide) (by decide)

end Verif.Time
