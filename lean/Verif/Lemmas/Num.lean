import Verif.Lemmas.Str

/-!
# Decimal numbers
-/

namespace Verif.Str

/-- A decimal digit. -/
def digit (n : Nat) : Byte := UInt8.ofNat (48 + n)

theorem digit_add (n : Nat) : (48 + UInt8.ofNat n : Byte) = digit n := by
  simp [digit]

theorem decGo_acc (f n : Nat) (acc : Str) : decGo f n acc = decGo f n [] ++ acc := by
  induction f generalizing n acc with
  | zero => simp [decGo]
  | succ f ih =>
    simp only [decGo]
    split
    · rfl
    · rw [ih (n / 10) (_ :: acc), ih (n / 10) [_]]; simp

theorem decGo_fuel (f g n : Nat) (hf : n < f) (hg : n < g) : decGo f n [] = decGo g n [] := by
  induction f generalizing g n with
  | zero => omega
  | succ f ih =>
    cases g with
    | zero => omega
    | succ g =>
      simp only [decGo]
      split
      · rfl
      · rw [decGo_acc f, decGo_acc g, ih g (n / 10) (by omega) (by omega)]

theorem ofNat_small {n : Nat} (h : n < 10) : ofNat n = [digit n] := by
  simp only [ofNat, decGo]
  rw [if_pos (by omega), Nat.mod_eq_of_lt h, digit_add]

theorem ofNat_big {n : Nat} (h : 10 ≤ n) : ofNat n = ofNat (n / 10) ++ [digit (n % 10)] := by
  simp only [ofNat]
  rw [decGo, if_neg (by omega), decGo_acc, digit_add, decGo_fuel n (n / 10 + 1) (n / 10) (by omega) (by omega)]

theorem ofNat_ne_nil (n : Nat) : ofNat n ≠ [] := by
  by_cases h : n < 10
  · simp [ofNat_small h]
  · simp [ofNat_big (Nat.le_of_not_lt h)]

theorem digit_props : ∀ n : Fin 10, 48 ≤ digit n ∧ digit n ≤ 57 ∧ (digit n).toNat - 48 = n := by decide

theorem ofNat_digits (n : Nat) : ∀ c ∈ ofNat n, 48 ≤ c ∧ c ≤ 57 := by
  induction n using Nat.strongRecOn with
  | ind n ih =>
    by_cases h : n < 10
    · rw [ofNat_small h]
      intro c hc
      simp only [List.mem_singleton] at hc
      subst hc
      have := digit_props ⟨n, h⟩
      exact ⟨this.1, this.2.1⟩
    · rw [ofNat_big (Nat.le_of_not_lt h)]
      intro c hc
      rcases List.mem_append.1 hc with hc | hc
      · exact ih (n / 10) (by omega) c hc
      · simp only [List.mem_singleton] at hc
        subst hc
        have := digit_props ⟨n % 10, by omega⟩
        exact ⟨this.1, this.2.1⟩

theorem digitsVal_snoc (s : Str) (k acc v : Nat) (hk : k < 10)
    (h : digitsVal s acc = .ok v) (hb : v * 10 + k ≤ 18446744073709551615) :
    digitsVal (s ++ [digit k]) acc = .ok (v * 10 + k) := by
  induction s generalizing acc with
  | nil =>
    simp only [digitsVal, Digits.ok.injEq] at h
    subst h
    have := digit_props ⟨k, hk⟩
    simp only [List.nil_append, digitsVal]
    rw [if_pos ⟨this.1, this.2.1⟩, this.2.2, if_pos hb]
  | cons a t ih =>
    simp only [digitsVal, List.cons_append] at h ⊢
    by_cases h1 : 48 ≤ a ∧ a ≤ 57
    · rw [if_pos h1] at h ⊢
      by_cases h2 : acc * 10 + (a.toNat - 48) ≤ 18446744073709551615
      · rw [if_pos h2] at h ⊢; exact ih _ h
      · rw [if_neg h2] at h; exact absurd h (by simp)
    · rw [if_neg h1] at h; exact absurd h (by simp)

theorem digitsVal_ofNat (n : Nat) (h : n ≤ 18446744073709551615) :
    digitsVal (ofNat n) 0 = .ok n := by
  induction n using Nat.strongRecOn with
  | ind n ih =>
    by_cases hn : n < 10
    · rw [ofNat_small hn]
      have := digitsVal_snoc [] n 0 0 hn rfl (by omega)
      simpa using this
    · rw [ofNat_big (Nat.le_of_not_lt hn)]
      have := digitsVal_snoc (ofNat (n / 10)) (n % 10) 0 (n / 10) (by omega)
        (ih _ (by omega) (by omega)) (by omega)
      rw [this]
      congr 1; omega

/-- `Atoi` undoes `Itoa`. -/
theorem atoi_ofNat (n : Nat) (h : n ≤ 9223372036854775807) : atoi (ofNat n) = ((n : Int), true) := by
  have hne := ofNat_ne_nil n
  have hd := ofNat_digits n
  have hv := digitsVal_ofNat n (by omega)
  have hm : atoiMag 9223372036854775807 (ofNat n) = (n, true) := by
    rw [atoiMag, if_neg hne, hv]; simp [h]
  obtain ⟨a, t, e⟩ := List.exists_cons_of_ne_nil hne
  rw [e] at hm hd ⊢
  have ha := hd a (by simp)
  unfold atoi
  split
  · next d h => simp only [List.cons.injEq] at h; exact absurd (h.1 ▸ ha.1) (by decide)
  · next d h => simp only [List.cons.injEq] at h; exact absurd (h.1 ▸ ha.1) (by decide)
  · rw [hm]

theorem atoi_digits {d : Str} {a : Byte} {t : Str} (e : d = a :: t) (ha : 48 ≤ a ∧ a ≤ 57)
    {n : Nat} (h : digitsVal d 0 = .ok n) (hn : n ≤ 9223372036854775807) :
    atoi d = ((n : Int), true) := by
  have hm : atoiMag 9223372036854775807 d = (n, true) := by
    rw [atoiMag, if_neg (by simp [e]), h]; simp [hn]
  subst e
  unfold atoi
  split
  · next d h => simp only [List.cons.injEq] at h; exact absurd (h.1 ▸ ha.1) (by decide)
  · next d h => simp only [List.cons.injEq] at h; exact absurd (h.1 ▸ ha.1) (by decide)
  · rw [hm]

theorem atoi_four {a b c d : Nat} (ha : a < 10) (hb : b < 10) (hc : c < 10) (hd : d < 10) :
    atoi [digit a, digit b, digit c, digit d] = (((a * 1000 + b * 100 + c * 10 + d : Nat) : Int), true) := by
  have h0 := digitsVal_snoc [] a 0 0 ha rfl (by omega)
  have h1 := digitsVal_snoc _ b 0 _ hb h0 (by omega)
  have h2 := digitsVal_snoc _ c 0 _ hc h1 (by omega)
  have h3 := digitsVal_snoc _ d 0 _ hd h2 (by omega)
  have := digit_props ⟨a, ha⟩
  have h4 := atoi_digits (d := [digit a, digit b, digit c, digit d]) rfl ⟨this.1, this.2.1⟩ h3 (by omega)
  rw [h4]
  congr 2; omega

/-- What the digit loop makes of digits: their value, or an overflow. -/
theorem digitsVal_snoc_all (s : Str) (k acc : Nat) (hk : k < 10) :
    digitsVal (s ++ [digit k]) acc =
      match digitsVal s acc with
      | .ok v => if v * 10 + k ≤ 18446744073709551615 then .ok (v * 10 + k) else .range
      | .syn => .syn
      | .range => .range := by
  induction s generalizing acc with
  | nil =>
    have := digit_props ⟨k, hk⟩
    simp only [List.nil_append, digitsVal]
    rw [if_pos ⟨this.1, this.2.1⟩, this.2.2]
  | cons a t ih =>
    simp only [digitsVal, List.cons_append]
    by_cases h1 : 48 ≤ a ∧ a ≤ 57
    · rw [if_pos h1, if_pos h1]
      by_cases h2 : acc * 10 + (a.toNat - 48) ≤ 18446744073709551615
      · rw [if_pos h2, if_pos h2]; exact ih _
      · rw [if_neg h2, if_neg h2]
    · rw [if_neg h1, if_neg h1]

theorem digitsVal_ofNat_all (n : Nat) :
    digitsVal (ofNat n) 0 = if n ≤ 18446744073709551615 then .ok n else .range := by
  induction n using Nat.strongRecOn with
  | ind n ih =>
    by_cases hn : n ≤ 18446744073709551615
    · rw [if_pos hn]; exact digitsVal_ofNat n hn
    · rw [if_neg hn, ofNat_big (by omega), digitsVal_snoc_all _ _ _ (by omega), ih (n / 10) (by omega)]
      by_cases h10 : n / 10 ≤ 18446744073709551615
      · rw [if_pos h10]; simp only; rw [if_neg (by omega)]
      · rw [if_neg h10]

theorem atoiMag_ofNat (m n : Nat) (hm : m ≤ 18446744073709551615) :
    (atoiMag m (ofNat n)).1 = min n m := by
  rw [atoiMag, if_neg (ofNat_ne_nil n), digitsVal_ofNat_all]
  by_cases hn : n ≤ 18446744073709551615
  · rw [if_pos hn]; simp only
    by_cases h : n ≤ m
    · rw [if_pos h]; omega
    · rw [if_neg h]; omega
  · rw [if_neg hn]; simp only; omega

/-- `Atoi` of the digits of any number, however large: the value is limited. -/
theorem atoi_ofNat_val (n : Nat) : (atoi (ofNat n)).1 = ((min n 9223372036854775807 : Nat) : Int) := by
  have hm := atoiMag_ofNat 9223372036854775807 n (by omega)
  obtain ⟨a, t, e⟩ := List.exists_cons_of_ne_nil (ofNat_ne_nil n)
  have ha := ofNat_digits n a (by rw [e]; simp)
  rw [e] at hm ⊢
  unfold atoi
  split
  · next d h => simp only [List.cons.injEq] at h; exact absurd (h.1 ▸ ha.1) (by decide)
  · next d h => simp only [List.cons.injEq] at h; exact absurd (h.1 ▸ ha.1) (by decide)
  · simp only; rw [hm]

/-- A value comes from digits only. -/
theorem digitsVal_ok {s : Str} {acc n : Nat} (h : digitsVal s acc = .ok n) :
    ∀ c ∈ s, 48 ≤ c ∧ c ≤ 57 := by
  induction s generalizing acc with
  | nil => simp
  | cons a t ih =>
    rw [digitsVal] at h
    by_cases h1 : 48 ≤ a ∧ a ≤ 57
    · rw [if_pos h1] at h
      by_cases h2 : acc * 10 + (a.toNat - 48) ≤ 18446744073709551615
      · rw [if_pos h2] at h
        intro c hc
        rcases List.mem_cons.1 hc with rfl | hc
        · exact h1
        · exact ih h c hc
      · rw [if_neg h2] at h; exact absurd h (by simp)
    · rw [if_neg h1] at h; exact absurd h (by simp)

/-- Up to 19 digits there is no overflow. -/
theorem digitsVal_no_range {s : Str} {acc : Nat} (h : (acc + 1) * 10 ^ s.length ≤ 18446744073709551616) :
    digitsVal s acc ≠ .range := by
  induction s generalizing acc with
  | nil => simp [digitsVal]
  | cons a t ih =>
    rw [digitsVal]
    by_cases h1 : 48 ≤ a ∧ a ≤ 57
    · rw [if_pos h1]
      have ha : a.toNat - 48 ≤ 9 := by
        have := UInt8.le_iff_toNat_le.1 h1.2
        have e : (57 : UInt8).toNat = 57 := rfl
        omega
      have hp : 1 ≤ 10 ^ t.length := Nat.one_le_pow _ _ (by omega)
      have e : (acc + 1) * 10 ^ (a :: t).length = (acc * 10 + 10) * 10 ^ t.length := by
        rw [List.length_cons, Nat.pow_succ]
        generalize 10 ^ t.length = p
        calc (acc + 1) * (p * 10) = ((acc + 1) * 10) * p := by rw [Nat.mul_comm p 10, Nat.mul_assoc]
          _ = (acc * 10 + 10) * p := by congr 1; omega
      rw [e] at h
      have h3 : acc * 10 + 10 ≤ (acc * 10 + 10) * 10 ^ t.length := Nat.le_mul_of_pos_right _ hp
      rw [if_pos (by omega)]
      apply ih
      refine Nat.le_trans (Nat.mul_le_mul_right _ ?_) h
      omega
    · rw [if_neg h1]; simp

end Verif.Str
