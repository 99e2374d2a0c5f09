import Verif.Props.Net
import Verif.Props.Values

/-!
# Internet addresses are taken, and only these (C144)

What an internet address is, is said here with numbers: an IPv4 address is four numbers up to 255
with dots between them (RFC 791), and an IPv6 address is eight groups of up to four hexadecimal digits, of which
a run may be left out, and of which the last two may be written as an IPv4 address (RFC 4291,
section 2.2).  Behind a slash the length of a network may follow.  Patterns are IPv4 addresses with
asterisks for numbers, or the beginning of one.
-/

namespace Verif.Addr
open Verif Verif.Net Verif.Spec

/-- A number in decimal digits. -/
def decimal (n : Nat) : Str := if n < 10 then [48 + n.toUInt8] else decimal (n / 10) ++ [48 + (n % 10).toUInt8]

/-- Texts with something between them. -/
def between (sep : Byte) : List Str → Str
  | [] => []
  | [a] => a
  | a :: b :: t => a ++ sep :: between sep (b :: t)

/-- A number of an IPv4 address. -/
def Octet (s : Str) : Prop := ∃ n : Nat, n ≤ 255 ∧ s = decimal n

/-- An IPv4 address. -/
def V4 (s : Str) : Prop := ∃ a b c d : Str, Octet a ∧ Octet b ∧ Octet c ∧ Octet d ∧ s = between 46 [a, b, c, d]

/-- A group of an IPv6 address. -/
def Group (s : Str) : Prop := 1 ≤ s.length ∧ s.length ≤ 4 ∧ ∀ c ∈ s, c ∈ b!"0123456789abcdefABCDEF"

instance (s : Str) : Decidable (Group s) := inferInstanceAs (Decidable (_ ∧ _))

/-- An IPv6 address in groups, of which a run may be left out. -/
def V6 (s : Str) : Prop :=
  (∃ l : List Str, l.length = 8 ∧ (∀ g ∈ l, Group g) ∧ s = between 58 l) ∨
  ∃ l m : List Str, l.length + m.length ≤ 7 ∧ (∀ g ∈ l, Group g) ∧ (∀ g ∈ m, Group g) ∧
    s = between 58 l ++ b!"::" ++ between 58 m

/-- An IPv6 address that ends with an IPv4 address. -/
def Mixed (s : Str) : Prop := ∃ (l : List Str) (a : Str), (∀ g ∈ l, Group g) ∧ V4 a ∧
  (l.length = 6 ∧ s = between 58 (l ++ [a]) ∨
    ∃ m, l.length + m.length ≤ 5 ∧ (∀ g ∈ m, Group g) ∧ s = between 58 l ++ b!"::" ++ between 58 (m ++ [a]))

/-- A network: an address and the number of bits that count. -/
def Network (s : Str) : Prop :=
  (∃ a n, V4 a ∧ n ≤ 32 ∧ s = a ++ 47 :: decimal n) ∨ ∃ a n, V6 a ∧ n ≤ 128 ∧ s = a ++ 47 :: decimal n

/-- The numbers of an IPv4 address, some of them asterisks, all or the first of them; a dot may
follow, and must if there is just one. -/
def Pattern (s : Str) : Prop := ∃ l : List Str, (∀ p ∈ l, p = b!"*" ∨ Octet p) ∧
  (2 ≤ l.length ∧ l.length ≤ 4 ∧ s = between 46 l ∨ 1 ≤ l.length ∧ l.length ≤ 3 ∧ s = between 46 l ++ [46])

/-- What a list of addresses is to take. -/
def Address (s : Str) : Prop := V4 s ∨ V6 s ∨ Mixed s ∨ Network s ∨ Pattern s

/-- The first half of **C144**: every address is taken. -/
def EveryAddressTaken : Prop := ∀ s, Address s → IP [s] = some [s]

/-- The second half of **C144**: only addresses are taken. -/
def OnlyAddressesTaken : Prop := ∀ s, IP [s] = some [s] → Address s

theorem mem_between {sep : Byte} {c : Byte} : ∀ {l : List Str}, c ∈ between sep l → c = sep ∨ ∃ p ∈ l, c ∈ p := by
  intro l
  induction l with
  | nil => intro h; cases h
  | cons a l ih =>
    intro h
    cases l with
    | nil => exact Or.inr ⟨a, List.mem_cons_self, h⟩
    | cons b t =>
      simp only [between, List.mem_append, List.mem_cons] at h
      rcases h with h | h | h
      · exact Or.inr ⟨a, List.mem_cons_self, h⟩
      · exact Or.inl h
      · rcases ih h with e | ⟨p, hp, hc⟩
        · exact Or.inl e
        · exact Or.inr ⟨p, List.mem_cons_of_mem _ hp, hc⟩

theorem decimal_digits (n : Nat) : ∀ c ∈ decimal n, c ∈ b!"0123456789" := by
  have one : ∀ k < 10, 48 + k.toUInt8 ∈ b!"0123456789" := by decide +kernel
  induction n using Nat.strongRecOn with
  | ind n ih =>
    intro c hc
    unfold decimal at hc
    split at hc
    · rename_i h
      rw [List.mem_singleton.1 hc]; exact one n h
    · rcases List.mem_append.1 hc with h | h
      · exact ih (n / 10) (by omega) c h
      · rw [List.mem_singleton.1 h]; exact one _ (Nat.mod_lt _ (by omega))

theorem decimal_length (n : Nat) : 1 ≤ (decimal n).length := by
  unfold decimal; split <;> simp

theorem taken_iff (s : Str) : IP [s] = some [s] ↔ AddressLike s := by
  rw [← isValidIP_iff]
  cases s with
  | nil => simp [IP, ipSet, isValidIP, isV4, isV6]
  | cons a s =>
    by_cases h : isValidIP (a :: s) = true <;> simp [IP, ipSet, unique, Misc.strInSlice, h]

theorem octet_v4 {s : Str} (h : Octet s) : 1 ≤ s.length ∧ ∀ c ∈ s, c ∈ v4Chars := by
  obtain ⟨n, -, rfl⟩ := h
  have sub : ∀ c ∈ b!"0123456789", c ∈ v4Chars := by decide +kernel
  exact ⟨decimal_length n, fun c hc => sub c (decimal_digits n c hc)⟩

theorem between_v4 {l : List Str} (h : ∀ p ∈ l, ∀ c ∈ p, c ∈ v4Chars) : ∀ c ∈ between 46 l, c ∈ v4Chars := by
  intro c hc
  rcases mem_between hc with rfl | ⟨p, hp, hc⟩
  · decide +kernel
  · exact h p hp c hc

theorem between_v6 {l : List Str} (h : ∀ g ∈ l, Group g) : ∀ c ∈ between 58 l, c ∈ v6Chars := by
  have sub : ∀ c ∈ b!"0123456789abcdefABCDEF", c ∈ v6Chars := by decide +kernel
  intro c hc
  rcases mem_between hc with rfl | ⟨p, hp, hc⟩
  · decide +kernel
  · exact sub c ((h p hp).2.2 c hc)

/-- More than one text has something between. -/
theorem sep_mem (sep : Byte) (a b : Str) (t : List Str) : sep ∈ between sep (a :: b :: t) := by
  simp [between]

theorem v4_like {s : Str} (h : V4 s) : 2 ≤ s.length ∧ (∀ c ∈ s, c ∈ v4Chars) ∧ (46 : Byte) ∈ s := by
  obtain ⟨a, b, c, d, ha, hb, hc, hd, rfl⟩ := h
  refine ⟨?_, between_v4 ?_, sep_mem _ _ _ _⟩
  · simp only [between, List.length_append, List.length_cons]; omega
  · intro p hp
    simp only [List.mem_cons, List.not_mem_nil, or_false] at hp
    rcases hp with rfl | rfl | rfl | rfl
    · exact (octet_v4 ha).2
    · exact (octet_v4 hb).2
    · exact (octet_v4 hc).2
    · exact (octet_v4 hd).2

theorem v6_like {s : Str} (h : V6 s) : 2 ≤ s.length ∧ (∀ c ∈ s, c ∈ v6Chars) ∧ (58 : Byte) ∈ s := by
  rcases h with ⟨l, hl, hg, rfl⟩ | ⟨l, m, -, hl, hm, rfl⟩
  · match l, hl with
    | a :: b :: t, _ =>
      refine ⟨?_, between_v6 hg, sep_mem _ _ _ _⟩
      have := (hg a List.mem_cons_self).1
      simp only [between, List.length_append, List.length_cons]; omega
  · refine ⟨?_, ?_, by simp⟩
    · simp only [List.length_append, List.length_cons]; omega
    · intro c hc
      simp only [List.mem_append] at hc
      rcases hc with (hc | hc) | hc
      · exact between_v6 hl c hc
      · revert c; decide +kernel
      · exact between_v6 hm c hc

theorem mixed_both {s : Str} (h : Mixed s) : (46 : Byte) ∈ s ∧ (58 : Byte) ∈ s := by
  have last : ∀ (l : List Str) (a : Str), ∀ c ∈ a, c ∈ between 58 (l ++ [a]) := by
    intro l
    induction l with
    | nil => intro a c hc; exact hc
    | cons b l ih =>
      intro a c hc
      have := ih a c hc
      cases l with
      | nil => simp only [List.nil_append, List.cons_append, between, List.mem_append, List.mem_cons] at this ⊢; exact Or.inr (Or.inr this)
      | cons d l => simp only [List.cons_append, between, List.mem_append, List.mem_cons] at this ⊢; exact Or.inr (Or.inr this)
  obtain ⟨l, a, -, ha, ⟨hl, rfl⟩ | ⟨m, -, -, rfl⟩⟩ := h
  · refine ⟨last l a 46 (v4_like ha).2.2, ?_⟩
    match l, hl with
    | b :: d :: t, _ => exact sep_mem _ _ _ _
  · refine ⟨List.mem_append_right _ (last m a 46 (v4_like ha).2.2), by simp⟩

theorem network_like {s : Str} (h : Network s) : AddressLike s ∧ ((46 : Byte) ∈ s ∨ (58 : Byte) ∈ s) := by
  have d4 : ∀ c ∈ b!"0123456789", c ∈ v4Chars := by decide +kernel
  have d6 : ∀ c ∈ b!"0123456789", c ∈ v6Chars := by decide +kernel
  rcases h with ⟨a, n, ha, -, rfl⟩ | ⟨a, n, ha, -, rfl⟩
  · obtain ⟨h1, h2, h3⟩ := v4_like ha
    refine ⟨⟨by simp only [List.length_append]; omega, Or.inl fun c hc => ?_⟩, Or.inl (List.mem_append_left _ h3)⟩
    rcases List.mem_append.1 hc with hc | hc
    · exact h2 c hc
    · rcases List.mem_cons.1 hc with rfl | hc
      · decide +kernel
      · exact d4 c (decimal_digits n c hc)
  · obtain ⟨h1, h2, h3⟩ := v6_like ha
    refine ⟨⟨by simp only [List.length_append]; omega, Or.inr fun c hc => ?_⟩, Or.inr (List.mem_append_left _ h3)⟩
    rcases List.mem_append.1 hc with hc | hc
    · exact h2 c hc
    · rcases List.mem_cons.1 hc with rfl | hc
      · decide +kernel
      · exact d6 c (decimal_digits n c hc)

theorem pattern_like {s : Str} (h : Pattern s) : AddressLike s ∧ (46 : Byte) ∈ s := by
  obtain ⟨l, hl, h⟩ := h
  have hc : ∀ p ∈ l, 1 ≤ p.length ∧ ∀ c ∈ p, c ∈ v4Chars := by
    intro p hp
    rcases hl p hp with rfl | h
    · decide +kernel
    · exact octet_v4 h
  have hb := between_v4 fun p hp => (hc p hp).2
  rcases h with ⟨h2, -, rfl⟩ | ⟨h1, -, rfl⟩
  · match l, h2 with
    | a :: b :: t, _ =>
      have := (hc a List.mem_cons_self).1
      exact ⟨⟨by simp only [between, List.length_append, List.length_cons]; omega, Or.inl hb⟩, sep_mem _ _ _ _⟩
  · refine ⟨⟨?_, Or.inl fun c hc => ?_⟩, by simp⟩
    · match l, h1 with
      | [a], _ => have := (hc a List.mem_cons_self).1; simp only [between, List.length_append, List.length_cons, List.length_nil]; omega
      | a :: b :: t, _ => simp only [between, List.length_append, List.length_cons, List.length_nil]; omega
    · rcases List.mem_append.1 hc with hc | hc
      · exact hb c hc
      · rw [List.mem_singleton.1 hc]; decide +kernel

theorem both_refused {s : Str} (h4 : (46 : Byte) ∈ s) (h6 : (58 : Byte) ∈ s) : ¬ AddressLike s := by
  rintro ⟨-, h | h⟩
  · exact absurd (h 58 h6) (by decide +kernel)
  · exact absurd (h 46 h4) (by decide +kernel)

/-- **C144** fails in both directions: an IPv6 address that ends with an IPv4 address is refused, and
two slashes are taken. -/
theorem C144_counterexample : ¬ EveryAddressTaken ∧ ¬ OnlyAddressesTaken := by
  constructor
  · intro h
    have hm : Mixed b!"::ffff:10.0.0.1" :=
      ⟨[], b!"10.0.0.1", (fun g hg => absurd hg (by simp)), ⟨b!"10", b!"0", b!"0", b!"1", ⟨10, by decide +kernel, by decide +kernel⟩, ⟨0, by decide +kernel, by decide +kernel⟩,
        ⟨0, by decide +kernel, by decide +kernel⟩, ⟨1, by decide +kernel, by decide +kernel⟩, rfl⟩, Or.inr ⟨[b!"ffff"], by decide +kernel, by decide +kernel, by decide +kernel⟩⟩
    have := (taken_iff _).1 (h _ (Or.inr (Or.inr (Or.inl hm))))
    exact both_refused (by decide +kernel) (by decide +kernel) this
  · intro h
    have hs : ∀ s, Address s → (46 : Byte) ∈ s ∨ (58 : Byte) ∈ s := by
      rintro s (h | h | h | h | h)
      · exact Or.inl (v4_like h).2.2
      · exact Or.inr (v6_like h).2.2
      · exact Or.inl (mixed_both h).1
      · exact (network_like h).2
      · exact Or.inl (pattern_like h).2
    exact absurd (hs _ (h b!"//" (by decide +kernel))) (by decide +kernel)

/-- **C144**: all addresses without the mixed notation are taken.  Missing: the mixed notation. -/
theorem C144_taken_partial (s : Str) (h : V4 s ∨ V6 s ∨ Network s ∨ Pattern s) : IP [s] = some [s] := by
  rw [taken_iff]
  rcases h with h | h | h | h
  · exact ⟨(v4_like h).1, Or.inl (v4_like h).2.1⟩
  · exact ⟨(v6_like h).1, Or.inr (v6_like h).2.1⟩
  · exact (network_like h).1
  · exact (pattern_like h).1

/-- **C144** for lists: different addresses are all taken, in their order, and printed with commas
between, and read from this text as a value of a bind rule.  Missing: the mixed notation. -/
theorem C144_list_partial (l : List Str) (hne : l ≠ []) (hd : l.Nodup)
    (h : ∀ s ∈ l, V4 s ∨ V6 s ∨ Network s ∨ Pattern s) :
    IP l = some l ∧ IPAddr.valid (IP l) = true ∧ IPAddr.string (IP l) = between 44 l ∧
      assertBindIP [between 44 l] = .ok (some l) := by
  have like : ∀ s ∈ l, isValidIP s = true := fun s hs =>
    (isValidIP_iff s).2 ((taken_iff s).1 (C144_taken_partial s (h s hs)))
  have key : ∀ (x r : List Str), (r ++ x).Nodup → (∀ s ∈ x, isValidIP s = true) → ipSet r x = r ++ x := by
    intro x
    induction x with
    | nil => intro r _ _; simp [ipSet]
    | cons a x ih =>
      intro r hn hv
      have ha := hv a List.mem_cons_self
      have hl : 0 < a.length := by
        cases a with
        | nil => revert ha; decide +kernel
        | cons b a => simp
      have hu : unique r a = true := by
        have hnot : a ∉ r := fun hm => (List.nodup_append.1 hn).2.2 a hm a List.mem_cons_self rfl
        have hs : ∀ r : List Str, a ∉ r → Misc.strInSlice a r = false := by
          intro r
          induction r with
          | nil => intro _; rfl
          | cons b r ih => intro h; simp only [List.mem_cons, not_or] at h; simp [Misc.strInSlice, h.1, ih h.2]
        simp [unique, hs r hnot]
      simp only [ipSet, hl, hu, ha]
      have := ih (r ++ [a]) (by simpa using hn) fun s hs => hv s (List.mem_cons_of_mem _ hs)
      simpa using this
  have e : IP l = some l := by
    show some (ipSet [] l) = some l
    rw [key l [] (by simpa using hd) like]; rfl
  have hv : IPAddr.valid (some l) = true := (C23_valid (some l)).1.2 hne
  have hj : ∀ l : List Str, Str.join b!"," l = between 44 l := by
    intro l
    induction l with
    | nil => rfl
    | cons a l ih =>
      cases l with
      | nil => rfl
      | cons b t => simp only [Str.join, between, ih, List.append_assoc]; rfl
  refine ⟨e, by rw [e]; exact hv, ?_, ?_⟩
  · rw [e, (C23_valid (some l)).2 hv]
    exact hj l
  · have al : ∀ s ∈ l, AddressLike s := fun s hs => (isValidIP_iff s).1 (like s hs)
    obtain ⟨h1, h2⟩ := Back.address_plain al
    rw [← hj l]
    refine (C23_bind_value _ _).2 ⟨_, l, Back.inside_plain h1 h2, ?_, hd, al, rfl⟩
    refine Str.split1_join hne fun s hs hc => ?_
    rcases (al s hs).2 with h | h
    · exact absurd (h _ hc) (by decide +kernel)
    · exact absurd (h _ hc) (by decide +kernel)

/-- **C144**: the mixed notation is never taken, and leaves a list as it is. -/
theorem C144_mixed (s : Str) (h : Mixed s) (r : List Str) : IPAddr.set (some r) [s] = some r := by
  have := both_refused (mixed_both h).1 (mixed_both h).2
  rw [← isValidIP_iff] at this
  simp [IPAddr.set, ipSet, this]

/-- **C144**, the other direction: what is taken is written with the characters of addresses, and
never with dots and colons.  Missing: that the numbers are numbers of addresses. -/
theorem C144_only_partial (s : Str) (h : IP [s] = some [s]) :
    2 ≤ s.length ∧ (∀ c ∈ s, c ∈ b!"0123456789abcdefABCDEF.:*/") ∧ ¬ ((46 : Byte) ∈ s ∧ (58 : Byte) ∈ s) := by
  have like := (taken_iff s).1 h
  have s4 : ∀ c ∈ v4Chars, c ∈ b!"0123456789abcdefABCDEF.:*/" := by decide +kernel
  have s6 : ∀ c ∈ v6Chars, c ∈ b!"0123456789abcdefABCDEF.:*/" := by decide +kernel
  refine ⟨like.1, fun c hc => ?_, fun hb => both_refused hb.1 hb.2 like⟩
  rcases like.2 with h | h
  · exact s4 c (h c hc)
  · exact s6 c (h c hc)

/-! ## Cases that meet the hypotheses -/

example : V4 b!"192.168.0.255" :=
  ⟨b!"192", b!"168", b!"0", b!"255", ⟨192, by decide +kernel, by decide +kernel⟩, ⟨168, by decide +kernel, by decide +kernel⟩,
    ⟨0, by decide +kernel, by decide +kernel⟩, ⟨255, by decide +kernel, by decide +kernel⟩, rfl⟩

example : V6 b!"fe80::1" := Or.inr ⟨[b!"fe80"], [b!"1"], by decide +kernel, by decide +kernel, by decide +kernel, rfl⟩

example : V6 b!"2001:db8:0:0:0:0:0:1" :=
  Or.inl ⟨[b!"2001", b!"db8", b!"0", b!"0", b!"0", b!"0", b!"0", b!"1"], by decide +kernel, by decide +kernel, rfl⟩

example : Network b!"10.0.0.0/8" :=
  Or.inl ⟨b!"10.0.0.0", 8, ⟨b!"10", b!"0", b!"0", b!"0", ⟨10, by decide +kernel, by decide +kernel⟩, ⟨0, by decide +kernel, by decide +kernel⟩,
    ⟨0, by decide +kernel, by decide +kernel⟩, ⟨0, by decide +kernel, by decide +kernel⟩, rfl⟩, by decide +kernel, by decide +kernel⟩

example : Pattern b!"12.3.45.*" ∧ Pattern b!"10." := by
  have o : ∀ n, n ≤ 255 → Octet (decimal n) := fun n h => ⟨n, h, rfl⟩
  have e12 : decimal 12 = b!"12" := by decide +kernel
  have e3 : decimal 3 = b!"3" := by decide +kernel
  have e45 : decimal 45 = b!"45" := by decide +kernel
  have e10 : decimal 10 = b!"10" := by decide +kernel
  refine ⟨⟨[b!"12", b!"3", b!"45", b!"*"], ?_, Or.inl ⟨by decide +kernel, by decide +kernel, rfl⟩⟩, ⟨[b!"10"], ?_, Or.inr ⟨by decide +kernel, by decide +kernel, rfl⟩⟩⟩
  · intro p hp
    simp only [List.mem_cons, List.not_mem_nil, or_false] at hp
    rcases hp with rfl | rfl | rfl | rfl
    · exact Or.inr (e12 ▸ o 12 (by decide))
    · exact Or.inr (e3 ▸ o 3 (by decide))
    · exact Or.inr (e45 ▸ o 45 (by decide))
    · exact Or.inl rfl
  · intro p hp
    rw [List.mem_singleton.1 hp]
    exact Or.inr (e10 ▸ o 10 (by decide +kernel))

example : IP [b!"//", b!"10.0.0.1", b!"::ffff:10.0.0.1"] = some [b!"//", b!"10.0.0.1"] := by decide +kernel

end Verif.Addr
