import Verif.Lemmas.Net
import Verif.Lemmas.Clean
import Verif.Lemmas.Inside

/-!
# C23 to C25, C58: addresses and host names
-/

namespace Verif.Net
open Verif Verif.Spec

/-! ## Addresses -/

/-- The addresses that an `IPAddr` must hold after the given offers. -/
def expected (offered : List Str) : List Str :=
  nubs (offered.filter fun x => decide (AddressLike x))

/-- **C23.** After any calls of `Set`, on a nil `IPAddr` or on one made by `IP`, the
list holds the acceptable addresses among those offered, each once, in the order of
the first offers. -/
theorem C23_history (init : List Str) (calls : List (List Str)) :
    (calls.foldl IPAddr.set none).getD [] = expected calls.flatten ∧
      (calls.foldl IPAddr.set (IP init)).getD [] = expected (init ++ calls.flatten) := by
  rw [set_foldl, set_foldl]
  refine ⟨ipSet_nil _, ?_⟩
  show ipSet (ipSet [] init) calls.flatten = _
  rw [← ipSet_append]; exact ipSet_nil _

private theorem expected_cons (a : Str) (t : List Str) :
    expected (a :: t) =
      if AddressLike a then a :: (expected t).filter (· ≠ a) else expected t := by
  by_cases h : AddressLike a <;> simp [expected, h, nubs]

/-- The specification of **C23** means what it should: no address twice; exactly the
acceptable ones offered; and of two held addresses the one whose first offer was
earlier comes first. -/
theorem C23_expected (offered : List Str) :
    (expected offered).Nodup ∧
    (∀ x, x ∈ expected offered ↔ x ∈ offered ∧ AddressLike x) ∧
    (expected offered).Pairwise (fun a b => offered.idxOf a < offered.idxOf b) := by
  refine ⟨nubs_nodup _, fun x => by simp [expected, nubs_mem], ?_⟩
  have hlike : ∀ l x, x ∈ expected l → AddressLike x := by
    intro l x hx; simp only [expected, nubs_mem, List.mem_filter, decide_eq_true_eq] at hx; exact hx.2
  have idx : ∀ (a x : Str) (t : List Str), x ≠ a → (a :: t).idxOf x = t.idxOf x + 1 := by
    intro a x t h
    have : (a == x) = false := by simpa using Ne.symm h
    simp [List.idxOf_cons, this]
  have shift : ∀ (a : Str) (t l : List Str), (∀ x ∈ l, x ≠ a) →
      l.Pairwise (fun x y => t.idxOf x < t.idxOf y) →
      l.Pairwise (fun x y => (a :: t).idxOf x < (a :: t).idxOf y) := by
    intro a t l hne hp
    refine hp.imp_of_mem ?_
    intro x y hx hy h
    rw [idx _ _ _ (hne x hx), idx _ _ _ (hne y hy)]
    omega
  induction offered with
  | nil => exact .nil
  | cons a t ih =>
    rw [expected_cons]
    by_cases h : AddressLike a
    · rw [if_pos h, List.pairwise_cons]
      have hne : ∀ x ∈ (expected t).filter (· ≠ a), x ≠ a := by
        intro x hx; simp only [List.mem_filter, decide_eq_true_eq] at hx; exact hx.2
      refine ⟨fun b hb => ?_, shift a t _ hne (ih.filter _)⟩
      rw [List.idxOf_cons_self, idx _ _ _ (hne b hb)]
      omega
    · rw [if_neg h]
      exact shift a t _ (fun x hx => by rintro rfl; exact h (hlike t x hx)) ih

/-- **C23.** A list is valid, and can be used in a rule, exactly when it holds an
address, and then its text lists what it holds. -/
theorem C23_valid (r : IPAddr) :
    (IPAddr.valid r = true ↔ r.getD [] ≠ []) ∧
      (IPAddr.valid r = true → IPAddr.string r = Str.join b!"," (r.getD [])) := by
  match r with
  | none => simp [IPAddr.valid]
  | some [] => simp [IPAddr.valid, IPAddr.len]
  | some (a :: l) => exact ⟨by simp [IPAddr.valid, IPAddr.len], fun _ => rfl⟩

/-- **C23**, for the value of a bind rule: it is accepted exactly when, apart from
blanks and quotation marks around it, it is a comma separated list of distinct
acceptable addresses, and these are stored in the order written. -/
theorem C23_bind_value (v : Str) (ex : IPAddr) :
    assertBindIP [v] = .ok ex ↔
      ∃ t l, Inside v t ∧ Str.split1 44 t = l ∧ l.Nodup ∧
        (∀ x ∈ l, AddressLike x) ∧ ex = some l := by
  simp only [inside_iff, exists_and_left, exists_eq_left', assertBindIP]
  generalize hu : Str.split1 44 (Misc.unquote (Misc.condenseWHSP v)) = raw
  have hne : raw ≠ [] := by rw [← hu]; exact Str.split1_ne_nil _ _
  obtain ⟨y, hy⟩ := setEach_some none raw hne
  have hval : y = nubs (raw.filter fun x => decide (AddressLike x)) := by
    have := setEach_eq none raw
    rw [hy] at this
    rw [← ipSet_nil]; exact this
  rw [hy]
  show (if raw.length = y.length then Except.ok (some y) else Except.error ()) = Except.ok ex ↔ _
  constructor
  · intro h
    by_cases hl : raw.length = y.length
    · rw [if_pos hl] at h
      simp only [Except.ok.injEq] at h
      have h1 := nubs_length (raw.filter fun x => decide (AddressLike x))
      have h2 := List.length_filter_le (fun x => decide (AddressLike x)) raw
      rw [← hval] at h1
      have hf : raw.filter (fun x => decide (AddressLike x)) = raw := by
        apply List.filter_eq_self.2
        have := List.length_filter_eq_length_iff.1
          (show (raw.filter fun x => decide (AddressLike x)).length = raw.length by omega)
        exact this
      rw [hf] at hval
      have hs : y = raw := by rw [hval]; exact nubs_eq_self raw (by rw [← hval]; exact hl.symm)
      refine ⟨?_, ?_, by rw [← h, hs]⟩
      · rw [← hs, hval]; exact nubs_nodup raw
      · intro x hx
        have := List.filter_eq_self.1 hf x hx
        simpa using this
    · rw [if_neg hl] at h; exact absurd h (by simp)
  · rintro ⟨hnd, hall, rfl⟩
    have hf : raw.filter (fun x => decide (AddressLike x)) = raw :=
      List.filter_eq_self.2 fun x hx => by simpa using hall x hx
    rw [hf, nubs_of_nodup hnd] at hval
    rw [hval, if_pos rfl]

example : expected [b!"10.0.0.1", b!"host", b!"fe80::1", b!"10.0.0.1"] = [b!"10.0.0.1", b!"fe80::1"] := by
  decide +kernel

example : (assertBindIP [b!"\"10.*,fe80::1\""]).toOption = some (some [b!"10.*", b!"fe80::1"]) ∧
    (assertBindIP [b!"10.*,10.*"]).toOption = none := by decide +kernel

/-! ## Host names -/

/-- Host names made by `DNS` or from nil, and any calls of `Set` after this. -/
inductive Reachable : FQDN → Prop
  | null : Reachable none
  | dns (args) : Reachable (DNS args)
  | set (r args) : Reachable r → Reachable (FQDN.set r args)

/-- **C24.** One call of `Set` appends all labels of all its arguments, or leaves the
labels as they are.  The first is the case exactly when every argument is at most 63
bytes long and consists of labels joined by dots, and the number of labels held plus
the number of characters offered is at most 253. -/
theorem C24_all_or_nothing (r : FQDN) (args : List Str) :
    (((∀ a ∈ args, a.length ≤ 63 ∧ ∀ p ∈ Str.split1 46 a, IsLabel LatinLetter p) ∧
        (r.getD []).length + totalLength (labelsOf args) ≤ 253) →
      (FQDN.set r args).getD [] = r.getD [] ++ labelsOf args) ∧
    (¬ ((∀ a ∈ args, a.length ≤ 63 ∧ ∀ p ∈ Str.split1 46 a, IsLabel LatinLetter p) ∧
        (r.getD []).length + totalLength (labelsOf args) ≤ 253) →
      (FQDN.set r args).getD [] = r.getD []) := by
  have e : (FQDN.set r args).getD [] = labelsSet (r.getD []) args := rfl
  rw [e, labelsSet_eq]
  exact ⟨fun h => if_pos h, fun h => if_neg h⟩

private theorem reachable_labels {r : FQDN} (h : Reachable r) :
    ∀ p ∈ r.getD [], IsLabel LatinLetter p := by
  have step : ∀ (r : FQDN) (args : List Str), (∀ p ∈ r.getD [], IsLabel LatinLetter p) →
      ∀ p ∈ (FQDN.set r args).getD [], IsLabel LatinLetter p := by
    intro r args ih p hp
    by_cases hc : ((∀ a ∈ args, a.length ≤ 63 ∧ ∀ p ∈ Str.split1 46 a, IsLabel LatinLetter p) ∧
        (r.getD []).length + totalLength (labelsOf args) ≤ 253)
    · rw [(C24_all_or_nothing r args).1 hc] at hp
      rcases List.mem_append.1 hp with hp | hp
      · exact ih p hp
      · simp only [labelsOf, List.mem_flatMap] at hp
        obtain ⟨a, ha, hpa⟩ := hp
        exact (hc.1 a ha).2 p hpa
    · rw [(C24_all_or_nothing r args).2 hc] at hp; exact ih p hp
  induction h with
  | null => simp
  | dns args =>
    unfold DNS
    by_cases h : 0 < args.length
    · rw [if_pos h]; exact step (some []) args (by simp)
    · rw [if_neg h]; simp
  | set r args _ ih => exact step r args ih

/-- What **C24** claims of the labels held, with the letters a-z and A-Z of the
documentation of `Set`. -/
def LabelsDocumented : Prop := ∀ r, Reachable r → ∀ p ∈ r.getD [], IsLabel AsciiLetter p

/-- **C24** does not hold for letters as documented: bytes that are letters in
ISO 8859-1 are taken too. -/
theorem C24_counterexample : ¬ LabelsDocumented := by
  intro h
  have := h (DNS [[0xE9], b!"org"]) (.dns _) [0xE9] (by decide +kernel)
  exact absurd (this.2.2.1 0xE9 (by simp)) (by decide)

/-- **C24** for the labels held, with the letters of ISO 8859-1: in every reachable
host name, every label is 1 to 63 letters, digits, inner hyphens or asterisks.
Missing: that the letters are ASCII, which is false. -/
theorem C24_labels_partial (r : FQDN) (h : Reachable r) :
    ∀ p ∈ r.getD [], IsLabel LatinLetter p := reachable_labels h

example : (DNS [b!"www.example", b!"com"]).getD [] = [b!"www", b!"example", b!"com"] ∧
    (FQDN.set (DNS [b!"www"]) [b!"exa-mple", b!"-com"]).getD [] = [b!"www"] := by decide +kernel

example : (∀ a ∈ [b!"www.example", b!"com"],
    a.length ≤ 63 ∧ ∀ p ∈ Str.split1 46 a, IsLabel LatinLetter p) := by decide +kernel

/-- The first half of **C25**: no accepted host name is longer than 253 characters. -/
def NotTooLong : Prop :=
  ∀ r, Reachable r → FQDN.valid r = true → (FQDN.string r).length ≤ 253

/-- The second half of **C25**: every host name of two or more labels and at most 253
characters is accepted. -/
def EveryNameAccepted : Prop :=
  ∀ l : List Str, 2 ≤ l.length → (∀ p ∈ l, IsLabel AsciiLetter p) →
    (Str.join b!"." l).length ≤ 253 → FQDN.valid (some l) = true

/-- A label of 63 letters. -/
def longLabel : Str := List.replicate 63 97

/-- **C25** does not hold.  Five labels with 253 characters in all are accepted,
though the text has four dots more; sixteen one-letter labels are refused. -/
theorem C25_counterexample : ¬ NotTooLong ∧ ¬ EveryNameAccepted := by
  constructor
  · intro h
    have := h (DNS [longLabel, longLabel, longLabel, longLabel, b!"a"]) (.dns _) (by decide +kernel)
    exact absurd this (by decide +kernel)
  · intro h
    have := h (List.replicate 16 b!"a") (by decide) (by decide +kernel) (by decide +kernel)
    exact absurd this (by decide +kernel)

/-- What does hold for **C25**: a host name is accepted exactly when it has 2 to 15
labels, and then it has at most 15 * 63 + 14 characters; a name of 2 to 15 labels and
at most 253 characters, given label by label, is stored, accepted and printed as it
is.  Missing: the limit of 253 characters, and names of more than 15 labels. -/
theorem C25_partial :
    (∀ l, FQDN.valid (some l) = true ↔ 2 ≤ l.length ∧ l.length ≤ 15) ∧ FQDN.valid none = false ∧
    (∀ r, Reachable r → FQDN.valid r = true → (FQDN.string r).length ≤ 959) ∧
    ∀ l : List Str, 2 ≤ l.length → l.length ≤ 15 → (∀ p ∈ l, IsLabel AsciiLetter p) →
      (Str.join b!"." l).length ≤ 253 →
      FQDN.valid (DNS l) = true ∧ FQDN.string (DNS l) = Str.join b!"." l := by
  refine ⟨valid_iff, by decide, ?_, ?_⟩
  · intro r hr hv
    have hl := reachable_labels hr
    match r, hv, hl with
    | none, hv, _ => exact absurd hv (by decide)
    | some l, hv, hl =>
      have hn := (valid_iff l).1 hv
      rw [FQDN.string, if_neg (by simp [hv]), Option.getD_some, join_length]
      have : ∀ m : List Str, (∀ p ∈ m, p.length ≤ 63) → totalLength m ≤ m.length * 63 := by
        intro m
        induction m with
        | nil => intro _; simp [totalLength]
        | cons p m ih =>
          intro h
          have h1 := ih (fun x hx => h x (by simp [hx]))
          have h2 := h p (by simp)
          simp only [totalLength, List.map_cons, List.sum_cons, List.length_cons] at h1 ⊢
          omega
      have := this l (fun p hp => (hl p hp).2.1)
      omega
  · intro l h2 h15 hp hlen
    have hlat : ∀ p ∈ l, IsLabel LatinLetter p := fun p h => by
      obtain ⟨a, b, c, d⟩ := hp p h
      exact ⟨a, b, fun x hx => (c x hx).imp_left Or.inl, d⟩
    have hdot : ∀ p ∈ l, (46 : Byte) ∉ p := by
      intro p h hd
      have := (hp p h).2.2.1 46 hd
      exact absurd this (by decide)
    have hsp : ∀ p ∈ l, Str.split1 46 p = [p] := fun p h => Str.split1_of_not_mem (hdot p h)
    have hlo : ∀ m : List Str, (∀ p ∈ m, Str.split1 46 p = [p]) → labelsOf m = m := by
      intro m
      induction m with
      | nil => intro _; rfl
      | cons p m ih =>
        intro h
        have e : labelsOf (p :: m) = Str.split1 46 p ++ labelsOf m := by simp [labelsOf]
        rw [e, h p (by simp), ih (fun x hx => h x (by simp [hx]))]; rfl
    have hlabels := hlo l hsp
    rw [join_length] at hlen
    have hset := (C24_all_or_nothing (some []) l).1
      ⟨fun a ha => ⟨(hp a ha).2.1, fun p h => by
          rw [hsp a ha, List.mem_singleton] at h; rw [h]; exact hlat a ha⟩, by
        rw [hlabels]; simp only [Option.getD_some, List.length_nil]; omega⟩
    have hd : DNS l = some l := by
      rw [DNS, if_pos (by omega)]
      rw [hlabels, Option.getD_some, List.nil_append] at hset
      show some (labelsSet [] l) = some l
      exact congrArg some hset
    have hv : FQDN.valid (some l) = true := (valid_iff l).2 ⟨h2, h15⟩
    rw [hd]
    exact ⟨hv, by rw [FQDN.string, if_neg (by simp [hv])]; rfl⟩

example : 2 ≤ [b!"example", b!"com"].length ∧ (∀ p ∈ [b!"example", b!"com"], IsLabel AsciiLetter p) ∧
    (Str.join b!"." [b!"example", b!"com"]).length ≤ 253 := by decide +kernel

/-- What **C58** claims: the value of a dns bind rule is accepted only if it is a host
name of two or more labels. -/
def DnsValueIsName : Prop :=
  ∀ v ex, assertBindDNS [v] = .ok ex → ∃ t, Inside v t ∧
    2 ≤ (Str.split1 46 t).length ∧ (∀ p ∈ Str.split1 46 t, IsLabel LatinLetter p) ∧
    ex = some (Str.split1 46 t)

/-- **C58** does not hold: the text that stands for an invalid host name is accepted,
and gives an empty one. -/
theorem C58_counterexample : ¬ DnsValueIsName := by
  intro h
  have := h badFQDN (some []) (by
    have : (assertBindDNS [badFQDN]).toOption = some (some []) := by decide +kernel
    revert this
    cases assertBindDNS [badFQDN] with
    | error e => intro h; exact absurd h (by simp [Except.toOption])
    | ok x => intro h; simp only [Except.toOption, Option.some.injEq] at h; rw [h])
  obtain ⟨t, ht, h2, -⟩ := this
  rw [inside_iff] at ht
  subst ht
  exact absurd h2 (by decide +kernel)

/-- **C58** for all other values: after removing blanks and quotation marks around
it, the value is accepted exactly when it has 2 to 15 labels joined by dots, in at
most 63 bytes, and then these labels are stored.  Missing: the text
`<invalid_fqdn_or_label>`, for which the claim is false. -/
theorem C58_bind_value_partial (v : Str) (ex : FQDN) (u : Str)
    (hu : Inside v u) (hbad : u ≠ b!"<invalid_fqdn_or_label>") :
    assertBindDNS [v] = .ok ex ↔
      2 ≤ (Str.split1 46 u).length ∧ (Str.split1 46 u).length ≤ 15 ∧ u.length ≤ 63 ∧
      (∀ p ∈ Str.split1 46 u, IsLabel LatinLetter p) ∧ ex = some (Str.split1 46 u) := by
  rw [inside_iff] at hu
  replace hbad : u ≠ badFQDN := hbad
  simp only [assertBindDNS, hu]
  have hl : labelsOf [u] = Str.split1 46 u := by simp [labelsOf]
  have hd : DNS [u] = some (labelsSet [] [u]) := rfl
  have htot : totalLength (Str.split1 46 u) ≤ u.length := by
    have := join_length (Str.split1 46 u)
    rw [Str.join_split1] at this; omega
  by_cases hc : u.length ≤ 63 ∧ ∀ p ∈ Str.split1 46 u, IsLabel LatinLetter p
  · have hset : labelsSet [] [u] = Str.split1 46 u := by
      rw [labelsSet_eq, if_pos, hl, List.nil_append]
      refine ⟨fun a ha => by rw [List.mem_singleton.1 ha]; exact hc, ?_⟩
      rw [hl]; simp only [List.length_nil]; omega
    rw [hd, hset]
    by_cases hv : FQDN.valid (some (Str.split1 46 u)) = true
    · have hs : FQDN.string (some (Str.split1 46 u)) = u := by
        rw [FQDN.string, if_neg (by simp [hv])]
        exact Str.join_split1 46 u
      rw [hs, if_pos rfl]
      have := (valid_iff _).1 hv
      simp only [Except.ok.injEq]
      constructor
      · rintro rfl; exact ⟨this.1, this.2, hc.1, hc.2, rfl⟩
      · rintro ⟨-, -, -, -, rfl⟩; rfl
    · have hs : FQDN.string (some (Str.split1 46 u)) = badFQDN := by
        rw [FQDN.string, if_pos (by simp [hv])]
      rw [hs, if_neg hbad]
      simp only [reduceCtorEq, false_iff]
      rintro ⟨h1, h2, -⟩
      exact hv ((valid_iff _).2 ⟨h1, h2⟩)
  · have hset : labelsSet [] [u] = [] := by
      rw [labelsSet_eq, if_neg]
      rintro ⟨h, -⟩
      exact hc (h u (by simp))
    rw [hd, hset]
    have hs : FQDN.string (some []) = badFQDN := by decide +kernel
    rw [hs, if_neg hbad]
    simp only [reduceCtorEq, false_iff]
    rintro ⟨-, -, h1, h2, -⟩
    exact hc ⟨h1, h2⟩

example : (assertBindDNS [b!"\"*.example.com\""]).toOption =
    some (some [b!"*", b!"example", b!"com"]) := by decide +kernel

end Verif.Net
