import Verif.Model.Net
import Verif.Spec.Net
import Verif.Lemmas.Byte
import Verif.Lemmas.Str

/-!
# Addresses and host names
-/

namespace Verif.Net
open Verif Verif.Spec

/-! ## Addresses -/

theorem strInSlice_iff (s : Str) (l : List Str) : Misc.strInSlice s l = true ↔ s ∈ l := by
  induction l with
  | nil => simp [Misc.strInSlice]
  | cons a t ih =>
    rw [Misc.strInSlice]
    by_cases h : s = a
    · simp [h]
    · simp [h, ih]

theorem v4_char : ∀ c : Byte, isValidV4Char (lowFirst c) = true ↔ c ∈ v4Chars := by decide +kernel

theorem v6_char : ∀ c : Byte, isValidV6Char (lowFirst c) = true ↔ c ∈ v6Chars := by decide +kernel

theorem isValidIP_iff (x : Str) : isValidIP x = true ↔ AddressLike x := by
  unfold isValidIP isV4 isV6 AddressLike
  by_cases h : x.length ≤ 1
  · simp [h]; omega
  · simp [h, v4_char, v6_char]; omega

theorem nubs_mem (l : List Str) (a : Str) : a ∈ nubs l ↔ a ∈ l := by
  induction l with
  | nil => simp [nubs]
  | cons b t ih =>
    simp only [nubs, List.mem_cons, List.mem_filter, ih, decide_eq_true_eq]
    by_cases h : a = b <;> simp [h]

theorem nubs_nodup (l : List Str) : (nubs l).Nodup := by
  induction l with
  | nil => simp [nubs]
  | cons b t ih =>
    rw [nubs, List.nodup_cons]
    exact ⟨by simp, ih.filter _⟩

theorem nubs_length (l : List Str) : (nubs l).length ≤ l.length := by
  induction l with
  | nil => simp [nubs]
  | cons b t ih =>
    have := List.length_filter_le (fun x => decide (x ≠ b)) (nubs t)
    simp only [nubs, List.length_cons]; omega

theorem nubs_eq_self (l : List Str) (h : (nubs l).length = l.length) : nubs l = l := by
  induction l with
  | nil => rfl
  | cons b t ih =>
    have h1 := List.length_filter_le (fun x => decide (x ≠ b)) (nubs t)
    have h2 := nubs_length t
    simp only [nubs, List.length_cons, Nat.add_right_cancel_iff] at h ⊢
    have ht := ih (by omega)
    have e : (nubs t).filter (fun x => decide (x ≠ b)) = nubs t := by
      apply List.filter_eq_self.2
      intro a ha
      have := List.length_filter_eq_length_iff.1 (h.trans (by rw [ht]) : _ = (nubs t).length)
      exact this a ha
    rw [e, ht]

theorem nubs_of_nodup {l : List Str} (h : l.Nodup) : nubs l = l := by
  induction l with
  | nil => rfl
  | cons b t ih =>
    rw [List.nodup_cons] at h
    rw [nubs, ih h.2]
    congr 1
    apply List.filter_eq_self.2
    intro a ha
    simp only [decide_eq_true_eq]
    rintro rfl; exact h.1 ha

theorem ipSet_eq (r l : List Str) :
    ipSet r l = r ++ (nubs (l.filter fun x => decide (AddressLike x))).filter (fun x => decide (x ∉ r)) := by
  induction l generalizing r with
  | nil => simp [ipSet, nubs]
  | cons a t ih =>
    rw [ipSet]
    by_cases ha : AddressLike a
    · have hv := (isValidIP_iff a).2 ha
      have hl : 0 < a.length := by have := ha.1; omega
      rw [List.filter_cons_of_pos (by simpa using ha), nubs]
      by_cases hm : a ∈ r
      · have hu : unique r a = false := by simp [unique, (strInSlice_iff a r).2 hm]
        simp only [hu, Bool.and_false, Bool.false_eq_true, if_false]
        rw [ih, List.filter_cons_of_neg (by simpa using hm), List.filter_filter]
        congr 1
        apply List.filter_congr
        intro x _
        by_cases hx : x ∈ r
        · simp [hx]
        · have : x ≠ a := by rintro rfl; exact hx hm
          simp [hx, this]
      · have hu : unique r a = true := by
          simp only [unique, Bool.not_eq_true']
          cases h : Misc.strInSlice a r with
          | false => rfl
          | true => exact absurd ((strInSlice_iff a r).1 h) hm
        simp only [hu, hl, decide_true, Bool.and_self, if_true, hv]
        rw [ih, List.filter_cons_of_pos (by simpa using hm), List.filter_filter,
          List.append_assoc, List.singleton_append]
        congr 2
        apply List.filter_congr
        intro x _
        exact Bool.eq_iff_iff.2 (by simp [not_or])
    · have hv : isValidIP a = false := by
        cases h : isValidIP a with
        | false => rfl
        | true => exact absurd ((isValidIP_iff a).1 h) ha
      rw [List.filter_cons_of_neg (by simpa using ha)]
      simp only [hv, Bool.false_eq_true, if_false, ite_self, ih]

theorem ipSet_append (r a b : List Str) : ipSet r (a ++ b) = ipSet (ipSet r a) b := by
  induction a generalizing r with
  | nil => rfl
  | cons x a ih =>
    simp only [List.cons_append, ipSet]
    split
    · split <;> exact ih _
    · exact ih _

theorem ipSet_nil (l : List Str) :
    ipSet [] l = nubs (l.filter fun x => decide (AddressLike x)) := by
  rw [ipSet_eq]
  simp

theorem set_foldl (r : IPAddr) (calls : List (List Str)) :
    (calls.foldl IPAddr.set r).getD [] = ipSet (r.getD []) calls.flatten := by
  induction calls generalizing r with
  | nil => simp [ipSet]
  | cons a calls ih =>
    rw [List.foldl_cons, ih, List.flatten_cons, ipSet_append]; rfl

theorem setEach_eq (r : IPAddr) (l : List Str) : (setEach r l).getD [] = ipSet (r.getD []) l := by
  induction l generalizing r with
  | nil => simp [setEach, ipSet]
  | cons a l ih =>
    rw [setEach, ih]
    show ipSet (ipSet (r.getD []) [a]) l = _
    rw [← ipSet_append]; rfl

theorem setEach_some (r : IPAddr) (l : List Str) (h : l ≠ []) : ∃ x, setEach r l = some x := by
  induction l generalizing r with
  | nil => exact absurd rfl h
  | cons a l ih =>
    rw [setEach]
    cases l with
    | nil => exact ⟨_, rfl⟩
    | cons b l => exact ih _ (by simp)

/-! ## Labels -/

/-- The characters allowed in an argument of `Set`. -/
def Chars (s : Str) : Prop :=
  ∀ c ∈ s, LatinLetter c ∨ (48 ≤ c ∧ c ≤ 57) ∨ c = 42 ∨ c = 45 ∨ c = 46

theorem label_char : ∀ c : Byte,
    (!Misc.isDigit c && !Misc.isLetter c && c != 46 && c != 42 && c != 45) = true ↔
      ¬ (LatinLetter c ∨ (48 ≤ c ∧ c ≤ 57) ∨ c = 42 ∨ c = 45 ∨ c = 46) := by decide +kernel

theorem labelCharsOK_iff (c : Byte) (i l : Nat) : labelCharsOK c i l = true ↔
    (LatinLetter c ∨ (48 ≤ c ∧ c ≤ 57) ∨ c = 42 ∨ c = 45 ∨ c = 46) ∧
      (c = 45 → i ≠ 0 ∧ i ≠ l) := by
  unfold labelCharsOK
  by_cases h1 : (!Misc.isDigit c && !Misc.isLetter c && c != 46 && c != 42 && c != 45) = true
  · rw [if_pos h1]
    have := (label_char c).1 h1
    simp [this]
  · rw [if_neg h1]
    have h1' := Decidable.not_not.1 fun h => h1 ((label_char c).2 h)
    by_cases h2 : c = 45 ∧ (i = 0 ∨ i = l)
    · rw [if_pos h2]
      simp only [Bool.false_eq_true, false_iff]
      rintro ⟨-, h⟩
      rcases h2.2 with h0 | h0
      · exact (h h2.1).1 h0
      · exact (h h2.1).2 h0
    · rw [if_neg h2]
      simp only [true_iff]
      refine ⟨h1', fun hc => ?_⟩
      have : ¬ (i = 0 ∨ i = l) := fun h => h2 ⟨hc, h⟩
      exact not_or.1 this

theorem labelLoop_iff (l i : Nat) (s : Str) : labelLoop l i s = true ↔
    ∀ j (h : j < s.length), labelCharsOK s[j] (i + j) l = true := by
  induction s generalizing i with
  | nil => simp [labelLoop]
  | cons c t ih =>
    rw [labelLoop]
    by_cases hc : labelCharsOK c i l = true
    · simp only [hc, Bool.not_true, Bool.false_eq_true, if_false, ih]
      constructor
      · intro h j hj
        cases j with
        | zero => simpa using hc
        | succ j =>
          have := h j (by simpa using hj)
          simpa [Nat.add_assoc, Nat.add_comm 1 j] using this
      · intro h j hj
        have := h (j + 1) (by simpa using hj)
        simpa [Nat.add_assoc, Nat.add_comm 1 j] using this
    · simp only [Bool.not_eq_true] at hc
      simp only [hc, Bool.not_false, if_true, Bool.false_eq_true, false_iff]
      intro h
      have := h 0 (by simp)
      simp [hc] at this

theorem validLabel_iff (s : Str) : validLabel s = true ↔
    0 < s.length ∧ s.length ≤ 63 ∧ Chars s ∧ s.head? ≠ some 45 ∧ s.getLast? ≠ some 45 := by
  unfold validLabel labelMax
  by_cases hl : 0 < s.length ∧ s.length ≤ 63
  · simp only [hl.1, hl.2, decide_true, Bool.and_self, Bool.not_true, Bool.false_eq_true, if_false,
      labelLoop_iff, labelCharsOK_iff, Nat.zero_add, true_and]
    constructor
    · intro h
      refine ⟨fun c hc => ?_, fun hh => ?_, fun hh => ?_⟩
      · obtain ⟨j, hj, rfl⟩ := List.getElem_of_mem hc
        exact (h j hj).1
      · rw [List.head?_eq_getElem?, List.getElem?_eq_some_iff] at hh
        obtain ⟨h0, e⟩ := hh
        exact ((h 0 h0).2 e).1 rfl
      · rw [List.getLast?_eq_getElem?, List.getElem?_eq_some_iff] at hh
        obtain ⟨h0, e⟩ := hh
        exact ((h _ h0).2 e).2 rfl
    · rintro ⟨h1, h2, h3⟩ j hj
      refine ⟨h1 _ (List.getElem_mem hj), fun e => ⟨?_, ?_⟩⟩
      · rintro rfl
        exact h2 (by rw [List.head?_eq_getElem?, List.getElem?_eq_some_iff]; exact ⟨hj, e⟩)
      · rintro rfl
        exact h3 (by rw [List.getLast?_eq_getElem?, List.getElem?_eq_some_iff]; exact ⟨hj, e⟩)
  · have : (decide (0 < s.length) && decide (s.length ≤ 63)) = false := by
      simp only [Bool.and_eq_false_imp, decide_eq_true_eq, decide_eq_false_iff_not]
      exact fun h h' => hl ⟨h, h'⟩
    rw [this]
    simp only [Bool.not_false, if_true, Bool.false_eq_true, false_iff]
    exact fun h => hl ⟨h.1, h.2.1⟩

theorem validLabel_part {s : Str} (h : (46 : Byte) ∉ s) :
    validLabel s = true ↔ IsLabel LatinLetter s := by
  rw [validLabel_iff]
  unfold IsLabel Chars
  constructor
  · rintro ⟨h1, h2, h3, h4⟩
    refine ⟨h1, h2, fun c hc => ?_, h4⟩
    have := h3 c hc
    have hne : c ≠ 46 := by rintro rfl; exact h hc
    simpa [hne] using this
  · rintro ⟨h1, h2, h3, h4⟩
    refine ⟨h1, h2, fun c hc => ?_, h4⟩
    rcases h3 c hc with h | h | h | h
    · exact .inl h
    · exact .inr (.inl h)
    · exact .inr (.inr (.inl h))
    · exact .inr (.inr (.inr (.inl h)))

theorem join_head {p : Str} (ps : List Str) (h : p ≠ []) :
    (Str.join [46] (p :: ps)).head? = p.head? := by
  cases ps with
  | nil => rfl
  | cons q ps =>
    obtain ⟨a, t, rfl⟩ := List.exists_cons_of_ne_nil h
    simp [Str.join]

theorem join_last (ps : List Str) (hne : ps ≠ []) (h : ∀ p ∈ ps, p ≠ []) :
    (Str.join [46] ps).getLast? = (ps.getLast hne).getLast? ∧ Str.join [46] ps ≠ [] := by
  induction ps with
  | nil => exact absurd rfl hne
  | cons p ps ih =>
    cases ps with
    | nil => exact ⟨rfl, h p (by simp)⟩
    | cons q ps =>
      have := ih (by simp) (fun x hx => h x (by simp [hx]))
      rw [Str.join, List.getLast_cons (by simp)]
      refine ⟨?_, by simp [h p (by simp)]⟩
      rw [List.getLast?_append, this.1]
      have hq : (q :: ps).getLast (by simp) ≠ [] := h _ (by simp [List.getLast_mem])
      rw [List.getLast?_eq_some_getLast hq]; rfl

theorem join_mem {ps : List Str} {c : Byte} (h : c ∈ Str.join [46] ps) :
    c = 46 ∨ ∃ p ∈ ps, c ∈ p := by
  induction ps with
  | nil => simp [Str.join] at h
  | cons p ps ih =>
    cases ps with
    | nil => exact .inr ⟨p, by simp, h⟩
    | cons q ps =>
      rw [Str.join] at h
      simp only [List.mem_append, List.mem_singleton] at h
      rcases h with (h | h) | h
      · exact .inr ⟨p, by simp, h⟩
      · exact .inl h
      · rcases ih h with h | ⟨x, hx, hc⟩
        · exact .inl h
        · exact .inr ⟨x, by simp [hx], hc⟩

theorem join_length (ps : List Str) : (Str.join [46] ps).length = totalLength ps + (ps.length - 1) := by
  induction ps with
  | nil => rfl
  | cons p ps ih =>
    cases ps with
    | nil => simp [Str.join, totalLength]
    | cons q ps =>
      rw [Str.join, List.length_append, List.length_append, ih]
      simp only [totalLength, List.map_cons, List.sum_cons, List.length_cons, List.length_nil]
      omega

/-- An argument of `Set` that is taken: at most 63 bytes of labels joined by dots. -/
def ArgOK (a : Str) : Prop := a.length ≤ 63 ∧ ∀ p ∈ Str.split1 46 a, IsLabel LatinLetter p

theorem arg_valid {a : Str} (h : ArgOK a) : validLabel a = true := by
  obtain ⟨hl, hp⟩ := h
  have hne := Str.split1_ne_nil 46 a
  have hj := Str.join_split1 46 a
  have hpne : ∀ p ∈ Str.split1 46 a, p ≠ [] := by
    intro p h; have := (hp p h).1; rintro rfl; simp at this
  obtain ⟨p, ps, e⟩ := List.exists_cons_of_ne_nil hne
  have hlast := join_last _ hne hpne
  have hhead := join_head (p := p) ps (hpne p (by rw [e]; simp))
  rw [← e, hj] at hhead
  rw [hj] at hlast
  rw [validLabel_iff]
  refine ⟨List.length_pos_iff.2 hlast.2, hl, ?_, ?_, ?_⟩
  · intro c hc
    rw [← hj] at hc
    rcases join_mem hc with rfl | ⟨x, hx, hcx⟩
    · simp
    · rcases (hp x hx).2.2.1 c hcx with h | h | h | h
      · exact .inl h
      · exact .inr (.inl h)
      · exact .inr (.inr (.inl h))
      · exact .inr (.inr (.inr (.inl h)))
  · rw [hhead]; exact (hp p (by rw [e]; simp)).2.2.2.1
  · rw [hlast.1]; exact (hp _ (List.getLast_mem hne)).2.2.2.2

theorem cut1_none {c : Byte} {s : Str} : Str.cut1 c s = none ↔ c ∉ s := by
  induction s with
  | nil => simp [Str.cut1]
  | cons a t ih =>
    rw [Str.cut1]
    by_cases h : a = c
    · simp [h]
    · rw [if_neg h]
      cases hc : Str.cut1 c t with
      | none => simp only [List.mem_cons, not_or, true_iff]; exact ⟨fun e => h e.symm, ih.1 hc⟩
      | some x =>
        obtain ⟨p, q⟩ := x
        simp only [reduceCtorEq, false_iff, List.mem_cons, not_or, not_and, Decidable.not_not]
        intro _
        exact Classical.byContradiction fun h' => by rw [ih.2 h'] at hc; exact absurd hc (by simp)

theorem processParts_ok (dl : List Str) (c : Nat) (sp : List Str) (h : ∀ s ∈ sp, validLabel s = true) :
    processParts dl c sp = some (dl ++ sp, c + totalLength sp) := by
  induction sp generalizing dl c with
  | nil => simp [processParts, totalLength]
  | cons s sp ih =>
    rw [processParts, if_neg (by simp [h s (by simp)]), ih _ _ (fun x hx => h x (by simp [hx]))]
    simp [totalLength, Nat.add_assoc]

theorem processParts_bad (dl : List Str) (c : Nat) (sp : List Str) (h : ¬ ∀ s ∈ sp, validLabel s = true) :
    processParts dl c sp = none := by
  induction sp generalizing dl c with
  | nil => simp at h
  | cons s sp ih =>
    rw [processParts]
    by_cases hs : validLabel s = true
    · rw [if_neg (by simp [hs])]
      apply ih
      intro h'
      apply h
      intro x hx
      rcases List.mem_cons.1 hx with rfl | hx
      · exact hs
      · exact h' x hx
    · rw [if_pos (by simp [hs])]

theorem totalLength_append (a b : List Str) : totalLength (a ++ b) = totalLength a + totalLength b := by
  simp [totalLength]

theorem parts_valid (a : Str) : (∀ p ∈ Str.split1 46 a, validLabel p = true) ↔
    ∀ p ∈ Str.split1 46 a, IsLabel LatinLetter p :=
  forall₂_congr fun _ hp => validLabel_part (Str.split1_not_mem hp)

theorem processLoop_ok (dl : List Str) (c : Nat) (args : List Str) (h : ∀ a ∈ args, ArgOK a) :
    processLoop dl c args = some (dl ++ labelsOf args, c + totalLength (labelsOf args)) := by
  induction args generalizing dl c with
  | nil => simp [processLoop, labelsOf, totalLength]
  | cons a args ih =>
    have ha := h a (by simp)
    have ih' := fun dl c => ih dl c (fun x hx => h x (by simp [hx]))
    have e : labelsOf (a :: args) = Str.split1 46 a ++ labelsOf args := by simp [labelsOf]
    rw [processLoop, if_neg (by simp [arg_valid ha]), e, totalLength_append]
    cases hc : Str.cut1 46 a with
    | some x =>
      simp only [processParts_ok _ _ _ ((parts_valid a).2 ha.2), ih', List.append_assoc, Nat.add_assoc]
    | none =>
      rw [Str.split1_of_not_mem (cut1_none.1 hc)]
      simp only [ih', List.append_assoc, List.singleton_append]
      simp [totalLength, Nat.add_assoc]

theorem processLoop_bad (dl : List Str) (c : Nat) (args : List Str) (h : ¬ ∀ a ∈ args, ArgOK a) :
    processLoop dl c args = none := by
  induction args generalizing dl c with
  | nil => simp at h
  | cons a args ih =>
    rw [processLoop]
    by_cases hv : validLabel a = true
    · rw [if_neg (by simp [hv])]
      have hlen := ((validLabel_iff a).1 hv).2.1
      cases hc : Str.cut1 46 a with
      | some x =>
        simp only
        by_cases hp : ∀ s ∈ Str.split1 46 a, validLabel s = true
        · rw [processParts_ok _ _ _ hp]
          simp only
          apply ih
          intro h'
          apply h
          intro y hy
          rcases List.mem_cons.1 hy with rfl | hy
          · exact ⟨hlen, (parts_valid y).1 hp⟩
          · exact h' y hy
        · rw [processParts_bad _ _ _ hp]
      | none =>
        simp only
        apply ih
        intro h'
        apply h
        intro y hy
        rcases List.mem_cons.1 hy with rfl | hy
        · refine ⟨hlen, ?_⟩
          have hn := cut1_none.1 hc
          rw [Str.split1_of_not_mem hn]
          intro p hp
          rw [List.mem_singleton.1 hp]
          exact (validLabel_part hn).1 hv
        · exact h' y hy
    · rw [if_pos (by simp [hv])]

instance (a : Str) : Decidable (ArgOK a) := inferInstanceAs (Decidable (_ ∧ _))

/-- `Set` takes all labels or none. -/
theorem labelsSet_eq (r args : List Str) :
    labelsSet r args =
      if (∀ a ∈ args, ArgOK a) ∧ r.length + totalLength (labelsOf args) ≤ 253
      then r ++ labelsOf args else r := by
  unfold labelsSet
  by_cases h0 : args.length = 0
  · rw [if_pos h0]
    have : args = [] := List.length_eq_zero_iff.1 h0
    subst this
    simp [labelsOf]
  · rw [if_neg h0]
    by_cases h : ∀ a ∈ args, ArgOK a
    · have hp : 0 < totalLength (labelsOf args) ∧ 0 < (labelsOf args).length := by
        obtain ⟨a, t, rfl⟩ := List.exists_cons_of_ne_nil (fun e : args = [] => h0 (by rw [e]; rfl))
        obtain ⟨p, ps, e⟩ := List.exists_cons_of_ne_nil (Str.split1_ne_nil 46 a)
        have hl := ((h a (by simp)).2 p (by rw [e]; simp)).1
        have e' : labelsOf (a :: t) = p :: (ps ++ labelsOf t) := by simp [labelsOf, e]
        rw [e']
        simp only [totalLength, List.map_cons, List.sum_cons, List.length_cons]
        omega
      rw [processLabel, processLoop_ok _ _ _ h]
      simp only [List.nil_append, Nat.zero_add, hp.1, hp.2, decide_true, Bool.and_self, if_true]
      show (if r.length + totalLength (labelsOf args) ≤ 253 then r ++ labelsOf args else r) = _
      by_cases hb : r.length + totalLength (labelsOf args) ≤ 253
      · rw [if_pos hb, if_pos ⟨h, hb⟩]
      · rw [if_neg hb, if_neg (fun h => hb h.2)]
    · rw [processLabel, processLoop_bad _ _ _ h, if_neg (fun h' => h h'.1)]

theorem foldl_count (l : List Str) (c : Nat) : l.foldl (fun c _ => c + 1) c = c + l.length := by
  induction l generalizing c with
  | nil => rfl
  | cons a l ih => rw [List.foldl_cons, ih, List.length_cons]; omega

theorem len_square (l : List Str) : FQDN.len (some l) = l.length * l.length := by
  have : ∀ (m : List Str) (c : Nat),
      m.foldl (fun c _ => l.foldl (fun c _ => c + 1) c) c = c + m.length * l.length := by
    intro m
    induction m with
    | nil => intro c; simp
    | cons a m ih =>
      intro c
      rw [List.foldl_cons, ih, foldl_count, List.length_cons, Nat.succ_mul]; omega
  show l.foldl (fun c _ => l.foldl (fun c _ => c + 1) c) 0 = _
  rw [this, Nat.zero_add]

/-- `Valid` looks at the number of labels only. -/
theorem valid_iff (l : List Str) : FQDN.valid (some l) = true ↔ 2 ≤ l.length ∧ l.length ≤ 15 := by
  unfold FQDN.valid
  rw [len_square, fqdnMax, Option.getD_some]
  generalize l.length = n
  by_cases hn : n ≤ 15
  · have : n * n ≤ 225 := Nat.mul_le_mul hn hn
    by_cases h2 : n < 2
    · simp [h2]; omega
    · have : 0 < n * n := Nat.mul_pos (by omega) (by omega)
      have h253 : n * n ≤ 253 := by omega
      simp [h2, this, h253]; omega
  · have : 16 * 16 ≤ n * n := Nat.mul_le_mul (by omega) (by omega)
    have h253 : ¬ n * n ≤ 253 := by omega
    simp [h253]; omega

end Verif.Net
