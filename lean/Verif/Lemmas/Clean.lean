import Verif.Model.Misc
import Verif.Spec.Clean
import Verif.Lemmas.Byte

/-!
# `strings.TrimSpace`, `condenseWHSP` and `unquote`
-/

namespace Verif
open Verif.Spec Verif.Misc

theorem isSpace1_iff (a : Byte) :
    Str.isSpace1 a = true ↔ a = 9 ∨ a = 10 ∨ a = 11 ∨ a = 12 ∨ a = 13 ∨ a = 32 := by
  revert a; decide +kernel

theorem space_of1 {a : Byte} (h : Str.isSpace1 a = true) : Space [a] :=
  .ascii a ((isSpace1_iff a).1 h)

theorem space_of2 {a b : Byte} (h : Str.isSpace2 a b = true) : Space [a, b] := by
  simp only [Str.isSpace2, Bool.and_eq_true, beq_iff_eq, Bool.or_eq_true] at h
  obtain ⟨rfl, h⟩ := h
  exact .two b h

theorem space_of3 {a b c : Byte} (h : Str.isSpace3 a b c = true) : Space [a, b, c] := by
  simp only [Str.isSpace3, Bool.and_eq_true, beq_iff_eq, Bool.or_eq_true, decide_eq_true_eq] at h
  rcases h with ((⟨⟨rfl, rfl⟩, rfl⟩ | ⟨⟨rfl, rfl⟩, h⟩) | ⟨⟨rfl, rfl⟩, rfl⟩) | ⟨⟨rfl, rfl⟩, rfl⟩
  · exact .ogham
  · refine .general c ?_
    rcases h with ((h | h) | h) | h
    · exact Or.inl h
    · exact Or.inr (Or.inl h)
    · exact Or.inr (Or.inr (Or.inl h))
    · exact Or.inr (Or.inr (Or.inr h))
  · exact .math
  · exact .ideographic

theorem _root_.Verif.Spec.Spaces.append {s t : Str} (hs : Spaces s) (ht : Spaces t) : Spaces (s ++ t) := by
  induction hs with
  | nil => exact ht
  | cons a s ha _ ih => rw [List.append_assoc]; exact .cons a _ ha ih

theorem _root_.Verif.Spec.Blanks.append {s t : Str} (hs : Blanks s) (ht : Blanks t) : Blanks (s ++ t) := by
  induction hs with
  | nil => exact ht
  | space a s ha _ ih => rw [List.append_assoc]; exact .space a _ ha ih
  | lone b s hb _ ih => exact .lone b _ hb ih

theorem _root_.Verif.Spec.Spaces.blanks {s : Str} (h : Spaces s) : Blanks s := by
  induction h with
  | nil => exact .nil
  | cons a s ha _ ih => exact .space a s ha ih

theorem trimLeft_split (s : Str) : ∃ l, Spaces l ∧ s = l ++ Str.trimLeft s := by
  induction s using Str.trimLeft.induct with
  | case1 => exact ⟨[], .nil, rfl⟩
  | case2 a h => exact ⟨[a], .cons [a] [] (space_of1 h) .nil, by simp [Str.trimLeft, h]⟩
  | case3 a h => exact ⟨[], .nil, by simp [Str.trimLeft, h]⟩
  | case4 a b h ih =>
    obtain ⟨l, hl, he⟩ := ih
    refine ⟨a :: l, .cons [a] l (space_of1 h) hl, ?_⟩
    simp only [Str.trimLeft, h, if_true, List.cons_append] at he ⊢
    rw [← he]
  | case5 a b h h2 =>
    exact ⟨[a, b], .cons [a, b] [] (space_of2 h2) .nil, by simp [Str.trimLeft, h, h2]⟩
  | case6 a b h h2 => exact ⟨[], .nil, by simp [Str.trimLeft, h, h2]⟩
  | case7 a b c t h ih =>
    obtain ⟨l, hl, he⟩ := ih
    refine ⟨a :: l, .cons [a] l (space_of1 h) hl, ?_⟩
    rw [Str.trimLeft, if_pos h, List.cons_append, ← he]
  | case8 a b c t h h2 ih =>
    obtain ⟨l, hl, he⟩ := ih
    refine ⟨a :: b :: l, .cons [a, b] l (space_of2 h2) hl, ?_⟩
    rw [Str.trimLeft, if_neg h, if_pos h2, List.cons_append, List.cons_append, ← he]
  | case9 a b c t h h2 h3 ih =>
    obtain ⟨l, hl, he⟩ := ih
    refine ⟨a :: b :: c :: l, .cons [a, b, c] l (space_of3 h3) hl, ?_⟩
    rw [Str.trimLeft, if_neg h, if_neg h2, if_pos h3, List.cons_append, List.cons_append,
      List.cons_append, ← he]
  | case10 a b c t h h2 h3 =>
    exact ⟨[], .nil, by rw [Str.trimLeft, if_neg h, if_neg h2, if_neg h3]; rfl⟩

theorem trimLeftRev_split (s : Str) : ∃ l, Spaces l ∧ s = l.reverse ++ Str.trimLeftRev s := by
  induction s using Str.trimLeftRev.induct with
  | case1 => exact ⟨[], .nil, rfl⟩
  | case2 a h => exact ⟨[a], .cons [a] [] (space_of1 h) .nil, by simp [Str.trimLeftRev, h]⟩
  | case3 a h => exact ⟨[], .nil, by simp [Str.trimLeftRev, h]⟩
  | case4 a b h ih =>
    obtain ⟨l, hl, he⟩ := ih
    refine ⟨l ++ [a], hl.append (.cons [a] [] (space_of1 h) .nil), ?_⟩
    simp only [Str.trimLeftRev, h, if_true, List.reverse_append, List.reverse_cons,
      List.reverse_nil, List.nil_append, List.cons_append] at he ⊢
    rw [← he]
  | case5 a b h h2 =>
    exact ⟨[b, a], .cons [b, a] [] (space_of2 h2) .nil, by simp [Str.trimLeftRev, h, h2]⟩
  | case6 a b h h2 => exact ⟨[], .nil, by simp [Str.trimLeftRev, h, h2]⟩
  | case7 a b c t h ih =>
    obtain ⟨l, hl, he⟩ := ih
    refine ⟨l ++ [a], hl.append (.cons [a] [] (space_of1 h) .nil), ?_⟩
    rw [Str.trimLeftRev, if_pos h]
    simp only [List.reverse_append, List.reverse_cons, List.reverse_nil, List.nil_append,
      List.cons_append]
    rw [← he]
  | case8 a b c t h h2 ih =>
    obtain ⟨l, hl, he⟩ := ih
    refine ⟨l ++ [b, a], hl.append (.cons [b, a] [] (space_of2 h2) .nil), ?_⟩
    rw [Str.trimLeftRev, if_neg h, if_pos h2]
    simp only [List.reverse_append, List.reverse_cons, List.reverse_nil, List.nil_append,
      List.cons_append]
    rw [← he]
  | case9 a b c t h h2 h3 ih =>
    obtain ⟨l, hl, he⟩ := ih
    refine ⟨l ++ [c, b, a], hl.append (.cons [c, b, a] [] (space_of3 h3) .nil), ?_⟩
    rw [Str.trimLeftRev, if_neg h, if_neg h2, if_pos h3]
    simp only [List.reverse_append, List.reverse_cons, List.reverse_nil, List.nil_append,
      List.cons_append]
    rw [← he]
  | case10 a b c t h h2 h3 =>
    exact ⟨[], .nil, by rw [Str.trimLeftRev, if_neg h, if_neg h2, if_neg h3]; rfl⟩

/-- What `strings.TrimSpace` removes is white space. -/
theorem trimSpace_split (s : Str) :
    ∃ l r, Spaces l ∧ Spaces r ∧ s = l ++ Str.trimSpace s ++ r := by
  obtain ⟨l, hl, he⟩ := trimLeft_split s
  obtain ⟨r, hr, hf⟩ := trimLeftRev_split (Str.trimLeft s).reverse
  refine ⟨l, r, hl, hr, ?_⟩
  have : Str.trimLeft s = Str.trimSpace s ++ r := by
    have := congrArg List.reverse hf
    simpa [Str.trimSpace] using this
  rw [List.append_assoc, ← this, ← he]

theorem general1 : ∀ c : Byte, (0x80 ≤ c ∧ c ≤ 0x8A ∨ c = 0xA8 ∨ c = 0xA9 ∨ c = 0xAF) →
    Str.isSpace1 c = false := by decide +kernel

theorem general3 : ∀ c : Byte, (0x80 ≤ c ∧ c ≤ 0x8A ∨ c = 0xA8 ∨ c = 0xA9 ∨ c = 0xAF) →
    Str.isSpace3 0xE2 0x80 c = true := by decide +kernel

/-- A byte at which trimming stops: ASCII and no white space. -/
def Solid (a : Byte) : Prop := a < 128 ∧ Str.isSpace1 a = false

theorem solid_of_plain {t : Str} (h : Plain t) : ∀ c ∈ t, Solid c := by
  intro c hc
  have : ∀ c : Byte, 33 ≤ c → c ≤ 126 → c < 128 ∧ Str.isSpace1 c = false := by decide +kernel
  exact this c (h c hc).1 (h c hc).2

theorem isSpace2_solid {a b : Byte} (h : Solid a ∨ Solid b) : Str.isSpace2 a b = false := by
  cases hs : Str.isSpace2 a b with
  | false => rfl
  | true =>
    exfalso
    simp only [Str.isSpace2, Bool.and_eq_true, beq_iff_eq, Bool.or_eq_true] at hs
    obtain ⟨rfl, hb⟩ := hs
    rcases h with h | h
    · exact absurd h.1 (by decide)
    · rcases hb with rfl | rfl <;> exact absurd h.1 (by decide)

theorem isSpace3_solid {a b c : Byte} (h : Solid a ∨ Solid c) : Str.isSpace3 a b c = false := by
  cases hs : Str.isSpace3 a b c with
  | false => rfl
  | true =>
    exfalso
    have h3 := space_of3 hs
    rcases h with h | h
    · cases h3 <;> exact absurd h.1 (by decide)
    · cases h3 with
      | general c hc =>
        have : ∀ c : Byte, (0x80 ≤ c ∧ c ≤ 0x8A ∨ c = 0xA8 ∨ c = 0xA9 ∨ c = 0xAF) → ¬ c < 128 := by
          decide +kernel
        exact this c hc h.1
      | _ => exact absurd h.1 (by decide)

theorem trimLeft_solid {a : Byte} {t : Str} (h : Solid a) : Str.trimLeft (a :: t) = a :: t := by
  have h1 : ¬ Str.isSpace1 a = true := by simp [h.2]
  match t with
  | [] => simp [Str.trimLeft, h1]
  | [b] => simp [Str.trimLeft, h1, isSpace2_solid (a := a) (b := b) (.inl h)]
  | b :: c :: t =>
    simp [Str.trimLeft, h1, isSpace2_solid (a := a) (b := b) (.inl h),
      isSpace3_solid (a := a) (b := b) (c := c) (.inl h)]

theorem trimLeftRev_solid {a : Byte} {t : Str} (h : Solid a) :
    Str.trimLeftRev (a :: t) = a :: t := by
  have h1 : ¬ Str.isSpace1 a = true := by simp [h.2]
  match t with
  | [] => simp [Str.trimLeftRev, h1]
  | [b] => simp [Str.trimLeftRev, h1, isSpace2_solid (a := b) (b := a) (.inr h)]
  | b :: c :: t =>
    simp [Str.trimLeftRev, h1, isSpace2_solid (a := b) (b := a) (.inr h),
      isSpace3_solid (a := c) (b := b) (c := a) (.inr h)]

theorem trimLeft_space {a s : Str} (ha : Space a) : Str.trimLeft (a ++ s) = Str.trimLeft s := by
  cases ha with
  | ascii a h =>
    have h1 := (isSpace1_iff a).2 h
    match s with
    | [] => simp [Str.trimLeft, h1]
    | [b] => simp [Str.trimLeft, h1]
    | b :: c :: t => rw [List.singleton_append, Str.trimLeft, if_pos h1]
  | two b h =>
    have h1 : Str.isSpace1 0xC2 = false := by decide
    have h2 : Str.isSpace2 0xC2 b = true := by rcases h with rfl | rfl <;> decide
    match s with
    | [] => simp [Str.trimLeft, h1, h2]
    | c :: t =>
      show Str.trimLeft (0xC2 :: b :: c :: t) = _
      rw [Str.trimLeft, if_neg (by simp [h1]), if_pos h2]
  | ogham => rfl
  | general c h =>
    have h1 : Str.isSpace1 0xE2 = false := by decide
    have h2 : Str.isSpace2 0xE2 0x80 = false := by decide
    have h3 : Str.isSpace3 0xE2 0x80 c = true := general3 c h
    show Str.trimLeft (0xE2 :: 0x80 :: c :: s) = _
    rw [Str.trimLeft, if_neg (by simp [h1]), if_neg (by simp [h2]), if_pos h3]
  | math => rfl
  | ideographic => rfl

theorem trimLeft_spaces {l s : Str} (hl : Spaces l) : Str.trimLeft (l ++ s) = Str.trimLeft s := by
  induction hl with
  | nil => rfl
  | cons a l ha _ ih => rw [List.append_assoc, trimLeft_space ha, ih]

theorem trimLeftRev_space {a s : Str} (ha : Space a) :
    Str.trimLeftRev (a.reverse ++ s) = Str.trimLeftRev s := by
  cases ha with
  | ascii a h =>
    have h1 := (isSpace1_iff a).2 h
    match s with
    | [] => simp [Str.trimLeftRev, h1]
    | [b] => simp [Str.trimLeftRev, h1]
    | b :: c :: t =>
      show Str.trimLeftRev (a :: b :: c :: t) = _
      rw [Str.trimLeftRev, if_pos h1]
  | two b h =>
    have h1 : Str.isSpace1 b = false := by rcases h with rfl | rfl <;> decide
    have h2 : Str.isSpace2 0xC2 b = true := by rcases h with rfl | rfl <;> decide
    match s with
    | [] => simp [Str.trimLeftRev, h1, h2]
    | c :: t =>
      show Str.trimLeftRev (b :: 0xC2 :: c :: t) = _
      rw [Str.trimLeftRev, if_neg (by simp [h1]), if_pos h2]
  | ogham => rfl
  | general c h =>
    have h1 : Str.isSpace1 c = false := general1 c h
    have h2 : Str.isSpace2 0x80 c = false := by simp [Str.isSpace2]
    have h3 : Str.isSpace3 0xE2 0x80 c = true := general3 c h
    show Str.trimLeftRev (c :: 0x80 :: 0xE2 :: s) = _
    rw [Str.trimLeftRev, if_neg (by simp [h1]), if_neg (by simp [h2]), if_pos h3]
  | math => rfl
  | ideographic => rfl

theorem trimLeftRev_spaces {l s : Str} (hl : Spaces l) :
    Str.trimLeftRev (l.reverse ++ s) = Str.trimLeftRev s := by
  induction hl generalizing s with
  | nil => rfl
  | cons a l ha _ ih => rw [List.reverse_append, List.append_assoc, ih, trimLeftRev_space ha]

/-- `strings.TrimSpace` takes exactly the white space off a text with solid ends. -/
theorem trimSpace_frame {l u r : Str} (hl : Spaces l) (hr : Spaces r) (hu : u ≠ [])
    (h1 : Solid (u.head hu)) (h2 : Solid (u.getLast hu)) :
    Str.trimSpace (l ++ u ++ r) = u := by
  obtain ⟨a, t, rfl⟩ := List.exists_cons_of_ne_nil hu
  have e1 : Str.trimLeft (l ++ (a :: t) ++ r) = (a :: t) ++ r := by
    rw [List.append_assoc, trimLeft_spaces hl, List.cons_append]; exact trimLeft_solid h1
  rw [Str.trimSpace, e1, List.reverse_append, trimLeftRev_spaces hr]
  have e2 : (a :: t).reverse = (a :: t).getLast hu :: ((a :: t).dropLast).reverse := by
    conv => lhs; rw [← List.dropLast_concat_getLast hu]
    simp
  rw [e2, trimLeftRev_solid h2, ← e2, List.reverse_reverse]

theorem trimSpace_spaces {l : Str} (hl : Spaces l) : Str.trimSpace l = [] := by
  have := trimLeft_spaces (s := []) hl
  simp [Str.trimLeft] at this
  simp [Str.trimSpace, this, Str.trimLeftRev]

/-- Text without white space at its ends is left alone. -/
theorem trimSpace_plain {t : Str} (h : Plain t) : Str.trimSpace t = t := by
  by_cases ht : t = []
  · subst ht; rfl
  · have := trimSpace_frame (l := []) (r := []) .nil .nil ht
      (solid_of_plain h _ (List.head_mem ht)) (solid_of_plain h _ (List.getLast_mem ht))
    simpa using this

/-! ## condenseWHSP -/

theorem encodeByte_plain {c : Byte} (h : c < 128) : encodeByte c = [c] := by
  simp [encodeByte, h]

theorem encodeByte_high {c : Byte} (h : ¬ c < 128) :
    ∃ x y, encodeByte c = [x, y] ∧ ¬ x < 128 ∧ ¬ y < 128 ∧ (x = 0xC2 ∨ x = 0xC3) ∧
      (x = 0xC2 → y = c) := by
  have : ∀ c : Byte, ¬ c < 128 → ∃ x y, encodeByte c = [x, y] ∧ ¬ x < 128 ∧ ¬ y < 128 ∧
      (x = 0xC2 ∨ x = 0xC3) ∧ (x = 0xC2 → y = c) := by
    intro c hc
    refine ⟨(0xC0 : UInt8) ||| (c >>> 6), (0x80 : UInt8) ||| (c &&& 0x3F), by simp [encodeByte, hc], ?_⟩
    revert c
    decide +kernel
  exact this c h

theorem condenseLoop_plain {t : Str} (h : Plain t) (b : Bool) : condenseLoop b t = t := by
  induction t generalizing b with
  | nil => rfl
  | cons c t ih =>
    have hc := h c (by simp)
    have h1 : ¬ (c = 9 ∨ c = 10 ∨ c = 32) := by
      rintro (rfl | rfl | rfl) <;> exact absurd hc.1 (by decide)
    have h2 : c < 128 := Nat.lt_of_le_of_lt (m := 126) hc.2 (by decide)
    rw [condenseLoop, if_neg h1, encodeByte_plain h2, ih (fun x hx => h x (by simp [hx]))]
    rfl

theorem map_nl_plain {t : Str} (h : Plain t) :
    t.map (fun c => if c = 10 then 32 else c) = t := by
  conv => rhs; rw [← List.map_id t]
  apply List.map_congr_left
  intro c hc
  have : c ≠ 10 := by
    rintro rfl; exact absurd (h _ hc).1 (by decide)
  simp [this]

/-- `condenseWHSP` takes white space off visible ASCII text. -/
theorem condense_frame {l u r : Str} (hl : Spaces l) (hr : Spaces r) (hu : Plain u) :
    condenseWHSP (l ++ u ++ r) = u := by
  have e : Str.trimSpace (l ++ u ++ r) = u := by
    by_cases h : u = []
    · subst h; simpa using trimSpace_spaces (hl.append hr)
    · exact trimSpace_frame hl hr h (solid_of_plain hu _ (List.head_mem h))
        (solid_of_plain hu _ (List.getLast_mem h))
  rw [condenseWHSP, e, map_nl_plain hu, condenseLoop_plain hu, trimSpace_plain hu]

/-- Cut the input of `condenseLoop` at a visible ASCII byte of its output. -/
theorem condenseLoop_cut {m l rest : Str} {c : Byte} (hc : 33 ≤ c ∧ c ≤ 126) {b : Bool}
    (h : condenseLoop b m = l ++ c :: rest) :
    ∃ m1 m2, m = m1 ++ c :: m2 ∧ condenseLoop b m1 = l ∧ condenseLoop false m2 = rest := by
  induction m generalizing l b with
  | nil => simp [condenseLoop] at h
  | cons d m ih =>
    rw [condenseLoop] at h
    by_cases hd : d = 9 ∨ d = 10 ∨ d = 32
    · rw [if_pos hd] at h
      cases b with
      | true =>
        simp only [if_true] at h
        obtain ⟨m1, m2, rfl, h1, h2⟩ := ih h
        exact ⟨d :: m1, m2, rfl, by rw [condenseLoop, if_pos hd, if_pos rfl, h1], h2⟩
      | false =>
        simp only [Bool.false_eq_true, if_false] at h
        cases l with
        | nil =>
          simp only [List.nil_append, List.cons.injEq] at h
          obtain ⟨rfl, _⟩ := h
          exact absurd hc.1 (by decide)
        | cons x l =>
          simp only [List.cons_append, List.cons.injEq] at h
          obtain ⟨rfl, h⟩ := h
          obtain ⟨m1, m2, rfl, h1, h2⟩ := ih h
          refine ⟨d :: m1, m2, rfl, ?_, h2⟩
          rw [condenseLoop, if_pos hd, h1]; rfl
    · rw [if_neg hd] at h
      by_cases hlt : d < 128
      · rw [encodeByte_plain hlt] at h
        cases l with
        | nil =>
          simp only [List.nil_append, List.cons.injEq, List.cons_append] at h
          obtain ⟨rfl, h⟩ := h
          exact ⟨[], m, rfl, rfl, h⟩
        | cons x l =>
          simp only [List.nil_append, List.cons_append, List.cons.injEq] at h
          obtain ⟨rfl, h⟩ := h
          obtain ⟨m1, m2, rfl, h1, h2⟩ := ih h
          refine ⟨d :: m1, m2, rfl, ?_, h2⟩
          rw [condenseLoop, if_neg hd, encodeByte_plain hlt, h1]; rfl
      · obtain ⟨x, y, he, hx, hy, _⟩ := encodeByte_high hlt
        rw [he] at h
        have hcl : c < 128 := Nat.lt_of_le_of_lt (m := 126) hc.2 (by decide)
        match l, h with
        | [], h =>
          simp only [List.nil_append, List.cons_append, List.cons.injEq] at h
          exact absurd (h.1 ▸ hcl) hx
        | [x'], h =>
          simp only [List.nil_append, List.cons_append, List.cons.injEq] at h
          exact absurd (h.2.1 ▸ hcl) hy
        | x' :: y' :: l, h =>
          simp only [List.nil_append, List.cons_append, List.cons.injEq] at h
          obtain ⟨rfl, rfl, h⟩ := h
          obtain ⟨m1, m2, rfl, h1, h2⟩ := ih h
          refine ⟨d :: m1, m2, rfl, ?_, h2⟩
          rw [condenseLoop, if_neg hd, he, h1]; rfl

theorem condenseLoop_cut_all {u m l rest : Str} (hu : Plain u) {b : Bool}
    (h : condenseLoop b m = l ++ u ++ rest) (hne : u ≠ []) :
    ∃ m1 m2, m = m1 ++ u ++ m2 ∧ condenseLoop b m1 = l ∧ condenseLoop false m2 = rest := by
  induction u generalizing m l b with
  | nil => exact absurd rfl hne
  | cons c u ih =>
    rw [List.append_assoc, List.cons_append] at h
    obtain ⟨m1, m2, rfl, h1, h2⟩ := condenseLoop_cut (hu c (by simp)) h
    by_cases hu' : u = []
    · subst hu'
      exact ⟨m1, m2, by simp, h1, by simpa using h2⟩
    · obtain ⟨n1, n2, rfl, k1, k2⟩ := ih (l := []) (fun x hx => hu x (by simp [hx])) (by simpa using h2) hu'
      -- nothing is printed only for nothing
      have : n1 = [] := by
        cases n1 with
        | nil => rfl
        | cons d n1 =>
          exfalso
          rw [condenseLoop] at k1
          split at k1
          · simp at k1
          · by_cases hd : d < 128
            · rw [encodeByte_plain hd] at k1; simp at k1
            · obtain ⟨x, y, he, _⟩ := encodeByte_high hd
              rw [he] at k1; simp at k1
      subst this
      exact ⟨m1, n2, by simp, h1, k2⟩

/-- Input that condenses to white space is blank. -/
theorem condenseLoop_blank {m : Str} {b : Bool} (h : Spaces (condenseLoop b m)) : Blanks m := by
  induction m generalizing b with
  | nil => exact .nil
  | cons d m ih =>
    rw [condenseLoop] at h
    have inv : ∀ {a : Byte} {s : Str}, Spaces (a :: s) → a < 128 → Space [a] ∧ Spaces s := by
      intro a s hs ha
      generalize he : a :: s = w at hs
      cases hs with
      | nil => simp at he
      | cons x t hx ht =>
        cases hx <;> simp only [List.cons_append, List.nil_append, List.cons.injEq] at he <;>
          obtain ⟨rfl, rfl⟩ := he
        case ascii h => exact ⟨.ascii _ h, ht⟩
        all_goals exact absurd ha (by decide)
    have inv2 : ∀ {x y : Byte} {s : Str}, Spaces (x :: y :: s) → (x = 0xC2 ∨ x = 0xC3) →
        x = 0xC2 ∧ (y = 0x85 ∨ y = 0xA0) ∧ Spaces s := by
      intro x y s hs hx
      generalize he : x :: y :: s = w at hs
      cases hs with
      | nil => simp at he
      | cons z t hz ht =>
        cases hz <;> simp only [List.cons_append, List.nil_append, List.cons.injEq] at he
        case ascii a h =>
          obtain ⟨rfl, _⟩ := he
          exfalso
          rcases hx with rfl | rfl <;> revert h <;> decide
        case two h =>
          obtain ⟨rfl, rfl, rfl⟩ := he
          exact ⟨rfl, h, ht⟩
        all_goals
          obtain ⟨rfl, _⟩ := he
          exact absurd hx (by decide)
    by_cases hd : d = 9 ∨ d = 10 ∨ d = 32
    · rw [if_pos hd] at h
      have hs : Space [d] := .ascii d (by rcases hd with rfl | rfl | rfl <;> simp)
      cases b with
      | true => exact .space [d] m hs (ih (by simpa using h))
      | false =>
        simp only [Bool.false_eq_true, if_false] at h
        exact .space [d] m hs (ih (inv h (by decide)).2)
    · rw [if_neg hd] at h
      by_cases hlt : d < 128
      · rw [encodeByte_plain hlt] at h
        have := inv h hlt
        exact .space [d] m this.1 (ih this.2)
      · obtain ⟨x, y, he, _, _, h1, h2⟩ := encodeByte_high hlt
        rw [he] at h
        have := inv2 h h1
        have hy := h2 this.1
        subst hy
        exact .lone _ m this.2.1 (ih this.2.2)

theorem blanks_unmap {m : Str} (h : Blanks (m.map fun c => if c = 10 then 32 else c)) :
    Blanks m := by
  generalize he : m.map (fun c => if c = 10 then (32 : Byte) else c) = w at h
  have keep : ∀ a : Byte, ∀ x : Byte, (if x = 10 then (32 : Byte) else x) = a → ¬ a = 32 → x = a := by
    intro a x h1 h2
    split at h1
    · exact absurd h1.symm h2
    · exact h1
  induction h generalizing m with
  | nil => simp at he; subst he; exact .nil
  | lone b s hb _ ih =>
    cases m with
    | nil => simp at he
    | cons x m =>
      simp only [List.map_cons, List.cons.injEq] at he
      have := keep _ _ he.1 (by rintro rfl; revert hb; decide)
      subst this
      exact .lone _ m hb (ih he.2)
  | space a s ha _ ih =>
    cases ha with
    | ascii a h =>
      cases m with
      | nil => simp at he
      | cons x m =>
        simp only [List.map_cons, List.singleton_append, List.cons.injEq] at he
        refine .space [x] m (.ascii x ?_) (ih he.2)
        by_cases hx : x = 10
        · simp [hx]
        · have := he.1
          rw [if_neg hx] at this
          subst this; exact h
    | two b h =>
      match m, he with
      | [], he => simp at he
      | [_], he => simp at he
      | x :: y :: m, he =>
        simp only [List.map_cons, List.cons_append, List.nil_append, List.cons.injEq] at he
        have e1 := keep _ _ he.1 (by decide)
        have e2 := keep _ _ he.2.1 (by rintro rfl; revert h; decide)
        subst e1 e2
        exact .space [_, _] m (.two _ h) (ih he.2.2)
    | general c h =>
      match m, he with
      | [], he => simp at he
      | [_], he => simp at he
      | [_, _], he => simp at he
      | x :: y :: z :: m, he =>
        simp only [List.map_cons, List.cons_append, List.nil_append, List.cons.injEq] at he
        have e1 := keep _ _ he.1 (by decide)
        have e2 := keep _ _ he.2.1 (by decide)
        have e3 := keep _ _ he.2.2.1 (by rintro rfl; revert h; decide)
        subst e1 e2 e3
        exact .space [_, _, _] m (.general _ h) (ih he.2.2.2)
    | ogham =>
      match m, he with
      | [], he => simp at he
      | [_], he => simp at he
      | [_, _], he => simp at he
      | x :: y :: z :: m, he =>
        simp only [List.map_cons, List.cons_append, List.nil_append, List.cons.injEq] at he
        have e1 := keep _ _ he.1 (by decide)
        have e2 := keep _ _ he.2.1 (by decide)
        have e3 := keep _ _ he.2.2.1 (by decide)
        subst e1 e2 e3
        exact .space [_, _, _] m .ogham (ih he.2.2.2)
    | math =>
      match m, he with
      | [], he => simp at he
      | [_], he => simp at he
      | [_, _], he => simp at he
      | x :: y :: z :: m, he =>
        simp only [List.map_cons, List.cons_append, List.nil_append, List.cons.injEq] at he
        have e1 := keep _ _ he.1 (by decide)
        have e2 := keep _ _ he.2.1 (by decide)
        have e3 := keep _ _ he.2.2.1 (by decide)
        subst e1 e2 e3
        exact .space [_, _, _] m .math (ih he.2.2.2)
    | ideographic =>
      match m, he with
      | [], he => simp at he
      | [_], he => simp at he
      | [_, _], he => simp at he
      | x :: y :: z :: m, he =>
        simp only [List.map_cons, List.cons_append, List.nil_append, List.cons.injEq] at he
        have e1 := keep _ _ he.1 (by decide)
        have e2 := keep _ _ he.2.1 (by decide)
        have e3 := keep _ _ he.2.2.1 (by decide)
        subst e1 e2 e3
        exact .space [_, _, _] m .ideographic (ih he.2.2.2)

theorem map_nl_inv {u m : Str} (hu : Plain u)
    (h : m.map (fun c => if c = 10 then (32 : Byte) else c) = u) : m = u := by
  induction m generalizing u with
  | nil => simpa using h
  | cons x m ih =>
    cases u with
    | nil => simp at h
    | cons c u =>
      simp only [List.map_cons, List.cons.injEq] at h
      have hc := hu c (by simp)
      have e : x = c := by
        by_cases hx : x = 10
        · have := h.1; simp [hx] at this; subst this; exact absurd hc.1 (by decide)
        · simpa [hx] using h.1
      rw [e, ih (fun y hy => hu y (by simp [hy])) h.2]

/-- Text that condenses to visible ASCII is this text within blanks. -/
theorem condense_inv {u v : Str} (hu : Plain u) (hne : u ≠ []) (h : condenseWHSP v = u) :
    ∃ l r, v = l ++ u ++ r ∧ Blanks l ∧ Blanks r := by
  obtain ⟨l0, r0, hl0, hr0, hv⟩ := trimSpace_split v
  rw [condenseWHSP] at h
  generalize Str.trimSpace v = w at hv h
  obtain ⟨l1, r1, hl1, hr1, he⟩ :=
    trimSpace_split (condenseLoop false (w.map fun c => if c = 10 then 32 else c))
  rw [h] at he
  obtain ⟨m1, m2, hm, h1, h2⟩ := condenseLoop_cut_all hu he hne
  rw [List.map_eq_append_iff] at hm
  obtain ⟨w12, w3, rfl, hw12, hw3⟩ := hm
  rw [List.map_eq_append_iff] at hw12
  obtain ⟨w1, w2, rfl, hw1, hw2⟩ := hw12
  have := map_nl_inv hu hw2
  subst this
  have b1 : Blanks w1 := by
    apply blanks_unmap; rw [hw1]; exact condenseLoop_blank (b := false) (by rw [h1]; exact hl1)
  have b2 : Blanks w3 := by
    apply blanks_unmap; rw [hw3]; exact condenseLoop_blank (b := false) (by rw [h2]; exact hr1)
  refine ⟨l0 ++ w1, w3 ++ r0, ?_, hl0.blanks.append b1, b2.append hr0.blanks⟩
  rw [hv]; simp [List.append_assoc]

/-! ## unquote -/

theorem isQuote_iff (c : Byte) : isQuote c = true ↔ c = 34 ∨ c = 39 ∨ c = 96 := by
  simp [isQuote, or_assoc]

theorem quote?_of {c : Byte} (h : isQuote c = true) : Quote? [c] := by
  rcases (isQuote_iff c).1 h with rfl | rfl | rfl
  · exact .double
  · exact .single
  · exact .back

theorem dropQuote_split (x : Str) : ∃ p, Quote? p ∧ x = p ++ dropQuote x := by
  cases x with
  | nil => exact ⟨[], .absent, rfl⟩
  | cons c t =>
    by_cases hc : isQuote c = true
    · exact ⟨[c], quote?_of hc, by simp [dropQuote, hc]⟩
    · exact ⟨[], .absent, by simp [dropQuote, hc]⟩

theorem _root_.Verif.Spec.Quote?.reverse {p : Str} (h : Quote? p) : p.reverse = p := by
  cases h <;> rfl

/-- `unquote` takes off at most one quotation mark on either side. -/
theorem unquote_inv (x : Str) : ∃ p q, Quote? p ∧ Quote? q ∧ x = p ++ unquote x ++ q := by
  unfold unquote
  by_cases hlen : x.length ≤ 2
  · rw [if_pos hlen]; exact ⟨[], [], .absent, .absent, by simp⟩
  · rw [if_neg hlen]
    obtain ⟨p, hp, he⟩ := dropQuote_split x
    obtain ⟨q, hq, hf⟩ := dropQuote_split (dropQuote x).reverse
    refine ⟨p, q, hp, hq, ?_⟩
    have := congrArg List.reverse hf
    rw [List.reverse_reverse, List.reverse_append, hq.reverse] at this
    rw [List.append_assoc, ← this, ← he]

theorem dropQuote_frame {p t : Str} (hp : Quote? p) (ht : t ≠ [])
    (h1 : isQuote (t.head ht) = false) (s : Str) : dropQuote (p ++ t ++ s) = t ++ s := by
  obtain ⟨a, u, rfl⟩ := List.exists_cons_of_ne_nil ht
  simp only [List.head_cons] at h1
  cases hp with
  | absent => simp [dropQuote, h1]
  | double => rfl
  | single => rfl
  | back => rfl

/-- `unquote` takes off the marks around text that has none at its ends. -/
theorem unquote_frame {p t q : Str} (hp : Quote? p) (hq : Quote? q)
    (hlen : 2 < (p ++ t ++ q).length) (ht : t ≠ []) (h1 : isQuote (t.head ht) = false)
    (h2 : isQuote (t.getLast ht) = false) : unquote (p ++ t ++ q) = t := by
  have hr : t.reverse ≠ [] := by simpa using ht
  have h2' : isQuote (t.reverse.head hr) = false := by rw [List.head_reverse]; exact h2
  have e := dropQuote_frame (p := q) (t := t.reverse) hq hr h2' []
  rw [unquote, if_neg (by omega), dropQuote_frame hp ht h1, List.reverse_append, hq.reverse]
  rw [List.append_nil, List.append_nil] at e
  rw [e, List.reverse_reverse]

theorem _root_.Verif.Spec.Quote?.plain {p : Str} (h : Quote? p) : Plain p := by
  cases h <;> decide

/-- The value a reader of bind rule values sees. -/
theorem clean_inv {t v : Str} (ht : Plain t) (hne : t ≠ [])
    (h : unquote (condenseWHSP v) = t) : Framed t v := by
  obtain ⟨p, q, hp, hq, he⟩ := unquote_inv (condenseWHSP v)
  rw [h] at he
  have hpl : Plain (p ++ t ++ q) := by
    intro c hc
    simp only [List.mem_append] at hc
    rcases hc with (hc | hc) | hc
    · exact hp.plain c hc
    · exact ht c hc
    · exact hq.plain c hc
  obtain ⟨l, r, hv, hl, hr⟩ := condense_inv hpl (by simp [hne]) he
  exact ⟨l, p, q, r, by rw [hv]; simp [List.append_assoc], hl, hr, hp, hq⟩

theorem clean_frame {l p t q r : Str} (hl : Spaces l) (hr : Spaces r) (hp : Quote? p)
    (hq : Quote? q) (ht : Plain t) (hlen : 2 < t.length) (hne : t ≠ [])
    (h1 : isQuote (t.head hne) = false) (h2 : isQuote (t.getLast hne) = false) :
    unquote (condenseWHSP (l ++ p ++ t ++ q ++ r)) = t := by
  have hpl : Plain (p ++ t ++ q) := by
    intro c hc
    simp only [List.mem_append] at hc
    rcases hc with (hc | hc) | hc
    · exact hp.plain c hc
    · exact ht c hc
    · exact hq.plain c hc
  have : l ++ p ++ t ++ q ++ r = l ++ (p ++ t ++ q) ++ r := by simp [List.append_assoc]
  rw [this, condense_frame hl hr hpl]
  exact unquote_frame hp hq (by simp; omega) hne h1 h2

/-- As `clean_frame`, for short text: either quotes make it longer than two
characters, or there are none. -/
theorem clean_frame_short {l p t q r : Str} (hl : Spaces l) (hr : Spaces r) (hp : Quote? p)
    (hq : Quote? q) (ht : Plain t) (hne : t ≠ [])
    (hlen : 2 < (p ++ t ++ q).length ∨ p = [] ∧ q = [])
    (h1 : isQuote (t.head hne) = false) (h2 : isQuote (t.getLast hne) = false) :
    unquote (condenseWHSP (l ++ p ++ t ++ q ++ r)) = t := by
  have hpl : Plain (p ++ t ++ q) := by
    intro c hc
    simp only [List.mem_append] at hc
    rcases hc with (hc | hc) | hc
    · exact hp.plain c hc
    · exact ht c hc
    · exact hq.plain c hc
  have : l ++ p ++ t ++ q ++ r = l ++ (p ++ t ++ q) ++ r := by simp [List.append_assoc]
  rw [this, condense_frame hl hr hpl]
  by_cases h3 : 2 < (p ++ t ++ q).length
  · exact unquote_frame hp hq h3 hne h1 h2
  · rcases hlen with hlen | ⟨rfl, rfl⟩
    · exact absurd hlen h3
    · rw [unquote, if_pos (by omega)]; simp

end Verif
