import Verif.Spec.Misc
import Verif.Lemmas.Clean

namespace Verif
open Verif.Spec Verif.Misc

theorem isSpace1_white : ∀ c : Byte, Str.isSpace1 c = true ↔ White c := by decide +kernel

theorem pieces_ne (s : Str) : pieces s ≠ [] := by
  cases s with
  | nil => simp [pieces]
  | cons a t =>
    simp only [pieces]
    split
    · simp
    · cases pieces t <;> simp [Str.consHead]

theorem words_white {a : Byte} (h : White a) (t : Str) : words (a :: t) = words t := by
  simp [words, pieces, h]

theorem pieces_cons {a : Byte} (h : ¬ White a) (t : Str) {x : Str} {r : List Str} (e : pieces t = x :: r) :
    pieces (a :: t) = (a :: x) :: r := by simp [pieces, h, e, Str.consHead]

theorem words_white_all {l : Str} (h : ∀ c ∈ l, White c) (t : Str) : words (l ++ t) = words t := by
  induction l with
  | nil => rfl
  | cons a l ih =>
    rw [List.cons_append, words_white (h a (by simp)), ih fun c hc => h c (by simp [hc])]

theorem pieces_append_white {r : Str} (h : ∀ c ∈ r, White c) (t : Str) :
    ∃ es, pieces (t ++ r) = pieces t ++ es ∧ ∀ e ∈ es, e = [] := by
  induction t with
  | nil =>
    induction r with
    | nil => exact ⟨[], rfl, by simp⟩
    | cons a r ih =>
      obtain ⟨es, he, hes⟩ := ih fun c hc => h c (by simp [hc])
      refine ⟨[] :: es, ?_, by simpa using hes⟩
      simp only [List.nil_append] at he ⊢
      simp only [pieces, h a (by simp), if_true] at he ⊢
      rw [he]; rfl
  | cons a t ih =>
    obtain ⟨es, he, hes⟩ := ih
    refine ⟨es, ?_, hes⟩
    simp only [List.cons_append, pieces]
    split
    · rw [he]; rfl
    · rw [he]
      cases hp : pieces t with
      | nil => exact absurd hp (pieces_ne t)
      | cons x xs => simp [Str.consHead]

theorem words_append_white {r : Str} (h : ∀ c ∈ r, White c) (t : Str) : words (t ++ r) = words t := by
  obtain ⟨es, he, hes⟩ := pieces_append_white h t
  rw [words, words, he, List.filter_append]
  have : es.filter (· ≠ []) = [] := by
    rw [List.filter_eq_nil_iff]; intro e hm; simp [hes e hm]
  rw [this]; simp

/-- In ASCII text white space is white space bytes. -/
theorem spaces_white {l : Str} (h : Spaces l) (ha : Str.IsAscii l) : ∀ c ∈ l, White c := by
  induction h with
  | nil => simp
  | cons a s hs _ ih =>
    have ha1 : Str.IsAscii a := fun c hc => ha c (by simp [hc])
    have ih := ih fun c hc => ha c (by simp [hc])
    intro c hc
    rcases List.mem_append.1 hc with hc | hc
    · cases hs with
      | ascii b hb =>
        simp at hc; subst hc
        have : ∀ b : Byte, (b = 9 ∨ b = 10 ∨ b = 11 ∨ b = 12 ∨ b = 13 ∨ b = 32) → White b := by
          decide +kernel
        exact this c hb
      | two b hb => exact absurd (ha1 0xC2 (by simp)) (by decide)
      | ogham => exact absurd (ha1 0xE1 (by simp)) (by decide)
      | general b hb => exact absurd (ha1 0xE2 (by simp)) (by decide)
      | math => exact absurd (ha1 0xE2 (by simp)) (by decide)
      | ideographic => exact absurd (ha1 0xE3 (by simp)) (by decide)
    · exact ih c hc

theorem words_trim {s : Str} (h : Str.IsAscii s) : words (Str.trimSpace s) = words s := by
  obtain ⟨l, r, hl, hr, e⟩ := trimSpace_split s
  have hla : Str.IsAscii l := fun c hc => h c (by rw [e]; simp [hc])
  have hra : Str.IsAscii r := fun c hc => h c (by rw [e]; simp [hc])
  conv => rhs; rw [e]
  rw [List.append_assoc, words_white_all (spaces_white hl hla),
    words_append_white (spaces_white hr hra)]

theorem trim_ascii {s : Str} (h : Str.IsAscii s) : Str.IsAscii (Str.trimSpace s) := by
  obtain ⟨l, r, _, _, e⟩ := trimSpace_split s
  intro c hc
  exact h c (by rw [e]; simp [hc])

theorem pieces_nl (s : Str) : pieces (s.map fun c => if c = 10 then 32 else c) = pieces s := by
  induction s with
  | nil => rfl
  | cons a s ih =>
    by_cases h : a = 10
    · subst h
      have h1 : White (10 : Byte) := by decide
      have h2 : White (32 : Byte) := by decide
      simp only [List.map_cons, if_true, pieces, h1, h2, ih]
    · simp only [List.map_cons, h, if_false, pieces, ih]

theorem condenseLoop_pieces {s : Str} (h : Str.IsAscii s) :
    (∃ x r r', pieces (condenseLoop false s) = x :: r ∧ pieces s = x :: r' ∧
      r.filter (· ≠ []) = r'.filter (· ≠ [])) ∧
    words (condenseLoop true s) = words s := by
  induction s with
  | nil => exact ⟨⟨[], [], [], rfl, rfl, rfl⟩, rfl⟩
  | cons c s ih =>
    have hc : c < 128 := h c (by simp)
    obtain ⟨⟨x, r, r', e1, e2, e3⟩, e4⟩ := ih fun c hc => h c (by simp [hc])
    by_cases hb : c = 9 ∨ c = 10 ∨ c = 32
    · have hw : White c := by rcases hb with rfl | rfl | rfl <;> decide
      have h32 : White (32 : Byte) := by decide
      constructor
      · refine ⟨[], pieces (condenseLoop true s), pieces s, ?_, ?_, e4⟩
        · simp [condenseLoop, hb, pieces, h32]
        · simp [pieces, hw]
      · rw [words_white hw]
        simp only [condenseLoop, hb, if_true]
        exact e4
    · have ef : ∀ b, condenseLoop b (c :: s) = c :: condenseLoop false s := by
        intro b
        simp [condenseLoop, hb, encodeByte_plain hc]
      rw [ef, ef]
      by_cases hw : White c
      · constructor
        · refine ⟨[], pieces (condenseLoop false s), pieces s, ?_, ?_, ?_⟩
          · simp [pieces, hw]
          · simp [pieces, hw]
          · rw [e1, e2, List.filter_cons, List.filter_cons, e3]
        · rw [words_white hw, words_white hw, words, words, e1, e2, List.filter_cons, List.filter_cons, e3]
      · have p1 := pieces_cons hw _ e1
        have p2 := pieces_cons hw _ e2
        refine ⟨⟨_, _, _, p1, p2, e3⟩, ?_⟩
        rw [words, words, p1, p2, List.filter_cons, List.filter_cons, e3]

theorem condenseLoop_ascii {s : Str} (h : Str.IsAscii s) (b : Bool) : Str.IsAscii (condenseLoop b s) := by
  induction s generalizing b with
  | nil => exact h
  | cons c s ih =>
    have hc : c < 128 := h c (by simp)
    have ih := fun b => ih (fun c hc => h c (by simp [hc])) b
    simp only [condenseLoop]
    split
    · split
      · exact ih true
      · intro d hd
        rcases List.mem_cons.1 hd with rfl | hd
        · decide
        · exact ih true d hd
    · rw [encodeByte_plain hc]
      intro d hd
      rcases List.mem_append.1 hd with hd | hd
      · simp at hd; subst hd; exact hc
      · exact ih false d hd

theorem nl_ascii {s : Str} (h : Str.IsAscii s) :
    Str.IsAscii (s.map fun c => if c = 10 then (32 : Byte) else c) := by
  intro c hc
  obtain ⟨d, hd, rfl⟩ := List.mem_map.1 hc
  split
  · decide
  · exact h d hd

theorem words_condense {s : Str} (h : Str.IsAscii s) : words (condenseWHSP s) = words s := by
  have h1 := trim_ascii h
  have h2 := nl_ascii h1
  rw [condenseWHSP, words_trim (condenseLoop_ascii h2 false)]
  obtain ⟨⟨x, r, r', e1, e2, e3⟩, _⟩ := condenseLoop_pieces h2
  rw [words, e1, List.filter_cons, e3, ← words_trim h, words, ← pieces_nl, e2, List.filter_cons]

/-- No tab, no line feed, and no two spaces in a row. -/
def Tight : Bool → Str → Prop
  | _, [] => True
  | b, c :: t => c ≠ 9 ∧ c ≠ 10 ∧ (b = true → c ≠ 32) ∧ Tight (c == 32) t

theorem Tight.weaken {b : Bool} {s : Str} (h : Tight b s) : Tight false s := by
  cases s with
  | nil => trivial
  | cons c t => exact ⟨h.1, h.2.1, by simp, h.2.2.2⟩

theorem tight_append_left {b : Bool} {s t : Str} (h : Tight b (s ++ t)) : Tight b s := by
  induction s generalizing b with
  | nil => trivial
  | cons c s ih => exact ⟨h.1, h.2.1, h.2.2.1, ih h.2.2.2⟩

theorem tight_append_right {b : Bool} {s t : Str} (h : Tight b (s ++ t)) : Tight false t := by
  induction s generalizing b with
  | nil => exact h.weaken
  | cons c s ih => exact ih h.2.2.2

theorem encodeByte_bytes : ∀ c : Byte, ¬ (c = 9 ∨ c = 10 ∨ c = 32) →
    ∀ d ∈ encodeByte c, d ≠ 9 ∧ d ≠ 10 ∧ d ≠ 32 := by
  intro c hc d hd
  by_cases h : c < 128
  · rw [encodeByte_plain h, List.mem_singleton] at hd
    subst hd; simpa [not_or] using hc
  · obtain ⟨x, y, e, hx, hy, _⟩ := encodeByte_high h
    have : ¬ d < 128 := by
      rw [e] at hd
      simp only [List.mem_cons, List.not_mem_nil, or_false] at hd
      rcases hd with rfl | rfl
      · exact hx
      · exact hy
    refine ⟨?_, ?_, ?_⟩ <;> (rintro rfl; exact this (by decide))

theorem tight_encode {e t : Str} (h : ∀ d ∈ e, d ≠ 9 ∧ d ≠ 10 ∧ d ≠ 32) (he : e ≠ [])
    (ht : Tight false t) (b : Bool) : Tight b (e ++ t) := by
  induction e generalizing b with
  | nil => exact absurd rfl he
  | cons a e ih =>
    have ha := h a (by simp)
    refine ⟨ha.1, ha.2.1, fun _ => ha.2.2, ?_⟩
    have hf : (a == 32) = false := by simpa using ha.2.2
    rw [hf]
    cases e with
    | nil => exact ht
    | cons a' e => exact ih (fun d hd => h d (by simp [hd])) (by simp) false

theorem encodeByte_ne (c : Byte) : encodeByte c ≠ [] := by
  unfold encodeByte; split <;> simp

theorem condenseLoop_tight (s : Str) (b : Bool) : Tight b (condenseLoop b s) := by
  induction s generalizing b with
  | nil => trivial
  | cons c s ih =>
    simp only [condenseLoop]
    split
    · split
      · rename_i hb; subst hb; exact ih true
      · rename_i hb
        have hb : b = false := by simpa using hb
        subst hb
        exact ⟨by decide, by decide, by simp, ih true⟩
    · rename_i hc
      exact tight_encode (encodeByte_bytes c hc) (encodeByte_ne c) (ih false) b

theorem condense_tight (s : Str) : Tight false (condenseWHSP s) := by
  rw [condenseWHSP]
  obtain ⟨l, r, _, _, e⟩ := trimSpace_split (condenseLoop false ((Str.trimSpace s).map fun c => if c = 10 then 32 else c))
  have := condenseLoop_tight ((Str.trimSpace s).map fun c => if c = 10 then 32 else c) false
  rw [e] at this
  exact tight_append_right (tight_append_left this)

theorem trimLeft_head {s : Str} (h : Str.IsAscii s) :
    Str.trimLeft s = [] ∨ ∃ a t, Str.trimLeft s = a :: t ∧ Solid a := by
  induction s with
  | nil => left; rfl
  | cons a s ih =>
    have ha : a < 128 := h a (by simp)
    by_cases hs : Str.isSpace1 a = true
    · have : Str.trimLeft (a :: s) = Str.trimLeft s := by
        match s with
        | [] => simp [Str.trimLeft, hs]
        | [b] => simp [Str.trimLeft, hs]
        | b :: c :: t => simp [Str.trimLeft, hs]
      rw [this]; exact ih fun c hc => h c (by simp [hc])
    · have hso : Solid a := ⟨ha, by simpa using hs⟩
      right; exact ⟨a, s, trimLeft_solid hso, hso⟩

theorem trimLeftRev_head {s : Str} (h : Str.IsAscii s) :
    Str.trimLeftRev s = [] ∨ ∃ a t, Str.trimLeftRev s = a :: t ∧ Solid a := by
  induction s with
  | nil => left; rfl
  | cons a s ih =>
    have ha : a < 128 := h a (by simp)
    by_cases hs : Str.isSpace1 a = true
    · have : Str.trimLeftRev (a :: s) = Str.trimLeftRev s := by
        match s with
        | [] => simp [Str.trimLeftRev, hs]
        | [b] => simp [Str.trimLeftRev, hs]
        | b :: c :: t => simp [Str.trimLeftRev, hs]
      rw [this]; exact ih fun c hc => h c (by simp [hc])
    · have hso : Solid a := ⟨ha, by simpa using hs⟩
      right; exact ⟨a, s, trimLeftRev_solid hso, hso⟩

/-- Trimmed ASCII text is empty or has solid ends. -/
theorem trim_ends {s : Str} (h : Str.IsAscii s) (hne : Str.trimSpace s ≠ []) :
    Solid ((Str.trimSpace s).head hne) ∧ Solid ((Str.trimSpace s).getLast hne) := by
  have hL : Str.IsAscii (Str.trimLeft s) := by
    obtain ⟨l, _, e⟩ := trimLeft_split s
    intro c hc; exact h c (by rw [e]; simp [hc])
  have hR : Str.IsAscii (Str.trimLeft s).reverse := fun c hc => hL c (by simpa using hc)
  have hne' : Str.trimLeftRev (Str.trimLeft s).reverse ≠ [] := by
    intro e; apply hne; rw [Str.trimSpace, e]; rfl
  rcases trimLeft_head h with e | ⟨a, t, e, ha⟩
  · exfalso; apply hne'; rw [e]; rfl
  · rcases trimLeftRev_head hR with e' | ⟨z, t', e', hz⟩
    · exact absurd e' hne'
    · have hlast : (Str.trimSpace s).getLast hne = z := by
        simp [Str.trimSpace, e']
      have hhead : (Str.trimSpace s).head hne = a := by
        obtain ⟨l, hl, el⟩ := trimLeftRev_split (Str.trimLeft s).reverse
        have : Str.trimLeft s = Str.trimSpace s ++ l := by
          have := congrArg List.reverse el
          simpa [Str.trimSpace] using this
        rw [e] at this
        have h2 : (Str.trimSpace s).head? = some a := by
          have := congrArg List.head? this
          rw [List.head?_cons, List.head?_append] at this
          cases hs : Str.trimSpace s with
          | nil => exact absurd hs hne
          | cons b u => rw [hs] at this; simpa using this.symm
        rw [List.head?_eq_some_head hne] at h2
        exact Option.some.inj h2
      rw [hlast, hhead]; exact ⟨ha, hz⟩

theorem condenseLoop_id {s : Str} (h : Str.IsAscii s) {b : Bool} (ht : Tight b s) :
    condenseLoop b s = s := by
  induction s generalizing b with
  | nil => rfl
  | cons c s ih =>
    have hc : c < 128 := h c (by simp)
    have ih := fun b => ih (fun c hc => h c (by simp [hc])) (b := b)
    obtain ⟨h9, h10, h32, ht⟩ := ht
    by_cases h3 : c = 32
    · subst h3
      have hb : b = false := by
        cases b with
        | false => rfl
        | true => exact absurd rfl (h32 rfl)
      subst hb
      simp only [condenseLoop]
      simp
      exact ih true ht
    · have hf : (c == 32) = false := by simpa using h3
      rw [hf] at ht
      simp [condenseLoop, h9, h10, h3, encodeByte_plain hc, ih false ht]

theorem trim_id {s : Str} (h : ∀ hne : s ≠ [], Solid (s.head hne) ∧ Solid (s.getLast hne)) :
    Str.trimSpace s = s := by
  by_cases hne : s = []
  · subst hne; rfl
  · have := trimSpace_frame (l := []) (r := []) .nil .nil hne (h hne).1 (h hne).2
    simpa using this

theorem nl_id {b : Bool} {s : Str} (h : Tight b s) : s.map (fun c => if c = 10 then (32 : Byte) else c) = s := by
  induction s generalizing b with
  | nil => rfl
  | cons c s ih => simp [h.2.1, ih h.2.2.2]

theorem condense_idem {s : Str} (h : Str.IsAscii s) :
    condenseWHSP (condenseWHSP s) = condenseWHSP s := by
  have ha : Str.IsAscii (condenseWHSP s) := trim_ascii (condenseLoop_ascii (nl_ascii (trim_ascii h)) false)
  have hends := fun hne => trim_ends (condenseLoop_ascii (nl_ascii (trim_ascii h)) false) hne
  have ht := condense_tight s
  have e1 : Str.trimSpace (condenseWHSP s) = condenseWHSP s := trim_id hends
  conv => lhs; rw [condenseWHSP]
  rw [e1, nl_id ht, condenseLoop_id ha ht, e1]

theorem ink_words (s : Str) : ink s = (words s).flatten := by
  have key : ∀ s, ink s = (pieces s).flatten := by
    intro s
    induction s with
    | nil => rfl
    | cons a s ih =>
      by_cases h : White a
      · simp [ink, pieces, h] at ih ⊢; simpa [ink] using ih
      · simp only [pieces, h, if_false]
        cases hp : pieces s with
        | nil => exact absurd hp (pieces_ne s)
        | cons x r =>
          rw [hp] at ih
          simp only [Str.consHead, List.flatten_cons, List.cons_append]
          rw [show ink (a :: s) = a :: ink s by simp [ink, h], ih]; simp
  rw [key, words]
  induction pieces s with
  | nil => rfl
  | cons p r ih =>
    rw [List.filter_cons]
    by_cases hp : p = []
    · simp [hp, ih]
    · simp [hp, ih]

end Verif
