import Verif.Spec.Inside
import Verif.Lemmas.Clean

/-!
# `condenseWHSP` and `unquote` are what `Inside` says
-/

namespace Verif
open Verif.Spec Verif.Misc

theorem trimLeft_stop {s : Str} (h : ∀ a t, Space a → s ≠ a ++ t) : Str.trimLeft s = s := by
  match s with
  | [] => rfl
  | [a] =>
    have h1 : ¬ Str.isSpace1 a = true := fun c => h [a] [] (space_of1 c) rfl
    simp [Str.trimLeft, h1]
  | [a, b] =>
    have h1 : ¬ Str.isSpace1 a = true := fun c => h [a] [b] (space_of1 c) rfl
    have h2 : ¬ Str.isSpace2 a b = true := fun c => h [a, b] [] (space_of2 c) rfl
    simp [Str.trimLeft, h1, h2]
  | a :: b :: c :: t =>
    have h1 : ¬ Str.isSpace1 a = true := fun e => h [a] (b :: c :: t) (space_of1 e) rfl
    have h2 : ¬ Str.isSpace2 a b = true := fun e => h [a, b] (c :: t) (space_of2 e) rfl
    have h3 : ¬ Str.isSpace3 a b c = true := fun e => h [a, b, c] t (space_of3 e) rfl
    simp [Str.trimLeft, h1, h2, h3]

theorem trimLeftRev_stop {s : Str} (h : ∀ a t, Space a → s ≠ a.reverse ++ t) : Str.trimLeftRev s = s := by
  match s with
  | [] => rfl
  | [a] =>
    have h1 : ¬ Str.isSpace1 a = true := fun c => h [a] [] (space_of1 c) rfl
    simp [Str.trimLeftRev, h1]
  | [a, b] =>
    have h1 : ¬ Str.isSpace1 a = true := fun c => h [a] [b] (space_of1 c) rfl
    have h2 : ¬ Str.isSpace2 b a = true := fun c => h [b, a] [] (space_of2 c) rfl
    simp [Str.trimLeftRev, h1, h2]
  | a :: b :: c :: t =>
    have h1 : ¬ Str.isSpace1 a = true := fun e => h [a] (b :: c :: t) (space_of1 e) rfl
    have h2 : ¬ Str.isSpace2 b a = true := fun e => h [b, a] (c :: t) (space_of2 e) rfl
    have h3 : ¬ Str.isSpace3 c b a = true := fun e => h [c, b, a] t (space_of3 e) rfl
    simp [Str.trimLeftRev, h1, h2, h3]

theorem space_ne {a : Str} (h : Space a) : a ≠ [] := by cases h <;> simp

theorem trimLeft_length (s : Str) : (Str.trimLeft s).length ≤ s.length := by
  obtain ⟨l, -, h⟩ := trimLeft_split s
  have := congrArg List.length h
  rw [List.length_append] at this; omega

theorem trimLeftRev_length (s : Str) : (Str.trimLeftRev s).length ≤ s.length := by
  obtain ⟨l, -, h⟩ := trimLeftRev_split s
  have := congrArg List.length h
  rw [List.length_append] at this; omega

theorem trimLeft_bare (s : Str) : ∀ a t, Space a → Str.trimLeft s ≠ a ++ t := by
  intro a t ha h
  obtain ⟨l, hl, hs⟩ := trimLeft_split s
  have h1 : Str.trimLeft s = Str.trimLeft t := by
    conv => lhs; rw [hs, trimLeft_spaces hl, h, trimLeft_space ha]
  have h2 := trimLeft_length t
  rw [← h1, h, List.length_append] at h2
  have := List.length_pos_iff.2 (space_ne ha)
  omega

theorem trimLeftRev_bare (s : Str) : ∀ a t, Space a → Str.trimLeftRev s ≠ a.reverse ++ t := by
  intro a t ha h
  obtain ⟨l, hl, hs⟩ := trimLeftRev_split s
  have h1 : Str.trimLeftRev s = Str.trimLeftRev t := by
    conv => lhs; rw [hs, trimLeftRev_spaces hl, h, trimLeftRev_space ha]
  have h2 := trimLeftRev_length t
  rw [← h1, h, List.length_append, List.length_reverse] at h2
  have := List.length_pos_iff.2 (space_ne ha)
  omega

/-- White space begins with an ASCII byte or with a leading byte of UTF-8. -/
theorem spaces_head {c : Byte} {t : Str} (h : Spaces (c :: t)) : c < 0x80 ∨ 0xC0 ≤ c := by
  generalize e : c :: t = s at h
  cases h with
  | nil => cases e
  | cons a s ha _ =>
    cases ha with
    | ascii a h => obtain ⟨rfl, rfl⟩ := List.cons.inj e; rcases h with rfl | rfl | rfl | rfl | rfl | rfl <;> decide
    | two b h => obtain ⟨rfl, -⟩ := List.cons.inj e; decide
    | ogham => obtain ⟨rfl, -⟩ := List.cons.inj e; decide
    | general b h => obtain ⟨rfl, -⟩ := List.cons.inj e; decide
    | math => obtain ⟨rfl, -⟩ := List.cons.inj e; decide
    | ideographic => obtain ⟨rfl, -⟩ := List.cons.inj e; decide

theorem general_tail : ∀ c : Byte, (0x80 ≤ c ∧ c ≤ 0x8A ∨ c = 0xA8 ∨ c = 0xA9 ∨ c = 0xAF) →
    ¬ (c < 0x80 ∨ 0xC0 ≤ c) := by decide +kernel

/-- Within white space no other begins. -/
theorem space_tail {m x : Str} {c : Byte} (h : Space (m ++ c :: x)) (hm : m ≠ []) : ¬ (c < 0x80 ∨ 0xC0 ≤ c) := by
  generalize e : m ++ c :: x = s at h
  have three : ∀ a b d : Byte, m ++ c :: x = [a, b, d] → c = b ∨ c = d := by
    intro a b d e
    match m, hm with
    | [y], _ => simp at e; exact .inl e.2.1
    | [y, z], _ => simp at e; exact .inr e.2.2.1
    | y :: z :: w :: m, _ => have := congrArg List.length e; simp at this
  cases h with
  | ascii a h =>
    exfalso
    match m, hm with
    | y :: m, _ => have := congrArg List.length e; simp at this
  | two b h =>
    match m, hm with
    | [y], _ =>
      simp at e
      obtain ⟨-, rfl, -⟩ := e
      rcases h with rfl | rfl <;> decide
    | y :: z :: m, _ => have := congrArg List.length e; simp at this
  | ogham => rcases three _ _ _ e with rfl | rfl <;> decide
  | general b h => rcases three _ _ _ e with rfl | rfl; · decide
                   · exact general_tail _ h
  | math => rcases three _ _ _ e with rfl | rfl <;> decide
  | ideographic => rcases three _ _ _ e with rfl | rfl <;> decide

theorem trimmed_iff (v m : Str) : Trimmed v m ↔ Str.trimSpace v = m := by
  constructor
  · rintro ⟨⟨l, r, rfl, hl, hr⟩, h1, h2⟩
    by_cases hm : m = []
    · subst hm; simpa using trimSpace_spaces (hl.append hr)
    · have e1 : Str.trimLeft (l ++ m ++ r) = m ++ r := by
        rw [List.append_assoc, trimLeft_spaces hl]
        apply trimLeft_stop
        intro a t ha e
        rcases List.append_eq_append_iff.1 e with ⟨x, hx, hr'⟩ | ⟨x, hx, ht⟩
        · cases x with
          | nil => exact h1 a [] ha (by simpa using hx.symm)
          | cons c x =>
            subst hx
            rw [hr'] at hr
            exact space_tail ha hm (spaces_head (t := x ++ t) hr)
        · exact h1 a x ha hx
      rw [Str.trimSpace, e1, List.reverse_append, trimLeftRev_spaces hr, trimLeftRev_stop, List.reverse_reverse]
      intro a t ha e
      refine h2 a t.reverse ha ?_
      have := congrArg List.reverse e
      simpa using this
  · rintro rfl
    obtain ⟨l, hl, he⟩ := trimLeft_split v
    obtain ⟨r, hr, hf⟩ := trimLeftRev_split (Str.trimLeft v).reverse
    have e1 : Str.trimLeft v = Str.trimSpace v ++ r := by
      have := congrArg List.reverse hf
      simpa [Str.trimSpace] using this
    refine ⟨⟨l, r, by rw [List.append_assoc, ← e1]; exact he, hl, hr⟩, ?_, ?_⟩
    · intro a t ha e
      exact trimLeft_bare v a (t ++ r) ha (by rw [e1, e, List.append_assoc])
    · intro a t ha e
      refine trimLeftRev_bare (Str.trimLeft v).reverse a t.reverse ha ?_
      have := congrArg List.reverse e
      simpa [Str.trimSpace] using this

/-- Line feeds may be made spaces first. -/
theorem condenseLoop_map (m : Str) (b : Bool) :
    condenseLoop b (m.map fun c => if c = 10 then 32 else c) = condenseLoop b m := by
  induction m generalizing b with
  | nil => rfl
  | cons c m ih =>
    by_cases hc : c = 10
    · subst hc; simp [condenseLoop, ih]
    · simp [condenseLoop, hc, ih]

theorem condenseLoop_run {w : Str} (h : ∀ c ∈ w, Blank c) (t : Str) :
    condenseLoop true (w ++ t) = condenseLoop true t := by
  induction w with
  | nil => rfl
  | cons c w ih =>
    have hc : c = 9 ∨ c = 10 ∨ c = 32 := h c (by simp)
    rw [List.cons_append, condenseLoop, if_pos hc, if_pos rfl, ih fun c hc => h c (by simp [hc])]

theorem condenseLoop_ink {t : Str} (h : ∀ c ∈ t.head?, ¬ Blank c) : condenseLoop true t = condenseLoop false t := by
  cases t with
  | nil => rfl
  | cons c t =>
    have hc : ¬ (c = 9 ∨ c = 10 ∨ c = 32) := h c (by simp)
    simp [condenseLoop, hc]

theorem encode_middle : ∀ c : Byte, 0x80 ≤ c → c < 0xC0 → ¬ Blank c ∧ encodeByte c = [0xC2, c] := by decide +kernel

theorem encode_upper : ∀ c : Byte, 0xC0 ≤ c → ¬ Blank c ∧ encodeByte c = [0xC3, c - 0x40] := by decide +kernel

theorem squeezed_loop {m s : Str} (h : Squeezed m s) : condenseLoop false m = s := by
  induction h with
  | nil => rfl
  | blanks w t s hne hw ht _ ih =>
    cases w with
    | nil => exact absurd rfl hne
    | cons c w =>
      have hc : c = 9 ∨ c = 10 ∨ c = 32 := hw c (by simp)
      rw [List.cons_append, condenseLoop, if_pos hc, if_neg (by simp),
        condenseLoop_run (fun c hc => hw c (by simp [hc])), condenseLoop_ink ht, ih]
  | ascii c t s hb hc _ ih =>
    rw [condenseLoop, if_neg (show ¬ (c = 9 ∨ c = 10 ∨ c = 32) from hb), ih, encodeByte_plain hc]; rfl
  | middle c t s h1 h2 _ ih =>
    obtain ⟨hb, he⟩ := encode_middle c h1 h2
    rw [condenseLoop, if_neg (show ¬ (c = 9 ∨ c = 10 ∨ c = 32) from hb), ih, he]; rfl
  | upper c t s h1 _ ih =>
    obtain ⟨hb, he⟩ := encode_upper c h1
    rw [condenseLoop, if_neg (show ¬ (c = 9 ∨ c = 10 ∨ c = 32) from hb), ih, he]; rfl

theorem blanks_split (t : Str) : ∃ w t', t = w ++ t' ∧ (∀ c ∈ w, Blank c) ∧ ∀ c ∈ t'.head?, ¬ Blank c := by
  induction t with
  | nil => exact ⟨[], [], rfl, by simp, by simp⟩
  | cons c t ih =>
    by_cases hc : Blank c
    · obtain ⟨w, t', rfl, hw, ht⟩ := ih
      exact ⟨c :: w, t', rfl, by simpa using ⟨hc, hw⟩, ht⟩
    · exact ⟨[], c :: t, rfl, by simp, by simpa using hc⟩

theorem squeezed_total (n : Nat) : ∀ m : Str, m.length ≤ n → ∃ s, Squeezed m s := by
  induction n with
  | zero =>
    intro m hm
    have : m = [] := List.length_eq_zero_iff.1 (by omega)
    rw [this]; exact ⟨[], .nil⟩
  | succ n ih =>
    intro m hm
    cases m with
    | nil => exact ⟨[], .nil⟩
    | cons c t =>
      simp only [List.length_cons] at hm
      by_cases hc : Blank c
      · obtain ⟨w, t', rfl, hw, ht⟩ := blanks_split t
        obtain ⟨s, hs⟩ := ih t' (by rw [List.length_append] at hm; omega)
        exact ⟨_, .blanks (c :: w) t' s (by simp) (by simpa using ⟨hc, hw⟩) ht hs⟩
      · obtain ⟨s, hs⟩ := ih t (by omega)
        by_cases h1 : c < 0x80
        · exact ⟨_, .ascii c t s hc h1 hs⟩
        · by_cases h2 : c < 0xC0
          · exact ⟨_, .middle c t s (UInt8.not_lt.1 h1) h2 hs⟩
          · exact ⟨_, .upper c t s (UInt8.not_lt.1 h2) hs⟩

theorem squeezed_iff (m s : Str) : Squeezed m s ↔ condenseLoop false m = s := by
  refine ⟨squeezed_loop, ?_⟩
  rintro rfl
  obtain ⟨s, hs⟩ := squeezed_total m.length m (Nat.le_refl _)
  rw [squeezed_loop hs]; exact hs

theorem condenses_iff (v u : Str) : Condenses v u ↔ condenseWHSP v = u := by
  unfold Condenses condenseWHSP
  rw [condenseLoop_map]
  constructor
  · rintro ⟨m, s, h1, h2, h3⟩
    rw [(trimmed_iff _ _).1 h1, (squeezed_iff _ _).1 h2, (trimmed_iff _ _).1 h3]
  · intro h
    exact ⟨_, _, (trimmed_iff _ _).2 rfl, (squeezed_iff _ _).2 rfl, (trimmed_iff _ _).2 h⟩

theorem quote?_iff (c : Byte) : Quote? [c] ↔ isQuote c = true := by
  refine ⟨fun h => ?_, quote?_of⟩
  cases h <;> rfl

theorem dropQuote_one {c : Byte} (h : Quote? [c]) (t : Str) : dropQuote (c :: t) = t := by
  simp [dropQuote, (quote?_iff c).1 h]

theorem dropQuote_none {t : Str} (h : ∀ c ∈ t.head?, ¬ Quote? [c]) : dropQuote t = t := by
  cases t with
  | nil => rfl
  | cons c t =>
    have := h c (by simp)
    rw [quote?_iff] at this
    simp [dropQuote, this]

theorem dropQuote_eq {p t : Str} (hp : Quote? p) (h : p = [] → ∀ c ∈ t.head?, ¬ Quote? [c]) :
    dropQuote (p ++ t) = t := by
  cases hp with
  | absent => exact dropQuote_none (h rfl)
  | double => exact dropQuote_one .double t
  | single => exact dropQuote_one .single t
  | back => exact dropQuote_one .back t

theorem unquotes_iff (u t : Str) : Unquotes u t ↔ unquote u = t := by
  unfold Unquotes unquote
  by_cases hl : u.length ≤ 2
  · rw [if_pos hl]
    constructor
    · rintro (⟨-, h⟩ | ⟨h, -⟩)
      · exact h.symm
      · omega
    · intro h; exact .inl ⟨hl, h.symm⟩
  · rw [if_neg hl]
    constructor
    · rintro (⟨h, -⟩ | ⟨-, p, q, rfl, hp, hq, h1, h2⟩)
      · exact absurd h hl
      · have ht : t ≠ [] := by
          rintro rfl
          apply hl
          cases hp <;> cases hq <;> simp
        have e1 : dropQuote (p ++ t ++ q) = t ++ q := by
          rw [List.append_assoc]
          refine dropQuote_eq hp fun h => ?_
          subst h
          simpa using h1 rfl
        have e2 : dropQuote (t ++ q).reverse = t.reverse := by
          rw [List.reverse_append, hq.reverse]
          refine dropQuote_eq hq fun h => ?_
          subst h
          intro c hc
          refine h2 rfl c ?_
          rw [List.head?_reverse] at hc
          simp only [List.append_nil]
          rw [List.getLast?_append]
          rw [Option.mem_def] at hc ⊢
          rw [hc]; rfl
        rw [e1, e2, List.reverse_reverse]
    · intro h
      refine .inr ⟨by omega, ?_⟩
      have step : ∀ s : Str, ∃ p, s = p ++ dropQuote s ∧ Quote? p ∧ (p = [] → ∀ c ∈ s.head?, ¬ Quote? [c]) := by
        intro s
        cases s with
        | nil => exact ⟨[], rfl, .absent, by simp⟩
        | cons c s =>
          by_cases hc : isQuote c = true
          · exact ⟨[c], by simp [dropQuote, hc], quote?_of hc, by simp⟩
          · exact ⟨[], by simp [dropQuote, hc], .absent, by
              intro _ d hd
              simp only [List.head?_cons, Option.mem_def, Option.some.injEq] at hd
              rw [quote?_iff, ← hd]; exact hc⟩
      obtain ⟨p, hp1, hp2, hp3⟩ := step u
      obtain ⟨q, hq1, hq2, hq3⟩ := step (dropQuote u).reverse
      have e : dropQuote u = t ++ q := by
        have := congrArg List.reverse hq1
        rw [List.reverse_reverse, List.reverse_append, hq2.reverse, h] at this
        exact this
      refine ⟨p, q, by rw [List.append_assoc, ← e]; exact hp1, hp2, hq2, hp3, ?_⟩
      intro hq c hc
      refine hq3 hq c ?_
      rw [List.head?_reverse]
      have hne : dropQuote u ≠ [] := by
        intro hn
        rw [hn, List.append_nil] at hp1
        apply hl
        rw [hp1]
        cases hp2 <;> simp
      rw [hp1, List.getLast?_append] at hc
      rw [List.getLast?_eq_some_getLast hne] at hc ⊢
      simpa using hc

theorem inside_iff (v t : Str) : Inside v t ↔ unquote (condenseWHSP v) = t := by
  constructor
  · rintro ⟨u, h1, h2⟩
    rw [(condenses_iff _ _).1 h1, (unquotes_iff _ _).1 h2]
  · intro h
    exact ⟨_, (condenses_iff _ _).2 rfl, (unquotes_iff _ _).2 h⟩

/-- The way to use it: there is exactly one such text. -/
theorem inside_of (v : Str) : Inside v (unquote (condenseWHSP v)) := (inside_iff _ _).2 rfl

theorem condenses_of (v : Str) : Condenses v (condenseWHSP v) := (condenses_iff _ _).2 rfl

end Verif
