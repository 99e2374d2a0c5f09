import Verif.Spec.Reading
import Verif.Lemmas.Misc

namespace Verif.Spec
open Verif Verif.Misc

theorem white_mark : ¬ White (34 : Byte) := by decide

/-- Whether a text ends outside of quotation marks. -/
def endsOut (inq : Bool) : Str → Bool
  | [] => !inq
  | c :: t => endsOut (if c = 34 then !inq else inq) t

theorem endsOut_white {r : Str} (h : ∀ c ∈ r, White c) (q : Bool) : ∀ s, endsOut q (r ++ s) = endsOut q s := by
  intro s
  induction r with
  | nil => rfl
  | cons c r ih =>
    have hc : c ≠ 34 := fun e => white_mark (e ▸ h c (by simp))
    simp only [List.cons_append, endsOut, hc, if_false]
    exact ih fun d hd => h d (by simp [hd])

theorem endsOut_append {r : Str} (h : ∀ c ∈ r, White c) : ∀ (s : Str) (q : Bool), endsOut q (s ++ r) = endsOut q s
  | [], q => by
    have := endsOut_white h q []
    simpa using this
  | c :: s, q => by simp only [List.cons_append, endsOut]; exact endsOut_append h s _

theorem quiet_endsOut : ∀ (s : Str) (q l : Bool), Quiet q l s → endsOut q s = true
  | [], q, l, h => by simp [Quiet] at h; simp [endsOut, h]
  | c :: t, q, l, h => by
    simp only [Quiet] at h
    simp only [endsOut]
    by_cases hc : c = 34
    · rw [if_pos hc] at h ⊢
      exact quiet_endsOut t _ _ h
    · rw [if_neg hc] at h ⊢
      cases q
      · exact quiet_endsOut t _ _ (by simpa using h)
      · exact quiet_endsOut t _ _ (by simpa using h.2.2.2)

theorem outer_white {r : Str} (h : ∀ c ∈ r, White c) : ∀ pend, outer false pend r = [] := by
  induction r with
  | nil => intro; rfl
  | cons c r ih =>
    intro pend
    simp only [outer, h c (by simp), if_true, Bool.false_eq_true, if_false]
    exact ih (fun d hd => h d (by simp [hd])) true

theorem outer_append {r : Str} (h : ∀ c ∈ r, White c) : ∀ (s : Str) (q pend : Bool), endsOut q s = true →
    outer q pend (s ++ r) = outer q pend s
  | [], q, pend, he => by
    have : q = false := by simpa [endsOut] using he
    subst this
    exact outer_white h pend
  | c :: s, q, pend, he => by
    simp only [endsOut] at he
    cases q
    · by_cases hw : White c
      · have hc : c ≠ 34 := fun e => white_mark (e ▸ hw)
        rw [if_neg hc] at he
        simp only [List.cons_append, outer, hw, if_true, Bool.false_eq_true, if_false]
        exact outer_append h s _ _ he
      · have hs : endsOut (decide (c = 34)) s = true := by
          by_cases hc : c = 34 <;> simpa [hc] using he
        simp only [List.cons_append, outer, hw, Bool.false_eq_true, if_false, outer_append h s _ false hs]
    · have hs : endsOut (decide (c ≠ 34)) s = true := by
        by_cases hc : c = 34 <;> simpa [hc] using he
      simp only [List.cons_append, outer, if_true, outer_append h s _ false hs]

theorem dropWhile_white {l : Str} (h : ∀ c ∈ l, White c) (s : Str) :
    (l ++ s).dropWhile White = s.dropWhile White := by
  induction l with
  | nil => rfl
  | cons c l ih =>
    simp only [List.cons_append, List.dropWhile, h c (by simp), decide_true]
    exact ih fun d hd => h d (by simp [hd])

theorem endsOut_dropWhile (q : Bool) : ∀ s : Str, endsOut q (s.dropWhile White) = endsOut q s
  | [] => rfl
  | c :: s => by
    by_cases hw : White c
    · have hc : c ≠ 34 := fun e => white_mark (e ▸ hw)
      simp only [List.dropWhile, hw, decide_true, endsOut, hc, if_false]
      exact endsOut_dropWhile q s
    · simp [List.dropWhile, hw]

theorem dropWhile_append {r : Str} (h : ∀ c ∈ r, White c) : ∀ s : Str,
    (s ++ r).dropWhile White = s.dropWhile White ++ r ∨
      ((s ++ r).dropWhile White = [] ∧ s.dropWhile White = [])
  | [] => by
    right
    have := dropWhile_white h []
    simpa using this
  | c :: s => by
    by_cases hw : White c
    · simp only [List.cons_append, List.dropWhile, hw, decide_true]
      exact dropWhile_append h s
    · simp [List.dropWhile, hw]

theorem shape_trim {s : Str} (ha : Str.IsAscii s) (he : endsOut false s = true) :
    shape (Str.trimSpace s) = shape s := by
  obtain ⟨l, r, hl, hr, e⟩ := trimSpace_split s
  have hla := spaces_white hl (fun c hc => ha c (by rw [e]; simp [hc]))
  have hra := spaces_white hr (fun c hc => ha c (by rw [e]; simp [hc]))
  have he' : endsOut false (Str.trimSpace s) = true := by
    rw [e, List.append_assoc, endsOut_white hla, endsOut_append hra] at he
    exact he
  unfold shape
  conv => rhs; rw [e, List.append_assoc, dropWhile_white hla]
  rcases dropWhile_append hra (Str.trimSpace s) with h | ⟨h, h'⟩
  · rw [h, outer_append hra _ _ _ (by rw [endsOut_dropWhile]; exact he')]
  · rw [h, h']

/-- The loop of `condenseWHSP` after its replacement of line feeds. -/
def loopNl (last : Bool) (s : Str) : Str := condenseLoop last (s.map fun c => if c = 10 then 32 else c)

theorem loopNl_blank (last : Bool) {c : Byte} (h : c = 9 ∨ c = 10 ∨ c = 32) (t : Str) :
    loopNl last (c :: t) = if last then loopNl true t else 32 :: loopNl true t := by
  rcases h with rfl | rfl | rfl <;> cases last <;> simp [loopNl, condenseLoop]

theorem loopNl_other (last : Bool) {c : Byte} (h : ¬ (c = 9 ∨ c = 10 ∨ c = 32)) (hc : c < 128) (t : Str) :
    loopNl last (c :: t) = c :: loopNl false t := by
  have h10 : c ≠ 10 := fun e => h (Or.inr (Or.inl e))
  have h' : ¬ (c = 9 ∨ False ∨ c = 32) := by
    rintro (e | e | e)
    · exact h (Or.inl e)
    · exact e
    · exact h (Or.inr (Or.inr e))
  simp only [loopNl, List.map_cons, h10, if_false, condenseLoop, encodeByte, hc, if_true]
  rw [if_neg h']
  rfl

theorem endsOut_loop : ∀ (s : Str) (q last : Bool), Str.IsAscii s → endsOut q (loopNl last s) = endsOut q s
  | [], q, last, _ => rfl
  | c :: t, q, last, ha => by
    have hat : Str.IsAscii t := fun d hd => ha d (by simp [hd])
    by_cases hb : c = 9 ∨ c = 10 ∨ c = 32
    · have hc : c ≠ 34 := by rcases hb with rfl | rfl | rfl <;> decide
      rw [loopNl_blank last hb]
      cases last
      · simp only [Bool.false_eq_true, if_false, endsOut, hc]
        rw [if_neg (by decide)]
        exact endsOut_loop t q true hat
      · simp only [if_true, endsOut, hc, if_false]
        exact endsOut_loop t q true hat
    · rw [loopNl_other last hb (ha c (by simp))]
      simp only [endsOut]
      exact endsOut_loop t _ false hat

theorem outer_loop : ∀ (s : Str), Str.IsAscii s →
    (∀ last pend : Bool, (last = true → pend = true) → Quiet false false s →
      outer false pend (loopNl last s) = outer false pend s) ∧
    (∀ last : Bool, Quiet true last s → outer true false (loopNl last s) = outer true false s)
  | [], _ => ⟨fun _ _ _ _ => rfl, fun _ _ => rfl⟩
  | c :: t, ha => by
    have hat : Str.IsAscii t := fun d hd => ha d (by simp [hd])
    obtain ⟨ih1, ih2⟩ := outer_loop t hat
    constructor
    · intro last pend hlp hq
      simp only [Quiet] at hq
      by_cases hb : c = 9 ∨ c = 10 ∨ c = 32
      · have hc : c ≠ 34 := by rcases hb with rfl | rfl | rfl <;> decide
        have hw : White c := by rcases hb with rfl | rfl | rfl <;> decide
        rw [if_neg hc] at hq
        have hq : Quiet false false t := by simpa using hq
        have h32 : White (32 : Byte) := by decide
        rw [loopNl_blank last hb]
        cases last
        · simp only [Bool.false_eq_true, if_false, outer, hw, h32, if_true]
          exact ih1 true true (fun _ => rfl) hq
        · have hp := hlp rfl
          subst hp
          simp only [if_true, outer, hw, Bool.false_eq_true, if_false]
          exact ih1 true true (fun _ => rfl) hq
      · rw [loopNl_other last hb (ha c (by simp))]
        by_cases hc : c = 34
        · subst hc
          rw [if_pos rfl] at hq
          have := ih2 false hq
          have hw := white_mark
          simp only [outer, hw, Bool.false_eq_true, if_false, decide_true, this]
        · rw [if_neg hc] at hq
          have hq : Quiet false false t := by simpa using hq
          by_cases hw : White c
          · simp only [outer, hw, if_true, Bool.false_eq_true, if_false]
            exact ih1 false true (by simp) hq
          · have := ih1 false false (by simp) hq
            simp only [outer, hw, Bool.false_eq_true, if_false, hc, decide_false, this]
    · intro last hq
      simp only [Quiet] at hq
      by_cases hc : c = 34
      · subst hc
        rw [if_pos rfl] at hq
        rw [loopNl_other last (by decide) (by decide)]
        simp only [outer, if_true, ne_eq, not_true_eq_false, decide_false]
        exact congrArg _ (ih1 false false (by simp) (by simpa using hq))
      · rw [if_neg hc] at hq
        obtain ⟨h9, h10, h32, hq⟩ : c ≠ 9 ∧ c ≠ 10 ∧ (c = 32 → last = false) ∧ Quiet true (c = 32) t := by
          simpa using hq
        by_cases hs : c = 32
        · have hl := h32 hs
          subst hs
          subst hl
          rw [loopNl_blank false (by decide)]
          have := ih2 true (by simpa using hq)
          simp only [Bool.false_eq_true, if_false, outer, if_true]
          exact congrArg _ (by simpa using this)
        · rw [loopNl_other last (by simp [h9, h10, hs]) (ha c (by simp))]
          have := ih2 false (by simpa [hs] using hq)
          simp only [outer, if_true]
          exact congrArg _ (by simpa [hc] using this)

theorem quiet_white {r : Str} (h : ∀ c ∈ r, White c) : ∀ s, Quiet false false (r ++ s) ↔ Quiet false false s := by
  intro s
  induction r with
  | nil => rfl
  | cons c r ih =>
    have hc : c ≠ 34 := fun e => white_mark (e ▸ h c (by simp))
    simp only [List.cons_append, Quiet, hc, if_false]
    simpa using ih fun d hd => h d (by simp [hd])

theorem quiet_append {r : Str} (h : ∀ c ∈ r, White c) : ∀ (s : Str) (q l : Bool), Quiet q l (s ++ r) →
    Quiet q l s ∨ endsOut q s = false
  | [], q, l, hq => by cases q <;> simp [Quiet, endsOut]
  | c :: s, q, l, hq => by
    simp only [List.cons_append, Quiet, endsOut] at hq ⊢
    by_cases hc : c = 34
    · rw [if_pos hc] at hq ⊢
      rw [if_pos hc]
      exact quiet_append h s _ _ hq
    · rw [if_neg hc] at hq ⊢
      rw [if_neg hc]
      cases q
      · simpa using quiet_append h s _ _ (by simpa using hq)
      · obtain ⟨h1, h2, h3, h4⟩ : c ≠ 9 ∧ c ≠ 10 ∧ (c = 32 → l = false) ∧ Quiet true (c = 32) (s ++ r) := by
          simpa using hq
        rcases quiet_append h s _ _ h4 with h5 | h5
        · exact Or.inl (by simpa using ⟨h1, h2, h3, h5⟩)
        · exact Or.inr h5

/-- Condensing changes white space outside of quotation marks only, when it finds nothing to
condense within them. -/
theorem shape_condense {s : Str} (ha : Str.IsAscii s) (hq : Quiet false false s) :
    shape (condenseWHSP s) = shape s := by
  have he := quiet_endsOut s _ _ hq
  obtain ⟨l, r, hl, hr, e⟩ := trimSpace_split s
  have hla := spaces_white hl (fun c hc => ha c (by rw [e]; simp [hc]))
  have hra := spaces_white hr (fun c hc => ha c (by rw [e]; simp [hc]))
  have hma := trim_ascii ha
  have he' : endsOut false (Str.trimSpace s) = true := by
    rw [e, List.append_assoc, endsOut_white hla, endsOut_append hra] at he
    exact he
  have hq' : Quiet false false (Str.trimSpace s) := by
    rw [e, List.append_assoc, quiet_white hla] at hq
    rcases quiet_append hra _ _ _ hq with h | h
    · exact h
    · rw [he'] at h; cases h
  have hu : Str.IsAscii (loopNl false (Str.trimSpace s)) := condenseLoop_ascii (nl_ascii hma) false
  have h1 : shape (condenseWHSP s) = shape (loopNl false (Str.trimSpace s)) :=
    shape_trim hu ((endsOut_loop _ _ _ hma).trans he')
  rw [h1, ← shape_trim ha he]
  cases hm : Str.trimSpace s with
  | nil => rfl
  | cons c t =>
    have hne : Str.trimSpace s ≠ [] := by simp [hm]
    have hsolid := (trim_ends ha hne).1
    simp only [hm, List.head_cons] at hsolid
    have hw : ¬ White c := by
      intro hw
      have := (isSpace1_white c).2 hw
      rw [hsolid.2] at this
      cases this
    have hb : ¬ (c = 9 ∨ c = 10 ∨ c = 32) := by
      rintro (rfl | rfl | rfl) <;> exact hw (by decide)
    have hmain := (outer_loop (c :: t) (hm ▸ hma)).1 false false (by simp) (hm ▸ hq')
    unfold shape
    have d1 : (c :: t).dropWhile White = c :: t := by simp [List.dropWhile, hw]
    have d2 : (loopNl false (c :: t)).dropWhile White = loopNl false (c :: t) := by
      rw [loopNl_other false hb hsolid.1]
      simp [List.dropWhile, hw]
    rw [d1, d2]
    exact hmain

end Verif.Spec
