import Verif.Lemmas.DN

/-!
# Facts about LDAP URIs
-/

namespace Verif.Uri
open Verif Verif.Spec Verif.Attr Verif.DN Verif.Filter

theorem attrName_avoids {s : Str} (h : AttrName s) {c : Byte} (h1 : ¬ Cased c) (h2 : ¬ Digit c)
    (h3 : c ≠ 59) (h4 : c ≠ 45) (h5 : c ≠ 42) : c ∉ s := by
  rcases h with h | rfl
  · intro hm
    rcases h.2.2 c hm with x | x | x | x
    · exact h1 x
    · exact h2 x
    · exact h3 x
    · exact h4 x
  · simp; exact h5

theorem attrName_ne_nil {s : Str} (h : AttrName s) : s ≠ [] := by
  rcases h with ⟨⟨a, t, rfl, _⟩, _⟩ | rfl <;> simp

/-- Pushing names into a list whose policy looks at no entries appends them. -/
theorem push_names (eq : Str → Str → Bool) (names : List Str) (h : ∀ s ∈ names, AttrName s)
    (es : List AttributeType) :
    ATs.push eq ⟨es, []⟩ (names.map fun s => PushArg.at_ (some s)) = ⟨es ++ names.map some, []⟩ := by
  induction names generalizing es with
  | nil => simp [ATs.push]
  | cons s t ih =>
    have hs := attrName_ne_nil (h s (by simp))
    have : ATs.push1 eq ⟨es, []⟩ (.at_ (some s)) = ⟨es ++ [some s], []⟩ := by
      simp [ATs.push1, pushPolicy, containsAT, castArg, AttributeType.isZero, hs]
    rw [List.map_cons]
    have ih' := ih (fun x hx => h x (by simp [hx])) (es ++ [some s])
    simp only [ATs.push, List.foldl_cons] at ih' ⊢
    rw [this, ih']; simp

theorem attrsText_names (names : List Str) (b : List AttributeType) :
    attrsText ⟨names.map some, b⟩ = Str.join b!"," names := by
  simp [attrsText, Function.comp_def, AttributeType.string]

theorem join_mem {c : Byte} {sep : Str} {l : List Str} (h : c ∈ Str.join sep l) :
    c ∈ sep ∨ ∃ s ∈ l, c ∈ s := by
  induction l with
  | nil => simp [Str.join] at h
  | cons a l ih =>
    cases l with
    | nil => right; exact ⟨a, by simp, by simpa [Str.join] using h⟩
    | cons b t =>
      rw [Str.join] at h
      rcases List.mem_append.1 h with h | h
      · rcases List.mem_append.1 h with h | h
        · exact Or.inr ⟨a, by simp, h⟩
        · exact Or.inl h
      · rcases ih h with h | ⟨s, hs, hc⟩
        · exact Or.inl h
        · exact Or.inr ⟨s, by simp [hs], hc⟩

theorem names_avoid {names : List Str} (h : ∀ s ∈ names, AttrName s) {c : Byte} (h0 : c ≠ 44)
    (h1 : ¬ Cased c) (h2 : ¬ Digit c) (h3 : c ≠ 59) (h4 : c ≠ 45) (h5 : c ≠ 42) :
    c ∉ Str.join b!"," names := by
  intro hm
  rcases join_mem hm with hm | ⟨s, hs, hc⟩
  · simp at hm; exact h0 hm
  · exact attrName_avoids (h s hs) h1 h2 h3 h4 h5 hc

theorem dropSpaces_id {s : Str} (h : (32 : Byte) ∉ s) : Str.dropSpaces s = s := by
  rw [Str.dropSpaces, List.filter_eq_self]
  intro a ha
  simp only [ne_eq, decide_eq_true_eq]
  rintro rfl; exact h ha

theorem join_eq_nil {names : List Str} (h : ∀ s ∈ names, AttrName s) :
    Str.join b!"," names = [] ↔ names = [] := by
  constructor
  · intro he
    match names, h, he with
    | [], _, _ => rfl
    | [a], h, he => exact absurd he (attrName_ne_nil (h a (by simp)))
    | a :: b :: t, h, he => simp [Str.join] at he
  · rintro rfl; rfl

theorem atbList_names (eq : Str → Str → Bool) {names : List Str} (hn : names ≠ [])
    (h : ∀ s ∈ names, AttrName s) :
    atbList eq (Str.join b!"," names) = ⟨names.map some, []⟩ := by
  have h32 : (32 : Byte) ∉ Str.join b!"," names :=
    names_avoid h (by decide) (by decide) (by decide) (by decide) (by decide) (by decide)
  have h44 : ∀ s ∈ names, (44 : Byte) ∉ s := fun s hs =>
    attrName_avoids (h s hs) (by decide) (by decide) (by decide) (by decide) (by decide)
  rw [atbList, dropSpaces_id h32, Str.split1_join hn h44]
  have : (names.map fun a => PushArg.at_ (AT a)) = names.map fun a => PushArg.at_ (some a) := by
    apply List.map_congr_left
    intro s hs; rw [(AT_some s).2 (h s hs)]
  rw [this, UAs, push_names eq names h]; simp

theorem transfer_names (eq : Str → Str → Bool) {names : List Str} (h : ∀ s ∈ names, AttrName s)
    (b : List AttributeType) : transfer eq ⟨names.map some, b⟩ UAs = ⟨names.map some, []⟩ := by
  rw [transfer, List.map_map, UAs]
  have := push_names eq names h []
  simpa [Function.comp_def] using this

/-- What `uriAssertATB` makes of a list of names. -/
theorem uriAssertATB_names (eq : Str → Str → Bool) (r : Uri) {names : List Str}
    (h : ∀ s ∈ names, AttrName s) (hr : r.attrs = UAs) (bkw : List BindKeyword) :
    uriAssertATB eq r (Str.join b!"," names) bkw = .ok { r with attrs := ⟨names.map some, []⟩ } := by
  by_cases hn : names = []
  · subst hn
    rw [uriAssertATB, if_pos (by rfl)]
    rw [show (⟨[].map some, []⟩ : ATs) = r.attrs from hr.symm]
  · have hne : Str.join b!"," names ≠ [] := fun e => hn ((join_eq_nil h).1 e)
    have h35 : (35 : Byte) ∉ Str.join b!"," names :=
      names_avoid h (by decide) (by decide) (by decide) (by decide) (by decide) (by decide)
    rw [uriAssertATB, if_neg (fun e => hne (List.length_eq_zero_iff.1 e)), if_neg]
    · simp only [Uri.set1, atbList_names eq hn h, hr, transfer_names eq h]
    · rw [containsStr1]; exact h35

theorem join_inj {l m : List Str} (hl : ∀ s ∈ l, AttrName s) (hm : ∀ s ∈ m, AttrName s)
    (h : Str.join b!"," l = Str.join b!"," m) : l = m := by
  have h44 : ∀ (l : List Str), (∀ s ∈ l, AttrName s) → ∀ s ∈ l, (44 : Byte) ∉ s := fun l hl s hs =>
    attrName_avoids (hl s hs) (by decide) (by decide) (by decide) (by decide) (by decide)
  by_cases hn : l = []
  · subst hn
    exact ((join_eq_nil hm).1 h.symm).symm
  · have hn' : m ≠ [] := by
      rintro rfl
      exact hn ((join_eq_nil hl).1 h)
    rw [← Str.split1_join hn (h44 l hl), h, Str.split1_join hn' (h44 m hm)]

theorem split_at_first {c : Byte} {p q r s : Str} (hp : c ∉ p) (hq : c ∉ q)
    (h : p ++ c :: r = q ++ c :: s) : p = q ∧ r = s := by
  have h1 := Str.cut1_append (c := c) (s := p) (t := r) hp
  rw [h, Str.cut1_append hq] at h1
  injection h1 with h1
  injection h1 with h1 h2
  exact ⟨h1.symm, h2.symm⟩

end Verif.Uri
