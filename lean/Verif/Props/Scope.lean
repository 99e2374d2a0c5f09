import Verif.Model.Scope
import Verif.Spec.Scope
import Verif.Lemmas.Case
import Verif.Lemmas.Clean

/-!
# C21: search scopes
-/

namespace Verif.SearchScope
open Verif Verif.Spec

/-- The exported constant of each scope. -/
def const : Spec.Scope → SearchScope
  | .base => BaseObject | .one => SingleLevel | .sub => Subtree | .subordinate => Subordinate

theorem const_injective (k l : Spec.Scope) (h : const k = const l) : k = l := by
  revert h; cases k <;> cases l <;> decide

theorem const_ne (k : Spec.Scope) : const k ≠ noScope := by cases k <;> decide

private theorem strToScope_of {x : Str} {k : Spec.Scope} (h : Str.lower x ∈ k.spellings) :
    strToScope x = const k := by
  unfold strToScope
  cases k <;> simp only [Spec.Scope.spellings, List.mem_cons, List.not_mem_nil, or_false] at h <;>
    rcases h with h | h <;> simp only [h] <;> decide

private theorem strToScope_none {x : Str} (h : ∀ k : Spec.Scope, Str.lower x ∉ k.spellings) :
    strToScope x = noScope := by
  have h0 := h .base
  have h1 := h .one
  have h2 := h .sub
  have h3 := h .subordinate
  simp only [Spec.Scope.spellings, List.mem_cons, List.not_mem_nil, or_false] at h0 h1 h2 h3
  unfold strToScope
  simp only [h0, h1, h2, h3, if_false]

/-- A text is read as a scope exactly when it is one of its spellings, in any
letter case. -/
theorem C21_reader (x : Str) :
    (∀ k : Spec.Scope, strToScope x = const k ↔ Str.lower x ∈ k.spellings) ∧
      (strToScope x = noScope ↔ ∀ k : Spec.Scope, Str.lower x ∉ k.spellings) := by
  have hcase : (∃ k : Spec.Scope, Str.lower x ∈ k.spellings) ∨
      ∀ k : Spec.Scope, Str.lower x ∉ k.spellings := by
    by_cases h : ∃ k : Spec.Scope, Str.lower x ∈ k.spellings
    · exact .inl h
    · exact .inr fun k hk => h ⟨k, hk⟩
  rcases hcase with ⟨l, hl⟩ | hno
  · have e := strToScope_of hl
    refine ⟨fun k => ⟨fun h => ?_, strToScope_of⟩, ⟨fun h => ?_, fun h => absurd hl (h l)⟩⟩
    · rw [e] at h; rw [← const_injective _ _ h]; exact hl
    · rw [e] at h; exact absurd h (const_ne l)
  · have e := strToScope_none hno
    refine ⟨fun k => ⟨fun h => ?_, fun h => absurd h (hno k)⟩, ⟨fun _ => hno, fun _ => e⟩⟩
    rw [e] at h; exact absurd h.symm (const_ne k)

/-- **C21**, target rule notation: every scope prints its documented text, and this
text in any letter case is read as the same scope. -/
theorem C21_target_text (k : Spec.Scope) :
    string (const k) = k.targetText ∧
      ∀ s, AnyCase (string (const k)) s → scope (.str s) = const k := by
  have e : string (const k) = k.targetText := by cases k <;> decide
  refine ⟨e, fun s hs => ?_⟩
  rw [e] at hs
  have ha : Str.IsAscii k.targetText := by cases k <;> decide
  show strToScope s = const k
  rw [((C21_reader s).1 k), hs.lower ha]
  cases k <;> decide

/-- **C21**, in a target rule: the printed text is accepted as the value of a
targetscope rule, with any white space around it and in quotes or not. -/
theorem C21_target_rule (k : Spec.Scope) (l p q r s : Str) (hl : Spaces l) (hr : Spaces r)
    (hp : Quote? p) (hq : Quote? q) (hs : AnyCase (string (const k)) s) :
    (assertTargetScope [l ++ p ++ s ++ q ++ r]).toOption = some (const k) := by
  have hread := (C21_target_text k).2 s hs
  have e : string (const k) = k.targetText := (C21_target_text k).1
  rw [e] at hs
  have hlow : ∀ c : Byte, (97 ≤ Str.lowerByte c ∧ Str.lowerByte c ≤ 122) →
      33 ≤ c ∧ c ≤ 126 ∧ Misc.isQuote c = false := by decide +kernel
  have hlet : ∀ c ∈ s, 97 ≤ Str.lowerByte c ∧ Str.lowerByte c ≤ 122 := by
    intro c hc
    have hm : Str.lowerByte c ∈ k.targetText.map Str.lowerByte := by
      rw [← hs]; exact List.mem_map_of_mem hc
    have : ∀ d ∈ k.targetText.map Str.lowerByte, 97 ≤ d ∧ d ≤ 122 := by cases k <;> decide +kernel
    exact this _ hm
  have hlen : s.length = k.targetText.length := by
    have := congrArg List.length hs; simpa using this
  have hlen2 : 2 < s.length := by rw [hlen]; cases k <;> decide
  have hne : s ≠ [] := by rintro rfl; simp at hlen2
  have hclean := clean_frame hl hr hp hq (t := s)
    (fun c hc => ⟨(hlow c (hlet c hc)).1, (hlow c (hlet c hc)).2.1⟩) hlen2 hne
    ((hlow _ (hlet _ (List.head_mem hne))).2.2) ((hlow _ (hlet _ (List.getLast_mem hne))).2.2)
  have hread' : strToScope s = const k := hread
  simp only [assertTargetScope, hclean, hread']
  rw [if_neg (by omega), if_neg (const_ne k)]; rfl

example : AnyCase (string (const .one)) b!"OneLevel" := by decide

/-- What **C21** claims of the URI notation. -/
def UriTextRoundTrips (k : Spec.Scope) : Prop :=
  ∀ s, AnyCase (standard (const k)) s → scope (.str s) = const k

/-- **C21** does not hold for the URI notation: the subordinate scope is written
`base`, and read back as the base scope. -/
theorem C21_counterexample : ¬ ∀ k, UriTextRoundTrips k := by
  intro h
  exact absurd (h .subordinate b!"base" (by decide)) (by decide)

/-- **C21**, URI notation, for all scopes but subordinate.  Missing: subordinate, for
which the claim is false. -/
theorem C21_uri_text_partial (k : Spec.Scope) (hk : k ≠ .subordinate) : UriTextRoundTrips k := by
  intro s hs
  show strToScope s = const k
  rw [(C21_reader s).1 k, hs.lower (by cases k <;> decide)]
  revert hk
  cases k <;> decide

example : Spec.Scope.sub ≠ .subordinate ∧ AnyCase (standard (const .sub)) b!"SUB" := by decide

/-- Numbers are read as documented; unknown numbers mean the base scope. -/
theorem C21_number (k : Spec.Scope) (i : Int) :
    (i = k.number → scope (.int i) = const k) ∧
      ((∀ l : Spec.Scope, i ≠ l.number) → scope (.int i) = const .base) := by
  constructor
  · rintro rfl; cases k <;> decide
  · intro h
    have h1 := h .one
    have h2 := h .sub
    have h3 := h .subordinate
    simp only [Spec.Scope.number] at h1 h2 h3
    simp [scope, intToScope, h1, h2, h3, const]

end Verif.SearchScope
