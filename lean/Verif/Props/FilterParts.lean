import Verif.Model.Filter
import Verif.Props.Attr
import Verif.Spec.Attr

/-!
# C103: an attribute filter holds the parts given to it
-/

namespace Verif.Parts
open Verif Verif.Spec Verif.Filter Verif.Attr

/-- An argument that gives the attribute type: a value of this type, or its name. -/
def GivesAttr (a : AFArg) (t : AttributeType) : Prop :=
  a = .at_ t ∨ ∃ s, a = .str s ∧ Identifier s ∧ t = some s

/-- An argument that gives the filter: a value of this type, or a text that is no name. -/
def GivesFilter (a : AFArg) (f : SearchFilter) : Prop :=
  a = .sf f ∨ ∃ s, a = .str s ∧ ¬ Identifier s ∧ f = some s

/-- **C103** for texts, as `AT` reads them: an acceptable attribute type is one. -/
def NamesTaken : Prop :=
  ∀ x, AttributeType.isZero (AT x) = false → (AF [.str x]).attributeType = AT x

/-- **C103** for the empty text, which `SearchFilter.Set` passes over: it changes nothing. -/
def EmptyPassed : Prop :=
  ∀ x, AttributeFilter.string (AttributeFilter.set (AF x) [.str []]) = AttributeFilter.string (AF x)

/-- **C103** fails: the text `*`, an acceptable attribute type, becomes the filter, and the
empty text takes the filter away. -/
theorem C103_counterexample : ¬ NamesTaken ∧ ¬ EmptyPassed := by
  constructor
  · intro h
    exact absurd (h b!"*" (by decide)) (by decide)
  · intro h
    exact absurd (h [.str b!"cn", .str b!"(a=b)"]) (by decide +kernel)

/-- The first `set1` decides by `Identifier`. -/
theorem set1_str (r : Atf) (s : Str) :
    (Identifier s → r.set1 (.str s) = ⟨some s, r.sf⟩) ∧ (¬ Identifier s → r.set1 (.str s) = ⟨r.at_, some s⟩) := by
  have h := C32_identifier s
  constructor
  · intro hi
    simp [Atf.set1, h.2 hi, AT]
  · intro hi
    have : Misc.isIdentifier s = false := by
      cases e : Misc.isIdentifier s with
      | false => rfl
      | true => exact absurd (h.1 e) hi
    simp [Atf.set1, this, mkFilter]

/-- The state of a filter value: what counts of it. -/
def state (r : AttributeFilter) : Atf := r.getD ⟨none, none⟩

/-- Equal up to values that are zero. -/
def Same (a b : Atf) : Prop :=
  (a.at_ = b.at_ ∨ AttributeType.isZero a.at_ = true ∧ AttributeType.isZero b.at_ = true) ∧
    (a.sf = b.sf ∨ SearchFilter.isZero a.sf = true ∧ SearchFilter.isZero b.sf = true)

theorem Same.set1 {a b : Atf} (h : Same a b) (x : AFArg) : Same (a.set1 x) (b.set1 x) := by
  cases x with
  | str s =>
    by_cases hs : Identifier s
    · rw [(set1_str a s).1 hs, (set1_str b s).1 hs]; exact ⟨.inl rfl, h.2⟩
    · rw [(set1_str a s).2 hs, (set1_str b s).2 hs]; exact ⟨h.1, .inl rfl⟩
  | at_ t => exact ⟨.inl rfl, h.2⟩
  | sf f => exact ⟨h.1, .inl rfl⟩
  | other => exact h

theorem Same.set {a b : Atf} (h : Same a b) (x : List AFArg) : Same (a.set x) (b.set x) := by
  unfold Atf.set
  induction x generalizing a b with
  | nil => exact h
  | cons c t ih => exact ih (h.set1 c)

theorem Same.refl (a : Atf) : Same a a := ⟨.inl rfl, .inl rfl⟩

theorem Same.trans {a b c : Atf} (h : Same a b) (k : Same b c) : Same a c := by
  obtain ⟨h1, h2⟩ := h
  obtain ⟨k1, k2⟩ := k
  constructor
  · rcases h1 with h1 | h1 <;> rcases k1 with k1 | k1 <;> simp_all
  · rcases h2 with h2 | h2 <;> rcases k2 with k2 | k2 <;> simp_all

theorem history {r : AttributeFilter} {b : Atf} (h : Same (state r) b) (calls : List (List AFArg)) :
    Same (state (calls.foldl AttributeFilter.set r)) (b.set calls.flatten) := by
  induction calls generalizing r b with
  | nil => exact h
  | cons x t ih =>
    simp only [List.foldl_cons, List.flatten_cons, Atf.set, List.foldl_append]
    refine ih ?_
    refine Same.trans ?_ (h.set x)
    unfold AttributeFilter.set
    by_cases hz : AttributeFilter.isZero r = true
    · rw [if_pos hz]
      refine Same.set ?_ x
      cases r with
      | none => exact .refl _
      | some a =>
        have : SearchFilter.isZero a.sf = true ∧ AttributeType.isZero a.at_ = true := by
          simpa [AttributeFilter.isZero] using hz
        exact ⟨.inr ⟨rfl, this.2⟩, .inr ⟨rfl, this.1⟩⟩
    · rw [if_neg hz]
      cases r with
      | none => exact absurd rfl hz
      | some a => exact .refl _

theorem keeps_attr (r : Atf) {l : List AFArg} (h : ∀ a ∈ l, ∀ t, ¬ GivesAttr a t) : (r.set l).at_ = r.at_ := by
  unfold Atf.set
  induction l generalizing r with
  | nil => rfl
  | cons a t ih =>
    rw [List.foldl_cons, ih _ fun b hb => h b (by simp [hb])]
    cases a with
    | str s =>
      by_cases hs : Identifier s
      · exact absurd (.inr ⟨s, rfl, hs, rfl⟩) (h _ (by simp) _)
      · rw [(set1_str r s).2 hs]
    | at_ t => exact absurd (.inl rfl) (h _ (by simp) t)
    | sf f => rfl
    | other => rfl

theorem keeps_filter (r : Atf) {l : List AFArg} (h : ∀ a ∈ l, ∀ t, ¬ GivesFilter a t) : (r.set l).sf = r.sf := by
  unfold Atf.set
  induction l generalizing r with
  | nil => rfl
  | cons a t ih =>
    rw [List.foldl_cons, ih _ fun b hb => h b (by simp [hb])]
    cases a with
    | str s =>
      by_cases hs : Identifier s
      · rw [(set1_str r s).1 hs]
      · exact absurd (.inr ⟨s, rfl, hs, rfl⟩) (h _ (by simp) _)
    | sf t => exact absurd (.inl rfl) (h _ (by simp) t)
    | at_ f => rfl
    | other => rfl

theorem takes_attr (r : Atf) {a : AFArg} {t : AttributeType} (h : GivesAttr a t) : (r.set1 a).at_ = t := by
  rcases h with rfl | ⟨s, rfl, hs, rfl⟩
  · rfl
  · rw [(set1_str r s).1 hs]

theorem takes_filter (r : Atf) {a : AFArg} {f : SearchFilter} (h : GivesFilter a f) : (r.set1 a).sf = f := by
  rcases h with rfl | ⟨s, rfl, hs, rfl⟩
  · rfl
  · rw [(set1_str r s).2 hs]

theorem at_view {r : AttributeFilter} {b : Atf} (h : Same (state r) b) :
    (AttributeType.isZero b.at_ = false → r.attributeType = b.at_) ∧
      (AttributeType.isZero b.at_ = true → AttributeType.isZero r.attributeType = true) := by
  cases r with
  | none =>
    rcases h.1 with e | ⟨_, e⟩
    · rw [← e]; exact ⟨fun h => absurd h (by decide), fun _ => rfl⟩
    · exact ⟨fun h => absurd (h.symm.trans e) (by decide), fun _ => rfl⟩
  | some a =>
    have h1 : a.at_ = b.at_ ∨ AttributeType.isZero a.at_ = true ∧ AttributeType.isZero b.at_ = true := h.1
    constructor
    · intro hb
      rcases h1 with e | ⟨_, e⟩
      · simp [AttributeFilter.attributeType, AttributeFilter.isZero, e, hb]
      · exact absurd (hb.symm.trans e) (by decide)
    · intro hb
      have : AttributeType.isZero a.at_ = true := by rcases h1 with e | ⟨e, _⟩ <;> simp_all
      unfold AttributeFilter.attributeType
      split
      · rfl
      · exact this

theorem sf_view {r : AttributeFilter} {b : Atf} (h : Same (state r) b) :
    (SearchFilter.isZero b.sf = false → r.searchFilter = b.sf) ∧
      (SearchFilter.isZero b.sf = true → SearchFilter.isZero r.searchFilter = true) := by
  cases r with
  | none =>
    rcases h.2 with e | ⟨_, e⟩
    · rw [← e]; exact ⟨fun h => absurd h (by decide), fun _ => rfl⟩
    · exact ⟨fun h => absurd (h.symm.trans e) (by decide), fun _ => rfl⟩
  | some a =>
    have h1 : a.sf = b.sf ∨ SearchFilter.isZero a.sf = true ∧ SearchFilter.isZero b.sf = true := h.2
    constructor
    · intro hb
      rcases h1 with e | ⟨_, e⟩
      · simp [AttributeFilter.searchFilter, AttributeFilter.isZero, e, hb]
      · exact absurd (hb.symm.trans e) (by decide)
    · intro hb
      have : SearchFilter.isZero a.sf = true := by rcases h1 with e | ⟨e, _⟩ <;> simp_all
      unfold AttributeFilter.searchFilter
      split
      · rfl
      · exact this

theorem made (x : List AFArg) (calls : List (List AFArg)) :
    Same (state (calls.foldl AttributeFilter.set (AF x))) (Atf.set ⟨none, none⟩ (x :: calls).flatten) := by
  have := history (Same.refl (state (AF x))) calls
  simpa [state, AF, Atf.set] using this

/-- **C103** for attribute types: after `AF` and any number of `Set` calls the attribute
type is the one given last, in whatever order the arguments come.  Missing: the text `*`,
which is taken for a filter. -/
theorem C103_attribute_partial (x : List AFArg) (calls : List (List AFArg)) :
    let r := calls.foldl AttributeFilter.set (AF x)
    (∀ pre a post t, (x :: calls).flatten = pre ++ a :: post → GivesAttr a t →
      (∀ b ∈ post, ∀ t', ¬ GivesAttr b t') →
      (t ≠ none → t ≠ some [] → r.attributeType = t) ∧
      (t = none ∨ t = some [] → AttributeType.isZero r.attributeType = true)) ∧
    ((∀ b ∈ (x :: calls).flatten, ∀ t', ¬ GivesAttr b t') → AttributeType.isZero r.attributeType = true) := by
  intro r
  have hv := at_view (made x calls)
  constructor
  · intro pre a post t he hg hn
    have : (Atf.set ⟨none, none⟩ (x :: calls).flatten).at_ = t := by
      rw [he, show pre ++ a :: post = (pre ++ [a]) ++ post by simp, Atf.set, List.foldl_append, ← Atf.set,
        keeps_attr _ hn, List.foldl_append]
      exact takes_attr _ hg
    rw [this] at hv
    refine ⟨fun h1 h2 => hv.1 ?_, fun h => hv.2 ?_⟩
    · cases t with
      | none => exact absurd rfl h1
      | some s => cases s with
        | nil => exact absurd rfl h2
        | cons c t => rfl
    · rcases h with rfl | rfl <;> rfl
  · intro hn
    exact hv.2 (by rw [keeps_attr _ hn]; rfl)

/-- **C103** for filters: after `AF` and any number of `Set` calls the filter is the one given
last, in whatever order the arguments come.  Missing: the empty text, which counts as a
filter. -/
theorem C103_filter_partial (x : List AFArg) (calls : List (List AFArg)) :
    let r := calls.foldl AttributeFilter.set (AF x)
    (∀ pre a post f, (x :: calls).flatten = pre ++ a :: post → GivesFilter a f →
      (∀ b ∈ post, ∀ f', ¬ GivesFilter b f') →
      (f ≠ none → f ≠ some [] → r.searchFilter = f) ∧
      (f = none ∨ f = some [] → SearchFilter.isZero r.searchFilter = true)) ∧
    ((∀ b ∈ (x :: calls).flatten, ∀ f', ¬ GivesFilter b f') → SearchFilter.isZero r.searchFilter = true) := by
  intro r
  have hv := sf_view (made x calls)
  constructor
  · intro pre a post t he hg hn
    have : (Atf.set ⟨none, none⟩ (x :: calls).flatten).sf = t := by
      rw [he, show pre ++ a :: post = (pre ++ [a]) ++ post by simp, Atf.set, List.foldl_append, ← Atf.set,
        keeps_filter _ hn, List.foldl_append]
      exact takes_filter _ hg
    rw [this] at hv
    refine ⟨fun h1 h2 => hv.1 ?_, fun h => hv.2 ?_⟩
    · cases t with
      | none => exact absurd rfl h1
      | some s => cases s with
        | nil => exact absurd rfl h2
        | cons c t => rfl
    · rcases h with rfl | rfl <;> rfl
  · intro hn
    exact hv.2 (by rw [keeps_filter _ hn]; rfl)

/-- **C103** for the text: a filter that has both parts prints them with a colon between,
any other one prints nothing. -/
theorem C103_text (r : AttributeFilter) :
    (∀ a f, r.attributeType = some a → r.searchFilter = some f → a ≠ [] → f ≠ [] →
      AttributeFilter.string r = a ++ b!":" ++ f) ∧
    (r.attributeType.getD [] = [] ∨ r.searchFilter.getD [] = [] → AttributeFilter.string r = []) := by
  have za : ∀ t : AttributeType, AttributeType.isZero t = true ↔ t.getD [] = [] := by
    intro t; cases t with
    | none => simp [AttributeType.isZero]
    | some s => cases s <;> simp [AttributeType.isZero]
  have zf : ∀ t : SearchFilter, SearchFilter.isZero t = true ↔ t.getD [] = [] := by
    intro t; cases t with
    | none => simp [SearchFilter.isZero]
    | some s => cases s <;> simp [SearchFilter.isZero]
  cases r with
  | none => exact ⟨fun a f h => absurd h (by intro h; cases h), fun _ => rfl⟩
  | some v =>
    obtain ⟨at_, sf⟩ := v
    have ea := za at_
    have ef := zf sf
    constructor
    · intro a f ha hf hna hnf
      by_cases hz : AttributeFilter.isZero (some ⟨at_, sf⟩) = true
      · rw [AttributeFilter.attributeType, if_pos hz] at ha; cases ha
      · rw [AttributeFilter.attributeType, if_neg hz] at ha
        rw [AttributeFilter.searchFilter, if_neg hz] at hf
        simp only [Option.map_some, Option.getD_some] at ha hf
        subst ha; subst hf
        have h1 : AttributeType.isZero (some a) = false := by
          cases e : AttributeType.isZero (some a) with
          | false => rfl
          | true => exact absurd (ea.1 e) hna
        have h2 : SearchFilter.isZero (some f) = false := by
          cases e : SearchFilter.isZero (some f) with
          | false => rfl
          | true => exact absurd (ef.1 e) hnf
        simp [AttributeFilter.string, AttributeFilter.valid, h1, h2, AttributeType.string, SearchFilter.string]
    · intro h
      have : AttributeFilter.valid (some ⟨at_, sf⟩) = false := by
        by_cases hz : AttributeFilter.isZero (some ⟨at_, sf⟩) = true
        · simp only [AttributeFilter.isZero, Bool.and_eq_true] at hz
          simp [AttributeFilter.valid, hz]
        · rw [AttributeFilter.attributeType, if_neg hz, AttributeFilter.searchFilter, if_neg hz] at h
          simp only [Option.map_some, Option.getD_some] at h
          rcases h with h | h
          · simp [AttributeFilter.valid, ea.2 h]
          · simp [AttributeFilter.valid, ef.2 h]
      simp [AttributeFilter.string, this]

/-- The hypotheses are met: the last attribute and the last filter of five arguments in two
calls. -/
example :
    let x : List AFArg := [.str b!"(a=b)", .str b!"cn"]
    let calls : List (List AFArg) := [[.at_ (some b!"sn"), .other, .sf (some b!"(c=d)")]]
    (x :: calls).flatten = [.str b!"(a=b)", .str b!"cn"] ++ .at_ (some b!"sn") :: [.other, .sf (some b!"(c=d)")] ∧
    GivesAttr (.at_ (some b!"sn")) (some b!"sn") ∧
    (∀ b ∈ [AFArg.other, .sf (some b!"(c=d)")], ∀ t', ¬ GivesAttr b t') ∧
    (calls.foldl AttributeFilter.set (AF x)).attributeType = some b!"sn" ∧
    (calls.foldl AttributeFilter.set (AF x)).searchFilter = some b!"(c=d)" ∧
    AttributeFilter.string (calls.foldl AttributeFilter.set (AF x)) = b!"sn:(c=d)" := by
  refine ⟨rfl, .inl rfl, ?_, by decide +kernel, by decide +kernel, by decide +kernel⟩
  intro b hb t'
  rcases List.mem_cons.1 hb with rfl | hb
  · rintro (h | ⟨s, h, _⟩) <;> cases h
  · rw [List.mem_singleton.1 hb]
    rintro (h | ⟨s, h, _⟩) <;> cases h

/-! ## Attribute values -/

/-- **C103** for attribute values: a value holds the text it was made from; without a text
it prints that it is invalid. -/
theorem C103_value (x : Str) :
    (x ≠ [] → AttributeValue.string (AV x) = x) ∧ (x = [] → AttributeValue.string (AV x) = b!"<invalid_attribute_value>") := by
  constructor
  · intro h
    cases x with
    | nil => exact absurd rfl h
    | cons c t => simp [AV, AttributeValue.string]
  · rintro rfl; rfl

example : AttributeValue.string (AV b!"Jesse") = b!"Jesse" := by decide

end Verif.Parts
