import Verif.Model.Target
import Verif.Props.Keyword
import Verif.Lemmas.Lists
import Verif.Spec.Target

/-!
# Target rules with distinct keywords
-/

namespace Verif.Rules
open Verif Verif.Misc Verif.Attr Verif.DN Verif.Filter Verif.Spec

theorem sameKey_trans (a b c : TRule × TKw) (h : sameKey a b = true) (h' : sameKey b c = true) :
    sameKey a c = true := by
  simp only [sameKey, decide_eq_true_eq] at *; exact h.trans h'

theorem tkwConst_ne (k : TKw) : tkwConst k ≠ 0 := by cases k <;> decide

theorem tkwConst_inj {k l : TKw} (h : tkwConst k = tkwConst l) : k = l := by
  cases k <;> cases l <;> first | rfl | (exact absurd h (by decide))

theorem tkwConst_string (k : TKw) : TargetKeyword.string (tkwConst k) = k.name := by
  cases k <;> decide

theorem matchTKW_iff (s : Str) (k : TKw) : matchTKW s = tkwConst k ↔ Str.eqFold s k.name = true :=
  (C17_target_keywords tkwMap (List.Perm.refl _) s).1 k

theorem matchTKW_zero (s : Str) : matchTKW s = 0 ↔ ∀ k : TKw, Str.eqFold s k.name = false :=
  (C17_target_keywords tkwMap (List.Perm.refl _) s).2.1

theorem name_eqFold (k l : TKw) : Str.eqFold k.name l.name = decide (k = l) := by
  cases k <;> cases l <;> decide +kernel

theorem has_keyword {r : TRule} {k : TKw} (h : Has r k) : r.keyword = tkwConst k :=
  (matchTKW_iff _ _).2 h.2

theorem has_unique {r : TRule} {k l : TKw} (h : Has r k) (h' : Has r l) : k = l :=
  tkwConst_inj ((has_keyword h).symm.trans (has_keyword h'))

theorem has_or (r : TRule) : (∃ k, Has r k) ∨ (r.isZero = true ∨ r.keyword = 0) := by
  by_cases hi : r.core.init = true
  · by_cases h0 : r.keyword = 0
    · exact Or.inr (Or.inr h0)
    · left
      simp only [TRule.keyword] at h0
      rw [matchTKW_zero] at h0
      simp only [Classical.not_forall, Bool.not_eq_false] at h0
      obtain ⟨k, hk⟩ := h0
      exact ⟨k, hi, hk⟩
  · right; left; simp [TRule.isZero, hi]

theorem has_not {r : TRule} {k : TKw} (h : Has r k) : r.isZero = false ∧ r.keyword ≠ 0 := by
  refine ⟨by simp [TRule.isZero, h.1], ?_⟩
  rw [has_keyword h]; exact tkwConst_ne k

/-- The rules, with their keywords, and no keyword twice. -/
def Rep (es : List TRule) (ps : List (TRule × TKw)) : Prop :=
  es = ps.map (·.1) ∧ (∀ p ∈ ps, Has p.1 p.2) ∧ Distinct sameKey ps

theorem rep_nil : Rep [] [] := ⟨rfl, by simp, distinct_nil _⟩

theorem containsKw_rep {es : List TRule} {ps : List (TRule × TKw)} (h : es = ps.map (·.1))
    (h' : ∀ p ∈ ps, Has p.1 p.2) (k : TKw) : containsKw es k.name = ps.any fun p => decide (p.2 = k) := by
  subst h
  rw [containsKw, List.any_map]
  rw [Bool.eq_iff_iff, List.any_eq_true, List.any_eq_true]
  constructor
  · rintro ⟨p, hp, he⟩
    refine ⟨p, hp, ?_⟩
    simp only [Function.comp, has_keyword (h' p hp), tkwConst_string, name_eqFold] at he
    exact he
  · rintro ⟨p, hp, he⟩
    refine ⟨p, hp, ?_⟩
    simp only [Function.comp, has_keyword (h' p hp), tkwConst_string, name_eqFold]
    exact he

theorem nodup_subset_length {α : Type} [DecidableEq α] {l m : List α} (h : l.Nodup) (hs : ∀ a ∈ l, a ∈ m) :
    l.length ≤ m.length := by
  induction l generalizing m with
  | nil => simp
  | cons a l ih =>
    rw [List.nodup_cons] at h
    have ha : a ∈ m := hs a (by simp)
    have := ih (m := m.erase a) h.2 (by
      intro b hb
      exact (List.mem_erase_of_ne (by rintro rfl; exact h.1 hb)).2 (hs b (by simp [hb])))
    rw [List.length_erase_of_mem ha] at this
    have := List.length_pos_of_mem ha
    simp only [List.length_cons]; omega

/-- There are nine keywords. -/
theorem nodup_keywords {l : List TKw} (h : l.Nodup) : l.length ≤ 9 :=
  nodup_subset_length (m := [.target, .target_to, .targetattr, .targetcontrol, .target_from, .targetscope,
    .targetfilter, .targattrfilters, .extop]) h (by intro a _; cases a <;> simp)

theorem distinct_nodup {ps : List (TRule × TKw)} (h : Distinct sameKey ps) : (ps.map (·.2)).Nodup := by
  rw [List.nodup_iff_pairwise_ne, List.pairwise_iff_getElem]
  intro i j hi hj hij he
  simp only [List.length_map] at hi hj
  simp only [List.getElem_map] at he
  have := h i j ps[i] ps[j] hij (List.getElem?_eq_getElem hi) (List.getElem?_eq_getElem hj)
  simp only [sameKey, decide_eq_false_iff_not] at this
  exact this he

theorem rep_length {es : List TRule} {ps : List (TRule × TKw)} (h : Rep es ps) : es.length ≤ 9 := by
  have := nodup_keywords (distinct_nodup h.2.2)
  rw [h.1]; simpa using this

theorem rep_length_new {es : List TRule} {ps : List (TRule × TKw)} (h : Rep es ps) {r : TRule} {k : TKw}
    (hk : Has r k) (hn : (ps.any fun p => decide (p.2 = k)) = false) : es.length < 9 ∧ Rep (es ++ [r]) (ps ++ [(r, k)]) := by
  have hr : Rep (es ++ [r]) (ps ++ [(r, k)]) := by
    refine ⟨by simp [h.1], ?_, distinct_append h.2.2 ?_⟩
    · intro p hp
      rcases List.mem_append.1 hp with hp | hp
      · exact h.2.1 p hp
      · simp at hp; subst hp; exact hk
    · intro b hb
      have := List.any_eq_false.1 hn b hb
      simpa [sameKey] using this
  have := rep_length hr
  simp only [List.length_append, List.length_singleton] at this
  exact ⟨by omega, hr⟩

theorem accept_has {es : List TRule} {ps : List (TRule × TKw)} (h : Rep es ps) {r : TRule} {k : TKw}
    (hk : Has r k) :
    acceptTR es (.rule r) = if (ps.any fun p => decide (p.2 = k)) then none else some r := by
  have hn := has_not hk
  simp only [acceptTR, hn.1, Bool.false_eq_true, if_false, has_keyword hk, tkwConst_string,
    containsKw_rep h.1 h.2.1 k]
  by_cases hc : (ps.any fun p => decide (p.2 = k)) = true
  · simp [hc]
  · rw [Bool.not_eq_true] at hc
    have := (rep_length_new h hk hc).1
    rw [if_neg (by omega), if_neg (tkwConst_ne k)]

theorem accept_not (es : List TRule) {r : TRule} (hk : ∀ k, ¬ Has r k) : acceptTR es (.rule r) = none := by
  rcases has_or r with ⟨k, h⟩ | h | h
  · exact absurd h (hk k)
  · simp [acceptTR, h]
  · simp [acceptTR, h]

theorem stackPush_inv {A E : Type} {P : List E → Prop} {stop : Bool} {accept : List E → A → Option E}
    (h : ∀ es x e, P es → accept es x = some e → P (es ++ [e])) (xs : List A) {es : List E} (hp : P es) :
    P (stackPush stop accept es xs) := by
  induction xs generalizing es with
  | nil => exact hp
  | cons x xs ih =>
    rw [stackPush]
    cases ha : accept es x with
    | some e => exact ih (h es x e hp ha)
    | none =>
      cases stop
      · exact ih hp
      · exact hp

theorem rep_accept {es : List TRule} {x : TRArg} {e : TRule} (h : ∃ ps, Rep es ps)
    (ha : acceptTR es x = some e) : ∃ ps, Rep (es ++ [e]) ps := by
  obtain ⟨ps, h⟩ := h
  cases x with
  | other => simp [acceptTR] at ha
  | rule r =>
    rcases Classical.em (∃ k, Has r k) with ⟨k, hk⟩ | hk
    · rw [accept_has h hk] at ha
      cases hc : ps.any fun p => decide (p.2 = k)
      · rw [hc] at ha
        simp at ha; subst ha
        exact ⟨_, (rep_length_new h hk hc).2⟩
      · rw [hc] at ha; simp at ha
    · rw [accept_not es (fun k h => hk ⟨k, h⟩)] at ha; cases ha

theorem rep_push {es : List TRule} (h : ∃ ps, Rep es ps) (stop : Bool) (xs : List TRArg) :
    ∃ ps, Rep (TRs.push stop es xs) ps :=
  stackPush_inv (P := fun es => ∃ ps, Rep es ps) (fun _ _ _ h ha => rep_accept h ha) xs h

theorem push1_has {es : List TRule} {ps : List (TRule × TKw)} (h : Rep es ps) (stop : Bool) {r : TRule}
    {k : TKw} (hk : Has r k) :
    Rep (TRs.push stop es [.rule r]) (addNew sameKey ps (r, k)) := by
  rw [TRs.push, stackPush, accept_has h hk, addNew]
  have e : (ps.any fun b => sameKey b (r, k)) = ps.any fun p => decide (p.2 = k) := rfl
  rw [e]
  cases hc : ps.any fun p => decide (p.2 = k)
  · simpa [stackPush] using (rep_length_new h hk hc).2
  · cases stop <;> simpa [stackPush] using h

theorem push1_none (stop : Bool) (es : List TRule) (x : TRArg) (hx : acceptTR es x = none) :
    TRs.push stop es [x] = es := by
  rw [TRs.push, stackPush, hx]; cases stop <;> rfl

end Verif.Rules
