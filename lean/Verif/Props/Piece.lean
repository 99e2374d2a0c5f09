import Verif.Spec.Piece
import Verif.Lemmas.Bind
import Verif.Lemmas.Target
import Verif.Props.Target

/-!
# C96: rules put together step by step; C97: what rules and contexts say about themselves
-/

namespace Verif.Piece
open Verif Verif.Misc Verif.Spec Verif.Bind Verif.Rules

/-- The variable after calls on a declared bind rule. -/
def runB (fresh : Str) (p : List (Call BExpr)) : Var BRule := p.foldl (callB fresh) zeroB

/-- The variable after calls on a declared target rule. -/
def runT (fresh : Str) (p : List (Call TExpr)) : Var TRule := p.foldl (callT fresh) zeroT

theorem snoc_induction {α : Type} {P : List α → Prop} (nil : P [])
    (snoc : ∀ l a, P l → P (l ++ [a])) (l : List α) : P l := by
  have : ∀ r : List α, P r.reverse := by
    intro r
    induction r with
    | nil => exact nil
    | cons a r ih => rw [List.reverse_cons]; exact snoc _ _ ih
  simpa using this l.reverse

theorem lastWord_snoc {E : Type} (p : List (Call E)) (c : Call E) :
    lastWord (p ++ [c]) = (match c with | .keyword k => (KwArg.words k).or (lastWord p) | _ => lastWord p) := by
  cases c with
  | keyword k => cases h : KwArg.words k <;> simp [lastWord, List.filterMap_append, h]
  | _ => simp [lastWord, List.filterMap_append]

theorem lastValue_snoc {E : Type} (p : List (Call E)) (c : Call E) :
    lastValue (p ++ [c]) = (match c with | .expression e => some e | _ => lastValue p) := by
  cases c <;> simp [lastValue, List.filterMap_append]

/-- After one more call: an operator that is taken replaces the one before. -/
theorem lastOperator_operator {E : Type} {taken : Option Str → OpArg → Rel → Prop}
    (p : List (Call E)) (a : OpArg) (q : Rel) (huniq : ∀ w a q q', taken w a q → taken w a q' → q = q') :
    LastOperator taken (p ++ [.operator a]) q ↔
      taken (lastWord p) a q ∨ ((∀ q', ¬ taken (lastWord p) a q') ∧ LastOperator taken p q) := by
  constructor
  · rintro ⟨p1, b, p2, hp, ht, hl⟩
    rcases List.eq_nil_or_concat p2 with rfl | ⟨p2', c, rfl⟩
    · obtain ⟨rfl, h⟩ := List.append_inj' hp rfl
      simp only [List.cons.injEq, Call.operator.injEq, and_true] at h
      subst h
      exact Or.inl ht
    · rw [List.concat_eq_append] at hp hl
      have hp' : p ++ [Call.operator a] = (p1 ++ .operator b :: p2') ++ [c] := by simpa using hp
      obtain ⟨rfl, h⟩ := List.append_inj' hp' rfl
      simp only [List.cons.injEq, and_true] at h
      subst h
      refine Or.inr ⟨fun q' => hl p2' a [] q' rfl, p1, b, p2', rfl, ht, ?_⟩
      intro p3 a' p4 q' he
      exact hl p3 a' (p4 ++ [.operator a]) q' (by rw [he]; simp)
  · rintro (h | ⟨hn, p1, b, p2, rfl, ht, hl⟩)
    · exact ⟨p, a, [], rfl, h, by intro p3 a' p4 q' he; simp at he⟩
    · refine ⟨p1, b, p2 ++ [.operator a], by simp, ht, ?_⟩
      intro p3 a' p4 q' he
      rcases List.eq_nil_or_concat p4 with rfl | ⟨p4', c, rfl⟩
      · obtain ⟨rfl, h⟩ := List.append_inj' he rfl
        simp only [List.cons.injEq, Call.operator.injEq, and_true] at h
        subst h
        exact hn q'
      · rw [List.concat_eq_append] at he
        have he' : p2 ++ [Call.operator a] = (p3 ++ .operator a' :: p4') ++ [c] := by simpa using he
        obtain ⟨rfl, _⟩ := List.append_inj' he' rfl
        exact hl p3 a' p4' q' rfl

/-- Other calls do not matter. -/
theorem lastOperator_other {E : Type} {taken : Option Str → OpArg → Rel → Prop}
    (p : List (Call E)) (c : Call E) (q : Rel) (hc : ∀ a, c ≠ .operator a) :
    LastOperator taken (p ++ [c]) q ↔ LastOperator taken p q := by
  constructor
  · rintro ⟨p1, b, p2, hp, ht, hl⟩
    rcases List.eq_nil_or_concat p2 with rfl | ⟨p2', d, rfl⟩
    · obtain ⟨rfl, h⟩ := List.append_inj' hp rfl
      simp only [List.cons.injEq, and_true] at h
      exact absurd h (hc b)
    · rw [List.concat_eq_append] at hp hl
      have hp' : p ++ [c] = (p1 ++ .operator b :: p2') ++ [d] := by simpa using hp
      obtain ⟨rfl, h⟩ := List.append_inj' hp' rfl
      refine ⟨p1, b, p2', rfl, ht, ?_⟩
      intro p3 a' p4 q' he
      exact hl p3 a' (p4 ++ [d]) q' (by rw [he]; simp)
  · rintro ⟨p1, b, p2, rfl, ht, hl⟩
    refine ⟨p1, b, p2 ++ [c], by simp, ht, ?_⟩
    intro p3 a' p4 q' he
    rcases List.eq_nil_or_concat p4 with rfl | ⟨p4', d, rfl⟩
    · obtain ⟨rfl, h⟩ := List.append_inj' he rfl
      simp only [List.cons.injEq, and_true] at h
      exact absurd h (hc a')
    · rw [List.concat_eq_append] at he
      have he' : p2 ++ [c] = (p3 ++ .operator a' :: p4') ++ [d] := by simpa using he
      obtain ⟨rfl, _⟩ := List.append_inj' he' rfl
      exact hl p3 a' p4' q' rfl

theorem denotes_uniq {a : OpArg} {q q' : Rel} (h : OpDenotes a q) (h' : OpDenotes a q') : q = q' := by
  cases a with
  | cop c => simp only [OpDenotes] at h h'; exact relConst_inj (h.symm.trans h')
  | str s =>
    have e := ((C19_lookup copMap (List.Perm.refl _) s).1 q).2 h
    have e' := ((C19_lookup copMap (List.Perm.refl _) s).1 q').2 h'
    exact relConst_inj (e.symm.trans e')
  | int i => exact absurd h id
  | other => exact absurd h id

/-! ## The setters of operators, by what they take -/

theorem takenB_getD (w : Option Str) (a : OpArg) (q : Rel) :
    TakenB w a q ↔ TakenB (some (w.getD [])) a q := by
  cases w with
  | some s => rfl
  | none =>
    simp only [TakenB, Option.getD_none, Option.some.injEq]
    refine and_congr_right fun _ => or_congr_right ?_
    constructor
    · rintro ⟨s, k, h, _⟩; cases h
    · rintro ⟨s, k, rfl, h, _⟩; cases k <;> exact absurd h (by decide)

theorem setOperatorB_unknown (r : RuleCore) (hr : r.init = true) (h : matchBKW r.kw = 0) (a : OpArg) :
    (OpDenotes a .eq → BindRule.setOperator r a = { r with op := relConst .eq }) ∧
    (¬ OpDenotes a .eq → BindRule.setOperator r a = r) := by
  have ha : ∀ o, keywordAllows (.bind (matchBKW r.kw)) o = false := by
    intro o
    rw [h]
    cases o <;> first | rfl | (simp only [keywordAllows]; rfl)
  have key : ∀ c : Cop, (if c ≠ Eq' ∧ keywordAllows (.bind (matchBKW r.kw)) a = false then r
      else if c = 0 then r else if r.init = false then r else { r with op := c }) =
      if c = Eq' then { r with op := Eq' } else r := by
    intro c
    by_cases hc : c = Eq'
    · subst hc; simp [hr, Eq']
    · simp [hc, ha]
  cases a with
  | cop c =>
    simp only [BindRule.setOperator, key, OpDenotes]
    constructor
    · rintro rfl; rfl
    · intro h; exact if_neg h
  | str s =>
    simp only [BindRule.setOperator, key]
    have e := (C19_lookup copMap (List.Perm.refl _) s).1 .eq
    constructor
    · intro h; exact if_pos (e.2 h)
    · intro h; exact if_neg fun hc => h (e.1 hc)
  | int i => simp [BindRule.setOperator, OpDenotes]
  | other => simp [BindRule.setOperator, OpDenotes]

theorem setOperatorB (r : RuleCore) (hr : r.init = true) (a : OpArg) :
    (∀ q, TakenB (some r.kw) a q → BindRule.setOperator r a = { r with op := relConst q }) ∧
    ((∀ q, ¬ TakenB (some r.kw) a q) → BindRule.setOperator r a = r) := by
  by_cases hk : ∃ k : BKw, Str.eqFold r.kw k.name = true
  · obtain ⟨k, hk⟩ := hk
    obtain ⟨h1, h2, h3⟩ := C18_bind_set_operator r hr k hk a
    have hkq : ∀ q, TakenB (some r.kw) a q ↔ OpDenotes a q ∧ k.allows q = true := by
      intro q
      refine and_congr_right fun _ => ?_
      constructor
      · rintro (rfl | ⟨s, k', hs, h, ha⟩)
        · cases k <;> rfl
        · cases hs
          have := ((matchBKW_iff _ _).2 hk).symm.trans ((matchBKW_iff _ _).2 h)
          have : k = k' := by revert this; cases k <;> cases k' <;> decide
          rw [this]; exact ha
      · intro h; exact Or.inr ⟨_, k, rfl, hk, h⟩
    refine ⟨fun q hq => h1 q ((hkq q).1 hq).1 ((hkq q).1 hq).2, fun hn => ?_⟩
    by_cases hx : ∃ q, OpDenotes a q
    · obtain ⟨q, hq⟩ := hx
      cases ha : k.allows q with
      | true => exact absurd ((hkq q).2 ⟨hq, ha⟩) (hn q)
      | false => exact h2 q hq ha
    · exact h3 fun q hq => hx ⟨q, hq⟩
  · have hz : matchBKW r.kw = 0 := (matchBKW_zero _).2 fun k => by
      cases h : Str.eqFold r.kw k.name with
      | false => rfl
      | true => exact absurd ⟨k, h⟩ hk
    have hkq : ∀ q, TakenB (some r.kw) a q ↔ OpDenotes a q ∧ q = .eq := by
      intro q
      refine and_congr_right fun _ => ?_
      constructor
      · rintro (rfl | ⟨s, k', hs, h, ha⟩)
        · rfl
        · cases hs; exact absurd ⟨k', h⟩ hk
      · rintro rfl; exact Or.inl rfl
    obtain ⟨h1, h2⟩ := setOperatorB_unknown r hr hz a
    refine ⟨fun q hq => ?_, fun hn => h2 fun h => hn _ ((hkq _).2 ⟨h, rfl⟩)⟩
    obtain ⟨hd, rfl⟩ := (hkq q).1 hq
    exact h1 hd

theorem setOperatorT_unknown (r : RuleCore) (hr : r.init = true) (h : matchTKW r.kw = 0) (a : OpArg) :
    (OpDenotes a .eq → TargetRule.setOperator r a = { r with op := relConst .eq }) ∧
    (¬ OpDenotes a .eq → TargetRule.setOperator r a = r) := by
  have ha : ∀ o, keywordAllows (.target (matchTKW r.kw)) o = false := by
    intro o
    rw [h]
    cases o <;> first | rfl | (simp only [keywordAllows]; rfl)
  have key : ∀ c : Cop, TargetRule.setOperator.go r a c = if c = Eq' then { r with op := Eq' } else r := by
    intro c
    unfold TargetRule.setOperator.go
    by_cases hc : c = Eq'
    · subst hc; simp [hr, Eq']
    · by_cases h0 : c = 0
      · simp [h0, Eq']
      · simp [hc, h0, ha]
  cases a with
  | cop c =>
    simp only [TargetRule.setOperator, key, OpDenotes]
    constructor
    · rintro rfl; rfl
    · intro h; exact if_neg h
  | str s =>
    simp only [TargetRule.setOperator, key]
    have e := (C19_lookup copMap (List.Perm.refl _) s).1 .eq
    constructor
    · intro h; exact if_pos (e.2 h)
    · intro h; exact if_neg fun hc => h (e.1 hc)
  | int i => simp [TargetRule.setOperator, OpDenotes]
  | other => simp [TargetRule.setOperator, OpDenotes]

theorem setOperatorT (r : RuleCore) (hr : r.init = true) (a : OpArg) :
    (∀ q, TakenT (some r.kw) a q → TargetRule.setOperator r a = { r with op := relConst q }) ∧
    ((∀ q, ¬ TakenT (some r.kw) a q) → TargetRule.setOperator r a = r) := by
  by_cases hk : ∃ k : TKw, Str.eqFold r.kw k.name = true
  · obtain ⟨k, hk⟩ := hk
    obtain ⟨h1, h2, h3⟩ := C18_target_set_operator r hr k hk a
    have hkq : ∀ q, TakenT (some r.kw) a q ↔ OpDenotes a q ∧ k.allows q = true := by
      intro q
      refine and_congr_right fun _ => ?_
      constructor
      · rintro (rfl | ⟨s, k', hs, h, ha⟩)
        · cases k <;> rfl
        · cases hs
          have := ((matchTKW_iff _ _).2 hk).symm.trans ((matchTKW_iff _ _).2 h)
          have : k = k' := by revert this; cases k <;> cases k' <;> decide
          rw [this]; exact ha
      · intro h; exact Or.inr ⟨_, k, rfl, hk, h⟩
    refine ⟨fun q hq => h1 q ((hkq q).1 hq).1 ((hkq q).1 hq).2, fun hn => ?_⟩
    by_cases hx : ∃ q, OpDenotes a q
    · obtain ⟨q, hq⟩ := hx
      cases ha : k.allows q with
      | true => exact absurd ((hkq q).2 ⟨hq, ha⟩) (hn q)
      | false => exact h2 q hq ha
    · exact h3 fun q hq => hx ⟨q, hq⟩
  · have hz : matchTKW r.kw = 0 := (matchTKW_zero _).2 fun k => by
      cases h : Str.eqFold r.kw k.name with
      | false => rfl
      | true => exact absurd ⟨k, h⟩ hk
    have hkq : ∀ q, TakenT (some r.kw) a q ↔ OpDenotes a q ∧ q = .eq := by
      intro q
      refine and_congr_right fun _ => ?_
      constructor
      · rintro (rfl | ⟨s, k', hs, h, ha⟩)
        · rfl
        · cases hs; exact absurd ⟨k', h⟩ hk
      · rintro rfl; exact Or.inl rfl
    obtain ⟨h1, h2⟩ := setOperatorT_unknown r hr hz a
    refine ⟨fun q hq => ?_, fun hn => h2 fun h => hn _ ((hkq _).2 ⟨h, rfl⟩)⟩
    obtain ⟨hd, rfl⟩ := (hkq q).1 hq
    exact h1 hd

theorem relConst_ne_zero (q : Rel) : relConst q ≠ 0 := by cases q <;> decide

theorem takenB_uniq (w : Option Str) (a : OpArg) (q q' : Rel) (h : TakenB w a q) (h' : TakenB w a q') : q = q' :=
  denotes_uniq h.1 h'.1

theorem takenT_uniq (w : Option Str) (a : OpArg) (q q' : Rel) (h : TakenT w a q) (h' : TakenT w a q') : q = q' :=
  denotes_uniq h.1 h'.1

/-- What is known of operator and held operator after calls. -/
def OpInv {E : Type} (taken : Option Str → OpArg → Rel → Prop) (p : List (Call E)) (op : Cop) (h : Held) : Prop :=
  (∃ q, op = relConst q ∧ h = .own (relConst q) ∧ LastOperator taken p q) ∨
  (op = 0 ∧ h = .none ∧ ∀ q, ¬ LastOperator taken p q)

theorem lastOperator_uniq {E : Type} {taken : Option Str → OpArg → Rel → Prop}
    (huniq : ∀ w a q q', taken w a q → taken w a q' → q = q') (p : List (Call E)) :
    ∀ q q', LastOperator taken p q → LastOperator taken p q' → q = q' := by
  refine snoc_induction (P := fun p => ∀ q q', LastOperator taken p q → LastOperator taken p q' → q = q') ?_ ?_ p
  · rintro q q' ⟨p1, a, p2, h, _⟩; simp at h
  · intro p c ih q q' h h'
    by_cases hc : ∃ a, c = .operator a
    · obtain ⟨a, rfl⟩ := hc
      rcases (lastOperator_operator p a q huniq).1 h with h | ⟨hn, h⟩ <;>
        rcases (lastOperator_operator p a q' huniq).1 h' with h' | ⟨hn', h'⟩
      · exact huniq _ _ _ _ h h'
      · exact absurd h (hn' q)
      · exact absurd h' (hn q')
      · exact ih q q' h h'
    · have hc : ∀ a, c ≠ .operator a := fun a e => hc ⟨a, e⟩
      exact ih q q' ((lastOperator_other p c q hc).1 h) ((lastOperator_other p c q' hc).1 h')

theorem OpInv.exact {E : Type} {taken : Option Str → OpArg → Rel → Prop}
    (huniq : ∀ w a q q', taken w a q → taken w a q' → q = q') {p : List (Call E)} {op : Cop} {h : Held}
    (hi : OpInv taken p op h) :
    (∀ q, op = relConst q ↔ LastOperator taken p q) ∧ (op = 0 ↔ ∀ q, ¬ LastOperator taken p q) ∧
    castCop h = op := by
  rcases hi with ⟨q, rfl, rfl, hl⟩ | ⟨rfl, rfl, hn⟩
  · refine ⟨fun q' => ⟨fun e => relConst_inj e ▸ hl, fun h' => ?_⟩, ⟨fun e => absurd e (relConst_ne_zero q),
      fun hn => absurd hl (hn q)⟩, rfl⟩
    rw [lastOperator_uniq huniq p q q' hl h']
  · exact ⟨fun q => ⟨fun e => absurd e.symm (relConst_ne_zero q), fun h => absurd h (hn q)⟩,
      ⟨fun _ => hn, fun _ => rfl⟩, rfl⟩

theorem OpInv.other {E : Type} {taken : Option Str → OpArg → Rel → Prop} {p : List (Call E)} {op : Cop} {h : Held}
    (hi : OpInv taken p op h) {c : Call E} (hc : ∀ a, c ≠ .operator a) : OpInv taken (p ++ [c]) op h := by
  rcases hi with ⟨q, h1, h2, hl⟩ | ⟨h1, h2, hn⟩
  · exact Or.inl ⟨q, h1, h2, (lastOperator_other p c q hc).2 hl⟩
  · exact Or.inr ⟨h1, h2, fun q h => hn q ((lastOperator_other p c q hc).1 h)⟩

/-- One call of `SetOperator`, for a setter that stores what is taken. -/
theorem OpInv.operator {E : Type} {taken : Option Str → OpArg → Rel → Prop}
    (huniq : ∀ w a q q', taken w a q → taken w a q' → q = q') {set : RuleCore → OpArg → RuleCore}
    {p : List (Call E)} {r : RuleCore} {h : Held} (hi : OpInv taken p r.op h) (a : OpArg)
    (h1 : ∀ x : Cop, ∀ q, taken (lastWord p) a q → set { r with op := x } a = { r with op := relConst q })
    (h2 : ∀ x : Cop, (∀ q, ¬ taken (lastWord p) a q) → set { r with op := x } a = { r with op := x }) :
    OpInv taken (p ++ [.operator a]) (set r a).op (heldAfter set r a h) := by
  by_cases ht : ∃ q, taken (lastWord p) a q
  · obtain ⟨q, hq⟩ := ht
    refine Or.inl ⟨q, ?_, ?_, (lastOperator_operator p a q huniq).2 (Or.inl hq)⟩
    · rw [show set r a = set { r with op := r.op } a from rfl, h1 r.op q hq]
    · rw [heldAfter, h1 0 q hq, if_neg (relConst_ne_zero q)]
  · have ht : ∀ q, ¬ taken (lastWord p) a q := fun q h => ht ⟨q, h⟩
    have e1 : (set r a).op = r.op := by rw [show set r a = set { r with op := r.op } a from rfl, h2 r.op ht]
    have e2 : heldAfter set r a h = h := by rw [heldAfter, h2 0 ht, if_pos rfl]
    rw [e1, e2]
    rcases hi with ⟨q, h1, h2, hl⟩ | ⟨h1, h2, hn⟩
    · exact Or.inl ⟨q, h1, h2, (lastOperator_operator p a q huniq).2 (Or.inr ⟨ht, hl⟩)⟩
    · refine Or.inr ⟨h1, h2, fun q h => ?_⟩
      rcases (lastOperator_operator p a q huniq).1 h with h | ⟨_, h⟩
      · exact ht q h
      · exact hn q h

theorem setOperatorB_keeps (r : RuleCore) (a : OpArg) :
    (BindRule.setOperator r a).init = r.init ∧ (BindRule.setOperator r a).kw = r.kw := by
  unfold BindRule.setOperator
  dsimp only
  repeat' split
  all_goals exact ⟨rfl, rfl⟩

theorem setOperatorT_keeps (r : RuleCore) (a : OpArg) :
    (TargetRule.setOperator r a).init = r.init ∧ (TargetRule.setOperator r a).kw = r.kw := by
  unfold TargetRule.setOperator TargetRule.setOperator.go
  repeat' split
  all_goals exact ⟨rfl, rfl⟩

theorem setKeywordB (r : RuleCore) (hr : r.init = true) (k : KwArg) :
    BindRule.setKeyword r k = { r with kw := (KwArg.words k).getD r.kw } := by
  cases r; simp only at hr; subst hr
  cases k <;> simp [BindRule.setKeyword, KwArg.words]

theorem quoteB_keeps (r : BRule) (s : Int) :
    (r.setQuoteStyle s).core = r.core ∧ (r.setQuoteStyle s).ex = r.ex := by
  unfold BRule.setQuoteStyle
  split <;> exact ⟨rfl, rfl⟩

theorem quoteT_keeps (r : TRule) (s : Int) :
    (r.setQuoteStyle s).core = r.core ∧ (r.setQuoteStyle s).ex = r.ex := by
  unfold TRule.setQuoteStyle
  split <;> exact ⟨rfl, rfl⟩

theorem getD_or (o p : Option Str) (d : Str) : (o.or p).getD d = o.getD (p.getD d) := by
  cases o <;> rfl

theorem inv_bind (fresh : Str) (p : List (Call BExpr)) :
    (runB fresh (.init :: p)).rule.core.init = true ∧
    (runB fresh (.init :: p)).rule.core.kw = (lastWord p).getD [] ∧
    (runB fresh (.init :: p)).rule.ex = (lastValue p).getD .nil ∧
    OpInv TakenB p (runB fresh (.init :: p)).rule.core.op (runB fresh (.init :: p)).held := by
  refine snoc_induction (P := fun p => (runB fresh (.init :: p)).rule.core.init = true ∧
    (runB fresh (.init :: p)).rule.core.kw = (lastWord p).getD [] ∧
    (runB fresh (.init :: p)).rule.ex = (lastValue p).getD .nil ∧
    OpInv TakenB p (runB fresh (.init :: p)).rule.core.op (runB fresh (.init :: p)).held) ?_ ?_ p
  · refine ⟨rfl, rfl, rfl, Or.inr ⟨rfl, rfl, ?_⟩⟩
    rintro q ⟨p1, a, p2, h, _⟩; simp at h
  · rintro p c ⟨hi, hk, he, ho⟩
    have e : runB fresh (.init :: (p ++ [c])) = callB fresh (runB fresh (.init :: p)) c := by
      simp [runB, List.foldl_append]
    rw [e, lastWord_snoc, lastValue_snoc]
    generalize runB fresh (.init :: p) = v at hi hk he ho
    cases c with
    | init => simp only [callB]; rw [if_pos hi]; exact ⟨hi, hk, he, ho.other (by simp)⟩
    | keyword k =>
      simp only [callB, setKeywordB _ hi]
      exact ⟨hi, by rw [getD_or, hk], he, ho.other (by simp)⟩
    | operator a =>
      simp only [callB]
      have hw : ∀ x : Cop, ∀ q, TakenB (lastWord p) a q ↔ TakenB (some ({ v.rule.core with op := x } : RuleCore).kw) a q := by
        intro x q
        rw [takenB_getD, ← hk]
      refine ⟨(setOperatorB_keeps _ _).1.trans hi, (setOperatorB_keeps _ _).2.trans hk, he,
        ho.operator takenB_uniq a (fun x q hq => ?_) (fun x hn => ?_)⟩
      · exact (setOperatorB { v.rule.core with op := x } hi a).1 q ((hw x q).1 hq)
      · exact (setOperatorB { v.rule.core with op := x } hi a).2 fun q hq => hn q ((hw x q).2 hq)
    | expression ex => simp only [callB]; rw [if_pos hi]; exact ⟨hi, hk, rfl, ho.other (by simp)⟩
    | quote s =>
      simp only [callB]
      rw [if_pos hi, (quoteB_keeps _ _).1, (quoteB_keeps _ _).2]
      exact ⟨hi, hk, he, ho.other (by simp)⟩
    | paren b => simp only [callB]; rw [if_pos hi]; exact ⟨hi, hk, he, ho.other (by simp)⟩

/-- What the text of a target keyword becomes. -/
def keptWord (w : Str) (s : Str) : Prop :=
  (∀ k : TKw, Str.eqFold w k.name = true → s = k.name) ∧
  ((∀ k : TKw, Str.eqFold w k.name = false) → matchTKW s = 0)

theorem setKeywordT (r : RuleCore) (hr : r.init = true) (k : KwArg) :
    TargetRule.setKeyword r k =
      { r with kw := ((KwArg.words k).map fun w => TargetKeyword.string (matchTKW w)).getD r.kw } := by
  cases r; simp only at hr; subst hr
  cases k <;> simp [TargetRule.setKeyword, KwArg.words]

theorem keptWord_match (w : Str) : keptWord w (TargetKeyword.string (matchTKW w)) := by
  constructor
  · intro k hk
    rw [(matchTKW_iff w k).2 hk]
    cases k <;> rfl
  · intro h
    rw [(matchTKW_zero w).2 h]
    decide

theorem takenT_getD (w : Option Str) (a : OpArg) (q : Rel) :
    TakenT w a q ↔ TakenT (some (w.getD [])) a q := by
  cases w with
  | some s => rfl
  | none =>
    simp only [TakenT, Option.getD_none, Option.some.injEq]
    refine and_congr_right fun _ => or_congr_right ?_
    constructor
    · rintro ⟨s, k, h, _⟩; cases h
    · rintro ⟨s, k, rfl, h, _⟩; cases k <;> exact absurd h (by decide)

theorem kept_iff {w s : Str} (h : keptWord w s) :
    ∀ k : TKw, Str.eqFold w k.name = true ↔ Str.eqFold s k.name = true := by
  intro k
  constructor
  · intro hk; rw [h.1 k hk]; simp [name_eqFold]
  · intro hk
    by_cases hx : ∃ k' : TKw, Str.eqFold w k'.name = true
    · obtain ⟨k', hk'⟩ := hx
      rw [h.1 k' hk', name_eqFold] at hk
      rw [← of_decide_eq_true hk]; exact hk'
    · have hz := h.2 fun k' => by
        cases e : Str.eqFold w k'.name with
        | false => rfl
        | true => exact absurd ⟨k', e⟩ hx
      rw [(matchTKW_zero s).1 hz k] at hk
      cases hk

theorem takenT_kept {w s : Str} (h : keptWord w s) (a : OpArg) (q : Rel) :
    TakenT (some w) a q ↔ TakenT (some s) a q := by
  have key := kept_iff h
  refine and_congr_right fun _ => or_congr_right ?_
  constructor
  · rintro ⟨t, k, ht, h1, h2⟩; cases ht; exact ⟨s, k, rfl, (key k).1 h1, h2⟩
  · rintro ⟨t, k, ht, h1, h2⟩; cases ht; exact ⟨w, k, rfl, (key k).2 h1, h2⟩

theorem inv_target (fresh : Str) (p : List (Call TExpr)) :
    (runT fresh (.init :: p)).rule.core.init = true ∧
    keptWord ((lastWord p).getD []) (runT fresh (.init :: p)).rule.core.kw ∧
    (runT fresh (.init :: p)).rule.ex = (lastValue p).getD .nil ∧
    OpInv TakenT p (runT fresh (.init :: p)).rule.core.op (runT fresh (.init :: p)).held := by
  refine snoc_induction (P := fun p => (runT fresh (.init :: p)).rule.core.init = true ∧
    keptWord ((lastWord p).getD []) (runT fresh (.init :: p)).rule.core.kw ∧
    (runT fresh (.init :: p)).rule.ex = (lastValue p).getD .nil ∧
    OpInv TakenT p (runT fresh (.init :: p)).rule.core.op (runT fresh (.init :: p)).held) ?_ ?_ p
  · refine ⟨rfl, ⟨fun k h => ?_, fun _ => show matchTKW [] = 0 by decide⟩, rfl, Or.inr ⟨rfl, rfl, ?_⟩⟩
    · cases k <;> exact absurd h (by decide)
    · rintro q ⟨p1, a, p2, h, _⟩; simp at h
  · rintro p c ⟨hi, hk, he, ho⟩
    have e : runT fresh (.init :: (p ++ [c])) = callT fresh (runT fresh (.init :: p)) c := by
      simp [runT, List.foldl_append]
    rw [e, lastWord_snoc, lastValue_snoc]
    generalize runT fresh (.init :: p) = v at hi hk he ho
    cases c with
    | init => simp only [callT]; rw [if_pos hi]; exact ⟨hi, hk, he, ho.other (by simp)⟩
    | keyword k =>
      simp only [callT, setKeywordT _ hi]
      refine ⟨hi, ?_, he, ho.other (by simp)⟩
      cases hw : KwArg.words k with
      | none => exact hk
      | some w => exact keptWord_match w
    | operator a =>
      simp only [callT]
      have hw : ∀ x : Cop, ∀ q, TakenT (lastWord p) a q ↔ TakenT (some ({ v.rule.core with op := x } : RuleCore).kw) a q := by
        intro x q
        rw [takenT_getD]
        exact takenT_kept hk a q
      refine ⟨(setOperatorT_keeps _ _).1.trans hi, ?_, he,
        ho.operator takenT_uniq a (fun x q hq => ?_) (fun x hn => ?_)⟩
      · rw [(setOperatorT_keeps _ _).2]; exact hk
      · exact (setOperatorT { v.rule.core with op := x } hi a).1 q ((hw x q).1 hq)
      · exact (setOperatorT { v.rule.core with op := x } hi a).2 fun q hq => hn q ((hw x q).2 hq)
    | expression ex => simp only [callT]; rw [if_pos hi]; exact ⟨hi, hk, rfl, ho.other (by simp)⟩
    | quote s =>
      simp only [callT]
      rw [if_pos hi, (quoteT_keeps _ _).1, (quoteT_keeps _ _).2]
      exact ⟨hi, hk, he, ho.other (by simp)⟩
    | paren b => exact ⟨hi, hk, he, ho.other (by simp)⟩

/-! ## C96 -/

/-- **C96**, bind rules: after `Init`, whatever is called, a rule has the keyword and value that
were set last and the last operator that went with the keyword of its time, and `Operator` reports
it. -/
theorem C96_bind_history (fresh : Str) (p : List (Call BExpr)) :
    (runB fresh (.init :: p)).rule.core.init = true ∧
    (runB fresh (.init :: p)).rule.core.kw = (lastWord p).getD [] ∧
    (runB fresh (.init :: p)).rule.ex = (lastValue p).getD .nil ∧
    (∀ q, (runB fresh (.init :: p)).rule.core.op = relConst q ↔ LastOperator TakenB p q) ∧
    ((runB fresh (.init :: p)).rule.core.op = 0 ↔ ∀ q, ¬ LastOperator TakenB p q) ∧
    operatorB (runB fresh (.init :: p)) = (runB fresh (.init :: p)).rule.core.op := by
  obtain ⟨h1, h2, h3, h4⟩ := inv_bind fresh p
  exact ⟨h1, h2, h3, h4.exact takenB_uniq⟩

/-- **C96**, target rules: the same, with the keyword in its usual spelling. -/
theorem C96_target_history (fresh : Str) (p : List (Call TExpr)) :
    (runT fresh (.init :: p)).rule.core.init = true ∧
    (∀ w k, lastWord p = some w → Str.eqFold w (TKw.name k) = true →
      (runT fresh (.init :: p)).rule.core.kw = k.name) ∧
    ((∀ w k, lastWord p = some w → Str.eqFold w (TKw.name k) = false) →
      (runT fresh (.init :: p)).rule.keyword = 0) ∧
    (runT fresh (.init :: p)).rule.ex = (lastValue p).getD .nil ∧
    (∀ q, (runT fresh (.init :: p)).rule.core.op = relConst q ↔ LastOperator TakenT p q) ∧
    ((runT fresh (.init :: p)).rule.core.op = 0 ↔ ∀ q, ¬ LastOperator TakenT p q) ∧
    operatorT (runT fresh (.init :: p)) = (runT fresh (.init :: p)).rule.core.op := by
  obtain ⟨h1, h2, h3, h4⟩ := inv_target fresh p
  refine ⟨h1, fun w k hw hk => ?_, fun hn => ?_, h3, h4.exact takenT_uniq⟩
  · rw [hw] at h2; exact h2.1 k hk
  · refine h2.2 fun k => ?_
    cases hw : lastWord p with
    | none => cases k <;> decide
    | some w => exact hn w k hw

theorem run_more {C V : Type} (f : V → C → V) (v : V) (p : List C) (c : C) :
    (p ++ [c]).foldl f v = f (p.foldl f v) c := by simp

/-- **C96**, quotation marks of bind rules: a new value comes without marks around its parts, whatever was
called before; `SetQuoteStyle` after that puts marks around the parts exactly if the style is 0 and the value
is a list of two names or more in a rule of names, and around the whole unless the style is 0 and the value
is a list of names. -/
theorem C96_bind_marks (fresh : Str) (p : List (Call BExpr)) (ex : BExpr) :
    (runB fresh (.init :: p ++ [.expression ex])).rule.slice = false ∧
    (runB fresh (.init :: p ++ [.expression ex])).rule.outer = (runB fresh (.init :: p)).rule.outer ∧
    ∀ s : Int,
      ((runB fresh (.init :: p ++ [.expression ex] ++ [.quote s])).rule.outer = false ↔ s = 0 ∧ ∃ d, ex = .dns d) ∧
      ((runB fresh (.init :: p ++ [.expression ex] ++ [.quote s])).rule.slice = true ↔
        s = 0 ∧ ∃ d, ex = .dns d ∧ 2 ≤ d.entries.length ∧
          ∃ w k, lastWord p = some w ∧ (k = BKw.userdn ∨ k = .groupdn ∨ k = .roledn) ∧ Str.eqFold w k.name = true) := by
  obtain ⟨h1, h2, -, -⟩ := inv_bind fresh p
  have e1 : (runB fresh (.init :: p ++ [.expression ex])).rule = (runB fresh (.init :: p)).rule.setExpression ex := by
    unfold runB
    rw [run_more]
    show (callB fresh (runB fresh (.init :: p)) _).rule = _
    simp only [callB, h1, if_true]
    rfl
  have e2 : ∀ s, (runB fresh (.init :: p ++ [.expression ex] ++ [.quote s])).rule =
      ((runB fresh (.init :: p)).rule.setExpression ex).setQuoteStyle s := by
    intro s
    rw [← e1]
    unfold runB
    rw [run_more]
    show (callB fresh (runB fresh (.init :: p ++ [.expression ex])) _).rule = _
    have : (runB fresh (.init :: p ++ [.expression ex])).rule.core.init = true := by rw [e1]; exact h1
    simp only [callB, this, if_true]
    rfl
  have word : ∀ k : BKw, matchBKW (runB fresh (.init :: p)).rule.core.kw = bkwConst k ↔
      ∃ w, lastWord p = some w ∧ Str.eqFold w k.name = true := by
    intro k
    rw [matchBKW_iff, h2]
    cases lastWord p with
    | none =>
      simp only [Option.getD_none, reduceCtorEq, false_and, exists_false, iff_false]
      cases k <;> decide
    | some w => simp
  refine ⟨by rw [e1]; rfl, by rw [e1]; rfl, fun s => ?_⟩
  rw [e2]
  unfold BRule.setQuoteStyle
  cases ex with
  | dns d =>
    simp only [BExpr.dns.injEq, exists_eq_left']
    have hk : (matchBKW (runB fresh (.init :: p)).rule.core.kw = BindUDN ∨
        matchBKW (runB fresh (.init :: p)).rule.core.kw = BindGDN ∨
        matchBKW (runB fresh (.init :: p)).rule.core.kw = BindRDN) ↔
        ∃ w k, lastWord p = some w ∧ (k = BKw.userdn ∨ k = .groupdn ∨ k = .roledn) ∧ Str.eqFold w k.name = true := by
      constructor
      · rintro (h | h | h)
        · obtain ⟨w, h, h'⟩ := (word .userdn).1 h; exact ⟨w, .userdn, h, by simp, h'⟩
        · obtain ⟨w, h, h'⟩ := (word .groupdn).1 h; exact ⟨w, .groupdn, h, by simp, h'⟩
        · obtain ⟨w, h, h'⟩ := (word .roledn).1 h; exact ⟨w, .roledn, h, by simp, h'⟩
      · rintro ⟨w, k, h, rfl | rfl | rfl, h'⟩
        · exact .inl ((word .userdn).2 ⟨w, h, h'⟩)
        · exact .inr (.inl ((word .groupdn).2 ⟨w, h, h'⟩))
        · exact .inr (.inr ((word .roledn).2 ⟨w, h, h'⟩))
    rw [← hk]
    by_cases hc : matchBKW (runB fresh (.init :: p)).rule.core.kw = BindUDN ∨
        matchBKW (runB fresh (.init :: p)).rule.core.kw = BindGDN ∨
        matchBKW (runB fresh (.init :: p)).rule.core.kw = BindRDN
    · have hs : ((runB fresh (.init :: p)).rule.setExpression (.dns d)).sliceAfter s =
          some (quoteSlices d.entries.length s) := if_pos hc
      rw [hs]
      by_cases hn : d.entries.length < 2
      · simp [quoteSlices, hn, show ¬ 2 ≤ d.entries.length by omega, MultivalSliceQuotes]
        exact decide_eq_true_iff
      · simp [quoteSlices, hn, show 2 ≤ d.entries.length by omega, hc, MultivalSliceQuotes]
        exact decide_eq_true_iff
    · have hs : ((runB fresh (.init :: p)).rule.setExpression (.dns d)).sliceAfter s = some false := if_neg hc
      rw [hs]
      simp [hc, MultivalSliceQuotes]
      exact decide_eq_true_iff
  | _ => simp [BRule.sliceAfter, BRule.setExpression]

example : (runB [] [.init, .keyword (.str b!"userdn"), .expression (.dns ⟨BindUDN, [.dn (DN.UDN b!"a"), .dn (DN.UDN b!"b")]⟩),
    .quote 0]).rule.slice = true := by decide +kernel

/-- **C96**, quotation marks of target rules: a new value comes with marks around the whole and none around
its parts, whatever was called before; `SetQuoteStyle` after that puts marks around the parts exactly if the
style is 0 and the value is a list of two or more that goes with the keyword, and around the whole unless the
style is 0 and the value is a list. -/
theorem C96_target_marks (fresh : Str) (p : List (Call TExpr)) (ex : TExpr) :
    (runT fresh (.init :: p ++ [.expression ex])).rule.slice = false ∧
    (runT fresh (.init :: p ++ [.expression ex])).rule.outer = true ∧
    ∀ s : Int,
      ((runT fresh (.init :: p ++ [.expression ex] ++ [.quote s])).rule.outer = false ↔
        s = 0 ∧ ((∃ d, ex = .dns d) ∨ (∃ a, ex = .attrs a) ∨ ∃ o, ex = .oids o)) ∧
      ((runT fresh (.init :: p ++ [.expression ex] ++ [.quote s])).rule.slice = true ↔
        s = 0 ∧ ∃ w k, lastWord p = some w ∧ Str.eqFold w (TKw.name k) = true ∧
          ((∃ d, ex = .dns d ∧ 2 ≤ d.entries.length ∧ (k = .target ∨ k = .target_to ∨ k = .target_from)) ∨
           (∃ a, ex = .attrs a ∧ 2 ≤ a.entries.length ∧ k = .targetattr) ∨
           ∃ o, ex = .oids o ∧ 2 ≤ o.entries.length ∧ (k = .targetcontrol ∨ k = .extop))) := by
  obtain ⟨h1, h2, -, -⟩ := inv_target fresh p
  have e1 : (runT fresh (.init :: p ++ [.expression ex])).rule = (runT fresh (.init :: p)).rule.setExpression ex := by
    unfold runT
    rw [run_more]
    show (callT fresh (runT fresh (.init :: p)) _).rule = _
    simp only [callT, h1, if_true]
    rfl
  have e2 : ∀ s, (runT fresh (.init :: p ++ [.expression ex] ++ [.quote s])).rule =
      ((runT fresh (.init :: p)).rule.setExpression ex).setQuoteStyle s := by
    intro s
    rw [← e1]
    unfold runT
    rw [run_more]
    show (callT fresh (runT fresh (.init :: p ++ [.expression ex])) _).rule = _
    have : (runT fresh (.init :: p ++ [.expression ex])).rule.core.init = true := by rw [e1]; exact h1
    simp only [callT, this, if_true]
    rfl
  have word : ∀ k : TKw, matchTKW (runT fresh (.init :: p)).rule.core.kw = tkwConst k ↔
      ∃ w, lastWord p = some w ∧ Str.eqFold w k.name = true := by
    intro k
    rw [matchTKW_iff, ← kept_iff h2]
    cases lastWord p with
    | none =>
      simp only [Option.getD_none, reduceCtorEq, false_and, exists_false, iff_false]
      cases k <;> decide
    | some w => simp
  refine ⟨by rw [e1]; rfl, by rw [e1]; rfl, fun s => ?_⟩
  rw [e2]
  clear e1 e2
  generalize hr : (runT fresh (.init :: p)).rule.setExpression ex = r
  have fin : ∀ (c : Prop) (n : Nat), (c → r.sliceAfter s = some (quoteSlices n s)) →
      (¬ c → r.sliceAfter s = some false) →
      ((r.setQuoteStyle s).outer = false ↔ s = 0) ∧ ((r.setQuoteStyle s).slice = true ↔ s = 0 ∧ 2 ≤ n ∧ c) := by
    intro c n hp hn
    unfold TRule.setQuoteStyle
    by_cases hc : c
    · rw [hp hc]
      by_cases hl : n < 2
      · simp [quoteSlices, hl, show ¬ 2 ≤ n by omega, MultivalSliceQuotes]
        exact decide_eq_true_iff
      · simp [quoteSlices, hl, show 2 ≤ n by omega, hc, MultivalSliceQuotes]
        exact decide_eq_true_iff
    · rw [hn hc]
      simp [hc, MultivalSliceQuotes]
      exact decide_eq_true_iff
  subst hr
  cases ex with
  | dns d =>
    obtain ⟨f1, f2⟩ := fin _ d.entries.length (fun hc => if_pos hc) (fun hc => if_neg hc)
    refine ⟨f1.trans (by simp), f2.trans (and_congr_right fun _ => ?_)⟩
    constructor
    · rintro ⟨hn, h | h | h⟩
      · obtain ⟨w, h, h'⟩ := (word .target).1 h; exact ⟨w, .target, h, h', .inl ⟨d, rfl, hn, by simp⟩⟩
      · obtain ⟨w, h, h'⟩ := (word .target_to).1 h; exact ⟨w, .target_to, h, h', .inl ⟨d, rfl, hn, by simp⟩⟩
      · obtain ⟨w, h, h'⟩ := (word .target_from).1 h; exact ⟨w, .target_from, h, h', .inl ⟨d, rfl, hn, by simp⟩⟩
    · rintro ⟨w, k, h, h', ⟨_, e, hn, hk⟩ | ⟨_, e, _⟩ | ⟨_, e, _⟩⟩
      · cases e
        refine ⟨hn, ?_⟩
        rcases hk with rfl | rfl | rfl
        · exact .inl ((word .target).2 ⟨w, h, h'⟩)
        · exact .inr (.inl ((word .target_to).2 ⟨w, h, h'⟩))
        · exact .inr (.inr ((word .target_from).2 ⟨w, h, h'⟩))
      · cases e
      · cases e
  | attrs a =>
    obtain ⟨f1, f2⟩ := fin _ a.entries.length (fun hc => if_pos hc) (fun hc => if_neg hc)
    refine ⟨f1.trans (by simp), f2.trans (and_congr_right fun _ => ?_)⟩
    constructor
    · rintro ⟨hn, h⟩
      obtain ⟨w, h, h'⟩ := (word .targetattr).1 h; exact ⟨w, .targetattr, h, h', .inr (.inl ⟨a, rfl, hn, rfl⟩)⟩
    · rintro ⟨w, k, h, h', ⟨_, e, _⟩ | ⟨_, e, hn, rfl⟩ | ⟨_, e, _⟩⟩
      · cases e
      · cases e; exact ⟨hn, (word .targetattr).2 ⟨w, h, h'⟩⟩
      · cases e
  | oids o =>
    obtain ⟨f1, f2⟩ := fin _ o.entries.length (fun hc => if_pos hc) (fun hc => if_neg hc)
    refine ⟨f1.trans (by simp), f2.trans (and_congr_right fun _ => ?_)⟩
    constructor
    · rintro ⟨hn, h | h⟩
      · obtain ⟨w, h, h'⟩ := (word .extop).1 h; exact ⟨w, .extop, h, h', .inr (.inr ⟨o, rfl, hn, by simp⟩)⟩
      · obtain ⟨w, h, h'⟩ := (word .targetcontrol).1 h
        exact ⟨w, .targetcontrol, h, h', .inr (.inr ⟨o, rfl, hn, by simp⟩)⟩
    · rintro ⟨w, k, h, h', ⟨_, e, _⟩ | ⟨_, e, _⟩ | ⟨_, e, hn, hk⟩⟩
      · cases e
      · cases e
      · cases e
        refine ⟨hn, ?_⟩
        rcases hk with rfl | rfl
        · exact .inr ((word .targetcontrol).2 ⟨w, h, h'⟩)
        · exact .inl ((word .extop).2 ⟨w, h, h'⟩)
  | _ => simp [TRule.sliceAfter, TRule.setExpression, TRule.setQuoteStyle]

example : (runT [] [.init, .keyword (.str b!"Target"), .expression (.dns ⟨Target, [DN.TDN b!"a", DN.TDN b!"b"]⟩),
    .quote 0]).rule.slice = true ∧
    (runT [] [.init, .keyword (.str b!"Target"), .expression (.dns ⟨Target, [DN.TDN b!"a", DN.TDN b!"b"]⟩),
      .quote 0]).rule.outer = false := by decide +kernel

example : (runB [] [.init, .keyword (.str b!"SSF"), .operator (.str b!"ge"), .operator (.int 1),
      .expression (.text b!"128"), .keyword (.bind BindUDN), .operator (.cop Gt')]).rule.core =
    ⟨true, b!"userdn", Ge'⟩ := by decide +kernel

/-- **C96**, the full claim: calling `Init`, `SetKeyword`, `SetOperator` and `SetExpression` one after
the other gives the rule that `BR` or `TR` makes of the same arguments, as far as keyword,
operator, value and text go. -/
def StepByStep : Prop :=
  (∀ (fresh : Str) (val : BExpr → List Str) (kw : KwArg) (op : OpArg) (ex : BExpr),
    let v := runB fresh [.init, .keyword kw, .operator op, .expression ex]
    v.rule.core = (BR kw op ex).core ∧ v.rule.ex = (BR kw op ex).ex ∧
      v.rule.text val = (BR kw op ex).text val) ∧
  ∀ (fresh : Str) (kw : KwArg) (op : OpArg) (ex : TExpr),
    let v := runT fresh [.init, .keyword kw, .operator op, .expression ex]
    v.rule.core = (TR kw op ex).core ∧ v.rule.ex = (TR kw op ex).ex ∧ v.rule.string = (TR kw op ex).string

/-- **C96** fails: the value of a bind rule put together step by step has no quotation marks. -/
theorem C96_counterexample : ¬ StepByStep := by
  intro h
  have := (h.1 [] (fun e => match e with | .text s => [s] | _ => []) (.bind BindDNS) (.cop Eq')
    (.text b!"www.example.com")).2.2
  revert this
  decide +kernel

/-- **C96** for target rules in full. -/
theorem C96_target (fresh : Str) (kw : KwArg) (op : OpArg) (ex : TExpr) :
    (runT fresh [.init, .keyword kw, .operator op, .expression ex]).rule = TR kw op ex := by
  have h : (runT fresh [.init, .keyword kw, .operator op]).rule.core =
      TargetRule.setOperator (TargetRule.setKeyword ⟨true, [], 0⟩ kw) op := rfl
  have hi := (inv_target fresh [.keyword kw, .operator op]).1
  show (callT fresh (runT fresh [.init, .keyword kw, .operator op]) (.expression ex)).rule = _
  simp only [callT]
  rw [if_pos hi]
  rfl

/-- **C96** for bind rules: keyword, operator and value are those of `BR`, and so is everything after
a call of `SetQuoteStyle` on both.  Missing: the quotation marks before that. -/
theorem C96_bind_partial (fresh : Str) (kw : KwArg) (op : OpArg) (ex : BExpr) :
    (runB fresh [.init, .keyword kw, .operator op, .expression ex]).rule.core = (BR kw op ex).core ∧
    (runB fresh [.init, .keyword kw, .operator op, .expression ex]).rule.ex = (BR kw op ex).ex ∧
    (runB fresh [.init, .keyword kw, .operator op, .expression ex]).rule.outer = false ∧
    ∀ s, (runB fresh [.init, .keyword kw, .operator op, .expression ex, .quote s]).rule =
      (BR kw op ex).setQuoteStyle s := by
  have hi := (inv_bind fresh [.keyword kw, .operator op]).1
  have e : (runB fresh [.init, .keyword kw, .operator op, .expression ex]).rule =
      { BR kw op ex with outer := false } := by
    show (callB fresh (runB fresh [.init, .keyword kw, .operator op]) (.expression ex)).rule = _
    simp only [callB]
    rw [if_pos hi]
    rfl
  refine ⟨by rw [e], by rw [e], by rw [e], fun s => ?_⟩
  have hi' := (inv_bind fresh [.keyword kw, .operator op, .expression ex]).1
  show (callB fresh (runB fresh [.init, .keyword kw, .operator op, .expression ex]) (.quote s)).rule = _
  simp only [callB]
  rw [if_pos hi', e]
  rfl

/-- **C96**, the claim about repeated `Init`, /repo/bind.go:150-165 and target.go:194-208: it makes a
new rule. -/
def InitWipes : Prop :=
  (∀ fresh p, (runB fresh (p ++ [.init])).rule = (runB fresh [.init]).rule) ∧
  ∀ fresh p, (runT fresh (p ++ [.init])).rule = (runT fresh [.init]).rule

/-- **C96** fails for repeated `Init`: it leaves an initialized rule as it is. -/
theorem C96_wipe_counterexample : ¬ InitWipes := by
  intro h
  have := congrArg (fun r => r.core) (h.1 [] [.init, .keyword (.bind BindUDN)])
  revert this
  decide +kernel

theorem first_init {E : Type} (p : List (Call E)) (h : Call.init ∈ p) :
    ∃ p1 p2 : List (Call E), p = p1 ++ Call.init :: p2 ∧ Call.init ∉ p1 := by
  induction p with
  | nil => cases h
  | cons c p ih =>
    by_cases hc : c = .init
    · exact ⟨[], p, by simp [hc], by simp⟩
    · obtain ⟨p1, p2, rfl, h2⟩ := ih (by
        rcases List.mem_cons.1 h with h | h
        · exact absurd h.symm hc
        · exact h)
      exact ⟨c :: p1, p2, rfl, by simp only [List.mem_cons, not_or]; exact ⟨fun e => hc e.symm, h2⟩⟩

/-- **C96**, what `Init` does: without it no call has an effect, the first one starts an empty rule,
and later ones do nothing.  Missing: that a later one starts anew. -/
theorem C96_init_partial (fresh : Str) :
    (∀ p : List (Call BExpr), .init ∉ p → runB fresh p = zeroB) ∧
    (∀ p : List (Call TExpr), .init ∉ p → runT fresh p = zeroT) ∧
    (∀ p p' : List (Call BExpr), .init ∉ p → runB fresh (p ++ .init :: p') = runB fresh (.init :: p')) ∧
    (∀ p p' : List (Call TExpr), .init ∉ p → runT fresh (p ++ .init :: p') = runT fresh (.init :: p')) ∧
    (∀ p : List (Call BExpr), .init ∈ p → runB fresh (p ++ [.init]) = runB fresh p) ∧
    (∀ p : List (Call TExpr), .init ∈ p → runT fresh (p ++ [.init]) = runT fresh p) := by
  have hB : ∀ p : List (Call BExpr), .init ∉ p → runB fresh p = zeroB := by
    intro p
    refine snoc_induction (P := fun p => .init ∉ p → runB fresh p = zeroB) (fun _ => rfl) ?_ p
    intro p c ih hn
    simp only [List.mem_append, List.mem_singleton, not_or] at hn
    have e : runB fresh (p ++ [c]) = callB fresh (runB fresh p) c := by simp [runB, List.foldl_append]
    rw [e, ih hn.1]
    cases c with
    | init => exact absurd rfl hn.2
    | keyword k => cases k <;> rfl
    | operator a =>
      have h1 := (C18_uninitialised zeroB.rule.core rfl a).1
      simp only [callB, h1, heldAfter]
      have h2 : (BindRule.setOperator { zeroB.rule.core with op := 0 } a) = { zeroB.rule.core with op := 0 } :=
        (C18_uninitialised _ rfl a).1
      rw [h2]; rfl
    | expression e => rfl
    | quote s => rfl
    | paren b => rfl
  have hT : ∀ p : List (Call TExpr), .init ∉ p → runT fresh p = zeroT := by
    intro p
    refine snoc_induction (P := fun p => .init ∉ p → runT fresh p = zeroT) (fun _ => rfl) ?_ p
    intro p c ih hn
    simp only [List.mem_append, List.mem_singleton, not_or] at hn
    have e : runT fresh (p ++ [c]) = callT fresh (runT fresh p) c := by simp [runT, List.foldl_append]
    rw [e, ih hn.1]
    cases c with
    | init => exact absurd rfl hn.2
    | keyword k => cases k <;> rfl
    | operator a =>
      have h1 := (C18_uninitialised zeroT.rule.core rfl a).2
      simp only [callT, h1, heldAfter]
      have h2 : (TargetRule.setOperator { zeroT.rule.core with op := 0 } a) = { zeroT.rule.core with op := 0 } :=
        (C18_uninitialised _ rfl a).2
      rw [h2]; rfl
    | expression e => rfl
    | quote s => rfl
    | paren b => rfl
  have hB' : ∀ p p' : List (Call BExpr), .init ∉ p → runB fresh (p ++ .init :: p') = runB fresh (.init :: p') := by
    intro p p' h
    have := hB p h
    unfold runB at this ⊢
    rw [List.foldl_append, this]
  have hT' : ∀ p p' : List (Call TExpr), .init ∉ p → runT fresh (p ++ .init :: p') = runT fresh (.init :: p') := by
    intro p p' h
    have := hT p h
    unfold runT at this ⊢
    rw [List.foldl_append, this]
  refine ⟨hB, hT, hB', hT', fun p h => ?_, fun p h => ?_⟩
  · obtain ⟨p1, p2, rfl, h1⟩ := first_init p h
    have hi := (inv_bind fresh p2).1
    rw [List.append_assoc, List.cons_append, hB' _ _ h1, hB' _ _ h1]
    show runB fresh ((.init :: p2) ++ [.init]) = _
    have e : runB fresh ((.init :: p2) ++ [.init]) = callB fresh (runB fresh (.init :: p2)) .init := by
      simp [runB, List.foldl_append]
    rw [e]
    simp only [callB]
    rw [if_pos hi]
  · obtain ⟨p1, p2, rfl, h1⟩ := first_init p h
    have hi := (inv_target fresh p2).1
    rw [List.append_assoc, List.cons_append, hT' _ _ h1, hT' _ _ h1]
    show runT fresh ((.init :: p2) ++ [.init]) = _
    have e : runT fresh ((.init :: p2) ++ [.init]) = callT fresh (runT fresh (.init :: p2)) .init := by
      simp [runT, List.foldl_append]
    rw [e]
    simp only [callT]
    rw [if_pos hi]

example : runB [] [.keyword (.bind BindUDN), .expression (.text b!"x"), .init, .paren true] =
    runB [] [.init, .paren true] :=
  (C96_init_partial []).2.2.1 [.keyword (.bind BindUDN), .expression (.text b!"x")] [.paren true] (by simp)

/-! ### Chains of calls -/

/-- What a chain of calls on a declared bind rule returns. -/
def chainB (fresh : Str) (p : List (Call BExpr)) : Var BRule := p.foldl (retB fresh) zeroB

/-- What a chain of calls on a declared target rule returns. -/
def chainT (fresh : Str) (p : List (Call TExpr)) : Var TRule := p.foldl (retT fresh) zeroT

/-- **C96**, the claim about chains, where every call is made on what the call before returned: a
chain of `SetKeyword`, `SetOperator` and `SetExpression` on a declared rule returns the rule
with these parts. -/
def ChainsMake : Prop :=
  (∀ fresh kw op ex, (chainB fresh [.keyword kw, .operator op, .expression ex]).rule.core = (BR kw op ex).core) ∧
  ∀ fresh kw op ex, (chainT fresh [.keyword kw, .operator op, .expression ex]).rule.core = (TR kw op ex).core

theorem started_bind (fresh : Str) (v : Var BRule) (c : Call BExpr) (h : v.rule.core.init = true) :
    (callB fresh v c).rule.core.init = true := by
  cases c with
  | init => simp [callB, h]
  | keyword k => simp [callB, setKeywordB _ h, h]
  | operator a =>
    show (BindRule.setOperator v.rule.core a).init = true
    by_cases hq : ∃ q, TakenB (some v.rule.core.kw) a q
    · obtain ⟨q, hq⟩ := hq
      rw [(setOperatorB _ h a).1 q hq]; exact h
    · rw [(setOperatorB _ h a).2 fun q hq' => hq ⟨q, hq'⟩]; exact h
  | expression e => simp only [callB, h, if_true]; exact h
  | quote s => simp only [callB, h, if_true]; rw [(quoteB_keeps _ s).1]; exact h
  | paren b => simp [callB, h]

theorem started_target (fresh : Str) (v : Var TRule) (c : Call TExpr) (h : v.rule.core.init = true) :
    (callT fresh v c).rule.core.init = true := by
  cases c with
  | init => simp [callT, h]
  | keyword k => cases k <;> simp [callT, TargetRule.setKeyword, h]
  | operator a =>
    show (TargetRule.setOperator v.rule.core a).init = true
    by_cases hq : ∃ q, TakenT (some v.rule.core.kw) a q
    · obtain ⟨q, hq⟩ := hq
      rw [(setOperatorT _ h a).1 q hq]; exact h
    · rw [(setOperatorT _ h a).2 fun q hq' => hq ⟨q, hq'⟩]; exact h
  | expression e => simp only [callT, h, if_true]; exact h
  | quote s => simp only [callT, h, if_true]; rw [(quoteT_keeps _ s).1]; exact h
  | paren b => exact h

/-- **C96**, chains.  On a rule that was initialized every call returns the rule it was made on, as
the call left it.  On a declared bind rule the calls before the first `SetKeyword` or `Init`
do nothing and this one starts an empty rule; on a declared target rule the calls before
the first `SetExpression` or `Init` do nothing and this one starts a rule.  Missing: that the
first `SetKeyword`, and what is set before the first `SetExpression`, has an effect. -/
theorem C96_chain_partial (fresh : Str) :
    (∀ (v : Var BRule) c, v.rule.core.init = true → retB fresh v c = callB fresh v c) ∧
    (∀ (v : Var TRule) c, v.rule.core.init = true → retT fresh v c = callT fresh v c) ∧
    (∀ p, Call.init ∉ p → (∀ k, Call.keyword k ∉ p) → chainB fresh p = zeroB) ∧
    (∀ p k p', Call.init ∉ p → (∀ k, Call.keyword k ∉ p) →
      chainB fresh (p ++ .keyword k :: p') = runB fresh (.init :: p') ∧
      chainB fresh (p ++ .init :: p') = runB fresh (.init :: p')) ∧
    (∀ p, Call.init ∉ p → (∀ e, Call.expression e ∉ p) → chainT fresh p = zeroT) ∧
    (∀ p e p', Call.init ∉ p → (∀ e, Call.expression e ∉ p) →
      chainT fresh (p ++ .expression e :: p') = runT fresh (.init :: .expression e :: p') ∧
      chainT fresh (p ++ .init :: p') = runT fresh (.init :: p')) := by
  have rB : ∀ (v : Var BRule) c, v.rule.core.init = true → retB fresh v c = callB fresh v c := by
    intro v c h
    cases c <;> simp [retB, h]
  have rT : ∀ (v : Var TRule) c, v.rule.core.init = true → retT fresh v c = callT fresh v c := by
    intro v c h
    cases c <;> simp [retT, callT, h]
  have fB : ∀ (p : List (Call BExpr)) (v : Var BRule), v.rule.core.init = true → p.foldl (retB fresh) v = p.foldl (callB fresh) v := by
    intro p
    induction p with
    | nil => exact fun v _ => rfl
    | cons c p ih =>
      intro v h
      rw [List.foldl_cons, List.foldl_cons, rB v c h]
      exact ih _ (started_bind fresh v c h)
  have fT : ∀ (p : List (Call TExpr)) (v : Var TRule), v.rule.core.init = true → p.foldl (retT fresh) v = p.foldl (callT fresh) v := by
    intro p
    induction p with
    | nil => exact fun v _ => rfl
    | cons c p ih =>
      intro v h
      rw [List.foldl_cons, List.foldl_cons, rT v c h]
      exact ih _ (started_target fresh v c h)
  have I := C96_init_partial fresh
  have zB : ∀ p : List (Call BExpr), Call.init ∉ p → (∀ k, Call.keyword k ∉ p) → chainB fresh p = zeroB := by
    intro p
    induction p with
    | nil => exact fun _ _ => rfl
    | cons c p ih =>
      intro h1 h2
      have hc : retB fresh zeroB c = zeroB := by
        have : callB fresh zeroB c = zeroB := by
          have := I.1 [c] (by intro h; exact h1 (List.mem_cons.2 (.inl (List.mem_singleton.1 h))))
          exact this
        cases c with
        | keyword k => exact absurd (List.mem_cons_self ..) (h2 k)
        | _ => exact this
      unfold chainB at ih ⊢
      rw [List.foldl_cons, hc]
      exact ih (fun h => h1 (List.mem_cons_of_mem _ h)) fun k h => h2 k (List.mem_cons_of_mem _ h)
  have zT : ∀ p : List (Call TExpr), Call.init ∉ p → (∀ e, Call.expression e ∉ p) → chainT fresh p = zeroT := by
    intro p
    induction p with
    | nil => exact fun _ _ => rfl
    | cons c p ih =>
      intro h1 h2
      have hc : retT fresh zeroT c = zeroT := by
        have : callT fresh zeroT c = zeroT := by
          have := I.2.1 [c] (by intro h; exact h1 (List.mem_cons.2 (.inl (List.mem_singleton.1 h))))
          exact this
        cases c with
        | expression e => exact absurd (List.mem_cons_self ..) (h2 e)
        | _ => exact this
      unfold chainT at ih ⊢
      rw [List.foldl_cons, hc]
      exact ih (fun h => h1 (List.mem_cons_of_mem _ h)) fun k h => h2 k (List.mem_cons_of_mem _ h)
  refine ⟨rB, rT, zB, fun p k p' h1 h2 => ?_, zT, fun p e p' h1 h2 => ?_⟩
  · have z := zB p h1 h2
    unfold chainB at z ⊢
    rw [List.foldl_append, List.foldl_append, z]
    exact ⟨fB p' _ rfl, fB p' _ rfl⟩
  · have z := zT p h1 h2
    unfold chainT at z ⊢
    rw [List.foldl_append, List.foldl_append, z]
    exact ⟨fT p' _ rfl, fT p' _ rfl⟩

example : chainB [] [.operator (.cop Ne'), .keyword (.bind BindUDN), .paren true] = runB [] [.init, .paren true] :=
  ((C96_chain_partial []).2.2.2.1 [.operator (.cop Ne')] (.bind BindUDN) [.paren true] (by simp) (by simp)).1

/-- **C96** fails for chains: the keyword is lost. -/
theorem C96_chain_counterexample : ¬ ChainsMake ∧
    (∀ fresh kw op ex, (chainB fresh [.keyword kw, .operator op, .expression ex]).rule.core.kw = []) ∧
    ∀ fresh kw op ex, (chainT fresh [.keyword kw, .operator op, .expression ex]).rule.core.kw = [] := by
  refine ⟨fun h => ?_, fun fresh kw op ex => ?_, fun fresh kw op ex => ?_⟩
  · have := h.1 [] (.bind BindUDN) (.cop Eq') .nil
    revert this
    decide +kernel
  · have e := ((C96_chain_partial fresh).2.2.2.1 [] kw [.operator op, .expression ex] (by simp) (by simp)).1
    exact (congrArg (fun v => v.rule.core.kw) e).trans (C96_bind_history fresh [.operator op, .expression ex]).2.1
  · have e := ((C96_chain_partial fresh).2.2.2.2.2 [.keyword kw, .operator op] ex [] (by simp) (by simp)).1
    exact congrArg (fun v => v.rule.core.kw) e

/-! ## C97 -/

/-- How a bind rule comes about: made by `BR`, declared, or handed over by the parser, whose
conditions have operators of go-stackage and some ID. -/
inductive StartB : Var BRule → Prop where
  | made (kw : KwArg) (op : OpArg) (ex : BExpr) : StartB (newB kw op ex)
  | declared : StartB zeroB
  | parsed (r : BRule) (id : Str) (h : r.core.init = true) : StartB ⟨r, id, .foreign r.core.op⟩

/-- The same for target rules. -/
inductive StartT : Var TRule → Prop where
  | made (kw : KwArg) (op : OpArg) (ex : TExpr) : StartT (newT kw op ex)
  | declared : StartT zeroT
  | parsed (r : TRule) (id : Str) (h : r.core.init = true) : StartT ⟨r, id, .foreign r.core.op⟩

/-- **C97**, the claim of /repo/bind.go:1118-1119: `ID` is `bind` in all scenarios. -/
def AlwaysBind : Prop :=
  ∀ (fresh : Str) (v : Var BRule), StartB v → 
    ∀ p : List (Call BExpr), idB (p.foldl (callB fresh) v) = b!"bind"

/-- **C97** fails: a rule started with `Init` has the ID of a fresh condition. -/
theorem C97_id_counterexample : ¬ AlwaysBind := by
  intro h
  have := h [] zeroB .declared [.init]
  revert this
  decide +kernel

theorem callB_id (fresh : Str) (v : Var BRule) (c : Call BExpr) (hi : v.rule.core.init = true) :
    (callB fresh v c).rule.core.init = true ∧ (callB fresh v c).id = v.id := by
  cases c with
  | init => simp only [callB]; rw [if_pos hi]; exact ⟨hi, rfl⟩
  | keyword k => simp only [callB, setKeywordB _ hi]; exact ⟨hi, trivial⟩
  | operator a => exact ⟨(setOperatorB_keeps _ _).1.trans hi, rfl⟩
  | expression e => simp only [callB]; rw [if_pos hi]; exact ⟨hi, rfl⟩
  | quote s => simp only [callB]; rw [if_pos hi, (quoteB_keeps _ _).1]; exact ⟨hi, rfl⟩
  | paren b => simp only [callB]; rw [if_pos hi]; exact ⟨hi, rfl⟩

theorem runs_id (fresh : Str) (p : List (Call BExpr)) : ∀ v : Var BRule, v.rule.core.init = true →
    (p.foldl (callB fresh) v).rule.core.init = true ∧ (p.foldl (callB fresh) v).id = v.id := by
  induction p with
  | nil => intro v h; exact ⟨h, rfl⟩
  | cons c p ih =>
    intro v h
    obtain ⟨h1, h2⟩ := callB_id fresh v c h
    obtain ⟨h3, h4⟩ := ih _ h1
    exact ⟨h3, h4.trans h2⟩

theorem BR_init (kw : KwArg) (op : OpArg) (ex : BExpr) : (BR kw op ex).core.init = true := by
  rw [BR]
  exact (setOperatorB_keeps _ _).1.trans (by cases kw <;> rfl)

/-- **C97**, IDs: rules made by `BR` and declared rules without `Init` report `bind` through every
call; the others keep the ID they started with.  Missing: that this is `bind`. -/
theorem C97_id_partial (fresh : Str) (p : List (Call BExpr)) :
    (∀ kw op ex, idB (p.foldl (callB fresh) (newB kw op ex)) = b!"bind") ∧
    (Call.init ∉ p → idB (runB fresh p) = b!"bind") ∧
    (Call.init ∈ p → idB (runB fresh p) = fresh) ∧
    (∀ (r : BRule) id h, r.core.init = true → idB (p.foldl (callB fresh) ⟨r, id, h⟩) = id) := by
  have key : ∀ (v : Var BRule) (p : List (Call BExpr)), v.rule.core.init = true → idB (p.foldl (callB fresh) v) = v.id := by
    intro v p h
    obtain ⟨h1, h2⟩ := runs_id fresh p v h
    simp only [idB, BRule.isZero, h1, Bool.not_true, Bool.false_eq_true, if_false, h2]
  refine ⟨fun kw op ex => key _ p (BR_init kw op ex), fun hp => ?_, fun hp => ?_, fun r id h hr => key _ p hr⟩
  · rw [(C96_init_partial fresh).1 p hp]
    rfl
  · obtain ⟨p1, p2, rfl, h1⟩ := first_init p hp
    rw [(C96_init_partial fresh).2.2.1 p1 p2 h1]
    exact key (callB fresh zeroB .init) p2 rfl

example : idB ([Call.keyword (.str b!"x"), .paren true].foldl (callB b!"?")
    (newB (.bind BindUDN) (.cop Eq') (.text b!"x"))) = b!"bind" :=
  (C97_id_partial _ _).1 _ _ _

/-- **C97**, the claim of /repo/bind.go:1121-1125: `Category` of a rule is its keyword, or empty when
it has none. -/
def CategoryIsKeyword : Prop :=
  ∀ v : Var BRule, (∀ k : BKw, v.rule.core.init = true → Str.eqFold v.rule.core.kw k.name = true → categoryB v = k.name) ∧
    ((∀ k : BKw, Str.eqFold v.rule.core.kw k.name = false) → categoryB v = [])

/-- **C97** fails: the category of an initialized rule without keyword is a message. -/
theorem C97_category_counterexample : ¬ CategoryIsKeyword := by
  intro h
  have := (h (runB [] [.init])).2 (by intro k; cases k <;> decide)
  revert this
  decide +kernel

/-- **C97**, categories of rules.  Missing: that the category of an initialized rule without keyword
is empty. -/
theorem C97_category_partial (v : Var BRule) (u : Var TRule) :
    (∀ k : BKw, v.rule.core.init = true → Str.eqFold v.rule.core.kw k.name = true → categoryB v = k.name) ∧
    (v.rule.core.init = false → categoryB v = []) ∧
    ((∀ k : BKw, Str.eqFold v.rule.core.kw k.name = false) → v.rule.core.init = true →
      categoryB v = b!"<invalid_bind_keyword>") ∧
    (∀ k : TKw, u.rule.core.init = true → Str.eqFold u.rule.core.kw k.name = true → categoryT u = k.name) ∧
    (u.rule.core.init = false → categoryT u = []) ∧
    ((∀ k : TKw, Str.eqFold u.rule.core.kw k.name = false) → u.rule.core.init = true →
      categoryT u = b!"<invalid_target_keyword>") := by
  refine ⟨fun k hi hk => ?_, fun hi => by simp [categoryB, BRule.isZero, hi], fun hn hi => ?_,
    fun k hi hk => ?_, fun hi => by simp [categoryT, TRule.isZero, hi], fun hn hi => ?_⟩
  · have h0 : v.rule.isZero = false := by simp [BRule.isZero, hi]
    rw [categoryB, h0, BRule.keyword, (matchBKW_iff _ _).2 hk]
    cases k <;> rfl
  · have h0 : v.rule.isZero = false := by simp [BRule.isZero, hi]
    rw [categoryB, h0, BRule.keyword, (matchBKW_zero _).2 hn]
    decide
  · have h0 : u.rule.isZero = false := by simp [TRule.isZero, hi]
    rw [categoryT, h0, TRule.keyword, (matchTKW_iff _ _).2 hk]
    cases k <;> rfl
  · have h0 : u.rule.isZero = false := by simp [TRule.isZero, hi]
    rw [categoryT, h0, TRule.keyword, (matchTKW_zero _).2 hn]
    decide

example : categoryB (newB (.str b!"UserDN") (.cop Eq') (.text b!"x")) = b!"userdn" :=
  (C97_category_partial _ zeroT).1 .userdn (BR_init _ _ _) (by decide +kernel)

/-- **C97**, the claim about `Operator`, /repo/bind.go:373-378 and target.go:464-469: it gives the
operator of the rule, wherever the rule comes from. -/
def OperatorTold : Prop :=
  (∀ fresh v, StartB v → ∀ p : List (Call BExpr),
    operatorB (p.foldl (callB fresh) v) = (p.foldl (callB fresh) v).rule.core.op) ∧
  ∀ fresh v, StartT v → ∀ p : List (Call TExpr),
    operatorT (p.foldl (callT fresh) v) = (p.foldl (callT fresh) v).rule.core.op

/-- **C97** fails: an operator of go-stackage, as in rules of the parser, is reported as none. -/
theorem C97_operator_counterexample : ¬ OperatorTold := by
  intro h
  have := h.1 [] _ (.parsed ⟨⟨true, b!"userdn", Eq'⟩, .nil, true, false, false⟩ [] rfl) []
  revert this
  decide +kernel

theorem heldAfter_ok {taken : Option Str → OpArg → Rel → Prop} {set : RuleCore → OpArg → RuleCore}
    (h0 : ∀ r a, r.init = false → set r a = r)
    (h1 : ∀ r : RuleCore, r.init = true → ∀ a, (∀ q, taken (some r.kw) a q → set r a = { r with op := relConst q }) ∧
      ((∀ q, ¬ taken (some r.kw) a q) → set r a = r))
    (r : RuleCore) (a : OpArg) (h : Held) (hh : castCop h = r.op) :
    castCop (heldAfter set r a h) = (set r a).op := by
  unfold heldAfter
  by_cases hi : r.init = true
  · by_cases ht : ∃ q, taken (some r.kw) a q
    · obtain ⟨q, hq⟩ := ht
      rw [(h1 r hi a).1 q hq, (h1 { r with op := 0 } hi a).1 q hq, if_neg (relConst_ne_zero q)]
      rfl
    · have ht : ∀ q, ¬ taken (some r.kw) a q := fun q h => ht ⟨q, h⟩
      rw [(h1 r hi a).2 ht, (h1 { r with op := 0 } hi a).2 ht, if_pos rfl, hh]
  · have hi : r.init = false := by simpa using hi
    rw [h0 r a hi, h0 { r with op := 0 } a hi, if_pos rfl, hh]

theorem setKeywordB_op (r : RuleCore) (k : KwArg) : (BindRule.setKeyword r k).op = r.op := by
  cases k <;> simp only [BindRule.setKeyword] <;> (try split) <;> rfl

theorem setKeywordT_op (r : RuleCore) (k : KwArg) : (TargetRule.setKeyword r k).op = r.op := by
  cases k <;> simp only [TargetRule.setKeyword] <;> (try split) <;> rfl

theorem heldB_keeps (fresh : Str) (v : Var BRule) (h : castCop v.held = v.rule.core.op) (c : Call BExpr) :
    castCop (callB fresh v c).held = (callB fresh v c).rule.core.op := by
  cases c with
  | init => simp only [callB]; split <;> first | exact h | rfl
  | keyword k => simp only [callB, setKeywordB_op]; exact h
  | operator a =>
    exact heldAfter_ok (taken := TakenB) (fun r a hi => (C18_uninitialised r hi a).1) setOperatorB _ a _ h
  | expression e => simp only [callB]; split <;> exact h
  | quote s => simp only [callB]; split <;> first | exact h | (simp only [(quoteB_keeps _ _).1]; exact h)
  | paren b => simp only [callB]; split <;> exact h

theorem heldT_keeps (fresh : Str) (v : Var TRule) (h : castCop v.held = v.rule.core.op) (c : Call TExpr) :
    castCop (callT fresh v c).held = (callT fresh v c).rule.core.op := by
  cases c with
  | init => simp only [callT]; split <;> first | exact h | rfl
  | keyword k => simp only [callT, setKeywordT_op]; exact h
  | operator a =>
    exact heldAfter_ok (taken := TakenT) (fun r a hi => (C18_uninitialised r hi a).2) setOperatorT _ a _ h
  | expression e => simp only [callT]; split <;> exact h
  | quote s => simp only [callT]; split <;> first | exact h | (simp only [(quoteT_keeps _ _).1]; exact h)
  | paren b => exact h

theorem newB_held (kw : KwArg) (op : OpArg) (ex : BExpr) :
    castCop (newB kw op ex).held = (newB kw op ex).rule.core.op :=
  heldAfter_ok (taken := TakenB) (fun r a hi => (C18_uninitialised r hi a).1) setOperatorB _ op .none
    (by rw [setKeywordB_op]; rfl)

theorem newT_held (kw : KwArg) (op : OpArg) (ex : TExpr) :
    castCop (newT kw op ex).held = (newT kw op ex).rule.core.op :=
  heldAfter_ok (taken := TakenT) (fun r a hi => (C18_uninitialised r hi a).2) setOperatorT _ op .none
    (by rw [setKeywordT_op]; rfl)

theorem runsB_held (fresh : Str) (p : List (Call BExpr)) : ∀ v : Var BRule, castCop v.held = v.rule.core.op →
    castCop (p.foldl (callB fresh) v).held = (p.foldl (callB fresh) v).rule.core.op := by
  induction p with
  | nil => intro v h; exact h
  | cons c p ih => intro v h; exact ih _ (heldB_keeps fresh v h c)

theorem runsT_held (fresh : Str) (p : List (Call TExpr)) : ∀ v : Var TRule, castCop v.held = v.rule.core.op →
    castCop (p.foldl (callT fresh) v).held = (p.foldl (callT fresh) v).rule.core.op := by
  induction p with
  | nil => intro v h; exact h
  | cons c p ih => intro v h; exact ih _ (heldT_keeps fresh v h c)

/-- **C97**, operators: told right for rules made by this package, through every call, and for rules
of the parser after an operator that goes with their keyword was set.  Missing: rules as the parser
leaves them, which are reported to have none. -/
theorem C97_operator_partial (fresh : Str) :
    (∀ kw op ex (p : List (Call BExpr)), operatorB (p.foldl (callB fresh) (newB kw op ex)) =
      (p.foldl (callB fresh) (newB kw op ex)).rule.core.op) ∧
    (∀ p : List (Call BExpr), operatorB (runB fresh p) = (runB fresh p).rule.core.op) ∧
    (∀ kw op ex (p : List (Call TExpr)), operatorT (p.foldl (callT fresh) (newT kw op ex)) =
      (p.foldl (callT fresh) (newT kw op ex)).rule.core.op) ∧
    (∀ p : List (Call TExpr), operatorT (runT fresh p) = (runT fresh p).rule.core.op) ∧
    (∀ (v : Var BRule) a q (p : List (Call BExpr)), v.rule.core.init = true → TakenB (some v.rule.core.kw) a q →
      operatorB ((.operator a :: p).foldl (callB fresh) v) = ((.operator a :: p).foldl (callB fresh) v).rule.core.op) ∧
    (∀ (v : Var TRule) a q (p : List (Call TExpr)), v.rule.core.init = true → TakenT (some v.rule.core.kw) a q →
      operatorT ((.operator a :: p).foldl (callT fresh) v) = ((.operator a :: p).foldl (callT fresh) v).rule.core.op) ∧
    (∀ (r : BRule) id, operatorB ⟨r, id, .foreign r.core.op⟩ = 0) ∧
    ∀ (r : TRule) id, operatorT ⟨r, id, .foreign r.core.op⟩ = 0 := by
  refine ⟨fun kw op ex p => runsB_held fresh p _ (newB_held kw op ex), fun p => runsB_held fresh p _ rfl,
    fun kw op ex p => runsT_held fresh p _ (newT_held kw op ex), fun p => runsT_held fresh p _ rfl,
    fun v a q p hi hq => ?_, fun v a q p hi hq => ?_, fun _ _ => rfl, fun _ _ => rfl⟩
  · refine runsB_held fresh p _ ?_
    have e0 := (setOperatorB { v.rule.core with op := 0 } hi a).1 q hq
    simp only [callB, heldAfter]
    rw [(setOperatorB v.rule.core hi a).1 q hq, e0, if_neg (relConst_ne_zero q)]
    rfl
  · refine runsT_held fresh p _ ?_
    have e0 := (setOperatorT { v.rule.core with op := 0 } hi a).1 q hq
    simp only [callT, heldAfter]
    rw [(setOperatorT v.rule.core hi a).1 q hq, e0, if_neg (relConst_ne_zero q)]
    rfl

example : operatorB ([Call.operator (.str b!"ne")].foldl (callB [])
      ⟨⟨⟨true, b!"userdn", Eq'⟩, .nil, true, false, false⟩, [], .foreign Eq'⟩) =
    ([Call.operator (.str b!"ne")].foldl (callB [])
      ⟨⟨⟨true, b!"userdn", Eq'⟩, .nil, true, false, false⟩, [], .foreign Eq'⟩).rule.core.op :=
  (C97_operator_partial []).2.2.2.2.1 _ _ .ne [] rfl
    ⟨⟨b!"Ne", by decide, by decide⟩, Or.inr ⟨_, .userdn, rfl, by decide, by decide⟩⟩

/-- **C97**, `TargetRule.ID`, /repo/target.go:295-297: it is `target` for every variable, whatever was
called on it. -/
theorem C97_target_id (fresh : Str) (v : Var TRule) (calls : List (Call TExpr)) :
    idT v = b!"target" ∧ idT (calls.foldl (callT fresh) v) = b!"target" := ⟨rfl, rfl⟩

example : (callT b!"x" zeroT .init).id = b!"x" ∧ idT (callT b!"x" zeroT .init) = b!"target" := by
  decide +kernel

/-- **C97**, `TargetRule.Valid`, /repo/target.go:239-254: a rule of the parser with an operator of
go-stackage is reported invalid, whatever it says, until an operator is set again; a rule whose
operator was set by this package, and only that, can be valid. -/
theorem C97_target_valid (v : Var TRule) :
    ((∃ c, v.held = .foreign c) → validT v = false) ∧
    (validT v = true → ∃ c, v.held = .own c) ∧
    (v.held = .own v.rule.core.op → validT v = v.rule.valid) := by
  refine ⟨?_, ?_, fun h => ?_⟩
  · rintro ⟨c, h⟩
    simp only [validT, h]
    split <;> rfl
  · intro h
    cases hh : v.held with
    | own c => exact ⟨c, rfl⟩
    | none => simp only [validT, hh] at h; split at h <;> cases h
    | foreign c => simp only [validT, hh] at h; split at h <;> cases h
  · simp only [validT, h, TRule.valid, TargetRule.valid, TRule.isZero]
    cases v.rule.core.init <;> cases keywordAllows (.str v.rule.core.kw) (.cop v.rule.core.op) <;> simp

example : validT (newT (.target TargetScope) (.cop Eq') (.scope SearchScope.Subtree)) = true ∧
    validT ⟨(newT (.target TargetScope) (.cop Eq') (.scope SearchScope.Subtree)).rule, [], .foreign Eq'⟩ = false := by
  decide +kernel

/-! ### Contexts -/

/-- A path of positions leads from a context to one inside it. -/
inductive At : BCtx → List Nat → BCtx → Prop where
  | here (c : BCtx) : At c [] c
  | into {w : Word} {p : Bool} {es : List BCtx} {i : Nat} {e d : BCtx} {is : List Nat}
      (h : es[i]? = some e) (hd : At e is d) : At (.rules w p es) (i :: is) d

theorem walk_one (far : List BCtx → List Int → Option BCtx) {es : List BCtx} {i : Nat} {e : BCtx}
    (h : es[i]? = some e) : walk far es [Int.ofNat i] = some e := by
  have hlt : i < es.length := (List.getElem?_eq_some_iff.1 h).1
  have hc : 0 ≤ Int.ofNat i ∧ Int.ofNat i < (es.length : Int) := ⟨Int.natCast_nonneg i, Int.ofNat_lt.2 hlt⟩
  rw [walk, if_pos hc]
  simp only [Int.ofNat_eq_natCast, Int.toNat_natCast, h]

theorem walk_more (far : List BCtx → List Int → Option BCtx) {es es' : List BCtx} {i : Nat} {w : Word} {p : Bool}
    (j : Int) (is : List Int) (h : es[i]? = some (.rules w p es')) :
    walk far es (Int.ofNat i :: j :: is) = walk far es' (j :: is) := by
  have hlt : i < es.length := (List.getElem?_eq_some_iff.1 h).1
  have hc : 0 ≤ Int.ofNat i ∧ Int.ofNat i < (es.length : Int) := ⟨Int.natCast_nonneg i, Int.ofNat_lt.2 hlt⟩
  have hn : es[(Int.ofNat i).toNat]? = some (.rules w p es') := h
  conv => lhs; unfold walk
  rw [if_pos hc, hn]

theorem walk_at (far : List BCtx → List Int → Option BCtx) {e d : BCtx} {is : List Nat} (h : At e is d) :
    ∀ {w p es}, e = .rules w p es → is ≠ [] → walk far es (is.map Int.ofNat) = some d := by
  induction h with
  | here c => intro w p es _ hn; exact absurd rfl hn
  | @into w p es i e d is he hd ih =>
    intro w' p' es' hc _
    injection hc with h1 h2 h3
    subst h3
    cases is with
    | nil =>
      cases hd
      exact walk_one far he
    | cons j js =>
      cases hd with
      | @into w2 p2 es2 _ e2 _ _ he2 hd2 =>
        exact (walk_more far _ _ he).trans (ih rfl (by simp))

/-- **C97**, contexts: kind, category, length, nesting and keyword are those of the documentation,
`Index` finds the entry at a position and `Traverse` the context at the end of a path. -/
theorem C97_contexts (far : List BCtx → List Int → Option BCtx) (farI : List BCtx → Int → Option BCtx) :
    (∀ r, kind (.rule r) = b!"condition" ∧ isNesting (.rule r) = false ∧
      (len (.rule r) = if r.core.init then 1 else 0)) ∧
    (∀ w p es, kind (.rules w p es) = b!"stack" ∧ len (.rules w p es) = es.length ∧
      (isNesting (.rules w p es) = true ↔ ∃ e ∈ es, ∀ r, e ≠ .rule r) ∧
      ctxKeyword (.rules w p es) = 0 ∧
      category (.rules w p es) = (match w with | .and => b!"and" | .or => b!"or" | .not => b!"not")) ∧
    (∀ w p es (i : Nat) e, es[i]? = some e → index farI (.rules w p es) i = some e) ∧
    (∀ w p es i is d, At (.rules w p es) (i :: is) d →
      traverse far (.rules w p es) ((i :: is).map Int.ofNat) = d) ∧
    kind .zero = b!"stack" ∧ len .zero = 0 ∧ ctxKeyword .zero = 0 ∧
    category .zero = b!"<uninitialized_bindrules>" ∧
    (∀ (r : BRule) (k : BKw), Str.eqFold r.core.kw k.name = true → ctxKeyword (.rule r) = bkwConst k ∧
      category (.rule r) = if r.core.init then k.name else []) := by
  refine ⟨fun r => ⟨rfl, rfl, ?_⟩, fun w p es => ⟨rfl, rfl, ?_, ?_, ?_⟩, fun w p es i e h => ?_,
    fun w p es i is d h => ?_, rfl, rfl, by decide, rfl, fun r k hk => ⟨(matchBKW_iff _ _).2 hk, ?_⟩⟩
  · cases h : r.core.init <;> simp [len, BRule.isZero, h]
  · simp only [isNesting, List.any_eq_true]
    refine exists_congr fun e => and_congr_right fun _ => ?_
    cases e <;> simp [BCtx.isStack]
  · cases w
    · show matchBKW b!"and" = 0; decide
    · show matchBKW b!"or" = 0; decide
    · show matchBKW b!"not" = 0; decide
  · cases w <;> rfl
  · have hlt : i < es.length := (List.getElem?_eq_some_iff.1 h).1
    have hc : 0 ≤ (i : Int) ∧ (i : Int) < (es.length : Int) := ⟨Int.natCast_nonneg i, Int.ofNat_lt.2 hlt⟩
    rw [index, if_pos hc]
    exact h
  · simp only [traverse, walk_at far h rfl (by simp), Option.getD_some]
  · cases hi : r.core.init with
    | false => simp [category, BRule.isZero, hi]
    | true =>
      have h0 : r.isZero = false := by simp [BRule.isZero, hi]
      rw [category, h0, BRule.keyword, (matchBKW_iff _ _).2 hk]
      cases k <;> rfl

-- a rule has the category of its keyword, however it is written
example : category (.rule { badBindRule with core := ⟨true, b!"USERDN", 1⟩ }) = b!"userdn" := by decide +kernel

example : traverse (fun _ _ => none) (.rules .and false [.zero, .rules .or true [.zero, .rule badBindRule]]) [1, 1] =
    .rule badBindRule :=
  (C97_contexts (fun _ _ => none) (fun _ _ => none)).2.2.2.1 .and false
    [.zero, .rules .or true [.zero, .rule badBindRule]] 1 [1] _ (.into rfl (.into rfl (.here _)))

theorem TR_init (kw : KwArg) (op : OpArg) (ex : TExpr) : (TR kw op ex).core.init = true := by
  rw [TR]
  exact (setOperatorT_keeps _ _).1.trans (by cases kw <;> rfl)

/-- **C97**, lengths of rules: whatever was called, a rule counts as one once it was started, and as
none before. -/
theorem C97_len (fresh : Str) :
    (∀ p : List (Call BExpr), (lenB (runB fresh p) = 1 ↔ Call.init ∈ p) ∧ (lenB (runB fresh p) = 0 ↔ Call.init ∉ p)) ∧
    (∀ p : List (Call TExpr), (lenT (runT fresh p) = 1 ↔ Call.init ∈ p) ∧ (lenT (runT fresh p) = 0 ↔ Call.init ∉ p)) ∧
    (∀ kw op ex, lenB (newB kw op ex) = 1) ∧ ∀ kw op ex, lenT (newT kw op ex) = 1 := by
  refine ⟨fun p => ?_, fun p => ?_, fun kw op ex => ?_, fun kw op ex => ?_⟩
  · by_cases h : Call.init ∈ p
    · obtain ⟨p1, p2, rfl, h1⟩ := first_init p h
      have hi := (inv_bind fresh p2).1
      have : lenB (runB fresh (p1 ++ .init :: p2)) = 1 := by
        rw [(C96_init_partial fresh).2.2.1 p1 p2 h1]; simp [lenB, BRule.isZero, hi]
      simp [this]
    · have : lenB (runB fresh p) = 0 := by rw [(C96_init_partial fresh).1 p h]; rfl
      simp [this, h]
  · by_cases h : Call.init ∈ p
    · obtain ⟨p1, p2, rfl, h1⟩ := first_init p h
      have hi := (inv_target fresh p2).1
      have : lenT (runT fresh (p1 ++ .init :: p2)) = 1 := by
        rw [(C96_init_partial fresh).2.2.2.1 p1 p2 h1]; simp [lenT, TRule.isZero, hi]
      simp [this]
    · have : lenT (runT fresh p) = 0 := by rw [(C96_init_partial fresh).2.1 p h]; rfl
      simp [this, h]
  · have h : (newB kw op ex).rule.core.init = true := BR_init kw op ex
    simp [lenB, BRule.isZero, h]
  · have h : (newT kw op ex).rule.core.init = true := TR_init kw op ex
    simp [lenT, TRule.isZero, h]

example : lenB (runB [] [.keyword (.bind BindUDN), .init, .paren true]) = 1 ∧
    lenB (runB [] [.keyword (.bind BindUDN), .paren true]) = 0 := by decide

end Verif.Piece
