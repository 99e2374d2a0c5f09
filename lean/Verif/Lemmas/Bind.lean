import Verif.Spec.Bind
import Verif.Props.Keyword
import Verif.Lemmas.Target
import Verif.Lemmas.Byte

/-!
# Lemmas on bind rules
-/

namespace Verif.Bind
open Verif Verif.Spec Verif.Levels

/-! ## Keywords -/

theorem bkwConst_ne (k : BKw) : bkwConst k ≠ 0 := by cases k <;> decide

theorem bkwConst_inj {k l : BKw} (h : bkwConst k = bkwConst l) : k = l := by
  cases k <;> cases l <;> first | rfl | exact absurd h (by decide)

theorem bkwConst_string (k : BKw) : BindKeyword.string (bkwConst k) = k.name :=
  (C17_bind_keywords bkwMap (List.Perm.refl _) []).2.2 k

theorem matchBKW_iff (s : Str) (k : BKw) : matchBKW s = bkwConst k ↔ Str.eqFold s k.name = true :=
  (C17_bind_keywords bkwMap (List.Perm.refl _) s).1 k

theorem matchBKW_zero (s : Str) : matchBKW s = 0 ↔ ∀ k : BKw, Str.eqFold s k.name = false :=
  (C17_bind_keywords bkwMap (List.Perm.refl _) s).2.1

theorem bname_eqFold (k l : BKw) : Str.eqFold k.name l.name = decide (k = l) := by
  cases k <;> cases l <;> decide

theorem matchBKW_again (s : Str) : matchBKW (BindKeyword.string (matchBKW s)) = matchBKW s := by
  by_cases h : ∃ k : BKw, Str.eqFold s k.name = true
  · obtain ⟨k, hk⟩ := h
    rw [(matchBKW_iff s k).2 hk, bkwConst_string, (matchBKW_iff _ k).2 (by simp [bname_eqFold])]
  · have : matchBKW s = 0 := (matchBKW_zero s).2 fun k => by
      cases hb : Str.eqFold s k.name with
      | false => rfl
      | true => exact absurd ⟨k, hb⟩ h
    rw [this]; decide

theorem matchBKW_ne (s : Str) : matchBKW s ≠ 0 ↔ ∃ k : BKw, Str.eqFold s k.name = true := by
  rw [Ne, matchBKW_zero]
  constructor
  · intro h
    apply Classical.byContradiction
    intro h'
    apply h
    intro k
    cases hb : Str.eqFold s k.name with
    | false => rfl
    | true => exact absurd ⟨k, hb⟩ h'
  · rintro ⟨k, hk⟩ h
    rw [h k] at hk; cases hk

/-! ## The push policy -/

theorem accept_usable {c : BCtx} (h : Usable c) : acceptB (.ctx c) = some c := by
  cases c with
  | rule r =>
    simp only [acceptB, BRule.keyword, matchBKW_again]
    rw [if_pos ((matchBKW_ne _).2 h)]
  | zero => exact absurd h (by simp [Usable])
  | rules w p es => rfl

theorem accept_unusable {c : BCtx} (h : ¬ Usable c) : acceptB (.ctx c) = none := by
  cases c with
  | rule r =>
    simp only [acceptB, BRule.keyword, matchBKW_again]
    rw [if_neg fun h' => h ((matchBKW_ne _).1 h')]
  | zero => rfl
  | rules w p es => exact absurd trivial h

theorem push_usable (stop : Bool) (es : List BCtx) {c : BCtx} (h : Usable c) :
    pushB stop es [.ctx c] = es ++ [c] := by
  simp [pushB, stackPush, accept_usable h]

/-! ## Words -/

theorem fold_plain (s : Str) (h : ∀ c ∈ Str.fold s, c ≠ 107 ∧ c ≠ 115) :
    Str.fold s = s.map Str.lowerByte := by
  fun_induction Str.fold s with
  | case1 => rfl
  | case2 a => rfl
  | case3 a b hab => exact absurd rfl (h 115 (by simp)).2
  | case4 a b hab ih => 
    rw [ih fun c hc => h c (List.mem_cons_of_mem _ hc)]; rfl
  | case5 a b c t habc ih => exact absurd rfl (h 107 (by simp)).1
  | case6 a b c t _ hab ih => exact absurd rfl (h 115 (by simp)).2
  | case7 a b c t _ _ ih =>
    rw [ih fun c hc => h c (List.mem_cons_of_mem _ hc)]; rfl

theorem upper_plain (s : Str) (h : ∀ c ∈ s, c < 128) : Str.upper s = s.map Str.upperByte := by
  fun_induction Str.upper s with
  | case1 => rfl
  | case2 a => rfl
  | case3 a b t hab => exact absurd (h a (by simp)) (by rw [hab.1]; decide)
  | case4 a b t _ hab => exact absurd (h a (by simp)) (by rw [hab.1]; decide)
  | case5 a b t _ _ ih =>
    rw [ih fun c hc => h c (List.mem_cons_of_mem _ hc)]; rfl

theorem lowerByte_small (c : Byte) : Str.lowerByte c < 128 → c < 128 := by
  revert c; decide +kernel

theorem upperByte_lower (c : Byte) : Str.upperByte (Str.lowerByte c) = Str.upperByte c := by
  revert c; decide +kernel

theorem upper_of_fold (s t : Str) (h : Str.fold s = t) (ht : ∀ c ∈ t, c < 128 ∧ c ≠ 107 ∧ c ≠ 115) :
    Str.upper s = t.map Str.upperByte := by
  have e := fold_plain s fun c hc => (ht c (h ▸ hc)).2
  have hs : ∀ c ∈ s, c < 128 := fun c hc =>
    lowerByte_small c (ht _ (h ▸ e ▸ List.mem_map_of_mem hc)).1
  rw [upper_plain s hs, ← h, e, List.map_map]
  apply List.map_congr_left
  intro c _
  exact (upperByte_lower c).symm

theorem wordToStack_kind {k : Str} {w : Word} (h : kindOf k = some w) : wordToStack k = some w := by
  have hAND : Str.fold b!"AND" = b!"and" := by decide
  have hOR : Str.fold b!"OR" = b!"or" := by decide
  have hNOT : Str.fold b!"NOT" = b!"not" := by decide
  have hANOT : Str.fold b!"AND NOT" = b!"and not" := by decide
  simp only [kindOf, Str.eqFold, hAND, hOR, hNOT, hANOT, beq_iff_eq] at h
  simp only [wordToStack, Str.eqFold, hAND, hOR, beq_iff_eq]
  split at h
  · next e =>
    rw [upper_of_fold k _ e (by decide +kernel), e]
    rw [← h]; rfl
  · split at h
    · next e =>
      rw [upper_of_fold k _ e (by decide +kernel), e]
      rw [← h]; rfl
    · split at h
      · next e =>
        rcases e with e | e
        · rw [upper_of_fold k _ e (by decide +kernel), e]; rw [← h]; rfl
        · rw [upper_of_fold k _ e (by decide +kernel), e]; rw [← h]; rfl
      · cases h

/-! ## Removing envelopes -/

section strip
variable (neg : List Bool → Bool) (τ : BRule → Bool)

theorem envelope_eval {a b : BCtx} (h : Envelope a b) : a.eval neg τ = b.eval neg τ := by
  cases h with
  | @mk w e hw he =>
    cases w with
    | and => simp [BCtx.eval, BCtx.evals, Word.eval]
    | or => simp [BCtx.eval, BCtx.evals, Word.eval]
    | not => exact absurd rfl hw

theorem strips_eval {a b : BCtx} (h : Strips a b) : a.eval neg τ = b.eval neg τ := by
  induction h with
  | done e => rfl
  | step h _ ih => rw [envelope_eval neg τ h, ih]

end strip

theorem cloaked_iff (e : BCtx) : isCloaked e = true ↔ ∃ x, Envelope e x := by
  constructor
  · intro h
    unfold isCloaked at h
    split at h
    · next w p x =>
      simp only [Bool.and_eq_true, decide_eq_true_eq, Bool.not_eq_true'] at h
      obtain ⟨⟨h1, h2⟩, h3⟩ := h
      subst h3
      exact ⟨x, .mk h1 h2⟩
    · cases h
  · rintro ⟨x, h⟩
    cases h with
    | mk hw he => simp [isCloaked, hw, he]

theorem uncloak_strips : ∀ e : BCtx, isCloaked e = true →
    Strips e (uncloak e) ∧ isCloaked (uncloak e) = false
  | .rule _, h => by simp [isCloaked] at h
  | .zero, h => by simp [isCloaked] at h
  | .rules w p [], h => by simp [isCloaked] at h
  | .rules w p (x :: y :: l), h => by simp [isCloaked] at h
  | .rules w p [x], h => by
    obtain ⟨z, hz⟩ := (cloaked_iff _).1 h
    have hx : Envelope (.rules w p [x]) x := by cases hz with | mk hw he => exact .mk hw he
    unfold uncloak
    by_cases hc : isCloaked x = true
    · rw [if_pos hc]
      obtain ⟨h1, h2⟩ := uncloak_strips x hc
      exact ⟨.step hx h1, h2⟩
    · rw [if_neg hc]
      exact ⟨.step hx (.done _), by simpa using hc⟩

theorem uncloakEntry_strips (e : BCtx) :
    Strips e (uncloakEntry e) ∧ ¬ ∃ x, Envelope (uncloakEntry e) x := by
  unfold uncloakEntry
  rw [← cloaked_iff]
  split
  · next h => obtain ⟨h1, h2⟩ := uncloak_strips e h; exact ⟨h1, by simp [h2]⟩
  · next h => exact ⟨.done _, h⟩

theorem evals_map_uncloak (neg : List Bool → Bool) (τ : BRule → Bool) (es : List BCtx) :
    BCtx.evals neg τ (es.map uncloakEntry) = BCtx.evals neg τ es := by
  induction es with
  | nil => rfl
  | cons e es ih =>
    simp only [List.map_cons, BCtx.evals, ih, ← strips_eval neg τ (uncloakEntry_strips e).1]

theorem uncloakRules_eval (neg : List Bool → Bool) (τ : BRule → Bool) (c : BCtx) :
    (uncloakRules c).eval neg τ = c.eval neg τ := by
  cases c with
  | rule r => rfl
  | zero => rfl
  | rules w p es => simp only [uncloakRules, BCtx.eval, evals_map_uncloak]

theorem strips_leaves {a b : BCtx} (h : Strips a b) : a.leaves = b.leaves := by
  induction h with
  | done e => rfl
  | step h _ ih =>
    rw [← ih]
    cases h with
    | mk hw he => simp [BCtx.leaves, BCtx.leavesAll]

theorem strips_nots {a b : BCtx} (h : Strips a b) : a.nots = b.nots := by
  induction h with
  | done e => rfl
  | step h _ ih =>
    rw [← ih]
    cases h with
    | mk hw he => simp [BCtx.nots, BCtx.notsAll, hw]

theorem strips_groups {a b : BCtx} (h : Strips a b) : a.groups = b.groups := by
  induction h with
  | done e => rfl
  | step h _ ih =>
    rw [← ih]
    cases h with
    | mk hw he => simp [BCtx.groups, BCtx.groupsAll]

theorem uncloakRules_leaves (c : BCtx) : (uncloakRules c).leaves = c.leaves := by
  cases c with
  | rule r => rfl
  | zero => rfl
  | rules w p es =>
    simp only [uncloakRules, BCtx.leaves]
    induction es with
    | nil => rfl
    | cons e es ih =>
      simp only [List.map_cons, BCtx.leavesAll, ih, ← strips_leaves (uncloakEntry_strips e).1]

theorem uncloakRules_nots (c : BCtx) : (uncloakRules c).nots = c.nots := by
  cases c with
  | rule r => rfl
  | zero => rfl
  | rules w p es =>
    simp only [uncloakRules, BCtx.nots]
    congr 1
    induction es with
    | nil => rfl
    | cons e es ih =>
      simp only [List.map_cons, BCtx.notsAll, ih, ← strips_nots (uncloakEntry_strips e).1]

theorem uncloakRules_groups (c : BCtx) : (uncloakRules c).groups = c.groups := by
  cases c with
  | rule r => rfl
  | zero => rfl
  | rules w p es =>
    simp only [uncloakRules, BCtx.groups]
    congr 1
    induction es with
    | nil => rfl
    | cons e es ih =>
      simp only [List.map_cons, BCtx.groupsAll, ih, ← strips_groups (uncloakEntry_strips e).1]

/-! ## Reading -/

theorem evals_append (neg : List Bool → Bool) (τ : BRule → Bool) (a b : List BCtx) :
    BCtx.evals neg τ (a ++ b) = BCtx.evals neg τ a ++ BCtx.evals neg τ b := by
  induction a with
  | nil => rfl
  | cons e a ih => simp [BCtx.evals, ih]

theorem leavesAll_append (a b : List BCtx) :
    BCtx.leavesAll (a ++ b) = BCtx.leavesAll a ++ BCtx.leavesAll b := by
  induction a with
  | nil => rfl
  | cons e a ih => simp [BCtx.leavesAll, ih]

theorem map_ok {α β : Type} {f : α → β} {o : Outcome α} {b : β} (h : o.map f = .ok b) :
    ∃ a, o = .ok a ∧ f a = b := by
  cases o with
  | panic => cases h
  | err => cases h
  | ok a =>
    simp only [Outcome.map] at h
    exact ⟨a, rfl, by simpa using h⟩

theorem setQuoteStyle_kept (r : BRule) (style : Int) :
    (r.setQuoteStyle style).core = r.core ∧ (r.setQuoteStyle style).paren = r.paren ∧
      (r.setQuoteStyle style).ex = r.ex := by
  unfold BRule.setQuoteStyle
  split <;> exact ⟨rfl, rfl, rfl⟩

theorem readBind_zero (env : Env) (values : List Str) (ex : BExpr) : readBind env 0 values ≠ .ok ex := by
  have : readBind env 0 values = .err := by
    unfold readBind
    repeat rw [if_neg (by decide)]
  rw [this]; intro h; cases h

theorem readBind_isNil {env : Env} {key : BindKeyword} {values : List Str} {ex : BExpr}
    (h : readBind env key values = .ok ex) : ex.isNil = false := by
  unfold readBind at h
  repeat' split at h
  all_goals first
    | (obtain ⟨a, _, h2⟩ := map_ok h; subst h2; first | rfl | (cases a <;> rfl))
    | cases h

theorem reads_known {env : Env} {r r' : BRule} (h : Reads env r r') :
    r'.core = r.core ∧ r'.paren = r.paren ∧ (∃ k : BKw, Str.eqFold r.core.kw k.name = true) ∧
      r'.ex.isNil = false := by
  unfold Reads BRule.assertValue at h
  split at h
  · next style values hx =>
    obtain ⟨ex, h1, h2⟩ := map_ok h
    subst h2
    have hq := setQuoteStyle_kept (r.setExpression ex) style
    refine ⟨hq.1, hq.2.1, ?_, ?_⟩
    · rw [BRule.keyword, matchBKW_again] at h1
      exact (matchBKW_ne _).1 fun h0 => readBind_zero env values ex (h0 ▸ h1)
    · rw [hq.2.2]; exact readBind_isNil h1
  · cases h

/-- The value of a rule that is read. -/
theorem agree_readable {env : Env} {r : BRule} (h : readable env r = true) : ∃ r', Reads env r r' := by
  unfold readable at h
  split at h
  · next r' e => exact ⟨r', e⟩
  · cases h

theorem readable_of {env : Env} {r r' : BRule} (h : Reads env r r') : readable env r = true := by
  unfold Reads at h
  simp [readable, h]

/-- The result of a conversion is a stack with the word of what was converted. -/
def IsStackOf (w : Word) (c : BCtx) : Prop := ∃ es, c = uncloakRules (.rules w false es)

theorem setParen_eval (neg : List Bool → Bool) (τ : BRule → Bool) (p : Bool) {w : Word} {c : BCtx}
    (h : IsStackOf w c) : (setParen p c).eval neg τ = c.eval neg τ ∧ (setParen p c).leaves = c.leaves ∧
      Usable (setParen p c) := by
  obtain ⟨es, rfl⟩ := h
  refine ⟨?_, ?_, ?_⟩
  · show (uncloakRules (uncloakRules (.rules w p es))).eval neg τ = _
    rw [uncloakRules_eval, uncloakRules_eval, uncloakRules_eval]; rfl
  · show (uncloakRules (uncloakRules (.rules w p es))).leaves = _
    rw [uncloakRules_leaves, uncloakRules_leaves, uncloakRules_leaves]; rfl
  · trivial

theorem readsAll_append {env : Env} {a a' b b' : List BRule} (h : ReadsAll env a a')
    (h' : ReadsAll env b b') : ReadsAll env (a ++ b) (a' ++ b') := by
  induction h with
  | nil => exact h'
  | cons h _ ih => exact .cons h ih

mutual

theorem crashes_iff : (c : BCtx) → (c.crashes = true ↔ ∃ r ∈ c.leaves, r.crashes = true)
  | .rule r => by simp [BCtx.crashes, BCtx.leaves]
  | .zero => by simp [BCtx.crashes, BCtx.leaves]
  | .rules w p es => by rw [BCtx.crashes, BCtx.leaves]; exact anyCrashes_iff es

theorem anyCrashes_iff : (es : List BCtx) →
    (BCtx.anyCrashes es = true ↔ ∃ r ∈ BCtx.leavesAll es, r.crashes = true)
  | [] => by simp [BCtx.anyCrashes, BCtx.leavesAll]
  | e :: es => by
    rw [BCtx.anyCrashes, BCtx.leavesAll, Bool.or_eq_true, crashes_iff e, anyCrashes_iff es]
    simp only [List.mem_append]
    constructor
    · rintro (⟨r, h, h'⟩ | ⟨r, h, h'⟩)
      · exact ⟨r, .inl h, h'⟩
      · exact ⟨r, .inr h, h'⟩
    · rintro ⟨r, h | h, h'⟩
      · exact .inl ⟨r, h, h'⟩
      · exact .inr ⟨r, h, h'⟩

end

theorem readsAll_mem {env : Env} {rs rs' : List BRule} (h : ReadsAll env rs rs') :
    ∀ r' ∈ rs', ∃ r ∈ rs, Reads env r r' := by
  induction h with
  | nil => simp
  | @cons r r' _ _ h _ ih =>
    intro x hx
    rcases List.mem_cons.1 hx with rfl | hx
    · exact ⟨r, by simp, h⟩
    · obtain ⟨y, hy, h'⟩ := ih x hx
      exact ⟨y, by simp [hy], h'⟩

theorem crashes_pair {r : BRule} (h : r.crashes = true) : ∃ a, r.ex = .pair a ∧ a.string = none := by
  unfold BRule.crashes BExpr.crashes at h
  rw [Bool.and_eq_true] at h
  have h := h.2
  split at h
  · next a e => exact ⟨a, e, Option.isNone_iff_eq_none.1 h⟩
  · cases h

section convert
variable (env : Env) (text : BCtx → Str)

theorem finish_ok {w : Word} {o : Outcome (Option (List BCtx))} {c : BCtx}
    (h : finish text w o = .ok (c, true)) :
    ∃ es, o = .ok (some es) ∧ c = uncloakRules (.rules w false es) := by
  unfold finish at h
  split at h
  · cases h
  · cases h
  · cases h
  · next es =>
    split at h
    · cases h
    · simp only [Outcome.ok.injEq, Prod.mk.injEq] at h
      exact ⟨es, rfl, h.1.symm⟩

mutual

theorem convert_sound (neg : List Bool → Bool) (σ τ : BRule → Bool) (ha : Agree env σ τ) :
    ∀ (t : PTree) (c : BCtx), t.Known → convert env text t = .ok (c, true) →
      c.eval neg τ = (t.cut (readable env)).eval neg σ ∧ (∃ w, IsStackOf w c) ∧
        ReadsAll env (t.cut (readable env)).conds c.leaves
  | .cond _, c, _, h => by simp [convert] at h
  | .other, c, _, h => by simp [convert] at h
  | .stack k p es, c, hk, h => by
    simp only [PTree.Known] at hk
    obtain ⟨hw, hes⟩ := hk
    cases hkw : kindOf k with
    | none => exact absurd hkw hw
    | some w =>
      simp only [convert, wordToStack_kind hkw] at h
      obtain ⟨res, h1, rfl⟩ := finish_ok text h
      obtain ⟨new, h2, h3, h4⟩ := convertList_sound neg σ τ ha es [] res hes h1
      simp only [List.nil_append] at h2
      subst h2
      refine ⟨?_, ⟨w, res, rfl⟩, ?_⟩
      · rw [uncloakRules_eval]
        simp only [BCtx.eval, PTree.cut, PTree.eval, kindEval, hkw, h3]
      · rw [uncloakRules_leaves]
        simpa only [BCtx.leaves, PTree.cut, PTree.conds] using h4

theorem convertList_sound (neg : List Bool → Bool) (σ τ : BRule → Bool) (ha : Agree env σ τ) :
    ∀ (es : List PTree) (acc res : List BCtx), PTree.AllKnown es →
      convertList env text acc es = .ok (some res) →
      ∃ new, res = acc ++ new ∧ BCtx.evals neg τ new = PTree.evals neg σ (PTree.cuts (readable env) es) ∧
        ReadsAll env (PTree.condsAll (PTree.cuts (readable env) es)) (BCtx.leavesAll new)
  | [], acc, res, _, h => by
    simp only [convertList, Outcome.ok.injEq, Option.some.injEq] at h
    exact ⟨[], by simp [h], by simp only [PTree.cuts, PTree.evals, BCtx.evals],
      by simp only [PTree.cuts, PTree.condsAll, BCtx.leavesAll]; exact .nil⟩
  | .other :: es, acc, res, hk, h => by simp [PTree.AllKnown, PTree.Known] at hk
  | .cond r :: es, acc, res, hk, h => by
    simp only [PTree.AllKnown, PTree.Known, true_and] at hk
    unfold convertList at h
    cases hr : r.assertValue env with
    | panic => rw [hr] at h; cases h
    | err =>
      rw [hr] at h
      simp only [Outcome.ok.injEq, Option.some.injEq] at h
      have hc : PTree.cuts (readable env) (.cond r :: es) = [] := by simp [PTree.cuts, readable, hr]
      rw [hc]
      exact ⟨[], by simp [h], rfl, .nil⟩
    | ok r' =>
      rw [hr] at h
      simp only at h
      have hu : Usable (.rule r') := by
        have := reads_known (env := env) (r := r) (r' := r') hr
        simp only [Usable, this.1]; exact this.2.2.1
      rw [push_usable true acc hu] at h
      obtain ⟨new, h1, h2, h3⟩ := convertList_sound neg σ τ ha es _ res hk h
      refine ⟨.rule r' :: new, by simp [h1], ?_, ?_⟩
      · simp only [PTree.cuts, readable, hr, if_true, BCtx.evals, BCtx.eval, PTree.evals, PTree.eval, h2,
          ha r r' hr]
      · simp only [PTree.cuts, readable, hr, if_true, BCtx.leavesAll, BCtx.leaves, PTree.condsAll,
          PTree.conds, List.singleton_append]
        exact .cons hr h3
  | .stack k p sub :: es, acc, res, hk, h => by
    simp only [PTree.AllKnown] at hk
    unfold convertList at h
    cases hc : convert env text (.stack k p sub) with
    | panic => rw [hc] at h; cases h
    | err => rw [hc] at h; cases h
    | ok co =>
      obtain ⟨c, ok⟩ := co
      rw [hc] at h
      cases ok with
      | false => simp at h
      | true =>
        simp only [if_true] at h
        obtain ⟨s1, ⟨w, s2⟩, s3⟩ := convert_sound neg σ τ ha (.stack k p sub) c hk.1 hc
        obtain ⟨q1, q2, q3⟩ := setParen_eval neg τ p s2
        rw [push_usable true acc q3] at h
        obtain ⟨new, h1, h2, h3⟩ := convertList_sound neg σ τ ha es _ res hk.2 h
        refine ⟨setParen p c :: new, by simp [h1], ?_, ?_⟩
        · simp only [PTree.cuts, BCtx.evals, PTree.evals, h2, q1, s1, PTree.cut]
        · simp only [PTree.cuts, BCtx.leavesAll, PTree.condsAll, q2]
          exact readsAll_append s3 h3

end

mutual

theorem cut_readable : ∀ t : PTree, (∀ r ∈ t.conds, readable env r = true) → t.cut (readable env) = t
  | .cond _, _ => by simp only [PTree.cut]
  | .other, _ => by simp only [PTree.cut]
  | .stack k p es, h => by
    simp only [PTree.conds] at h
    simp only [PTree.cut, cuts_readable es h]

theorem cuts_readable : ∀ es : List PTree, (∀ r ∈ PTree.condsAll es, readable env r = true) →
    PTree.cuts (readable env) es = es
  | [], _ => by simp only [PTree.cuts]
  | .cond r :: es, h => by
    simp only [PTree.condsAll, PTree.conds, List.singleton_append, List.mem_cons, forall_eq_or_imp] at h
    simp only [PTree.cuts, h.1, if_true, cuts_readable es h.2]
  | .stack k p sub :: es, h => by
    simp only [PTree.condsAll, PTree.conds, List.mem_append] at h
    simp only [PTree.cuts, cuts_readable sub fun r hr => h r (Or.inl hr),
      cuts_readable es fun r hr => h r (Or.inr hr)]
  | .other :: es, h => by
    simp only [PTree.condsAll, PTree.conds, List.nil_append] at h
    simp only [PTree.cuts, cuts_readable es h]

end

mutual

theorem conds_ne : ∀ t : PTree, t.Known → t.Filled → t.conds ≠ []
  | .cond _, _, _ => by simp [PTree.conds]
  | .other, h, _ => by simp [PTree.Known] at h
  | .stack k p es, hk, hf => by
    simp only [PTree.Known] at hk
    simp only [PTree.Filled] at hf
    simp only [PTree.conds]
    exact condsAll_ne es hk.2 hf.2 hf.1

theorem condsAll_ne : ∀ es : List PTree, PTree.AllKnown es → PTree.AllFilled es → es ≠ [] →
    PTree.condsAll es ≠ []
  | [], _, _, h => absurd rfl h
  | t :: es, hk, hf, _ => by
    simp only [PTree.AllKnown] at hk
    simp only [PTree.AllFilled] at hf
    simp only [PTree.condsAll]
    have := conds_ne t hk.1 hf.1
    simp [this]

end

mutual

theorem text_ne (P : Printer) : ∀ (c : BCtx) (r : BRule), r ∈ c.leaves → r.valid = true → P.text c ≠ []
  | .rule r', r, h, hv => by
    simp only [BCtx.leaves, List.mem_singleton] at h
    subst h; exact P.rule _ hv
  | .zero, r, h, _ => by simp [BCtx.leaves] at h
  | .rules w p es, r, h, hv => by
    simp only [BCtx.leaves] at h
    obtain ⟨e, he, ht⟩ := texts_ne P es r h hv
    exact P.some_entry w p es e he ht

theorem texts_ne (P : Printer) : ∀ (es : List BCtx) (r : BRule), r ∈ BCtx.leavesAll es → r.valid = true →
    ∃ e ∈ es, P.text e ≠ []
  | [], r, h, _ => by simp [BCtx.leavesAll] at h
  | e :: es, r, h, hv => by
    simp only [BCtx.leavesAll, List.mem_append] at h
    rcases h with h | h
    · exact ⟨e, by simp, text_ne P e r h hv⟩
    · obtain ⟨e', he, ht⟩ := texts_ne P es r h hv
      exact ⟨e', by simp [he], ht⟩

end

/-- The condition can be read, and it is complete. -/
def Fine (env : Env) (r : BRule) : Prop := readable env r = true ∧ r.core.init = true ∧ r.core.op ≠ 0

theorem Good.fine {env : Env} {r : BRule} (h : Good env r) : Fine env r := ⟨h.1, h.2.1, h.2.2.1⟩

theorem good_valid {env : Env} {r r' : BRule} (hg : Fine env r) (h : Reads env r r') : r'.valid = true := by
  obtain ⟨h1, _, ⟨k, hk⟩, h3⟩ := reads_known h
  obtain ⟨_, hi, ho⟩ := hg
  have hne : r.core.kw ≠ [] := by
    intro e
    rw [e] at hk
    cases k <;> exact absurd hk (by decide)
  simp [BRule.valid, BRule.isZero, BRule.condOk, h1, hi, ho, hne, h3]

theorem good_leaf {env : Env} {rs rs' : List BRule} (h : ReadsAll env rs rs') (hne : rs ≠ [])
    (hg : ∀ r ∈ rs, Fine env r) : ∃ r' ∈ rs', r'.valid = true := by
  cases h with
  | nil => exact absurd rfl hne
  | @cons r r' _ _ h _ => exact ⟨r', by simp, good_valid (hg r (by simp)) h⟩

mutual

theorem convert_complete (P : Printer) : ∀ (k : Str) (p : Bool) (es : List PTree),
    (PTree.stack k p es).Known → (PTree.stack k p es).Filled →
    (∀ r ∈ (PTree.stack k p es).conds, Good env r) →
    ∃ c, convert env P.text (.stack k p es) = .ok (c, true)
  | k, p, es, hk, hf, hg => by
    simp only [PTree.Known] at hk
    simp only [PTree.Filled] at hf
    simp only [PTree.conds] at hg
    cases hkw : kindOf k with
    | none => exact absurd hkw hk.1
    | some w =>
      obtain ⟨res, hres⟩ := convertList_complete P es [] hk.2 hf.2 hg
      have hs := convertList_sound env P.text (fun _ => true) (fun _ => true) (fun _ => true)
        (fun _ _ _ => rfl) es [] res hk.2 hres
      obtain ⟨new, h1, _, h3⟩ := hs
      simp only [List.nil_append] at h1
      subst h1
      rw [cuts_readable env es fun r hr => (hg r hr).1] at h3
      obtain ⟨r', hr', hv⟩ := good_leaf h3 (condsAll_ne es hk.2 hf.2 hf.1) fun r hr => (hg r hr).fine
      have ht := text_ne P (.rules w false res) r' (by simpa only [BCtx.leaves] using hr') hv
      refine ⟨uncloakRules (.rules w false res), ?_⟩
      have hc : BCtx.anyCrashes res = false := by
        rw [Bool.eq_false_iff, ne_eq, anyCrashes_iff]
        rintro ⟨x, hx, hxc⟩
        obtain ⟨a, ha, hn⟩ := crashes_pair hxc
        obtain ⟨y, hy, hyx⟩ := readsAll_mem h3 x hx
        exact (hg y hy).2.2.2 x a hyx ha hn
      simp only [convert, wordToStack_kind hkw, hres, finish, hc]
      have : 0 < (P.text (.rules w false res)).length := List.length_pos_iff.2 ht
      simp [this]

theorem convertList_complete (P : Printer) : ∀ (es : List PTree) (acc : List BCtx),
    PTree.AllKnown es → PTree.AllFilled es → (∀ r ∈ PTree.condsAll es, Good env r) →
    ∃ res, convertList env P.text acc es = .ok (some res)
  | [], acc, _, _, _ => ⟨acc, by simp only [convertList]⟩
  | .other :: es, acc, hk, _, _ => by simp [PTree.AllKnown, PTree.Known] at hk
  | .cond r :: es, acc, hk, hf, hg => by
    simp only [PTree.AllKnown] at hk
    simp only [PTree.AllFilled] at hf
    simp only [PTree.condsAll, PTree.conds, List.singleton_append, List.mem_cons, forall_eq_or_imp] at hg
    obtain ⟨r', hr⟩ := agree_readable hg.1.1
    unfold Reads at hr
    obtain ⟨res, h⟩ := convertList_complete P es (pushB true acc [.ctx (.rule r')]) hk.2 hf.2 hg.2
    refine ⟨res, ?_⟩
    unfold convertList
    rw [hr]; exact h
  | .stack k p sub :: es, acc, hk, hf, hg => by
    simp only [PTree.AllKnown] at hk
    simp only [PTree.AllFilled] at hf
    simp only [PTree.condsAll, List.mem_append] at hg
    obtain ⟨c, hc⟩ := convert_complete P k p sub hk.1 hf.1 fun r hr => hg r (Or.inl hr)
    obtain ⟨res, h⟩ := convertList_complete P es (pushB true acc [.ctx (setParen p c)]) hk.2 hf.2
      fun r hr => hg r (Or.inr hr)
    refine ⟨res, ?_⟩
    unfold convertList
    rw [hc]; exact h

end

end convert

theorem setParen_rules {w : Word} {p q : Bool} {es : List BCtx} :
    setParen q (uncloakRules (.rules w p es)) = uncloakRules (uncloakRules (.rules w q es)) := rfl

end Verif.Bind
