import Verif.Lemmas.Target
import Verif.Lemmas.Attr
import Verif.Lemmas.Filter
import Verif.Lemmas.Uri
import Verif.Props.Scope
import Verif.Props.Oid
import Verif.Lemmas.Inside

/-!
# Target rules: C22, C43, C44, C45, C61, C62, C63
-/

namespace Verif.Rules
open Verif Verif.Misc Verif.Attr Verif.DN Verif.Filter Verif.Spec

/-! ## C43 -/

theorem sound_iff (es : List TRule) : Sound es ↔ ∃ ps, Rep es ps := by
  constructor
  · intro h
    have : ∀ l : List TRule, (∀ r ∈ l, ∃ k, Has r k) → ∃ ps : List (TRule × TKw), l = ps.map (·.1) ∧ ∀ p ∈ ps, Has p.1 p.2 := by
      intro l
      induction l with
      | nil => intro _; exact ⟨[], rfl, by simp⟩
      | cons r l ih =>
        intro h
        obtain ⟨k, hk⟩ := h r (by simp)
        obtain ⟨ps, e, hp⟩ := ih fun r hr => h r (by simp [hr])
        refine ⟨(r, k) :: ps, by simp [e], ?_⟩
        intro p hp'
        rcases List.mem_cons.1 hp' with rfl | hp'
        · exact hk
        · exact hp p hp'
    obtain ⟨ps, e, hp⟩ := this es h.known
    refine ⟨ps, e, hp, ?_⟩
    intro i j a b hij ha hb
    simp only [sameKey, decide_eq_false_iff_not]
    intro hk
    refine h.distinct i j a.1 b.1 a.2 hij (by rw [e]; simp [ha]) (by rw [e]; simp [hb])
      (hp a (List.mem_of_getElem? ha)) ?_
    rw [hk]; exact hp b (List.mem_of_getElem? hb)
  · rintro ⟨ps, h⟩
    refine ⟨rep_length h, ?_, ?_⟩
    · intro r hr
      rw [h.1] at hr
      obtain ⟨p, hp, rfl⟩ := List.mem_map.1 hr
      exact ⟨_, h.2.1 p hp⟩
    · intro i j a b k hij ha hb hka hkb
      rw [h.1, List.getElem?_map, Option.map_eq_some_iff] at ha hb
      obtain ⟨p, hp, rfl⟩ := ha
      obtain ⟨q, hq, rfl⟩ := hb
      have := h.2.2 i j p q hij hp hq
      simp only [sameKey, decide_eq_false_iff_not] at this
      exact this ((has_unique (h.2.1 p (List.mem_of_getElem? hp)) hka).trans
        (has_unique (h.2.1 q (List.mem_of_getElem? hq)) hkb).symm)

/-- **C43.** After any history of pushes, of any arguments, and pops. -/
theorem C43_invariant (h : List TCall) : Sound (h.foldl TCall.run []) := by
  have : ∀ es, (∃ ps, Rep es ps) → ∃ ps, Rep (h.foldl TCall.run es) ps := by
    induction h with
    | nil => intro es h; exact h
    | cons c h ih =>
      intro es he
      rw [List.foldl_cons]
      apply ih
      cases c with
      | push stop xs => exact rep_push he stop xs
      | pop =>
        obtain ⟨ps, e, hp, hd⟩ := he
        refine ⟨ps.dropLast, ?_, fun p hp' => hp p (List.dropLast_subset _ hp'), distinct_dropLast hd⟩
        simp [TCall.run, TRs.pop, e, List.map_dropLast]
  exact (sound_iff _).2 (this [] ⟨[], rep_nil⟩)

/-- **C43.** A push of one argument: a rule whose keyword is known and not in the list is
appended, anything else leaves the list unchanged.  The limit of nine never matters. -/
theorem C43_push (stop : Bool) (es : List TRule) (hs : Sound es) :
    (∀ r k, Has r k → (∀ e ∈ es, ¬ Has e k) → TRs.push stop es [.rule r] = es ++ [r]) ∧
    (∀ r k, Has r k → ∀ e ∈ es, Has e k → TRs.push stop es [.rule r] = es) ∧
    (∀ r, (∀ k, ¬ Has r k) → TRs.push stop es [.rule r] = es) ∧
    TRs.push stop es [.other] = es := by
  obtain ⟨ps, h⟩ := (sound_iff _).1 hs
  have hany : ∀ k, (ps.any fun p => decide (p.2 = k)) = true ↔ ∃ e ∈ es, Has e k := by
    intro k
    rw [List.any_eq_true, h.1]
    constructor
    · rintro ⟨p, hp, e⟩
      simp only [decide_eq_true_eq] at e
      exact ⟨p.1, List.mem_map_of_mem hp, e ▸ h.2.1 p hp⟩
    · rintro ⟨e, he, hk⟩
      obtain ⟨p, hp, rfl⟩ := List.mem_map.1 he
      exact ⟨p, hp, by simpa using has_unique (h.2.1 p hp) hk⟩
  refine ⟨?_, ?_, ?_, ?_⟩
  · intro r k hk hn
    have hf : (ps.any fun p => decide (p.2 = k)) = false := by
      rw [Bool.eq_false_iff]
      intro ht
      obtain ⟨e, he, hke⟩ := (hany k).1 ht
      exact hn e he hke
    rw [TRs.push, stackPush, accept_has h hk, hf]; simp [stackPush]
  · intro r k hk e he hke
    refine push1_none _ _ _ ?_
    rw [accept_has h hk, (hany k).2 ⟨e, he, hke⟩]; rfl
  · intro r hr; exact push1_none _ _ _ (accept_not _ hr)
  · exact push1_none _ _ _ rfl

/-- **C43.** What a list holds after pushes of one argument each: the first rule of each
keyword, in the order of the pushes. -/
theorem C43_content (stop : Bool) (xs : List TRArg) (ps : List (TRule × TKw)) (h : Picks Offers xs ps) :
    xs.foldl (fun es x => TRs.push stop es [x]) [] = (firsts sameKey ps).map (·.1) := by
  have key : ∀ es acc, Rep es acc → Rep (xs.foldl (fun es x => TRs.push stop es [x]) es)
      (ps.foldl (addNew sameKey) acc) := by
    induction h with
    | nil => intro es acc h; exact h
    | @skip x xs ps hx _ ih =>
      intro es acc hr
      rw [List.foldl_cons]
      have : TRs.push stop es [x] = es := by
        refine push1_none _ _ _ ?_
        cases x with
        | other => rfl
        | rule r => exact accept_not _ fun k hk => hx (r, k) ⟨rfl, hk⟩
      rw [this]; exact ih es acc hr
    | @take x xs p ps hx _ ih =>
      intro es acc hr
      rw [List.foldl_cons, List.foldl_cons]
      obtain ⟨rfl, hk⟩ := hx
      exact ih _ _ (push1_has hr stop hk)
  have := (key [] [] rep_nil).1
  rw [this, foldl_addNew sameKey sameKey_trans]

/-- **C43.** A push of several arguments is the same as pushing them one by one, when a
refused argument does not end the call. -/
theorem C43_push_many (es : List TRule) (xs : List TRArg) :
    TRs.push false es xs = xs.foldl (fun es x => TRs.push false es [x]) es := by
  induction xs generalizing es with
  | nil => rfl
  | cons x xs ih =>
    rw [List.foldl_cons, ← ih]
    simp only [TRs.push, stackPush]
    cases acceptTR es x <;> simp

/-- **C43.** `Contains` of a text or a keyword. -/
theorem C43_contains (es : List TRule) (hs : Sound es) :
    (∀ s, TRs.contains es (.str s) = true ↔ ∃ k, Str.eqFold s k.name = true ∧ ∃ r ∈ es, Has r k) ∧
    (∀ k, TRs.contains es (.target (tkwConst k)) = true ↔ ∃ r ∈ es, Has r k) := by
  obtain ⟨ps, h⟩ := (sound_iff _).1 hs
  have first : ∀ s, TRs.contains es (.str s) = true ↔ ∃ k, Str.eqFold s k.name = true ∧ ∃ r ∈ es, Has r k := by
    intro s
    rw [TRs.contains, kwCandidate, containsKw, List.any_eq_true]
    constructor
    · rintro ⟨r, hr, e⟩
      obtain ⟨k, hk⟩ := hs.known r hr
      rw [has_keyword hk, tkwConst_string] at e
      refine ⟨k, ?_, r, hr, hk⟩
      simp only [Str.eqFold, beq_iff_eq] at e ⊢
      exact e.symm
    · rintro ⟨k, e, r, hr, hk⟩
      refine ⟨r, hr, ?_⟩
      rw [has_keyword hk, tkwConst_string]
      simp only [Str.eqFold, beq_iff_eq] at e ⊢
      exact e.symm
  refine ⟨first, fun k => ?_⟩
  have : TRs.contains es (.target (tkwConst k)) = TRs.contains es (.str k.name) := by
    simp only [TRs.contains, kwCandidate, tkwConst_string]
  rw [this, first]
  constructor
  · rintro ⟨l, e, r, hr, hk⟩
    rw [name_eqFold, decide_eq_true_eq] at e
    exact ⟨r, hr, e ▸ hk⟩
  · rintro ⟨r, hr, hk⟩
    exact ⟨k, by simp [name_eqFold], r, hr, hk⟩

/-- **C43.** `Pop` returns the rule pushed last and restores the list. -/
theorem C43_pop (stop : Bool) (es : List TRule) (hs : Sound es) (r : TRule) (k : TKw) (hk : Has r k)
    (hn : ∀ e ∈ es, ¬ Has e k) : TRs.pop (TRs.push stop es [.rule r]) = (es, r) := by
  rw [(C43_push stop es hs).1 r k hk hn]; simp [TRs.pop]

/-- Rules for the examples. -/
def sampleRule (kw : Str) (v : Str) : TRule := ⟨⟨true, kw, Eq'⟩, .raw 1 [v], true, false⟩

theorem sample_attr : Has (sampleRule b!"TargetAttr" b!"cn") .targetattr := ⟨rfl, by decide⟩
theorem sample_attr' : Has (sampleRule b!"targetattr" b!"sn") .targetattr := ⟨rfl, by decide⟩
theorem sample_scope : Has (sampleRule b!"targetscope" b!"base") .targetscope := ⟨rfl, by decide⟩

example : [TRArg.rule (sampleRule b!"TargetAttr" b!"cn"), .other, .rule (sampleRule b!"targetattr" b!"sn"),
      .rule (sampleRule b!"targetscope" b!"base")].foldl (fun es x => TRs.push true es [x]) []
    = [sampleRule b!"TargetAttr" b!"cn", sampleRule b!"targetscope" b!"base"] :=
  C43_content true _ [(_, .targetattr), (_, .targetattr), (_, .targetscope)]
    (.take ⟨rfl, sample_attr⟩ (.skip (by rintro p ⟨h, _⟩; cases h)
      (.take ⟨rfl, sample_attr'⟩ (.take ⟨rfl, sample_scope⟩ .nil))))

example : Sound ([TCall.push true [.rule (sampleRule b!"TargetAttr" b!"cn"), .rule badTargetRule], .pop].foldl
    TCall.run []) := C43_invariant _

example : TRs.pop (TRs.push true [sampleRule b!"TargetAttr" b!"cn"] [.rule (sampleRule b!"targetscope" b!"base")])
    = ([sampleRule b!"TargetAttr" b!"cn"], sampleRule b!"targetscope" b!"base") := by
  refine C43_pop true _ ?_ _ .targetscope sample_scope ?_
  · have := C43_invariant [.push true [.rule (sampleRule b!"TargetAttr" b!"cn")]]
    exact this
  · intro e he hk
    simp at he; subst he
    exact absurd (has_unique sample_attr hk) (by decide)

/-! ## C62 -/

/-- The keyword argument of a builder of target rules stands for the keyword `k`. -/
def KwDenotes (a : KwArg) (k : TKw) : Prop :=
  match a with
  | .str s => Str.eqFold s k.name = true
  | .target c => c = tkwConst k
  | _ => False

theorem setKeyword_denotes {a : KwArg} {k : TKw} (h : KwDenotes a k) :
    TargetRule.setKeyword ⟨true, [], 0⟩ a = ⟨true, k.name, 0⟩ := by
  cases a with
  | str s =>
    simp only [KwDenotes] at h
    simp only [TargetRule.setKeyword, (matchTKW_iff s k).2 h, tkwConst_string, if_true]
  | target c =>
    simp only [KwDenotes] at h; subst h
    have e : matchTKW k.name = tkwConst k := (matchTKW_iff _ _).2 (by simp [name_eqFold])
    simp only [TargetRule.setKeyword, tkwConst_string, e, if_true]
  | bind c => exact absurd h (by simp [KwDenotes])
  | other => exact absurd h (by simp [KwDenotes])

theorem matchTKW_bind (c : BindKeyword) : matchTKW (BindKeyword.string c) = 0 := by
  revert c; decide +kernel

theorem setKeyword_not {a : KwArg} (h : ∀ k, ¬ KwDenotes a k) :
    TargetRule.setKeyword ⟨true, [], 0⟩ a = ⟨true, b!"<invalid_target_keyword>", 0⟩ ∨
    TargetRule.setKeyword ⟨true, [], 0⟩ a = ⟨true, [], 0⟩ := by
  have hz : TargetKeyword.string 0 = b!"<invalid_target_keyword>" := by decide
  cases a with
  | str s =>
    left
    have : matchTKW s = 0 := (matchTKW_zero s).2 fun k => by
      have := h k; simpa [KwDenotes] using this
    simp only [TargetRule.setKeyword, this, hz, if_true]
  | target c =>
    left
    have e := (C17_invalid_text c).2.1 fun k hk => h k hk.symm
    have e' : matchTKW b!"<invalid_target_keyword>" = 0 := by decide
    simp only [TargetRule.setKeyword, e, e', hz, if_true]
  | bind c => left; simp only [TargetRule.setKeyword, matchTKW_bind, hz, if_true]
  | other => right; rfl

theorem setOperator_kw (r : RuleCore) (o : OpArg) :
    (TargetRule.setOperator r o).kw = r.kw ∧ (TargetRule.setOperator r o).init = r.init := by
  cases o <;> simp only [TargetRule.setOperator, TargetRule.setOperator.go]
  all_goals (repeat' split)
  all_goals first | exact ⟨rfl, rfl⟩ | simp_all

/-- **C62**, target rules: `TR` keeps what it is given; an operator the keyword does not
allow, or that is none, is left out. -/
theorem C62_target (a : KwArg) (k : TKw) (h : KwDenotes a k) (o : OpArg) (ex : TExpr) :
    (∀ q, OpDenotes o q → k.allows q = true →
      (TR a o ex).core = ⟨true, k.name, relConst q⟩ ∧ (TR a o ex).ex = ex) ∧
    ((∀ q, OpDenotes o q → k.allows q = false) →
      (TR a o ex).core = ⟨true, k.name, 0⟩ ∧ (TR a o ex).ex = ex) := by
  have hs := C18_target_set_operator ⟨true, k.name, 0⟩ rfl k (by simp [name_eqFold]) o
  simp only [TR, TRule.setExpression, setKeyword_denotes h]
  refine ⟨fun q hq ha => ⟨by rw [hs.1 q hq ha], trivial⟩, fun hn => ⟨?_, trivial⟩⟩
  by_cases hd : ∃ q, OpDenotes o q
  · obtain ⟨q, hq⟩ := hd
    rw [hs.2.1 q hq (hn q hq)]
  · rw [hs.2.2 fun q hq => hd ⟨q, hq⟩]

theorem opDenotes_unique {o : OpArg} {q q' : Rel} (h : OpDenotes o q) (h' : OpDenotes o q') : q = q' := by
  cases o with
  | cop c =>
    simp only [OpDenotes] at h h'
    rw [h] at h'
    cases q <;> cases q' <;> first | rfl | exact absurd h' (by decide)
  | str s =>
    have e := (C19_lookup copMap (List.Perm.refl _) s).1
    have := (e q).2 h
    have h2 := (e q').2 h'
    rw [this] at h2
    cases q <;> cases q' <;> first | rfl | exact absurd h2 (by decide)
  | int i => exact absurd h (by simp [OpDenotes])
  | other => exact absurd h (by simp [OpDenotes])

theorem allows_core (k : TKw) (q : Rel) :
    keywordAllows (.str k.name) (.cop (relConst q)) = k.allows q := by
  cases k <;> cases q <;> decide +kernel

theorem isNil_iff (ex : TExpr) : ex.isNil = false ↔ ex ≠ .nil := by cases ex <;> simp [TExpr.isNil]

/-- **C62**, target rules: what `TR` returns is valid exactly when the keyword and the
operator are known, the keyword allows the operator and there is an expression. -/
theorem C62_target_valid (a : KwArg) (o : OpArg) (ex : TExpr) :
    (TR a o ex).valid = true ↔
      ex ≠ .nil ∧ ∃ k q, KwDenotes a k ∧ OpDenotes o q ∧ k.allows q = true := by
  rw [← isNil_iff]
  by_cases hk : ∃ k, KwDenotes a k
  · obtain ⟨k, hk⟩ := hk
    have hc := C62_target a k hk o ex
    have hne : k.name ≠ [] := by cases k <;> decide
    by_cases hq : ∃ q, OpDenotes o q ∧ k.allows q = true
    · obtain ⟨q, hq, ha⟩ := hq
      obtain ⟨h1, h2⟩ := hc.1 q hq ha
      rw [TRule.valid, TRule.condOk, h1, h2, TargetRule.valid]
      simp only [allows_core, ha]
      have := relConst_ne q
      constructor
      · intro h
        refine ⟨by simpa [hne, this] using h, k, q, hk, hq, ha⟩
      · rintro ⟨h, _⟩; simp [hne, this, h]
    · obtain ⟨h1, h2⟩ := hc.2 fun q hq' => by
        cases h : k.allows q
        · rfl
        · exact absurd ⟨q, hq', h⟩ hq
      rw [TRule.valid, TRule.condOk, h1, h2, TargetRule.valid]
      constructor
      · intro h
        simp at h
      · rintro ⟨_, l, q, hl, hq', ha⟩
        have : k = l := by
          have e1 := setKeyword_denotes hk
          rw [setKeyword_denotes hl] at e1
          have : l.name = k.name := by simpa using e1
          have e := name_eqFold k l
          rw [← this] at e
          simpa [name_eqFold] using e.symm
        subst this
        exact absurd ⟨q, hq', ha⟩ hq
  · constructor
    · intro h
      exfalso
      have hn := setKeyword_not (a := a) fun k h => hk ⟨k, h⟩
      rw [TRule.valid, TargetRule.valid] at h
      split at h
      · cases h
      split at h
      · cases h
      rename_i _ h2
      apply h2
      have : (TR a o ex).core.kw = b!"<invalid_target_keyword>" ∨ (TR a o ex).core.kw = [] := by
        simp only [TR, TRule.setExpression, (setOperator_kw _ o).1]
        rcases hn with h | h <;> rw [h] <;> simp
      have e1 : matchBKW b!"<invalid_target_keyword>" = 0 ∧ matchTKW b!"<invalid_target_keyword>" = 0 := by
        decide
      have e2 : matchBKW [] = 0 ∧ matchTKW [] = 0 := by decide
      rcases this with h | h <;> rw [h] <;> simp [keywordAllows, e1, e2]
    · rintro ⟨_, k, _, h, _⟩; exact absurd ⟨k, h⟩ hk

example : (TR (.str b!"TARGETFILTER") (.str b!"ne") (.filter (some b!"(cn=*)"))).valid = true ∧
    (TR (.str b!"targetscope") (.str b!"ne") (.scope 1)).valid = false := by
  constructor
  · exact (C62_target_valid _ _ _).2 ⟨by simp, .targetfilter, .ne, (by decide : Str.eqFold _ _ = true), ⟨b!"Ne", by decide, by decide⟩, rfl⟩
  · rw [Bool.eq_false_iff]
    intro h
    obtain ⟨_, k, q, hk, hq, ha⟩ := (C62_target_valid _ _ _).1 h
    have hk' : k = .targetscope := by
      simp only [KwDenotes] at hk
      cases k <;> first | rfl | exact absurd hk (by decide +kernel)
    subst hk'
    have : q = .ne := opDenotes_unique hq ⟨b!"Ne", by decide, by decide⟩
    subst this
    exact absurd ha (by decide)

/-! ## C22 -/

/-- The claim of C22: `Eq` gives a usable rule exactly for the defined scopes. -/
def ScopeRules : Prop :=
  ∀ s : SearchScope, (scopeEq s).valid = true ↔ ∃ k : Spec.Scope, s = SearchScope.const k

theorem scopeEq_valid (s : SearchScope) : (scopeEq s).valid = true ↔ s ≠ SearchScope.noScope := by
  unfold scopeEq
  by_cases h : s = SearchScope.noScope
  · rw [if_pos h]; simp [h]; decide
  · rw [if_neg h]
    simp only [h, ne_eq, not_false_eq_true, iff_true]
    exact (C62_target_valid _ _ _).2 ⟨by simp, .targetscope, .eq, rfl, rfl, rfl⟩

/-- **C22** fails: `SearchScope(5).Eq()` is valid, and prints an empty scope. -/
theorem C22_counterexample : ¬ ScopeRules ∧ (scopeEq 5).string = b!"( targetscope = \"\" )" := by
  refine ⟨fun h => ?_, by decide +kernel⟩
  obtain ⟨k, hk⟩ := (h 5).1 ((scopeEq_valid 5).2 (by decide))
  cases k <;> exact absurd hk (by decide)

/-- **C22**: every defined scope gives a usable rule with the right text, no scope gives
none, and `Ne` gives a usable rule for no value.  Missing: values above four, which are
no scopes, give usable rules as well. -/
theorem C22_rules_partial :
    (∀ k : Spec.Scope, (scopeEq (SearchScope.const k)).valid = true ∧
      (scopeEq (SearchScope.const k)).string = b!"( targetscope = \"" ++ k.targetText ++ b!"\" )") ∧
    (scopeEq SearchScope.noScope).valid = false ∧
    (∀ s, (scopeNe s).valid = false) ∧
    ∀ s, (scopeEq s).valid = true ↔ s ≠ SearchScope.noScope := by
  refine ⟨fun k => ⟨(scopeEq_valid _).2 (by cases k <;> decide), by cases k <;> decide +kernel⟩,
    by decide, fun s => by unfold scopeNe; decide, scopeEq_valid⟩

example : (scopeEq SearchScope.Subtree).valid = true ∧
    (scopeEq SearchScope.Subtree).string = b!"( targetscope = \"subtree\" )" := C22_rules_partial.1 .sub

/-- **C22**, for rules that are read: the value of a targetscope rule is one of the defined
scopes, and it is accepted only if it is the name of this scope. -/
theorem C22_read (values : List Str) (s : SearchScope)
    (h : SearchScope.assertTargetScope values = .ok s) :
    ∃ (k : Spec.Scope) (v t : Str), values = [v] ∧ s = SearchScope.const k ∧ Inside v t ∧
      Str.lower t ∈ k.spellings := by
  unfold SearchScope.assertTargetScope at h
  split at h
  · next v =>
    simp only at h
    split at h
    · cases h
    · split at h
      · cases h
      · next hn =>
        simp only [Except.ok.injEq] at h
        by_cases hk : ∃ k : Spec.Scope, Str.lower (Misc.unquote (Misc.condenseWHSP v)) ∈ k.spellings
        · obtain ⟨k, hk⟩ := hk
          exact ⟨k, v, _, rfl, by rw [← h, ((SearchScope.C21_reader _).1 k).2 hk], inside_of v, hk⟩
        · exact absurd ((SearchScope.C21_reader _).2.2 fun k hk' => hk ⟨k, hk'⟩) hn
  · cases h

example : (SearchScope.assertTargetScope [b!" \"subtree\" "]).toOption = some (SearchScope.const .sub) ∧
    (SearchScope.assertTargetScope [b!"everything"]).toOption = none := by decide +kernel

/-! ## C44 -/

/-- The claim of C44. -/
def TargetAttrs : Prop :=
  ∀ (E : EqualFold) (vs : List Str), vs ≠ [] → (∀ v ∈ vs, AttrName v ∧ 2 < v.length) →
    vs.Pairwise (fun a b => E.eq a b = false) →
    ∃ a, (assertTargetAttributes E.eq vs).toOption = some a ∧ a.entries = vs.map some

/-- **C44** fails: `targetattr = "cn || uid"` is read as `cn` twice. -/
theorem C44_counterexample : ¬ TargetAttrs := by
  intro h
  obtain ⟨a, h1, h2⟩ := h EqualFold.ref [b!"mail", b!"uid"] (by decide) (by
    intro v hv
    simp at hv
    rcases hv with rfl | rfl
    · exact ⟨(AT_some _).1 (by decide), by decide⟩
    · exact ⟨(AT_some _).1 (by decide), by decide⟩) (by
    simp only [List.pairwise_cons]
    refine ⟨fun b hb => ?_, by simp⟩
    simp at hb; subst hb; decide)
  have e : (assertTargetAttributes EqualFold.ref.eq [b!"mail", b!"uid"]).toOption.map (·.entries)
    = some [some b!"mail", some b!"mail"] := by decide +kernel
  rw [h1] at e
  simp [h2] at e

theorem push_at (eq : Str → Str → Bool) (es : List AttributeType) {n : Str} (h : AttrName n) :
    ATs.push eq ⟨es, []⟩ [.at_ (AT n)] = ⟨es ++ [some n], []⟩ := by
  rw [(AT_some n).2 h]
  have hn : n ≠ [] := by
    rintro rfl
    exact absurd ((AT_some []).2 h) (by decide)
  simp [ATs.push, ATs.push1, castArg, pushPolicy, containsAT, AttributeType.isZero, hn]

theorem attrsLoop (eq : Str → Str → Bool) (v : Str) (es : List AttributeType) (n : Nat)
    (h : AttrName (unquote (condenseWHSP v))) :
    targetAttrsLoop eq v ⟨es, []⟩ n
      = .ok ⟨es ++ List.replicate n (some (unquote (condenseWHSP v))), []⟩ := by
  induction n generalizing es with
  | zero => simp [targetAttrsLoop]
  | succ n ih =>
    have hn : (unquote (condenseWHSP v)).length ≠ 0 := by
      intro h0
      have := List.length_eq_zero_iff.1 h0
      rw [this] at h
      exact absurd ((AT_some []).2 h) (by decide)
    have hz : AttributeType.isZero (AT (unquote (condenseWHSP v))) = false := by
      rw [(AT_some _).2 h]
      simpa [AttributeType.isZero] using hn
    rw [targetAttrsLoop, if_neg hn, hz]
    simp only [Bool.false_eq_true, if_false, push_at eq es h, ih, List.replicate_succ, List.append_assoc,
      List.singleton_append]

theorem targetAttrs_first (E : EqualFold) (v : Str) (vs : List Str) :
    (AttrName (unquote (condenseWHSP v)) → ∃ a,
      assertTargetAttributes E.eq (v :: vs) = .ok a ∧
      a.entries = List.replicate (vs.length + 1) (some (unquote (condenseWHSP v)))) ∧
    (¬ AttrName (unquote (condenseWHSP v)) → assertTargetAttributes E.eq (v :: vs) = .error ()) ∧
    assertTargetAttributes E.eq [] = .error () := by
  refine ⟨fun h => ⟨_, attrsLoop E.eq v [] (vs.length + 1) h, by simp⟩, fun h => ?_, rfl⟩
  rw [assertTargetAttributes, targetAttrsLoop]
  split
  · rfl
  · rw [(AT_none _).2 h]; rfl

/-- **C44**, what is read: as many copies of the first value as there are values, and an
error exactly when there is no value or the first one is unreadable.  Missing: every
value but the first, which makes the claim false. -/
theorem C44_first_partial (E : EqualFold) (v t : Str) (vs : List Str) (ht : Inside v t) :
    (AttrName t → ∃ a, assertTargetAttributes E.eq (v :: vs) = .ok a ∧
      a.entries = List.replicate (vs.length + 1) (some t)) ∧
    (¬ AttrName t → assertTargetAttributes E.eq (v :: vs) = .error ()) ∧
    assertTargetAttributes E.eq [] = .error () := by
  rw [inside_iff] at ht
  subst ht
  exact targetAttrs_first E v vs

example : Inside b!" \"cn\" " b!"cn" ∧ AttrName b!"cn" :=
  ⟨(inside_iff _ _).2 (by decide +kernel), (AT_some _).1 (by decide)⟩

/-- **C44** for a single value: a name, with blanks and quotation marks around it, is
read.  Missing: several values. -/
theorem C44_single_partial (E : EqualFold) (l p n q r : Str) (hl : Spaces l) (hr : Spaces r)
    (hp : Quote? p) (hq : Quote? q) (hlen : 2 < (p ++ n ++ q).length ∨ p = [] ∧ q = [])
    (hn : AttrName n) (ha : Str.IsAscii n) :
    ∃ a, assertTargetAttributes E.eq [l ++ p ++ n ++ q ++ r] = .ok a ∧ a.entries = [some n] := by
  have hne := Uri.attrName_ne_nil hn
  have hnq : ∀ c ∈ n, isQuote c = false := by
    intro c hc
    rw [Bool.eq_false_iff]
    intro h
    have h3 : c = 34 ∨ c = 39 ∨ c = 96 := by
      have : ∀ c, isQuote c = true → c = 34 ∨ c = 39 ∨ c = 96 := by decide +kernel
      exact this c h
    rcases h3 with rfl | rfl | rfl <;>
      exact Uri.attrName_avoids hn (by decide) (by decide) (by decide) (by decide) (by decide) hc
  have e := clean_frame_short hl hr hp hq (attrName_plain hn ha) hne hlen
    (hnq _ (List.head_mem hne)) (hnq _ (List.getLast_mem hne))
  have := (targetAttrs_first E (l ++ p ++ n ++ q ++ r) []).1 (by rw [e]; exact hn)
  rw [e] at this
  exact this

example : ∃ a, assertTargetAttributes EqualFold.ref.eq [b!" \"cn\" "] = .ok a ∧ a.entries = [some b!"cn"] :=
  C44_single_partial EqualFold.ref b!" " b!"\"" b!"cn" b!"\"" b!" "
    (.cons [32] [] (.ascii 32 (by decide)) .nil) (.cons [32] [] (.ascii 32 (by decide)) .nil) .double .double
    (by decide) ((AT_some _).1 (by decide)) (by decide)

/-! ## C45, C63 -/

/-- The rule as the parser made it, its keyword and its texts. -/
def RawRule (r : TRule) (k : TKw) (style : Int) (vs : List Str) : Prop :=
  Has r k ∧ r.ex = .raw style vs

/-- `r'` is the rule `r` with the value the switch gives for its texts; C45 is stated in
`Props/TargetValues.lean` by what the texts mean. -/
def ReadBy (eq : Str → Str → Bool) (read : Str → Option Str) (r r' : TRule) : Prop :=
  ∃ k style vs v, RawRule r k style vs ∧ readTarget eq read (tkwConst k) vs = .ok v ∧
    r'.core = r.core ∧ r'.ex = v

/-- The switch gives no value for the texts of the rule. -/
def Unread (eq : Str → Str → Bool) (read : Str → Option Str) (r : TRule) : Prop :=
  ∃ k style vs, RawRule r k style vs ∧ readTarget eq read (tkwConst k) vs = .error ()

/-- The parser made the rule. -/
def Parsed (r : TRule) : Prop := ∃ k style vs, RawRule r k style vs

theorem setQuoteStyle_core (r : TRule) (style : Int) :
    (r.setQuoteStyle style).core = r.core ∧ (r.setQuoteStyle style).ex = r.ex := by
  rw [TRule.setQuoteStyle]
  cases r.sliceAfter style <;> exact ⟨rfl, rfl⟩

theorem assertValue_read {eq : Str → Str → Bool} {read : Str → Option Str} {r : TRule} {k : TKw} {style : Int}
    {vs : List Str} (h : RawRule r k style vs) :
    (∀ v, readTarget eq read (tkwConst k) vs = .ok v →
      r.assertValue eq read = ((r.setExpression v).setQuoteStyle style, true)) ∧
    (readTarget eq read (tkwConst k) vs = .error () → r.assertValue eq read = (r, false)) := by
  have hk : matchTKW (TargetKeyword.string r.keyword) = tkwConst k := by
    rw [has_keyword h.1, tkwConst_string]
    exact (matchTKW_iff _ _).2 (by simp [name_eqFold])
  constructor
  · intro v hv
    rw [TRule.assertValue, h.2]; simp only [hk, hv]
  · intro hv
    rw [TRule.assertValue, h.2]; simp only [hk, hv]

theorem rule_read (eq : Str → Str → Bool) (read : Str → Option Str) (r : TRule) (hp : Parsed r) :
    (Unread eq read r → r.assertValue eq read = (r, false)) ∧
    (¬ Unread eq read r → (r.assertValue eq read).2 = true ∧
      ReadBy eq read r (r.assertValue eq read).1) := by
  constructor
  · rintro ⟨k, style, vs, h, hv⟩; exact (assertValue_read h).2 hv
  · intro hu
    obtain ⟨k, style, vs, h⟩ := hp
    cases hv : readTarget eq read (tkwConst k) vs with
    | error u => exact absurd ⟨k, style, vs, h, hv⟩ hu
    | ok v =>
      rw [(assertValue_read h).1 v hv]
      have := setQuoteStyle_core (r.setExpression v) style
      exact ⟨rfl, k, style, vs, v, h, hv, this.1, this.2⟩

/-- Both lists have the same length and the members are related. -/
inductive AllRel (R : TRule → TRule → Prop) : List TRule → List TRule → Prop
  | nil : AllRel R [] []
  | cons {r r' : TRule} {rs rs' : List TRule} (h : R r r') (h' : AllRel R rs rs') :
      AllRel R (r :: rs) (r' :: rs')

theorem transfer_firsts (rs : List TRule) (ps : List (TRule × TKw))
    (h : Picks Offers (rs.map TRArg.rule) ps) : transferTRs [] rs = (firsts sameKey ps).map (·.1) := by
  rw [← C43_content true _ ps h, transferTRs, List.foldl_map]

theorem rules_kept (eq : Str → Str → Bool) (read : Str → Option Str) (rs : List TRule)
    (ps : List (TRule × TKw)) (h : Picks Offers (rs.map TRArg.rule) ps)
    (hp : ∀ r ∈ rs, Parsed r) :
    ((∃ p ∈ firsts sameKey ps, Unread eq read p.1) → (processTargetRules eq read rs).2 = false) ∧
    ((∀ p ∈ firsts sameKey ps, ¬ Unread eq read p.1) → (processTargetRules eq read rs).2 = true ∧
      AllRel (ReadBy eq read) ((firsts sameKey ps).map (·.1)) (processTargetRules eq read rs).1) := by
  have hsub : ∀ p ∈ ps, p.1 ∈ rs := by
    have : ∀ (l : List TRArg) (ps : List (TRule × TKw)), Picks Offers l ps → ∀ p ∈ ps, TRArg.rule p.1 ∈ l := by
      intro l ps hl
      induction hl with
      | nil => intro p hp; simp at hp
      | skip _ _ ih => intro p hp; exact List.mem_cons_of_mem _ (ih p hp)
      | take hx _ ih =>
        intro p hp
        rcases List.mem_cons.1 hp with rfl | hp
        · rw [hx.1]; simp
        · exact List.mem_cons_of_mem _ (ih p hp)
    intro p hp
    have := this _ _ h p hp
    rw [List.mem_map] at this
    obtain ⟨r, hr, e⟩ := this
    cases e; exact hr
  have hfirst : ∀ p ∈ firsts sameKey ps, p ∈ ps := by
    intro p hp
    rw [← foldl_addNew sameKey sameKey_trans] at hp
    rcases mem_foldl_addNew hp with h | h
    · simp at h
    · exact h
  have hpl : ∀ p ∈ firsts sameKey ps, Parsed p.1 := fun p hp' => hp _ (hsub p (hfirst p hp'))
  rw [processTargetRules, transfer_firsts rs ps h]
  generalize firsts sameKey ps = fs at hpl
  induction fs with
  | nil =>
    refine ⟨?_, fun _ => ⟨rfl, .nil⟩⟩
    rintro ⟨p, hp, _⟩; simp at hp
  | cons f fs ih =>
    have ih := ih fun p hp => hpl p (by simp [hp])
    have hf := rule_read eq read f.1 (hpl f (by simp))
    rw [List.map_cons, assertAll]
    constructor
    · rintro ⟨p, hp, hu⟩
      by_cases hb : (f.1.assertValue eq read).2 = true
      · rw [if_pos hb]
        rcases List.mem_cons.1 hp with rfl | hp
        · rw [hf.1 hu] at hb; cases hb
        · exact ih.1 ⟨p, hp, hu⟩
      · rw [if_neg hb]
    · intro hu
      obtain ⟨hb, hr⟩ := hf.2 (hu f (by simp))
      rw [if_pos hb]
      have := ih.2 fun p hp => hu p (by simp [hp])
      exact ⟨this.1, .cons hr this.2⟩

theorem firsts_distinct {α : Type} {same : α → α → Bool} {l : List α} (h : Distinct same l) :
    firsts same l = l := by
  induction l with
  | nil => rfl
  | cons a l ih =>
    have hl : Distinct same l := by
      intro i j x y hij hx hy
      exact h (i + 1) (j + 1) x y (by omega) (by simpa using hx) (by simpa using hy)
    rw [firsts, ih hl]
    congr 1
    rw [List.filter_eq_self]
    intro b hb
    obtain ⟨j, hj⟩ := List.mem_iff_getElem?.1 hb
    rw [h 0 (j + 1) a b (by omega) (by simp) (by simpa using hj)]
    rfl

theorem rules_distinct (E : EqualFold) (d : Oid.DotReader) (rs : List TRule) (hp : ∀ r ∈ rs, Parsed r)
    (hd : ∀ (i j : Nat) (a b : TRule) (k : TKw), i < j → rs[i]? = some a → rs[j]? = some b → Has a k → ¬ Has b k) :
    ((∃ r ∈ rs, Unread E.eq d.read r) → (processTargetRules E.eq d.read rs).2 = false) ∧
    ((∀ r ∈ rs, ¬ Unread E.eq d.read r) → (processTargetRules E.eq d.read rs).2 = true ∧
      AllRel (ReadBy E.eq d.read) rs (processTargetRules E.eq d.read rs).1) := by
  have : ∃ ps : List (TRule × TKw), Picks Offers (rs.map TRArg.rule) ps ∧ rs = ps.map (·.1) ∧ ∀ p ∈ ps, Has p.1 p.2 := by
    clear hd
    induction rs with
    | nil => exact ⟨[], .nil, rfl, by simp⟩
    | cons r rs ih =>
      obtain ⟨ps, h1, h2, h3⟩ := ih fun r hr => hp r (by simp [hr])
      obtain ⟨k, _, _, hk, _⟩ := hp r (by simp)
      refine ⟨(r, k) :: ps, .take ⟨rfl, hk⟩ h1, by simp [h2], ?_⟩
      intro p hp
      rcases List.mem_cons.1 hp with rfl | hp
      · exact hk
      · exact h3 p hp
  obtain ⟨ps, h1, h2, h3⟩ := this
  have hdist : Distinct sameKey ps := by
    intro i j a b hij ha hb
    simp only [sameKey, decide_eq_false_iff_not]
    intro e
    refine hd i j a.1 b.1 a.2 hij (by rw [h2]; simp [ha]) (by rw [h2]; simp [hb])
      (h3 a (List.mem_of_getElem? ha)) ?_
    rw [e]; exact h3 b (List.mem_of_getElem? hb)
  have := rules_kept E.eq d.read rs ps h1 hp
  rw [firsts_distinct hdist, ← h2] at this
  refine ⟨fun ⟨r, hr, hu⟩ => this.1 ?_, fun hu => this.2 ?_⟩
  · rw [h2] at hr
    obtain ⟨p, hp, rfl⟩ := List.mem_map.1 hr
    exact ⟨p, hp, hu⟩
  · intro p hp
    exact hu p.1 (by rw [h2]; exact List.mem_map_of_mem hp)

theorem sample_parsed : ∀ r ∈ [sampleRule b!"TargetAttr" b!"cn", sampleRule b!"targetattr" b!""], Parsed r := by
  intro r hr
  simp at hr
  rcases hr with rfl | rfl
  · exact ⟨_, _, _, sample_attr, rfl⟩
  · exact ⟨.targetattr, _, _, ⟨rfl, by decide⟩, rfl⟩

/-! ## C61 -/

/-- The value is a list and belongs to the keyword. -/
def ListOf (k : TKw) (ex : TExpr) (values : List Str) : Prop :=
  (∃ d, ex = .dns d ∧ (k = .target ∨ k = .target_to ∨ k = .target_from) ∧
    values = d.entries.map TargetDN.string) ∨
  (∃ a, ex = .attrs a ∧ k = .targetattr ∧ values = a.entries.map AttributeType.string) ∨
  (∃ o, ex = .oids o ∧ (k = .targetcontrol ∨ k = .extop) ∧ values = o.entries.map fun
    | .oid i => Oid.string i
    | .kw k => TargetKeyword.string k)

/-- The two styles of quotation: each value on its own, or all together. -/
def quotedList (style : Int) (values : List Str) : Str :=
  if style = 0 then Str.join b!" || " (values.map fun v => b!"\"" ++ v ++ b!"\"")
  else b!"\"" ++ Str.join b!" || " values ++ b!"\""

/-- The text of a rule. -/
def ruleText (kw op value : Str) : Str := b!"( " ++ kw ++ b!" " ++ op ++ b!" " ++ value ++ b!" )"

/-- The claim of C61. -/
def Quoted : Prop :=
  ∀ (r : TRule) (k : TKw) (values : List Str) (style : Int), Has r k → ListOf k r.ex values → values ≠ [] →
    (r.setQuoteStyle style).string = ruleText r.core.kw (Cop.string r.core.op) (quotedList style values)

theorem setQuoteStyle_list {r : TRule} {k : TKw} {values : List Str} (hk : Has r k) (hl : ListOf k r.ex values)
    (style : Int) :
    r.setQuoteStyle style = { r with
      slice := decide (2 ≤ values.length) && decide (style = 0), outer := !decide (style = 0) } ∧
    r.ex.texts = values := by
  have hq : ∀ n, quoteSlices n style = (decide (2 ≤ n) && decide (style = 0)) := by
    intro n
    rw [quoteSlices]
    by_cases h : n < 2
    · rw [if_pos h]; simp; omega
    · rw [if_neg h]
      have : 2 ≤ n := by omega
      simp [this, MultivalSliceQuotes]; rfl
  have hk' := has_keyword hk
  rcases hl with ⟨d, e, hkk, hv⟩ | ⟨a, e, hkk, hv⟩ | ⟨o, e, hkk, hv⟩
  · have : r.sliceAfter style = some (quoteSlices d.entries.length style) := by
      rw [TRule.sliceAfter, e]
      rcases hkk with rfl | rfl | rfl <;> simp [hk', tkwConst, Target, TargetTo, TargetFrom]
    refine ⟨?_, by rw [e, hv]; rfl⟩
    rw [TRule.setQuoteStyle, this, hq, hv]; simp [MultivalSliceQuotes]; rfl
  · have : r.sliceAfter style = some (quoteSlices a.entries.length style) := by
      rw [TRule.sliceAfter, e]
      subst hkk; simp [hk', tkwConst]
    refine ⟨?_, by rw [e, hv]; rfl⟩
    rw [TRule.setQuoteStyle, this, hq, hv]; simp [MultivalSliceQuotes]; rfl
  · have : r.sliceAfter style = some (quoteSlices o.entries.length style) := by
      rw [TRule.sliceAfter, e]
      rcases hkk with rfl | rfl <;> simp [hk', tkwConst, TargetExtOp, TargetCtrl]
    refine ⟨?_, by rw [e, hv]; rfl⟩
    rw [TRule.setQuoteStyle, this, hq, hv]; simp [MultivalSliceQuotes]; rfl

theorem ruleText_of (r : TRule) (h : r.core.init = true) :
    r.string = ruleText r.core.kw (Cop.string r.core.op)
      (quoteIf r.outer (Str.join b!" || " (r.ex.texts.map (quoteIf r.slice)))) := by
  simp [TRule.string, TRule.isZero, h, ruleText]

/-- **C61** for two or more values, in both styles, and for any number of values in the
usual style.  Missing: one value with a separate quotation, for which the claim is
false. -/
theorem C61_list_partial (r : TRule) (k : TKw) (values : List Str) (style : Int) (hk : Has r k)
    (hl : ListOf k r.ex values) (h : 2 ≤ values.length ∨ style ≠ 0) :
    (r.setQuoteStyle style).string = ruleText r.core.kw (Cop.string r.core.op) (quotedList style values) := by
  obtain ⟨e, ht⟩ := setQuoteStyle_list hk hl style
  rw [ruleText_of _ (by rw [e]; exact hk.1), e]
  simp only [ht, quotedList]
  by_cases h0 : style = 0
  · have : 2 ≤ values.length := by
      rcases h with h | h
      · exact h
      · exact absurd h0 h
    simp only [h0, this, decide_true, Bool.and_self, Bool.not_true, quoteIf, Bool.false_eq_true, if_false, if_true]
    rfl
  · have e2 : quoteIf false = id := by funext s; rfl
    simp only [h0, decide_false, Bool.and_false, Bool.not_false, if_false, e2, List.map_id]
    rfl

/-- **C61**, rules whose value is no list: the value has quotation marks whatever the
style is. -/
theorem C61_single (r : TRule) (hr : r.core.init = true) (style : Int) (v : Str)
    (hv : (∃ s, r.ex = .scope s ∧ v = SearchScope.string s) ∨
      (∃ f, r.ex = .filter f ∧ v = SearchFilter.string f) ∨ (∃ a, r.ex = .afos a ∧ v = a.string))
    (hs : r.slice = false) :
    (r.setQuoteStyle style).string
      = ruleText r.core.kw (Cop.string r.core.op) (b!"\"" ++ v ++ b!"\"") := by
  have : r.sliceAfter style = none ∧ r.ex.texts = [v] := by
    rcases hv with ⟨s, e, rfl⟩ | ⟨s, e, rfl⟩ | ⟨s, e, rfl⟩ <;> exact ⟨by rw [TRule.sliceAfter, e], by rw [e]; rfl⟩
  have e : r.setQuoteStyle style = { r with outer := true } := by rw [TRule.setQuoteStyle, this.1]
  rw [ruleText_of _ (by rw [e]; exact hr), e]
  simp [this.2, hs, quoteIf, Str.join]

/-- The rule of the counterexample, `TR(TargetAttr, Eq, TAs("cn"))`. -/
def oneAttr : TRule := TR (.target TargetAttr) (.cop Eq') (.attrs ⟨[some b!"cn"], []⟩)

/-- **C61** fails: a single value in the style of separate quotation has no quotation
marks at all. -/
theorem C61_counterexample : ¬ Quoted ∧ (oneAttr.setQuoteStyle 0).string = b!"( targetattr = cn )" := by
  have e : (oneAttr.setQuoteStyle 0).string = b!"( targetattr = cn )" := by decide +kernel
  refine ⟨fun h => ?_, e⟩
  have := h oneAttr .targetattr [b!"cn"] 0 ⟨by decide, by decide +kernel⟩ (.inr (.inl ⟨_, rfl, rfl, rfl⟩)) (by simp)
  rw [e] at this
  exact absurd this (by decide +kernel)

example : ((TR (.target TargetAttr) (.cop Eq') (.attrs ⟨[some b!"cn", some b!"sn"], []⟩)).setQuoteStyle 0).string
    = b!"( targetattr = \"cn\" || \"sn\" )" := by
  have := C61_list_partial (TR (.target TargetAttr) (.cop Eq') (.attrs ⟨[some b!"cn", some b!"sn"], []⟩))
    .targetattr [b!"cn", b!"sn"] 0 ⟨by decide, by decide +kernel⟩ (.inr (.inl ⟨_, rfl, rfl, rfl⟩)) (.inl (by decide))
  rw [this]; decide +kernel

end Verif.Rules
