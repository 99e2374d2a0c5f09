import Verif.Props.InForce
import Verif.Props.OneWay

/-!
# Whether target rules and bind rules that are pushed are in force (C146)
-/

namespace Verif.RulesForce
open Verif Verif.Spec Verif.Rules Verif.Decide Verif.Applies

/-! ## Target rules -/

/-- **C146** for target rules pushed one after another: the list applies exactly where all of them do. -/
def TargetsInForce : Prop :=
  ∀ (stop : Bool) (xs : List TRArg) (ps : List (TRule × TKw)), Picks Rules.Offers xs ps → ∀ τ : TRule → Prop,
    (Apply τ (xs.foldl (fun es x => TRs.push stop es [x]) []) ↔ ∀ p ∈ ps, τ p.1)

/-- **C146** for target rules with different keywords pushed in one call, among other arguments. -/
def TargetsAtOnceInForce : Prop :=
  ∀ (stop : Bool) (xs : List TRArg) (ps : List (TRule × TKw)), Picks Rules.Offers xs ps → Distinct sameKey ps →
    ∀ τ : TRule → Prop, (Apply τ (TRs.push stop [] xs) ↔ ∀ p ∈ ps, τ p.1)

/-- **C146** for target rules, half of the claim: the list applies wherever the rules do.  Missing: that it applies
nowhere else. -/
theorem C146_no_less_partial (stop : Bool) (xs : List TRArg) (ps : List (TRule × TKw)) (h : Picks Rules.Offers xs ps)
    (τ : TRule → Prop) (ht : ∀ p ∈ ps, τ p.1) : Apply τ (xs.foldl (fun es x => TRs.push stop es [x]) []) := by
  rw [C43_content stop xs ps h]
  intro r hr
  obtain ⟨p, hp, rfl⟩ := List.mem_map.1 hr
  exact ht p ((firsts_sublist _ _).subset hp)

/-- **C146** for target rules of which those with one keyword hold together: the list applies exactly where they do.
Missing: rules with one keyword that say different things. -/
theorem C146_targets_partial (stop : Bool) (xs : List TRArg) (ps : List (TRule × TKw)) (h : Picks Rules.Offers xs ps)
    (τ : TRule → Prop) (hs : ∀ p ∈ ps, ∀ p' ∈ ps, p.2 = p'.2 → (τ p.1 ↔ τ p'.1)) :
    Apply τ (xs.foldl (fun es x => TRs.push stop es [x]) []) ↔ ∀ p ∈ ps, τ p.1 := by
  refine ⟨fun ha p hp => ?_, C146_no_less_partial stop xs ps h τ⟩
  rw [C43_content stop xs ps h] at ha
  obtain ⟨b, hb, e⟩ := InForce.covers (same := sameKey) (fun a b c h1 h2 => by
    simp only [sameKey, decide_eq_true_eq] at h1 h2 ⊢; exact h1.trans h2) hp
  have hτ := ha b.1 (List.mem_map.2 ⟨b, hb, rfl⟩)
  rcases e with rfl | e
  · exact hτ
  · exact (hs b ((firsts_sublist _ _).subset hb) p hp (by simpa [sameKey] using e)).1 hτ

/-- **C146** for a call that goes on after a refused argument.  Missing: calls that end there. -/
theorem C146_at_once_partial (xs : List TRArg) (ps : List (TRule × TKw)) (h : Picks Rules.Offers xs ps)
    (τ : TRule → Prop) (hs : ∀ p ∈ ps, ∀ p' ∈ ps, p.2 = p'.2 → (τ p.1 ↔ τ p'.1)) :
    Apply τ (TRs.push false [] xs) ↔ ∀ p ∈ ps, τ p.1 := by
  rw [C43_push_many]
  exact C146_targets_partial false xs ps h τ hs

/-- **C146** for target rules, any list and any call: where the list applied and all the rules given hold, it applies
afterwards.  Missing: that it applies nowhere else. -/
theorem C146_onto_partial (stop : Bool) (es : List TRule) (xs : List TRArg) (τ : TRule → Prop) (he : Apply τ es)
    (hx : ∀ r, TRArg.rule r ∈ xs → τ r) : Apply τ (TRs.push stop es xs) := by
  refine Given.stackPush_mem (G := τ) xs (fun es x e hm ha => hx e ?_) he
  cases x with
  | other => cases ha
  | rule r =>
    simp only [acceptTR] at ha
    repeat' split at ha
    all_goals first | (cases ha; done) | (cases ha; exact hm)

/-- A call that takes as many entries as there are arguments does not end early. -/
theorem all_taken {A E : Type} (accept : List E → A → Option E) (xs : List A) : ∀ es : List E,
    (stackPush false accept es xs).length ≤ es.length + xs.length ∧
    ((stackPush false accept es xs).length = es.length + xs.length →
      stackPush true accept es xs = stackPush false accept es xs) := by
  induction xs with
  | nil => exact fun es => ⟨Nat.le_refl _, fun _ => rfl⟩
  | cons x xs ih =>
    intro es
    simp only [stackPush]
    cases accept es x with
    | some e =>
      have := ih (es ++ [e])
      simp only [List.length_append, List.length_cons, List.length_nil] at this ⊢
      exact ⟨by omega, fun h => this.2 (by omega)⟩
    | none =>
      have := (ih es).1
      simp only [List.length_cons, Bool.false_eq_true, if_false]
      exact ⟨by omega, fun h => by omega⟩

/-- **C146** for a call, of either kind, whose arguments are rules with different keywords.  Missing: calls with a refused
argument, if it ends the call. -/
theorem C146_usable_partial (stop : Bool) (ps : List (TRule × TKw)) (hk : ∀ p ∈ ps, Has p.1 p.2) (hd : Distinct sameKey ps)
    (τ : TRule → Prop) : Apply τ (TRs.push stop [] (ps.map fun p => .rule p.1)) ↔ ∀ p ∈ ps, τ p.1 := by
  have hp : Picks Rules.Offers (ps.map fun p => TRArg.rule p.1) ps := by
    clear hd
    induction ps with
    | nil => exact .nil
    | cons p ps ih =>
      exact .take ⟨rfl, hk p List.mem_cons_self⟩ (ih fun q hq => hk q (List.mem_cons_of_mem _ hq))
  have h0 : TRs.push false [] (ps.map fun p => TRArg.rule p.1) = ps.map (·.1) := by
    rw [C43_push_many, C43_content false _ _ hp, firsts_distinct hd]
  have h1 : TRs.push stop [] (ps.map fun p => TRArg.rule p.1) = ps.map (·.1) := by
    cases stop with
    | false => exact h0
    | true =>
      rw [← h0]
      refine (all_taken acceptTR _ []).2 ?_
      have := congrArg List.length h0
      simpa [TRs.push] using this
  rw [h1]
  simp [Apply]

/-! ## Bind rules -/

/-- **C146** for bind rules: a stack of the word AND holds exactly where it did and where all that was pushed holds, and one of
the word OR where it did or where something that was pushed holds. -/
def BindRulesInForce : Prop :=
  ∀ (stop p : Bool) (es : List Bind.BCtx) (xs : List Bind.BArg) (cs : List Bind.BCtx), Bind.AddsAll xs cs →
    ∀ (neg : List Bool → Bool) (τ : Bind.BRule → Bool),
      ((Bind.BCtx.rules .and p (Bind.pushB stop es xs)).eval neg τ = true ↔
        (Bind.BCtx.rules .and p es).eval neg τ = true ∧ ∀ c ∈ cs, c.eval neg τ = true) ∧
      ((Bind.BCtx.rules .or p (Bind.pushB stop es xs)).eval neg τ = true ↔
        (Bind.BCtx.rules .or p es).eval neg τ = true ∨ ∃ c ∈ cs, c.eval neg τ = true)

theorem evals_all (neg : List Bool → Bool) (τ : Bind.BRule → Bool) (l : List Bind.BCtx) :
    ((Bind.BCtx.evals neg τ l).all id = true ↔ ∀ c ∈ l, c.eval neg τ = true) ∧
    ((Bind.BCtx.evals neg τ l).any id = true ↔ ∃ c ∈ l, c.eval neg τ = true) := by
  induction l with
  | nil => simp [Bind.BCtx.evals]
  | cons c l ih =>
    simp only [Bind.BCtx.evals, List.all_cons, List.any_cons, Bool.and_eq_true, Bool.or_eq_true, id_eq, ih.1, ih.2,
      List.mem_cons, forall_eq_or_imp, exists_eq_or_imp, and_self]

theorem added (es cs : List Bind.BCtx) (p : Bool) (neg : List Bool → Bool) (τ : Bind.BRule → Bool) :
    ((Bind.BCtx.rules .and p (es ++ cs)).eval neg τ = true ↔
      (Bind.BCtx.rules .and p es).eval neg τ = true ∧ ∀ c ∈ cs, c.eval neg τ = true) ∧
    ((Bind.BCtx.rules .or p (es ++ cs)).eval neg τ = true ↔
      (Bind.BCtx.rules .or p es).eval neg τ = true ∨ ∃ c ∈ cs, c.eval neg τ = true) := by
  simp only [Bind.BCtx.eval, OneWay.evals_append, Bind.Word.eval, List.all_append, List.any_append, Bool.and_eq_true,
    Bool.or_eq_true, (evals_all neg τ cs).1, (evals_all neg τ cs).2, and_self]

/-- **C146** for bind rules, when a refused argument does not end the call, or there is none.  Missing: calls that end at a
refused argument. -/
theorem C146_bind_rules_partial (stop p : Bool) (es : List Bind.BCtx) (xs : List Bind.BArg) (cs : List Bind.BCtx)
    (h : Bind.AddsAll xs cs) (hx : stop = false ∨ ∀ x ∈ xs, ∃ c, x = .ctx c ∧ Bind.Usable c) (neg : List Bool → Bool)
    (τ : Bind.BRule → Bool) :
    ((Bind.BCtx.rules .and p (Bind.pushB stop es xs)).eval neg τ = true ↔
      (Bind.BCtx.rules .and p es).eval neg τ = true ∧ ∀ c ∈ cs, c.eval neg τ = true) ∧
    ((Bind.BCtx.rules .or p (Bind.pushB stop es xs)).eval neg τ = true ↔
      (Bind.BCtx.rules .or p es).eval neg τ = true ∨ ∃ c ∈ cs, c.eval neg τ = true) := by
  have e : Bind.pushB stop es xs = es ++ cs := by
    obtain ⟨h1, n, h2, h3⟩ := Bind.C48_push es xs cs h
    cases stop with
    | false => exact h1
    | true =>
      rcases hx with hx | hx
      · cases hx
      · rw [h2, h3 hx, List.take_length]
  rw [e]
  exact added es cs p neg τ

/-- **C146** for bind rules, in all cases: a stack of the word AND holds wherever it did and all that was pushed holds, and one
of the word OR holds only where it did or something pushed holds.  Missing: the other directions. -/
theorem C146_bounds_partial (stop p : Bool) (es : List Bind.BCtx) (xs : List Bind.BArg) (cs : List Bind.BCtx)
    (h : Bind.AddsAll xs cs) (neg : List Bool → Bool) (τ : Bind.BRule → Bool) :
    ((Bind.BCtx.rules .and p es).eval neg τ = true → (∀ c ∈ cs, c.eval neg τ = true) →
      (Bind.BCtx.rules .and p (Bind.pushB stop es xs)).eval neg τ = true) ∧
    ((Bind.BCtx.rules .or p (Bind.pushB stop es xs)).eval neg τ = true →
      (Bind.BCtx.rules .or p es).eval neg τ = true ∨ ∃ c ∈ cs, c.eval neg τ = true) := by
  have e : ∃ ds, (∀ d ∈ ds, d ∈ cs) ∧ Bind.pushB stop es xs = es ++ ds := by
    obtain ⟨h1, n, h2, -⟩ := Bind.C48_push es xs cs h
    cases stop with
    | false => exact ⟨cs, fun d hd => hd, h1⟩
    | true => exact ⟨cs.take n, fun d hd => List.mem_of_mem_take hd, h2⟩
  obtain ⟨ds, hd, e⟩ := e
  rw [e]
  constructor
  · intro h1 h2
    exact (added es ds p neg τ).1.2 ⟨h1, fun c hc => h2 c (hd c hc)⟩
  · intro h1
    rcases (added es ds p neg τ).2.1 h1 with h | ⟨c, hc, h⟩
    · exact .inl h
    · exact .inr ⟨c, hd c hc, h⟩

/-! ## What fails -/

/-- `targetfilter = …`. -/
def filterRule (s : Str) : TRule := TR (.target TargetFilter) (.cop Eq') (.filter (some s))

/-- `targetscope = "subtree"`. -/
def scopeRule : TRule := TR (.target TargetScope) (.cop Eq') (.scope SearchScope.Subtree)

theorem filter_has (s : Str) : Has (filterRule s) .targetfilter := ⟨rfl, (by decide : Str.eqFold b!"targetfilter" TKw.targetfilter.name = true)⟩

theorem scope_has : Has scopeRule .targetscope := ⟨rfl, (by decide : Str.eqFold b!"targetscope" TKw.targetscope.name = true)⟩

/-- `ssf = …`. -/
def ssfRule : Bind.BRule := Bind.BR (.str b!"ssf") (.cop Eq') (.text b!"1")

/-- **C146** fails: of two target filters the second is dropped, so that the list applies where it does not hold; in one call
that ends at a refused argument what comes after it is dropped; and so for bind rules. -/
theorem C146_counterexample : ¬ TargetsInForce ∧ ¬ TargetsAtOnceInForce ∧ ¬ BindRulesInForce := by
  refine ⟨fun h => ?_, fun h => ?_, fun h => ?_⟩
  · have hp : Picks Rules.Offers [.rule (filterRule b!"(a=b)"), .rule (filterRule b!"(c=d)")]
        [(filterRule b!"(a=b)", .targetfilter), (filterRule b!"(c=d)", .targetfilter)] :=
      .take ⟨rfl, filter_has _⟩ (.take ⟨rfl, filter_has _⟩ .nil)
    have := (h true _ _ hp fun r => r.ex.texts = [b!"(a=b)"]).1 (by
      rw [C43_content true _ _ hp]
      intro r hr
      have : r = filterRule b!"(a=b)" := by
        simpa [firsts, sameKey] using hr
      rw [this]; decide +kernel) _ (List.mem_cons_of_mem _ List.mem_cons_self)
    revert this; decide +kernel
  · have hp : Picks Rules.Offers [.other, .rule scopeRule] [(scopeRule, .targetscope)] :=
      .skip (fun e h => by cases h.1) (.take ⟨rfl, scope_has⟩ .nil)
    have hd : Distinct sameKey [(scopeRule, TKw.targetscope)] := by
      intro i j a b hij ha hb
      have : j < 1 := by
        rcases Nat.lt_or_ge j 1 with h | h
        · exact h
        · rw [List.getElem?_eq_none (by simpa using h)] at hb; cases hb
      omega
    exact (h true _ _ hp hd fun _ => False).1 (fun r hr => by cases hr) _ List.mem_cons_self
  · have ha : Bind.AddsAll [.other, .ctx (.rule ssfRule)] [.rule ssfRule] :=
      .skip (fun c h => by cases h) (.take ⟨.ssf, by decide +kernel⟩ .nil)
    have := ((h true false [] _ _ ha (fun _ => false) (fun _ => false)).1.1 rfl).2 _ List.mem_cons_self
    cases this

/-! ## Cases that meet the hypotheses -/

example : Picks Rules.Offers [.rule (filterRule b!"(a=b)"), .other, .rule scopeRule]
    [(filterRule b!"(a=b)", .targetfilter), (scopeRule, .targetscope)] :=
  .take ⟨rfl, filter_has _⟩ (.skip (fun e h => by cases h.1) (.take ⟨rfl, scope_has⟩ .nil))

example : (∀ p ∈ [(filterRule b!"(a=b)", TKw.targetfilter), (scopeRule, .targetscope)], Has p.1 p.2) ∧
    Distinct sameKey [(filterRule b!"(a=b)", TKw.targetfilter), (scopeRule, .targetscope)] := by
  refine ⟨fun p hp => ?_, ?_⟩
  · simp only [List.mem_cons, List.not_mem_nil, or_false] at hp
    rcases hp with rfl | rfl
    · exact filter_has _
    · exact scope_has
  · rintro (_ | _ | i) (_ | _ | j) a b hij ha hb <;> first | omega | (simp at ha hb; done) | skip
    · simp only [List.getElem?_cons_zero, List.getElem?_cons_succ, Option.some.injEq, Nat.zero_add] at ha hb
      rw [← ha, ← hb]; rfl
    all_goals simp at hb

example : Apply (fun r => r.core.op = Eq') [scopeRule] ∧
    ∀ r, TRArg.rule r ∈ [TRArg.other, .rule (filterRule b!"(a=b)")] → r.core.op = Eq' := by
  refine ⟨fun r hr => ?_, fun r hr => ?_⟩
  · rw [List.mem_singleton.1 hr]; rfl
  · simp only [List.mem_cons, reduceCtorEq, TRArg.rule.injEq, List.not_mem_nil, or_false, false_or] at hr
    rw [hr]; rfl

example (τ : TRule → Prop) : ∀ p ∈ [(filterRule b!"(a=b)", TKw.targetfilter), (scopeRule, .targetscope)],
    ∀ p' ∈ [(filterRule b!"(a=b)", TKw.targetfilter), (scopeRule, .targetscope)], p.2 = p'.2 → (τ p.1 ↔ τ p'.1) := by
  intro p hp p' hp' e
  simp only [List.mem_cons, List.not_mem_nil, or_false] at hp hp'
  rcases hp with rfl | rfl <;> rcases hp' with rfl | rfl <;> first | exact Iff.rfl | cases e

example : Bind.AddsAll [.ctx (.rule ssfRule), .other, .ctx (.rules .or false [])] [.rule ssfRule, .rules .or false []] :=
  .take ⟨.ssf, by decide +kernel⟩ (.skip (fun c h => by cases h) (.take trivial .nil))

end Verif.RulesForce
