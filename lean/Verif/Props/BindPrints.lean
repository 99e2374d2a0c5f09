import Verif.Props.Crash
import Verif.Model.Builders

/-!
# C123: bind rules can be printed without a crash
-/

namespace Verif.BindPrints
open Verif Verif.Spec Verif.Bind Verif.Levels Verif.PB Verif.Attr

/-! ## What is claimed -/

/-- **C123**, rules that are made: whatever keyword, operator and value the rule was made of, and however
it was nested with others, it prints. -/
def MadePrint : Prop :=
  (∀ (op : Cop) (a : ABTV), (Builders.pairCond op a).crashes = false) ∧ ∀ c : BCtx, c.crashes = false

/-- The rule has a keyword, an operator and a pair with an attribute and a value without text. -/
def NoText (r : BRule) : Prop :=
  r.core.init = true ∧ r.core.kw ≠ [] ∧ r.core.op ≠ 0 ∧ ∃ k a, r.ex = .pair ⟨k, some ⟨some a, .av none⟩⟩

/-! ## What holds -/

theorem pair_none (r : ABTV) : r.string = none ↔ ∃ k a, r = ⟨k, some ⟨some a, .av none⟩⟩ := by
  rcases r with ⟨k, _ | ⟨_ | a, _ | b | _ | s⟩⟩ <;> simp [ABTV.string, Cell.string, slotString]
  · split <;> simp
  · split <;> simp

/-- **C123** for one rule: printing it crashes exactly if it is complete and has a pair with an attribute
and a value without text. -/
theorem C123_rule (r : BRule) : r.crashes = true ↔ NoText r := by
  unfold BRule.crashes NoText BRule.valid BRule.isZero BRule.condOk BExpr.crashes
  rcases r with ⟨⟨i, kw, op⟩, ex, o, s, p⟩
  cases ex <;> simp
  rename_i a
  rw [pair_none]
  simp only [BExpr.isNil]
  constructor
  · rintro ⟨⟨h1, ⟨h2, h3⟩, -⟩, h⟩
    exact ⟨h1, h2, h3, h⟩
  · rintro ⟨h1, h2, h3, h⟩
    exact ⟨⟨h1, ⟨h2, h3⟩, trivial⟩, h⟩

/-- **C123**: printing a rule or a nest of rules crashes exactly if one of the rules does. -/
theorem C123_context (c : BCtx) : c.crashes = true ↔ ∃ r ∈ c.leaves, NoText r := by
  rw [crashes_iff]
  exact exists_congr fun r => and_congr_right fun _ => C123_rule r

/-- No rule of the context lacks a text. -/
def Printable (c : BCtx) : Prop := ∀ r ∈ c.leaves, ¬ NoText r

theorem printable_of {env : Env} {text : BCtx → Str} {t : PTree} {c : BCtx}
    (h : convert env text t = .ok (c, true)) : Printable c := fun r hr hn => by
  have := Crash.convert_printed h r hr
  rw [(C123_rule r).2 hn] at this
  cases this

/-- **C123** for bind rules that are read: they can be printed. -/
theorem C123_read (env : Env) (text : BCtx → Str) (t : PTree) (c : BCtx)
    (h : parseBindRules env text t = .ok c) : Printable c ∧ c.crashes = false := by
  have : Printable c := by
    unfold parseBindRules at h
    split at h
    · cases h
    · cases h
    · next c' b hc =>
      cases b with
      | false => cases h
      | true => cases h; exact printable_of hc
  refine ⟨this, ?_⟩
  rw [Bool.eq_false_iff, ne_eq, C123_context]
  rintro ⟨r, hr, h⟩
  exact this r hr h

/-- **C123** for permission bind rules that are read: their bind rules can be printed. -/
theorem C123_permission_bind (w : World) (t : PB.Tokens) (s : Store) (h : PB.process w t = .ok s) :
    ∃ b, s.b = some b ∧ Printable b := by
  unfold PB.process withBind at h
  split at h
  · cases h
  · split at h
    · cases h
    · cases h
    · next b ok hc =>
      cases ok with
      | false => cases h
      | true =>
        cases h
        exact ⟨b, rfl, printable_of hc⟩

theorem push_keeps {w : World} {rd : Str → Option Store} {Q : PBRule → Prop} {es : List PBRule} {x : PBRule}
    (h : ∀ e ∈ es, Q e) (hx : Q x) : ∀ e ∈ PB.push w rd es [.rule x], Q e := by
  have hp : PB.push w rd es [.rule x] = stackPush true (accept w rd) es [.rule x] := rfl
  rw [hp]
  simp only [stackPush]
  split
  · next e he =>
    have : e = x := by
      simp only [accept, acceptType] at he
      split at he
      · cases he
      · split at he
        · cases he; rfl
        · cases he
    subst this
    intro y hy
    rcases List.mem_append.1 hy with hy | hy
    · exact h y hy
    · rw [List.mem_singleton.1 hy]; exact hx
  · exact h

theorem loop_keeps {w : World} {rd : Str → Option Store} {Q : PBRule → Prop}
    (hq : ∀ t s, PB.process w t = .ok s → Q (some s)) : ∀ (ts : List (Option PB.Tokens)) (es : List PBRule)
    (res : List PBRule × Bool), (∀ e ∈ es, Q e) → PB.processLoop w rd es ts = .ok res → ∀ e ∈ res.1, Q e
  | [], es, res, h, hl => by cases hl; exact h
  | none :: ts, es, res, h, hl => loop_keeps hq ts es res h hl
  | some t :: ts, es, res, h, hl => by
    rw [processLoop] at hl
    cases ht : PB.process w t with
    | panic => rw [ht] at hl; cases hl
    | err => rw [ht] at hl; cases hl; exact h
    | ok s =>
      rw [ht] at hl
      exact loop_keeps hq ts _ res (push_keeps h (hq t s ht)) hl

/-- **C123** for instructions that are read: the bind rules of all their permission bind rules can be
printed. -/
theorem C123_instruction (w : World) (rd : Str → Option Store) (t : Ins.Tokens) (i : Ins.Instruction)
    (h : Ins.parse w rd t = .ok i) : ∃ body, i = some body ∧
      ∀ x ∈ body.pbrs, ∃ s b, x = some s ∧ s.b = some b ∧ Printable b := by
  unfold Ins.parse Ins.assemble at h
  split at h
  · cases h
  · cases h
  · next p ok hp =>
    cases h
    refine ⟨_, rfl, ?_⟩
    have hq : ∀ t s, PB.process w t = .ok s → ∃ s' b, (some s : PBRule) = some s' ∧ s'.b = some b ∧ Printable b :=
      fun t s h => let ⟨b, h1, h2⟩ := C123_permission_bind w t s h; ⟨s, b, rfl, h1, h2⟩
    have h1 := loop_keeps (rd := rd) (Q := fun x => ∃ s b, x = some s ∧ s.b = some b ∧ Printable b) hq t.rules [] (p, ok) (by simp) hp
    have label : ∀ (b : Ins.Body) (x : Str), (Ins.setLabel b x).pbrs = b.pbrs := by
      intro b x
      unfold Ins.setLabel
      split <;> rfl
    simp only [Ins.setBody, List.foldl, Ins.assert1, label, Option.getD_none, Ins.newACI]
    have fold : ∀ (xs es : List PBRule), (∀ x ∈ xs, ∃ s b, x = some s ∧ s.b = some b ∧ Printable b) →
        (∀ x ∈ es, ∃ s b, x = some s ∧ s.b = some b ∧ Printable b) →
        ∀ x ∈ xs.foldl (fun es x => PB.push w rd es [.rule x]) es,
          ∃ s b, x = some s ∧ s.b = some b ∧ Printable b := by
      intro xs
      induction xs with
      | nil => intro es _ h; exact h
      | cons x xs ih =>
        intro es hx he
        exact ih _ (fun y hy => hx y (by simp [hy])) (push_keeps he (hx x (by simp)))
    exact fold p [] h1 (by simp)

/-- **C123** for the rule made from a pair: with an operator it prints unless the pair has an attribute
and a value without text.  Missing: these pairs. -/
theorem C123_made_partial (op : Cop) (a : ABTV) (h : ∀ k x, a ≠ ⟨k, some ⟨some x, .av none⟩⟩) :
    (Builders.pairCond op a).crashes = false := by
  rw [Bool.eq_false_iff, ne_eq, C123_rule]
  rintro ⟨hi, hk, ho, k, x, hx⟩
  unfold Builders.pairCond at hx
  split at hx
  · cases hx
  · simp only [BR] at hx
    injection hx with hx
    exact h k x hx

/-- The pair `cn` with an empty value. -/
def emptyPair (k : BKw) : ABTV := ⟨bkwConst k, some ⟨some (some b!"cn"), .av none⟩⟩

/-- **C123** fails: the rule `userattr = "cn#"` made by the method `Eq` of its pair crashes when it is
printed, and so do stacks that hold it. -/
theorem C123_counterexample : ¬ MadePrint := fun h => by
  have := h.1 Eq' (emptyPair .userattr)
  exact absurd this (by decide +kernel)

example : ¬ MadePrint := fun h => by
  have := h.2 (.rules .and false [.rule (rawRule b!"ssf" Ge' b!"71"),
    .rules .not true [.rule (Builders.pairCond Ne' (emptyPair .groupattr))]])
  exact absurd this (by decide +kernel)

/-- A pair with a value prints. -/
example : (Builders.pairCond Eq' ⟨BindUAT, some ⟨some (some b!"cn"), .av (some b!"x")⟩⟩).crashes = false :=
  C123_made_partial _ _ (by simp)

/-- The rules `ssf >= "71"` are read, so that they can be printed. -/
example : ∃ c, parseBindRules plainEnv plainPrinter.text nestedTree = .ok c ∧ Printable c := by
  obtain ⟨h1, h2, h3⟩ := nested_known
  have h3' := fun r hr => (good_iff plain_proper r).1 (h3 r hr)
  obtain ⟨c, hc⟩ := C46_succeeds _ plainEnv plain_proper plainPrinter _ _ _ h1 h2 h3'
  exact ⟨c, hc, (C123_read _ _ _ c hc).1⟩

end Verif.BindPrints
