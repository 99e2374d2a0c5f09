import Verif.Model.CompareRules
import Verif.Props.Compare
import Verif.Props.InsForce
import Verif.Props.RulesForce

/-!
# What rules that compare as equal have in common (C149)

`Compare` tells whether two rules have the same digest; the digest is that of the text.
-/

namespace Verif.Alike
open Verif Verif.Spec Verif.Bind Verif.PB Verif.Decide Verif.Whole Verif.OneWay Verif.Applies Verif.Compare Verif.Misc

/-- **C149**, the full claim for permission bind rules: valid rules that compare as equal allow and deny the same. -/
def RulesAlike : Prop :=
  ∀ (w : World) (val : BExpr → List Str) (many : Bool → List Str → Str), Prints w val many →
    ∀ sha, NoCollisions sha → ∀ r x : PBRule, PB.valid r = true → PB.valid x = true →
      permissionBindRule w sha r x = true → ∀ neg (v : Str × Cop × List Str → Bool) allow q,
        Gives neg (fun r => v (r.asks val)) allow q [r] ↔ Gives neg (fun r => v (r.asks val)) allow q [x]

/-- **C149**, the full claim for bind rules: those that compare as equal hold under the same circumstances. -/
def ContextsAlike : Prop :=
  ∀ (w : World) (val : BExpr → List Str) (many : Bool → List Str → Str), Prints w val many →
    ∀ sha, NoCollisions sha → ∀ r x : BCtx, r.Sound → x.Sound → bindContext w sha r x = true → SameMeaning val r x

/-- **C149**, the full claim for target rules. -/
def TargetsAlike : Prop :=
  ∀ sha, NoCollisions sha → ∀ r x : List Rules.TRule, (∀ t ∈ r, t.valid = true) → (∀ t ∈ x, t.valid = true) →
    targetRules sha r x = true → ∀ u : _ → Prop,
      Apply (fun t => u (InsForce.aboutT t)) r ↔ Apply (fun t => u (InsForce.aboutT t)) x

/-! ## What `Compare` compares -/

theorem text_of {sha : Str → Str} (h : NoCollisions sha) {z z' : Bool} {t t' : Str}
    (e : compareHashInstance sha (seen z t) (seen z' t') = true) : t = t' := by
  obtain ⟨s, h1, h2⟩ := (C56_exact sha h _ _).1 e
  have key : ∀ (z : Bool) (t : Str), usableText (seen z t) = some s → t = s := by
    intro z t hz
    cases z
    · simp only [seen, usableText, Bool.false_eq_true, if_false] at hz
      split at hz
      · cases hz
      · cases hz; rfl
    · simp [seen, usableText] at hz
  rw [key z t h1, key z' t' h2]

theorem seen_self (sha : Str → Str) {t : Str} (ht : t ≠ []) : compareHashInstance sha (seen false t) (seen false t) = true := by
  have : t.length ≠ 0 := fun h => ht (List.length_eq_zero_iff.1 h)
  simp [compareHashInstance, seen, hashInstance, ht]

/-- **C149**, the other direction: rules and lists with the same text, that is not empty, compare as equal, whatever the digest. -/
theorem C149_same_text (w : World) (sha : Str → Str) :
    (∀ r x : Store, PB.string w (some r) = PB.string w (some x) → PB.string w (some r) ≠ [] →
      permissionBindRule w sha (some r) (some x) = true) ∧
    (∀ l m : List PBRule, PB.listString w l = PB.listString w m → PB.listString w l ≠ [] →
      permissionBindRules w sha l m = true) ∧
    (∀ r x : Rules.TRule, r.isZero = false → x.isZero = false → r.string = x.string → targetRule sha r x = true) ∧
    (∀ r x : BCtx, zeroCtx r = false → zeroCtx x = false → w.text r = w.text x → w.text r ≠ [] →
      bindContext w sha r x = true) := by
  refine ⟨fun r x e h => ?_, fun l m e h => ?_, fun r x hr hx e => ?_, fun r x hr hx e h => ?_⟩
  · simp only [permissionBindRule, Option.isNone_some, ← e]; exact seen_self sha h
  · simp only [permissionBindRules, ← e]; exact seen_self sha h
  · simp only [targetRule, hr, hx, ← e]
    refine seen_self sha ?_
    simp [Rules.TRule.string, hr]
  · simp only [bindContext, hr, hx, ← e]; exact seen_self sha h

/-! ## What holds -/

/-- **C149** for lists of permission bind rules whose text shows how their parts belong together (C75), without quotation marks in
their values.  Missing: other rules. -/
theorem C149_lists_partial (w : World) (val : BExpr → List Str) (many : Bool → List Str → Str) (hw : Prints w val many)
    (sha : Str → Str) (hs : NoCollisions sha) (l m : List PBRule)
    (hl : ∀ r ∈ l, ∃ p b, r = some ⟨p, some b⟩ ∧ RuleShown val p b)
    (hm : ∀ r ∈ m, ∃ p b, r = some ⟨p, some b⟩ ∧ RuleShown val p b) (h : permissionBindRules w sha l m = true)
    (neg : List Bool → Bool) (v : Str × Cop × List Str → Bool) (q : Priv) :
    (∀ allow, Gives neg (fun r => v (r.asks val)) allow q l ↔ Gives neg (fun r => v (r.asks val)) allow q m) ∧
    (Permits neg (fun r => v (r.asks val)) q l ↔ Permits neg (fun r => v (r.asks val)) q m) := by
  have e : PB.listString w l = PB.listString w m := text_of hs h
  have ha : Clean val ⟨[], [], l⟩ := ⟨by simp, by simp, hl⟩
  have hb : Clean val ⟨[], [], m⟩ := ⟨by simp, by simp, hm⟩
  have hi : Ins.string w (some ⟨[], [], l⟩) = Ins.string w (some ⟨[], [], m⟩) := by simp only [Ins.string, e]
  have key : ∀ allow, Gives neg (fun r => v (r.asks val)) allow q l ↔ Gives neg (fun r => v (r.asks val)) allow q m :=
    fun allow => ⟨
      fun hg => (InsForce.gives_alike hw hb ha hi.symm (u := fun _ => True) ⟨fun _ _ => trivial, hg⟩).2,
      fun hg => (InsForce.gives_alike hw ha hb hi (u := fun _ => True) ⟨fun _ _ => trivial, hg⟩).2⟩
  exact ⟨key, by rw [Permits, Permits, key true, key false]⟩

/-- **C149** for such permission bind rules.  Missing: other rules. -/
theorem C149_rules_partial (w : World) (val : BExpr → List Str) (many : Bool → List Str → Str) (hw : Prints w val many)
    (sha : Str → Str) (hs : NoCollisions sha) (p p' : Rights.Permission) (b b' : BCtx) (hr : RuleShown val p b)
    (hx : RuleShown val p' b') (h : permissionBindRule w sha (some ⟨p, some b⟩) (some ⟨p', some b'⟩) = true) :
    SameRule w.S val (some ⟨p, some b⟩) (some ⟨p', some b'⟩) :=
  (rule_ends hw hr hx [] [] (by rw [text_of hs h])).1

/-- **C149** for such bind rules and stacks of them.  Missing: other bind rules. -/
theorem C149_contexts_partial (w : World) (val : BExpr → List Str) (many : Bool → List Str → Str) (hw : Prints w val many)
    (sha : Str → Str) (hs : NoCollisions sha) (b b' : BCtx) (hr : b.Sound ∧ b.Clear ∧ ∀ r ∈ b.leaves, Bind.Shown val r)
    (hx : b'.Sound ∧ b'.Clear ∧ ∀ r ∈ b'.leaves, Bind.Shown val r) (h : bindContext w sha b b' = true) :
    SameMeaning val b b' := by
  have hp : Rights.valid (some ⟨true, 1#16⟩) = true := by decide +kernel
  have hq : Rights.WithinTen (some ⟨true, 1#16⟩) := by simp [Rights.WithinTen]
  obtain ⟨p, c, p', c', e1, e2, -, -, hm⟩ := (rule_ends hw (p := some ⟨true, 1#16⟩) (p' := some ⟨true, 1#16⟩)
    ⟨⟨hp, hq⟩, hr.1, hr.2.1, hr.2.2⟩ ⟨⟨hp, hq⟩, hx.1, hx.2.1, hx.2.2⟩ [] []
    (by rw [rule_text w b hp, rule_text w b' hp, text_of hs h])).1
  simp only [Option.some.injEq, Store.mk.injEq] at e1 e2
  rw [e1.2, e2.2]; exact hm

/-- **C149** for target rules without quotation marks in their values.  Missing: other target rules. -/
theorem C149_targets_partial (sha : Str → Str) (hs : NoCollisions sha) (l m : List Rules.TRule)
    (hl : ∀ r ∈ l, TargetShown r) (hm : ∀ r ∈ m, TargetShown r) (h : targetRules sha l m = true) (u : _ → Prop) :
    Apply (fun t => u (InsForce.aboutT t)) l ↔ Apply (fun t => u (InsForce.aboutT t)) m := by
  have e : Rules.TRs.string l = Rules.TRs.string m := text_of hs h
  have ha := (targets_ends l m b!"v" b!"v" hl hm (by rw [e])).1
  have key : ∀ {l m : List Rules.TRule}, Along SameTarget l m → Apply (fun t => u (InsForce.aboutT t)) m →
      Apply (fun t => u (InsForce.aboutT t)) l := by
    intro l m ha hm r hr
    obtain ⟨r', hm', e1, e2, e3⟩ := InsForce.along_left ha r hr
    have := hm r' hm'
    simp only [InsForce.aboutT] at this ⊢
    rw [e1, e2, e3]; exact this
  have hb := (targets_ends m l b!"v" b!"v" hm hl (by rw [e])).1
  exact ⟨key hb, key ha⟩

/-- **C149** for instructions, which have no `Compare` method, by `Hash` (/repo/misc.go:246-248): those whose text shows what they
mean and that have the same digest allow and deny the same where they apply.  Missing: other instructions. -/
theorem C149_hash_partial (w : World) (val : BExpr → List Str) (many : Bool → List Str → Str) (hw : Prints w val many)
    (sha : Str → Str) (hs : NoCollisions sha) (a b : Ins.Body) (ha : Clean val a) (hb : Clean val b) (d : Str)
    (h1 : hashInstance sha (seen false (Ins.string w (some a))) = .ok d)
    (h2 : hashInstance sha (seen false (Ins.string w (some b))) = .ok d)
    (neg : List Bool → Bool) (v : Str × Cop × List Str → Bool) (u : _ → Prop) (q : Priv) :
    (∀ allow, AnyGives neg (fun r => v (r.asks val)) (fun r => u (InsForce.aboutT r)) allow q [some a] ↔
      AnyGives neg (fun r => v (r.asks val)) (fun r => u (InsForce.aboutT r)) allow q [some b]) ∧
    (AllPermit neg (fun r => v (r.asks val)) (fun r => u (InsForce.aboutT r)) q [some a] ↔
      AllPermit neg (fun r => v (r.asks val)) (fun r => u (InsForce.aboutT r)) q [some b]) := by
  have e : Ins.string w (some a) = Ins.string w (some b) :=
    text_of (z := false) (z' := false) hs (by simp [compareHashInstance, h1, h2])
  have one : ∀ {a b : Ins.Body}, Clean val a → Clean val b → Ins.string w (some a) = Ins.string w (some b) → ∀ allow,
      AnyGives neg (fun r => v (r.asks val)) (fun r => u (InsForce.aboutT r)) allow q [some b] →
      AnyGives neg (fun r => v (r.asks val)) (fun r => u (InsForce.aboutT r)) allow q [some a] := by
    rintro a b ha hb e allow ⟨i, hi, h⟩
    rw [List.mem_singleton.1 hi] at h
    exact ⟨some a, List.mem_singleton.2 rfl, InsForce.gives_alike hw ha hb e h⟩
  have key : ∀ allow, AnyGives neg (fun r => v (r.asks val)) (fun r => u (InsForce.aboutT r)) allow q [some a] ↔
      AnyGives neg (fun r => v (r.asks val)) (fun r => u (InsForce.aboutT r)) allow q [some b] :=
    fun allow => ⟨one hb ha e.symm allow, one ha hb e allow⟩
  exact ⟨key, by rw [AllPermit, AllPermit, key true, key false]⟩

/-! ## What fails -/

/-- **C149** fails: `And(a, Or(b, c))` and `Or(And(a, b), c)` print alike and compare as equal, and so do denials with them, which
where `c` holds alone deny different things; and one target rule whose value has quotation marks compares as equal to two. -/
theorem C149_counterexample : ¬ RulesAlike ∧ ¬ ContextsAlike ∧ ¬ TargetsAlike := by
  have hid : NoCollisions id := fun _ _ h => h
  refine ⟨fun h => ?_, fun h => ?_, fun h => ?_⟩
  · have := (h textWorld textVal (fun _ _ => []) textWorld_prints id hid InForce.denyFirst InForce.denySecond
      (by decide +kernel) (by decide +kernel) (by decide +kernel) (fun _ => false) InForce.onlyDNS false .read).2
      ⟨_, _, List.mem_cons_self, rfl, by decide +kernel, by decide +kernel⟩
    obtain ⟨c, b, hm, -, -, he⟩ := this
    simp only [List.mem_singleton, InForce.denyFirst, Option.some.injEq, Store.mk.injEq] at hm
    obtain ⟨rfl, rfl⟩ := hm
    revert he; decide +kernel
  · have := h textWorld textVal (fun _ _ => []) textWorld_prints id hid
      (.rules .and false [.rule (textRule BindSSF b!"1"),
        .rules .or false [.rule (textRule BindIP b!"1"), .rule (textRule BindDNS b!"1")]])
      (.rules .or false [.rules .and false [.rule (textRule BindSSF b!"1"), .rule (textRule BindIP b!"1")],
        .rule (textRule BindDNS b!"1")]) (by simp only [BCtx.Sound, BCtx.AllSound]; decide +kernel) (by simp only [BCtx.Sound, BCtx.AllSound]; decide +kernel)
       (by decide +kernel) (fun _ => false) InForce.onlyDNS
    revert this; decide +kernel
  · have := h id hid [forgedTarget] honestTargets (by decide +kernel) (by decide +kernel) (by decide +kernel)
      (fun a => a.1 = b!"target")
    have := this.1 (fun t ht => by rw [List.mem_singleton.1 ht]; decide +kernel) _
      (List.mem_cons_of_mem _ List.mem_cons_self)
    revert this; decide +kernel

/-! ## Cases that meet the hypotheses -/

example : (∀ r ∈ [readRule, writeRule], ∃ p b, r = some ⟨p, some b⟩ ∧ RuleShown textVal p b) ∧
    permissionBindRules textWorld id [readRule, writeRule] [readRule, writeRule] = true ∧
    permissionBindRules textWorld id [readRule, writeRule] [writeRule, readRule] = false := by
  refine ⟨fun r hr => ?_, by decide +kernel, by decide +kernel⟩
  have hs : ∀ n : BitVec 16, Rights.valid (some ⟨true, n⟩) = true → Rights.WithinTen (some ⟨true, n⟩) →
      RuleShown textVal (some ⟨true, n⟩) (.rule (textRule BindSSF b!"1")) := fun n h1 h2 =>
    ⟨⟨h1, h2⟩, (by decide +kernel : (textRule BindSSF b!"1").valid = true), by simp [BCtx.Clear], fun r hr => by
      simp only [BCtx.leaves, List.mem_singleton] at hr
      subst hr
      exact textRule_shown .ssf b!"1" (by decide)⟩
  simp only [List.mem_cons, List.not_mem_nil, or_false] at hr
  rcases hr with rfl | rfl
  · exact ⟨_, _, rfl, hs 1#16 (by decide +kernel) (by simp [Rights.WithinTen])⟩
  · exact ⟨_, _, rfl, hs 2#16 (by decide +kernel) (by simp [Rights.WithinTen])⟩

example : bindContext textWorld id (.rule (textRule BindSSF b!"1")) (.rule (textRule BindSSF b!"1")) = true ∧
    bindContext textWorld id (.rule (textRule BindSSF b!"1")) (.rule (textRule BindSSF b!"2")) = false := by decide +kernel

example : (∀ r ∈ honestTargets, TargetShown r) ∧ targetRules id honestTargets honestTargets = true := by
  refine ⟨fun r hr => ?_, by decide +kernel⟩
  simp only [honestTargets, List.mem_cons, List.not_mem_nil, or_false] at hr
  rcases hr with rfl | rfl
  all_goals exact ⟨by decide +kernel, by decide +kernel, by decide +kernel, by decide +kernel, by decide +kernel, by decide +kernel⟩

example : (∀ i ∈ InsForce.clear, ∃ d, hashInstance id (seen false (Ins.string textWorld (some i))) = .ok d) := by
  intro i hi
  refine ⟨Ins.string textWorld (some i), ?_⟩
  simp only [InsForce.clear, List.mem_cons, List.not_mem_nil, or_false] at hi
  rcases hi with rfl | rfl | rfl <;> rfl

end Verif.Alike
