import Verif.Props.Ins
import Verif.Props.BindValues

/-!
# C110: reading rules does not crash

A Go panic while a bind rule is read is `Outcome.panic`.
-/

namespace Verif.Crash
open Verif Verif.Spec Verif.Bind Verif.Levels Verif.PB

/-- The condition is an attribute whose value is the levels of an inheritance and nothing behind
them: `parent[`, a text without `]`, and `]`. -/
def LoneLevels (r : BRule) : Prop :=
  ∃ k style v lv, demandsB k = .attribute ∧ RawBind r k style [v] ∧
    Inside v (b!"parent[" ++ lv ++ b!"]") ∧ (93 : Byte) ∉ lv

/-- The full claim of C110: whatever bind rules, permission bind rules and instructions the
parser found, reading them does not crash. -/
def NoCrash : Prop :=
  (∀ env text t, parseBindRules env text t ≠ .panic) ∧ (∀ w t, PB.process w t ≠ .panic) ∧
    ∀ w rd t, Ins.parse w rd t ≠ .panic

theorem map_panic {α β : Type} {f : α → β} {o : Outcome α} : o.map f = .panic ↔ o = .panic := by
  cases o <;> simp [Outcome.map]

theorem ofExcept_panic {α : Type} {o : Except Unit α} : Outcome.ofExcept o = .panic ↔ False := by
  cases o <;> simp [Outcome.ofExcept]

theorem attr_panic {U : Type} (uri : Str → BindKeyword → Except Unit U) (vs : List Str) (k : BindKeyword) :
    assertBindUGAttr uri vs k = .panic ↔
      ∃ v lv, vs = [v] ∧ Inside v (b!"parent[" ++ lv ++ b!"]") ∧ (93 : Byte) ∉ lv := by
  match vs with
  | [] => simp [assertBindUGAttr]
  | _ :: _ :: _ => simp [assertBindUGAttr]
  | [v] =>
    simp only [assertBindUGAttr, List.cons.injEq, and_true, exists_and_left, exists_eq_left', inside_iff]
    generalize Misc.unquote (Misc.condenseWHSP v) = t
    split
    · rename_i h
      rw [map_panic, ofExcept_panic]
      simp only [false_iff, not_exists, not_and]
      rintro lv rfl
      exact absurd h (by simp [Str.hasPrefix, LocalScheme])
    · split
      · rename_i h
        rw [map_panic, C08_panics_partial]
        constructor
        · rintro ⟨pre, lv, rfl, hp, hl⟩
          refine ⟨lv, ?_, hl⟩
          have hlen : pre.length = 7 := by
            have := congrArg List.length hp
            simpa using this
          have hpre : b!"parent[" <+: pre ++ lv ++ b!"]" := by
            obtain ⟨x, hx⟩ := Str.hasPrefix_iff.1 h
            exact ⟨x, hx.symm⟩
          rw [List.append_assoc] at hpre
          have := List.prefix_of_prefix_length_le hpre (List.prefix_append pre _) (by simp [hlen])
          rw [this.eq_of_length (by simp [hlen])]
        · rintro ⟨lv, rfl, hl⟩
          exact ⟨_, lv, rfl, by simp [AnyCase], hl⟩
      · rename_i h
        rw [map_panic, ofExcept_panic]
        simp only [false_iff, not_exists, not_and]
        rintro lv rfl
        exact absurd h (by simp [Str.hasPrefix])

theorem readBind_panic {env : Env} {k : BindKeyword} {vs : List Str} (h : readBind env k vs = .panic) :
    (k = BindUAT ∨ k = BindGAT) ∧
      assertBindUGAttr (fun x k => Uri.parseLDAPURI env.eq x [k]) vs k = .panic := by
  unfold readBind at h
  repeat
    split at h
    · first
      | exact absurd (map_panic.1 h) (by simp [ofExcept_panic])
      | exact ⟨by assumption, map_panic.1 h⟩
  cases h

/-- **C110** for one condition: reading it crashes exactly if its value is lone levels.  Missing:
these values. -/
theorem C110_condition_partial (env : Env) (r : BRule) : r.assertValue env = .panic ↔ LoneLevels r := by
  have again : matchBKW (BindKeyword.string r.keyword) = matchBKW r.core.kw := by
    rw [BRule.keyword, matchBKW_again]
  constructor
  · intro h
    unfold BRule.assertValue at h
    split at h
    · rename_i style vs hx
      obtain ⟨hk, h⟩ := readBind_panic (map_panic.1 h)
      obtain ⟨v, lv, rfl, hi, hl⟩ := (attr_panic _ _ _).1 h
      rw [again] at hk
      rcases hk with hk | hk
      · exact ⟨.userattr, style, v, lv, rfl, ⟨(matchBKW_iff _ .userattr).1 hk, hx⟩, hi, hl⟩
      · exact ⟨.groupattr, style, v, lv, rfl, ⟨(matchBKW_iff _ .groupattr).1 hk, hx⟩, hi, hl⟩
    · cases h
  · rintro ⟨k, style, v, lv, hd, ⟨hk, hx⟩, hi, hl⟩
    have hp := (attr_panic (fun x k => Uri.parseLDAPURI env.eq x [k]) [v] (bkwConst k)).2
      ⟨v, lv, rfl, hi, hl⟩
    have hm := again.trans ((matchBKW_iff _ k).2 hk)
    unfold BRule.assertValue
    rw [hx]
    simp only [hm]
    rw [map_panic]
    unfold readBind
    cases k <;> first | cases hd | skip
    all_goals
      simp only [bkwConst] at hp ⊢
      rw [if_neg (by decide), if_neg (by decide), if_neg (by decide), if_pos (by decide), hp]
      rfl

mutual

theorem convert_reads {env : Env} {text : BCtx → Str} : (t : PTree) → (c : BCtx) →
    convert env text t = .ok (c, true) →
    (∃ w, IsStackOf w c) ∧ ∀ x ∈ c.leaves, ∃ r ∈ t.conds, Reads env r x
  | .cond _, c, h => by simp [convert] at h
  | .other, c, h => by simp [convert] at h
  | .stack k p es, c, h => by
    rw [convert] at h
    cases hw : wordToStack k with
    | none => rw [hw] at h; cases h
    | some w =>
      rw [hw] at h
      obtain ⟨res, h1, rfl⟩ := finish_ok text h
      refine ⟨⟨w, res, rfl⟩, fun x hx => ?_⟩
      rw [uncloakRules_leaves] at hx
      rcases convertList_reads es [] res h1 x hx with h | h
      · simp [BCtx.leavesAll] at h
      · exact h

theorem convertList_reads {env : Env} {text : BCtx → Str} : (es : List PTree) → (acc res : List BCtx) →
    convertList env text acc es = .ok (some res) →
    ∀ x ∈ BCtx.leavesAll res, x ∈ BCtx.leavesAll acc ∨ ∃ r ∈ PTree.condsAll es, Reads env r x
  | [], acc, res, h, x, hx => by
    rw [convertList] at h
    cases h
    exact .inl hx
  | .other :: es, acc, res, h, x, hx => by
    rw [convertList] at h
    rcases convertList_reads es acc res h x hx with h | ⟨r, hr, h⟩
    · exact .inl h
    · exact .inr ⟨r, by simp [PTree.condsAll, hr], h⟩
  | .cond q :: es, acc, res, h, x, hx => by
    rw [convertList] at h
    cases hq : q.assertValue env with
    | panic => rw [hq] at h; cases h
    | err => rw [hq] at h; cases h; exact .inl hx
    | ok q' =>
      rw [hq] at h
      have hu : Usable (.rule q') := by
        have := reads_known (env := env) (r := q) (r' := q') hq
        simp only [Usable, this.1]; exact this.2.2.1
      simp only [push_usable true acc hu] at h
      rcases convertList_reads es _ res h x hx with h | ⟨r, hr, h⟩
      · rw [leavesAll_append] at h
        rcases List.mem_append.1 h with h | h
        · exact .inl h
        · simp only [BCtx.leavesAll, BCtx.leaves, List.append_nil, List.mem_singleton] at h
          subst h
          exact .inr ⟨q, by simp [PTree.condsAll, PTree.conds], hq⟩
      · exact .inr ⟨r, by simp [PTree.condsAll, hr], h⟩
  | .stack k p sub :: es, acc, res, h, x, hx => by
    rw [convertList] at h
    cases hc : convert env text (.stack k p sub) with
    | panic => rw [hc] at h; cases h
    | err => rw [hc] at h; cases h
    | ok co =>
      obtain ⟨c, ok⟩ := co
      rw [hc] at h
      cases ok with
      | false => simp at h
      | true =>
        obtain ⟨⟨w, hs⟩, hl⟩ := convert_reads (.stack k p sub) c hc
        obtain ⟨-, q2, q3⟩ := setParen_eval (fun _ => true) (fun _ => true) p hs
        simp only [if_true, push_usable true acc q3] at h
        rcases convertList_reads es _ res h x hx with h | ⟨r, hr, h⟩
        · rw [leavesAll_append] at h
          rcases List.mem_append.1 h with h | h
          · exact .inl h
          · simp only [BCtx.leavesAll, List.append_nil, q2] at h
            obtain ⟨r, hr, h⟩ := hl x h
            exact .inr ⟨r, by simp only [PTree.condsAll]; exact List.mem_append_left _ hr, h⟩
        · exact .inr ⟨r, by simp [PTree.condsAll, hr], h⟩

end

/-- The condition is complete, and its value is the name of an attribute and a mark with nothing
behind it. -/
def Unprintable (r : BRule) : Prop := BareMark r ∧ r.core.init = true ∧ r.core.op ≠ 0

theorem unprintable_of {F : EqualFold} {env : Env} (hP : Proper env F) {r r' : BRule}
    (h : Reads env r r') (hc : r'.crashes = true) : Unprintable r := by
  have hv : r'.valid = true := by
    unfold BRule.crashes at hc
    rw [Bool.and_eq_true] at hc
    exact hc.1
  have hcore := (reads_known h).1
  have hio : r.core.init = true ∧ r.core.op ≠ 0 := by
    rw [← hcore]
    simp only [BRule.valid, BRule.isZero, BRule.condOk] at hv
    simp at hv
    exact ⟨hv.1, hv.2.1.2⟩
  refine ⟨Classical.byContradiction fun hn => ?_, hio⟩
  have hg := (good_iff hP r).2 ⟨readAsB_readable (reads_as hP h), hio.1, hio.2, hn⟩
  obtain ⟨a, ha, hs⟩ := crashes_pair hc
  exact hg.2.2.2 r' a h ha hs

theorem unprintable_crashes {F : EqualFold} {env : Env} (hP : Proper env F) {r r' : BRule}
    (h : Reads env r r') (hu : Unprintable r) : r'.crashes = true := by
  have hr := readable_of h
  have hn : ¬ Good env r := fun hg => ((good_iff hP r).1 hg).2.2.2 hu.1
  have : ∃ r2 a, Reads env r r2 ∧ r2.ex = .pair a ∧ a.string = none := by
    refine Classical.byContradiction fun hx => hn ⟨hr, hu.2.1, hu.2.2, fun r2 a h1 h2 h3 => hx ⟨r2, a, h1, h2, h3⟩⟩
  obtain ⟨r2, a, h1, h2, h3⟩ := this
  have e : r2 = r' := by
    unfold Reads at h h1
    rw [h] at h1
    exact (Outcome.ok.inj h1).symm
  subst e
  simp [BRule.crashes, good_valid ⟨hr, hu.2⟩ h, BExpr.crashes, h2, h3]

mutual

theorem convert_panic {F : EqualFold} {env : Env} (hP : Proper env F) {text : BCtx → Str} : (t : PTree) →
    convert env text t = .panic → ∃ r ∈ t.conds, LoneLevels r ∨ Unprintable r
  | .cond r, h => by simp [convert] at h
  | .other, h => by simp [convert] at h
  | .stack k p es, h => by
    rw [convert] at h
    cases hw : wordToStack k with
    | none => rw [hw] at h; cases h
    | some w =>
      rw [hw] at h
      simp only at h
      rw [PTree.conds]
      cases hl : convertList env text [] es with
      | panic => exact convertList_panic hP es [] hl
      | err => rw [hl] at h; cases h
      | ok x =>
        rw [hl] at h
        cases x with
        | none => cases h
        | some res =>
          simp only [finish] at h
          split at h
          · next hc =>
            obtain ⟨x, hx, hxc⟩ := (anyCrashes_iff res).1 hc
            rcases convertList_reads es [] res hl x hx with h | ⟨r, hr, hrx⟩
            · simp [BCtx.leavesAll] at h
            · exact ⟨r, hr, .inr (unprintable_of hP hrx hxc)⟩
          · cases h

theorem convertList_panic {F : EqualFold} {env : Env} (hP : Proper env F) {text : BCtx → Str} :
    (es : List PTree) → (acc : List BCtx) → convertList env text acc es = .panic →
    ∃ r ∈ PTree.condsAll es, LoneLevels r ∨ Unprintable r
  | [], acc, h => by rw [convertList] at h; cases h
  | .other :: es, acc, h => by
    rw [convertList] at h
    obtain ⟨r, hr, hl⟩ := convertList_panic hP es acc h
    exact ⟨r, by simp [PTree.condsAll, hr], hl⟩
  | .cond r :: es, acc, h => by
    rw [convertList] at h
    cases ha : r.assertValue env with
    | panic => exact ⟨r, by simp [PTree.condsAll, PTree.conds], .inl ((C110_condition_partial env r).1 ha)⟩
    | err => rw [ha] at h; cases h
    | ok r' =>
      rw [ha] at h
      obtain ⟨r, hr, hl⟩ := convertList_panic hP es _ h
      exact ⟨r, by simp [PTree.condsAll, hr], hl⟩
  | .stack k p sub :: es, acc, h => by
    rw [convertList] at h
    cases hc : convert env text (.stack k p sub) with
    | panic =>
      obtain ⟨r, hr, hl⟩ := convert_panic hP _ hc
      exact ⟨r, by simp only [PTree.condsAll]; exact List.mem_append_left _ hr, hl⟩
    | err => rw [hc] at h; cases h
    | ok x =>
      obtain ⟨c, b⟩ := x
      rw [hc] at h
      simp only at h
      cases b with
      | false => cases h
      | true =>
        obtain ⟨r, hr, hl⟩ := convertList_panic hP es _ (by simpa using h)
        exact ⟨r, by simp [PTree.condsAll, hr], hl⟩

end

mutual

/-- A stack whose conditions can be read and are complete is read, or the reading crashes. -/
theorem convert_fine {env : Env} (P : Printer) : (k : Str) → (p : Bool) → (es : List PTree) →
    (PTree.stack k p es).Known → (PTree.stack k p es).Filled →
    (∀ r ∈ (PTree.stack k p es).conds, Fine env r) →
    (∃ c, convert env P.text (.stack k p es) = .ok (c, true)) ∨ convert env P.text (.stack k p es) = .panic
  | k, p, es, hk, hf, hg => by
    simp only [PTree.Known] at hk
    simp only [PTree.Filled] at hf
    simp only [PTree.conds] at hg
    cases hkw : kindOf k with
    | none => exact absurd hkw hk.1
    | some w =>
      simp only [convert, wordToStack_kind hkw]
      rcases convertList_fine P es [] hk.2 hf.2 hg with ⟨res, hres⟩ | h
      · obtain ⟨new, h1, -, h3⟩ := convertList_sound env P.text (fun _ => true) (fun _ => true) (fun _ => true)
          (fun _ _ _ => rfl) es [] res hk.2 hres
        simp only [List.nil_append] at h1
        subst h1
        rw [cuts_readable env es fun r hr => (hg r hr).1] at h3
        obtain ⟨r', hr', hv⟩ := good_leaf h3 (condsAll_ne es hk.2 hf.2 hf.1) hg
        have ht := text_ne P (.rules w false res) r' (by simpa only [BCtx.leaves] using hr') hv
        have : 0 < (P.text (.rules w false res)).length := List.length_pos_iff.2 ht
        simp only [hres, finish]
        split
        · exact .inr rfl
        · exact .inl ⟨uncloakRules (.rules w false res), by simp [this]⟩
      · rw [h]
        exact .inr rfl

theorem convertList_fine {env : Env} (P : Printer) : (es : List PTree) → (acc : List BCtx) →
    PTree.AllKnown es → PTree.AllFilled es → (∀ r ∈ PTree.condsAll es, Fine env r) →
    (∃ res, convertList env P.text acc es = .ok (some res)) ∨ convertList env P.text acc es = .panic
  | [], acc, _, _, _ => .inl ⟨acc, by simp only [convertList]⟩
  | .other :: es, acc, hk, _, _ => by simp [PTree.AllKnown, PTree.Known] at hk
  | .cond r :: es, acc, hk, hf, hg => by
    simp only [PTree.AllKnown] at hk
    simp only [PTree.AllFilled] at hf
    simp only [PTree.condsAll, PTree.conds, List.singleton_append, List.mem_cons, forall_eq_or_imp] at hg
    obtain ⟨r', hr⟩ := agree_readable hg.1.1
    unfold Reads at hr
    simp only [convertList, hr]
    exact convertList_fine P es _ hk.2 hf.2 hg.2
  | .stack k p sub :: es, acc, hk, hf, hg => by
    simp only [PTree.AllKnown] at hk
    simp only [PTree.AllFilled] at hf
    simp only [PTree.condsAll, List.mem_append] at hg
    rcases convert_fine P k p sub hk.1 hf.1 fun r hr => hg r (Or.inl hr) with ⟨c, hc⟩ | hc
    · simp only [convertList, hc, if_true]
      exact convertList_fine P es _ hk.2 hf.2 fun r hr => hg r (Or.inr hr)
    · exact .inr (by simp only [convertList, hc])

end

mutual

theorem convert_crash {env : Env} (P : Printer) : (k : Str) → (p : Bool) → (es : List PTree) →
    (us vs : List BRule) → (r : BRule) → (PTree.stack k p es).Known → (PTree.stack k p es).Filled →
    (PTree.stack k p es).conds = us ++ r :: vs → (∀ x ∈ us, Fine env x) → LoneLevels r →
    convert env P.text (.stack k p es) = .panic
  | k, p, es, us, vs, r, hk, hf, he, hg, hr => by
    simp only [PTree.Known] at hk
    simp only [PTree.Filled] at hf
    simp only [PTree.conds] at he
    cases hkw : kindOf k with
    | none => exact absurd hkw hk.1
    | some w =>
      simp only [convert, wordToStack_kind hkw, convertList_crash P es [] us vs r hk.2 hf.2 he hg hr, finish]

theorem convertList_crash {env : Env} (P : Printer) : (es : List PTree) → (acc : List BCtx) →
    (us vs : List BRule) → (r : BRule) → PTree.AllKnown es → PTree.AllFilled es →
    PTree.condsAll es = us ++ r :: vs → (∀ x ∈ us, Fine env x) → LoneLevels r →
    convertList env P.text acc es = .panic
  | [], acc, us, vs, r, _, _, he, _, _ => by simp [PTree.condsAll] at he
  | .other :: es, acc, us, vs, r, hk, _, _, _, _ => by simp [PTree.AllKnown, PTree.Known] at hk
  | .cond r0 :: es, acc, us, vs, r, hk, hf, he, hg, hr => by
    simp only [PTree.AllKnown] at hk
    simp only [PTree.AllFilled] at hf
    simp only [PTree.condsAll, PTree.conds, List.singleton_append] at he
    cases us with
    | nil =>
      simp only [List.nil_append, List.cons.injEq] at he
      rw [convertList, he.1, (C110_condition_partial env r).2 hr]
    | cons u us =>
      simp only [List.cons_append, List.cons.injEq] at he
      obtain ⟨r', h'⟩ := agree_readable (hg u (by simp)).1
      unfold Reads at h'
      rw [convertList, he.1, h']
      exact convertList_crash P es _ us vs r hk.2 hf.2 he.2 (fun x hx => hg x (by simp [hx])) hr
  | .stack k p sub :: es, acc, us, vs, r, hk, hf, he, hg, hr => by
    simp only [PTree.AllKnown] at hk
    simp only [PTree.AllFilled] at hf
    simp only [PTree.condsAll] at he
    have later : ∀ a, us = (PTree.stack k p sub).conds ++ a → PTree.condsAll es = a ++ r :: vs →
        convertList env P.text acc (.stack k p sub :: es) = .panic := by
      intro a h1 h2
      rcases convert_fine P k p sub hk.1 hf.1 fun x hx => hg x (by rw [h1]; simp [hx]) with ⟨c, hc⟩ | hc
      · rw [convertList, hc]
        exact convertList_crash P es _ a vs r hk.2 hf.2 h2 (fun x hx => hg x (by rw [h1]; simp [hx])) hr
      · rw [convertList, hc]
    rcases List.append_eq_append_iff.1 he with ⟨a, h1, h2⟩ | ⟨a, h1, h2⟩
    · exact later a h1 h2
    · cases a with
      | nil =>
        exact later [] (by simpa using h1.symm) (by simpa using h2.symm)
      | cons x a =>
        simp only [List.cons_append, List.cons.injEq] at h2
        rw [convertList, convert_crash P k p sub us a r hk.1 hf.1 (by rw [h1, h2.1]) hg hr]

end

/-- What is read can be printed. -/
theorem convert_printed {env : Env} {text : BCtx → Str} {t : PTree} {c : BCtx}
    (h : convert env text t = .ok (c, true)) : ∀ r ∈ c.leaves, r.crashes = false := by
  cases t with
  | cond r => simp [convert] at h
  | other => simp [convert] at h
  | stack k p es =>
    rw [convert] at h
    cases hw : wordToStack k with
    | none => rw [hw] at h; cases h
    | some w =>
      rw [hw] at h
      obtain ⟨es, he, -⟩ := finish_ok text h
      simp only [he, finish] at h
      · split at h
        · cases h
        · next hc =>
          simp only [Outcome.ok.injEq, Prod.mk.injEq] at h
          rw [← h.1, uncloakRules_leaves]
          intro r hr
          rw [anyCrashes_iff] at hc
          rw [Bool.eq_false_iff]
          exact fun h => hc ⟨r, hr, h⟩

theorem readsAll_mem' {env : Env} {rs rs' : List BRule} (h : ReadsAll env rs rs') :
    ∀ r ∈ rs, ∃ r' ∈ rs', Reads env r r' := by
  induction h with
  | nil => simp
  | @cons r r' _ _ h _ ih =>
    intro x hx
    rcases List.mem_cons.1 hx with rfl | hx
    · exact ⟨r', by simp, h⟩
    · obtain ⟨y, hy, h'⟩ := ih x hx
      exact ⟨y, by simp [hy], h'⟩

theorem parse_panic {env : Env} {text : BCtx → Str} {t : PTree} :
    parseBindRules env text t = .panic ↔ convert env text t = .panic := by
  unfold parseBindRules
  cases convert env text t with
  | panic => simp
  | err => simp
  | ok x => obtain ⟨c, b⟩ := x; cases b <;> simp

/-- Bind rules in a stack with known words and without empty stacks, where a condition is lone
levels and those before it can be read and are complete, or where all conditions can be read and are
complete, and the value of one of them is the name of an attribute and a mark. -/
def Crashes (F : EqualFold) (t : PTree) : Prop :=
  (∃ k p es, t = .stack k p es) ∧ t.Known ∧ t.Filled ∧
  ((∃ us r vs, t.conds = us ++ r :: vs ∧
      (∀ x ∈ us, ReadableB F x ∧ x.core.init = true ∧ x.core.op ≠ 0) ∧ LoneLevels r) ∨
    (∀ x ∈ t.conds, ReadableB F x ∧ x.core.init = true ∧ x.core.op ≠ 0) ∧ ∃ r ∈ t.conds, BareMark r)

theorem crashes_panic {F : EqualFold} {env : Env} (hP : Proper env F) (P : Printer) {t : PTree}
    (h : Crashes F t) : convert env P.text t = .panic := by
  obtain ⟨⟨k, p, es, rfl⟩, hk, hf, h⟩ := h
  have fine : ∀ {x}, ReadableB F x ∧ x.core.init = true ∧ x.core.op ≠ 0 → Fine env x :=
    fun {x} h => ⟨(readable_iff hP x).2 h.1, h.2⟩
  rcases h with ⟨us, r, vs, he, hg, hr⟩ | ⟨hg, r, hr, hb⟩
  · exact convert_crash P k p es us vs r hk hf he (fun x hx => fine (hg x hx)) hr
  · rcases convert_fine P k p es hk hf (fun x hx => fine (hg x hx)) with ⟨c, hc⟩ | hc
    · exfalso
      have hs := (convert_sound env P.text (fun _ => true) (fun _ => true) (fun _ => true)
        (fun _ _ _ => rfl) (.stack k p es) c hk hc).2.2
      rw [cut_readable env _ fun r hr => (fine (hg r hr)).1] at hs
      obtain ⟨r', hr', hrr⟩ := readsAll_mem' hs r hr
      have := convert_printed hc r' hr'
      rw [unprintable_crashes hP hrr ⟨hb, (hg r hr).2⟩] at this
      cases this
    · exact hc

/-- **C110** for bind rules: reading them crashes only if the value of a condition is lone levels, or
the name of an attribute and a mark, and it does if all other conditions can be read.  Missing: such
conditions. -/
theorem C110_bind_partial (F : EqualFold) (env : Env) (hP : Proper env F) (t : PTree) :
    (∀ text, parseBindRules env text t = .panic → ∃ r ∈ t.conds, LoneLevels r ∨ Unprintable r) ∧
    (Crashes F t → ∀ P : Printer, parseBindRules env P.text t = .panic) :=
  ⟨fun _ h => convert_panic hP t (parse_panic.1 h), fun h P => parse_panic.2 (crashes_panic hP P h)⟩

theorem process_panic {w : World} {t : PB.Tokens} :
    PB.process w t = .panic ↔ t.p.allow ≠ none ∧ convert w.env w.text t.b = .panic := by
  unfold PB.process
  rw [Rights.unpackage_eq]
  cases t.p.allow with
  | none => simp
  | some x =>
    simp only [ne_eq, reduceCtorEq, not_false_eq_true, true_and]
    cases convert w.env w.text t.b with
    | panic => simp [withBind]
    | err => simp [withBind]
    | ok y => obtain ⟨b, ok⟩ := y; cases ok <;> simp [withBind]

/-- **C110** for permission bind rules: reading one crashes only if it allows or denies and the value
of a condition is lone levels, or the name of an attribute and a mark, and it does if its bind rules
crash.  Missing: such conditions. -/
theorem C110_permission_bind_partial (F : EqualFold) (w : World) (P : Printer) (hP : Proper w.env F)
    (ht : w.text = P.text) (t : PB.Tokens) :
    (PB.process w t = .panic → t.p.allow ≠ none ∧ ∃ r ∈ t.b.conds, LoneLevels r ∨ Unprintable r) ∧
    (t.p.allow ≠ none → Crashes F t.b → PB.process w t = .panic) := by
  rw [process_panic]
  exact ⟨fun h => ⟨h.1, convert_panic hP _ h.2⟩, fun h h' => ⟨h, by rw [ht]; exact crashes_panic hP P h'⟩⟩

/-- **C110** for instructions: reading one crashes only in its permission bind rules, and it does if
the first of them that cannot be used crashes.  Missing: such rules. -/
theorem C110_instruction_partial (w : World) (F : EqualFold) (P : Printer) (hP : Proper w.env F)
    (ht : w.text = P.text) (rd : Str → Option Store) (t : Ins.Tokens) :
    (Ins.parse w rd t = .panic →
      ∃ x, some x ∈ t.rules ∧ x.p.allow ≠ none ∧ ∃ r ∈ x.b.conds, LoneLevels r ∨ Unprintable r) ∧
    ∀ us vs x, t.rules = us ++ some x :: vs → (∀ y, some y ∈ us → Legible F y) →
      x.p.allow ≠ none → Crashes F x.b → Ins.parse w rd t = .panic := by
  constructor
  · intro h
    have key : ∀ (ts : List (Option PB.Tokens)) (es : List PBRule), processLoop w rd es ts = .panic →
        ∃ x, some x ∈ ts ∧ PB.process w x = .panic := by
      intro ts
      induction ts with
      | nil => intro es h; cases h
      | cons y ts ih =>
        intro es h
        cases y with
        | none =>
          obtain ⟨x, hx, hp⟩ := ih es h
          exact ⟨x, by simp [hx], hp⟩
        | some y =>
          rw [processLoop] at h
          cases hy : PB.process w y with
          | panic => exact ⟨y, by simp, hy⟩
          | err => rw [hy] at h; cases h
          | ok r =>
            rw [hy] at h
            obtain ⟨x, hx, hp⟩ := ih _ h
            exact ⟨x, by simp [hx], hp⟩
    rw [Ins.parse] at h
    cases hl : processAll w rd t.rules with
    | err => rw [hl] at h; cases h
    | ok p => rw [hl] at h; cases h
    | panic =>
      obtain ⟨x, hx, hp⟩ := key _ _ hl
      exact ⟨x, hx, (process_panic.1 hp).1, convert_panic hP _ (process_panic.1 hp).2⟩
  · intro us vs x he hu ha hc
    have hx := (C110_permission_bind_partial F w P hP ht x).2 ha hc
    obtain ⟨rs, h1, -, -⟩ := Ins.says_all hP ht us hu
    have : ∀ (us : List (Option PB.Tokens)) (rs : List Store), Ins.ReadAll w us rs → ∀ es,
        processLoop w rd es (us ++ some x :: vs) = .panic := by
      intro us rs hra
      induction hra with
      | nil => intro es; simp only [List.nil_append, processLoop, hx]
      | skip _ ih => intro es; exact ih es
      | cons hr _ ih => intro es; simp only [List.cons_append, processLoop, hr]; exact ih _
    rw [Ins.parse, he, processAll, this us rs h1]
    rfl

/-- The condition `userattr = "parent[0]"`. -/
def crashing : BRule := rawRule b!"userattr" Eq' b!"parent[0]"

theorem crashing_lone : LoneLevels crashing :=
  ⟨.userattr, _, b!"parent[0]", b!"0", rfl, ⟨by decide, rfl⟩, (inside_iff _ _).2 (by decide +kernel), by decide⟩

theorem crashing_crashes : Crashes .ref (.stack b!"AND" false [.cond crashing]) :=
  ⟨⟨_, _, _, rfl⟩, by simp [PTree.Known, PTree.AllKnown]; decide, by simp [PTree.Filled, PTree.AllFilled],
    .inl ⟨[], crashing, [], by simp [PTree.conds, PTree.condsAll], by simp, crashing_lone⟩⟩

/-- The condition `userattr = "cn#"`. -/
def unprinted : BRule := rawRule b!"userattr" Eq' b!"cn#"

theorem unprinted_bare : BareMark unprinted :=
  ⟨.userattr, _, b!"cn#", b!"cn", rfl, ⟨by decide, rfl⟩, (inside_iff _ _).2 (by decide +kernel),
    .inl ⟨⟨99, _, rfl, by decide⟩, ⟨b!"c", 110, rfl, by decide⟩, by decide +kernel⟩⟩

theorem unprinted_crashes : Crashes .ref (.stack b!"AND" false [.cond unprinted]) := by
  refine ⟨⟨_, _, _, rfl⟩, by simp [PTree.Known, PTree.AllKnown]; decide, by simp [PTree.Filled, PTree.AllFilled],
    .inr ⟨?_, unprinted, by simp [PTree.conds, PTree.condsAll], unprinted_bare⟩⟩
  intro x hx
  simp only [PTree.conds, PTree.condsAll, List.append_nil, List.mem_singleton] at hx
  subst hx
  refine ⟨?_, rfl, by decide⟩
  rw [← readable_iff plain_proper]
  decide +kernel

/-- **C110** fails: `userattr = "parent[0]"` makes the reading crash, of the bind rule, of a
permission bind rule and of an instruction with it; so does `userattr = "cn#"`. -/
theorem C110_counterexample : ¬ NoCrash := fun h =>
  h.2.2 plainWorld (fun _ => none) ⟨b!"x", [], [some ⟨⟨some true, [b!"read"]⟩, .stack b!"AND" false [.cond crashing]⟩]⟩
    ((C110_instruction_partial plainWorld .ref plainPrinter plain_proper rfl _ _).2 [] [] _ rfl
      (by simp) (by simp) crashing_crashes)

example : PB.process plainWorld ⟨⟨some true, [b!"read"]⟩, .stack b!"AND" false [.cond crashing]⟩ = .panic :=
  (C110_permission_bind_partial .ref plainWorld plainPrinter plain_proper rfl _).2 (by simp) crashing_crashes

example : ¬ NoCrash := fun h =>
  h.1 plainEnv plainPrinter.text (.stack b!"AND" false [.cond crashing])
    ((C110_bind_partial .ref plainEnv plain_proper _).2 crashing_crashes plainPrinter)

/-- `userattr = "cn#"` is read; the crash comes when the rules it stands in are printed. -/
example : (∃ r, unprinted.assertValue plainEnv = .ok r) ∧
    parseBindRules plainEnv plainPrinter.text (.stack b!"AND" false [.cond unprinted]) = .panic :=
  ⟨agree_readable ((readable_iff plain_proper _).2
    (by have := unprinted_crashes; exact (readable_iff plain_proper _).1 (by decide +kernel))),
    (C110_bind_partial .ref plainEnv plain_proper _).2 unprinted_crashes plainPrinter⟩

example : Ins.parse plainWorld (fun _ => none)
    ⟨b!"x", [], [some ⟨⟨some true, [b!"read"]⟩, .stack b!"AND" false [.cond unprinted]⟩]⟩ = .panic :=
  (C110_instruction_partial plainWorld .ref plainPrinter plain_proper rfl _ _).2 [] [] _ rfl
    (by simp) (by simp) unprinted_crashes

/-- A condition with something behind the levels does not crash. -/
example : (rawRule b!"userattr" Eq' b!"parent[0].manager#USERDN").assertValue plainEnv ≠ .panic := by
  rw [ne_eq, C110_condition_partial]
  rintro ⟨k, style, v, lv, -, ⟨-, hx⟩, hi, hl⟩
  cases hx
  rw [inside_iff] at hi
  have e : Misc.unquote (Misc.condenseWHSP b!"parent[0].manager#USERDN") = b!"parent[0].manager#USERDN" := by
    decide +kernel
  rw [e] at hi
  have := congrArg List.getLast? hi
  rw [List.getLast?_concat] at this
  exact absurd this (by decide)

end Verif.Crash
