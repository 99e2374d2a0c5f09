import Verif.Props.ReadingOne
import Verif.Props.Applies
import Verif.Props.Whole

/-!
# What is read alone and as a part (C139)

`TakenAlone f t v`: the method `Parse` that is modelled by `f`, with a parser that returns `t`, stores `v` in any
receiver and returns no error.  `RefusedAlone f t`: it leaves any receiver as it is and returns an error.
-/

namespace Verif.Alone
open Verif Verif.Spec Verif.Bind Verif.PB Verif.Rules Verif.Levels Verif.Single

/-- What the parser returned is taken as `v`, whatever was stored before. -/
def TakenAlone {τ α : Type} (f : (Str → Option τ) → α → Str → Outcome (α × Bool)) (t : τ) (v : α) : Prop :=
  ∀ parser raw, parser raw = some t → ∀ old, f parser old raw = .ok (v, true)

/-- What the parser returned is refused, and what was stored before stays. -/
def RefusedAlone {τ α : Type} (f : (Str → Option τ) → α → Str → Outcome (α × Bool)) (t : τ) : Prop :=
  ∀ parser raw, parser raw = some t → ∀ old, f parser old raw = .ok (old, false)

/-- The entries of two lists belong together, one by one. -/
inductive Each {α β : Type} (R : α → β → Prop) : List α → List β → Prop
  | nil : Each R [] []
  | cons {a b l m} : R a b → Each R l m → Each R (a :: l) (b :: m)

theorem ok_of {ε α : Type} {x : Except ε α} {a : α} (h : x.toOption = some a) : x = .ok a := by
  cases x with
  | error e => cases h
  | ok b => cases h; rfl

theorem taken_iff {τ α : Type} {f : (Str → Option τ) → α → Str → Outcome (α × Bool)} {g : τ → α → Outcome (α × Bool)}
    (hf : ∀ parser raw t old, parser raw = some t → f parser old raw = g t old) (t : τ) (v : α) :
    TakenAlone f t v ↔ ∀ old, g t old = .ok (v, true) :=
  ⟨fun h old => (hf (fun _ => some t) [] t old rfl) ▸ h (fun _ => some t) [] rfl old,
    fun h parser raw hp old => (hf parser raw t old hp).trans (h old)⟩

theorem permission_taken (S : Shifty 16) (t : Rights.Tokens) (p : Rights.Permission) :
    TakenAlone (permissionInto S) t p ↔ ∃ c, Rights.unpackage S t = .ok c ∧ p = some c := by
  rw [taken_iff (g := fun t old => store old ((Rights.unpackage S t).map some))
    (by intro parser raw t old h; simp only [permissionInto, h])]
  cases Rights.unpackage S t with
  | error e =>
    constructor
    · intro h; have := h p; simp [store, Except.map] at this
    · rintro ⟨c, h, -⟩; cases h
  | ok c =>
    constructor
    · intro h
      have := h none
      simp only [store, Except.map, Outcome.ok.injEq, Prod.mk.injEq, and_true] at this
      exact ⟨c, rfl, this.symm⟩
    · rintro ⟨c', h, rfl⟩ old
      cases h
      rfl

theorem rule_taken (w : World) (t : PB.Tokens) (r : PBRule) :
    TakenAlone (pbInto w) t r ↔ ∃ s, process w t = .ok s ∧ r = some s := by
  rw [taken_iff (g := fun t old => match process w t with
      | .panic => .panic
      | .err => .ok (old, false)
      | .ok s => .ok (some s, true)) (by intro parser raw t old h; simp only [pbInto, h]; rfl)]
  cases process w t with
  | panic => simp
  | err => simp
  | ok s =>
    simp only [Outcome.ok.injEq, Prod.mk.injEq, and_true, exists_eq_left']
    exact ⟨fun h => (h none).symm, fun h _ => h.symm⟩

theorem rule_refused (w : World) (t : PB.Tokens) : RefusedAlone (pbInto w) t ↔ process w t = .err := by
  constructor
  · intro h
    have := h (fun _ => some t) [] rfl none
    simp only [pbInto] at this
    split at this <;> simp_all
  · intro h parser raw hp old
    simp only [pbInto, hp, h]

/-- **C139** for the parts of a permission bind rule: it is read exactly if its permission and its bind rules are
read alone, and then holds what these are read as. -/
theorem C139_parts (w : World) (t : PB.Tokens) (r : PBRule) :
    TakenAlone (pbInto w) t r ↔ ∃ p b, TakenAlone (permissionInto w.S) t.p p ∧
      (∀ (parser : Str → Option PTree) raw, parser (Misc.condenseWHSP raw) = some t.b →
        readRules w.env w.text parser raw = .ok b) ∧ r = some ⟨p, some b⟩ := by
  rw [rule_taken]
  simp only [process_iff, permission_taken]
  constructor
  · rintro ⟨s, ⟨c, b, h1, h2, rfl⟩, rfl⟩
    refine ⟨some c, b, ⟨c, h1, rfl⟩, fun parser raw hp => ?_, rfl⟩
    simp only [readRules, hp, h2]
  · rintro ⟨p, b, ⟨c, h1, rfl⟩, h2, rfl⟩
    have := h2 (fun _ => some t.b) [] rfl
    exact ⟨_, ⟨c, b, h1, this, rfl⟩, rfl⟩

example : ∃ r, TakenAlone (pbInto plainWorld) readable r := by
  obtain ⟨s, hs⟩ := readable_ok
  exact ⟨some s, (rule_taken _ _ _).2 ⟨s, hs, rfl⟩⟩

theorem readAll_of (w : World) : ∀ (ts : List (Option PB.Tokens)) (rs : List PBRule),
    Each (TakenAlone (pbInto w)) (ts.filterMap id) rs →
    ∃ ss, Ins.ReadAll w ts ss ∧ rs = ss.map some
  | [], rs, h => by
    cases h
    exact ⟨[], .nil, rfl⟩
  | none :: ts, rs, h => by
    obtain ⟨ss, h1, h2⟩ := readAll_of w ts rs (by simpa using h)
    exact ⟨ss, .skip h1, h2⟩
  | some t :: ts, rs, h => by
    simp only [List.filterMap_cons, id_eq] at h
    cases h with
    | cons h1 h2 =>
      obtain ⟨s, hs, rfl⟩ := (rule_taken w t _).1 h1
      obtain ⟨ss, h3, rfl⟩ := readAll_of w ts _ h2
      exact ⟨s :: ss, .cons hs h3, rfl⟩

/-- **C139**, the claim for permission bind rules: those of an instruction that is read are, each once, those that
are read alone, and an instruction with one that is refused alone is refused. -/
def RulesAlike : Prop :=
  ∀ (F : EqualFold) (w : World), w.env.eq = F.eq → ∀ (rd : Str → Option Store) (t : Ins.Tokens) (i : Ins.Instruction),
    Ins.parse w rd t = .ok i → ∃ rs, Each (TakenAlone (pbInto w)) (t.rules.filterMap id) rs ∧
      Ins.pbrs i = firsts (sameText w) rs

/-- **C139** for permission bind rules that are taken alone: a list and an instruction of them are read without an
error and hold, each once, what the rules are read as alone.  Missing: texts with a rule that is refused alone. -/
theorem C139_rules_partial (F : EqualFold) (w : World) (hE : w.env.eq = F.eq) (rd : Str → Option Store)
    (rs : List PBRule) :
    (∀ ts, Each (TakenAlone (pbInto w)) (ts.filterMap id) rs →
      TakenAlone (PB.parseInto w rd) ts (firsts (sameText w) rs)) ∧
    (∀ t : Ins.Tokens, Each (TakenAlone (pbInto w)) (t.rules.filterMap id) rs →
      ∃ i, Ins.parse w rd t = .ok i ∧ Ins.pbrs i = firsts (sameText w) rs) := by
  constructor
  · intro ts h parser raw hp old
    obtain ⟨ss, h1, rfl⟩ := readAll_of w ts rs h
    have hl := Ins.loop_eq (rd := rd) h1 (.inl rfl : Ins.Stuck w []) []
    rw [List.append_nil, foldl_addNew _ (fun a b c h1 h2 => by
      simp only [sameText, hE] at *; exact F.trans _ _ _ h1 h2)] at hl
    simp only [PB.parseInto, hp, processAll, hl]
    rfl
  · intro t h
    obtain ⟨ss, h1, rfl⟩ := readAll_of w t.rules rs h
    obtain ⟨i, hi, -, hpb, -⟩ := Ins.parse_content w F hE rd t t.rules [] ss (by simp) h1 (.inl rfl)
    exact ⟨i, hi, hpb⟩


example : ∃ rs, Each (TakenAlone (pbInto plainWorld)) ([some PB.readable, none, some PB.readable].filterMap id) rs := by
  obtain ⟨s, hs⟩ := readable_ok
  exact ⟨[some s, some s], .cons ((rule_taken _ _ _).2 ⟨s, hs, rfl⟩) (.cons ((rule_taken _ _ _).2 ⟨s, hs, rfl⟩) .nil)⟩

/-- **C139**, the claim for target rules: those of a list are what they are read as alone. -/
def TargetsAlike : Prop :=
  ∀ (F : EqualFold) (d : Oid.DotReader) (rs : List TRule), (∀ r ∈ rs, Parsed r) → ∀ l,
    processTargetRules F.eq d.read rs = (l, true) → Each (TakenAlone (targetInto F.eq d.read)) rs l

theorem target_taken (eq : Str → Str → Bool) (read : Str → Option Str) (r r' : TRule) :
    TakenAlone (targetInto eq read) r r' ↔ r' = (r.assertValue eq read).1 := by
  rw [taken_iff (g := fun t old => store old (parseTargetRule eq read t))
    (by intro parser raw t old h; simp only [targetInto, h])]
  simp only [parseTargetRule, store, Outcome.ok.injEq, Prod.mk.injEq, and_true]
  exact ⟨fun h => (h r).symm, fun h _ => h.symm⟩

theorem along_assert (eq : Str → Str → Bool) (read : Str → Option Str) (rs : List TRule) :
    ∃ us vs m, rs = us ++ vs ∧ assertAll eq read rs = (m ++ vs, vs.isEmpty) ∧
      Each (TakenAlone (targetInto eq read)) us m ∧ ∀ v vs', vs = v :: vs' → (v.assertValue eq read).2 = false := by
  induction rs with
  | nil => exact ⟨[], [], [], rfl, rfl, .nil, by simp⟩
  | cons r rs ih =>
    obtain ⟨us, vs, m, rfl, h1, h2, h3⟩ := ih
    rw [assertAll, h1]
    split
    · exact ⟨r :: us, vs, _ :: m, rfl, rfl, .cons ((target_taken _ _ _ _).2 rfl) h2, h3⟩
    · next h =>
      exact ⟨[], r :: (us ++ vs), [], rfl, rfl, .nil, by intro v vs' e; cases e; simpa using h⟩

/-- **C139** for target rules with different keywords, in a list or an instruction: up to the first unreadable rule
they are what they are read as alone, behind it they are left as they are, and there is an error exactly if there is
an unreadable rule (which an instruction does not report, C45).  Missing: several rules with one keyword, and that
an unreadable rule is treated in the same way alone, where it is not reported. -/
theorem C139_targets_partial (F : EqualFold) (d : Oid.DotReader) (rs : List TRule) (hp : ∀ r ∈ rs, Parsed r)
    (hk : ∀ (i j : Nat) (a b : TRule) (k : TKw), i < j → rs[i]? = some a → rs[j]? = some b → Has a k → ¬ Has b k) :
    ∃ us vs m, rs = us ++ vs ∧ processTargetRules F.eq d.read rs = (m ++ vs, vs.isEmpty) ∧
      Each (TakenAlone (targetInto F.eq d.read)) us m ∧ (∀ v vs', vs = v :: vs' → Rules.Unreadable F d v) ∧
      ∀ (w : World) (rd : Str → Option Store) (t : Ins.Tokens) (i : Ins.Instruction), w.env.eq = F.eq → w.dot = d.read →
        t.targets = rs → Ins.parse w rd t = .ok i → Ins.trs i = m ++ vs := by
  obtain ⟨ps, h1, h2, h3⟩ := Applies.offered rs hp
  have hdist : Distinct sameKey ps := by
    intro i j a b hij ha hb
    simp only [sameKey, decide_eq_false_iff_not]
    intro e
    refine hk i j a.1 b.1 a.2 hij (by rw [h2]; simp [ha]) (by rw [h2]; simp [hb])
      (h3 a (List.mem_of_getElem? ha)) ?_
    rw [e]; exact h3 b (List.mem_of_getElem? hb)
  have ht : transferTRs [] rs = rs := by
    rw [transfer_firsts _ ps h1, firsts_distinct hdist, ← h2]
  obtain ⟨us, vs, m, e1, e2, e3, e4⟩ := along_assert F.eq d.read rs
  have e5 : processTargetRules F.eq d.read rs = (m ++ vs, vs.isEmpty) := by rw [processTargetRules, ht, e2]
  refine ⟨us, vs, m, e1, e5, e3, ?_, ?_⟩
  · intro v vs' e
    by_cases hu : Rules.Unreadable F d v
    · exact hu
    · have := (C45_rule F d v (hp v (by rw [e1, e]; simp))).2 hu
      rw [e4 v vs' e] at this
      cases this.1
  · intro w rd t i hE hd hr h
    rw [Applies.parse_targets hE h, hE, hd, hr, e5]

example : ∃ t i, t.targets = [Rules.sampleRule b!"TargetAttr" b!"cn", Rules.sampleRule b!"targetscope" b!"blarg"] ∧
    (∀ r ∈ t.targets, Parsed r) ∧ Ins.parse PB.plainWorld (fun _ => none) t = .ok i ∧
    Rules.Unreadable .ref Oid.plainReader (Rules.sampleRule b!"targetscope" b!"blarg") ∧
    ∀ (i j : Nat) (a b : TRule) (k : TKw), i < j → t.targets[i]? = some a → t.targets[j]? = some b → Has a k → ¬ Has b k := by
  obtain ⟨r, hr⟩ := PB.readable_ok
  obtain ⟨i, hi, -⟩ := Ins.parse_content PB.plainWorld .ref rfl (fun _ => none)
    ⟨b!"x", [Rules.sampleRule b!"TargetAttr" b!"cn", Rules.sampleRule b!"targetscope" b!"blarg"], [some PB.readable]⟩
    [some PB.readable] [] [r] rfl (.cons hr .nil) (.inl rfl)
  refine ⟨_, i, rfl, ?_, hi, blarg_unreadable, ?_⟩
  · intro r hr
    simp only [List.mem_cons, List.not_mem_nil, or_false] at hr
    rcases hr with rfl | rfl
    · exact ⟨_, _, _, sample_attr, rfl⟩
    · exact ⟨.targetscope, _, _, ⟨rfl, by decide⟩, rfl⟩
  · intro i j a b k hij ha hb hka hkb
    have hj : j < 2 := by
      have := (List.getElem?_eq_some_iff.1 hb).1; simpa using this
    have hi0 : i = 0 := by omega
    have hj1 : j = 1 := by omega
    subst hi0; subst hj1
    simp at ha hb; subst ha; subst hb
    have e1 := has_unique sample_attr hka
    have e2 : TKw.targetscope = k := has_unique ⟨rfl, by decide⟩ hkb
    rw [← e1] at e2; cases e2

/-! ## Bind rules -/

/-- **C139**, the claim for bind rules: those of stacks that are read are what they are read as alone. -/
def BindAlike : Prop :=
  ∀ (F : EqualFold) (env : Env) (P : Bind.Printer) (t : PTree) (c : BCtx), Proper env F → t.Known →
    (∀ r ∈ t.conds, ReadableB F r) → parseBindRules env P.text t = .ok c → Each (TakenAlone bindInto) t.conds c.leaves

/-- **C139** for bind rules: in a stack and alone they have the same keyword, operator and parentheses.  Missing: the
values, which stay as the parser returned them in a rule that is read alone (C65). -/
theorem C139_bind_partial (F : EqualFold) (env : Env) (hP : Proper env F) (text : BCtx → Str) (t : PTree) (c : BCtx)
    (hk : t.Known) (hr : ∀ r ∈ t.conds, ReadableB F r) (h : parseBindRules env text t = .ok c) :
    Each (fun r r' => ∃ b, TakenAlone bindInto r b ∧ b.core = r'.core ∧ b.paren = r'.paren ∧ b.ex = r.ex) t.conds c.leaves := by
  have := (C46_readable_partial F env hP text t hk hr c h).2
  generalize t.conds = l at this
  generalize c.leaves = m at this
  induction this with
  | nil => exact .nil
  | @cons r r' rs rs' h1 _ ih =>
    obtain ⟨_, _, _, _, _, h2, h3⟩ := h1
    exact .cons ⟨r, fun parser raw hp old => by simp only [bindInto, hp, parseBindRule], h2.symm, h3.symm, rfl⟩ ih

example : ∃ c, parseBindRules plainEnv plainPrinter.text PB.readable.b = .ok c ∧
    ∀ r ∈ PB.readable.b.conds, ReadableB .ref r := by
  obtain ⟨s, hs⟩ := readable_ok
  obtain ⟨_, c, _, hc, _⟩ := process_iff.1 hs
  refine ⟨c, hc, ?_⟩
  intro r hr
  simp only [PB.readable, PTree.conds, PTree.condsAll, List.mem_singleton, List.append_nil] at hr
  subst hr
  exact ⟨.ssf, 0, [b!"71"], _, ⟨by decide, rfl⟩, .factor (b := 70) ((inside_iff _ _).2 (by decide +kernel))⟩

/-! ## Values of attribute conditions -/

theorem stores_some {σ : Type} {f : σ → Str → Outcome (σ × Bool)} {P : Str → σ → Prop} (h : StoresJust f P) {x : Str}
    {v old : σ} (hf : f old x = .ok (v, true)) : P x v := by
  by_cases he : ∃ v', P x v'
  · obtain ⟨v', hv'⟩ := he
    have := h.1 x v' hv' old
    rw [hf] at this
    simp only [Outcome.ok.injEq, Prod.mk.injEq, and_true] at this
    exact this ▸ hv'
  · have := h.2 x (fun v' hv' => he ⟨v', hv'⟩) old
    rw [hf] at this
    simp at this

theorem stores_iff {σ : Type} {f : σ → Str → Outcome (σ × Bool)} {P : Str → σ → Prop} (h : StoresJust f P) (x : Str)
    (v : σ) : (∀ old, f old x = .ok (v, true)) ↔ P x v :=
  ⟨fun hf => stores_some h (hf v), fun hv old => h.1 x v hv old⟩

/-- **C139** for addresses and pairs: a condition about `userattr` is read as one with an address exactly if the
text inside of its value is read alone as this address, and as one with a pair exactly if the text is read alone as
this pair and begins neither as an address nor with `parent[`. -/
theorem C139_attribute (F : EqualFold) (env : Env) (hP : Proper env F) (r : BRule) (style : Int) (v t : Str)
    (hr : RawBind r .userattr style [v]) (ht : Inside v t) :
    (∀ u, (∃ r', Reads env r r' ∧ r'.ex = .uri (some u)) ↔ ∀ old, uriInto F.eq old t = .ok (some u, true)) ∧
    (∀ A bkw, (∃ r', Reads env r r' ∧ r'.ex = .pair A) ↔ (∀ old, pairInto bkw old t = .ok (A, true)) ∧
      (∀ w, t ≠ b!"ldap:///" ++ w) ∧ ∀ w, t ≠ b!"parent[" ++ w) := by
  have hI : ∀ t', Inside v t' → t' = t := fun t' h' => ((inside_iff _ _).1 h').symm.trans ((inside_iff _ _).1 ht)
  constructor
  · intro u
    rw [stores_iff (C77_uri F)]
    refine (C84_value F env hP r .userattr style [v] hr (.uri (some u))).trans ?_
    constructor
    · intro h
      cases h with
      | uri _ hv h => rw [hI _ hv] at h; exact ⟨u, h, rfl⟩
    · rintro ⟨u', h, e⟩
      cases e
      exact .uri rfl ht h
  · intro A bkw
    rw [stores_iff (C77_pair bkw)]
    refine (C84_value F env hP r .userattr style [v] hr (.pair A)).trans ?_
    constructor
    · intro h
      cases h with
      | pair _ hv hs hp h => rw [hI _ hv] at h hs hp; exact ⟨h, hs, hp⟩
    · rintro ⟨h, hs, hp⟩
      exact .pair rfl ht hs hp h

example : RawBind (rawRule b!"userattr" Eq' b!"\"manager#USERDN\"") .userattr 0 [b!"\"manager#USERDN\""] ∧
    Inside b!"\"manager#USERDN\"" b!"manager#USERDN" ∧
    ∃ A, ∀ old, pairInto [] old b!"manager#USERDN" = .ok (A, true) := by
  refine ⟨⟨by decide, rfl⟩, (inside_iff _ _).2 (by decide +kernel), ?_⟩
  have : ∃ A, Attr.ABTV.zero.parse b!"manager#USERDN" [] = .ok A := by
    have h : (Attr.ABTV.zero.parse b!"manager#USERDN" []).toOption.isSome = true := by decide +kernel
    obtain ⟨A, hA⟩ := Option.isSome_iff_exists.1 h
    exact ⟨A, ok_of hA⟩
  obtain ⟨A, hA⟩ := this
  exact ⟨A, fun old => by rw [pairInto, show old.parse b!"manager#USERDN" [] = .ok A from hA]; rfl⟩

theorem pair_keyword {key : BindKeyword} {x : Str} {A : Attr.ABTV} (h : Uri.PairText key x A) : A.kw = key := by
  cases h <;> rfl

/-- **C139**, the claim for pairs of conditions about `groupattr`: they are what the text is read as alone, when this
keyword is asked for. -/
def GroupAlike : Prop :=
  ∀ (F : EqualFold) (env : Env), Proper env F → ∀ (r r' : BRule) (style : Int) (v t : Str) (A : Attr.ABTV),
    RawBind r .groupattr style [v] → Inside v t → Reads env r r' → r'.ex = .pair A →
      ∀ old, pairInto [some BindGAT] old t = .ok (A, true)

/-- **C139** fails for the pair of any condition about `groupattr`: whatever keyword is asked for, no text that is
read alone is read as this pair. -/
theorem C139_group_counterexample : ¬ GroupAlike ∧
    ∀ (F : EqualFold) (env : Env), Proper env F → ∀ (r r' : BRule) (style : Int) (v : Str) (A : Attr.ABTV),
      RawBind r .groupattr style [v] → Reads env r r' → r'.ex = .pair A →
        ∀ bkw old t, pairInto bkw old t ≠ .ok (A, true) := by
  have key : ∀ (F : EqualFold) (env : Env), Proper env F → ∀ (r r' : BRule) (style : Int) (v : Str) (A : Attr.ABTV),
      RawBind r .groupattr style [v] → Reads env r r' → r'.ex = .pair A →
        ∀ bkw old t, pairInto bkw old t ≠ .ok (A, true) := by
    intro F env hP r r' style v A hr h he bkw old t hp
    have hv := (C84_value F env hP r .groupattr style [v] hr (.pair A)).1 ⟨r', h, he⟩
    cases hv with
    | pair _ _ _ _ h =>
      have h2 : Uri.PairText BindUAT t A := stores_some (C77_pair bkw) hp
      have := (pair_keyword h).symm.trans (pair_keyword h2)
      revert this
      decide
  refine ⟨fun h => ?_, key⟩
  have hr : RawBind (rawRule b!"groupattr" Eq' b!"manager#GROUPDN") .groupattr 0 [b!"manager#GROUPDN"] := ⟨by decide, rfl⟩
  have hi : Inside b!"manager#GROUPDN" b!"manager#GROUPDN" := (inside_iff _ _).2 (by decide +kernel)
  obtain ⟨A, hA⟩ : ∃ A, Attr.parseATBTV b!"manager#GROUPDN" [some BindGAT] = .ok A := by
    have h : (Attr.parseATBTV b!"manager#GROUPDN" [some BindGAT]).toOption.isSome = true := by decide +kernel
    obtain ⟨A, hA⟩ := Option.isSome_iff_exists.1 h
    exact ⟨A, ok_of hA⟩
  obtain ⟨r', h1, h2⟩ := (C84_value .ref plainEnv plain_proper _ .groupattr 0 _ hr (.pair A)).2
    (.pair rfl hi (by intro w e; revert e; simp [scheme]) (by intro w e; simp at e)
      ((Uri.pair_iff rfl _ _).1 hA))
  exact key .ref plainEnv plain_proper _ r' 0 _ A hr h1 h2 _ A _
    (h .ref plainEnv plain_proper _ r' 0 _ _ A hr hi h1 h2 A)

/-! ## Operations and filters -/

/-- **C139**, the claim for operations: the list between commas is read exactly if every operation is read alone, and
then holds, each once, those with filters. -/
def OperationsAlike : Prop :=
  ∀ raw l, (∀ old, operationsInto [] old raw = .ok (l, true)) ↔ ∃ os,
    Each (fun p o => ∀ old, operationInto old p = .ok (o, true)) (Str.split1 44 raw) os ∧
      l = ⟨44, firsts Filter.sameOp (Filter.withEntries os)⟩

theorem each_reads (ps : List Str) (os : List Filter.AFO) : Filter.ReadsEach ps os ↔
    Each (fun p o => ∃ t, Inside p t ∧ (∃ d rest, t = Filter.opWord d ++ rest) ∧ ∀ old, operationInto old t = .ok (o, true))
      ps os := by
  constructor
  · intro h
    induction h with
    | nil => exact .nil
    | cons v o vs os h _ ih =>
      obtain ⟨t, t', d, qs, h1, h2, h3, h4, h5⟩ := h
      exact .cons ⟨t, h1, h2, (stores_iff C77_operation _ _).2 ⟨t', d, qs, h3, h4, h5⟩⟩ ih
  · intro h
    induction h with
    | nil => exact .nil
    | cons h _ ih =>
      obtain ⟨t, h1, h2, h3⟩ := h
      obtain ⟨t', d, qs, h4, h5, h6⟩ := (stores_iff C77_operation _ _).1 h3
      exact .cons _ _ _ _ ⟨t, t', d, qs, h1, h2, h4, h5, h6⟩ ih

/-- **C139** for operations: a list is read exactly if every piece, once taken out of white space and quotation
marks, begins with the word of an operation and is read alone, and there are as many of these words as pieces.
Missing: pieces that are themselves read alone, which is not the same where quotation marks are doubled or words of
operations stand in filters. -/
theorem C139_operations_partial (delim : List Int) (raw : Str) (l : Filter.AFOs) :
    (∀ old, operationsInto delim old raw = .ok (l, true)) ↔ ∃ os,
      Each (fun p o => ∃ t, Inside p t ∧ (∃ d rest, t = Filter.opWord d ++ rest) ∧
        ∀ old, operationInto old t = .ok (o, true)) (Str.split1 (if delim.head? = some 1 then 59 else 44) raw) os ∧
      Filter.occ b!"add=" raw + Filter.occ b!"delete=" raw = os.length ∧
      l = ⟨44, firsts Filter.sameOp (Filter.withEntries os)⟩ := by
  rw [stores_iff (C77_operations delim)]
  simp only [← each_reads]
  exact Iff.rfl

example : ∃ os, Each (fun p o => ∃ t, Inside p t ∧ (∃ d rest, t = Filter.opWord d ++ rest) ∧
    ∀ old, operationInto old t = .ok (o, true)) (Str.split1 44 b!"\"add=cn:(a=b)\",delete=sn:") os := by
  obtain ⟨os, h, -⟩ := (C139_operations_partial [] b!"\"add=cn:(a=b)\",delete=sn:"
    ⟨44, [Filter.opWith false [(b!"cn", b!"(a=b)")]]⟩).1 fun old => by
      have : Filter.AFOs.parse b!"\"add=cn:(a=b)\",delete=sn:" [] = .ok ⟨44, [Filter.opWith false [(b!"cn", b!"(a=b)")]]⟩ :=
        ok_of (by decide +kernel)
      simp only [operationsInto, this]; rfl
  exact ⟨os, h⟩

theorem each_same {α β : Type} {R S : α → β → Prop} {l : List α} {m : List β} (h : ∀ a ∈ l, ∀ b, R a b ↔ S a b) :
    Each R l m ↔ Each S l m := by
  constructor
  · intro e
    induction e with
    | nil => exact .nil
    | cons r _ ih => exact .cons ((h _ (by simp) _).1 r) (ih fun a ha => h a (by simp [ha]))
  · intro e
    induction e with
    | nil => exact .nil
    | cons r _ ih => exact .cons ((h _ (by simp) _).2 r) (ih fun a ha => h a (by simp [ha]))

/-- **C139** for lists of operations without white space and quotation marks to take away: the list is read exactly
if every operation is read alone and there are as many words of operations as operations.  Missing: see
`C139_operations_partial`. -/
theorem C139_clean_partial (delim : List Int) (raw : Str) (l : Filter.AFOs)
    (hc : ∀ p ∈ Str.split1 (if delim.head? = some 1 then 59 else 44) raw, Inside p p) :
    (∀ old, operationsInto delim old raw = .ok (l, true)) ↔ ∃ os,
      Each (fun p o => ∀ old, operationInto old p = .ok (o, true))
        (Str.split1 (if delim.head? = some 1 then 59 else 44) raw) os ∧
      Filter.occ b!"add=" raw + Filter.occ b!"delete=" raw = os.length ∧
      l = ⟨44, firsts Filter.sameOp (Filter.withEntries os)⟩ := by
  rw [C139_operations_partial]
  refine exists_congr fun os => and_congr_left fun _ => each_same fun p hp o => ?_
  have hI : ∀ t, Inside p t → t = p := fun t h' => ((inside_iff _ _).1 h').symm.trans ((inside_iff _ _).1 (hc p hp))
  constructor
  · rintro ⟨t, h1, _, h3⟩
    rw [hI t h1] at h3
    exact h3
  · intro h
    obtain ⟨t, d, ps, h1, ⟨rest, _, h2, _⟩, _⟩ := (stores_iff C77_operation _ _).1 h
    exact ⟨p, hc p hp, ⟨d, rest, hI t h1 ▸ h2⟩, h⟩

example : ∀ p ∈ Str.split1 44 b!"add=cn:(a=b),delete=sn:(c=d)", Inside p p := by
  have h : Str.split1 44 b!"add=cn:(a=b),delete=sn:(c=d)" = [b!"add=cn:(a=b)", b!"delete=sn:(c=d)"] := by decide +kernel
  rw [h]
  intro p hp
  simp only [List.mem_cons, List.not_mem_nil, or_false] at hp
  rcases hp with rfl | rfl <;> exact (inside_iff _ _).2 (by decide +kernel)

/-- **C139**, the claim for filters: an operation of one pair is read exactly if the pair is read alone. -/
def FiltersAlike : Prop :=
  ∀ d a f, f ≠ [] → Str.containsStr f b!"&&" = false →
    ((∀ old, operationInto old (Filter.opWord d ++ (a ++ b!":" ++ f)) = .ok (Filter.opWith d [(a, f)], true)) ↔
      ∀ old, filterInto old (a ++ b!":" ++ f) = .ok (some ⟨some a, some f⟩, true))

/-- **C139** for filters that are written tidily, without a quotation mark at the end, in pairs of five bytes or more:
they are read alike alone and in an operation.  Missing: shorter pairs, which are refused alone, and filters with
white space or quotation marks that are taken away. -/
theorem C139_filters_partial (d : Bool) {a f : Str} (ha : AttrName a) (haa : Str.IsAscii a) (hf : Tidy f)
    (hq : NoQuote f) (hn : Str.containsStr f b!"&&" = false) (h5 : 5 ≤ (a ++ b!":" ++ f).length) :
    (∀ old, operationInto old (Filter.opWord d ++ (a ++ b!":" ++ f)) = .ok (Filter.opWith d [(a, f)], true)) ∧
      ∀ old, filterInto old (a ++ b!":" ++ f) = .ok (some ⟨some a, some f⟩, true) := by
  obtain ⟨fne, _⟩ := hf.last
  have hc : Filter.Clean [(a, f)] := by
    intro p hp
    obtain rfl : p = (a, f) := by simpa using hp
    exact ⟨ha, haa, hf, hn⟩
  have h1 := Filter.C41_round_trip_partial d hc (by simp) (by
    intro l p e
    cases l with
    | nil => cases e; exact hq
    | cons x l => simp at e) (by simp)
  have h2 := Filter.C40_parse_partial ha haa hf hq h5
  rw [Filter.string_pair (Uri.attrName_ne_nil ha) fne] at h2
  have e : (Filter.opWith d [(a, f)]).string = Filter.opWord d ++ (a ++ b!":" ++ f) := by
    rw [Filter.string_opWith d hc.set]
    cases d <;> rfl
  rw [e] at h1
  exact ⟨fun old => by simp only [operationInto, h1]; rfl, fun old => by
    have h2 : Filter.AttributeFilter.parse (a ++ b!":" ++ f) = _ := h2
    simp only [filterInto, h2]; rfl⟩

theorem each_length {α β : Type} {R : α → β → Prop} {l : List α} {m : List β} (h : Each R l m) : m.length = l.length := by
  induction h with
  | nil => rfl
  | cons _ _ ih => simp [ih]

example : AttrName b!"cn" ∧ Str.IsAscii b!"cn" ∧ Tidy b!"(&(a=x y)(b=,;add=1))" ∧ NoQuote b!"(&(a=x y)(b=,;add=1))" :=
  ⟨Filter.cn_name, by decide, Filter.sample_tidy, Filter.sample_noQuote⟩

/-! ## Where it fails -/

/-- **C139** fails.
 - Of `allow(read) dayofweek = "xyz"; deny(all) ssf >= "71";` the first rule is refused alone, and an instruction with
   both is read without an error and without any of them.
 - Of two target rules about `targetattr` that are both read alone, a list keeps one.
 - A bind rule alone keeps the text of its value.
 - `add=cn:(a=b)""` loses one quotation mark alone and two in a list.
 - `cn:x` is refused alone and read in `add=cn:x`. -/
theorem C139_counterexample :
    ¬ RulesAlike ∧ ¬ TargetsAlike ∧ ¬ BindAlike ∧ ¬ OperationsAlike ∧ ¬ FiltersAlike := by
  refine ⟨fun h => ?_, fun h => ?_, fun h => ?_, fun h => ?_, fun h => ?_⟩
  · obtain ⟨i, hi, hpb⟩ := Ins.C53_counterexample.2 b!"x" []
    obtain ⟨rs, h1, h2⟩ := h .ref plainWorld rfl _ _ i hi
    rw [hpb] at h2
    cases h1 with
    | cons _ _ => simp [firsts] at h2
  · have hp : ∀ v, Parsed (Rules.sampleRule b!"targetattr" v) := fun v =>
      ⟨.targetattr, _, _, ⟨rfl, (by decide : Str.eqFold b!"targetattr" TKw.targetattr.name = true)⟩, rfl⟩
    have hl : (processTargetRules EqualFold.ref.eq Oid.plainReader.read
        [Rules.sampleRule b!"targetattr" b!"cn", Rules.sampleRule b!"targetattr" b!"sn"]).1.length = 1 ∧
        (processTargetRules EqualFold.ref.eq Oid.plainReader.read
        [Rules.sampleRule b!"targetattr" b!"cn", Rules.sampleRule b!"targetattr" b!"sn"]).2 = true := by decide +kernel
    have := h .ref Oid.plainReader [Rules.sampleRule b!"targetattr" b!"cn", Rules.sampleRule b!"targetattr" b!"sn"]
      (by intro r hr; simp only [List.mem_cons, List.not_mem_nil, or_false] at hr; rcases hr with rfl | rfl <;> exact hp _)
      _ (Prod.ext rfl hl.2)
    exact absurd (each_length this) (by simp [assertAll])
  · obtain ⟨s, hs⟩ := readable_ok
    obtain ⟨_, c, _, hc, _⟩ := process_iff.1 hs
    have hk : PB.readable.b.Known := by
      simp only [PB.readable, PTree.Known, PTree.AllKnown]; decide
    have hr : ∀ r ∈ PB.readable.b.conds, ReadableB .ref r := by
      intro r hr
      simp only [PB.readable, PTree.conds, PTree.condsAll, List.mem_singleton, List.append_nil] at hr
      subst hr
      exact ⟨.ssf, 0, [b!"71"], _, ⟨by decide, rfl⟩, .factor (b := 70) ((inside_iff _ _).2 (by decide +kernel))⟩
    have h1 := h .ref plainEnv plainPrinter PB.readable.b c plain_proper hk hr hc
    have h2 := (C46_readable_partial .ref plainEnv plain_proper plainPrinter.text PB.readable.b hk hr c hc).2
    have he : PB.readable.b.conds = [rawRule b!"ssf" Ge' b!"71"] := by
      simp [PB.readable, PTree.conds, PTree.condsAll]
    rw [he] at h1 h2
    generalize c.leaves = m at h1 h2
    cases h1 with
    | cons h3 _ =>
      cases h2 with
      | cons h4 _ =>
        have := h3 (fun _ => some (rawRule b!"ssf" Ge' b!"71")) [] rfl (rawRule b!"ssf" Ge' b!"71")
        simp only [bindInto, parseBindRule, Outcome.ok.injEq, Prod.mk.injEq, and_true] at this
        obtain ⟨_, _, _, _, h5, _⟩ := h4
        rw [← this] at h5
        cases h5
  · have h1 : ∀ old, operationsInto [] old b!"add=cn:(a=b)\"\"" =
        .ok (⟨44, [Filter.opWith false [(b!"cn", b!"(a=b)")]]⟩, true) := fun _ => by
      have : Filter.AFOs.parse b!"add=cn:(a=b)\"\"" [] = .ok ⟨44, [Filter.opWith false [(b!"cn", b!"(a=b)")]]⟩ :=
        ok_of (by decide +kernel)
      simp only [operationsInto, this]; rfl
    obtain ⟨os, h2, h3⟩ := (h _ _).1 h1
    have hs : Str.split1 44 b!"add=cn:(a=b)\"\"" = [b!"add=cn:(a=b)\"\""] := by decide +kernel
    rw [hs] at h2
    cases h2 with
    | cons h4 h5 =>
      cases h5
      have h6 : Filter.parseAFO b!"add=cn:(a=b)\"\"" = .ok (Filter.opWith false [(b!"cn", b!"(a=b)\"")]) :=
        ok_of (by decide +kernel)
      have := h4 (Filter.opWith false [])
      simp only [operationInto, h6] at this
      obtain rfl : Filter.opWith false [(b!"cn", b!"(a=b)\"")] = _ := by injection this with this; exact congrArg Prod.fst this
      revert h3
      decide +kernel
  · have h1 := (h false b!"cn" b!"x" (by decide) (by decide)).1 (fun old => by
      have : Filter.parseAFO (Filter.opWord false ++ (b!"cn" ++ b!":" ++ b!"x")) =
        .ok (Filter.opWith false [(b!"cn", b!"x")]) := ok_of (by decide +kernel)
      simp only [operationInto, this]; rfl) none
    have h2 : Filter.AttributeFilter.parse (b!"cn" ++ b!":" ++ b!"x") = .error () := Filter.C40_counterexample_short.2
    simp only [filterInto, h2] at h1
    cases h1

end Verif.Alone
