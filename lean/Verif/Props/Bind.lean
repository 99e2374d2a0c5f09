import Verif.Lemmas.Bind
import Verif.Lemmas.Time
import Verif.Props.Target

/-!
# C16, C46 to C48, C64, C66: bind rules
-/

namespace Verif.Bind
open Verif Verif.Spec Verif.Levels

/-! ## C46 -/

mutual

/-- Some way of printing, to show that the assumptions on it can be met. -/
def plainText : BCtx → Str
  | .rule r => if r.valid then r.core.kw else []
  | .zero => []
  | .rules _ _ es => plainTexts es

def plainTexts : List BCtx → Str
  | [] => []
  | e :: es => plainText e ++ plainTexts es

end

theorem plainTexts_ne (es : List BCtx) (e : BCtx) (he : e ∈ es) (h : plainText e ≠ []) :
    plainTexts es ≠ [] := by
  induction es with
  | nil => cases he
  | cons a es ih =>
    simp only [plainTexts]
    rcases List.mem_cons.1 he with rfl | he
    · simp [h]
    · simp [ih he]

def plainPrinter : Printer where
  text := plainText
  rule r h := by
    simp only [plainText, h, if_true]
    intro e
    simp [BRule.valid, BRule.condOk, e] at h
  some_entry w p es e he h := by
    simp only [plainText]
    exact plainTexts_ne es e he h
  no_entry w p := by simp [plainText, plainTexts]
  zero := by simp [plainText]

/-- Some surroundings of reading. -/
def plainEnv : Env := ⟨Str.eqFold, .anyRef 8, Sec.authNames, Sec.authNames, true⟩

/-- A condition as the parser returns it. -/
def rawRule (kw : Str) (op : Cop) (v : Str) : BRule := ⟨⟨true, kw, op⟩, .raw 0 [v], false, false, false⟩

/-- `ssf >= "71" AND dayofweek = "xyz"`. -/
def sampleTree : PTree :=
  .stack b!"AND" false [.cond (rawRule b!"ssf" Ge' b!"71"), .cond (rawRule b!"dayofweek" Eq' b!"xyz")]

theorem parse_ok {env : Env} {text : BCtx → Str} {t : PTree} {c : BCtx}
    (h : parseBindRules env text t = .ok c) : convert env text t = .ok (c, true) := by
  unfold parseBindRules at h
  split at h
  · cases h
  · cases h
  · next c' ok e =>
    cases ok with
    | false => simp at h
    | true => simp only [if_true, Outcome.ok.injEq] at h; rw [e, h]

theorem ssf_printed (r' : BRule) (a : Attr.ABTV) (h : Reads plainEnv (rawRule b!"ssf" Ge' b!"71") r')
    (e : r'.ex = .pair a) : a.string ≠ none := by
  have hk : matchBKW (BindKeyword.string (rawRule b!"ssf" Ge' b!"71").keyword) = BindSSF := by decide +kernel
  unfold Reads BRule.assertValue at h
  simp only [rawRule] at hk h
  rw [hk] at h
  obtain ⟨ex, h1, h2⟩ := map_ok h
  rw [← h2, (setQuoteStyle_kept _ _).2.2] at e
  simp only [BRule.setExpression] at e
  subst e
  unfold readBind at h1
  rw [if_neg (by decide), if_neg (by decide), if_neg (by decide), if_neg (by decide), if_neg (by decide),
    if_neg (by decide), if_neg (by decide), if_pos rfl] at h1
  obtain ⟨x, -, hx⟩ := map_ok h1
  cases hx

theorem sample_read : ∃ r', Reads plainEnv (rawRule b!"ssf" Ge' b!"71") r' ∧
    plainText (.rule r') = b!"ssf" ∧ Usable (.rule r') := by
  have hr : readable plainEnv (rawRule b!"ssf" Ge' b!"71") = true := by decide +kernel
  obtain ⟨r', h⟩ := agree_readable hr
  have hv := good_valid ⟨hr, rfl, by decide⟩ h
  obtain ⟨h1, _, h3, _⟩ := reads_known h
  refine ⟨r', h, ?_, ?_⟩
  · simp only [plainText, hv, if_true, h1]; rfl
  · simp only [Usable, h1]; exact h3

theorem sample_unread : (rawRule b!"dayofweek" Eq' b!"xyz").assertValue plainEnv = .err := by
  simp only [rawRule, BRule.assertValue, BRule.keyword]
  have e : matchBKW (BindKeyword.string (matchBKW b!"dayofweek")) = BindDoW := by decide +kernel
  have e' : (Time.assertBindDayOfWeek plainEnv.shifty [b!"xyz"]).toOption = none := by decide +kernel
  rw [e]
  have : readBind plainEnv BindDoW [b!"xyz"] = .err := by
    unfold readBind
    rw [if_neg (by decide), if_neg (by decide), if_neg (by decide), if_neg (by decide), if_pos rfl]
    revert e'
    cases Time.assertBindDayOfWeek plainEnv.shifty [b!"xyz"] with
    | error _ => intro _; rfl
    | ok d => intro h; cases h
  rw [this]; rfl

theorem sample_parse : ∃ r', Reads plainEnv (rawRule b!"ssf" Ge' b!"71") r' ∧
    parseBindRules plainEnv plainPrinter.text sampleTree = .ok (.rules .and false [.rule r']) := by
  obtain ⟨r', h, ht, hu⟩ := sample_read
  refine ⟨r', h, ?_⟩
  have hw : wordToStack b!"AND" = some .and := by decide +kernel
  unfold Reads at h
  have hl : convertList plainEnv plainPrinter.text []
      [.cond (rawRule b!"ssf" Ge' b!"71"), .cond (rawRule b!"dayofweek" Eq' b!"xyz")] =
      .ok (some [.rule r']) := by
    rw [convertList, h]
    simp only [push_usable true [] hu]
    rw [convertList, sample_unread]
    rfl
  have hp : plainPrinter.text (.rules .and false [.rule r']) = b!"ssf" := by
    show plainText _ = _
    rw [plainText, plainTexts, plainTexts, ht]; rfl
  have hc : BCtx.anyCrashes [.rule r'] = false := by
    rw [Bool.eq_false_iff, ne_eq, anyCrashes_iff]
    rintro ⟨x, hx, hxc⟩
    simp only [BCtx.leavesAll, BCtx.leaves, List.append_nil, List.mem_singleton] at hx
    obtain ⟨a, ha, hn⟩ := crashes_pair hxc
    exact ssf_printed r' a h (hx ▸ ha) hn
  simp only [parseBindRules, sampleTree, convert, hw, hl, finish, hp, hc]
  simp [uncloakRules, uncloakEntry, isCloaked]

theorem meaning_cut (env : Env) (text : BCtx → Str) (t : PTree) (hk : t.Known) (c : BCtx)
    (h : parseBindRules env text t = .ok c) :
    (∀ neg σ τ, Agree env σ τ → c.eval neg τ = (t.cut (readable env)).eval neg σ) ∧
      ReadsAll env (t.cut (readable env)).conds c.leaves :=
  ⟨fun neg σ τ ha => (convert_sound env text neg σ τ ha t c hk (parse_ok h)).1,
    (convert_sound env text (fun _ => true) (fun _ => true) (fun _ => true) (fun _ _ _ => rfl) t c hk
      (parse_ok h)).2.2⟩

theorem tree_read (env : Env) (P : Printer) (k : Str) (p : Bool) (es : List PTree)
    (hk : (PTree.stack k p es).Known) (hf : (PTree.stack k p es).Filled)
    (hg : ∀ r ∈ (PTree.stack k p es).conds, Good env r) :
    ∃ c, parseBindRules env P.text (.stack k p es) = .ok c := by
  obtain ⟨c, h⟩ := convert_complete env P k p es hk hf hg
  exact ⟨c, by simp [parseBindRules, h]⟩

/-- **C46**, complement: an empty stack is not read. -/
theorem C46_empty (env : Env) (P : Printer) (k : Str) (p : Bool) :
    parseBindRules env P.text (.stack k p []) = .err := by
  unfold parseBindRules
  rw [convert]
  cases wordToStack k with
  | none => rfl
  | some w => simp [convertList, finish, BCtx.anyCrashes, P.no_entry]

/-- The value a bind rule gets from the texts `vs`, by its keyword. -/
def ValueOf (env : Env) (k : BKw) (vs : List Str) : BExpr → Prop
  | .dns d => (k = .userdn ∨ k = .roledn ∨ k = .groupdn) ∧
      DNList.assertBindUGRDN env.eq vs (bkwConst k) = .ok d
  | .ip a => k = .ip ∧ Net.assertBindIP vs = .ok a
  | .fqdn f => k = .dns ∧ Net.assertBindDNS vs = .ok f
  | .uri u => (k = .userattr ∨ k = .groupattr) ∧ ∃ u', u = some u' ∧
      assertBindUGAttr (fun x k => Uri.parseLDAPURI env.eq x [k]) vs (bkwConst k) = .ok (.uri u')
  | .inh i => (k = .userattr ∨ k = .groupattr) ∧
      assertBindUGAttr (fun x k => Uri.parseLDAPURI env.eq x [k]) vs (bkwConst k) = .ok (.inh i)
  | .pair a => (k = .userattr ∨ k = .groupattr) ∧
      assertBindUGAttr (fun x k => Uri.parseLDAPURI env.eq x [k]) vs (bkwConst k) = .ok (.pair a)
  | .dow d => k = .dayofweek ∧ Time.assertBindDayOfWeek env.shifty vs = .ok d
  | .tod t => k = .timeofday ∧ Time.assertBindTimeOfDay vs = .ok t
  | .am a => k = .authmethod ∧
      Sec.assertBindAuthenticationMethod env.names env.names' env.low vs = .ok a
  | .ssf s => k = .ssf ∧ Sec.assertBindSecurityStrengthFactor vs = .ok s
  | _ => False

theorem map_ok_iff {α β : Type} {f : α → β} {o : Outcome α} {b : β} :
    o.map f = .ok b ↔ ∃ a, o = .ok a ∧ f a = b :=
  ⟨map_ok, by rintro ⟨a, rfl, rfl⟩; rfl⟩

theorem ofExcept_ok_iff {α : Type} {o : Except Unit α} {a : α} : Outcome.ofExcept o = .ok a ↔ o = .ok a := by
  cases o <;> simp [Outcome.ofExcept]

theorem ofUGAttr_cases (env : Env) (k : BKw) (hk : k = .userattr ∨ k = .groupattr) (vs : List Str) (ex : BExpr) :
    (∃ a, assertBindUGAttr (fun x k => Uri.parseLDAPURI env.eq x [k]) vs (bkwConst k) = .ok a ∧
      ofUGAttr a = ex) ↔ ValueOf env k vs ex := by
  have h1 : k ≠ .userdn ∧ k ≠ .roledn ∧ k ≠ .groupdn ∧ k ≠ .ip ∧ k ≠ .dns ∧ k ≠ .dayofweek ∧
      k ≠ .timeofday ∧ k ≠ .authmethod ∧ k ≠ .ssf := by
    rcases hk with rfl | rfl <;> decide
  constructor
  · rintro ⟨a, h, rfl⟩
    cases a with
    | uri u => exact ⟨hk, u, rfl, h⟩
    | inh i => exact ⟨hk, h⟩
    | pair a => exact ⟨hk, h⟩
  · intro h
    cases ex <;> simp only [ValueOf, h1, false_and, false_or] at h
    · obtain ⟨_, u, rfl, h⟩ := h; exact ⟨_, h, rfl⟩
    · exact ⟨_, h.2, rfl⟩
    · exact ⟨_, h.2, rfl⟩

theorem readBind_value {env : Env} {k : BKw} {vs : List Str} {ex : BExpr} :
    readBind env (bkwConst k) vs = .ok ex ↔ ValueOf env k vs ex := by
  by_cases hk : k = .userattr ∨ k = .groupattr
  · rw [← ofUGAttr_cases env k hk vs ex, ← map_ok_iff]
    have : readBind env (bkwConst k) vs =
        (assertBindUGAttr (fun x k => Uri.parseLDAPURI env.eq x [k]) vs (bkwConst k)).map ofUGAttr := by
      unfold readBind
      rcases hk with rfl | rfl
      all_goals
        rw [if_neg (by decide), if_neg (by decide), if_neg (by decide), if_pos (by decide)]
    rw [this]
  · unfold readBind
    cases k
    all_goals first
      | exact absurd (Or.inl rfl) hk
      | exact absurd (Or.inr rfl) hk
      | skip
    all_goals
      simp only [bkwConst]
      repeat first | rw [if_pos (by decide)] | rw [if_neg (by decide)]
      rw [map_ok_iff]
      simp only [ofExcept_ok_iff]
      constructor
      · rintro ⟨a, h, rfl⟩; exact ⟨by simp, h⟩
      · intro h
        cases ex <;> simp [ValueOf] at h
        exact ⟨_, h, rfl⟩

theorem condition_read (env : Env) (r : BRule) (k : BKw) (style : Int) (vs : List Str)
    (h : RawBind r k style vs) :
    (∀ r', Reads env r r' → r'.core = r.core ∧ r'.paren = r.paren ∧ ValueOf env k vs r'.ex) ∧
    (∀ ex, ValueOf env k vs ex → ∃ r', Reads env r r' ∧ r'.ex = ex) := by
  obtain ⟨hk, hx⟩ := h
  have key : matchBKW (BindKeyword.string r.keyword) = bkwConst k := by
    rw [BRule.keyword, matchBKW_again, (matchBKW_iff _ k).2 hk]
  constructor
  · intro r' hr
    have hkn := reads_known hr
    refine ⟨hkn.1, hkn.2.1, ?_⟩
    simp only [Reads, BRule.assertValue, hx, key] at hr
    obtain ⟨ex, h1, h2⟩ := map_ok hr
    rw [← h2, (setQuoteStyle_kept _ _).2.2]
    exact readBind_value.1 h1
  · intro ex hv
    refine ⟨(r.setExpression ex).setQuoteStyle style, ?_, (setQuoteStyle_kept _ _).2.2⟩
    simp only [Reads, BRule.assertValue, hx, key, readBind_value.2 hv, Outcome.map]

example : RawBind (rawRule b!"SSF" Ge' b!"71") .ssf 0 [b!"71"] ∧
    ∃ ex, ValueOf plainEnv .ssf [b!"71"] ex := by
  refine ⟨⟨by decide, rfl⟩, ?_⟩
  obtain ⟨r', h, _, _⟩ := sample_read
  exact ⟨_, ((condition_read plainEnv (rawRule b!"ssf" Ge' b!"71") .ssf 0 _ ⟨by decide, rfl⟩).1 r' h).2.2⟩

/-- A tree that meets the hypotheses: `(ssf >= "71" OR ssf >= "71") AND NOT ssf >= "71"`. -/
def nestedTree : PTree :=
  .stack b!"and" false [.stack b!"OR" true [.cond (rawRule b!"ssf" Ge' b!"71"), .cond (rawRule b!"ssf" Ge' b!"71")],
    .stack b!"AND NOT" false [.cond (rawRule b!"ssf" Ge' b!"71")]]

theorem nested_known : nestedTree.Known ∧ nestedTree.Filled ∧ ∀ r ∈ nestedTree.conds, Good plainEnv r := by
  have hg : Good plainEnv (rawRule b!"ssf" Ge' b!"71") := by
    obtain ⟨r', h, _, _⟩ := sample_read
    exact ⟨readable_of h, rfl, by decide, ssf_printed⟩
  refine ⟨?_, ?_, ?_⟩
  · simp only [nestedTree, PTree.Known, PTree.AllKnown]; decide
  · simp [nestedTree, PTree.Filled, PTree.AllFilled]
  · intro r hr
    simp [nestedTree, PTree.conds, PTree.condsAll] at hr
    rw [hr]; exact hg

/-! ## C47 -/

/-- The entries correspond one by one. -/
inductive Pairwise2 (R : BCtx → BCtx → Prop) : List BCtx → List BCtx → Prop where
  | nil : Pairwise2 R [] []
  | cons {a b : BCtx} {l m : List BCtx} : R a b → Pairwise2 R l m → Pairwise2 R (a :: l) (b :: m)

/-- **C47.** Every entry of the stack loses its envelopes, all of them, and nothing else;
word and parentheses of the stack stay. -/
theorem C47_entries (w : Word) (p : Bool) (es : List BCtx) :
    ∃ es', uncloakRules (.rules w p es) = .rules w p es' ∧
      Pairwise2 (fun e e' => Strips e e' ∧ ¬ ∃ x, Envelope e' x) es es' := by
  refine ⟨es.map uncloakEntry, rfl, ?_⟩
  induction es with
  | nil => exact .nil
  | cons e es ih => exact .cons (uncloakEntry_strips e) ih

/-- **C47.** The truth value stays the same under every assignment, and so do the rules
and their order and the numbers of negations and of groups in parentheses. -/
theorem C47_meaning (c : BCtx) :
    (∀ neg τ, (uncloakRules c).eval neg τ = c.eval neg τ) ∧ (uncloakRules c).leaves = c.leaves ∧
      (uncloakRules c).nots = c.nots ∧ (uncloakRules c).groups = c.groups :=
  ⟨fun neg τ => uncloakRules_eval neg τ c, uncloakRules_leaves c, uncloakRules_nots c,
    uncloakRules_groups c⟩

/-- **C47.** A negation, a group in parentheses, a stack with several entries and a
single rule stay as they are. -/
theorem C47_kept (w : Word) (p : Bool) (before after : List BCtx) (e : BCtx)
    (he : (∃ q l, e = .rules .not q l) ∨ (∃ v l, e = .rules v true l) ∨
      (∃ v q a b l, e = .rules v q (a :: b :: l)) ∨ ∃ r, e = .rule r) :
    ∃ b' a', uncloakRules (.rules w p (before ++ e :: after)) = .rules w p (b' ++ e :: a') ∧
      b'.length = before.length := by
  refine ⟨before.map uncloakEntry, after.map uncloakEntry, ?_, by simp⟩
  have : uncloakEntry e = e := by
    unfold uncloakEntry
    rw [if_neg]
    rw [cloaked_iff]
    rintro ⟨x, hx⟩
    cases hx with
    | mk hw hs =>
      rcases he with ⟨q, l, h⟩ | ⟨v, l, h⟩ | ⟨v, q, a, b, l, h⟩ | ⟨r, h⟩
      · simp at h; exact hw h.1
      · simp at h
      · simp at h
      · simp at h
  simp [uncloakRules, this]

/-- An envelope around a group, next to a negation. -/
def sampleCtx : BCtx :=
  .rules .and false [.rules .or false [.rules .and false [.rules .or true [.rule badBindRule]]],
    .rules .not false [.rules .and false [.zero]]]

example : uncloakRules sampleCtx =
    .rules .and false [.rules .or true [.rule badBindRule], .rules .not false [.rules .and false [.zero]]] := by
  simp [uncloakRules, sampleCtx, uncloakEntry, isCloaked, uncloak, BCtx.isStack]

example : Strips (.rules .or false [.rules .and false [.rules .or true [.rule badBindRule]]])
    (.rules .or true [.rule badBindRule]) :=
  .step (.mk (by decide) rfl) (.step (.mk (by decide) rfl) (.done _))

/-! ## C48 -/

/-- **C48**, the full claim: no invalid rule is accepted. -/
def OnlyValid : Prop :=
  ∀ (h : List BCall) (r : BRule), .rule r ∈ h.foldl BCall.run [] → r.valid = true

/-- A rule without operator: `BR("userdn", "blarg", "x")`. -/
def noOperator : BRule := BR (.str b!"userdn") (.str b!"blarg") (.text b!"x")

/-- **C48** does not hold: a rule without operator is not valid, but it is accepted. -/
theorem C48_counterexample : ¬ OnlyValid ∧ noOperator.valid = false := by
  have hv : noOperator.valid = false := by decide +kernel
  refine ⟨fun h => ?_, hv⟩
  have := h [.push true [.ctx (.rule noOperator)]] noOperator (by
    have hu : Usable (.rule noOperator) := ⟨.userdn, by decide +kernel⟩
    simp only [List.foldl_cons, List.foldl_nil, BCall.run, push_usable true [] hu, List.nil_append,
      List.mem_singleton])
  rw [hv] at this; cases this

/-- **C48**, what holds: after any history every entry is an initialized list, or a rule
with a bind keyword.  (Missing from the full claim: operator and expression of a rule.) -/
theorem C48_entries_partial (h : List BCall) : ∀ c ∈ h.foldl BCall.run [], Usable c := by
  suffices H : ∀ es : List BCtx, (∀ c ∈ es, Usable c) → ∀ c ∈ h.foldl BCall.run es, Usable c from
    H [] (by simp)
  induction h with
  | nil => exact fun es hes => hes
  | cons k h ih =>
    intro es hes
    rw [List.foldl_cons]
    apply ih
    cases k with
    | pop => exact fun c hc => hes c (List.dropLast_subset es hc)
    | push stop xs =>
      refine Rules.stackPush_inv (P := fun es => ∀ c ∈ es, Usable c) ?_ xs hes
      intro es x e hes he c hc
      rcases List.mem_append.1 hc with hc | hc
      · exact hes c hc
      · simp only [List.mem_singleton] at hc
        subst hc
        cases x with
        | other => cases he
        | ctx d =>
          by_cases hd : Usable d
          · rw [accept_usable hd] at he; cases he; exact hd
          · rw [accept_unusable hd] at he; cases he

/-- What a call of `Push` with these arguments adds, if a refused argument does not end
the call. -/
inductive AddsAll : List BArg → List BCtx → Prop where
  | nil : AddsAll [] []
  | take {c : BCtx} {xs : List BArg} {cs : List BCtx} : Usable c → AddsAll xs cs →
      AddsAll (.ctx c :: xs) (c :: cs)
  | skip {x : BArg} {xs : List BArg} {cs : List BCtx} : (∀ c, x = .ctx c → ¬ Usable c) → AddsAll xs cs →
      AddsAll (x :: xs) cs

/-- **C48.** Usable contexts are appended in their order, others are not; if a refused
argument ends the call, those after it are not either. -/
theorem C48_push (es : List BCtx) (xs : List BArg) (cs : List BCtx) (h : AddsAll xs cs) :
    pushB false es xs = es ++ cs ∧ ∃ n, pushB true es xs = es ++ cs.take n ∧
      ((∀ x ∈ xs, ∃ c, x = .ctx c ∧ Usable c) → n = cs.length) := by
  induction h generalizing es with
  | nil => exact ⟨by simp [pushB, stackPush], 0, by simp [pushB, stackPush], fun _ => rfl⟩
  | @take c xs cs hc _ ih =>
    obtain ⟨h1, n, h2, h3⟩ := ih (es ++ [c])
    simp only [pushB] at h1 h2 ⊢
    simp only [stackPush, accept_usable hc]
    refine ⟨by rw [h1]; simp, n + 1, by rw [h2]; simp, fun hx => ?_⟩
    rw [h3 fun x hm => hx x (by simp [hm])]; rfl
  | @skip x xs cs hx _ ih =>
    have hn : acceptB x = none := by
      cases x with
      | other => rfl
      | ctx c => exact accept_unusable (hx c rfl)
    simp only [pushB, stackPush, hn]
    refine ⟨(ih es).1, 0, by simp, fun hy => ?_⟩
    obtain ⟨c, h1, h2⟩ := hy x (by simp)
    exact absurd h2 (hx c h1)

/-- **C48.** `Pop` undoes a push. -/
theorem C48_pop (stop : Bool) (es : List BCtx) (c : BCtx) (h : Usable c) :
    popB (pushB stop es [.ctx c]) = (es, some c) := by
  rw [push_usable stop es h]; simp [popB]

example : Usable (.rule noOperator) ∧ ¬ Usable (.rule badBindRule) ∧
    AddsAll [.ctx (.rule badBindRule), .ctx (.rule noOperator), .other] [.rule noOperator] := by
  have h1 : Usable (.rule noOperator) := ⟨.userdn, by decide +kernel⟩
  have h2 : ¬ Usable (.rule badBindRule) := by
    rintro ⟨k, hk⟩; cases k <;> exact absurd hk (by decide)
  exact ⟨h1, h2, .skip (fun c h => by cases h; exact h2) (.take h1 (.skip (fun c h => by cases h) .nil))⟩

/-! ## C16 -/

/-- A timeofday rule with operator `q` and clock time `h:m`. -/
def ClockRule (r : BRule) (q : Rel) (h m : Nat) : Prop :=
  r.core.init = true ∧ Str.eqFold r.core.kw BKw.timeofday.name = true ∧ r.core.op = relConst q ∧
    ∃ t, r.ex = .tod t ∧ Time.TimeOfDay.string t = clockText h m

/-- The truth values of timeofday rules at `h:m`. -/
def AtClock (h m : Nat) (τ : BRule → Bool) : Prop :=
  ∀ r q h' m', Clock h' m' → ClockRule r q h' m' → τ r = q.holds (60 * h + m) (60 * h' + m')

theorem todCond_clock (q : Rel) (t : Time.TimeOfDay) (h m : Nat) (ht : Time.TimeOfDay.string t = clockText h m) :
    ClockRule (todCond (relConst q) t) q h m ∧ (todCond (relConst q) t).valid = true ∧
      Usable (.rule (todCond (relConst q) t)) := by
  have hv : Time.TimeOfDay.valid t = true := by
    cases t with
    | none =>
      exfalso
      have : (b!"<invalid_timeofday>").length = (clockText h m).length := by rw [← ht]; rfl
      simp [clockText, twoDigits] at this
    | some b => rfl
  have hc : (todCond (relConst q) t).core = ⟨true, BKw.timeofday.name, relConst q⟩ := by
    simp only [todCond, hv, if_true, BR]
    cases q <;> decide +kernel
  have hx : (todCond (relConst q) t).ex = .tod t := by simp only [todCond, hv, if_true, BR]
  refine ⟨⟨by rw [hc], by rw [hc]; simp [bname_eqFold], by rw [hc], t, hx, ht⟩, ?_, ?_⟩
  · have h0 := relConst_ne q
    have h1 : BKw.timeofday.name ≠ [] := by decide
    simp [BRule.valid, BRule.isZero, BRule.condOk, hc, hx, BExpr.isNil, h0, h1]
  · exact ⟨.timeofday, by rw [hc]; simp [bname_eqFold]⟩

/-- **C16.** `Timeframe(a, b)` is the conjunction of a timeofday rule `>= a` and one
`< b`, in this order, both valid; at the clock time `h:m` it is true exactly when
`a <= h:m < b`. -/
theorem C16_timeframe (stop : Bool) (a b : Time.TimeOfDay) (ha ma hb mb : Nat) (hca : Clock ha ma)
    (hcb : Clock hb mb) (hsa : Time.TimeOfDay.string a = clockText ha ma)
    (hsb : Time.TimeOfDay.string b = clockText hb mb) :
    ∃ r₁ r₂, timeframe stop a b = .rules .and false [.rule r₁, .rule r₂] ∧ ClockRule r₁ .ge ha ma ∧
      ClockRule r₂ .lt hb mb ∧ r₁.valid = true ∧ r₂.valid = true ∧
      ∀ h m neg τ, AtClock h m τ → ((timeframe stop a b).eval neg τ = true ↔
        60 * ha + ma ≤ 60 * h + m ∧ 60 * h + m < 60 * hb + mb) := by
  obtain ⟨a1, a2, a3⟩ := todCond_clock .ge a ha ma hsa
  obtain ⟨b1, b2, b3⟩ := todCond_clock .lt b hb mb hsb
  have e : timeframe stop a b = .rules .and false [.rule (todCond (relConst .ge) a), .rule (todCond (relConst .lt) b)] := by
    show BCtx.rules .and false (pushB stop [] [.ctx (.rule (todCond (relConst .ge) a)),
      .ctx (.rule (todCond (relConst .lt) b))]) = _
    simp only [pushB, stackPush, accept_usable a3, accept_usable b3, List.nil_append, List.cons_append]
  refine ⟨_, _, e, a1, b1, a2, b2, fun h m neg τ hτ => ?_⟩
  rw [e]
  simp only [BCtx.eval, BCtx.evals, Word.eval, hτ _ _ _ _ hca a1, hτ _ _ _ _ hcb b1, Rel.holds]
  simp

/-- **C16**, from texts and from times. -/
theorem C16_from (h m : Nat) :
    (Clock h m → Time.TimeOfDay.string (Time.ToD [.str (clockText h m)]) = clockText h m) ∧
    (h < 24 → m < 60 → Time.TimeOfDay.string (Time.ToD [.time false h m]) = clockText h m) := by
  refine ⟨fun hc => Time.clock_string ?_, fun hh hm => Time.time_table h m hh hm⟩
  rcases hc with ⟨hh, hm⟩ | ⟨rfl, rfl⟩
  · exact Or.inl ⟨h, m, hh, hm, rfl⟩
  · exact Or.inr rfl

/-- The text of a clock time determines it. -/
theorem clockText_inj {h m h' m' : Nat} (hc : Clock h m) (hc' : Clock h' m')
    (e : clockText h m = clockText h' m') : h = h' ∧ m = m' := by
  simp only [clockText, twoDigits, List.cons_append, List.nil_append, List.cons.injEq, and_true] at e
  obtain ⟨e1, e2, e3, e4⟩ := e
  have key : ∀ x y : Nat, x < 10 → y < 10 → UInt8.ofNat (48 + x) = UInt8.ofNat (48 + y) → x = y := by
    intro x y hx hy hxy
    have := congrArg UInt8.toNat hxy
    simp only [UInt8.toNat_ofNat'] at this
    omega
  have hb : h < 100 ∧ m < 100 ∧ h' < 100 ∧ m' < 100 := by
    rcases hc with ⟨_, _⟩ | ⟨_, _⟩ <;> rcases hc' with ⟨_, _⟩ | ⟨_, _⟩ <;> omega
  have k1 := key _ _ (by omega) (by omega) e1
  have k2 := key _ _ (by omega) (by omega) e2
  have k3 := key _ _ (by omega) (by omega) e3
  have k4 := key _ _ (by omega) (by omega) e4
  omega

/-- For every clock time there are such truth values. -/
theorem atClock_exists (h m : Nat) : ∃ τ, AtClock h m τ := by
  classical
  refine ⟨fun r => decide (∃ q h' m', Clock h' m' ∧ ClockRule r q h' m' ∧
    q.holds (60 * h + m) (60 * h' + m') = true), ?_⟩
  intro r q h' m' hc hr
  rw [Bool.eq_iff_iff, decide_eq_true_eq]
  constructor
  · rintro ⟨q2, h2, m2, hc2, ⟨_, _, hq2, t2, ht2, hs2⟩, hh⟩
    obtain ⟨_, _, hq, t, ht, hs⟩ := hr
    have hqq : q2 = q := relConst_inj (hq2.symm.trans hq)
    have htt : t2 = t := by rw [ht] at ht2; cases ht2; rfl
    subst hqq; subst htt
    rw [hs] at hs2
    obtain ⟨rfl, rfl⟩ := clockText_inj hc hc2 hs2
    exact hh
  · intro hh; exact ⟨q, h', m', hc, hr, hh⟩

example : Clock 8 30 ∧ Clock 24 0 ∧ Time.TimeOfDay.string (Time.ToD [.str b!"0830"]) = clockText 8 30 :=
  ⟨Or.inl ⟨by decide, by decide⟩, Or.inr ⟨rfl, rfl⟩, (C16_from 8 30).1 (Or.inl ⟨by decide, by decide⟩)⟩

/-! ## C64 -/

/-- The zero rule. -/
def noRule : BRule := ⟨⟨false, [], 0⟩, .nil, false, false, false⟩

/-- The dayofweek rule with operator `q` on the days `held`. -/
def DayRule (S : Shifty 8) (held : Weekday → Bool) (q : Rel) (r : BRule) : Prop :=
  r.valid = true ∧ r.core = ⟨true, BKw.dayofweek.name, relConst q⟩ ∧
    ∃ d, r.ex = .dow d ∧ Time.string S d = daysText held

/-- **C64**, the full claim for the days `held` and the map of their methods. -/
def DaysClaim (days : Time.DayOfWeek) (held : Weekday → Bool) : Prop :=
  ∀ (S : Shifty 8) (m : List (Cop × BRule)), m.Perm (dowMethods S days) → ∀ a : OpArg,
    (∀ q, IdxDenotes a q → q = .eq ∨ q = .ne → ∃ r, dayRule (some m) a = some r ∧ DayRule S held q r) ∧
    ((∀ q, IdxDenotes a q → q ≠ .eq ∧ q ≠ .ne) → dayRule (some m) a = some noRule)

def isWeekend : Weekday → Bool
  | .sun => true | .sat => true | _ => false

theorem dowCond_rule (S : Shifty 8) (q : Rel) (hq : q = .eq ∨ q = .ne) (v : BitVec 8)
    (h0 : v.getLsbD 0 = false) (hv : v ≠ 0#8) :
    DayRule S (Time.heldOf v) q (dowCond S (relConst q) (some v)) := by
  have hd : Time.valid S (some v) = true := by
    rw [Time.valid_some S v h0]; simpa using hv
  have hc : (dowCond S (relConst q) (some v)).core = ⟨true, BKw.dayofweek.name, relConst q⟩ := by
    simp only [dowCond, hd, if_true, BR]
    rcases hq with rfl | rfl <;> decide +kernel
  have hx : (dowCond S (relConst q) (some v)).ex = .dow (some v) := by simp only [dowCond, hd, if_true, BR]
  refine ⟨?_, hc, _, hx, ?_⟩
  · have h0 := relConst_ne q
    have h1 : BKw.dayofweek.name ≠ [] := by decide
    simp [BRule.valid, BRule.isZero, BRule.condOk, hc, hx, BExpr.isNil, h0, h1]
  · rw [Time.string_some, Time.wordText_eq v h0 hv]

theorem dow_mapOk {S : Shifty 8} {d : Time.DayOfWeek} {m : List (Cop × BRule)}
    (hm : m.Perm (dowMethods S d)) : MapOk m := by
  refine ⟨(hm.map (·.1)).nodup_iff.2 (by simp only [dowMethods, List.map]; decide), fun e he => ?_⟩
  have := hm.mem_iff.1 he
  simp only [dowMethods, List.mem_cons, List.not_mem_nil, or_false] at this
  rcases this with rfl | rfl
  · exact ⟨.eq, rfl⟩
  · exact ⟨.ne, rfl⟩

/-- What `Weekdays` and `Weekend` do. -/
theorem dayRule_spec (S : Shifty 8) (v : BitVec 8) (h0 : v.getLsbD 0 = false) (hv : v ≠ 0#8)
    (m : List (Cop × BRule)) (hm : m.Perm (dowMethods S (some v))) (a : OpArg) :
    (∀ q, IdxDenotesMod a q → q = .eq ∨ q = .ne →
      ∃ r, dayRule (some m) a = some r ∧ DayRule S (Time.heldOf v) q r) ∧
    ((∀ q, IdxDenotesMod a q → q ≠ .eq ∧ q ≠ .ne) → dayRule (some m) a = some noRule) := by
  have hok := dow_mapOk hm
  have hi := C20_bind_index_partial m hok a
  refine ⟨fun q hq hq' => ?_, fun hn => ?_⟩
  · have := (hi q (dowCond S (relConst q) (some v))).2 ⟨hq, by
      rw [hm.mem_iff]
      rcases hq' with rfl | rfl <;> simp [dowMethods, relConst]⟩
    refine ⟨_, ?_, dowCond_rule S q hq' v h0 hv⟩
    simp only [dayRule, this]
    rw [if_pos ((valid_cop_iff _).2 ⟨q, rfl⟩)]
  · rcases bind_index_shape m hok a with h | ⟨q, f, h⟩
    · simp only [dayRule, h]
      rw [if_neg (by decide)]
      rfl
    · obtain ⟨h1, h2⟩ := (hi q f).1 h
      obtain ⟨h3, h4⟩ := hn q h1
      have := hm.mem_iff.1 h2
      simp only [dowMethods, List.mem_cons, List.not_mem_nil, or_false, Prod.mk.injEq] at this
      rcases this with ⟨h, _⟩ | ⟨h, _⟩
      · exact absurd (relConst_inj (q := .eq) h) h3
      · exact absurd (relConst_inj (q := .ne) h) h4

theorem weekdays_word : weekdays = some 124#8 ∧ (fun d => !isWeekend d) = Time.heldOf 124#8 := by
  exact ⟨by decide, by funext d; cases d <;> decide⟩

theorem weekend_word : weekend = some 130#8 ∧ isWeekend = Time.heldOf 130#8 := by
  exact ⟨by decide, by funext d; cases d <;> decide⟩

/-- **C64** does not hold: the number 257, which is no operator, gives a rule. -/
theorem C64_counterexample : ¬ DaysClaim weekdays (fun d => !isWeekend d) ∧ ¬ DaysClaim weekend isWeekend := by
  have hd : ∀ q : Rel, ¬ IdxDenotes (.int 257) q := by
    intro q h
    rcases h with h | h
    · simp [OpDenotes] at h
    · cases q <;> simp [Rel.number] at h
  have hm : ∀ q : Rel, IdxDenotesMod (.int 257) q ↔ q = .eq := by
    intro q
    constructor
    · rintro (h | ⟨i, h, h'⟩)
      · simp [OpDenotes] at h
      · cases h; cases q <;> simp [Rel.number] at h' <;> rfl
    · rintro rfl; exact Or.inr ⟨257, rfl, by decide⟩
  have main : ∀ (v : BitVec 8) (held : Weekday → Bool), v.getLsbD 0 = false → v ≠ 0#8 →
      ¬ DaysClaim (some v) held := by
    intro v held h0 hv hcl
    have h1 := (hcl (.anyRef 8) _ (List.Perm.refl _) (.int 257)).2 fun q hq => absurd hq (hd q)
    obtain ⟨r, h2, h3⟩ := (dayRule_spec (.anyRef 8) v h0 hv _ (List.Perm.refl _) (.int 257)).1 .eq
      ((hm _).2 rfl) (Or.inl rfl)
    rw [h1] at h2
    have := h3.1
    rw [← Option.some.inj h2] at this
    cases this
  rw [weekdays_word.1, weekend_word.1]
  exact ⟨main _ _ (by decide) (by decide), main _ _ (by decide) (by decide)⟩

/-- **C64**, what holds: as claimed, numbers taken modulo 256.  (Missing from the full
claim: numbers outside 0..255.) -/
theorem C64_days_partial (S : Shifty 8) (a : OpArg) :
    (∀ m : List (Cop × BRule), m.Perm (dowMethods S weekdays) →
      (∀ q, IdxDenotesMod a q → q = .eq ∨ q = .ne →
        ∃ r, dayRule (some m) a = some r ∧ DayRule S (fun d => !isWeekend d) q r) ∧
      ((∀ q, IdxDenotesMod a q → q ≠ .eq ∧ q ≠ .ne) → dayRule (some m) a = some noRule)) ∧
    (∀ m : List (Cop × BRule), m.Perm (dowMethods S weekend) →
      (∀ q, IdxDenotesMod a q → q = .eq ∨ q = .ne →
        ∃ r, dayRule (some m) a = some r ∧ DayRule S isWeekend q r) ∧
      ((∀ q, IdxDenotesMod a q → q ≠ .eq ∧ q ≠ .ne) → dayRule (some m) a = some noRule)) := by
  rw [weekdays_word.1, weekend_word.1, weekdays_word.2, weekend_word.2]
  exact ⟨fun m hm => dayRule_spec S _ (by decide) (by decide) m hm a,
    fun m hm => dayRule_spec S _ (by decide) (by decide) m hm a⟩

example : daysText (fun d => !isWeekend d) = b!"Mon,Tues,Wed,Thur,Fri" ∧ daysText isWeekend = b!"Sun,Sat" ∧
    IdxDenotesMod (.str b!"not equal TO") .ne :=
  ⟨by decide, by decide, Or.inl (by simp only [OpDenotes]; decide)⟩

/-! ## C66 -/

/-- The keyword argument stands for the bind keyword `k`. -/
def BKwDenotes (a : KwArg) (k : BKw) : Prop :=
  match a with
  | .str s => Str.eqFold s k.name = true
  | .bind c => c = bkwConst k
  | _ => False

theorem bindKeyword_denotes {a : KwArg} {k : BKw} (h : BKwDenotes a k) :
    ∃ s, BindRule.setKeyword ⟨true, [], 0⟩ a = ⟨true, s, 0⟩ ∧ Str.eqFold s k.name = true := by
  cases a with
  | str s => exact ⟨s, rfl, h⟩
  | bind c =>
    simp only [BKwDenotes] at h; subst h
    exact ⟨k.name, by simp [BindRule.setKeyword, bkwConst_string], by simp [bname_eqFold]⟩
  | target c => exact absurd h (by simp [BKwDenotes])
  | other => exact absurd h (by simp [BKwDenotes])

theorem isNil_iff (ex : BExpr) : ex.isNil = false ↔ ex ≠ .nil := by cases ex <;> simp [BExpr.isNil]

/-- **C66**, the full claim. -/
def BindMade : Prop :=
  ∀ (a : KwArg) (o : OpArg) (ex : BExpr), (BR a o ex).valid = true ↔
    ex ≠ .nil ∧ ∃ k q, BKwDenotes a k ∧ OpDenotes o q ∧ k.allows q = true

/-- **C66** does not hold: `BR("blarg", Eq, x)` passes `Valid`. -/
theorem C66_counterexample : ¬ BindMade := by
  intro h
  obtain ⟨_, k, q, hk, _⟩ := (h (.str b!"blarg") (.cop Eq') (.text b!"x")).1 (by decide +kernel)
  cases k <;> exact absurd hk (by simp only [BKwDenotes]; decide)

/-- **C66** for known keywords: `BR` keeps what it is given; an operator the keyword does
not allow, or that is none, is left out, and exactly then, or without expression, the
rule is not valid.  (Missing: unknown keywords.) -/
theorem C66_known_partial (a : KwArg) (k : BKw) (h : BKwDenotes a k) (o : OpArg) (ex : BExpr) :
    (BR a o ex).ex = ex ∧ (BR a o ex).core.init = true ∧
    Str.eqFold (BR a o ex).core.kw k.name = true ∧
    (∀ q, OpDenotes o q → k.allows q = true → (BR a o ex).core.op = relConst q) ∧
    ((∀ q, OpDenotes o q → k.allows q = false) → (BR a o ex).core.op = 0) ∧
    ((BR a o ex).valid = true ↔ ex ≠ .nil ∧ ∃ q, OpDenotes o q ∧ k.allows q = true) := by
  rw [← isNil_iff]
  obtain ⟨s, hs, hk⟩ := bindKeyword_denotes h
  have hset := C18_bind_set_operator ⟨true, s, 0⟩ rfl k hk o
  have hne : s ≠ [] := by
    rintro rfl
    cases k <;> exact absurd hk (by decide)
  have hcore : (BR a o ex).core = BindRule.setOperator ⟨true, s, 0⟩ o := by simp only [BR, hs]
  have hex : (BR a o ex).ex = ex := rfl
  have hall : (∃ q, OpDenotes o q ∧ k.allows q = true ∧
      (BR a o ex).core = ⟨true, s, relConst q⟩) ∨
      ((∀ q, OpDenotes o q → k.allows q = false) ∧ (BR a o ex).core = ⟨true, s, 0⟩) := by
    by_cases hq : ∃ q, OpDenotes o q
    · obtain ⟨q, hq⟩ := hq
      cases ha : k.allows q with
      | true => exact Or.inl ⟨q, hq, ha, by rw [hcore, hset.1 q hq ha]⟩
      | false =>
        refine Or.inr ⟨fun q' hq' => ?_, by rw [hcore, hset.2.1 q hq ha]⟩
        rw [Rules.opDenotes_unique hq' hq]; exact ha
    · exact Or.inr ⟨fun q h => absurd ⟨q, h⟩ hq, by rw [hcore, hset.2.2 fun q h => hq ⟨q, h⟩]⟩
  rcases hall with ⟨q, hq, ha, hc⟩ | ⟨hn, hc⟩
  · have h0 := relConst_ne q
    refine ⟨hex, by rw [hc], by rw [hc]; exact hk, fun q' hq' _ => ?_, fun hn => ?_, ?_⟩
    · rw [hc, Rules.opDenotes_unique hq' hq]
    · rw [hn q hq] at ha; cases ha
    · simp only [BRule.valid, BRule.isZero, BRule.condOk, hc, hex]
      constructor
      · intro h; exact ⟨by simpa [hne, h0] using h, q, hq, ha⟩
      · rintro ⟨h, _⟩; simp [hne, h0, h]
  · refine ⟨hex, by rw [hc], by rw [hc]; exact hk, fun q hq ha => ?_, fun _ => by rw [hc], ?_⟩
    · rw [hn q hq] at ha; cases ha
    · simp only [BRule.valid, BRule.isZero, BRule.condOk, hc, hex]
      constructor
      · intro h; simp at h
      · rintro ⟨_, q, hq, ha⟩; rw [hn q hq] at ha; cases ha

/-- **C66** for what is no bind keyword: the rule keeps a text as its keyword, and the name of a keyword that is
none; it takes no operator but `Eq`, and is valid if it has this operator, an expression and a keyword that is
not empty.  (Missing: it should not be valid.) -/
theorem C66_unknown_partial (a : KwArg) (h : ∀ k, ¬ BKwDenotes a k) (o : OpArg) (ex : BExpr) :
    (BR a o ex).ex = ex ∧ (BR a o ex).core.init = true ∧
    (∀ s, a = .str s → (BR a o ex).core.kw = s) ∧
    (∀ c, a = .bind c → (BR a o ex).core.kw = b!"<invalid_bind_keyword>") ∧
    (∀ k, a = .target (tkwConst k) → (BR a o ex).core.kw = k.name) ∧
    (a = .other → (BR a o ex).core.kw = []) ∧
    (OpDenotes o .eq → (BR a o ex).core.op = relConst .eq) ∧
    (¬ OpDenotes o .eq → (BR a o ex).core.op = 0) ∧
    ((BR a o ex).valid = true ↔ ex ≠ .nil ∧ OpDenotes o .eq ∧ a ≠ .other ∧ a ≠ .str []) := by
  rw [← isNil_iff]
  have tname : ∀ k, TargetKeyword.string (tkwConst k) = k.name := by intro k; cases k <;> decide
  have hbad : ∀ c, a = .bind c → BindKeyword.string c = b!"<invalid_bind_keyword>" := by
    rintro c rfl
    exact (C17_invalid_text c).1 fun k e => h k e.symm
  obtain ⟨s, hs, hk, h0⟩ : ∃ s, BindRule.setKeyword ⟨true, [], 0⟩ a = ⟨true, s, 0⟩ ∧
      (∀ k : BKw, Str.eqFold s k.name = false) ∧ (s = [] ↔ a = .other ∨ a = .str []) := by
    cases a with
    | str s =>
      exact ⟨s, rfl, fun k => by simpa [BKwDenotes] using h k, by simp⟩
    | bind c =>
      refine ⟨BindKeyword.string c, rfl, fun k => ?_, by simp [hbad c rfl]⟩
      rw [hbad c rfl]
      cases k <;> decide
    | target c =>
      refine ⟨TargetKeyword.string c, rfl, ?_, ?_⟩
      · by_cases hc : ∃ k, tkwConst k = c
        · obtain ⟨k', rfl⟩ := hc
          rw [tname k']
          intro k; cases k <;> cases k' <;> decide
        · rw [(C17_invalid_text c).2.1 fun k e => hc ⟨k, e⟩]
          intro k; cases k <;> decide
      · by_cases hc : ∃ k, tkwConst k = c
        · obtain ⟨k', rfl⟩ := hc
          rw [tname k']
          cases k' <;> simp [TKw.name]
        · rw [(C17_invalid_text c).2.1 fun k e => hc ⟨k, e⟩]; simp
    | other => exact ⟨[], rfl, fun k => by cases k <;> decide, by simp⟩
  have hcore : (BR a o ex).core = BindRule.setOperator ⟨true, s, 0⟩ o := by simp only [BR, hs]
  have hex : (BR a o ex).ex = ex := rfl
  have hset := (C18_unknown_keyword ⟨true, s, 0⟩ rfl o).1 hk
  have hkw : (BR a o ex).core.kw = s := by
    rw [hcore]
    by_cases ho : OpDenotes o .eq
    · rw [hset.1 ho]
    · rw [hset.2 ho]
  refine ⟨hex, ?_, ?_, ?_, ?_, ?_, ?_, ?_, ?_⟩
  · rw [hcore]
    by_cases ho : OpDenotes o .eq
    · rw [hset.1 ho]
    · rw [hset.2 ho]
  · rintro t rfl; rw [hkw]; exact (congrArg RuleCore.kw hs).symm
  · rintro c rfl; rw [hkw, ← hbad c rfl]; exact (congrArg RuleCore.kw hs).symm
  · rintro k rfl; rw [hkw, ← tname k]; exact (congrArg RuleCore.kw hs).symm
  · rintro rfl; rw [hkw]; exact h0.2 (.inl rfl)
  · intro ho; rw [hcore, hset.1 ho]
  · intro ho; rw [hcore, hset.2 ho]
  · have hv : (BR a o ex).valid = true ↔ ex.isNil = false ∧ (BR a o ex).core.op ≠ 0 ∧ s ≠ [] := by
      simp only [BRule.valid, BRule.isZero, BRule.condOk, hkw, hex]
      have : (BR a o ex).core.init = true := by
        rw [hcore]
        by_cases ho : OpDenotes o .eq
        · rw [hset.1 ho]
        · rw [hset.2 ho]
      rw [this]
      simp
      constructor
      · rintro ⟨⟨a, b⟩, c⟩; exact ⟨c, b, a⟩
      · rintro ⟨c, b, a⟩; exact ⟨⟨a, b⟩, c⟩
    rw [hv]
    refine and_congr_right fun _ => and_congr ?_ (by rw [ne_eq, h0]; simp)
    by_cases ho : OpDenotes o .eq
    · simp only [ho, iff_true, hcore, hset.1 ho]; decide
    · simp [ho, hcore, hset.2 ho]

example : (∀ k, ¬ BKwDenotes (.str b!"blarg") k) ∧ OpDenotes (.str b!"=") .eq ∧
    (BR (.str b!"blarg") (.str b!"=") (.text b!"x")).valid = true := by
  refine ⟨fun k => by cases k <;> simp only [BKwDenotes] <;> decide, by simp only [OpDenotes]; decide, by decide⟩

example : BKwDenotes (.str b!"SSF") .ssf ∧ OpDenotes (.str b!">=") .ge ∧ BKw.ssf.allows .ge = true :=
  ⟨by simp only [BKwDenotes]; decide, by simp only [OpDenotes]; decide, rfl⟩

end Verif.Bind
