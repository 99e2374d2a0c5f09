import Verif.Spec.RoundTrip
import Verif.Props.BindText
import Verif.Props.ValuesRead

/-!
# C99: what is read prints as the text it was read from
-/

namespace Verif.Back
open Verif Verif.Spec Verif.Bind Verif.Rules Verif.Builders

/-! ## Uncloaking keeps the text -/

theorem text_envelope (val : BExpr → List Str) (many : Bool → List Str → Str) {w : Word} (hw : w ≠ .not) (e : BCtx) :
    (BCtx.rules w false [e]).text val many = e.text val many := by
  simp only [BCtx.text, BCtx.texts]
  by_cases h : e.text val many = []
  · rw [if_pos h, h]
    cases w <;> rfl
  · rw [if_neg h]
    cases w <;> first | exact absurd rfl hw | simp [stackText, Str.join, wrapIf]

theorem cloaked_form {c : BCtx} (h : isCloaked c = true) :
    ∃ w e, c = .rules w false [e] ∧ w ≠ .not ∧ e.isStack = true := by
  cases c with
  | rule r => cases h
  | zero => cases h
  | rules w p es =>
    match es, h with
    | [], h => cases h
    | [e], h =>
      simp only [isCloaked, Bool.and_eq_true, Bool.not_eq_true', decide_eq_true_eq] at h
      exact ⟨w, e, by rw [h.2], by simpa using h.1.1, h.1.2⟩
    | _ :: _ :: _, h => cases h

theorem uncloak_text (val : BExpr → List Str) (many : Bool → List Str → Str) : ∀ (c : BCtx), isCloaked c = true →
    (uncloak c).text val many = c.text val many
  | .rule _, h => by cases h
  | .zero, h => by cases h
  | .rules w p [], h => by cases h
  | .rules w p (e :: []), h => by
    obtain ⟨w', e', he, hw, -⟩ := cloaked_form h
    cases he
    rw [text_envelope val many hw, uncloak]
    split
    · next hc => exact uncloak_text val many _ hc
    · rfl
  | .rules w p (_ :: _ :: _), h => by cases h

theorem uncloakEntry_text (val : BExpr → List Str) (many : Bool → List Str → Str) (e : BCtx) :
    (uncloakEntry e).text val many = e.text val many := by
  unfold uncloakEntry
  split
  · next h => exact uncloak_text val many e h
  · rfl

theorem texts_uncloak (val : BExpr → List Str) (many : Bool → List Str → Str) (es : List BCtx) :
    BCtx.texts val many (es.map uncloakEntry) = BCtx.texts val many es := by
  induction es with
  | nil => rfl
  | cons e es ih => simp only [List.map_cons, BCtx.texts, uncloakEntry_text, ih]

theorem texts_append (val : BExpr → List Str) (many : Bool → List Str → Str) (xs ys : List BCtx) :
    BCtx.texts val many (xs ++ ys) = BCtx.texts val many xs ++ BCtx.texts val many ys := by
  induction xs with
  | nil => rfl
  | cons e es ih =>
    simp only [List.cons_append, BCtx.texts, ih]
    split <;> simp

/-! ## Conditions -/

theorem sliceAfter_dns {q : BRule} {k : BKw} (hk : demandsB k = .names) (hq : Str.eqFold q.core.kw k.name = true)
    (d : DNList.BDNs) (style : Int) :
    ({ q with ex := .dns d } : BRule).sliceAfter style = some (quoteSlices d.entries.length style) := by
  have hm : matchBKW q.core.kw = bkwConst k := (matchBKW_iff _ k).2 hq
  have : matchBKW q.core.kw = BindUDN ∨ matchBKW q.core.kw = BindGDN ∨ matchBKW q.core.kw = BindRDN := by
    rw [hm]; cases k <;> first | decide | exact absurd hk (by decide)
  exact if_pos this

theorem quote_single (b : Bool) (v : Str) :
    quoteIf (!b) (Str.join b!" || " ([v].map (quoteIf b))) = quoteIf true v := by
  cases b <;> rfl

theorem read_text {F : EqualFold} {env : Env} (hP : Proper env F) {P : Printing} {q : BRule} (h : Standard F P q) :
    ∃ r', q.assertValue env = .ok r' ∧ r'.text (BExpr.texts P) = (shownCond q).text (BExpr.texts P) ∧
      Usable (.rule r') := by
  obtain ⟨hs, k, style, vs, x, ⟨hk, hx⟩, hv, ht, hst⟩ := h
  obtain ⟨r', hr, hrx⟩ := (C84_value F env hP q k style vs ⟨hk, hx⟩ x).2 hv
  have hr' : r' = ({ q with ex := x } : BRule).setQuoteStyle style := by
    simp only [Reads, BRule.assertValue, hx] at hr
    obtain ⟨y, -, h2⟩ := map_ok hr
    rw [← h2, (setQuoteStyle_kept _ _).2.2] at hrx
    have : y = x := hrx
    have e : q.setExpression x = { q with ex := x } := by
      unfold BRule.setExpression
      rw [hs]
    rw [← h2, this, e]
  refine ⟨r', hr, ?_, k, ?_⟩
  · suffices H : quoteIf r'.outer (Str.join b!" || " ((x.texts P).map (quoteIf r'.slice))) =
        quoteIf (decide (style ≠ 0)) (Str.join b!" || " (vs.map (quoteIf (decide (style = 0))))) by
      obtain ⟨h1, h2, -⟩ := setQuoteStyle_kept ({ q with ex := x } : BRule) style
      have hsc : shownCond q = { q with outer := decide (style ≠ 0), slice := decide (style = 0) } := by
        unfold shownCond; rw [hx]
      rw [hsc]
      rw [← hr'] at h1 h2
      have e : BExpr.texts P q.ex = vs := by rw [hx]; rfl
      simp only [BRule.text, BRule.bare, BRule.isZero, h1, h2, hrx, H, e]
    rw [ht]
    by_cases hn : demandsB k = .names
    · cases hv with
      | @names _ v t vs' hk' _ _ entry _ =>
        have hsl := sliceAfter_dns (q := q) hk' hk
          ⟨bkwConst k, firsts (fun a b => F.eq a.string b.string) ((v :: vs').map entry)⟩ style
        have hlen : (firsts (fun a b => F.eq a.string b.string) ((v :: vs').map entry)).length = (v :: vs').length := by
          have := congrArg List.length ht
          simpa only [BExpr.texts, List.length_map] using this
        rw [hr', BRule.setQuoteStyle, hsl]
        simp only [hlen, quoteSlices]
        by_cases h2 : (v :: vs').length < 2
        · have hs0 : style ≠ 0 := fun e => by have := hst hn e; omega
          simp [hs0, MultivalSliceQuotes]
        · simp only [h2, if_false]; simp [MultivalSliceQuotes]; rfl
      | uri hk' => rw [hn] at hk'; cases hk'
      | inherit hk' => rw [hn] at hk'; cases hk'
      | pair hk' => rw [hn] at hk'; cases hk'
      | address => cases hn
      | host => cases hn
      | noHost => cases hn
      | days => cases hn
      | time => cases hn
      | method => cases hn
      | noFactor => cases hn
      | factor => cases hn
    · have hone : ∃ v, vs = [v] := by cases hv <;> first | exact ⟨_, rfl⟩ | exact absurd (by assumption) hn
      have hnone : ({ q with ex := x } : BRule).sliceAfter style = none := by
        cases hv <;> first | rfl | exact absurd (by assumption) hn
      obtain ⟨v, rfl⟩ := hone
      have e1 : r'.outer = true ∧ r'.slice = false := by
        rw [hr', BRule.setQuoteStyle, hnone]
        exact ⟨rfl, hs⟩
      rw [e1.1, e1.2]
      have := quote_single (decide (style = 0)) v
      rw [show (!decide (style = 0)) = decide (style ≠ 0) by simp] at this
      rw [this]; rfl
  · have := (setQuoteStyle_kept ({ q with ex := x } : BRule) style).1
    rw [← hr'] at this
    rw [this]; exact hk

/-! ## Trees -/

theorem ok_length {s : Str} (h : s ≠ []) : decide (s.length > 0) = true := by
  have := List.length_pos_iff.2 h
  simpa using this

mutual

theorem tree_known : ∀ t : PTree, (treeCtx t).Sound → t.Known
  | .cond q, _ => trivial
  | .other, h => h.elim
  | .stack k p es, h => by
    cases hw : kindOf k with
    | none => simp only [treeCtx, hw] at h; exact h.elim
    | some w =>
      simp only [treeCtx, hw] at h
      exact ⟨by rw [hw]; simp, trees_known es h.2.2⟩

theorem trees_known : ∀ es : List PTree, BCtx.AllSound (treeCtxs es) → PTree.AllKnown es
  | [], _ => trivial
  | e :: es, h => by
    simp only [treeCtxs] at h
    exact ⟨tree_known e h.1, trees_known es h.2⟩

end

/-- What is read has a text. -/
theorem standard_printed {F : EqualFold} {env : Env} (hP : Proper env F) {P : Printing} {q r' : BRule}
    (h : Standard F P q) (hr : Reads env q r') : r'.crashes = false := by
  rw [Bool.eq_false_iff]
  intro hc
  obtain ⟨a, ha, hn⟩ := crashes_pair hc
  obtain ⟨-, k, style, vs, x, hk, hv, ht, -⟩ := h
  obtain ⟨r2, hr2, hx⟩ := (C84_value F env hP q k style vs hk x).2 hv
  have e : r2 = r' := by
    unfold Reads at hr hr2
    rw [hr] at hr2
    exact (Levels.Outcome.ok.inj hr2).symm
  rw [← hx, e, ha] at ht hv
  simp only [BExpr.texts, hn, Option.getD_none] at ht
  subst ht
  cases hv with
  | pair _ hv _ _ hp =>
    rw [inside_iff] at hv
    have e0 : Misc.unquote (Misc.condenseWHSP []) = [] := by decide +kernel
    rw [e0] at hv
    subst hv
    have : ∀ t A, Uri.PairText (bkwConst k) t A → t ≠ [] := by
      intro t A h
      cases h <;> simp
    exact this _ _ hp rfl

theorem standard_uncrashed {F : EqualFold} {env : Env} (hP : Proper env F) {P : Printing} {text : BCtx → Str}
    {es : List PTree} {es' : List BCtx} (hk : PTree.AllKnown es) (hc : ∀ q ∈ PTree.condsAll es, Standard F P q)
    (h : convertList env text [] es = .ok (some es')) : BCtx.anyCrashes es' = false := by
  have hr : ∀ q ∈ PTree.condsAll es, readable env q = true := by
    intro q hq
    obtain ⟨-, k, style, vs, x, hk, hv, -⟩ := hc q hq
    exact (readable_iff hP q).2 ⟨k, style, vs, x, hk, hv⟩
  obtain ⟨new, rfl, -, h3⟩ := convertList_sound env text (fun _ => true) (fun _ => true) (fun _ => true)
    (fun _ _ _ => rfl) es [] es' hk h
  rw [cuts_readable env es hr] at h3
  rw [Bool.eq_false_iff, ne_eq, anyCrashes_iff]
  rintro ⟨x, hx, hxc⟩
  obtain ⟨q, hq, hqx⟩ := readsAll_mem h3 x hx
  rw [standard_printed hP (hc q hq) hqx] at hxc
  cases hxc

mutual

theorem convert_text {F : EqualFold} {env : Env} (hP : Proper env F) (P : Printing) (many : Bool → List Str → Str)
    (k : Str) (p : Bool) : ∀ (es : List PTree), (treeCtx (.stack k p es)).Sound →
    (∀ q ∈ (PTree.stack k p es).conds, Standard F P q) →
    ∃ w es', convert env (BCtx.text (BExpr.texts P) many) (.stack k p es) = .ok (.rules w false es', true) ∧
      kindOf k = some w ∧
      BCtx.texts (BExpr.texts P) many es' = BCtx.texts (BExpr.texts P) many (treeCtxs es)
  | es, hs, hc => by
    cases hw : kindOf k with
    | none => simp only [treeCtx, hw] at hs; exact hs.elim
    | some w =>
      simp only [treeCtx, hw] at hs
      obtain ⟨es', h1, h2⟩ := convertList_text hP P many es [] hs.2.2 (by simpa [PTree.conds] using hc)
      refine ⟨w, es'.map uncloakEntry, ?_, rfl, ?_⟩
      · simp only [convert, wordToStack_kind hw, h1, finish, uncloakRules]
        have : (BCtx.rules w false es').text (BExpr.texts P) many ≠ [] := by
          have hne := (text_disp (BExpr.texts P) many (.rules w false (treeCtxs es)) hs).2
          have e : (BCtx.rules w false es').text (BExpr.texts P) many =
              (BCtx.rules w false (treeCtxs es)).text (BExpr.texts P) many := by
            simp only [BCtx.text, h2, BCtx.texts, List.nil_append]
          rw [e]; exact hne
        rw [ok_length this, standard_uncrashed hP (trees_known es hs.2.2) (by simpa [PTree.conds] using hc) h1]
        rfl
      · rw [texts_uncloak, h2]; rfl

theorem convertList_text {F : EqualFold} {env : Env} (hP : Proper env F) (P : Printing)
    (many : Bool → List Str → Str) : ∀ (es : List PTree) (acc : List BCtx), BCtx.AllSound (treeCtxs es) →
    (∀ q ∈ PTree.condsAll es, Standard F P q) →
    ∃ es', convertList env (BCtx.text (BExpr.texts P) many) acc es = .ok (some es') ∧
      BCtx.texts (BExpr.texts P) many es' =
        BCtx.texts (BExpr.texts P) many acc ++ BCtx.texts (BExpr.texts P) many (treeCtxs es)
  | [], acc, _, _ => ⟨acc, by rw [convertList], by simp [treeCtxs, BCtx.texts]⟩
  | .cond q :: es, acc, hs, hc => by
    obtain ⟨r', h1, h2, h3⟩ := read_text hP (hc q (by simp [PTree.condsAll, PTree.conds]))
    obtain ⟨es', h4, h5⟩ := convertList_text hP P many es (acc ++ [.rule r']) hs.2
      (fun q hq => hc q (by simp [PTree.condsAll, hq]))
    refine ⟨es', ?_, ?_⟩
    · rw [convertList]
      simp only [h1, push_usable true acc h3]
      exact h4
    · rw [h5, texts_append]
      simp only [treeCtxs, treeCtx, BCtx.texts, BCtx.text, h2]
      split <;> simp_all
  | .stack k p sub :: es, acc, hs, hc => by
    obtain ⟨w, es1, h1, hw, h2⟩ := convert_text hP P many k p sub hs.1
      (fun q hq => hc q (by simp only [PTree.condsAll]; exact List.mem_append_left _ hq))
    have hu : Usable (setParen p (.rules w false es1)) := by simp [setParen, uncloakRules, Usable]
    obtain ⟨es', h4, h5⟩ := convertList_text hP P many es (acc ++ [setParen p (.rules w false es1)]) hs.2
      (fun q hq => hc q (by simp [PTree.condsAll, hq]))
    refine ⟨es', ?_, ?_⟩
    · rw [convertList]
      simp only [h1, push_usable true acc hu, if_true]
      exact h4
    · rw [h5, texts_append]
      simp only [treeCtxs, treeCtx, hw, BCtx.texts, BCtx.text, setParen, uncloakRules, texts_uncloak, h2]
      split <;> simp_all
  | .other :: es, acc, hs, _ => by simp only [treeCtxs, treeCtx, BCtx.AllSound, BCtx.Sound] at hs; exact hs.1.elim

end

/-! ## C99 -/

/-- **C99**, trees: what is read prints as the conditions and stacks it was read from.  Missing:
conditions that are not `Standard`, and parentheses around the whole, see `C99_counterexample`. -/
theorem C99_reads_partial (F : EqualFold) (env : Env) (hP : Proper env F) (P : Printing) (many : Bool → List Str → Str)
    (k : Str) (es : List PTree) (hs : (treeCtx (.stack k false es)).Sound)
    (hc : ∀ q ∈ (PTree.stack k false es).conds, Standard F P q) :
    ∃ c, parseBindRules env (BCtx.text (BExpr.texts P) many) (.stack k false es) = .ok c ∧
      c.text (BExpr.texts P) many = (treeCtx (.stack k false es)).text (BExpr.texts P) many := by
  obtain ⟨w, es', h1, hw, h2⟩ := convert_text hP P many k false es hs hc
  refine ⟨.rules w false es', by simp [parseBindRules, h1], ?_⟩
  simp only [treeCtx, hw, BCtx.text, h2]

/-! ## The rules behind a text -/

/-- The texts of the rules, from left to right. -/
def atoms : Disp → List Str
  | .atom s => [s]
  | .par e => atoms e
  | .neg e => atoms e
  | .bin _ a b => atoms a ++ atoms b

theorem atoms_parIf (p : Bool) (e : Disp) : atoms (Disp.parIf p e) = atoms e := by cases p <;> rfl

theorem atoms_cat (c : Bool) : ∀ a b : Disp, atoms (Disp.cat c a b) = atoms a ++ atoms b
  | .bin _ _ b, d => by simp [Disp.cat, atoms, atoms_cat c b d]
  | .atom _, _ => rfl
  | .par _, _ => rfl
  | .neg _, _ => rfl

theorem atoms_ofList (c : Bool) : ∀ ds : List Disp, ds ≠ [] → atoms (Disp.ofList c ds) = ds.flatMap atoms
  | [], h => absurd rfl h
  | [a], _ => by simp [Disp.ofList]
  | a :: b :: t, _ => by
    rw [Disp.ofList, atoms_cat, atoms_ofList c (b :: t) (by simp), List.flatMap_cons (xs := b :: t)]

mutual

theorem atoms_disp (val : BExpr → List Str) : ∀ c : BCtx, c.Sound → atoms (c.disp val) = c.leaves.map (·.bare val)
  | .rule r, _ => by simp [BCtx.disp, atoms_parIf, atoms, BCtx.leaves]
  | .zero, h => h.elim
  | .rules w p es, h => by
    have hne : BCtx.disps val es ≠ [] := fun e => h.1 (List.length_eq_zero_iff.1 (by rw [← disps_length val, e]; rfl))
    have := atoms_disps val es h.2.2
    cases w <;> simp only [BCtx.disp, atoms, atoms_parIf, atoms_ofList _ _ hne, this, BCtx.leaves]

theorem atoms_disps (val : BExpr → List Str) : ∀ es : List BCtx, BCtx.AllSound es →
    (BCtx.disps val es).flatMap atoms = (BCtx.leavesAll es).map (·.bare val)
  | [], _ => rfl
  | e :: es, h => by
    rw [BCtx.disps, List.flatMap_cons, atoms_disp val e h.1, atoms_disps val es h.2, BCtx.leavesAll, List.map_append]

end

mutual

theorem tree_leaves : ∀ t : PTree, (treeCtx t).Sound → (treeCtx t).leaves = t.conds.map shownCond
  | .cond q, _ => rfl
  | .other, h => h.elim
  | .stack k p es, h => by
    cases hw : kindOf k with
    | none => simp only [treeCtx, hw] at h; exact h.elim
    | some w =>
      simp only [treeCtx, hw] at h ⊢
      rw [BCtx.leaves, trees_leaves es h.2.2, PTree.conds]

theorem trees_leaves : ∀ es : List PTree, BCtx.AllSound (treeCtxs es) →
    BCtx.leavesAll (treeCtxs es) = (PTree.condsAll es).map shownCond
  | [], _ => rfl
  | e :: es, h => by
    simp only [treeCtxs] at h ⊢
    rw [BCtx.leavesAll, tree_leaves e h.1, trees_leaves es h.2, PTree.condsAll, List.map_append]

end

mutual

theorem tree_eval (neg : List Bool → Bool) (σ g : BRule → Bool) : ∀ t : PTree, (treeCtx t).Sound →
    (∀ q ∈ t.conds, σ q = g (shownCond q)) → t.eval neg σ = (treeCtx t).eval neg g
  | .cond q, _, h => h q (by simp [PTree.conds])
  | .other, h, _ => h.elim
  | .stack k p es, h, hq => by
    cases hw : kindOf k with
    | none => simp only [treeCtx, hw] at h; exact h.elim
    | some w =>
      simp only [treeCtx, hw] at h ⊢
      simp only [PTree.eval, kindEval, hw, BCtx.eval, trees_eval neg σ g es h.2.2 (by simpa [PTree.conds] using hq)]

theorem trees_eval (neg : List Bool → Bool) (σ g : BRule → Bool) : ∀ es : List PTree, BCtx.AllSound (treeCtxs es) →
    (∀ q ∈ PTree.condsAll es, σ q = g (shownCond q)) → PTree.evals neg σ es = BCtx.evals neg g (treeCtxs es)
  | [], _, _ => rfl
  | e :: es, h, hq => by
    simp only [treeCtxs] at h ⊢
    rw [PTree.evals, BCtx.evals, tree_eval neg σ g e h.1 fun q hm => hq q (by simp [PTree.condsAll, hm]),
      trees_eval neg σ g es h.2 fun q hm => hq q (by simp [PTree.condsAll, hm])]

end

/-! ## Bars -/

/-- Texts without double bars before the next bars. -/
theorem until_bars : ∀ {x y s t : Str}, NoBars x → NoBars y →
    x ++ b!" || " ++ s = y ++ b!" || " ++ t → x = y ∧ s = t
  | [], [], s, t, _, _, h => ⟨rfl, by simpa using h⟩
  | [], y :: ys, s, t, _, hy, h => by
    exfalso
    simp only [List.nil_append, List.cons_append, List.cons.injEq] at h
    obtain ⟨rfl, h⟩ := h
    match ys, h with
    | [], h => simp at h
    | [a], h => simp at h
    | a :: b :: zs, h =>
      simp only [List.cons_append, List.cons.injEq] at h
      obtain ⟨rfl, rfl, -⟩ := h
      exact hy b!" " zs rfl
  | x :: xs, [], s, t, hx, _, h => by
    exfalso
    simp only [List.nil_append, List.cons_append, List.cons.injEq] at h
    obtain ⟨rfl, h⟩ := h
    match xs, h with
    | [], h => simp at h
    | [a], h => simp at h
    | a :: b :: zs, h =>
      simp only [List.cons_append, List.cons.injEq] at h
      obtain ⟨rfl, rfl, -⟩ := h
      exact hx b!" " zs rfl
  | x :: xs, y :: ys, s, t, hx, hy, h => by
    simp only [List.cons_append, List.cons.injEq] at h
    obtain ⟨rfl, h⟩ := h
    obtain ⟨e, e'⟩ := until_bars (x := xs) (y := ys) (fun a b e => hx (x :: a) b (by rw [e]; rfl))
      (fun a b e => hy (x :: a) b (by rw [e]; rfl)) h
    exact ⟨by rw [e], e'⟩

theorem join_bars : ∀ {xs ys : List Str}, xs ≠ [] → ys ≠ [] → (∀ v ∈ xs, NoBars v) → (∀ v ∈ ys, NoBars v) →
    Str.join b!" || " xs = Str.join b!" || " ys → xs = ys
  | [], _, h, _, _, _, _ => absurd rfl h
  | _, [], _, h, _, _, _ => absurd rfl h
  | [x], [y], _, _, _, _, h => by simpa [Str.join] using h
  | [x], y :: y' :: ys, _, _, hx, _, h => by
    exfalso
    refine hx x (by simp) (y ++ b!" ") (b!" " ++ Str.join b!" || " (y' :: ys)) ?_
    rw [show Str.join b!" || " [x] = x from rfl] at h
    rw [h, Str.join]
    simp
  | x :: x' :: xs, [y], _, _, _, hy, h => by
    exfalso
    refine hy y (by simp) (x ++ b!" ") (b!" " ++ Str.join b!" || " (x' :: xs)) ?_
    rw [show Str.join b!" || " [y] = y from rfl] at h
    rw [← h, Str.join]
    simp
  | x :: x' :: xs, y :: y' :: ys, _, _, hx, hy, h => by
    obtain ⟨e, e'⟩ := until_bars (hx x (by simp)) (hy y (by simp))
      (s := Str.join b!" || " (x' :: xs)) (t := Str.join b!" || " (y' :: ys)) h
    have := join_bars (by simp) (by simp) (fun v hv => hx v (List.mem_cons_of_mem _ hv))
      (fun v hv => hy v (List.mem_cons_of_mem _ hv)) e'
    rw [e, this]

theorem bare_values {val : BExpr → List Str} {r r' : BRule} (h : Shown val r) (h' : Shown val r')
    (hb : ∀ v ∈ val r.ex, NoBars v) (hb' : ∀ v ∈ val r'.ex, NoBars v) (e : r.bare val = r'.bare val) :
    r.core.kw = r'.core.kw ∧ r.core.op = r'.core.op ∧ val r.ex = val r'.ex := by
  have ha := bare_asks val r r' h h' e
  simp only [BRule.asks, Prod.mk.injEq] at ha
  obtain ⟨e1, e2, e3⟩ := ha
  refine ⟨e1, e2, ?_⟩
  have one : ∀ {xs ys : List Str}, xs ≠ [] → ys ≠ [] → (∀ v ∈ xs, NoBars v) → (∀ v ∈ ys, NoBars v) →
      xs = [Str.join b!" || " ys] → xs = ys := by
    intro xs ys hx hy hbx hby e
    refine join_bars hx hy hbx hby ?_
    rw [e]; rfl
  cases hs : r.slice <;> cases hs' : r'.slice <;> simp only [hs, hs', Bool.false_eq_true, if_false, if_true] at e3
  · exact join_bars h.2.2.1 h'.2.2.1 hb hb' (by simpa using e3)
  · exact (one h'.2.2.1 h.2.2.1 hb' hb e3.symm).symm
  · exact one h.2.2.1 h'.2.2.1 hb hb' e3
  · exact e3

/-! ## What is printed is read again -/

mutual

theorem sound_leaves : ∀ c : BCtx, c.Sound → ∀ r ∈ c.leaves, r.valid = true
  | .rule r, h => fun r' hr => by rw [BCtx.leaves, List.mem_singleton] at hr; rw [hr]; exact h
  | .zero, h => h.elim
  | .rules w p es, h => by rw [BCtx.leaves]; exact sounds_leaves es h.2.2

theorem sounds_leaves : ∀ es : List BCtx, BCtx.AllSound es → ∀ r ∈ BCtx.leavesAll es, r.valid = true
  | [], _ => by simp [BCtx.leavesAll]
  | e :: es, h => by
    intro r hr
    rw [BCtx.leavesAll, List.mem_append] at hr
    exact hr.elim (sound_leaves e h.1 r) (sounds_leaves es h.2 r)

end

theorem shownCond_raw {q : BRule} {style : Int} {vs : List Str} (h : q.ex = .raw style vs) :
    shownCond q = { q with outer := decide (style ≠ 0), slice := decide (style = 0) } := by
  unfold shownCond; rw [h]

theorem shownCond_ex (q : BRule) : (shownCond q).ex = q.ex ∧ (shownCond q).core = q.core := by
  unfold shownCond; split <;> exact ⟨rfl, rfl⟩

theorem fair_shown (P : Printing) {q : BRule} (h : FairCond q) :
    Shown (BExpr.texts P) (shownCond q) ∧ ∀ v ∈ (shownCond q).ex.texts P, NoBars v := by
  obtain ⟨-, hk, ho, -, style, vs, hx, hne, hv, -⟩ := h
  rw [shownCond_raw hx]
  have e : BExpr.texts P q.ex = vs := by rw [hx]; rfl
  refine ⟨⟨hk, ho, ?_, ?_, ?_⟩, ?_⟩
  · simpa only [e] using hne
  · simp only [e]; exact fun v hm => (hv v hm).1
  · simp
  · simp only [e]; exact fun v hm => (hv v hm).2

theorem name_self (k : BKw) : Str.eqFold k.name k.name = true := by cases k <;> decide +kernel

theorem kw_unique {s : Str} {k k' : BKw} (h : Str.eqFold s k.name = true) (h' : Str.eqFold s k'.name = true) : k = k' :=
  bkwConst_inj (((matchBKW_iff s k).2 h).symm.trans ((matchBKW_iff s k').2 h'))

theorem valid_init {r : BRule} (h : r.valid = true) : r.core.init = true := by
  cases hi : r.core.init with
  | true => rfl
  | false =>
    have hz : r.isZero = true := by rw [BRule.isZero, hi]; rfl
    rw [BRule.valid, if_pos hz] at h; cases h

/-- A condition that stands in the text as a rule does. -/
theorem cond_rule {F : EqualFold} {P : Printing} (hN : P.names.Perm Sec.authNames) {q r : BRule} (hq : FairCond q)
    (hr : Whole F P r) (hi : r.core.init = true)
    (e : (shownCond q).bare (BExpr.texts P) = r.bare (BExpr.texts P)) :
    q.core = r.core ∧ (∃ k style, RawBind q k style (r.ex.texts P) ∧ BindValue F k (r.ex.texts P) r.ex) ∧
      Standard F P q := by
  obtain ⟨hs, hb⟩ := fair_shown P hq
  obtain ⟨hsr, ⟨k, hk, hx⟩, hbr⟩ := hr
  obtain ⟨e1, e2, e3⟩ := bare_values hs hsr hb hbr e
  rw [(shownCond_ex q).2] at e1 e2
  rw [(shownCond_ex q).1] at e3
  obtain ⟨hqi, -, -, hsl, style, vs, hqx, hne, -, h1⟩ := hq
  have e4 : vs = r.ex.texts P := by rw [← e3, hqx]; rfl
  have hraw : RawBind q k style (r.ex.texts P) := ⟨by rw [e1, hk]; exact name_self k, by rw [hqx, e4]⟩
  have hval := sound_value hN hx
  refine ⟨?_, ⟨k, style, hraw, hval⟩, hsl, k, style, _, r.ex, hraw, hval, rfl, ?_⟩
  · cases hqc : q.core; cases hrc : r.core
    simp only [hqc, hrc] at hqi hi e1 e2
    rw [hqi, hi, e1, e2]
  · intro _ h0
    rw [← e4]
    have : vs.length ≠ 0 := fun h => hne (List.length_eq_zero_iff.1 h)
    have : vs.length ≠ 1 := fun h => h1 h h0
    omega

theorem value_unique {F : EqualFold} {env : Env} (hP : Proper env F) {q : BRule} {k k' : BKw} {style style' : Int}
    {vs vs' : List Str} {x y : BExpr} (h : RawBind q k style vs) (h' : RawBind q k' style' vs')
    (hx : BindValue F k vs x) (hy : BindValue F k' vs' y) : x = y := by
  have hk := kw_unique h.1 h'.1
  subst hk
  have e := h.2.symm.trans h'.2
  simp only [BExpr.raw.injEq] at e
  obtain ⟨rfl, rfl⟩ := e
  exact valueReadB_unique ((C84_value F env hP q k style vs h x).2 hx) ((C84_value F env hP q k style vs h y).2 hy)

/-- Keyword, operator and value of a rule. -/
def content (r : BRule) : RuleCore × BExpr := (r.core, r.ex)

theorem contents_eq {F : EqualFold} {env : Env} (hP : Proper env F) {P : Printing} (hN : P.names.Perm Sec.authNames) :
    ∀ {qs rs' rs : List BRule}, ReadAllB F qs rs' → (∀ q ∈ qs, FairCond q) →
    (∀ r ∈ rs, Whole F P r ∧ r.core.init = true) →
    (qs.map fun q => (shownCond q).bare (BExpr.texts P)) = rs.map (·.bare (BExpr.texts P)) →
    rs'.map content = rs.map content
  | [], _, rs, .nil, _, _, h => by
    cases rs with
    | nil => rfl
    | cons r rs => cases h
  | q :: qs, _, rs, .cons (r' := r') (rs' := rs') hq hqs, hf, hr, h => by
    cases rs with
    | nil => cases h
    | cons r rs =>
      simp only [List.map_cons, List.cons.injEq] at h
      obtain ⟨hc, ⟨k, style, hraw, hval⟩, -⟩ := cond_rule hN (hf q (by simp)) (hr r (by simp)).1 (hr r (by simp)).2 h.1
      obtain ⟨k', style', vs', hraw', hval', hc', -⟩ := hq
      simp only [List.map_cons, content, List.cons.injEq, Prod.mk.injEq]
      exact ⟨⟨hc'.trans hc, value_unique hP hraw' hraw hval' hval⟩,
        contents_eq hP hN hqs (fun q hm => hf q (List.mem_cons_of_mem _ hm))
          (fun r hm => hr r (List.mem_cons_of_mem _ hm)) h.2⟩

/-- **C99**, what is printed is read again: for a context all of whose rules show all of them, the
text is read, however it is split, as a context with this text, with the same rules in the same
order, and with the same meaning.  Missing: values that are not sound, bind rules whose text does
not show how they belong together (C75). -/
theorem C99_back_partial (F : EqualFold) (env : Env) (hP : Proper env F) (P : Printing)
    (hN : P.names.Perm Sec.authNames) (many : Bool → List Str → Str) (c : BCtx) (hs : c.Sound) (hg : c.Clear)
    (hw : ∀ r ∈ c.leaves, Whole F P r) (t : PTree) (ht : Splits P many (c.text (BExpr.texts P) many) t) :
    ∃ c', parseBindRules env (BCtx.text (BExpr.texts P) many) t = .ok c' ∧
      c'.text (BExpr.texts P) many = c.text (BExpr.texts P) many ∧ c'.leaves.map content = c.leaves.map content ∧
      ∀ neg τ, (∀ r r', content r = content r' → τ r = τ r') → c'.eval neg τ = c.eval neg τ := by
  obtain ⟨⟨k, es, rfl⟩, hs', hg', hf, he⟩ := ht
  have hv : ∀ r ∈ c.leaves, Shown (BExpr.texts P) r := fun r hr => (hw r hr).1
  have hv' : ∀ r ∈ (treeCtx (.stack k false es)).leaves, Shown (BExpr.texts P) r := by
    rw [tree_leaves _ hs']
    intro r hr
    obtain ⟨q, hq, rfl⟩ := List.mem_map.1 hr
    exact (fair_shown P (hf q hq)).1
  have hi : ∀ r ∈ c.leaves, r.core.init = true := by
    intro r hr
    exact valid_init (sound_leaves c hs r hr)
  obtain ⟨t1, -⟩ := text_disp (BExpr.texts P) many c hs
  obtain ⟨t2, -⟩ := text_disp (BExpr.texts P) many _ hs'
  have w1 := wf_disp _ ruleCode c hs hg fun r hr => shown_code _ r (hv r hr)
  have w2 := wf_disp _ ruleCode _ hs' hg' fun r hr => shown_code _ r (hv' r hr)
  obtain ⟨hd, -⟩ := disp_unique ruleCode ruleCode_code _ _ [] [] w2 w1 (Or.inl rfl) (Or.inl rfl)
    (Or.inr ⟨stops_nil, stops_nil⟩) (by simp only [List.append_nil]; rw [← t1, ← t2, he])
  have ha : ((PTree.stack k false es).conds.map fun q => (shownCond q).bare (BExpr.texts P)) =
      c.leaves.map (·.bare (BExpr.texts P)) := by
    rw [← atoms_disp _ c hs, ← hd, atoms_disp _ _ hs', tree_leaves _ hs', List.map_map]; rfl
  have hpair : ∀ q ∈ (PTree.stack k false es).conds, ∃ r ∈ c.leaves,
      (shownCond q).bare (BExpr.texts P) = r.bare (BExpr.texts P) := by
    intro q hq
    have : (shownCond q).bare (BExpr.texts P) ∈ c.leaves.map (·.bare (BExpr.texts P)) :=
      ha ▸ List.mem_map_of_mem hq
    obtain ⟨r, hr, e⟩ := List.mem_map.1 this
    exact ⟨r, hr, e.symm⟩
  have hstd : ∀ q ∈ (PTree.stack k false es).conds, Standard F P q := by
    intro q hq
    obtain ⟨r, hr, e⟩ := hpair q hq
    exact (cond_rule hN (hf q hq) (hw r hr) (hi r hr) e).2.2
  obtain ⟨c', h1, h2⟩ := C99_reads_partial F env hP P many k es hs' hstd
  have hknown : (PTree.stack k false es).Known := tree_known _ hs'
  have hread : ∀ q ∈ (PTree.stack k false es).conds, ReadableB F q := by
    intro q hq
    obtain ⟨-, k, style, vs, x, hr, hx, -⟩ := hstd q hq
    exact ⟨k, style, vs, x, hr, hx⟩
  obtain ⟨h3, h4⟩ := C46_readable_partial F env hP _ _ hknown hread c' h1
  refine ⟨c', h1, h2.trans he, contents_eq hP hN h4 hf (fun r hr => ⟨hw r hr, hi r hr⟩) ha, ?_⟩
  intro neg τ hτ
  classical
  -- the truth value of a condition is that of what it is read as
  let σ : BRule → Bool := fun q => if h : ∃ r', ReadAsB F q r' then τ h.choose else false
  have hσ : AgreeB F σ τ := by
    intro q r' hr
    have h : ∃ r', ReadAsB F q r' := ⟨r', hr⟩
    have hσq : σ q = τ h.choose := dif_pos h
    rw [hσq]
    obtain ⟨k1, s1, v1, hr1, hx1, hc1, -⟩ := hr
    obtain ⟨k2, s2, v2, hr2, hx2, hc2, -⟩ := h.choose_spec
    exact hτ _ _ (by rw [content, content, hc1, hc2, value_unique hP hr1 hr2 hx1 hx2])
  -- the truth value of a text is that of the rule with this text
  let g : Str → Bool := fun s => if h : ∃ r, r ∈ c.leaves ∧ r.bare (BExpr.texts P) = s then τ h.choose else false
  have hg1 : ∀ r ∈ c.leaves, ∀ r' ∈ c.leaves, r.bare (BExpr.texts P) = r'.bare (BExpr.texts P) → τ r = τ r' := by
    intro r hr r' hr' e
    obtain ⟨s1, ⟨k1, n1, x1⟩, b1⟩ := hw r hr
    obtain ⟨s2, ⟨k2, n2, x2⟩, b2⟩ := hw r' hr'
    obtain ⟨e1, e2, e3⟩ := bare_values s1 s2 b1 b2 e
    have hk : k1 = k2 := kw_unique (s := k1.name) (name_self k1) (by rw [← n1, e1, n2]; exact name_self k2)
    subst hk
    have y1 := sound_value hN x1
    have y2 := sound_value hN x2
    refine hτ _ _ ?_
    have ex : r.ex = r'.ex := by
      rw [e3] at y1
      exact value_unique hP (q := ⟨⟨true, k1.name, 0⟩, .raw 0 (r'.ex.texts P), false, false, false⟩) (style := 0)
        (style' := 0) ⟨name_self k1, rfl⟩ ⟨name_self k1, rfl⟩ y1 y2
    have hc : r.core = r'.core := by
      have i1 := hi r hr
      have i2 := hi r' hr'
      cases h1 : r.core; cases h2 : r'.core
      simp only [h1, h2] at i1 i2 e1 e2
      rw [i1, i2, e1, e2]
    rw [content, content, hc, ex]
  have hg2 : ∀ r ∈ c.leaves, τ r = g (r.bare (BExpr.texts P)) := by
    intro r hr
    have h : ∃ r', r' ∈ c.leaves ∧ r'.bare (BExpr.texts P) = r.bare (BExpr.texts P) := ⟨r, hr, rfl⟩
    have hgr : g (r.bare (BExpr.texts P)) = τ h.choose := dif_pos h
    rw [hgr]
    exact hg1 r hr _ h.choose_spec.1 h.choose_spec.2.symm
  have hg3 : ∀ q ∈ (PTree.stack k false es).conds, σ q = g ((shownCond q).bare (BExpr.texts P)) := by
    intro q hq
    obtain ⟨r, hr, e⟩ := hpair q hq
    obtain ⟨hc, ⟨k1, s1, hraw, hval⟩, -⟩ := cond_rule hN (hf q hq) (hw r hr) (hi r hr) e
    rw [e, ← hg2 r hr, ← hσ q ⟨r.core, r.ex, false, false, q.paren⟩ ⟨k1, s1, _, hraw, hval, hc.symm, rfl⟩]
    exact hτ _ _ rfl
  rw [h3 neg σ τ hσ, tree_eval neg σ (fun r => g (r.bare (BExpr.texts P))) _ hs' hg3, eval_disp _ neg g _ hs' hg', hd,
    ← eval_disp _ neg g _ hs hg]
  exact (eval_leaves neg _ _ c hg2).symm

/-! ## Every such context can be split -/

/-- The condition a parser returns for a rule. -/
def ofRule (P : Printing) (r : BRule) : BRule :=
  ⟨r.core, .raw (if r.slice = true ∧ 2 ≤ (r.ex.texts P).length then 0 else 1) (r.ex.texts P), true, false, r.paren⟩

/-- The texts of the words. -/
def wordName : Word → Str
  | .and => b!"AND"
  | .or => b!"OR"
  | .not => b!"NOT"

theorem kind_wordName (w : Word) : kindOf (wordName w) = some w := by cases w <;> decide +kernel

mutual

/-- The conditions and stacks a parser returns for a context. -/
def ofCtx (P : Printing) : BCtx → PTree
  | .rule r => .cond (ofRule P r)
  | .zero => .other
  | .rules w p es => .stack (wordName w) p (ofCtxs P es)

def ofCtxs (P : Printing) : List BCtx → List PTree
  | [] => []
  | e :: es => ofCtx P e :: ofCtxs P es

end

theorem ofRule_bare {P : Printing} {r : BRule} (h : Shown (BExpr.texts P) r) :
    (shownCond (ofRule P r)).bare (BExpr.texts P) = r.bare (BExpr.texts P) := by
  obtain ⟨-, -, hne, -, ho⟩ := h
  unfold ofRule
  rw [shownCond_raw rfl]
  simp only [BRule.bare, ho]
  suffices H : ∀ vs : List Str, vs ≠ [] →
      quoteIf (decide ((if r.slice = true ∧ 2 ≤ vs.length then (0 : Int) else 1) ≠ 0)) (Str.join b!" || "
        (vs.map (quoteIf (decide ((if r.slice = true ∧ 2 ≤ vs.length then (0 : Int) else 1) = 0))))) =
      quoteIf (!r.slice) (Str.join b!" || " (vs.map (quoteIf r.slice))) by
    have := H _ hne
    simp only [BExpr.texts] at this ⊢
    rw [this]
  intro vs hvs
  cases hs : r.slice
  · simp
  · by_cases h2 : 2 ≤ vs.length
    · simp [h2]
    · match vs, hvs, h2 with
      | [v], _, _ => simp [quoteIf, Str.join]
      | _ :: _ :: _, _, h2 => exact absurd (by simp) h2

theorem ofRule_text {P : Printing} {r : BRule} (h : Shown (BExpr.texts P) r) :
    (shownCond (ofRule P r)).text (BExpr.texts P) = r.text (BExpr.texts P) := by
  have hb := ofRule_bare h
  unfold BRule.text
  rw [hb]
  rfl

theorem ofRule_fair {F : EqualFold} {P : Printing} {r : BRule} (h : Whole F P r) (hi : r.core.init = true) :
    FairCond (ofRule P r) := by
  obtain ⟨⟨hk, ho, hne, hq, -⟩, -, hb⟩ := h
  refine ⟨hi, hk, ho, rfl, _, _, rfl, hne, fun v hv => ⟨hq v hv, hb v hv⟩, ?_⟩
  intro h1
  rw [if_neg (by omega)]
  decide

theorem ofRule_valid {P : Printing} {r : BRule} (h : r.valid = true) : (shownCond (ofRule P r)).valid = true := by
  have hi := valid_init h
  unfold ofRule
  rw [shownCond_raw rfl]
  simp only [BRule.valid, BRule.isZero, BRule.condOk, hi] at h ⊢
  simp only [Bool.not_true, Bool.false_eq_true, if_false, Bool.and_eq_true] at h ⊢
  exact ⟨h.1, rfl⟩

theorem ctxs_length (P : Printing) : ∀ es : List BCtx, (treeCtxs (ofCtxs P es)).length = es.length
  | [] => rfl
  | e :: es => by simp only [ofCtxs, treeCtxs, List.length_cons, ctxs_length P es]

mutual

theorem ofCtx_ok {F : EqualFold} (P : Printing) (many : Bool → List Str → Str) : ∀ c : BCtx, c.Sound →
    (∀ r ∈ c.leaves, Whole F P r) →
    (treeCtx (ofCtx P c)).Sound ∧ ((treeCtx (ofCtx P c)).loose = c.loose ∧ (c.Clear → (treeCtx (ofCtx P c)).Clear)) ∧
      (∀ q ∈ (ofCtx P c).conds, FairCond q) ∧
      (treeCtx (ofCtx P c)).text (BExpr.texts P) many = c.text (BExpr.texts P) many
  | .rule r, hs, hw => by
    have hr := hw r (by simp [BCtx.leaves])
    refine ⟨ofRule_valid hs, ⟨rfl, fun _ => trivial⟩, ?_, ofRule_text hr.1⟩
    intro q hq
    simp only [ofCtx, PTree.conds, List.mem_singleton] at hq
    rw [hq]; exact ofRule_fair hr (valid_init hs)
  | .zero, hs, _ => hs.elim
  | .rules w p es, hs, hw => by
    obtain ⟨h1, h2, h3, h4⟩ := ofCtxs_ok P many es hs.2.2 (by simpa [BCtx.leaves] using hw)
    have hl := ctxs_length P es
    have e : treeCtx (ofCtx P (.rules w p es)) = .rules w p (treeCtxs (ofCtxs P es)) := by
      simp only [ofCtx, treeCtx, kind_wordName]
    rw [e]
    refine ⟨⟨?_, ?_, h1⟩, ?_, h3, ?_⟩
    · exact fun h => hs.1 (List.length_eq_zero_iff.1 (by rw [← hl, h]; rfl))
    · intro h; rw [hl]; exact hs.2.1 h
    · have hm : ∀ n, (∀ e ∈ es, e.loose ≤ n) → ∀ e ∈ treeCtxs (ofCtxs P es), e.loose ≤ n := by
        intro n h e he
        have : e.loose ∈ es.map BCtx.loose := h2.1 ▸ List.mem_map_of_mem he
        obtain ⟨e', he', h'⟩ := List.mem_map.1 this
        exact h' ▸ h e' he'
      refine ⟨?_, ?_⟩
      · have h2 := h2.1
        generalize treeCtxs (ofCtxs P es) = ts at h2 hl
        match w, p, es, ts, hl, h2 with
        | .not, _, _, _, _, _ => rfl
        | .and, true, _, _, _, _ => simp only [BCtx.loose]
        | .or, true, _, _, _, _ => simp only [BCtx.loose]
        | .and, false, [], [], _, _ => rfl
        | .or, false, [], [], _, _ => rfl
        | .and, false, [e], [t], _, h => simpa [BCtx.loose] using h
        | .or, false, [e], [t], _, h => simpa [BCtx.loose] using h
        | .and, false, _ :: _ :: _, _ :: _ :: _, _, _ => rfl
        | .or, false, _ :: _ :: _, _ :: _ :: _, _, _ => rfl
      · intro hg
        cases w
        · simp only [BCtx.Clear, hl] at hg ⊢
          exact ⟨fun h => hm 1 (hg.1 h), h2.2 hg.2⟩
        · simp only [BCtx.Clear] at hg ⊢
          exact h2.2 hg
        · simp only [BCtx.Clear] at hg ⊢
          refine ⟨hg.1.imp_right fun h e he => ?_, h2.2 hg.2⟩
          exact Nat.le_zero.1 (hm 0 (fun e he => Nat.le_of_eq (h e he)) e he)
    · simp only [BCtx.text, h4]

theorem ofCtxs_ok {F : EqualFold} (P : Printing) (many : Bool → List Str → Str) : ∀ es : List BCtx, BCtx.AllSound es →
    (∀ r ∈ BCtx.leavesAll es, Whole F P r) →
    BCtx.AllSound (treeCtxs (ofCtxs P es)) ∧
      ((treeCtxs (ofCtxs P es)).map BCtx.loose = es.map BCtx.loose ∧
        (BCtx.AllClear es → BCtx.AllClear (treeCtxs (ofCtxs P es)))) ∧
      (∀ q ∈ PTree.condsAll (ofCtxs P es), FairCond q) ∧
      BCtx.texts (BExpr.texts P) many (treeCtxs (ofCtxs P es)) = BCtx.texts (BExpr.texts P) many es
  | [], _, _ => ⟨trivial, ⟨rfl, fun _ => trivial⟩, (by simp [ofCtxs, PTree.condsAll]), rfl⟩
  | e :: es, hs, hw => by
    have hw' : ∀ r, r ∈ e.leaves ∨ r ∈ BCtx.leavesAll es → Whole F P r := by simpa [BCtx.leavesAll] using hw
    obtain ⟨h1, h2, h3, h4⟩ := ofCtx_ok P many e hs.1 fun r hr => hw' r (Or.inl hr)
    obtain ⟨g1, g2, g3, g4⟩ := ofCtxs_ok P many es hs.2 fun r hr => hw' r (Or.inr hr)
    refine ⟨⟨h1, g1⟩, ⟨?_, fun hg => ⟨h2.2 hg.1, g2.2 hg.2⟩⟩, ?_, ?_⟩
    · simp only [ofCtxs, treeCtxs, List.map_cons, h2.1, g2.1]
    · intro q hq
      simp only [ofCtxs, PTree.condsAll, List.mem_append] at hq
      exact hq.elim (h3 q) (g3 q)
    · simp only [ofCtxs, treeCtxs, BCtx.texts, h4, g4]

end

/-- **C99**: every context as in `C99_back_partial` can be split. -/
theorem C99_split (F : EqualFold) (P : Printing) (many : Bool → List Str → Str) (c : BCtx) (hs : c.Sound)
    (hg : c.Clear) (hw : ∀ r ∈ c.leaves, Whole F P r) :
    ∃ t, Splits P many (c.text (BExpr.texts P) many) t := by
  obtain ⟨h1, h2, h3, h4⟩ := ofCtx_ok P many c hs hw
  refine ⟨.stack b!"AND" false [ofCtx P c], ⟨_, _, rfl⟩, ?_, ?_, ?_, ?_⟩
  · simp only [treeCtx, show kindOf b!"AND" = some .and from kind_wordName .and, treeCtxs]
    exact ⟨by simp, fun h => (by cases h), h1, trivial⟩
  · simp only [treeCtx, show kindOf b!"AND" = some .and from kind_wordName .and, treeCtxs]
    exact ⟨fun h => absurd h (by simp), h2.2 hg, trivial⟩
  · simpa [PTree.conds, PTree.condsAll] using h3
  · simp only [treeCtx, show kindOf b!"AND" = some .and from kind_wordName .and, treeCtxs]
    rw [text_envelope _ _ (by decide)]
    exact h4

/-! ## Examples -/

/-- `userdn = "ldap:///cn=x" || "ldap:///cn=y" AND NOT ( ssf = "71" )` -/
def sampleBack : BCtx :=
  .rules .and false [
    .rule ⟨⟨true, b!"userdn", Eq'⟩, .dns ⟨BindUDN, [.dn (some ⟨BindUDN, some b!"cn=x"⟩),
      .dn (some ⟨BindUDN, some b!"cn=y"⟩)]⟩, false, true, false⟩,
    .rules .not true [.rule ⟨⟨true, b!"ssf", Eq'⟩, .ssf (some (some 70)), true, false, false⟩]]

example : sampleBack.text (BExpr.texts plainPrinting) (fun _ _ => []) =
    b!"userdn = \"ldap:///cn=x\" || \"ldap:///cn=y\" AND NOT ( ssf = \"71\" )" := by decide +kernel

/-- Two bars in a row. -/
def hasBars : Str → Bool
  | a :: b :: s => (a == 124 && b == 124) || hasBars (b :: s)
  | _ => false

theorem noBars_of : ∀ {v : Str}, hasBars v = false → NoBars v
  | [], _, a, b, e => by cases a <;> cases e
  | [x], _, a, b, e => by
    cases a with
    | nil => cases e
    | cons _ a => cases a <;> cases e
  | x :: y :: s, h, a, b, e => by
    simp only [hasBars, Bool.or_eq_false_iff] at h
    cases a with
    | nil =>
      simp only [List.nil_append, List.cons_append, List.cons.injEq] at e
      rw [e.1, e.2.1] at h; exact absurd h.1 (by decide)
    | cons z a =>
      simp only [List.cons_append, List.cons.injEq] at e
      exact noBars_of h.2 a b (by simpa using e.2)

theorem sampleBack_whole : sampleBack.Sound ∧ sampleBack.Clear ∧
    ∀ r ∈ sampleBack.leaves, Whole .ref plainPrinting r := by
  refine ⟨?_, ?_, ?_⟩
  · refine ⟨by simp, fun h => (by cases h), ?_, ⟨by simp, fun _ => rfl, ?_, trivial⟩, trivial⟩
    · show BRule.valid _ = true; decide +kernel
    · show BRule.valid _ = true; decide +kernel
  · simp [sampleBack, BCtx.Clear, BCtx.AllClear, BCtx.loose]
  · intro r hr
    simp only [sampleBack, BCtx.leaves, BCtx.leavesAll, List.append_nil, List.cons_append, List.nil_append,
      List.mem_cons, List.not_mem_nil, or_false] at hr
    have hb : ∀ w, (w = b!"cn=x" ∨ w = b!"cn=y") → SoundEntry BindUDN (.dn (some ⟨BindUDN, some w⟩)) := by
      intro w hw
      rcases hw with rfl | rfl
      all_goals
        refine .name ⟨by decide, Or.inl (by decide)⟩ ?_ (by decide) ((condenses_iff _ _).2 (by decide +kernel))
        intro y h
        have := congrArg List.length h
        simp [scheme] at this
    rcases hr with rfl | rfl
    · refine ⟨⟨⟨.userdn, rfl⟩, by decide +kernel, by decide +kernel, by decide +kernel, rfl⟩,
        ⟨.userdn, rfl, .names (k := .userdn) rfl (by simp) ?_ ?_⟩, ?_⟩
      · intro e he
        simp only [List.mem_cons, List.not_mem_nil, or_false] at he
        rcases he with rfl | rfl
        · exact hb _ (Or.inl rfl)
        · exact hb _ (Or.inr rfl)
      · intro i j a b hij ha hb
        match i, j, hij, ha, hb with
        | 0, 1, _, ha, hb =>
          simp only [List.getElem?_cons_zero, List.getElem?_cons_succ, Option.some.injEq] at ha hb
          subst ha hb; decide +kernel
        | 0, j + 2, _, _, hb => simp at hb
        | i + 1, j + 2, _, _, hb => simp at hb
        | i + 1, 1, hij, _, _ => omega
      · intro v hv
        have : v = b!"ldap:///cn=x" ∨ v = b!"ldap:///cn=y" := by
          have e : BExpr.texts plainPrinting (.dns ⟨BindUDN, [.dn (some ⟨BindUDN, some b!"cn=x"⟩),
            .dn (some ⟨BindUDN, some b!"cn=y"⟩)]⟩) = [b!"ldap:///cn=x", b!"ldap:///cn=y"] := by decide +kernel
          rw [e] at hv
          simpa using hv
        rcases this with rfl | rfl <;> exact noBars_of (by decide +kernel)
    · refine ⟨⟨⟨.ssf, rfl⟩, by decide +kernel, by decide +kernel, by decide +kernel, rfl⟩, ⟨.ssf, rfl, .factor _⟩, ?_⟩
      intro v hv
      have : v = b!"71" := by
        have e : BExpr.texts plainPrinting (.ssf (some (some 70))) = [b!"71"] := by decide +kernel
        rw [e] at hv
        simpa using hv
      rw [this]; exact noBars_of (by decide +kernel)

/-- The sample is printed, split, and read as itself. -/
example : ∃ t c', Splits plainPrinting (fun _ _ => [])
      b!"userdn = \"ldap:///cn=x\" || \"ldap:///cn=y\" AND NOT ( ssf = \"71\" )" t ∧
    parseBindRules plainEnv (BCtx.text (BExpr.texts plainPrinting) fun _ _ => []) t = .ok c' ∧
    c'.leaves.map content = sampleBack.leaves.map content := by
  obtain ⟨h1, h2, h3⟩ := sampleBack_whole
  obtain ⟨t, ht⟩ := C99_split .ref plainPrinting (fun _ _ => []) sampleBack h1 h2 h3
  obtain ⟨c', g1, -, g2, -⟩ := C99_back_partial .ref plainEnv plain_proper plainPrinting (.refl _) _ sampleBack h1 h2 h3 t ht
  have e : sampleBack.text (BExpr.texts plainPrinting) (fun _ _ => []) =
    b!"userdn = \"ldap:///cn=x\" || \"ldap:///cn=y\" AND NOT ( ssf = \"71\" )" := by decide +kernel
  rw [e] at ht
  exact ⟨t, c', ht, g1, g2⟩

/-- `ssf = "71"`, a condition as in `C99_reads_partial`. -/
example : Standard .ref plainPrinting ⟨⟨true, b!"ssf", Eq'⟩, .raw 0 [b!"71"], true, false, false⟩ :=
  ⟨rfl, .ssf, 0, [b!"71"], .ssf (some (some 70)), ⟨by decide +kernel, rfl⟩,
    .factor ((inside_iff _ _).2 (by decide +kernel)), by decide +kernel, fun h => (by cases h)⟩

/-! ## What is lost -/

/-- **C99** as stated: what is read prints as the text it was read from, when the parser returns
what stands in the text. -/
def ClaimText : Prop :=
  ∀ (F : EqualFold) (env : Env) (P : Printing) (many : Bool → List Str → Str) (k : Str) (p : Bool) (es : List PTree)
    (c : BCtx), Proper env F → P.names.Perm Sec.authNames → (treeCtx (.stack k p es)).Sound →
    parseBindRules env (BCtx.text (BExpr.texts P) many) (.stack k p es) = .ok c →
    c.text (BExpr.texts P) many = (treeCtx (.stack k p es)).text (BExpr.texts P) many

/-- The text of what is read. -/
def readAgain (t : PTree) : Option Str :=
  match parseBindRules plainEnv (BCtx.text (BExpr.texts plainPrinting) fun _ _ => []) t with
  | .ok c => some (c.text (BExpr.texts plainPrinting) fun _ _ => [])
  | _ => none

/-- The text of the tree. -/
def treeText (t : PTree) : Str := (treeCtx t).text (BExpr.texts plainPrinting) fun _ _ => []

theorem claimText_false {k : Str} {p : Bool} {es : List PTree} {s : Str} (hs : (treeCtx (.stack k p es)).Sound)
    (h : readAgain (.stack k p es) = some s) (hn : s ≠ treeText (.stack k p es)) : ¬ ClaimText := by
  intro hc
  unfold readAgain at h
  split at h
  · next c hp =>
    cases h
    exact hn (hc .ref plainEnv plainPrinting _ k p es c plain_proper (.refl _) hs hp)
  · cases h

theorem single_sound (p : Bool) (q : BRule) (h : (shownCond q).valid = true) :
    (treeCtx (.stack b!"AND" p [.cond q])).Sound := by
  simp only [treeCtx, show kindOf b!"AND" = some .and from kind_wordName .and, treeCtxs]
  exact ⟨by simp, fun h => (by cases h), h, trivial⟩

/-- **C99** fails: the quotation marks of a single name in the quotation style 0 are lost. -/
theorem C99_counterexample : ¬ ClaimText ∧
    treeText (.stack b!"AND" false [.cond (rawRule b!"userdn" Eq' b!"ldap:///cn=x")]) = b!"userdn = \"ldap:///cn=x\"" ∧
    readAgain (.stack b!"AND" false [.cond (rawRule b!"userdn" Eq' b!"ldap:///cn=x")]) =
      some b!"userdn = ldap:///cn=x" := by
  have h1 : treeText (.stack b!"AND" false [.cond (rawRule b!"userdn" Eq' b!"ldap:///cn=x")]) =
    b!"userdn = \"ldap:///cn=x\"" := by decide +kernel
  have h2 : readAgain (.stack b!"AND" false [.cond (rawRule b!"userdn" Eq' b!"ldap:///cn=x")]) =
      some b!"userdn = ldap:///cn=x" := by decide +kernel
  exact ⟨claimText_false (single_sound _ _ (by decide +kernel)) h2 (by rw [h1]; decide +kernel), h1, h2⟩

/-- **C99** fails also for parentheses around the whole, and for white space within a value. -/
theorem C99_lost_counterexample :
    treeText (.stack b!"AND" true [.cond (rawRule b!"ssf" Eq' b!"71")]) = b!"( ssf = \"71\" )" ∧
    readAgain (.stack b!"AND" true [.cond (rawRule b!"ssf" Eq' b!"71")]) = some b!"ssf = \"71\"" ∧
    treeText (.stack b!"AND" false [.cond (rawRule b!"dayofweek" Eq' b!"Sun, Mon")]) = b!"dayofweek = \"Sun, Mon\"" ∧
    readAgain (.stack b!"AND" false [.cond (rawRule b!"dayofweek" Eq' b!"Sun, Mon")]) =
      some b!"dayofweek = \"Sun,Mon\"" := by
  decide +kernel

end Verif.Back
