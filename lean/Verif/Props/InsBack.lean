import Verif.Spec.InsBack
import Verif.Props.RoundTrip
import Verif.Props.TargetBack

/-!
# C100: a printed instruction is read as this instruction
-/

namespace Verif.Back
open Verif Verif.Spec Verif.Bind Verif.Rules Verif.Builders

/-! ## Target rules -/

/-- The target rule of a parser with the quotation marks it has in the text. -/
def shownT (q : TRule) : TRule :=
  match q.ex with
  | .raw style _ => { q with outer := decide (style ≠ 0), slice := decide (style = 0) }
  | _ => q

theorem shownT_raw {q : TRule} {style : Int} {vs : List Str} (h : q.ex = .raw style vs) :
    shownT q = { q with outer := decide (style ≠ 0), slice := decide (style = 0) } := by
  unfold shownT; rw [h]

theorem valuesText_eq (style : Int) (vs : List Str) :
    quoteIf (decide (style ≠ 0)) (Str.join b!" || " (vs.map (quoteIf (decide (style = 0))))) = valuesText style vs := by
  unfold valuesText
  by_cases h : style = 0
  · rw [if_pos h]
    simp only [h, ne_eq, not_true_eq_false, decide_false, decide_true, quoteIf]
    rfl
  · rw [if_neg h]
    have : (vs.map (quoteIf false)) = vs := by
      conv => rhs; rw [← List.map_id vs]
      exact List.map_congr_left fun v _ => rfl
    simp only [ne_eq, h, not_false_eq_true, decide_true, decide_false, this]
    rfl

theorem targetText_eq {q : TRule} (h : FairTarget q) : targetText q = (shownT q).string := by
  obtain ⟨hi, -, -, style, vs, hx, -⟩ := h
  rw [shownT_raw hx]
  unfold targetText TRule.string
  rw [hx, if_neg (by simp [TRule.isZero, hi])]
  simp only [TExpr.texts, valuesText_eq]

theorem tkw_word (k : TKw) : (32 : Byte) ∉ k.name := by cases k <;> decide

theorem fair_target {q : TRule} (h : FairTarget q) : Verif.Whole.TargetShown (shownT q) := by
  obtain ⟨hi, ⟨k, hk⟩, ho, style, vs, hx, hne, hv, -⟩ := h
  rw [shownT_raw hx]
  have e : TExpr.texts q.ex = vs := by rw [hx]; rfl
  refine ⟨by simp [TRule.isZero, hi], by simp only [hk]; exact tkw_word k, ho, ?_, ?_, by simp⟩
  · simpa only [e] using hne
  · simp only [e]; exact fun v hm => (hv v hm).1

theorem trs_flatten : ∀ l : List TRule, TRs.string l = (l.map TRule.string).flatten
  | [] => rfl
  | r :: l => by rw [Verif.Whole.trs_cons, trs_flatten l]; rfl

theorem targets_text {l : List TRule} (h : ∀ q ∈ l, FairTarget q) :
    (l.map targetText).flatten = TRs.string (l.map shownT) := by
  rw [trs_flatten, List.map_map]
  congr 1
  exact List.map_congr_left fun q hq => targetText_eq (h q hq)

/-- What the texts between the quotation marks say about the values. -/
theorem same_values {r r' : TRule} (h : Verif.Whole.TargetShown r) (h' : Verif.Whole.TargetShown r')
    (hb : ∀ v ∈ r.ex.texts, NoBars v) (hb' : ∀ v ∈ r'.ex.texts, NoBars v)
    (e : Verif.Whole.quoted r = Verif.Whole.quoted r') : r.ex.texts = r'.ex.texts := by
  have one : ∀ {xs ys : List Str}, xs ≠ [] → ys ≠ [] → (∀ v ∈ xs, NoBars v) → (∀ v ∈ ys, NoBars v) →
      xs = [Str.join b!" || " ys] → xs = ys := by
    intro xs ys hx hy hbx hby e
    refine join_bars hx hy hbx hby ?_
    rw [e]; rfl
  unfold Verif.Whole.quoted at e
  cases hs : r.slice <;> cases hs' : r'.slice <;> simp only [hs, hs', Bool.false_eq_true, if_false, if_true] at e
  · exact join_bars h.some h'.some hb hb' (by simpa using e)
  · exact (one h'.some h.some hb' hb e.symm).symm
  · exact one h.some h'.some hb hb' e
  · exact e

theorem tname_self (k : TKw) : Str.eqFold k.name k.name = true := by cases k <;> decide +kernel

/-- The value read has the quotation marks of the text. -/
theorem style_read {E : EqualFold} {d : Oid.DotReader} {k : TKw} {x : TExpr} (h : SoundT E d k x) (q : TRule)
    (hq : Has q k) (style : Int) (h1 : x.texts.length = 1 → style ≠ 0) :
    (q.setExpression x).setQuoteStyle style =
      { q with ex := x, outer := decide (style ≠ 0), slice := decide (style = 0) } := by
  have hk : Has (q.setExpression x) k := hq
  have list : ∀ values, ListOf k x values → values ≠ [] → (q.setExpression x).setQuoteStyle style =
      { q with ex := x, outer := decide (style ≠ 0), slice := decide (style = 0) } := by
    intro values hl hne
    obtain ⟨e, ev⟩ := setQuoteStyle_list hk (show ListOf k (q.setExpression x).ex values from hl) style
    have ev : x.texts = values := ev
    rw [e]
    have hlen : values.length ≠ 0 := fun h => hne (List.length_eq_zero_iff.1 h)
    rw [ev] at h1
    by_cases hs : style = 0
    · have : 2 ≤ values.length := by
        have : values.length ≠ 1 := fun h => h1 h hs
        omega
      simp [hs, this, TRule.setExpression]
    · simp [hs, TRule.setExpression]
  have alone : x.texts.length = 1 → (q.setExpression x).sliceAfter style = none →
      (q.setExpression x).setQuoteStyle style =
      { q with ex := x, outer := decide (style ≠ 0), slice := decide (style = 0) } := by
    intro hl hn
    have := h1 hl
    rw [TRule.setQuoteStyle, hn]
    simp [this, TRule.setExpression]
  cases h with
  | scope s => exact alone rfl rfl
  | filter h hs => exact alone rfl rfl
  | attrs n h hs => exact list _ (Or.inr (Or.inl ⟨_, rfl, rfl, rfl⟩)) (by simp)
  | @oids _ ts hk' hne hd h =>
    exact list _ (Or.inr (Or.inr ⟨_, rfl, by cases k <;> simp_all [demands], rfl⟩)) (by simpa using hne)
  | @names _ ns hk' hne h hd =>
    exact list _ (Or.inl ⟨_, rfl, by cases k <;> simp_all [demands], rfl⟩) (by simpa using hne)
  | ops h h1 => exact alone rfl rfl

/-- A target rule of a parser that stands in the text as a rule does. -/
theorem target_rule {E : EqualFold} {d : Oid.DotReader} {q r : TRule} (hq : FairTarget q) (hr : WholeT E d r)
    (e : Verif.Whole.SameTarget (shownT q) r) :
    Parsed q ∧ q.core.kw = r.core.kw ∧ ∃ q', q.assertValue E.eq d.read = (q', true) ∧
      q'.string = targetText q ∧ contentT q' = contentT r := by
  have hsq := fair_target hq
  have ht := targetText_eq hq
  obtain ⟨hi, -, -, style, vs, hx, hne, hv, h1⟩ := hq
  obtain ⟨hs, ⟨k, hk, hx'⟩, hb⟩ := hr
  have e0 := shownT_raw hx
  obtain ⟨e1, e2, e3⟩ := e
  have ev : q.ex.texts = vs := by rw [hx]; rfl
  have ev' : (shownT q).ex.texts = vs := by rw [e0]; exact ev
  have e4 : vs = r.ex.texts := by
    rw [← ev']
    exact same_values hsq hs (by rw [ev']; exact fun v hm => (hv v hm).2) hb e3
  rw [e0] at e1 e2
  simp only at e1 e2
  have hh : Has q k := ⟨hi, by rw [e1, hk]; exact tname_self k⟩
  have hraw : RawRule q k style r.ex.texts := ⟨hh, by rw [hx, e4]⟩
  have hval := (valueRead_iff hraw _).1 (sound_valueT hx' q style hraw)
  have hread := (assertValue_read hraw).1 _ hval
  have hst := style_read hx' q hh style (by rw [← e4]; exact h1)
  refine ⟨⟨k, style, _, hraw⟩, e1, _, hread, ?_, ?_⟩
  · rw [ht, e0, hst]
    simp only [TRule.string, ev, e4, TRule.isZero]
    rfl
  · rw [hst, contentT, contentT]
    have hri : r.core.init = true := by simpa [TRule.isZero] using hs.set
    congr 1
    cases h1 : q.core; cases h2 : r.core
    simp only [h1, h2] at hi hri e1 e2
    rw [hi, hri, e1, e2]

theorem targets_read {E : EqualFold} {d : Oid.DotReader} : ∀ {qs rs : List TRule},
    Verif.Whole.Along Verif.Whole.SameTarget (qs.map shownT) rs → (∀ q ∈ qs, FairTarget q) →
    (∀ r ∈ rs, WholeT E d r) →
    (∀ q ∈ qs, Parsed q) ∧ qs.map (·.core.kw) = rs.map (·.core.kw) ∧
      (assertAll E.eq d.read qs).1.map TRule.string = qs.map targetText ∧
      (assertAll E.eq d.read qs).1.map contentT = rs.map contentT
  | [], _, .nil, _, _ => ⟨by simp, rfl, rfl, rfl⟩
  | q :: qs, _, .cons (b := r) (m := rs) h hs, hq, hr => by
    obtain ⟨h1, h2, q', h3, h4, h5⟩ := target_rule (hq q (by simp)) (hr r (by simp)) h
    obtain ⟨g1, g2, g3, g4⟩ := targets_read (E := E) (d := d) hs (fun q hm => hq q (List.mem_cons_of_mem _ hm))
      (fun r hm => hr r (List.mem_cons_of_mem _ hm))
    refine ⟨?_, ?_, ?_, ?_⟩
    · intro x hx
      rcases List.mem_cons.1 hx with rfl | hx
      · exact h1
      · exact g1 x hx
    · rw [List.map_cons, List.map_cons, h2, g2]
    · rw [assertAll, h3]
      simp only [if_true, List.map_cons, h4, g3]
    · rw [assertAll, h3]
      simp only [if_true, List.map_cons, h5, g4]

/-- Rules of different keywords all stay. -/
theorem all_stay {qs : List TRule} (hp : ∀ q ∈ qs, FairTarget q)
    (hd : ∀ (m n : Nat) (a b : TRule), m < n → qs[m]? = some a → qs[n]? = some b → a.core.kw ≠ b.core.kw) :
    transferTRs [] qs = qs := by
  have has : ∀ q, FairTarget q → ∃ k : TKw, q.core.kw = k.name ∧ Has q k := by
    rintro q ⟨hi, ⟨k, hk⟩, -⟩
    exact ⟨k, hk, hi, by rw [hk]; exact tname_self k⟩
  have : ∃ ps : List (TRule × TKw), Picks Offers (qs.map TRArg.rule) ps ∧ qs = ps.map (·.1) ∧
      ∀ p ∈ ps, p.1.core.kw = p.2.name := by
    clear hd
    induction qs with
    | nil => exact ⟨[], .nil, rfl, by simp⟩
    | cons q qs ih =>
      obtain ⟨ps, h1, h2, h3⟩ := ih fun r hr => hp r (List.mem_cons_of_mem _ hr)
      obtain ⟨k, hk, hh⟩ := has q (hp q (by simp))
      refine ⟨(q, k) :: ps, .take ⟨rfl, hh⟩ h1, by simp [← h2], ?_⟩
      intro p hp
      rcases List.mem_cons.1 hp with rfl | hp
      · exact hk
      · exact h3 p hp
  obtain ⟨ps, h1, h2, h3⟩ := this
  rw [transfer_firsts qs ps h1, firsts_distinct, ← h2]
  intro i j a b hij ha hb
  simp only [sameKey, decide_eq_false_iff_not]
  intro e
  refine hd i j a.1 b.1 hij (by rw [h2]; simp [ha]) (by rw [h2]; simp [hb]) ?_
  rw [h3 a (List.mem_of_getElem? ha), h3 b (List.mem_of_getElem? hb), e]

/-! ## Permission bind rules -/

theorem join_not {c : Byte} (hc : c ≠ 44) : ∀ ws : List Str, (∀ v ∈ ws, c ∉ v) → c ∉ Str.join b!"," ws
  | [], _ => by simp [Str.join]
  | [v], h => by simpa [Str.join] using h v (by simp)
  | v :: v' :: ws, h => by
    simp only [Str.join, List.mem_append, not_or]
    exact ⟨⟨h v (by simp), by simpa using hc⟩, join_not hc (v' :: ws) fun u hu => h u (List.mem_cons_of_mem _ hu)⟩

theorem rights_parts {t : Rights.Tokens} (h : FairRights t) : permTokens (rightsText t) = (t.allow, t.rights) := by
  obtain ⟨ha, hne, hv⟩ := h
  cases e : t.allow with
  | none => exact absurd e ha
  | some a =>
    have hc : Str.cut1 40 (rightsText t) =
        some (if a then b!"allow" else b!"deny", Str.join b!"," t.rights ++ b!")") := by
      unfold rightsText
      rw [e]
      cases a <;> simp only [List.append_assoc] <;> exact Str.cut1_append (by decide)
    rw [permTokens, hc]
    simp only [List.dropLast_concat]
    rw [show Str.split1 44 (Str.join b!"," t.rights) = t.rights from Str.split1_join hne fun s hs => (hv s hs).1]
    cases a <;> rfl

theorem rights_mark {t : Rights.Tokens} (h : FairRights t) : ∃ a, rightsText t = a ++ b!")" ∧ (41 : Byte) ∉ a := by
  refine ⟨_, rfl, ?_⟩
  simp only [List.mem_append, not_or]
  refine ⟨⟨?_, by decide⟩, join_not (by decide) _ fun v hv => (h.2.2 v hv).2⟩
  cases t.allow with
  | none => simp
  | some a => cases a <;> decide

theorem perm_mark (S : Shifty 16) {p : Rights.Permission} (h : Rights.valid p = true) (h' : Rights.WithinTen p) :
    ∃ a, Rights.string S p = a ++ b!")" ∧ (41 : Byte) ∉ a := by
  obtain ⟨allow, -, -, ht⟩ := Rights.C02_text S p h h'
  rw [ht]
  refine ⟨_, rfl, ?_⟩
  simp only [List.mem_append, not_or]
  refine ⟨⟨by cases allow <;> decide, by decide⟩, join_not (by decide) _ ?_⟩
  intro w hw
  have names : ∀ q : Priv, (41 : Byte) ∉ q.name := by intro q; cases q <;> decide
  unfold permWords at hw
  repeat' split at hw
  all_goals first
    | (simp only [List.mem_cons, List.not_mem_nil, or_false] at hw
       rcases hw with rfl | rfl <;> decide)
    | (simp only [List.mem_cons, List.not_mem_nil, or_false] at hw; subst hw; decide)
    | (obtain ⟨q, -, rfl⟩ := List.mem_map.1 hw; exact names q)

/-- The text of a rule and of what a parser returns end together. -/
theorem pb_ends {F : EqualFold} {P : Printing} {many : Bool → List Str → Str} {w : PB.World}
    (hw : Verif.Whole.Prints w (BExpr.texts P) many) {p : Rights.Permission} {b : BCtx} (h : WholeP F P p b)
    {t : PB.Tokens} (hp : FairRights t.p) (hb : Splits P many ((treeCtx t.b).text (BExpr.texts P) many) t.b) (x y : Str)
    (e : pbText P many t ++ x = PB.string w (some ⟨p, some b⟩) ++ y) :
    rightsText t.p = Rights.string w.S p ∧ Splits P many (b.text (BExpr.texts P) many) t.b ∧ x = y := by
  obtain ⟨⟨hv, h10⟩, hs, hg, hl⟩ := h
  obtain ⟨a, ha, ha'⟩ := rights_mark hp
  obtain ⟨c, hc, hc'⟩ := perm_mark w.S hv h10
  rw [Verif.Whole.rule_text w b hv, pbText, ha, hc] at e
  simp only [List.append_assoc, List.cons_append, List.nil_append] at e
  obtain ⟨e1, e⟩ := until_mark ha' hc' e
  simp only [List.cons.injEq, true_and] at e
  obtain ⟨h1, hs', hg', hf, -⟩ := hb
  have hv' : ∀ r ∈ (treeCtx t.b).leaves, Shown (BExpr.texts P) r := by
    rw [tree_leaves _ hs']
    intro r hr
    obtain ⟨q, hq, rfl⟩ := List.mem_map.1 hr
    exact (fair_shown P (hf q hq)).1
  rw [hw.text, (text_disp _ many b hs).1, (text_disp _ many _ hs').1] at e
  have w1 := wf_disp _ ruleCode b hs hg fun r hr => shown_code _ r (hl r hr).1
  have w2 := wf_disp _ ruleCode _ hs' hg' fun r hr => shown_code _ r (hv' r hr)
  obtain ⟨he, e⟩ := disp_unique ruleCode ruleCode_code _ _ _ _ w2 w1 (follow_semi x) (follow_semi y)
    (Or.inr ⟨stops_semi x, stops_semi y⟩) e
  refine ⟨by rw [ha, hc, e1], ⟨h1, hs', hg', hf, ?_⟩, by simpa using e⟩
  rw [(text_disp _ many b hs).1, (text_disp _ many _ hs').1, he]

/-- What is read for the text of a rule. -/
theorem pb_read {F : EqualFold} {P : Printing} {many : Bool → List Str → Str} {w : PB.World} (hP : Proper w.env F)
    (hN : P.names.Perm Sec.authNames)
    (hw : Verif.Whole.Prints w (BExpr.texts P) many) {p : Rights.Permission} {b : BCtx} (h : WholeP F P p b)
    {t : PB.Tokens} (hp : FairRights t.p) (he : rightsText t.p = Rights.string w.S p)
    (hb : Splits P many (b.text (BExpr.texts P) many) t.b) :
    ∃ r, PB.process w t = .ok r ∧ PB.string w (some r) = PB.string w (some ⟨p, some b⟩) ∧
      SameP w.S (some r) (some ⟨p, some b⟩) := by
  obtain ⟨⟨hv, h10⟩, hs, hg, hl⟩ := h
  obtain ⟨c, hc, hd, hgr⟩ := Rights.C03_round_trip_exact w.S p hv h10
  rw [← he, rights_parts hp] at hc
  obtain ⟨b', hb', h2, h3, h4⟩ := C99_back_partial F w.env hP P hN many b hs hg hl t.b hb
  have ht : w.text = BCtx.text (BExpr.texts P) many := funext hw.text
  have hr : PB.process w t = .ok ⟨some c, some b'⟩ :=
    PB.process_iff.2 ⟨c, b', hc, by rw [ht]; exact hb', rfl⟩
  obtain ⟨c', e', -, hlt, -⟩ := PB.rights_read hc
  cases e'
  refine ⟨_, hr, ?_, _, _, _, _, rfl, rfl, hd, hgr, h3, h4⟩
  rw [Verif.Whole.rule_text w b hv, Verif.Whole.rule_text w b' rfl, hw.text, hw.text, h2,
    (Rights.C02_text_injective w.S (some c) p rfl hv hlt h10).2 ⟨hd, hgr⟩]

theorem join_cons (s : Str) (l : List Str) : ∃ t, Str.join b!" " (s :: l) = s ++ t ∧
    ((l = [] ∧ t = []) ∨ (l ≠ [] ∧ t = b!" " ++ Str.join b!" " l)) := by
  cases l with
  | nil => exact ⟨[], by simp [Str.join], Or.inl ⟨rfl, rfl⟩⟩
  | cons r' l => exact ⟨_, by simp [Str.join], Or.inr ⟨by simp, rfl⟩⟩

theorem pbs_read {F : EqualFold} {P : Printing} {many : Bool → List Str → Str} {w : PB.World} (hP : Proper w.env F)
    (hN : P.names.Perm Sec.authNames) (hw : Verif.Whole.Prints w (BExpr.texts P) many) :
    ∀ (ts : List PB.Tokens) (rs : List PB.PBRule),
    (∀ x ∈ ts, FairRights x.p ∧ Splits P many ((treeCtx x.b).text (BExpr.texts P) many) x.b) →
    (∀ r ∈ rs, ∃ p b, r = some ⟨p, some b⟩ ∧ WholeP F P p b) →
    Str.join b!" " (ts.map (pbText P many)) ++ b!")" = PB.listString w rs ++ b!")" →
    ∃ us : List PB.Store, Ins.ReadAll w (ts.map some) us ∧
      (us.map some).map (PB.string w) = rs.map (PB.string w) ∧ Verif.Whole.Along (SameP w.S) (us.map some) rs := by
  have first : ∀ r : PB.PBRule, (∃ p b, r = some ⟨p, some b⟩ ∧ WholeP F P p b) →
      ∃ c t, PB.string w r = c :: t ∧ (c = 97 ∨ c = 100) := by
    rintro r ⟨p, b, rfl, h⟩
    obtain ⟨-, c, t, e, hc⟩ := Verif.Whole.perm_word w.S h.1.1 h.1.2
    exact ⟨c, _, by rw [Verif.Whole.rule_text w b h.1.1, e]; rfl, hc⟩
  have first' : ∀ x : PB.Tokens, FairRights x.p → ∃ c t, pbText P many x = c :: t ∧ (c = 97 ∨ c = 100) := by
    intro x hx
    unfold pbText rightsText
    cases e : x.p.allow with
    | none => exact absurd e hx.1
    | some a =>
      cases a
      · exact ⟨_, _, rfl, Or.inr rfl⟩
      · exact ⟨_, _, rfl, Or.inl rfl⟩
  intro ts
  induction ts with
  | nil =>
    intro rs _ hr e
    cases rs with
    | nil => exact ⟨[], .nil, rfl, .nil⟩
    | cons r rs =>
      obtain ⟨c, t, hc, h⟩ := first r (hr r (by simp))
      obtain ⟨t', ht, -⟩ := join_cons (PB.string w r) (rs.map (PB.string w))
      rw [PB.listString, List.map_cons, ht, hc] at e
      simp only [List.map_nil, Str.join, List.nil_append, List.cons_append, List.cons.injEq] at e
      rw [← e.1] at h
      exact absurd h (by decide)
  | cons x ts ih =>
    intro rs hx hr e
    cases rs with
    | nil =>
      obtain ⟨c, t, hc, h⟩ := first' x (hx x (by simp)).1
      obtain ⟨t', ht, -⟩ := join_cons (pbText P many x) (ts.map (pbText P many))
      rw [PB.listString, List.map_cons, ht, hc] at e
      simp only [List.map_nil, Str.join, List.nil_append, List.cons_append, List.cons.injEq] at e
      rw [e.1] at h
      exact absurd h (by decide)
    | cons r rs =>
      obtain ⟨t, ht, h⟩ := join_cons (pbText P many x) (ts.map (pbText P many))
      obtain ⟨t', ht', h'⟩ := join_cons (PB.string w r) (rs.map (PB.string w))
      obtain ⟨p, b, rfl, hW⟩ := hr r (by simp)
      rw [PB.listString, List.map_cons, List.map_cons, ht, ht', List.append_assoc, List.append_assoc] at e
      obtain ⟨hf, hsp⟩ := hx x (by simp)
      obtain ⟨e1, e2, e⟩ := pb_ends hw hW hf hsp _ _ e
      obtain ⟨u, h1, h2, h3⟩ := pb_read hP hN hw hW hf e1 e2
      have rest : Str.join b!" " (ts.map (pbText P many)) ++ b!")" = PB.listString w rs ++ b!")" := by
        rcases h with ⟨k1, rfl⟩ | ⟨k1, rfl⟩ <;> rcases h' with ⟨k2, rfl⟩ | ⟨k2, rfl⟩
        · rw [PB.listString, k1, k2]
        · simp at e
        · simp at e
        · simpa [PB.listString] using e
      obtain ⟨us, g1, g2, g3⟩ := ih rs (fun x hm => hx x (List.mem_cons_of_mem _ hm))
        (fun r hm => hr r (List.mem_cons_of_mem _ hm)) rest
      refine ⟨u :: us, .cons h1 g1, ?_, .cons h3 g3⟩
      rw [List.map_cons, List.map_cons, List.map_cons, h2, g2]

/-! ## C100 -/

/-- **C100**, for instructions that show all of them: the text, however it is split, is read as an
instruction with this text, the same label, the same target rules in the same order and, in the
same order, permission bind rules that allow or deny the same under the same circumstances.
Missing: labels and values with quotation marks, values that are not sound (C98), bind rules whose
text does not show how they belong together (C75), values printed without quotation marks, and
instructions with target rules of the same keyword or permission bind rules of the same text. -/
theorem C100_back_partial (F : EqualFold) (d : Oid.DotReader) (w : PB.World) (rd : Str → Option PB.Store)
    (P : Printing) (many : Bool → List Str → Str) (hP : Proper w.env F) (hd : w.dot = d.read)
    (hN : P.names.Perm Sec.authNames) (hw : Verif.Whole.Prints w (BExpr.texts P) many) (i : Ins.Body)
    (hi : WholeI F d P w i) (t : Ins.Tokens) (ht : SplitsI P many (Ins.string w (some i)) t) :
    ∃ i', Ins.parse w rd t = .ok (some i') ∧ Ins.string w (some i') = Ins.string w (some i) ∧ i'.acl = i.acl ∧
      i'.trs.map contentT = i.trs.map contentT ∧ Verif.Whole.Along (SameP w.S) i'.pbrs i.pbrs := by
  obtain ⟨hl, htr, hk, hpb, hdist⟩ := hi
  obtain ⟨rules, hru, hl', hft, hfr, e⟩ := ht
  rw [insText, targets_text hft, Ins.string, hw.targets] at e
  simp only [Ins.version, List.append_assoc] at e
  obtain ⟨ha, e⟩ := Verif.Whole.targets_ends (t.targets.map shownT) i.trs
    (b!" 3.0; acl \"" ++ (t.label ++ (b!"\"; " ++ (Str.join b!" " (rules.map (pbText P many)) ++ b!")"))))
    (b!" 3.0; acl \"" ++ (i.acl ++ (b!"\"; " ++ (PB.listString w i.pbrs ++ b!")"))))
    (by
      intro r hr
      obtain ⟨q, hq, rfl⟩ := List.mem_map.1 hr
      exact fair_target (hft q hq))
    (fun r hr => (htr r hr).1) (by simpa using e)
  have e := List.append_cancel_left e
  simp only [List.cons_append, List.nil_append] at e
  obtain ⟨hlab, e⟩ := until_mark hl' hl e
  simp only [List.cons.injEq, true_and] at e
  obtain ⟨us, u1, u2, u3⟩ := pbs_read hP hN hw rules i.pbrs hfr hpb e
  obtain ⟨-, t2, t3, t4⟩ := targets_read ha hft htr
  have hE := hP.1
  obtain ⟨j, hj, j1, j2, j3⟩ := Ins.parse_content w F hE rd t t.rules [] us (by simp) (by rw [hru]; exact u1) (.inl rfl)
  have hstay : transferTRs [] t.targets = t.targets := by
    refine all_stay hft ?_
    intro m n a b hmn hma hnb hab
    have kw : ∀ n : Nat, (t.targets.map (·.core.kw))[n]? = (i.trs.map (·.core.kw))[n]? := fun n => by rw [t2]
    have k1 := kw m
    have k2 := kw n
    simp only [List.getElem?_map, hma, hnb, Option.map_some] at k1 k2
    cases h1 : i.trs[m]? with
    | none => rw [h1] at k1; cases k1
    | some a' =>
      cases h2 : i.trs[n]? with
      | none => rw [h2] at k2; cases k2
      | some b' =>
        rw [h1] at k1; rw [h2] at k2
        simp only [Option.map_some, Option.some.injEq] at k1 k2
        exact hk m n a' b' hmn h1 h2 (by rw [← k1, ← k2, hab])
  have hpt : (processTargetRules w.env.eq w.dot t.targets).1 = (assertAll F.eq d.read t.targets).1 := by
    rw [processTargetRules, hstay, hE, hd]
  have hus : firsts (PB.sameText w) (us.map some) = us.map some := by
    refine firsts_distinct ?_
    intro m n a b hmn hma hnb
    have st : ∀ n : Nat, ((us.map some).map (PB.string w))[n]? = (i.pbrs.map (PB.string w))[n]? := fun n => by rw [u2]
    have k1 := st m
    have k2 := st n
    rw [List.getElem?_map, hma, List.getElem?_map, Option.map_some] at k1
    rw [List.getElem?_map, hnb, List.getElem?_map, Option.map_some] at k2
    cases h1 : i.pbrs[m]? with
    | none => rw [h1] at k1; cases k1
    | some a' =>
      cases h2 : i.pbrs[n]? with
      | none => rw [h2] at k2; cases k2
      | some b' =>
        rw [h1] at k1; rw [h2] at k2
        simp only [Option.map_some, Option.some.injEq] at k1 k2
        have := hdist m n a' b' hmn h1 h2
        rw [PB.sameText, hE, k1, k2]; exact this
  rw [hus] at j2
  rw [hpt] at j3
  cases j with
  | none =>
    exfalso
    rw [Ins.parse] at hj
    revert hj
    cases PB.processAll w rd t.rules <;> intro hj <;> cases hj
  | some j =>
    simp only [Ins.acl, Ins.pbrs, Ins.trs] at j1 j2 j3
    refine ⟨j, hj, ?_, j1.trans hlab, by rw [j3, t4], by rw [j2]; exact u3⟩
    have et : TRs.string j.trs = TRs.string i.trs := by
      rw [j3, trs_flatten, t3, targets_text hft]
      clear hj j1 j2 j3 t3 t4 t2 hstay hpt e
      have along : ∀ {l m : List TRule}, Verif.Whole.Along Verif.Whole.SameTarget l m →
          (∀ r ∈ l, Verif.Whole.TargetShown r) → (∀ r ∈ m, Verif.Whole.TargetShown r) →
          TRs.string l = TRs.string m := by
        intro l m h
        induction h with
        | nil => intros; rfl
        | @cons a b l m h _ ih =>
          intro h1 h2
          rw [Verif.Whole.trs_cons, Verif.Whole.trs_cons, ih (fun r hr => h1 r (List.mem_cons_of_mem _ hr))
            (fun r hr => h2 r (List.mem_cons_of_mem _ hr)), Verif.Whole.target_text (h1 a (by simp)),
            Verif.Whole.target_text (h2 b (by simp)), h.1, h.2.1, h.2.2]
      refine along ha ?_ fun r hr => (htr r hr).1
      intro r hr
      obtain ⟨q, hq, rfl⟩ := List.mem_map.1 hr
      exact fair_target (hft q hq)
    simp only [Ins.string, hw.targets, et, j1, hlab, j2, PB.listString, u2]

/-! ## Every such text can be split -/

/-- The target rule a parser returns for a rule. -/
def ofTarget (r : TRule) : TRule :=
  ⟨r.core, .raw (if r.slice = true ∧ 2 ≤ r.ex.texts.length then 0 else 1) r.ex.texts, true, false⟩

theorem ofTarget_ok {E : EqualFold} {d : Oid.DotReader} {r : TRule} (h : WholeT E d r) :
    FairTarget (ofTarget r) ∧ targetText (ofTarget r) = r.string := by
  obtain ⟨hs, ⟨k, hk, -⟩, hb⟩ := h
  have hi : r.core.init = true := by simpa [TRule.isZero] using hs.set
  have hlen : r.ex.texts.length ≠ 0 := fun h => hs.some (List.length_eq_zero_iff.1 h)
  refine ⟨⟨hi, ⟨k, hk⟩, hs.op, _, _, rfl, hs.some, fun v hv => ⟨hs.clean v hv, hb v hv⟩, ?_⟩, ?_⟩
  · intro h1
    rw [if_neg (by omega)]
    decide
  · rw [Verif.Whole.target_text hs]
    unfold targetText ofTarget
    simp only [List.append_assoc]
    congr 5
    unfold valuesText Verif.Whole.quoted quotedJoin
    cases h : r.slice
    · simp [Str.join]
    · simp only [true_and, if_true]
      by_cases h2 : 2 ≤ r.ex.texts.length
      · simp [h2]
      · rw [if_neg h2, if_neg (by decide)]
        obtain ⟨v, hv⟩ := List.length_eq_one_iff.1 (show r.ex.texts.length = 1 by omega)
        simp [hv, Str.join]

theorem ofPerm_ok (S : Shifty 16) {p : Rights.Permission} (h : Rights.valid p = true) (h' : Rights.WithinTen p) :
    ∃ t, FairRights t ∧ rightsText t = Rights.string S p := by
  obtain ⟨allow, -, -, ht⟩ := Rights.C02_text S p h h'
  refine ⟨⟨some allow, permWords (Rights.grants S p)⟩, ⟨by simp, ?_, ?_⟩, ?_⟩
  · unfold permWords
    simp only
    repeat' split
    · simp
    · simp
    · simp
    · next h3 =>
      intro he
      refine h3 ?_
      rw [List.map_eq_nil_iff, List.filter_eq_nil_iff] at he
      rw [List.all_eq_true]
      intro q hq
      simpa using he q hq
  · intro v hv
    have names : ∀ q : Priv, (44 : Byte) ∉ q.name ∧ (41 : Byte) ∉ q.name := by intro q; cases q <;> decide
    simp only at hv
    unfold permWords at hv
    repeat' split at hv
    all_goals first
      | (simp only [List.mem_cons, List.not_mem_nil, or_false] at hv
         rcases hv with rfl | rfl <;> decide)
      | (simp only [List.mem_cons, List.not_mem_nil, or_false] at hv; subst hv; decide)
      | (obtain ⟨q, -, rfl⟩ := List.mem_map.1 hv; exact names q)
  · rw [ht, rightsText, permText]
    cases allow <;> rfl

/-- **C100.** The text of every instruction that shows all of it can be split. -/
theorem C100_split (F : EqualFold) (d : Oid.DotReader) (w : PB.World) (P : Printing) (many : Bool → List Str → Str)
    (hw : Verif.Whole.Prints w (BExpr.texts P) many) (i : Ins.Body) (hi : WholeI F d P w i) :
    ∃ t, SplitsI P many (Ins.string w (some i)) t := by
  obtain ⟨hl, htr, -, hpb, -⟩ := hi
  have rules : ∀ rs : List PB.PBRule, (∀ r ∈ rs, ∃ p b, r = some ⟨p, some b⟩ ∧ WholeP F P p b) →
      ∃ ts : List PB.Tokens,
        (∀ x ∈ ts, FairRights x.p ∧ Splits P many ((treeCtx x.b).text (BExpr.texts P) many) x.b) ∧
        ts.map (pbText P many) = rs.map (PB.string w) := by
    intro rs
    induction rs with
    | nil => exact fun _ => ⟨[], by simp, rfl⟩
    | cons r rs ih =>
      intro h
      obtain ⟨ts, h1, h2⟩ := ih fun r hr => h r (List.mem_cons_of_mem _ hr)
      obtain ⟨p, b, rfl, ⟨hv, h10⟩, hs, hg, hl⟩ := h r (by simp)
      obtain ⟨pt, hf, hpt⟩ := ofPerm_ok w.S hv h10
      obtain ⟨bt, hb⟩ := C99_split F P many b hs hg hl
      obtain ⟨b1, b2, b3, b4, b5⟩ := hb
      refine ⟨⟨pt, bt⟩ :: ts, ?_, ?_⟩
      · intro x hx
        rcases List.mem_cons.1 hx with rfl | hx
        · exact ⟨hf, b1, b2, b3, b4, rfl⟩
        · exact h1 x hx
      · rw [List.map_cons, List.map_cons, h2, Verif.Whole.rule_text w b hv, hw.text, ← b5, ← hpt]
        rfl
  obtain ⟨ts, h1, h2⟩ := rules i.pbrs hpb
  refine ⟨⟨i.acl, i.trs.map ofTarget, ts.map some⟩, ts, rfl, hl, ?_, h1, ?_⟩
  · intro q hq
    obtain ⟨r, hr, rfl⟩ := List.mem_map.1 hq
    exact (ofTarget_ok (htr r hr)).1
  · simp only [insText, Ins.string, hw.targets, h2, trs_flatten, PB.listString, Ins.version, List.map_map]
    have : i.trs.map (targetText ∘ ofTarget) = i.trs.map TRule.string :=
      List.map_congr_left fun r hr => (ofTarget_ok (htr r hr)).2
    rw [this]
    simp

/-- **C100**, for `Instruction.Parse` of the text, with a parser that splits it, when the text has
no needless white space.  Missing: as for `C100_back_partial`, and white space that the reading
takes away. -/
theorem C100_text_partial (F : EqualFold) (d : Oid.DotReader) (w : PB.World) (rd : Str → Option PB.Store)
    (P : Printing) (many : Bool → List Str → Str) (hP : Proper w.env F) (hd : w.dot = d.read)
    (hN : P.names.Perm Sec.authNames) (hw : Verif.Whole.Prints w (BExpr.texts P) many) (i : Ins.Body)
    (hi : WholeI F d P w i) (hc : Condenses (Ins.string w (some i)) (Ins.string w (some i)))
    (parser : Str → Option Ins.Tokens)
    (hp : ∃ t, parser (Ins.string w (some i)) = some t ∧ SplitsI P many (Ins.string w (some i)) t) :
    ∃ i', Ins.readText w rd parser (Ins.string w (some i)) = some (some i') ∧
      Ins.string w (some i') = Ins.string w (some i) ∧ i'.acl = i.acl ∧
      i'.trs.map contentT = i.trs.map contentT ∧ Verif.Whole.Along (SameP w.S) i'.pbrs i.pbrs := by
  obtain ⟨t, hpt, ht⟩ := hp
  obtain ⟨i', h1, h⟩ := C100_back_partial F d w rd P many hP hd hN hw i hi t ht
  refine ⟨i', ?_, h⟩
  rw [Ins.readText, (condenses_iff _ _).1 hc, hpt]
  simp only [h1]

/-! ## Examples -/

/-- A world that prints as go-stackage does. -/
def backWorld : PB.World :=
  { PB.plainWorld with text := BCtx.text (BExpr.texts plainPrinting) fun _ _ => [], targets := TRs.string }

theorem backWorld_prints : Verif.Whole.Prints backWorld (BExpr.texts plainPrinting) fun _ _ => [] :=
  ⟨fun _ => rfl, fun _ => rfl⟩

/-- An instruction with two target rules and two permission bind rules. -/
def sampleIns : Ins.Body :=
  ⟨b!"label",
    [⟨⟨true, b!"targetcontrol", Eq'⟩, .oids ⟨tkwConst .targetcontrol, [b!"1.2.3", b!"1.3"].map fun t =>
        .oid (some ⟨tkwConst .targetcontrol, some t⟩)⟩, false, true⟩,
      ⟨⟨true, b!"targetscope", Ne'⟩, .scope (SearchScope.const .base), true, false⟩],
    [some ⟨some ⟨true, 1#16⟩, some sampleBack⟩, some ⟨some ⟨false, 3#16⟩, some sampleBack⟩]⟩

theorem sampleIns_text : Ins.string backWorld (some sampleIns) =
    b!"( targetcontrol = \"1.2.3\" || \"1.3\" )( targetscope != \"base\" )(version 3.0; acl \"label\"; allow(read) userdn = \"ldap:///cn=x\" || \"ldap:///cn=y\" AND NOT ( ssf = \"71\" ); deny(read,write) userdn = \"ldap:///cn=x\" || \"ldap:///cn=y\" AND NOT ( ssf = \"71\" );)" := by
  decide +kernel

theorem sampleIns_whole : WholeI .ref Oid.plainReader plainPrinting backWorld sampleIns := by
  obtain ⟨h1, h2, h3⟩ := sampleBack_whole
  refine ⟨by decide, ?_, ?_, ?_, ?_⟩
  · intro r hr
    simp only [sampleIns, List.mem_cons, List.not_mem_nil, or_false] at hr
    rcases hr with rfl | rfl
    · refine ⟨by constructor <;> decide +kernel, ⟨.targetcontrol, rfl, .oids rfl (by simp) (by decide) (by decide +kernel)⟩, ?_⟩
      intro v hv
      have : v = b!"1.2.3" ∨ v = b!"1.3" := by
        have e : TExpr.texts (.oids ⟨tkwConst .targetcontrol, [b!"1.2.3", b!"1.3"].map fun t =>
          .oid (some ⟨tkwConst .targetcontrol, some t⟩)⟩) = [b!"1.2.3", b!"1.3"] := by decide +kernel
        rw [e] at hv
        simpa using hv
      rcases this with rfl | rfl <;> exact noBars_of (by decide +kernel)
    · refine ⟨by constructor <;> decide +kernel, ⟨.targetscope, rfl, .scope _⟩, ?_⟩
      intro v hv
      have : v = b!"base" := by
        have e : TExpr.texts (.scope (SearchScope.const .base)) = [b!"base"] := by decide +kernel
        rw [e] at hv
        simpa using hv
      rw [this]; exact noBars_of (by decide +kernel)
  · intro m n a b hmn ha hb
    match m, n, hmn, ha, hb with
    | 0, 1, _, ha, hb =>
      simp only [sampleIns, List.getElem?_cons_zero, List.getElem?_cons_succ, Option.some.injEq] at ha hb
      subst ha hb; decide
    | 0, j + 2, _, _, hb => simp [sampleIns] at hb
    | i + 1, j + 2, _, _, hb => simp [sampleIns] at hb
    | i + 1, 1, hij, _, _ => omega
  · intro r hr
    simp only [sampleIns, List.mem_cons, List.not_mem_nil, or_false] at hr
    rcases hr with rfl | rfl
    · exact ⟨_, _, rfl, ⟨by decide, by simp [Rights.WithinTen]⟩, h1, h2, h3⟩
    · exact ⟨_, _, rfl, ⟨by decide, by simp [Rights.WithinTen]⟩, h1, h2, h3⟩
  · intro m n a b hmn ha hb
    match m, n, hmn, ha, hb with
    | 0, 1, _, ha, hb =>
      simp only [sampleIns, List.getElem?_cons_zero, List.getElem?_cons_succ, Option.some.injEq] at ha hb
      subst ha hb; decide +kernel
    | 0, j + 2, _, _, hb => simp [sampleIns] at hb
    | i + 1, j + 2, _, _, hb => simp [sampleIns] at hb
    | i + 1, 1, hij, _, _ => omega

/-- The sample is printed, split, and read as itself. -/
example : ∃ t i', SplitsI plainPrinting (fun _ _ => [])
      b!"( targetcontrol = \"1.2.3\" || \"1.3\" )( targetscope != \"base\" )(version 3.0; acl \"label\"; allow(read) userdn = \"ldap:///cn=x\" || \"ldap:///cn=y\" AND NOT ( ssf = \"71\" ); deny(read,write) userdn = \"ldap:///cn=x\" || \"ldap:///cn=y\" AND NOT ( ssf = \"71\" );)" t ∧
    Ins.parse backWorld (fun _ => none) t = .ok (some i') ∧ i'.acl = b!"label" ∧
    i'.trs.map contentT = sampleIns.trs.map contentT := by
  obtain ⟨t, ht⟩ := C100_split _ _ backWorld plainPrinting _ backWorld_prints sampleIns sampleIns_whole
  obtain ⟨i', g1, -, g2, g3, -⟩ := C100_back_partial .ref Oid.plainReader backWorld (fun _ => none) plainPrinting _
    plain_proper rfl (.refl _) backWorld_prints sampleIns sampleIns_whole t ht
  rw [sampleIns_text] at ht
  exact ⟨t, i', ht, g1, g2, g3⟩

example : Condenses (Ins.string backWorld (some sampleIns)) (Ins.string backWorld (some sampleIns)) := by
  rw [sampleIns_text]
  exact (condenses_iff _ _).2 (by decide +kernel)

/-! ## What is lost -/

/-- **C100** as stated: the text of every instruction of valid rules, however it is split, is read
as an instruction with this text. -/
def ClaimInsBack : Prop :=
  ∀ (F : EqualFold) (d : Oid.DotReader) (w : PB.World) (rd : Str → Option PB.Store) (P : Printing)
    (many : Bool → List Str → Str), Proper w.env F → w.dot = d.read → P.names.Perm Sec.authNames →
    Verif.Whole.Prints w (BExpr.texts P) many → ∀ i : Ins.Body, Verif.Whole.AllValid i → ∀ t : Ins.Tokens,
    SplitsI P many (Ins.string w (some i)) t →
    ∃ i', Ins.parse w rd t = .ok (some i') ∧ Ins.string w (some i') = Ins.string w (some i)

/-- `( targetattr = "cn || sn" )` -/
def twoAttrs : TRule := ⟨⟨true, b!"targetattr", Eq'⟩, .attrs ⟨[some b!"cn", some b!"sn"], []⟩, true, false⟩

/-- What a parser returns for it. -/
def rawAttrs : TRule := ⟨⟨true, b!"targetattr", Eq'⟩, .raw 1 [b!"cn", b!"sn"], true, false⟩

/-- The text of what is read. -/
def insAgain (t : Ins.Tokens) : Option Str :=
  match Ins.parse backWorld (fun _ => none) t with
  | .ok i => some (Ins.string backWorld i)
  | _ => none

/-- **C100** fails: of the attributes `cn` and `sn`, the second is read as the first (C44). -/
theorem C100_counterexample : ¬ ClaimInsBack ∧
    Ins.string backWorld (some ⟨b!"x", [twoAttrs], []⟩) =
      b!"( targetattr = \"cn || sn\" )(version 3.0; acl \"x\"; )" ∧
    insAgain ⟨b!"x", [rawAttrs], []⟩ = some b!"( targetattr = \"cn || cn\" )(version 3.0; acl \"x\"; )" := by
  have h1 : Ins.string backWorld (some ⟨b!"x", [twoAttrs], []⟩) =
      b!"( targetattr = \"cn || sn\" )(version 3.0; acl \"x\"; )" := by decide +kernel
  have h2 : insAgain ⟨b!"x", [rawAttrs], []⟩ =
      some b!"( targetattr = \"cn || cn\" )(version 3.0; acl \"x\"; )" := by decide +kernel
  refine ⟨?_, h1, h2⟩
  intro h
  obtain ⟨i', e1, e2⟩ := h .ref Oid.plainReader backWorld (fun _ => none) plainPrinting _ plain_proper rfl (.refl _)
    backWorld_prints ⟨b!"x", [twoAttrs], []⟩
    ⟨by intro r hr; simp only [List.mem_singleton] at hr; rw [hr]; decide +kernel, by simp⟩
    ⟨b!"x", [rawAttrs], []⟩
    ⟨[], rfl, by decide, by
      intro q hq
      simp only [List.mem_singleton] at hq
      subst hq
      refine ⟨rfl, ⟨.targetattr, rfl⟩, by decide +kernel, 1, _, rfl, by simp, ?_, by simp⟩
      intro v hv
      simp only [List.mem_cons, List.not_mem_nil, or_false] at hv
      rcases hv with rfl | rfl <;> exact ⟨by decide, noBars_of (by decide)⟩, by simp, by
      rw [h1]; decide +kernel⟩
  unfold insAgain at h2
  rw [e1] at h2
  simp only [e2, h1] at h2
  exact absurd h2 (by decide +kernel)

end Verif.Back
