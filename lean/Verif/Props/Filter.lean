import Verif.Lemmas.Filter

/-!
# C40, C41, C42 and C60: attribute filters
-/

namespace Verif.Filter
open Verif Verif.Spec Verif.Misc Verif.Attr

/-! ## C40 -/

/-- **C40**, the text of an attribute filter: attribute, colon, filter; nothing when
one of the two is not set. -/
theorem C40_text (af : AttributeFilter) :
    (∀ a f, af = some ⟨some a, some f⟩ → a ≠ [] → f ≠ [] →
      AttributeFilter.string af = a ++ b!":" ++ f) ∧
    ((∀ a f, a ≠ [] → f ≠ [] → af ≠ some ⟨some a, some f⟩) → AttributeFilter.string af = []) := by
  constructor
  · rintro a f rfl ha hf; exact string_pair ha hf
  · intro h
    have hv : AttributeFilter.valid af = false := by
      rw [Bool.eq_false_iff]
      intro hv
      obtain ⟨a, f, e, ha, hf⟩ := (valid_iff af).1 hv
      exact h a f ha hf e
    cases af with
    | none => rfl
    | some r => simp [AttributeFilter.string, hv]

example : AttributeFilter.string (some ⟨some b!"cn", some b!"(a=b)"⟩) = b!"cn:(a=b)" ∧
    AttributeFilter.string (some ⟨some b!"cn", some []⟩) = [] :=
  ⟨(C40_text _).1 _ _ rfl (by decide) (by decide),
    (C40_text _).2 fun _ _ _ hf h => by cases h; exact hf rfl⟩

/-- **C40**, round trip: the text of every attribute filter with a valid attribute and a
filter that is not empty is read as this attribute filter. -/
theorem C40_round_trip {a f : Str} (ha : AttrName a) (hf : f ≠ []) :
    parseAttributeFilter (AttributeFilter.string (some ⟨some a, some f⟩))
      = .ok (some ⟨some a, some f⟩) := by
  rw [string_pair (Uri.attrName_ne_nil ha) hf, parse_pair ha]

/-- The reader gives attribute filters with a valid attribute and a filter, or refuses. -/
def ClaimFiltersSet : Prop :=
  ∀ (raw : Str) (af : AttributeFilter), parseAttributeFilter raw = .ok af →
    ∃ a f, raw = a ++ b!":" ++ f ∧ AttrName a ∧ f ≠ [] ∧ af = some ⟨some a, some f⟩

theorem cn_name : AttrName b!"cn" := Or.inl ((isIdentifier_iff _).1 (by decide +kernel))
theorem sn_name : AttrName b!"sn" := Or.inl ((isIdentifier_iff _).1 (by decide +kernel))

example : AttrName b!"cn" ∧ b!"(a:b)" ≠ [] := ⟨cn_name, by decide⟩

/-- **C40** fails: a text with nothing behind the colon is taken. -/
theorem C40_counterexample : ¬ ClaimFiltersSet := by
  intro h
  obtain ⟨a, f, e, ha, hf, hs⟩ := h b!"cn:" _ (parse_pair cn_name [])
  injection hs with hs
  injection hs with _ hs
  injection hs with hs
  exact hf hs.symm

/-- **C40**, what is taken and what is refused, exactly (missing: the text behind the
colon may be empty). -/
theorem C40_read_partial (raw : Str) (af : AttributeFilter) :
    (parseAttributeFilter raw = .ok af ↔
      ∃ a f, raw = a ++ b!":" ++ f ∧ AttrName a ∧ af = some ⟨some a, some f⟩) ∧
    (parseAttributeFilter raw = .error () ↔ ∀ a f, raw = a ++ b!":" ++ f → ¬ AttrName a) := by
  have key : ∀ raw, (∃ a f, raw = a ++ b!":" ++ f ∧ AttrName a ∧
        parseAttributeFilter raw = .ok (some ⟨some a, some f⟩)) ∨
      ((∀ a f, raw = a ++ b!":" ++ f → ¬ AttrName a) ∧ parseAttributeFilter raw = .error ()) := by
    intro raw
    cases hc : Str.cut1 58 raw with
    | none =>
      right
      refine ⟨?_, by rw [parseAttributeFilter, hc]⟩
      rintro a f rfl _
      exact Str.cut1_none_iff.1 hc (by simp)
    | some pq =>
      obtain ⟨p, q⟩ := pq
      obtain ⟨h1, h2⟩ := Str.cut1_some hc
      by_cases hp : AttrName p
      · left
        refine ⟨p, q, ?_, hp, ?_⟩
        · first | rw [h1]; simp | rw [h2]; simp
        · have := parse_pair hp q
          have e : pairText (p, q) = raw := by first | rw [h1]; simp [pairText] | rw [h2]; simp [pairText]
          rw [e] at this; exact this
      · right
        refine ⟨?_, ?_⟩
        · rintro a f rfl ha
          have e : a ++ b!":" ++ f = a ++ 58 :: f := by simp
          rw [e, Str.cut1_append (name_no_colon ha)] at hc
          injection hc with hc
          injection hc with hc _
          rw [← hc] at hp; exact hp ha
        · rw [parseAttributeFilter, hc]
          have : AT p = none := (AT_none p).2 hp
          simp [this, AttributeType.isZero]
  rcases key raw with ⟨a, f, e, ha, hp⟩ | ⟨hn, hp⟩
  · constructor
    · constructor
      · intro h
        rw [hp] at h; injection h with h
        exact ⟨a, f, e, ha, h.symm⟩
      · rintro ⟨a', f', e', ha', rfl⟩
        have := pairText_inj (f := f) (f' := f') ha ha' (e.symm.trans e')
        rw [hp, this.1, this.2]
    · constructor
      · intro h; rw [hp] at h; cases h
      · intro h; exact absurd ha (h a f e)
  · constructor
    · constructor
      · intro h; rw [hp] at h; cases h
      · rintro ⟨a', f', e', ha', _⟩; exact absurd ha' (hn a' f' e')
    · exact ⟨fun _ => hn, fun _ => hp⟩

/-- **C40**, `AttributeFilter.Parse`: round trip for texts of five bytes or more with
ASCII names, whose filter is as clean-up leaves it (missing: other filters, which come
back with other white space or without quotation mark, and texts below five bytes). -/
theorem C40_parse_partial {a f : Str} (ha : AttrName a) (haa : Str.IsAscii a) (hf : Tidy f)
    (hq : NoQuote f) (hlen : 5 ≤ (a ++ b!":" ++ f).length) :
    AttributeFilter.parse (AttributeFilter.string (some ⟨some a, some f⟩))
      = .ok (some ⟨some a, some f⟩) := by
  obtain ⟨fne, _⟩ := hf.last
  rw [string_pair (Uri.attrName_ne_nil ha) fne]
  have hn := neat_pair (p := (a, f)) ha haa hf
  have hplain := attrName_plain ha haa
  have hu : unquote (condenseWHSP (pairText (a, f))) = pairText (a, f) := by
    rw [hn.condense]
    refine unquote_id ?_ hn.ne ?_ ?_
    · have : (pairText (a, f)).length = (a ++ b!":" ++ f).length := rfl
      omega
    · have hane := Uri.attrName_ne_nil ha
      have e : (pairText (a, f)).head hn.ne = a.head hane := by
        simp only [pairText, List.append_assoc]
        exact List.head_append_of_ne_nil hane
      rw [e, Bool.eq_false_iff]
      intro h
      have hm := List.head_mem hane
      have : ∀ c : Byte, isQuote c = true → ¬ Cased c ∧ ¬ Digit c ∧ c ≠ 59 ∧ c ≠ 45 ∧ c ≠ 42 := by
        decide +kernel
      obtain ⟨h1, h2, h3, h4, h5⟩ := this _ h
      exact Uri.attrName_avoids ha h1 h2 h3 h4 h5 hm
    · have e : (pairText (a, f)).getLast hn.ne = f.getLast fne := by
        exact List.getLast_append_of_ne_nil (l := a ++ b!":") (by simp) fne
      rw [e]; exact noQuote_last hq fne
  unfold AttributeFilter.parse
  rw [hu]
  have : (pairText (a, f)).length = (a ++ b!":" ++ f).length := rfl
  simp only [show ¬ (pairText (a, f)).length < 5 by omega, if_false]
  exact parse_pair ha f

theorem tidy_of {f : Str} (h1 : Str.IsAscii f) (h2 : ∀ c ∈ f, c ≠ 9 ∧ c ≠ 10)
    (h3 : Str.containsStr f b!"  " = false) (hne : f ≠ []) (h4 : ¬ White (f.getLast hne)) : Tidy f :=
  ⟨h1, h2, h3, f.dropLast, f.getLast hne, (List.dropLast_concat_getLast hne).symm, h4⟩

theorem noQuote_of {f : Str} (hne : f ≠ [])
    (h : f.getLast hne ≠ 34 ∧ f.getLast hne ≠ 39 ∧ f.getLast hne ≠ 96) : NoQuote f := by
  rintro t c rfl
  simpa using h

theorem sample_tidy : Tidy b!"(&(a=x y)(b=,;add=1))" :=
  tidy_of (by decide +kernel) (by decide +kernel) (by decide +kernel) (by decide) (by decide +kernel)

theorem sample_noQuote : NoQuote b!"(&(a=x y)(b=,;add=1))" :=
  noQuote_of (by decide) (by decide +kernel)

example : AttributeFilter.parse b!"cn:(&(a=x y)(b=,;add=1))"
    = .ok (some ⟨some b!"cn", some b!"(&(a=x y)(b=,;add=1))"⟩) := by
  have := C40_parse_partial cn_name (by decide) sample_tidy sample_noQuote (by decide)
  rw [string_pair (by decide) (by decide)] at this
  exact this

/-- **C40** fails for `AttributeFilter.Parse` on short texts: `cn:x` is refused. -/
theorem C40_counterexample_short :
    AttributeFilter.string (some ⟨some b!"cn", some b!"x"⟩) = b!"cn:x" ∧
    AttributeFilter.parse b!"cn:x" = .error () := by
  refine ⟨string_pair (by decide) (by decide), ?_⟩
  have : (unquote (condenseWHSP b!"cn:x")).length < 5 := by decide +kernel
  rw [AttributeFilter.parse, if_pos this]

/-! ## C41 -/

/-- **C41** as stated: the text of an operation over pairs, no filter holding `&&`, is
read as the same operation. -/
def ClaimOperations : Prop :=
  ∀ (delete : Bool) (ps : List Pair), ps ≠ [] → ps.Nodup →
    (∀ p ∈ ps, AttrName p.1 ∧ p.2 ≠ [] ∧ Str.containsStr p.2 b!"&&" = false) →
    parseAFO (opWith delete ps).string = .ok (opWith delete ps)

/-- **C41**, the text: the word of the operation, an equals sign, and the pairs joined
by ` && `. -/
theorem C41_text (delete : Bool) {ps : List Pair} (h : ∀ p ∈ ps, AttrName p.1 ∧ p.2 ≠ []) :
    (opWith delete ps).string = opText delete ps := string_opWith delete h

/-- **C41** for filters as clean-up of white space leaves them (missing: other filters,
see `C41_counterexample`, and names beyond ASCII). -/
theorem C41_round_trip_partial (delete : Bool) {ps : List Pair} (h : Clean ps) (hne : ps ≠ [])
    (hu : Unquoted ps) (hd : ps.Nodup) :
    parseAFO (opWith delete ps).string = .ok (opWith delete ps) := by
  rw [string_opWith delete h.set, parseAFO_op h hne hu hd]

theorem simple_tidy : Tidy b!"(sn=*)" :=
  tidy_of (by decide +kernel) (by decide +kernel) (by decide +kernel) (by decide) (by decide +kernel)

theorem sample_clean : Clean [(b!"cn", b!"(&(a=x y)(b=,;add=1))"), (b!"sn", b!"(sn=*)")] := by
  intro p hp
  simp at hp
  rcases hp with rfl | rfl
  · exact ⟨cn_name, by decide, sample_tidy, by decide +kernel⟩
  · exact ⟨sn_name, by decide, simple_tidy, by decide +kernel⟩

theorem sample_unquoted : Unquoted [(b!"cn", b!"(&(a=x y)(b=,;add=1))"), (b!"sn", b!"(sn=*)")] := by
  intro l p h
  have := congrArg List.getLast? h
  simp at this
  rw [← this]; exact noQuote_of (by decide) (by decide)

example : (opWith true [(b!"cn", b!"(&(a=x y)(b=,;add=1))"), (b!"sn", b!"(sn=*)")]).string
    = b!"delete=cn:(&(a=x y)(b=,;add=1)) && sn:(sn=*)" := by
  rw [C41_text true sample_clean.set]; decide +kernel

example : parseAFO b!"delete=cn:(&(a=x y)(b=,;add=1)) && sn:(sn=*)"
    = .ok (opWith true [(b!"cn", b!"(&(a=x y)(b=,;add=1))"), (b!"sn", b!"(sn=*)")]) := by
  have := C41_round_trip_partial true sample_clean (by decide) sample_unquoted (by decide)
  rw [C41_text true sample_clean.set] at this
  exact this

/-- **C41** fails: two spaces in a row in a filter become one. -/
theorem C41_counterexample : ¬ ClaimOperations := by
  intro h
  have h1 := h false [(b!"cn", b!"(a=x  y)")] (by decide) (by decide) (by
    intro p hp
    simp at hp; subst hp
    exact ⟨cn_name, by decide, by decide +kernel⟩)
  have h2 : (parseAFO (opWith false [(b!"cn", b!"(a=x  y)")]).string).toOption
      = some (opWith false [(b!"cn", b!"(a=x y)")]) := by decide +kernel
  rw [h1] at h2
  revert h2
  decide +kernel

/-- What an argument of a push stands for: the text of a pair, or the filter itself. -/
def Offer (x : AFOArg) (p : Pair) : Prop :=
  (x = .str (pairText p) ∧ AttrName p.1 ∧ p.2 ≠ []) ∨ (x = .af (ofPair p) ∧ p.1 ≠ [] ∧ p.2 ≠ [])

theorem pushAF_pair {ps : List Pair} {p : Pair} (h : ∀ q ∈ ps, q.1 ≠ [] ∧ q.2 ≠ [])
    (h1 : p.1 ≠ []) (h2 : p.2 ≠ []) :
    pushAF (ps.map ofPair) (ofPair p) = (addNew samePair ps p).map ofPair := by
  have hs : (ps.map ofPair).map AttributeFilter.string = ps.map pairText := by
    rw [List.map_map]
    exact List.map_congr_left fun q hq => string_pair (h q hq).1 (h q hq).2
  have hv : AttributeFilter.valid (ofPair p) = true := (valid_iff _).2 ⟨p.1, p.2, rfl, h1, h2⟩
  unfold pushAF addNew containsText samePair
  rw [hs, show AttributeFilter.string (ofPair p) = pairText p from string_pair h1 h2, hv]
  simp only [List.any_map, Function.comp_def, if_true]
  split <;> simp

theorem pushAF_invalid {es : List AttributeFilter} {af : AttributeFilter}
    (h : AttributeFilter.valid af = false) : pushAF es af = es := by
  unfold pushAF; rw [h]; simp

theorem push1_no {r : AFO} {x : AFOArg} (h : ∀ p, ¬ Offer x p) :
    (r.push1 x).entries = r.entries := by
  cases x with
  | op o => rfl
  | other => rfl
  | af a =>
    have : AttributeFilter.valid a = false := by
      rw [Bool.eq_false_iff]
      intro hv
      obtain ⟨b, f, rfl, hb, hf⟩ := (valid_iff a).1 hv
      exact h (b, f) (Or.inr ⟨rfl, hb, hf⟩)
    exact pushAF_invalid this
  | str s =>
    rw [AFO.push1]
    cases hp : parseAttributeFilter s with
    | error e => rfl
    | ok af =>
      obtain ⟨a, f, e, ha, rfl⟩ := ((C40_read_partial s af).1).1 hp
      have hf : f = [] := by
        by_cases hf : f = []
        · exact hf
        · exact absurd (Or.inl ⟨by rw [e]; rfl, ha, hf⟩) (h (a, f))
      subst hf
      exact pushAF_invalid (by
        rw [Bool.eq_false_iff]
        intro hv
        obtain ⟨_, f', e', _, hf'⟩ := (valid_iff _).1 hv
        injection e' with e'; injection e' with _ e'; injection e' with e'
        exact hf' e'.symm)

theorem push1_yes {r : AFO} {x : AFOArg} {p : Pair} (h : Offer x p) :
    (r.push1 x).entries = pushAF r.entries (ofPair p) := by
  rcases h with ⟨rfl, ha, hf⟩ | ⟨rfl, ha, hf⟩
  · rw [AFO.push1, parse_pair ha]; rfl
  · rfl

theorem offer_ne {x : AFOArg} {p : Pair} (h : Offer x p) : p.1 ≠ [] ∧ p.2 ≠ [] := by
  rcases h with ⟨_, ha, hf⟩ | ⟨_, ha, hf⟩
  · exact ⟨Uri.attrName_ne_nil ha, hf⟩
  · exact ⟨ha, hf⟩

theorem push_pairs {x : List AFOArg} {ps : List Pair} (h : Picks Offer x ps) {r : AFO}
    {qs : List Pair} (hq : ∀ q ∈ qs, q.1 ≠ [] ∧ q.2 ≠ []) (hr : r.entries = qs.map ofPair) :
    (r.push x).entries = (ps.foldl (addNew samePair) qs).map ofPair := by
  induction h generalizing r qs with
  | nil => exact hr
  | skip h h' ih => exact ih hq ((push1_no h).trans hr)
  | take h h' ih =>
    refine ih (qs := addNew samePair qs _) ?_ ?_
    · intro q hm
      rw [addNew] at hm
      split at hm
      · exact hq q hm
      · rcases List.mem_append.1 hm with hm | hm
        · exact hq q hm
        · simp at hm; subst hm; exact offer_ne h
    · rw [push1_yes h, hr, pushAF_pair hq (offer_ne h).1 (offer_ne h).2]

theorem push_append (r : AFO) (x y : List AFOArg) : (r.push x).push y = r.push (x ++ y) := by
  simp [AFO.push]

/-- **C41**, the content: after any history of pushes an operation holds the pairs that
the arguments stand for, each text once, in the order of first mention. -/
theorem C41_content (o : AttributeOperation) (x : List AFOArg) (calls : List (List AFOArg))
    {ps : List Pair} (h : Picks Offer (x ++ calls.flatten) ps) :
    (calls.foldl AFO.push (o.afo x)).entries = (firsts samePair ps).map ofPair := by
  have e : calls.foldl AFO.push (o.afo x)
      = AFO.push { mkAFO [] with cat := AttributeOperation.makeLabel o } (x ++ calls.flatten) := by
    rw [← push_append]
    show calls.foldl AFO.push (o.afo x) = (o.afo x).push calls.flatten
    generalize o.afo x = r
    induction calls generalizing r x with
    | nil => rfl
    | cons c calls ih =>
      rw [List.foldl_cons, List.flatten_cons, ← push_append]
      have : ∀ calls : List (List AFOArg), ∀ r : AFO, calls.foldl AFO.push r = r.push calls.flatten := by
        intro calls
        induction calls with
        | nil => intro r; rfl
        | cons c calls ih => intro r; rw [List.foldl_cons, ih, List.flatten_cons, ← push_append]
      exact this calls _
  rw [e, push_pairs h (qs := []) (by simp) rfl, foldl_addNew]
  intro a b c h1 h2
  simp only [samePair, beq_iff_eq] at *
  rw [h1, h2]

example : Picks Offer [.str b!"cn:(a=b)", .op DelOp, .str b!"cn:", .af (ofPair (b!"sn", b!"x")), .other]
    [(b!"cn", b!"(a=b)"), (b!"sn", b!"x")] := by
  refine .take (Or.inl ⟨rfl, cn_name, by decide⟩) (.skip ?_ (.skip ?_
    (.take (Or.inr ⟨rfl, by decide, by decide⟩) (.skip ?_ .nil))))
  · rintro p (⟨h, _⟩ | ⟨h, _⟩) <;> cases h
  · rintro p (⟨h, ha, hf⟩ | ⟨h, _⟩)
    · injection h with h
      have := pairText_inj (a := b!"cn") (f := []) (f' := p.2) cn_name ha h
      exact hf this.2.symm
    · cases h
  · rintro p (⟨h, _⟩ | ⟨h, _⟩) <;> cases h

theorem push_cat {x : List AFOArg} (h : ∀ o, AFOArg.op o ∉ x) (r : AFO) : (r.push x).cat = r.cat := by
  induction x generalizing r with
  | nil => rfl
  | cons a x ih =>
    have := ih (fun o ho => h o (by simp [ho])) (r.push1 a)
    refine Eq.trans (by exact this) ?_
    cases a with
    | op o => exact absurd (by simp) (h o)
    | af a => rfl
    | other => rfl
    | str s => rw [AFO.push1]; split <;> rfl

/-- **C41**, the operation: it is the one the value was made with, or the last one
pushed. -/
theorem C41_operation (delete : Bool) (x y : List AFOArg) (hy : ∀ o, AFOArg.op o ∉ y) :
    AFO.operation ((opOf delete).afo y) = opOf delete ∧
    ∀ (r : AFO) (delete' : Bool),
      AFO.operation (r.push (x ++ .op (opOf delete') :: y)) = opOf delete' := by
  have hop : ∀ (d : Bool) (es : List AttributeFilter),
      AFO.operation ⟨AttributeOperation.makeLabel (opOf d), es⟩ = opOf d := by
    intro d es; rw [label_op]; cases d <;> rfl
  have hcat : ∀ (r : AFO) (d : Bool), r.cat = AttributeOperation.makeLabel (opOf d) →
      r.operation = opOf d := by
    intro r d h
    have := hop d r.entries
    rw [← h] at this; exact this
  constructor
  · exact hcat _ _ (push_cat hy _)
  · intro r d'
    apply hcat
    rw [← push_append]
    show (AFO.push ((r.push x).push1 (.op (opOf d'))) y).cat = _
    rw [push_cat hy]; rfl

example : AFO.operation (AFO.push (AddOp.afo []) [.str b!"cn:(a=b)", .op DelOp, .other]) = DelOp :=
  (C41_operation true [.str b!"cn:(a=b)"] [.other] (by simp)).2 _ true

/-- **C41**, no operation: what is made without one tells none (the number 0), although it prints as an
addition. -/
theorem C41_unnamed (y : List AFOArg) (hy : ∀ o, AFOArg.op o ∉ y) :
    AFO.operation (mkAFO y) = 0 ∧ ∃ t, (mkAFO y).string = b!"add=" ++ t := by
  have hcat : (mkAFO y).cat = TargetKeyword.string TargetAttrFilters := push_cat hy _
  have hop : AFO.operation (mkAFO y) = 0 := by
    unfold AFO.operation
    rw [hcat]
    decide +kernel
  refine ⟨hop, Str.join b!" && " ((mkAFO y).entries.map AttributeFilter.string), ?_⟩
  unfold AFO.string
  rw [hop]
  rfl

example : AFO.operation (mkAFO [.str b!"cn:(a=b)", .other]) = 0 ∧
    (mkAFO [.str b!"cn:(a=b)", .other]).string = b!"add=cn:(a=b)" := by decide +kernel

/-- **C41**, by number: a new operation is `delete` for the number 2 and `add` for every other number; `Operation`
tells it as 2 or 1. -/
theorem C41_numbers (o : AttributeOperation) :
    (o = 2 → (o.afo []).string = b!"delete=" ∧ (o.afo []).operation = 2) ∧
    (o ≠ 2 → (o.afo []).string = b!"add=" ∧ (o.afo []).operation = 1) := by
  have hs : o ≠ 2 → o.afo [] = AttributeOperation.afo 1 [] := by
    intro h
    have e : AttributeOperation.string o = AttributeOperation.string 1 := by
      unfold AttributeOperation.string DelOp
      exact (if_neg h).trans (if_neg (by decide)).symm
    unfold AttributeOperation.afo AttributeOperation.makeLabel
    rw [e]
  constructor
  · rintro rfl; decide +kernel
  · intro h; rw [hs h]; decide +kernel

example : (3 : AttributeOperation) ≠ 2 := by decide

/-! ## C42 -/

/-- **C42** as stated, for the readers of lists of operations and of rule values. -/
def ClaimAnyFilter : Prop :=
  ∀ (delete : Bool) (a f : Str), AttrName a → Str.IsAscii a → Tidy f → NoQuote f →
    (∃ r, parseAFOs (opText delete [(a, f)]) 0 = .ok r) ∧
    (∃ r, assertTargetAttrFilters [opText delete [(a, f)]] = .ok r)

theorem commaFilter : Tidy b!"(a=x,y)" :=
  tidy_of (by decide +kernel) (by decide +kernel) (by decide +kernel) (by decide) (by decide +kernel)

/-- **C42** fails: a comma in a filter is taken for the delimiter. -/
theorem C42_counterexample : ¬ ClaimAnyFilter := by
  intro h
  obtain ⟨⟨r, hr⟩, _⟩ := h false b!"cn" b!"(a=x,y)" cn_name (by decide) commaFilter
    (noQuote_of (by decide) (by decide))
  have : (parseAFOs (opText false [(b!"cn", b!"(a=x,y)")]) 0).toOption = none := by decide +kernel
  rw [hr] at this
  cases this

/-- **C42** fails in rules for commas, for semicolons and for the word `add=`. -/
theorem C42_counterexample_rule :
    (assertTargetAttrFilters [b!"add=cn:(a=x,y)"]).toOption = none ∧
    (assertTargetAttrFilters [b!"add=cn:(a=x;y)"]).toOption = none ∧
    (assertTargetAttrFilters [b!"add=cn:(a=add=),add=sn:(a=b)"]).toOption = none := by
  refine ⟨?_, ?_, ?_⟩ <;> decide +kernel

/-- **C42** for a single operation: commas, semicolons and the words `add=` and
`delete=` are allowed. -/
theorem C42_single (delete : Bool) {a f : Str} (ha : AttrName a) (haa : Str.IsAscii a) (hf : Tidy f)
    (hq : NoQuote f) (hamp : Str.containsStr f b!"&&" = false) :
    parseAFO (opText delete [(a, f)]) = .ok (opWith delete [(a, f)]) := by
  refine parseAFO_op ?_ (by simp) ?_ (by simp)
  · intro p hp; simp at hp; subst hp; exact ⟨ha, haa, hf, hamp⟩
  · intro l p h
    have := congrArg List.getLast? h
    simp at this
    rw [← this]; exact hq

example : Tidy b!"(&(a=x y)(b=,;add=1))" ∧ NoQuote b!"(&(a=x y)(b=,;add=1))" :=
  ⟨sample_tidy, sample_noQuote⟩

theorem contains_mem {s p : Str} (h : Str.containsStr s p = true) {c : Byte} (hc : c ∈ p) : c ∈ s := by
  induction s with
  | nil =>
    rw [Str.containsStr] at h
    obtain ⟨r, hr⟩ := Str.hasPrefix_iff.1 h
    rw [hr]; simp [hc]
  | cons a t ih =>
    rw [Str.containsStr, Bool.or_eq_true] at h
    rcases h with h | h
    · obtain ⟨r, hr⟩ := Str.hasPrefix_iff.1 h
      rw [hr]; simp [hc]
    · simp [ih h]

theorem contains_pair {p : Pair} {w : Str} (ha : AttrName p.1) (h61 : (61 : Byte) ∈ w)
    (h58 : (58 : Byte) ∉ w) (hf : Str.containsStr p.2 w = false) :
    Str.containsStr (pairText p) w = false := by
  have e : pairText p = p.1 ++ 58 :: p.2 := by simp [pairText]
  rw [e, containsStr_stop h58 (by rintro rfl; simp at h61), hf, Bool.or_false, Bool.eq_false_iff]
  intro h
  exact Uri.attrName_avoids ha (by decide) (by decide) (by decide) (by decide) (by decide)
    (contains_mem h h61)

theorem contains_join {l : List Str} {w : Str} (hne : w ≠ []) (h32 : (32 : Byte) ∉ w)
    (h38 : (38 : Byte) ∉ w) (h : ∀ s ∈ l, Str.containsStr s w = false) :
    Str.containsStr (Str.join b!" && " l) w = false := by
  have h0 : Str.containsStr [] w = false := by
    cases w with
    | nil => exact absurd rfl hne
    | cons a t => rfl
  induction l with
  | nil => exact h0
  | cons a l ih =>
    cases l with
    | nil => exact h a (by simp)
    | cons b l =>
      have ih := ih fun s hs => h s (by simp [hs])
      have e : Str.join b!" && " (a :: b :: l)
          = a ++ 32 :: ([] ++ 38 :: ([] ++ 38 :: ([] ++ 32 :: Str.join b!" && " (b :: l)))) := by
        simp [Str.join]
      rw [e, containsStr_stop h32 hne, containsStr_stop h38 hne, containsStr_stop h38 hne,
        containsStr_stop h32 hne, h a (by simp), ih, h0]
      rfl

theorem count_op {delete : Bool} {d : Byte} {ps : List Pair} (h : Clean ps) (hp : Plainly d ps) :
    countStr (opText delete ps) b!"add=" + countStr (opText delete ps) b!"delete=" = 1 := by
  have h1 : countStr (Str.join b!" && " (ps.map pairText)) b!"add=" = 0 :=
    countStr_zero (contains_join (by decide) (by decide) (by decide) (by
      intro s hs
      obtain ⟨p, hm, rfl⟩ := List.mem_map.1 hs
      exact contains_pair (h p hm).1 (by decide) (by decide) (hp p hm).1))
  have h2 : countStr (Str.join b!" && " (ps.map pairText)) b!"delete=" = 0 :=
    countStr_zero (contains_join (by decide) (by decide) (by decide) (by
      intro s hs
      obtain ⟨p, hm, rfl⟩ := List.mem_map.1 hs
      exact contains_pair (h p hm).1 (by decide) (by decide) (hp p hm).2.1))
  unfold opText
  revert h1 h2
  generalize Str.join b!" && " (ps.map pairText) = s
  intro h1 h2
  cases delete with
  | false =>
    simp only [Bool.false_eq_true, if_false]
    rw [countStr_prefix (by decide), h1]
    have : countStr (b!"add=" ++ s) b!"delete=" = countStr s b!"delete=" := by
      simp [countStr, countGo, Str.hasPrefix]
    rw [this, h2]
  | true =>
    simp only [if_true]
    rw [countStr_prefix (p := b!"delete=") (by decide), h2]
    have : countStr (b!"delete=" ++ s) b!"add=" = countStr s b!"add=" := by
      simp [countStr, countGo, Str.hasPrefix]
    rw [this, h1]

theorem map_inj {A B : Type} {f : A → B} (hf : ∀ a b, f a = f b → a = b) {l l' : List A}
    (h : l.map f = l'.map f) : l = l' := by
  induction l generalizing l' with
  | nil => simpa using h.symm
  | cons a l ih =>
    cases l' with
    | nil => simp at h
    | cons b l' =>
      simp only [List.map_cons, List.cons.injEq] at h
      rw [hf a b h.1, ih h.2]

theorem opText_inj {d d' : Bool} {ps ps' : List Pair} (h : Clean ps) (hne : ps ≠ []) (hu : Unquoted ps)
    (hd : ps.Nodup) (h' : Clean ps') (hne' : ps' ≠ []) (hu' : Unquoted ps') (hd' : ps'.Nodup)
    (e : opText d ps = opText d' ps') : d = d' ∧ ps = ps' := by
  have h1 := parseAFO_op (delete := d) h hne hu hd
  rw [e, parseAFO_op (delete := d') h' hne' hu' hd'] at h1
  injection h1 with h1
  injection h1 with h2 h3
  constructor
  · revert h2; cases d <;> cases d' <;> decide
  · have inj : ∀ a b : Pair, ofPair a = ofPair b → a = b := by
      intro a b hab
      injection hab with hab
      injection hab with x y
      injection x with x
      injection y with y
      exact Prod.ext x y
    exact (map_inj inj h3).symm

/-- The operations of a list, as they may appear in text. -/
def Ops (d : Byte) (ops : List (Bool × List Pair)) : Prop :=
  ops ≠ [] ∧ ops.Nodup ∧ ∀ o ∈ ops, Clean o.2 ∧ o.2 ≠ [] ∧ Unquoted o.2 ∧ o.2.Nodup ∧ Plainly d o.2

theorem ops_texts {d : Byte} {ops : List (Bool × List Pair)} (h : Ops d ops) :
    (ops.map fun o => opText o.1 o.2).Nodup := by
  rw [List.Nodup, List.pairwise_map]
  refine List.Pairwise.imp_of_mem ?_ h.2.1
  intro a b ha hb hab e
  obtain ⟨a1, a2, a3, a4, _⟩ := h.2.2 a ha
  obtain ⟨b1, b2, b3, b4, _⟩ := h.2.2 b hb
  obtain ⟨e1, e2⟩ := opText_inj a1 a2 a3 a4 b1 b2 b3 b4 e
  exact hab (Prod.ext e1 e2)

theorem pushAFO_new {es : List AFO} {a : AFO} (h : a.string ∉ es.map AFO.string)
    (hne : a.entries ≠ []) : pushAFO es a = es ++ [a] := by
  have hc : containsText (es.map AFO.string) a.string = false := by
    rw [Bool.eq_false_iff]
    intro hc
    unfold containsText at hc
    simp only [List.any_eq_true, beq_iff_eq] at hc
    obtain ⟨x, hx, e⟩ := hc
    first | exact h (e ▸ hx) | exact h (e.symm ▸ hx)
  unfold pushAFO
  rw [hc]
  simp [List.length_pos_iff.2 hne]

theorem parseVals_ops {ops : List (Bool × List Pair)} {d : Byte} {es : List AFO}
    (h : ∀ o ∈ ops, Clean o.2 ∧ o.2 ≠ [] ∧ Unquoted o.2 ∧ o.2.Nodup)
    (hn : (es.map AFO.string ++ ops.map fun o => opText o.1 o.2).Nodup) :
    parseVals ⟨d, es⟩ (ops.map fun o => opText o.1 o.2)
      = .ok ⟨d, es ++ ops.map fun o => opWith o.1 o.2⟩ := by
  induction ops generalizing es with
  | nil => simp [parseVals]
  | cons o ops ih =>
    obtain ⟨h1, h2, h3, h4⟩ := h o (by simp)
    have hs : (opWith o.1 o.2).string = opText o.1 o.2 := string_opWith _ h1.set
    rw [List.map_cons, parseVals, unquote_op h1 h2 h3, if_pos (prefix_op _ _), parseAFO_op h1 h2 h3 h4]
    have hp : AFOs.push ⟨d, es⟩ [.afo (opWith o.1 o.2)] = ⟨d, es ++ [opWith o.1 o.2]⟩ := by
      show AFOs.mk d (pushAFO es (opWith o.1 o.2)) = _
      rw [pushAFO_new]
      · rw [hs]
        intro hm
        rw [List.nodup_append] at hn
        exact hn.2.2 _ hm _ (by simp) rfl
      · simpa [opWith] using h2
    simp only [hp]
    rw [ih (fun o ho => h o (by simp [ho])) (by simpa [hs] using hn)]
    simp

theorem no_delim {d : Byte} {ps : List Pair} {delete : Bool} (hp : Plainly d ps)
    (hd : d = 44 ∨ d = 59) : d ∉ opText delete ps := by
  have hj : d ∉ Str.join b!" && " (ps.map pairText) := by
    have : ∀ l : List Str, (∀ s ∈ l, d ∉ s) → d ∉ Str.join b!" && " l := by
      intro l
      induction l with
      | nil => intro _; simp [Str.join]
      | cons a l ih =>
        intro hl
        cases l with
        | nil => exact hl a (by simp)
        | cons b l =>
          have := ih fun s hs => hl s (by simp [hs])
          rw [show Str.join b!" && " (a :: b :: l) = a ++ b!" && " ++ Str.join b!" && " (b :: l) from rfl]
          simp only [List.mem_append, not_or]
          exact ⟨⟨hl a (by simp), by rcases hd with rfl | rfl <;> decide⟩, this⟩
    apply this
    intro s hs
    obtain ⟨p, hm, rfl⟩ := List.mem_map.1 hs
    obtain ⟨_, _, h1, h2⟩ := hp p hm
    simp only [pairText, List.mem_append, not_or]
    exact ⟨⟨h1, by rcases hd with rfl | rfl <;> decide⟩, h2⟩
  unfold opText
  simp only [List.mem_append, not_or]
  refine ⟨?_, hj⟩
  cases delete <;> rcases hd with rfl | rfl <;> decide

theorem delim_cases (delim : Int) : afosDelim delim = 44 ∨ afosDelim delim = 59 := by
  unfold afosDelim; split <;> simp

/-- **C42** for lists of operations (missing: filters that hold the delimiter, one of
the two words, `&&`, or white space that is cleaned up): the text with either delimiter is
read as the operations, in their order. -/
theorem C42_list_partial (delim : Int) {d : Byte} (hd : d = if delim = 1 then 59 else 44)
    {ops : List (Bool × List Pair)} (h : Ops d ops) :
    parseAFOs (opsText d ops) delim = .ok ⟨44, ops.map fun o => opWith o.1 o.2⟩ := by
  obtain rfl : d = afosDelim delim := hd
  have hd := delim_cases delim
  have hlen : ∀ w : Str, w ≠ [] → afosDelim delim ∉ w → countStr (opsText (afosDelim delim) ops) w
      = (ops.map fun o => countStr (opText o.1 o.2) w).sum := by
    intro w hw hm
    unfold opsText
    rw [countStr_join hm hw, List.map_map]
    rfl
  have hct : countStr (opsText (afosDelim delim) ops) b!"add="
      + countStr (opsText (afosDelim delim) ops) b!"delete=" = ops.length := by
    rw [hlen _ (by decide) (by rcases hd with e | e <;> rw [e] <;> decide),
      hlen _ (by decide) (by rcases hd with e | e <;> rw [e] <;> decide)]
    have : ∀ l : List (Bool × List Pair), (∀ o ∈ l, o ∈ ops) →
        (l.map fun o => countStr (opText o.1 o.2) b!"add=").sum
          + (l.map fun o => countStr (opText o.1 o.2) b!"delete=").sum = l.length := by
      intro l
      induction l with
      | nil => intro _; rfl
      | cons o l ih =>
        intro hl
        obtain ⟨h1, _, _, _, h5⟩ := h.2.2 o (hl o (by simp))
        have := count_op (delete := o.1) h1 h5
        have := ih fun o ho => hl o (by simp [ho])
        simp only [List.map_cons, List.sum_cons, List.length_cons]
        omega
    exact this ops fun _ h => h
  have hsplit : Str.split1 (afosDelim delim) (opsText (afosDelim delim) ops)
      = ops.map fun o => opText o.1 o.2 := by
    refine Str.split1_join (by simpa using h.1) ?_
    intro s hs
    obtain ⟨o, ho, rfl⟩ := List.mem_map.1 hs
    exact no_delim (h.2.2 o ho).2.2.2.2 hd
  have hpos := List.length_pos_iff.2 h.1
  unfold parseAFOs
  simp only [hct, hsplit, List.length_map, ne_eq, not_true, if_false,
    show ¬ ops.length = 0 by omega]
  rw [mkAFOs, parseVals_ops (fun o ho => ?_) (by simpa using ops_texts h)]
  · simp
  · obtain ⟨a1, a2, a3, a4, _⟩ := h.2.2 o ho
    exact ⟨a1, a2, a3, a4⟩

theorem sample_ops (d : Byte) (hd : d = 44 ∨ d = 59) :
    Ops d [(false, [(b!"cn", b!"(cn=a b)"), (b!"sn", b!"(sn=*)")]), (true, [(b!"sn", b!"(sn=*)")])] := by
  have t1 : Tidy b!"(cn=a b)" :=
    tidy_of (by decide +kernel) (by decide +kernel) (by decide +kernel) (by decide) (by decide +kernel)
  have u : NoQuote b!"(sn=*)" := noQuote_of (by decide) (by decide)
  refine ⟨by decide, by decide, ?_⟩
  intro o ho
  simp only [List.mem_cons, List.not_mem_nil, or_false] at ho
  rcases ho with rfl | rfl
  · refine ⟨?_, by decide, ?_, by decide, ?_⟩
    · intro p hp
      simp only [List.mem_cons, List.not_mem_nil, or_false] at hp
      rcases hp with rfl | rfl
      · exact ⟨cn_name, by decide, t1, by decide +kernel⟩
      · exact ⟨sn_name, by decide, simple_tidy, by decide +kernel⟩
    · intro l p h
      have := congrArg List.getLast? h
      simp at this
      rw [← this]; exact u
    · rcases hd with rfl | rfl <;> (unfold Plainly; decide +kernel)
  · refine ⟨?_, by decide, ?_, by decide, ?_⟩
    · intro p hp
      simp only [List.mem_cons, List.not_mem_nil, or_false] at hp
      subst hp
      exact ⟨sn_name, by decide, simple_tidy, by decide +kernel⟩
    · intro l p h
      have := congrArg List.getLast? h
      simp at this
      rw [← this]; exact u
    · rcases hd with rfl | rfl <;> (unfold Plainly; decide +kernel)

example : opsText 59 [(false, [(b!"cn", b!"(cn=a b)"), (b!"sn", b!"(sn=*)")]),
      (true, [(b!"sn", b!"(sn=*)")])]
    = b!"add=cn:(cn=a b) && sn:(sn=*);delete=sn:(sn=*)" := by decide +kernel

example : parseAFOs b!"add=cn:(cn=a b) && sn:(sn=*);delete=sn:(sn=*)" 1
    = .ok ⟨44, [opWith false [(b!"cn", b!"(cn=a b)"), (b!"sn", b!"(sn=*)")],
        opWith true [(b!"sn", b!"(sn=*)")]]⟩ := by
  have e : opsText (afosDelim 1) [(false, [(b!"cn", b!"(cn=a b)"), (b!"sn", b!"(sn=*)")]),
      (true, [(b!"sn", b!"(sn=*)")])]
      = b!"add=cn:(cn=a b) && sn:(sn=*);delete=sn:(sn=*)" := by decide +kernel
  have := C42_list_partial 1 rfl (sample_ops (afosDelim 1) (delim_cases 1))
  exact e ▸ this

theorem op_head {delete : Bool} {ps : List Pair} (hne : opText delete ps ≠ []) :
    isQuote ((opText delete ps).head hne) = false := by
  unfold opText
  cases delete <;> simp [isQuote]

theorem ops_mem {d : Byte} {ops : List (Bool × List Pair)} (h : 1 < ops.length) :
    d ∈ opsText d ops := by
  cases ops with
  | nil => simp at h
  | cons a l =>
    cases l with
    | nil => simp at h
    | cons b l => simp [opsText, Str.join]

theorem ops_neat {d : Byte} (hd : d = 44 ∨ d = 59) {ops : List (Bool × List Pair)} (hne : ops ≠ [])
    (h : ∀ o ∈ ops, Clean o.2 ∧ o.2 ≠ [] ∧ Unquoted o.2) :
    ∃ hn : Neat (opsText d ops), isQuote ((opsText d ops).head hn.ne) = false ∧
      isQuote ((opsText d ops).getLast hn.ne) = false ∧ 5 ≤ (opsText d ops).length := by
  induction ops with
  | nil => exact absurd rfl hne
  | cons o ops ih =>
    obtain ⟨h1, h2, h3⟩ := h o (by simp)
    have n1 := neat_op (delete := o.1) h1 h2
    have hlen := op_length (delete := o.1) h1 h2
    have hhead := op_head (delete := o.1) n1.ne
    cases ops with
    | nil => exact ⟨n1, hhead, op_last h1 h2 h3, hlen⟩
    | cons q ops =>
      obtain ⟨n2, _, hl, _⟩ := ih (by simp) fun o ho => h o (by simp [ho])
      have nd : Neat [d] := plain_neat (by rcases hd with rfl | rfl <;> decide) (by simp)
      have n3 := (n1.append nd).append n2
      have e : opsText d (o :: q :: ops) = opText o.1 o.2 ++ [d] ++ opsText d (q :: ops) := rfl
      rw [e]
      refine ⟨n3, ?_, ?_, ?_⟩
      · simp only [List.append_assoc]
        rw [List.head_append_of_ne_nil n1.ne]; exact hhead
      · rw [List.getLast_append_of_ne_nil _ n2.ne]; exact hl
      · simp only [List.length_append]; omega

/-- **C42** for the values of target rules (missing: as above): one operation, or more
separated by commas, or more separated by semicolons and without any comma. -/
theorem C42_rule_partial {d : Byte} (hd : d = 44 ∨ d = 59) {ops : List (Bool × List Pair)}
    (h : Ops d ops) (hcomma : d = 59 ∨ ops.length = 1 → ∀ o ∈ ops, Plainly 44 o.2)
    (hsemi : ops.length = 1 → ∀ o ∈ ops, Plainly 59 o.2) :
    assertTargetAttrFilters [opsText d ops] = .ok ⟨44, ops.map fun o => opWith o.1 o.2⟩ := by
  obtain ⟨hn, q1, q2, hlen⟩ := ops_neat hd h.1 fun o ho =>
    ⟨(h.2.2 o ho).1, (h.2.2 o ho).2.1, (h.2.2 o ho).2.2.1⟩
  have hu : unquote (condenseWHSP (opsText d ops)) = opsText d ops := by
    rw [hn.condense]; exact unquote_id (by omega) hn.ne q1 q2
  have hmem : 1 < ops.length → d ∈ opsText d ops := ops_mem
  unfold assertTargetAttrFilters
  simp only [hu, show ¬ (opsText d ops).length < 3 by omega, if_false]
  by_cases hl : ops.length = 1
  · obtain ⟨o, rfl⟩ := List.length_eq_one_iff.1 hl
    obtain ⟨a1, a2, a3, a4, _⟩ := h.2.2 o (by simp)
    have e : opsText d [o] = opText o.1 o.2 := rfl
    have c1 : (44 : Byte) ∉ opText o.1 o.2 := no_delim (hcomma (Or.inr rfl) o (by simp)) (Or.inl rfl)
    have c2 : (59 : Byte) ∉ opText o.1 o.2 := no_delim (hsemi rfl o (by simp)) (Or.inr rfl)
    rw [e, if_neg c1, if_neg c2, if_pos (prefix_op _ _), parseAFO_op a1 a2 a3 a4]
    show Except.ok (AFOs.mk 44 (pushAFO [] (opWith o.1 o.2))) = _
    rw [pushAFO_new (by simp) (by simpa [opWith] using a2)]
    rfl
  · have hl2 : 1 < ops.length := by have := List.length_pos_iff.2 h.1; omega
    rcases hd with rfl | rfl
    · rw [if_pos (hmem hl2)]
      exact C42_list_partial 0 rfl h
    · have c1 : (44 : Byte) ∉ opsText 59 ops := by
        have : ∀ l : List (Bool × List Pair), (∀ o ∈ l, o ∈ ops) → (44 : Byte) ∉ opsText 59 l := by
          intro l
          induction l with
          | nil => intro _; simp [opsText, Str.join]
          | cons a l ih =>
            intro hl
            have ha := no_delim (delete := a.1) (hcomma (Or.inl rfl) a (hl a (by simp))) (Or.inl rfl)
            cases l with
            | nil => exact ha
            | cons b l =>
              have := ih fun o ho => hl o (by simp [ho])
              rw [show opsText 59 (a :: b :: l) = opText a.1 a.2 ++ [59] ++ opsText 59 (b :: l) from rfl]
              simp only [List.mem_append, not_or]
              exact ⟨⟨ha, by decide⟩, this⟩
        exact this ops fun _ h => h
      rw [if_neg c1, if_pos (hmem hl2)]
      exact C42_list_partial 1 rfl h

example : ∀ o ∈ [(false, [(b!"cn", b!"(cn=a b)"), (b!"sn", b!"(sn=*)")]), (true, [(b!"sn", b!"(sn=*)")])],
    Plainly 44 o.2 := fun o ho => ((sample_ops 44 (Or.inl rfl)).2.2 o ho).2.2.2.2

/-! ## C60 -/

/-- **C60** as stated: a list of operations prints as it was written. -/
def ClaimDelimiterKept : Prop :=
  ∀ (delim : Int) (d : Byte) (ops : List (Bool × List Pair)), (d = if delim = 1 then 59 else 44) → Ops d ops →
    ∀ r, parseAFOs (opsText d ops) delim = .ok r → r.string = opsText d ops

theorem string_ops {d d' : Byte} {ops : List (Bool × List Pair)} (h : Ops d ops) :
    AFOs.string ⟨d', ops.map fun o => opWith o.1 o.2⟩ = opsText d' ops := by
  unfold AFOs.string opsText
  rw [List.map_map]
  congr 1
  exact List.map_congr_left fun o ho => string_opWith _ (h.2.2 o ho).1.set

/-- **C60** for the comma (missing: the semicolon). -/
theorem C60_comma_partial {ops : List (Bool × List Pair)} (h : Ops 44 ops) :
    (parseAFOs (opsText 44 ops) 0).map AFOs.string = .ok (opsText 44 ops) := by
  rw [show parseAFOs (opsText 44 ops) 0 = _ from C42_list_partial 0 rfl h]
  exact congrArg Except.ok (string_ops h)

example : (parseAFOs b!"add=cn:(cn=a b) && sn:(sn=*),delete=sn:(sn=*)" 0).map AFOs.string
    = .ok b!"add=cn:(cn=a b) && sn:(sn=*),delete=sn:(sn=*)" := by
  have e : opsText 44 [(false, [(b!"cn", b!"(cn=a b)"), (b!"sn", b!"(sn=*)")]), (true, [(b!"sn", b!"(sn=*)")])]
    = b!"add=cn:(cn=a b) && sn:(sn=*),delete=sn:(sn=*)" := by decide +kernel
  rw [← e]
  exact C60_comma_partial (sample_ops 44 (Or.inl rfl))

/-- **C60**, the semicolon: the list prints with commas, unless the caller sets the
delimiter again. Missing: that it prints with
semicolons without this. -/
theorem C60_semicolon_partial {ops : List (Bool × List Pair)} (h : Ops 59 ops) :
    (parseAFOs (opsText 59 ops) 1).map AFOs.string = .ok (opsText 44 ops) ∧
    (parseAFOs (opsText 59 ops) 1).map (fun r => (r.setDelimiter [1]).string)
      = .ok (opsText 59 ops) := by
  rw [show parseAFOs (opsText 59 ops) 1 = _ from C42_list_partial 1 rfl h]
  exact ⟨congrArg Except.ok (string_ops h), congrArg Except.ok (string_ops h)⟩

example := C60_semicolon_partial (sample_ops 59 (Or.inr rfl))

/-- **C60** fails: a list written with semicolons prints with commas. -/
theorem C60_counterexample : ¬ ClaimDelimiterKept := by
  intro h
  have hs := sample_ops 59 (Or.inr rfl)
  have h1 := h 1 _ _ rfl hs _ (C42_list_partial 1 rfl hs)
  rw [string_ops hs] at h1
  revert h1
  decide +kernel

end Verif.Filter
