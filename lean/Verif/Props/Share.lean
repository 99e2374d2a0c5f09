import Verif.Spec.Share
import Verif.Lemmas.Bind
import Verif.Props.Target

/-!
# C112: rules made from one list
-/

namespace Verif.Share
open Verif Verif.Bind Verif.Rules

variable {K : Lst}

/-! ## What holds of the types -/

/-- What is needed of a type of lists. -/
structure Facts (K : Lst) (vals : K.Obj → List Str) (Good : Bool → Bool → K.Rule → Prop)
    (c : K.Ctor) (t : Ty) (kw : Str) : Prop where
  cond : ∀ ne, ∃ rl, K.cond ne (K.make c) = some rl ∧ Good ne true rl
  style : ∀ {ne b rl}, Good ne b rl → ∀ o s n, Good ne (decide (n ≠ 0)) (K.style (K.view rl o s) n) ∧
    K.slice (K.style (K.view rl o s) n) = (decide (n = 0) && decide (2 ≤ (vals o).length))
  text : ∀ {ne b rl}, Good ne b rl → ∀ o s, K.text (K.view rl o s) = ruleOf t kw ne b s (vals o)

/-- A target rule with these parts. -/
def GoodT (kw : Str) (ne b : Bool) (r : TRule) : Prop := r.core = ⟨true, kw, opOf ne⟩ ∧ r.outer = b

/-- A bind rule with these parts. -/
def GoodB (kw : Str) (ne b : Bool) (r : BRule) : Prop :=
  r.core = ⟨true, kw, opOf ne⟩ ∧ r.outer = b ∧ r.paren = false

theorem quoteIf_marked (b : Bool) : quoteIf b = marked b := by
  funext s; cases b <;> rfl

theorem op_text (ne : Bool) : Cop.string (opOf ne) = if ne then b!"!=" else b!"=" := by
  cases ne <;> decide

theorem quoteSlices_eq (k : Nat) (n : Int) :
    quoteSlices k n = (decide (n = 0) && decide (2 ≤ k)) := by
  rw [quoteSlices]
  by_cases h : k < 2
  · rw [if_pos h]; simp; omega
  · rw [if_neg h]
    have : 2 ≤ k := by omega
    simp [this, MultivalSliceQuotes]
    rfl

theorem text_T {kw : Str} {ne b : Bool} {r : TRule} (h : GoodT kw ne b r) (t : Ty) (ht : t ≠ .bindNames)
    (ex : TExpr) (s : Bool) :
    TRule.string { r with ex := ex, slice := s } = ruleOf t kw ne b s ex.texts := by
  obtain ⟨hc, ho⟩ := h
  have hf : ∀ x, framed t x = b!"( " ++ x ++ b!" )" := by
    intro x; cases t <;> first | rfl | exact absurd rfl ht
  rw [ruleOf, hf, ← op_text, ← quoteIf_marked, ← quoteIf_marked]
  simp only [TRule.string, TRule.isZero, hc, ho]
  simp

theorem text_B {kw : Str} {ne b : Bool} {r : BRule} (h : GoodB kw ne b r) (d : DNList.BDNs) (s : Bool) :
    BRule.text bindVals { r with ex := .dns d, slice := s } =
      ruleOf .bindNames kw ne b s (d.entries.map DNList.BEntry.string) := by
  obtain ⟨hc, ho, hp⟩ := h
  rw [ruleOf, ← op_text, ← quoteIf_marked, ← quoteIf_marked]
  simp only [BRule.text, BRule.isZero, BRule.bare, hc, ho, hp, bindVals, wrapIf, framed]
  simp

/-- The rules a type of lists makes. -/
def Good (eq : Str → Str → Bool) (read : Str → Option Str) :
    (t : Ty) → Str → Bool → Bool → (lst eq read t).Rule → Prop
  | .bindNames, kw, ne, b, r => GoodB kw ne b r
  | .targetNames, kw, ne, b, r => GoodT kw ne b r
  | .attrs, kw, ne, b, r => GoodT kw ne b r
  | .oids, kw, ne, b, r => GoodT kw ne b r

theorem oids_entry (eq : Str → Str → Bool) (x : Oid.Arg) (r : Oid.OIDs)
    (h : r.kw = TargetExtOp ∨ r.kw = TargetCtrl) :
    (r.pushEntry eq x).kw = TargetExtOp ∨ (r.pushEntry eq x).kw = TargetCtrl := by
  cases x with
  | oid o =>
    simp only [Oid.OIDs.pushEntry]
    split
    · exact h
    · split
      · exact h
      · split <;> exact h
  | kw k =>
    simp only [Oid.OIDs.pushEntry, Oid.OIDs.resetKeyword]
    split
    · next hk => exact hk.2
    · exact h
  | str _ => exact h
  | other => exact h

theorem oids_kw (eq : Str → Str → Bool) (read : Str → Option Str) (x : List Oid.Arg) (r : Oid.OIDs)
    (h : r.kw = TargetExtOp ∨ r.kw = TargetCtrl) :
    (r.push eq read x).kw = TargetExtOp ∨ (r.push eq read x).kw = TargetCtrl := by
  induction x generalizing r with
  | nil => exact h
  | cons a x ih =>
    show (Oid.OIDs.push eq read (r.pushOne eq read a) x).kw = _ ∨ (Oid.OIDs.push eq read (r.pushOne eq read a) x).kw = _
    apply ih
    cases a <;> exact oids_entry eq _ r h

theorem style_B {kw : Str} {ne b : Bool} {r : BRule} (h : GoodB kw ne b r)
    (hk : matchBKW kw = BindUDN ∨ matchBKW kw = BindGDN ∨ matchBKW kw = BindRDN)
    (d : DNList.BDNs) (s : Bool) (n : Int) :
    GoodB kw ne (decide (n ≠ 0)) (BRule.setQuoteStyle { r with ex := .dns d, slice := s } n) ∧
    (BRule.setQuoteStyle { r with ex := .dns d, slice := s } n).slice =
      (decide (n = 0) && decide (2 ≤ (d.entries.map DNList.BEntry.string).length)) := by
  obtain ⟨hc, ho, hp⟩ := h
  have e : BRule.sliceAfter { r with ex := .dns d, slice := s } n = some (quoteSlices d.entries.length n) := by
    simp only [BRule.sliceAfter, BRule.keyword, hc]
    rw [if_pos hk]
  rw [BRule.setQuoteStyle, e]
  refine ⟨⟨hc, ?_, hp⟩, ?_⟩
  · simp [MultivalSliceQuotes]; rfl
  · simp [quoteSlices_eq]

theorem style_T {kw : Str} {ne b : Bool} {r : TRule} (h : GoodT kw ne b r) (ex : TExpr) (s : Bool) (n : Int)
    (k : Nat)
    (e : TRule.sliceAfter { r with ex := ex, slice := s } n = some (quoteSlices k n)) :
    GoodT kw ne (decide (n ≠ 0)) (TRule.setQuoteStyle { r with ex := ex, slice := s } n) ∧
    (TRule.setQuoteStyle { r with ex := ex, slice := s } n).slice = (decide (n = 0) && decide (2 ≤ k)) := by
  obtain ⟨hc, ho⟩ := h
  rw [TRule.setQuoteStyle, e]
  refine ⟨⟨hc, ?_⟩, ?_⟩
  · simp [MultivalSliceQuotes]; rfl
  · simp [quoteSlices_eq]

/-- The word of a list of names. -/
def UGR.word : UGR → Str
  | .user => b!"userdn"
  | .group => b!"groupdn"
  | .role => b!"roledn"

/-- The word of a list of names. -/
def TTF.word : TTF → Str
  | .target => b!"target"
  | .to => b!"target_to"
  | .fro => b!"target_from"

theorem facts_bindNames (eq : Str → Str → Bool) (read : Str → Option Str) (c : UGR × List DNList.BArg) :
    Facts (bindNames eq) (values eq read .bindNames) (Good eq read .bindNames (keyword eq read .bindNames ((bindNames eq).make c)))
      c .bindNames (keyword eq read .bindNames ((bindNames eq).make c)) := by
  obtain ⟨u, x⟩ := c
  have hk : keyword eq read .bindNames ((bindNames eq).make (u, x)) = u.word := by cases u <;> rfl
  rw [hk]
  refine ⟨fun ne => ?_, fun h o s n => style_B h ?_ o s n, fun h o s => text_B h o s⟩
  · cases u <;> cases ne <;> exact ⟨_, rfl, rfl, rfl, rfl⟩
  · cases u <;> decide

theorem TR_held {a : KwArg} {ne : Bool} {kw : Str}
    (h : TargetRule.setOperator (TargetRule.setKeyword ⟨true, [], 0⟩ a) (.cop (opOf ne)) = ⟨true, kw, opOf ne⟩)
    (ex : TExpr) :
    ∃ rl, heldT (TR a (.cop (opOf ne)) ex) = some rl ∧ GoodT kw ne true rl := by
  refine ⟨TR a (.cop (opOf ne)) ex, ?_, h, rfl⟩
  have hz : (TR a (.cop (opOf ne)) ex).isZero = false := by
    show (!(TargetRule.setOperator (TargetRule.setKeyword ⟨true, [], 0⟩ a) (.cop (opOf ne))).init) = false
    rw [h]; rfl
  rw [heldT, hz]
  rfl

theorem TTF.core (u : TTF) (ne : Bool) :
    TargetRule.setOperator (TargetRule.setKeyword ⟨true, [], 0⟩ (.target u.kw)) (.cop (opOf ne)) =
      ⟨true, u.word, opOf ne⟩ := by
  cases u <;> cases ne <;> decide

theorem oid_core (k : TargetKeyword) (ne : Bool) (h : k = TargetExtOp ∨ k = TargetCtrl) :
    TargetRule.setOperator (TargetRule.setKeyword ⟨true, [], 0⟩ (.str (Oid.OIDs.kind ⟨k, []⟩)))
        (.cop (opOf ne)) =
      ⟨true, if k = TargetExtOp then b!"extop" else b!"targetcontrol", opOf ne⟩ := by
  rcases h with rfl | rfl <;> cases ne <;> decide

theorem oid_cond (eq : Str → Str → Bool) (read : Str → Option Str) (o : Oid.OIDs) (ne : Bool)
    (h : o.kw = TargetExtOp ∨ o.kw = TargetCtrl) :
    (oids eq read).cond ne o = heldT (TR (.str (Oid.OIDs.kind ⟨o.kw, []⟩)) (.cop (opOf ne)) (.oids o)) := by
  cases ne with
  | true => rfl
  | false =>
    have hk : o.kind ≠ b!"<uninitialized>" := by
      rw [Oid.OIDs.kind, if_pos h]
      rcases h with e | e <;> rw [e] <;> decide
    show heldT (Builders.oidsEq (some o)) = _
    rw [Builders.oidsEq, if_neg hk]
    rfl

theorem facts_targetNames (eq : Str → Str → Bool) (read : Str → Option Str) (c : TTF × List DNList.TArg) :
    Facts (targetNames eq) (values eq read .targetNames) (Good eq read .targetNames (keyword eq read .targetNames ((targetNames eq).make c)))
      c .targetNames (keyword eq read .targetNames ((targetNames eq).make c)) := by
  obtain ⟨u, x⟩ := c
  have hk : keyword eq read .targetNames ((targetNames eq).make (u, x)) = u.word := by cases u <;> rfl
  rw [hk]
  refine ⟨fun ne => ?_, fun {ne b rl} h o s n => ?_, fun h o s => text_T h .targetNames (by decide) (.dns o) s⟩
  · have e : (DNList.TDNs.kw ((targetNames eq).make (u, x))) = u.kw := rfl
    show ∃ rl, heldT (TR (.target (DNList.TDNs.kw ((targetNames eq).make (u, x)))) (.cop (opOf ne)) _) = some rl ∧ _
    rw [e]
    exact TR_held (u.core ne) _
  · have hl : (values eq read .targetNames o).length = (DNList.TDNs.entries o).length := List.length_map ..
    rw [hl]
    exact style_T h (.dns o) s n (DNList.TDNs.entries o).length (by
      simp only [TRule.sliceAfter, TRule.keyword, h.1]
      rw [if_pos]
      cases u <;> decide)

theorem facts_attrs (eq : Str → Str → Bool) (read : Str → Option Str) (c : List Attr.PushArg) :
    Facts (attrs eq) (values eq read .attrs) (Good eq read .attrs (keyword eq read .attrs ((attrs eq).make c)))
      c .attrs (keyword eq read .attrs ((attrs eq).make c)) := by
  have hk : keyword eq read .attrs ((attrs eq).make c) = b!"targetattr" := rfl
  rw [hk]
  refine ⟨fun ne => ?_, fun {ne b rl} h o s n => ?_, fun h o s => text_T h .attrs (by decide) (.attrs o) s⟩
  · cases ne <;> exact ⟨_, rfl, rfl, rfl⟩
  · have hl : (values eq read .attrs o).length = (Attr.ATs.entries o).length := List.length_map ..
    rw [hl]
    exact style_T h (.attrs o) s n (Attr.ATs.entries o).length (by
      simp only [TRule.sliceAfter, TRule.keyword, h.1]
      rw [if_pos]
      decide)

theorem oid_texts (eq : Str → Str → Bool) (read : Str → Option Str) (o : Oid.OIDs) :
    (TExpr.oids o).texts = values eq read .oids o := by
  apply List.map_congr_left
  intro a _
  cases a <;> rfl

theorem facts_oids (eq : Str → Str → Bool) (read : Str → Option Str) (c : Bool × List Oid.Arg) :
    Facts (oids eq read) (values eq read .oids) (Good eq read .oids (keyword eq read .oids ((oids eq read).make c)))
      c .oids (keyword eq read .oids ((oids eq read).make c)) := by
  obtain ⟨u, x⟩ := c
  have hm : (Oid.OIDs.kw ((oids eq read).make (u, x))) = TargetExtOp ∨
      (Oid.OIDs.kw ((oids eq read).make (u, x))) = TargetCtrl := by
    cases u
    · exact oids_kw eq read x ⟨TargetCtrl, []⟩ (Or.inr rfl)
    · exact oids_kw eq read x ⟨TargetExtOp, []⟩ (Or.inl rfl)
  have key : ∀ o : Oid.OIDs, o.kw = TargetExtOp ∨ o.kw = TargetCtrl →
      (keyword eq read .oids o = b!"extop" ∨ keyword eq read .oids o = b!"targetcontrol") ∧
      ∀ ne, ∃ rl, (oids eq read).cond ne o = some rl ∧ GoodT (keyword eq read .oids o) ne true rl := by
    intro o h
    refine ⟨?_, fun ne => ?_⟩
    · rcases h with h | h
      · exact Or.inl (if_pos h)
      · exact Or.inr (if_neg (by rw [h]; decide))
    · rw [oid_cond eq read o ne h]
      exact TR_held (oid_core o.kw ne h) _
  have k1 := (key _ hm).1
  have k2 := (key _ hm).2
  refine ⟨k2, fun {ne b rl} h o s n => ?_, fun h o s => ?_⟩
  · have hl : (values eq read .oids o).length = (Oid.OIDs.entries o).length := List.length_map ..
    rw [hl]
    exact style_T h (.oids o) s n (Oid.OIDs.entries o).length (by
      simp only [TRule.sliceAfter, TRule.keyword, h.1]
      rw [if_pos]
      rcases k1 with k | k <;> rw [k] <;> decide)
  · exact (text_T h .oids (by decide) (.oids o) s).trans (congrArg (ruleOf .oids _ _ _ s) (oid_texts eq read o))

theorem facts (eq : Str → Str → Bool) (read : Str → Option Str) (t : Ty) (c : (lst eq read t).Ctor) :
    Facts (lst eq read t) (values eq read t) (Good eq read t (keyword eq read t ((lst eq read t).make c))) c t
      (keyword eq read t ((lst eq read t).make c)) := by
  cases t with
  | bindNames => exact facts_bindNames eq read c
  | targetNames => exact facts_targetNames eq read c
  | attrs => exact facts_attrs eq read c
  | oids => exact facts_oids eq read c

/-! ## One list and its rules -/

/-- The state after the program. -/
structure Inv (m : Store K) (vals : K.Obj → List Str) (Good : Bool → Bool → K.Rule → Prop)
    (c : K.Ctor) (nes : List Bool) (evs : List (Ev K)) : Prop where
  lists : m.lists = [(content c evs, separate (fun o => (vals o).length) c evs)]
  lvar : m.lvar 0 = some 0
  len : m.rules.length = nes.length
  rvar : ∀ i, m.rvar i = if i < nes.length then some i else none
  good : ∀ i ne, nes[i]? = some ne → ∃ rl, m.rules[i]? = some (rl, 0) ∧ Good ne (around i evs) rl

theorem snoc_induction {α : Type} {P : List α → Prop} (nil : P [])
    (snoc : ∀ l a, P l → P (l ++ [a])) (l : List α) : P l := by
  rw [← List.reverse_reverse l]
  induction l.reverse with
  | nil => exact nil
  | cons a l ih => rw [List.reverse_cons]; exact snoc _ _ ih

theorem content_snoc (c : K.Ctor) (evs : List (Ev K)) (e : Ev K) :
    content c (evs ++ [e]) = match e with | .edit x => K.edit (content c evs) x | .style _ _ => content c evs := by
  simp only [content, List.foldl_append, List.foldl_cons, List.foldl_nil]
  cases e <;> rfl

theorem separate_snoc (count : K.Obj → Nat) (c : K.Ctor) (evs : List (Ev K)) (e : Ev K) :
    separate count c (evs ++ [e]) = match e with
      | .edit _ => separate count c evs
      | .style _ n => decide (n = 0) && decide (2 ≤ count (content c evs)) := by
  simp only [separate, List.reverse_append, List.reverse_cons, List.reverse_nil, List.nil_append,
    List.cons_append]
  cases e
  · rfl
  · simp [sepRev]

theorem around_snoc (i : Nat) (evs : List (Ev K)) (e : Ev K) :
    around i (evs ++ [e]) = match e with
      | .edit _ => around i evs
      | .style j n => if j = i then decide (n ≠ 0) else around i evs := by
  cases e with
  | edit x => simp [around, stylesOf]
  | style j n =>
    by_cases h : j = i
    · simp [around, stylesOf, h]
    · simp [around, stylesOf, h]

theorem Inv.find {vals : K.Obj → List Str} {G : Bool → Bool → K.Rule → Prop}
    {c : K.Ctor} {nes : List Bool} {evs : List (Ev K)} {m : Store K} (h : Inv m vals G c nes evs)
    {i : Nat} {ne : Bool} (hi : nes[i]? = some ne) :
    ∃ rl, m.find i = some (i, rl, 0, content c evs, separate (fun o => (vals o).length) c evs) ∧
      m.rules[i]? = some (rl, 0) ∧ G ne (around i evs) rl := by
  obtain ⟨rl, h1, h2⟩ := h.good i ne hi
  refine ⟨rl, ?_, h1, h2⟩
  have hlt : i < nes.length := (List.getElem?_eq_some_iff.1 hi).1
  simp [Store.find, h.rvar i, hlt, h1, h.lists]

theorem Inv.none {vals : K.Obj → List Str} {G : Bool → Bool → K.Rule → Prop}
    {c : K.Ctor} {nes : List Bool} {evs : List (Ev K)} {m : Store K} (h : Inv m vals G c nes evs)
    {i : Nat} (hi : ¬ i < nes.length) : m.find i = none := by
  simp [Store.find, h.rvar i, hi]

theorem Inv.start {vals : K.Obj → List Str} {G : Bool → Bool → K.Rule → Prop} {c : K.Ctor} {t : Ty} {kw : Str}
    (f : Facts K vals G c t kw) (nes : List Bool) :
    Inv ((Store.empty K).run (.list 0 c :: nes.zipIdx.map fun x => .rule x.2 x.1 0)) vals G c nes [] := by
  induction nes using snoc_induction with
  | nil =>
    refine ⟨rfl, rfl, rfl, fun i => by simp [Store.run, Store.exec, Store.empty], fun i ne h => by simp at h⟩
  | snoc nes ne ih =>
    have e : (Stmt.list 0 c :: (nes ++ [ne]).zipIdx.map fun x => (Stmt.rule x.2 x.1 0 : Stmt K)) =
        (Stmt.list 0 c :: nes.zipIdx.map fun x => (Stmt.rule x.2 x.1 0 : Stmt K)) ++ [.rule nes.length ne 0] := by
      simp [List.zipIdx_append]
    rw [e, Store.run, List.foldl_append]
    change Inv (Store.exec ((Store.empty K).run _) (.rule nes.length ne 0)) _ _ _ _ _
    generalize (Store.empty K).run _ = m at ih
    obtain ⟨rl, h1, h2⟩ := f.cond ne
    have hx : m.exec (.rule nes.length ne 0) =
        { m with rules := m.rules ++ [(rl, 0)], rvar := put m.rvar nes.length (some m.rules.length) } := by
      simp only [Store.exec, ih.lvar, ih.lists]
      have : content c ([] : List (Ev K)) = K.make c := rfl
      simp [this, h1]
    rw [hx]
    refine ⟨ih.lists, ih.lvar, by simp [ih.len], fun i => ?_, fun i ne' hi => ?_⟩
    · by_cases h : i = nes.length
      · simp [put, h, ih.len]
      · simp only [put, if_neg h, ih.rvar, List.length_append, List.length_singleton]
        by_cases h' : i < nes.length
        · rw [if_pos h', if_pos (by omega)]
        · rw [if_neg h', if_neg (by omega)]
    · by_cases h : i < nes.length
      · rw [List.getElem?_append_left h] at hi
        obtain ⟨rl', h3, h4⟩ := ih.good i ne' hi
        exact ⟨rl', by simp only []; rw [List.getElem?_append_left (by rw [ih.len]; exact h)]; exact h3, h4⟩
      · have hi' : i = nes.length := by
          have := (List.getElem?_eq_some_iff.1 hi).1
          simp at this; omega
        subst hi'
        simp at hi
        subst hi
        exact ⟨rl, by simp [← ih.len], h2⟩

theorem Inv.step {vals : K.Obj → List Str} {G : Bool → Bool → K.Rule → Prop} {c : K.Ctor} {t : Ty} {kw : Str}
    (f : Facts K vals G c t kw) {nes : List Bool} {evs : List (Ev K)} {m : Store K} (h : Inv m vals G c nes evs)
    (e : Ev K) (he : ∀ j n, e = .style j n → j < nes.length) :
    Inv (m.exec e.stmt) vals G c nes (evs ++ [e]) := by
  cases e with
  | edit x =>
    have hx : m.exec (.edit 0 x) = { m with lists := [(K.edit (content c evs) x, separate (fun o => (vals o).length) c evs)] } := by
      simp [Store.exec, h.lvar, h.lists]
    show Inv (m.exec (.edit 0 x)) _ _ _ _ _
    rw [hx]
    refine ⟨?_, h.lvar, h.len, h.rvar, fun i ne hi => ?_⟩
    · rw [content_snoc, separate_snoc]
    · rw [around_snoc]; exact h.good i ne hi
  | style j n =>
    show Inv (m.exec (.style j n)) _ _ _ _ _
    have hj : j < nes.length := he j n rfl
    obtain ⟨rl, hf, hr, hg⟩ := h.find (List.getElem?_eq_getElem hj)
    obtain ⟨s1, s2⟩ := f.style hg (content c evs) (separate (fun o => (vals o).length) c evs) n
    have hx : m.exec (.style j n) =
        { m with
          rules := m.rules.set j (K.style (K.view rl (content c evs) (separate (fun o => (vals o).length) c evs)) n, 0)
          lists := [(content c evs, decide (n = 0) && decide (2 ≤ (vals (content c evs)).length))] } := by
      simp only [Store.exec, hf, h.lists, s2]
      rfl
    rw [hx]
    refine ⟨?_, h.lvar, by simp [h.len], h.rvar, fun i ne hi => ?_⟩
    · rw [content_snoc, separate_snoc]
    · rw [around_snoc]
      by_cases hji : j = i
      · subst hji
        refine ⟨_, List.getElem?_set_self (by rw [h.len]; exact hj), ?_⟩
        have : nes[j] = ne := by
          rw [List.getElem?_eq_getElem hj] at hi
          exact Option.some.inj hi
        rw [this] at s1
        simpa using s1
      · obtain ⟨rl', h1, h2⟩ := h.good i ne hi
        refine ⟨rl', ?_, by simpa [hji] using h2⟩
        rw [← h1]
        exact List.getElem?_set_ne hji

theorem Inv.run {vals : K.Obj → List Str} {G : Bool → Bool → K.Rule → Prop} {c : K.Ctor} {t : Ty} {kw : Str}
    (f : Facts K vals G c t kw) (nes : List Bool) (evs : List (Ev K)) (hk : Known nes evs) :
    Inv ((Store.empty K).run (prog c nes evs)) vals G c nes evs := by
  induction evs using snoc_induction with
  | nil => simpa [prog] using Inv.start f nes
  | snoc evs e ih =>
    have := (ih fun j n h => hk j n (List.mem_append_left _ h)).step f e
      fun j n h => hk j n (List.mem_append_right _ (by rw [h]; exact List.mem_singleton.2 rfl))
    simpa [prog, Store.run, List.foldl_append] using this

/-- The text of a rule depends on what its list holds by now, on the last style set for the rule
itself, and on the last style set for any rule made from the list. -/
theorem C112_says (eq : Str → Str → Bool) (read : Str → Option Str) (t : Ty) (c : (lst eq read t).Ctor)
    (nes : List Bool) (evs : List (Ev (lst eq read t))) (hk : Known nes evs) (i : Nat) (ne : Bool)
    (hi : nes[i]? = some ne) :
    ((Store.empty _).run (prog c nes evs)).text i =
      ruleOf t (keyword eq read t ((lst eq read t).make c)) ne (around i evs)
        (separate (fun o => (values eq read t o).length) c evs) (values eq read t (content c evs)) := by
  have h := Inv.run (facts eq read t c) nes evs hk
  obtain ⟨rl, h1, h2, h3⟩ := h.find hi
  rw [Store.text, h1]
  exact (facts eq read t c).text h3 _ _

/-- After `SetQuoteStyle(1)` of the first rule and a push, with two rules from one list. -/
example : Known (K := attrs EqualFold.ref.eq) [false, true] [.style 0 1, .edit (some [.str b!"c"])] ∧
    ruleOf .attrs (keyword EqualFold.ref.eq Oid.plainReader.read .attrs (Attr.TAs EqualFold.ref.eq [.str b!"a"])) true
      (around (K := attrs EqualFold.ref.eq) 1 [.style 0 1, .edit (some [.str b!"c"])])
      (separate (K := attrs EqualFold.ref.eq) (fun o => (values EqualFold.ref.eq Oid.plainReader.read .attrs o).length)
        [.str b!"a"] [.style 0 1, .edit (some [.str b!"c"])])
      (values EqualFold.ref.eq Oid.plainReader.read .attrs (content (K := attrs EqualFold.ref.eq) [.str b!"a"]
        [.style 0 1, .edit (some [.str b!"c"])])) =
      b!"( targetattr != \"a || c\" )" :=
  ⟨fun i n h => by simp at h; simp [h.1], by decide +kernel⟩

/-! ## Rules made from different lists -/

/-- Places are inside or outside, like the variables from which they can be reached. -/
structure Sep (W : Bool × Nat → Bool) (cl cr : Nat → Bool) (m : Store K) : Prop where
  lvar : ∀ {v a}, m.lvar v = some a → a < m.lists.length ∧ cl a = W (false, v)
  rvar : ∀ {r i}, m.rvar r = some i → i < m.rules.length ∧ cr i = W (true, r)
  rules : ∀ {i rl a}, m.rules[i]? = some (rl, a) → a < m.lists.length ∧ cl a = cr i

/-- Nothing inside is different. -/
structure Same (W : Bool × Nat → Bool) (cl cr : Nat → Bool) (m m' : Store K) : Prop where
  lvar : ∀ v, W (false, v) = true → m'.lvar v = m.lvar v
  rvar : ∀ r, W (true, r) = true → m'.rvar r = m.rvar r
  lists : ∀ a, a < m.lists.length → cl a = true → m'.lists[a]? = m.lists[a]?
  rules : ∀ i, i < m.rules.length → cr i = true → m'.rules[i]? = m.rules[i]?

theorem Same.refl (W : Bool × Nat → Bool) (cl cr : Nat → Bool) (m : Store K) : Same W cl cr m m :=
  ⟨fun _ _ => rfl, fun _ _ => rfl, fun _ _ _ => rfl, fun _ _ _ => rfl⟩

theorem Same.text {W : Bool × Nat → Bool} {cl cr : Nat → Bool} {m m' : Store K} (h : Sep W cl cr m)
    (e : Same W cl cr m m') {r : Nat} (hr : W (true, r) = true) : m'.text r = m.text r := by
  have : m'.find r = m.find r := by
    simp only [Store.find, e.rvar r hr]
    cases h1 : m.rvar r with
    | none => rfl
    | some i =>
      have hi := h.rvar h1
      simp only [e.rules i hi.1 (hi.2.trans hr)]
      cases h2 : m.rules[i]? with
      | none => rfl
      | some x =>
        obtain ⟨rl, a⟩ := x
        have ha := h.rules h2
        simp only [e.lists a ha.1 (ha.2.trans (hi.2.trans hr))]
  simp only [Store.text, this]

theorem put_some {f : Nat → Option Nat} {v u a : Nat} {x : Option Nat} (h : put f v x u = some a) :
    (u = v ∧ x = some a) ∨ (u ≠ v ∧ f u = some a) := by
  by_cases e : u = v
  · exact Or.inl ⟨e, by simpa [put, e] using h⟩
  · exact Or.inr ⟨e, by simpa [put, e] using h⟩

theorem find_some {m : Store K} {r i a : Nat} {rl : K.Rule} {o : K.Obj} {s : Bool}
    (h : m.find r = some (i, rl, a, o, s)) :
    m.rvar r = some i ∧ m.rules[i]? = some (rl, a) ∧ m.lists[a]? = some (o, s) := by
  simp only [Store.find] at h
  cases h1 : m.rvar r with
  | none => simp [h1] at h
  | some i' =>
    simp only [h1] at h
    cases h2 : m.rules[i']? with
    | none => simp [h2] at h
    | some x =>
      obtain ⟨rl', a'⟩ := x
      simp only [h2] at h
      cases h3 : m.lists[a']? with
      | none => simp [h3] at h
      | some y =>
        obtain ⟨o', s'⟩ := y
        simp only [h3, Option.some.injEq, Prod.mk.injEq] at h
        obtain ⟨rfl, rfl, rfl, rfl, rfl⟩ := h
        exact ⟨rfl, h2, h3⟩

theorem step {W : Bool × Nat → Bool} {cl cr : Nat → Bool} {m : Store K} (h : Sep W cl cr m) (s : Stmt K)
    (hs : ∀ v ∈ s.names, ∀ w ∈ s.names, W v = W w) :
    ∃ cl' cr', Sep W cl' cr' (m.exec s) ∧ (∀ a, a < m.lists.length → cl' a = cl a) ∧
      (∀ i, i < m.rules.length → cr' i = cr i) ∧
      m.lists.length ≤ (m.exec s).lists.length ∧ m.rules.length ≤ (m.exec s).rules.length ∧
      ((∀ v ∈ s.names, W v = false) → Same W cl cr m (m.exec s)) := by
  cases s with
  | list v c =>
    refine ⟨fun a => if a = m.lists.length then W (false, v) else cl a, cr, ⟨?_, ?_, ?_⟩, ?_, fun _ _ => rfl, ?_, ?_, ?_⟩
    · intro u a hu
      rcases put_some hu with ⟨rfl, e⟩ | ⟨_, e⟩
      · cases e; simp [Store.exec]
      · have := h.lvar e
        refine ⟨by simp [Store.exec]; omega, ?_⟩
        rw [if_neg (by omega)]; exact this.2
    · intro r i hr; exact h.rvar hr
    · intro i rl a hi
      have := h.rules hi
      refine ⟨by simp [Store.exec]; omega, ?_⟩
      rw [if_neg (by omega)]; exact this.2
    · intro a ha; exact if_neg (by omega)
    · simp [Store.exec]
    · simp [Store.exec]
    · intro ho
      refine ⟨fun u hu => ?_, fun _ _ => rfl, fun a ha _ => ?_, fun _ _ _ => rfl⟩
      · have : u ≠ v := by
          rintro rfl
          rw [ho (false, u) (by simp [Stmt.names])] at hu; cases hu
        simp [Store.exec, put, this]
      · simp only [Store.exec]; rw [List.getElem?_append_left ha]
  | same w v =>
    refine ⟨cl, cr, ⟨?_, fun hr => h.rvar hr, fun hi => h.rules hi⟩, fun _ _ => rfl, fun _ _ => rfl, Nat.le_refl _, Nat.le_refl _, ?_⟩
    · intro u a hu
      rcases put_some hu with ⟨rfl, e⟩ | ⟨_, e⟩
      · have := h.lvar e
        exact ⟨this.1, this.2.trans (hs _ (by simp [Stmt.names]) _ (by simp [Stmt.names]))⟩
      · exact h.lvar e
    · intro ho
      refine ⟨fun u hu => ?_, fun _ _ => rfl, fun a ha _ => rfl, fun _ _ _ => rfl⟩
      have : u ≠ w := by
        rintro rfl
        rw [ho (false, u) (by simp [Stmt.names])] at hu; cases hu
      simp [Store.exec, put, this]
  | edit v x =>
    simp only [Store.exec]
    cases h1 : m.lvar v with
    | none => exact ⟨cl, cr, h, fun _ _ => rfl, fun _ _ => rfl, Nat.le_refl _, Nat.le_refl _, fun _ => Same.refl ..⟩
    | some a =>
      cases h2 : m.lists[a]? with
      | none => exact ⟨cl, cr, by simpa [h2] using h, fun _ _ => rfl, fun _ _ => rfl, by simp [h2], by simp [h2], fun _ => by simpa [h2] using Same.refl ..⟩
      | some y =>
        obtain ⟨o, s⟩ := y
        simp only [h2]
        refine ⟨cl, cr, ⟨fun hu => ?_, fun hr => h.rvar hr, fun hi => ?_⟩, fun _ _ => rfl, fun _ _ => rfl, by simp, Nat.le_refl _, ?_⟩
        · simpa using h.lvar hu
        · simpa using h.rules hi
        · intro ho
          refine ⟨fun _ _ => rfl, fun _ _ => rfl, fun b hb hc => ?_, fun _ _ _ => rfl⟩
          have : a ≠ b := by
            rintro rfl
            rw [(h.lvar h1).2, ho (false, v) (by simp [Stmt.names])] at hc; cases hc
          exact List.getElem?_set_ne this
  | rule r ne v =>
    have gone : ∀ m' : Store K, m' = { m with rvar := put m.rvar r none } →
      ∃ cl' cr', Sep W cl' cr' m' ∧ (∀ a, a < m.lists.length → cl' a = cl a) ∧
      (∀ i, i < m.rules.length → cr' i = cr i) ∧
      m.lists.length ≤ m'.lists.length ∧ m.rules.length ≤ m'.rules.length ∧
      ((∀ u ∈ (Stmt.rule r ne v : Stmt K).names, W u = false) → Same W cl cr m m') := by
      rintro m' rfl
      refine ⟨cl, cr, ⟨fun hu => h.lvar hu, ?_, fun hi => h.rules hi⟩, fun _ _ => rfl, fun _ _ => rfl, Nat.le_refl _, Nat.le_refl _, ?_⟩
      · intro q i hq
        rcases put_some hq with ⟨rfl, e⟩ | ⟨_, e⟩
        · cases e
        · exact h.rvar e
      · intro ho
        refine ⟨fun _ _ => rfl, fun u hu => ?_, fun _ _ _ => rfl, fun _ _ _ => rfl⟩
        have : u ≠ r := by
          rintro rfl
          rw [ho (true, u) (by simp [Stmt.names])] at hu; cases hu
        simp [put, this]
    cases h1 : m.lvar v with
    | none => exact gone _ (by simp only [Store.exec, h1])
    | some a =>
      cases h2 : (m.lists[a]?).bind fun l => K.cond ne l.1 with
      | none => exact gone _ (by simp only [Store.exec, h1, h2])
      | some rl =>
        have hx : m.exec (.rule r ne v) = { m with rules := m.rules ++ [(rl, a)], rvar := put m.rvar r (some m.rules.length) } := by
          simp only [Store.exec, h1, h2]
        rw [hx]
        refine ⟨cl, fun i => if i = m.rules.length then W (true, r) else cr i, ⟨fun hu => h.lvar hu, ?_, ?_⟩, fun _ _ => rfl, ?_, Nat.le_refl _, by simp, ?_⟩
        · intro q i hq
          rcases put_some hq with ⟨rfl, e⟩ | ⟨_, e⟩
          · cases e; simp
          · have := h.rvar e
            refine ⟨by simp; omega, ?_⟩
            rw [if_neg (by omega)]; exact this.2
        · intro i rl' b hi
          by_cases hl : i < m.rules.length
          · rw [List.getElem?_append_left hl] at hi
            have := h.rules hi
            refine ⟨this.1, ?_⟩
            rw [if_neg (by omega)]; exact this.2
          · have hi' : i = m.rules.length := by
              have := (List.getElem?_eq_some_iff.1 hi).1
              simp at this; omega
            subst hi'
            simp at hi
            obtain ⟨_, rfl⟩ := hi
            have := h.lvar h1
            refine ⟨this.1, ?_⟩
            rw [if_pos rfl, this.2]
            exact hs _ (by simp [Stmt.names]) _ (by simp [Stmt.names])
        · intro i hi; exact if_neg (by omega)
        · intro ho
          refine ⟨fun _ _ => rfl, fun u hu => ?_, fun _ _ _ => rfl, fun i hi _ => ?_⟩
          · have : u ≠ r := by
              rintro rfl
              rw [ho (true, u) (by simp [Stmt.names])] at hu; cases hu
            simp [put, this]
          · simp only []; rw [List.getElem?_append_left hi]
  | copy q r =>
    refine ⟨cl, cr, ⟨fun hu => h.lvar hu, ?_, fun hi => h.rules hi⟩, fun _ _ => rfl, fun _ _ => rfl, Nat.le_refl _, Nat.le_refl _, ?_⟩
    · intro u i hu
      rcases put_some hu with ⟨rfl, e⟩ | ⟨_, e⟩
      · have := h.rvar e
        exact ⟨this.1, this.2.trans (hs _ (by simp [Stmt.names]) _ (by simp [Stmt.names]))⟩
      · exact h.rvar e
    · intro ho
      refine ⟨fun _ _ => rfl, fun u hu => ?_, fun _ _ _ => rfl, fun _ _ _ => rfl⟩
      have : u ≠ q := by
        rintro rfl
        rw [ho (true, u) (by simp [Stmt.names])] at hu; cases hu
      simp [Store.exec, put, this]
  | style r n =>
    cases h1 : m.find r with
    | none =>
      have hx : m.exec (.style r n) = m := by simp only [Store.exec, h1]
      rw [hx]
      exact ⟨cl, cr, h, fun _ _ => rfl, fun _ _ => rfl, Nat.le_refl _, Nat.le_refl _, fun _ => Same.refl ..⟩
    | some x =>
      obtain ⟨i, rl, a, o, s⟩ := x
      obtain ⟨f1, f2, f3⟩ := find_some h1
      have hx : m.exec (.style r n) = { m with
          rules := m.rules.set i (K.style (K.view rl o s) n, a)
          lists := m.lists.set a (o, K.slice (K.style (K.view rl o s) n)) } := by
        simp only [Store.exec, h1]
      rw [hx]
      refine ⟨cl, cr, ⟨fun hu => by simpa using h.lvar hu, fun hr => by simpa using h.rvar hr, ?_⟩, fun _ _ => rfl, fun _ _ => rfl, by simp, by simp, ?_⟩
      · intro j rl' b hj
        by_cases e : i = j
        · subst e
          have hi : i < m.rules.length := (h.rvar f1).1
          simp only [] at hj
          rw [List.getElem?_set_self hi] at hj
          obtain ⟨_, rfl⟩ := Prod.mk.inj (Option.some.inj hj)
          simpa using h.rules f2
        · simp only [] at hj
          rw [List.getElem?_set_ne e] at hj
          simpa using h.rules hj
      · intro ho
        have out : cr i = false := (h.rvar f1).2.trans (ho (true, r) (by simp [Stmt.names]))
        refine ⟨fun _ _ => rfl, fun _ _ => rfl, fun b hb hc => ?_, fun j hj hc => ?_⟩
        · have : a ≠ b := by
            rintro rfl
            rw [(h.rules f2).2, out] at hc; cases hc
          exact List.getElem?_set_ne this
        · have : i ≠ j := by
            rintro rfl
            rw [out] at hc; cases hc
          exact List.getElem?_set_ne this

theorem closed_run {W : Bool × Nat → Bool} {cl cr : Nat → Bool} {m : Store K} (h : Sep W cl cr m)
    (p : List (Stmt K)) (hp : Closed W p) : ∃ cl' cr', Sep W cl' cr' (m.run p) := by
  induction p generalizing m cl cr with
  | nil => exact ⟨cl, cr, h⟩
  | cons s p ih =>
    obtain ⟨cl', cr', h', _⟩ := step h s (hp s (List.mem_cons_self ..))
    exact ih h' fun x hx => hp x (List.mem_cons_of_mem _ hx)

theorem outside_run {W : Bool × Nat → Bool} {cl cr : Nat → Bool} {m : Store K} (h : Sep W cl cr m)
    (q : List (Stmt K)) (hq : Outside W q) {r : Nat} (hr : W (true, r) = true) : (m.run q).text r = m.text r := by
  induction q generalizing m cl cr with
  | nil => rfl
  | cons s q ih =>
    have hs := hq s (List.mem_cons_self ..)
    obtain ⟨cl', cr', h', _, _, _, _, e⟩ := step h s fun v hv w hw => (hs v hv).trans (hs w hw).symm
    exact (ih h' fun x hx => hq x (List.mem_cons_of_mem _ hx)).trans ((e hs).text h hr)

theorem start_sep (W : Bool × Nat → Bool) : Sep W (fun _ => false) (fun _ => false) (Store.empty K) :=
  ⟨fun h => by simp [Store.empty] at h, fun h => by simp [Store.empty] at h, fun h => by simp [Store.empty] at h⟩

/-- Rules that share no list with others, by any assignment in the program, are not touched by what
is done to the others.  Missing: this for rules made from one list, see `C112_counterexample`. -/
theorem C112_apart_partial (eq : Str → Str → Bool) (read : Str → Option Str) (t : Ty)
    (W : Bool × Nat → Bool) (p q : List (Stmt (lst eq read t))) (hp : Closed W p) (hq : Outside W q)
    (r : Nat) (hr : W (true, r) = true) :
    ((Store.empty _).run (p ++ q)).text r = ((Store.empty _).run p).text r := by
  obtain ⟨cl, cr, h⟩ := closed_run (start_sep W) p hp
  rw [Store.run, List.foldl_append]
  exact outside_run h q hq hr

/-- Two lists with a rule each; the second list and its rule are changed. -/
example (eq : Str → Str → Bool) :
    Closed (K := attrs eq) (fun v => v.2 == 0)
      [.list 0 [.str b!"a", .str b!"b"], .list 1 [.str b!"c", .str b!"d"], .rule 0 false 0, .rule 1 true 1, .copy 2 1] ∧
    Outside (K := attrs eq) (fun v => v.2 == 0) [.style 1 0, .style 2 0, .edit 1 none] := by
  constructor
  · intro s hs
    simp only [List.mem_cons, List.not_mem_nil, or_false] at hs
    rcases hs with rfl | rfl | rfl | rfl | rfl <;> simp [Stmt.names]
  · intro s hs
    simp only [List.mem_cons, List.not_mem_nil, or_false] at hs
    rcases hs with rfl | rfl | rfl <;> simp [Stmt.names]

/-! ## Rules made from one list -/

theorem join_marked (sep : Str) (vals : List Str) :
    (Str.join sep (vals.map (marked true))).length = (Str.join sep vals).length + 2 * vals.length := by
  induction vals with
  | nil => rfl
  | cons a l ih =>
    cases l with
    | nil => simp [Str.join, marked]
    | cons b l =>
      have e : Str.join sep ((a :: b :: l).map (marked true)) =
        marked true a ++ sep ++ Str.join sep ((b :: l).map (marked true)) := rfl
      have e' : Str.join sep (a :: b :: l) = a ++ sep ++ Str.join sep (b :: l) := rfl
      have m : (marked true a).length = a.length + 2 := by simp [marked]
      rw [e, e']
      simp only [List.length_append, ih, m, List.length_cons]
      omega

theorem map_marked_false (vals : List Str) : vals.map (marked false) = vals := by
  rw [show marked false = id from rfl, List.map_id]

theorem ruleOf_each {t : Ty} {kw : Str} {ne w e e' : Bool} {vals : List Str} :
    ruleOf t kw ne w e vals = ruleOf t kw ne w e' vals ↔ vals = [] ∨ e = e' := by
  constructor
  · intro h
    have hl : (Str.join b!" || " (vals.map (marked e))).length = (Str.join b!" || " (vals.map (marked e'))).length := by
      have m : ∀ x y : Str, (marked w x).length = (marked w y).length → x.length = y.length := by
        intro x y; cases w <;> simp [marked]
      have := congrArg List.length h
      apply m
      cases t <;> simp only [ruleOf, framed, List.length_append] at this <;> omega
    cases vals with
    | nil => exact Or.inl rfl
    | cons a l =>
      right
      cases e <;> cases e' <;> first | rfl | (rw [join_marked, map_marked_false] at hl; simp at hl)
  · rintro (rfl | rfl) <;> rfl

theorem Known.left {nes : List Bool} {evs : List (Ev K)} {e : Ev K} (h : Known nes (evs ++ [e])) : Known nes evs :=
  fun i n hm => h i n (List.mem_append_left _ hm)

/-- Setting the style of one rule leaves the text of another one from the same list if and only
if the list is empty or the quotation of the single values stays what it was. -/
theorem C112_own_iff (eq : Str → Str → Bool) (read : Str → Option Str) (t : Ty) (c : (lst eq read t).Ctor)
    (nes : List Bool) (evs : List (Ev (lst eq read t))) (hk : Known nes evs) (i j : Nat) (n : Int) (hij : i ≠ j)
    (hi : i < nes.length) (hj : j < nes.length) :
    ((Store.empty _).run (prog c nes (evs ++ [.style j n]))).text i = ((Store.empty _).run (prog c nes evs)).text i ↔
      values eq read t (content c evs) = [] ∨
      (separate (fun o => (values eq read t o).length) c evs = true ↔
        n = 0 ∧ 2 ≤ (values eq read t (content c evs)).length) := by
  have hk' : Known nes (evs ++ [.style j n]) := by
    intro a b hm
    rcases List.mem_append.1 hm with hm | hm
    · exact hk a b hm
    · cases List.mem_singleton.1 hm; exact hj
  rw [C112_says eq read t c nes _ hk' i _ (List.getElem?_eq_getElem hi),
    C112_says eq read t c nes _ hk i _ (List.getElem?_eq_getElem hi), content_snoc, separate_snoc, around_snoc]
  simp only [if_neg (Ne.symm hij)]
  rw [ruleOf_each]
  apply or_congr Iff.rfl
  rw [Bool.eq_iff_iff, Bool.and_eq_true, decide_eq_true_iff, decide_eq_true_iff]
  exact Iff.comm

/-- The text stays for the style 1, as no marks were around the values before; it changes for 0. -/
example : separate (K := attrs EqualFold.ref.eq) (fun o => (values EqualFold.ref.eq Oid.plainReader.read .attrs o).length)
      [.str b!"a", .str b!"b"] [] = false ∧
    (values EqualFold.ref.eq Oid.plainReader.read .attrs
      (content (K := attrs EqualFold.ref.eq) [.str b!"a", .str b!"b"] [])).length = 2 := by
  decide +kernel

/-- The claim: what is done to a rule leaves the others as they are. -/
def Own (eq : Str → Str → Bool) (read : Str → Option Str) (t : Ty) : Prop :=
  ∀ (c : (lst eq read t).Ctor) (nes : List Bool) (evs : List (Ev (lst eq read t))) (i j : Nat) (n : Int),
    Known nes (evs ++ [.style j n]) → i < nes.length → i ≠ j →
    ((Store.empty _).run (prog c nes (evs ++ [.style j n]))).text i = ((Store.empty _).run (prog c nes evs)).text i

/-- The claim: what is done to a list leaves the rules made from it as they are. -/
def Kept (eq : Str → Str → Bool) (read : Str → Option Str) (t : Ty) : Prop :=
  ∀ (c : (lst eq read t).Ctor) (nes : List Bool) (evs : List (Ev (lst eq read t))) (i : Nat) (x : (lst eq read t).Edit),
    Known nes evs → i < nes.length →
    ((Store.empty _).run (prog c nes (evs ++ [.edit x]))).text i = ((Store.empty _).run (prog c nes evs)).text i

/-- Two values of each type. -/
def two : (t : Ty) → (lst EqualFold.ref.eq Oid.plainReader.read t).Ctor
  | .bindNames => (.user, [.str b!"a", .str b!"b"])
  | .targetNames => (.to, [.str b!"a", .str b!"b"])
  | .attrs => [.str b!"a", .str b!"b"]
  | .oids => (true, [.str b!"1.2", .str b!"1.3"])

/-- `Pop` of each type. -/
def pop : (t : Ty) → (lst EqualFold.ref.eq Oid.plainReader.read t).Edit
  | .bindNames => none
  | .targetNames => none
  | .attrs => none
  | .oids => none

/-- Both claims fail for each type: `SetQuoteStyle` of a rule puts marks around the values of
the other one, which has marks around the whole, and `Pop` takes a value out of the rule. -/
theorem C112_counterexample (t : Ty) :
    ¬ Own EqualFold.ref.eq Oid.plainReader.read t ∧ ¬ Kept EqualFold.ref.eq Oid.plainReader.read t := by
  constructor
  · intro h
    have h := h (two t) [false, false] [] 0 1 0 (by intro i n hm; simp at hm; simp [hm]) (by decide) (by decide)
    rw [C112_own_iff _ _ _ _ _ _ (fun i n hm => by simp at hm) _ _ _ (by decide) (by decide) (by decide)] at h
    cases t <;> revert h <;> decide +kernel
  · intro h
    have h := h (two t) [false] [] 0 (pop t) (by intro i n hm; simp at hm) (by decide)
    rw [C112_says _ _ _ _ _ _ (fun i n hm => by simp at hm) 0 false rfl,
      C112_says _ _ _ _ _ _ (fun i n hm => by simp at hm) 0 false rfl] at h
    cases t <;> revert h <;> decide +kernel

/-- The texts of two rules for one list, after the style of the second was set to 0. -/
example :
    (((Store.empty (lst EqualFold.ref.eq Oid.plainReader.read .attrs)).run
        (prog (two .attrs) [false, true] [.style 1 0])).text 0,
      ((Store.empty (lst EqualFold.ref.eq Oid.plainReader.read .attrs)).run
        (prog (two .attrs) [false, true] [.style 1 0])).text 1) =
    (b!"( targetattr = \"\"a\" || \"b\"\" )", b!"( targetattr != \"a\" || \"b\" )") := by
  decide +kernel

theorem separate_alone {count : K.Obj → Nat} {c : K.Ctor} {i : Nat} {evs : List (Ev K)}
    (h : ∀ before after j n, evs = before ++ .style j n :: after → j = i ∧ (n = 0 → 2 ≤ count (content c before))) :
    separate count c evs = !around i evs := by
  induction evs using snoc_induction with
  | nil => rfl
  | snoc evs e ih =>
    have ih := ih fun before after j n he => h before (after ++ [e]) j n (by rw [he]; simp)
    rw [separate_snoc, around_snoc]
    cases e with
    | edit x => exact ih
    | style j n =>
      obtain ⟨rfl, hn⟩ := h evs [] j n rfl
      by_cases h0 : n = 0
      · simp [h0, hn h0]
      · simp [h0]

/-- A list all of whose styles are set through one rule, style 0 only while it holds two or more
values: the rule has quotation marks around the whole or around each value, not both and not none.
Missing: the same for rules that share a list, see `C112_counterexample`. -/
theorem C112_alone_partial (eq : Str → Str → Bool) (read : Str → Option Str) (t : Ty) (c : (lst eq read t).Ctor)
    (nes : List Bool) (evs : List (Ev (lst eq read t))) (i : Nat) (ne : Bool) (hi : nes[i]? = some ne)
    (h : ∀ before after j n, evs = before ++ .style j n :: after →
      j = i ∧ (n = 0 → 2 ≤ (values eq read t (content c before)).length)) :
    ((Store.empty _).run (prog c nes evs)).text i =
      ruleOf t (keyword eq read t ((lst eq read t).make c)) ne (around i evs) (!around i evs)
        (values eq read t (content c evs)) := by
  rw [C112_says eq read t c nes evs ?_ i ne hi, separate_alone h]
  intro j n hm
  obtain ⟨a, b, e⟩ := List.append_of_mem hm
  rw [(h a b j n e).1]
  exact (List.getElem?_eq_some_iff.1 hi).1

/-- One rule whose style is set to 0 while its list holds two values, and then a push. -/
example : (∀ before after j n, [Ev.style 0 0, .edit (some [.str b!"c"])] =
      before ++ (Ev.style j n : Ev (attrs EqualFold.ref.eq)) :: after →
      j = 0 ∧ (n = 0 → 2 ≤ (values EqualFold.ref.eq Oid.plainReader.read .attrs
        (content (K := attrs EqualFold.ref.eq) [.str b!"a", .str b!"b"] before)).length)) ∧
    ((Store.empty (lst EqualFold.ref.eq Oid.plainReader.read .attrs)).run
        (prog (two .attrs) [false] [.style 0 0, .edit (some [.str b!"c"])])).text 0 =
      b!"( targetattr = \"a\" || \"b\" || \"c\" )" := by
  refine ⟨?_, by decide +kernel⟩
  intro before after j n h
  match before, h with
  | [], h =>
    simp at h
    exact ⟨h.1.1.symm, fun _ => by decide +kernel⟩
  | [_], h => simp at h
  | _ :: _ :: _, h => simp at h

end Verif.Share
