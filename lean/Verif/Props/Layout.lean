import Verif.Model.Layout
import Verif.Spec.Layout
import Verif.Lemmas.Case
import Verif.Props.BindText

/-!
# C106: the layout of rules does not change what they say
-/

namespace Verif.Layout
open Verif Verif.Spec Verif.Bind Verif.Rules

/-! ## Texts from place to place -/

theorem plain_append (low : Bool) (p : Place) (a b : Str) :
    plainFrom low p (a ++ b) =
      ((plainFrom low p a).1 ++ (plainFrom low (plainFrom low p a).2 b).1,
        (plainFrom low (plainFrom low p a).2 b).2) := by
  induction a generalizing p with
  | nil => rfl
  | cons c t ih => simp only [List.cons_append, plainFrom, ih, List.append_assoc]

/-- Whether the place is within quotation marks, from the number of marks before. -/
theorem plain_quoted (low : Bool) (p : Place) (s : Str) :
    decide ((plainFrom low p s).2 = .quoted) = (decide (p = .quoted) ^^ decide (s.count 34 % 2 = 1)) := by
  induction s generalizing p with
  | nil => cases p <;> rfl
  | cons c t ih =>
    have hw : ¬ White 34 := by decide
    have hm : ¬ Mark 34 := by decide
    show decide ((plainFrom low (look low p c).2 t).2 = .quoted) = _
    rw [ih]
    have hp : decide ((t.count 34 + 1) % 2 = 1) = !decide (t.count 34 % 2 = 1) := by
      rw [← decide_not]; congr 1; apply propext; omega
    by_cases hc : c = 34
    · subst hc
      rw [List.count_cons_self, hp]
      cases p <;> simp [look, hw, hm]
    · rw [List.count_cons_of_ne hc]
      have : decide ((look low p c).2 = .quoted) = decide (p = .quoted) := by
        unfold look
        cases p <;> simp [hc] <;> repeat' split
        all_goals simp_all
      rw [this]

/-- Two texts that say the same wherever they stand outside of quotation marks, and after
which the reader is outside of quotation marks as well. -/
def Like (low : Bool) (a b : Str) : Prop :=
  ∀ p, p ≠ .quoted → plainFrom low p a = plainFrom low p b ∧ (plainFrom low p a).2 ≠ .quoted

theorem Like.append {low : Bool} {a a' b b' : Str} (h : Like low a a') (k : Like low b b') :
    Like low (a ++ b) (a' ++ b') := by
  intro p hp
  obtain ⟨h1, h2⟩ := h p hp
  obtain ⟨k1, k2⟩ := k _ h2
  rw [plain_append, plain_append, ← h1, ← k1]
  exact ⟨rfl, k2⟩

theorem Like.even {low : Bool} {a : Str} (h : a.count 34 % 2 = 0) : Like low a a := by
  intro p hp
  refine ⟨rfl, fun e => ?_⟩
  have := plain_quoted low p a
  rw [decide_eq_true e, decide_eq_false hp, h] at this
  simp at this

theorem Like.plain {low : Bool} {a b : Str} (h : Like low a b) : plain low a = plain low b := by
  unfold Spec.plain
  rw [(h .mark (by decide)).1]

/-- A blank before a mark, and one after it, say nothing. -/
theorem mark_blanks (low : Bool) {c : Byte} (hc : Mark c) (pad pad' : Bool) :
    Like low (sp pad ++ [c] ++ sp pad') [c] := by
  have hw : ¬ White c := by
    rcases hc with rfl | rfl | rfl | rfl | rfl | rfl <;> decide
  intro p hp
  have h32 : White 32 := by decide
  cases pad <;> cases pad' <;> cases p <;>
    simp_all [sp, plainFrom, look]

theorem blank_before (low : Bool) {c : Byte} (hc : Mark c) (pad : Bool) : Like low (sp pad ++ [c]) [c] := by
  have := mark_blanks low hc pad false
  simpa [sp] using this

theorem blank_after (low : Bool) {c : Byte} (hc : Mark c) (pad : Bool) : Like low ([c] ++ sp pad) [c] := by
  have := mark_blanks low hc false pad
  simpa [sp] using this

/-- An operator, whatever its blanks. -/
theorem op_blanks (low : Bool) (op : Cop) (pad pad' : Bool) :
    Like low (sp pad ++ Cop.string op ++ sp pad) (sp pad' ++ Cop.string op ++ sp pad') := by
  have key : ∀ (a z : Byte) (m : Str), Mark a → Mark z → (a :: m ++ [z]).count 34 % 2 = 0 → ∀ q q' : Bool,
      Like low (sp q ++ (a :: m ++ [z]) ++ sp q) (sp q' ++ (a :: m ++ [z]) ++ sp q') := by
    intro a z m ha hz hm q q' p hp
    have e : ∀ q : Bool, plainFrom low p (sp q ++ (a :: m ++ [z]) ++ sp q) = plainFrom low p (a :: m ++ [z]) := by
      intro q
      have hwa : ¬ White a := by rcases ha with rfl | rfl | rfl | rfl | rfl | rfl <;> decide
      have h1 : plainFrom low p (sp q ++ (a :: (m ++ [z]))) = plainFrom low p (a :: (m ++ [z])) := by
        have h32 : White 32 := by decide
        cases q <;> cases p <;> simp_all [sp, plainFrom, look]
      have h2 : (plainFrom low p (a :: m ++ [z])).2 = .mark := by
        rw [plain_append]
        have hzw : ¬ White z := by rcases hz with rfl | rfl | rfl | rfl | rfl | rfl <;> decide
        have hne : (plainFrom low p (a :: m)).2 ≠ .quoted := by
          have hz34 : z ≠ 34 := by rcases hz with rfl | rfl | rfl | rfl | rfl | rfl <;> decide
          have hc : (a :: m).count 34 % 2 = 0 := by
            simpa [List.count_append, List.count_cons, hz34] using hm
          exact ((Like.even hc) p hp).2
        generalize (plainFrom low p (a :: m)).2 = p' at hne
        simp [plainFrom, look, hne, hzw, hz]
      rw [plain_append, show sp q ++ (a :: m ++ [z]) = sp q ++ (a :: (m ++ [z])) by simp, h1,
        show a :: (m ++ [z]) = a :: m ++ [z] by simp, h2]
      have h3 : plainFrom low .mark (sp q) = ([], .mark) := by
        cases q
        · rfl
        · rfl
      rw [h3, List.append_nil]
      exact Prod.ext rfl h2.symm
    refine ⟨by rw [e, e], ?_⟩
    rw [e]
    exact ((Like.even hm) p hp).2
  have one : ∀ c : Byte, Mark c → c ≠ 34 → ∀ q q' : Bool,
      Like low (sp q ++ [c] ++ sp q) (sp q' ++ [c] ++ sp q') := by
    intro c hc _ q q' p hp
    have h1 := mark_blanks low hc q q p hp
    have h2 := mark_blanks low hc q' q' p hp
    exact ⟨h1.1.trans h2.1.symm, h1.2⟩
  unfold Cop.string
  split
  · exact one 61 (by decide) (by decide) _ _
  split
  · exact key 33 61 [] (by decide) (by decide) (by decide) _ _
  split
  · exact one 60 (by decide) (by decide) _ _
  split
  · exact one 62 (by decide) (by decide) _ _
  split
  · exact key 60 61 [] (by decide) (by decide) (by decide) _ _
  split
  · exact key 62 61 [] (by decide) (by decide) (by decide) _ _
  · exact key 60 62 b!"invalid_operator" (by decide) (by decide) (by decide) _ _

theorem wrap_like {low : Bool} {a b : Str} (h : Like low a b) (p pad pad' : Bool) :
    Like low (wrapPad p pad a) (wrapPad p pad' b) := by
  unfold wrapPad
  cases p
  · exact h
  · have l1 : ∀ q q' : Bool, Like low (b!"(" ++ sp q) (b!"(" ++ sp q') := fun q q' x hx =>
      ⟨(blank_after low (c := 40) (by decide) q x hx).1.trans (blank_after low (c := 40) (by decide) q' x hx).1.symm,
        (blank_after low (c := 40) (by decide) q x hx).2⟩
    have l2 : ∀ q q' : Bool, Like low (sp q ++ b!")") (sp q' ++ b!")") := fun q q' x hx =>
      ⟨(blank_before low (c := 41) (by decide) q x hx).1.trans (blank_before low (c := 41) (by decide) q' x hx).1.symm,
        (blank_before low (c := 41) (by decide) q x hx).2⟩
    have := ((l1 pad pad').append h).append (l2 pad pad')
    simpa [List.append_assoc] using this

/-! ## Values -/

theorem quote_even {v : Str} (b : Bool) (h : (34 : Byte) ∉ v) : (quoteIf b v).count 34 % 2 = 0 := by
  have := List.count_eq_zero.2 h
  cases b <;> simp [quoteIf, this]

theorem join_even {sep : Str} {l : List Str} (hs : sep.count 34 = 0) (h : ∀ s ∈ l, s.count 34 % 2 = 0) :
    (Str.join sep l).count 34 % 2 = 0 := by
  induction l with
  | nil => rfl
  | cons a t ih =>
    cases t with
    | nil => exact h a (by simp)
    | cons b t =>
      have h1 := ih fun s hs => h s (by simp [hs])
      have h2 := h a (by simp)
      simp only [Str.join, List.count_append, hs]
      omega

theorem values_even (o s : Bool) {l : List Str} (h : ∀ v ∈ l, (34 : Byte) ∉ v) :
    (quoteIf o (Str.join b!" || " (l.map (quoteIf s)))).count 34 % 2 = 0 := by
  have hj : (Str.join b!" || " (l.map (quoteIf s))).count 34 % 2 = 0 := by
    refine join_even (by decide) fun x hx => ?_
    obtain ⟨v, hv, rfl⟩ := List.mem_map.1 hx
    exact quote_even s (h v hv)
  cases o
  · exact hj
  · simp only [quoteIf, List.count_append, if_true]
    simp
    omega

theorem core_like (low : Bool) {kw vals : Str} (hk : (34 : Byte) ∉ kw) (hv : vals.count 34 % 2 = 0) (op : Cop)
    (pad pad' : Bool) :
    Like low (kw ++ sp pad ++ Cop.string op ++ sp pad ++ vals) (kw ++ sp pad' ++ Cop.string op ++ sp pad' ++ vals) := by
  have hk' : kw.count 34 % 2 = 0 := by rw [List.count_eq_zero.2 hk]
  have := ((Like.even (low := low) hk').append (op_blanks low op pad pad')).append (Like.even hv)
  simpa [List.append_assoc] using this

/-! ## Bind rules -/

/-- The rule's keyword and the texts of its values have no quotation marks. -/
def Unmarked (val : BExpr → List Str) (r : BRule) : Prop := (34 : Byte) ∉ r.core.kw ∧ ∀ v ∈ val r.ex, (34 : Byte) ∉ v

mutual

/-- All rules are unmarked, and NOT stacks have at most one entry. -/
def Neat (val : BExpr → List Str) : LCtx → Prop
  | .rule r _ => Unmarked val r
  | .zero => True
  | .rules w _ _ _ es => (w = .not → es.length ≤ 1) ∧ NeatAll val es

/-- `Neat` for all entries. -/
def NeatAll (val : BExpr → List Str) : List LCtx → Prop
  | [] => True
  | e :: es => Neat val e ∧ NeatAll val es

end

mutual

/-- The context without its settings. -/
def erase : LCtx → BCtx
  | .rule r _ => .rule r
  | .zero => .zero
  | .rules w p _ _ es => .rules w p (eraseAll es)

/-- `erase` for all entries. -/
def eraseAll : List LCtx → List BCtx
  | [] => []
  | e :: es => erase e :: eraseAll es

end

mutual

/-- No word is in small letters. -/
def Unfolded : LCtx → Prop
  | .rules _ _ _ fold es => fold = false ∧ UnfoldedAll es
  | _ => True

/-- `Unfolded` for all entries. -/
def UnfoldedAll : List LCtx → Prop
  | [] => True
  | e :: es => Unfolded e ∧ UnfoldedAll es

end

theorem rule_nonempty (val : BExpr → List Str) (r : BRule) (pad : Bool) :
    r.textPad val pad = [] ↔ r.text val = [] := by
  have hop : Cop.string r.core.op ≠ [] := by
    unfold Cop.string
    repeat' split
    all_goals decide
  unfold BRule.textPad BRule.text
  split
  · simp
  · unfold wrapPad wrapIf BRule.bare
    cases r.paren <;> simp [hop]

theorem rule_like (low : Bool) {val : BExpr → List Str} {r : BRule} (h : Unmarked val r) (pad : Bool) :
    Like low (r.textPad val pad) (r.text val) := by
  have he : r.text val = r.textPad val true := by
    unfold BRule.textPad BRule.text wrapPad wrapIf BRule.bare sp
    simp only [if_true]
    split
    · rfl
    · cases r.paren <;> simp [List.append_assoc]
  rw [he]
  unfold BRule.textPad
  split
  · exact Like.even rfl
  · exact wrap_like (core_like low h.1 (values_even _ _ h.2) _ _ _) _ _ _

/-- Lists of texts that say the same, one by one. -/
inductive LikeAll (low : Bool) : List Str → List Str → Prop where
  | nil : LikeAll low [] []
  | cons {a b : Str} {l m : List Str} : Like low a b → LikeAll low l m → LikeAll low (a :: l) (b :: m)

theorem join_like {low : Bool} {sep sep' : Str} (hs : Like low sep sep') {l m : List Str} (h : LikeAll low l m) :
    Like low (Str.join sep l) (Str.join sep' m) := by
  induction h with
  | nil => exact Like.even rfl
  | @cons a b l m hab hlm ih =>
    cases hlm with
    | nil => exact hab
    | cons h1 h2 => exact (hab.append hs).append ih

theorem word_like {low fold : Bool} (h : low = true ∨ fold = false) (w : Word) :
    Like low (b!" " ++ w.text fold ++ b!" ") (b!" " ++ w.text false ++ b!" ") := by
  rcases h with rfl | rfl
  · intro p hp
    cases w <;> cases fold <;> cases p <;> first | exact absurd rfl hp | exact ⟨by decide, by decide⟩
  · exact Like.even (by cases w <;> decide)

theorem not_like {low fold : Bool} (h : low = true ∨ fold = false) :
    Like low (Word.not.text fold ++ b!" ") b!"NOT " := by
  rcases h with rfl | rfl
  · intro p hp
    cases fold <;> cases p <;> first | exact absurd rfl hp | exact ⟨by decide, by decide⟩
  · exact Like.even (by decide)

theorem join_nil {sep : Str} {l : List Str} (h : ∀ t ∈ l, t ≠ []) :
    Str.join sep l = [] ↔ l = [] := by
  cases l with
  | nil => simp [Str.join]
  | cons a t =>
    have := h a (by simp)
    cases t with
    | nil => simp [Str.join, this]
    | cons b t => simp [Str.join, this]

theorem wrap_nil {p pad : Bool} {s : Str} (h : s ≠ []) : wrapPad p pad s ≠ [] := by
  unfold wrapPad
  cases p
  · simpa using h
  · simp

theorem wrapIf_nil {p : Bool} {s : Str} (h : s ≠ []) : wrapIf p s ≠ [] := by
  unfold wrapIf
  cases p
  · simpa using h
  · simp

theorem wrapIf_pad (p : Bool) (s : Str) : wrapIf p s = wrapPad p true s := by
  cases p <;> simp [wrapIf, wrapPad, sp]

mutual

theorem ctx_like (low : Bool) (val : BExpr → List Str) (many : Bool → List Str → Str) :
    (l : LCtx) → Neat val l → (low = true ∨ Unfolded l) →
    Like low (l.text val many) ((erase l).text val many) ∧ (l.text val many = [] ↔ (erase l).text val many = [])
  | .rule r pad, h, _ => by
    simp only [LCtx.text, erase, BCtx.text]
    exact ⟨rule_like low h pad, rule_nonempty val r pad⟩
  | .zero, _, _ => ⟨Like.even rfl, Iff.rfl⟩
  | .rules w p pad fold es, h, hf => by
    obtain ⟨hw, hn⟩ := h
    have hfw : low = true ∨ fold = false := hf.imp id And.left
    obtain ⟨h1, h2, h3⟩ := ctxs_like low val many es hn (hf.imp id And.right)
    have hlen : w = .not → (LCtx.texts val many es).length ≤ 1 := fun e => Nat.le_trans h3 (hw e)
    simp only [LCtx.text, erase, BCtx.text]
    revert h1 h2 hlen
    generalize LCtx.texts val many es = ts
    generalize BCtx.texts val many (eraseAll es) = ts'
    intro h1 h2 hlen
    cases h1 with
    | nil => cases w <;> exact ⟨Like.even rfl, Iff.rfl⟩
    | @cons a b l m hab hlm =>
      have ha : a ≠ [] := (h2 a).1 (by simp)
      have hb : b ≠ [] := (h2 b).2 (by simp)
      have hj : ∀ (w : Word) (x : Bool), Str.join (b!" " ++ w.text x ++ b!" ") (a :: l) ≠ [] := by
        intro w x e
        cases l with
        | nil => exact ha e
        | cons c l => simp [Str.join] at e
      have hj' : ∀ (sep : Str), sep ≠ [] → Str.join sep (b :: m) ≠ [] := by
        intro sep hs e
        cases m with
        | nil => exact hb e
        | cons c l => simp [Str.join, hs] at e
      cases w with
      | and =>
        simp only [stackTextPad, stackText, wrapIf_pad]
        refine ⟨wrap_like (join_like (word_like hfw .and) (.cons hab hlm)) _ _ _, ?_⟩
        exact ⟨fun e => absurd e (wrap_nil (hj _ _)), fun e => absurd e (wrap_nil (hj' _ (by decide)))⟩
      | or =>
        simp only [stackTextPad, stackText, wrapIf_pad]
        refine ⟨wrap_like (join_like (word_like hfw .or) (.cons hab hlm)) _ _ _, ?_⟩
        exact ⟨fun e => absurd e (wrap_nil (hj _ _)), fun e => absurd e (wrap_nil (hj' _ (by decide)))⟩
      | not =>
        have hl : l = [] := by
          have := hlen rfl
          cases l with
          | nil => rfl
          | cons c l => simp at this
        subst hl
        cases hlm
        simp only [stackTextPad, stackText, wrapIf_pad]
        refine ⟨(not_like hfw).append (wrap_like hab _ _ _), ?_⟩
        refine ⟨fun e => ?_, fun e => ?_⟩
        · simp at e
        · simp at e

theorem ctxs_like (low : Bool) (val : BExpr → List Str) (many : Bool → List Str → Str) :
    (es : List LCtx) → NeatAll val es → (low = true ∨ UnfoldedAll es) →
    LikeAll low (LCtx.texts val many es) (BCtx.texts val many (eraseAll es)) ∧
      (∀ t, (t ∈ LCtx.texts val many es → t ≠ []) ∧ (t ∈ BCtx.texts val many (eraseAll es) → t ≠ [])) ∧
      (LCtx.texts val many es).length ≤ es.length
  | [], _, _ => ⟨.nil, fun t => ⟨fun h => by simp [LCtx.texts] at h, fun h => by simp [BCtx.texts, eraseAll] at h⟩,
      Nat.le_refl _⟩
  | e :: es, h, hf => by
    obtain ⟨h1, h2⟩ := ctx_like low val many e h.1 (hf.imp id And.left)
    obtain ⟨k1, k2, k3⟩ := ctxs_like low val many es h.2 (hf.imp id And.right)
    simp only [LCtx.texts, eraseAll, BCtx.texts]
    by_cases he : LCtx.text val many e = []
    · rw [if_pos he, if_pos (h2.1 he)]
      exact ⟨k1, k2, Nat.le_succ_of_le k3⟩
    · have he' : ¬ (erase e).text val many = [] := fun x => he (h2.2 x)
      rw [if_neg he, if_neg he']
      refine ⟨.cons h1 k1, fun t => ⟨fun ht => ?_, fun ht => ?_⟩, by simpa using k3⟩
      · rcases List.mem_cons.1 ht with rfl | ht
        · exact he
        · exact (k2 t).1 ht
      · rcases List.mem_cons.1 ht with rfl | ht
        · exact he'
        · exact (k2 t).2 ht

end

/-- The claim: contexts that differ in padding and in the letter case of words print texts
that say the same. -/
def LayoutSaysNothing : Prop :=
  ∀ (val : BExpr → List Str) (many : Bool → List Str → Str) (l l' : LCtx), erase l = erase l' →
    plain true (l.text val many) = plain true (l'.text val many)

/-- **C106** fails: after a value with a quotation mark, the blank before the closing
parenthesis is within quotation marks. -/
theorem C106_counterexample : ¬ LayoutSaysNothing := by
  intro h
  have := h textVal (fun _ _ => []) (.rule { textRule BindIP b!"a\"" with paren := true } true)
    (.rule { textRule BindIP b!"a\"" with paren := true } false) rfl
  simp only [LCtx.text] at this
  exact absurd this (by decide +kernel)

/-- **C106**, values without quotation marks: padding and the letter case of words, set in any
way at any depth, do not change what the text says, and without change of letter case not
even that.  Missing: values and keywords with quotation marks
(see `C106_counterexample`), NOT stacks with several entries, of which nothing is assumed. -/
theorem C106_layout_partial (val : BExpr → List Str) (many : Bool → List Str → Str) (l l' : LCtx)
    (he : erase l = erase l') (hn : Neat val l) (hn' : Neat val l') :
    plain true (l.text val many) = plain true (l'.text val many) ∧
    (Unfolded l → Unfolded l' → plain false (l.text val many) = plain false (l'.text val many)) ∧
    (l.text val many = [] ↔ l'.text val many = []) := by
  obtain ⟨a1, a2⟩ := ctx_like true val many l hn (.inl rfl)
  obtain ⟨b1, b2⟩ := ctx_like true val many l' hn' (.inl rfl)
  refine ⟨by rw [a1.plain, b1.plain, he], fun u u' => ?_, by rw [a2, b2, he]⟩
  rw [(ctx_like false val many l hn (.inr u)).1.plain, (ctx_like false val many l' hn' (.inr u')).1.plain, he]

/-- **C106**: the default layout is that of C75 and C99. -/
theorem C106_default (val : BExpr → List Str) (many : Bool → List Str → Str) (r : BRule) :
    (LCtx.rule r true).text val many = (BCtx.rule r).text val many := by
  simp only [LCtx.text, BCtx.text]
  unfold BRule.textPad BRule.text wrapPad wrapIf BRule.bare sp
  simp only [if_true]
  split
  · rfl
  · cases r.paren <;> simp [List.append_assoc]

/-- **C106**: setting padding and letter case changes nothing else, for rules and stacks. -/
theorem C106_settings (state : List Bool) (l : LCtx) :
    erase (l.noPadding state) = erase l ∧ erase (l.setFold state) = erase l ∧
    (l.noPadding state).isParen = l.isParen ∧ (l.setFold state).isParen = l.isParen := by
  cases l with
  | rule r pad =>
    simp only [LCtx.noPadding, LCtx.setFold]
    split <;> simp [erase, LCtx.isParen]
  | zero => exact ⟨rfl, rfl, rfl, rfl⟩
  | rules w p pad fold es => exact ⟨rfl, rfl, rfl, rfl⟩

/-- **C106**: what the settings do to the text of an AND or OR stack in parentheses, with the
entries `es`: `NoPadding` decides about the blanks within the parentheses and `Fold` about the
letter case of the word, each by its argument and each without touching the other. -/
theorem C106_stack (val : BExpr → List Str) (many : Bool → List Str → Str) (w : Word) (hw : w ≠ .not)
    (pad fold a b : Bool) (e : LCtx) (es : List LCtx) (he : e.text val many ≠ []) :
    ((((LCtx.rules w true pad fold (e :: es)).noPadding [a]).setFold [b]).text val many =
      (if a then b!"(" else b!"( ") ++
      Str.join (if w = .and then (if b then b!" and " else b!" AND ") else (if b then b!" or " else b!" OR "))
        (LCtx.texts val many (e :: es)) ++ (if a then b!")" else b!" )")) ∧
    ((LCtx.rules w true pad fold (e :: es)).setFold [b]).noPadding [a] =
      ((LCtx.rules w true pad fold (e :: es)).noPadding [a]).setFold [b] := by
  refine ⟨?_, rfl⟩
  have ht : LCtx.texts val many (e :: es) = e.text val many :: LCtx.texts val many es := by
    rw [LCtx.texts]; exact if_neg he
  simp only [LCtx.noPadding, LCtx.setFold, LCtx.text, setting]
  rw [ht]
  cases w with
  | not => exact absurd rfl hw
  | and => cases a <;> cases b <;> simp [stackTextPad, wrapPad, sp, Word.text]
  | or => cases a <;> cases b <;> simp [stackTextPad, wrapPad, sp, Word.text]

example : (LCtx.rule (textRule BindIP b!"a") true).text textVal (fun _ _ => []) ≠ [] := by
  simp only [LCtx.text]; decide +kernel

/-- **C106**: without an argument each of the settings is turned round, so that two calls leave
everything as it was. -/
theorem C106_twice (l : LCtx) :
    (l.noPadding []).noPadding [] = l ∧ (l.setFold []).setFold [] = l ∧ (l.setParen []).setParen [] = l ∧
    ∀ w p pad fold es, l = .rules w p pad fold es →
      l.noPadding [] = l.noPadding [pad] ∧ l.setFold [] = l.setFold [!fold] ∧ l.setParen [] = l.setParen [!p] := by
  cases l with
  | zero => exact ⟨rfl, rfl, rfl, fun _ _ _ _ _ h => by cases h⟩
  | rules w p pad fold es =>
    refine ⟨by simp [LCtx.noPadding, setting], by simp [LCtx.setFold, setting],
      by simp [LCtx.setParen, setting], ?_⟩
    rintro w p pad fold es h
    cases h
    exact ⟨by simp [LCtx.noPadding, setting], rfl, rfl⟩
  | rule r pad =>
    refine ⟨?_, rfl, ?_, fun _ _ _ _ _ h => by cases h⟩
    · by_cases hz : r.isZero = true
      · simp [LCtx.noPadding, hz]
      · simp [LCtx.noPadding, hz, setting]
    · by_cases hz : r.isZero = true
      · simp [LCtx.setParen, hz]
      · simp only [LCtx.setParen, if_neg hz]
        rw [if_neg (by simpa [BRule.isZero] using hz)]
        simp [setting]

/-- **C106**: `Paren` decides about parentheses by its argument and changes nothing else, in
anything that is initialized. -/
theorem C106_paren (l : LCtx) (b c : Bool) (val : BExpr → List Str) (many : Bool → List Str → Str)
    (hl : match l with | .rule r _ => r.isZero = false | .zero => False | .rules _ _ _ _ _ => True) :
    (l.setParen [b]).isParen = b ∧ (l.setParen [b]).setParen [l.isParen] = l ∧
    (l.setParen [b]).noPadding [c] = (l.noPadding [c]).setParen [b] ∧
    (l.setParen [b]).setFold [c] = (l.setFold [c]).setParen [b] ∧
    ∀ r pad, l = .rule r pad → (l.setParen [true]).text val many =
      (if pad then b!"( " else b!"(") ++ (l.setParen [false]).text val many ++ (if pad then b!" )" else b!")") := by
  cases l with
  | zero => exact hl.elim
  | rules w p pad fold es => exact ⟨rfl, rfl, rfl, rfl, fun _ _ h => by cases h⟩
  | rule r pad =>
    have hz : r.isZero = false := hl
    have hz' : ∀ b : Bool, ({ r with paren := b } : BRule).isZero = false := fun _ => hz
    refine ⟨?_, ?_, ?_, ?_, ?_⟩
    · simp [LCtx.setParen, LCtx.isParen, hz, hz', setting]
    · simp [LCtx.setParen, LCtx.isParen, hz, hz', setting]
    · simp [LCtx.setParen, LCtx.noPadding, hz, hz', setting]
    · simp [LCtx.setParen, LCtx.setFold, hz, setting]
    · intro r' pad' h
      cases h
      have e : ∀ b : Bool, (LCtx.rule r pad).setParen [b] = .rule { r with paren := b } pad := by
        intro b; simp [LCtx.setParen, hz, setting]
      rw [e, e]
      simp only [LCtx.text, BRule.textPad, hz', wrapPad]
      cases pad <;> simp [sp]

theorem plain_word {p : Place} (hp : p = .mark ∨ p = .word) {s : Str}
    (h : ∀ c ∈ s, ¬ White c ∧ ¬ Mark c ∧ c ≠ 34) :
    (plainFrom false p s).1 = s ∧ ((plainFrom false p s).2 = .mark ∨ (plainFrom false p s).2 = .word) := by
  induction s generalizing p with
  | nil => exact ⟨rfl, hp⟩
  | cons c t ih =>
    obtain ⟨h1, h2, h3⟩ := h c (by simp)
    have hl : look false p c = ([c], .word) := by
      rcases hp with rfl | rfl <;> simp [look, h1, h2, h3]
    obtain ⟨i1, i2⟩ := ih (p := .word) (.inr rfl) fun d hd => h d (by simp [hd])
    simp only [plainFrom, hl]
    rw [i1]
    exact ⟨rfl, i2⟩

theorem plain_inner {v : Str} (h : (34 : Byte) ∉ v) (rest : Str) :
    plainFrom false .quoted (v ++ 34 :: rest) =
      (v ++ 34 :: (plainFrom false .word rest).1, (plainFrom false .word rest).2) := by
  induction v with
  | nil => simp [plainFrom, look]
  | cons c t ih =>
    have hc : c ≠ 34 := fun e => h (by simp [e])
    have ih := ih fun e => h (by simp [e])
    simp [plainFrom, look, hc, ih]

theorem plain_op (op : Cop) {p : Place} (hp : p = .mark ∨ p = .word) :
    plainFrom false p (Cop.string op) = (Cop.string op, .mark) := by
  unfold Cop.string
  rcases hp with rfl | rfl <;> repeat' split
  all_goals decide

theorem join_free {c : Byte} {sep : Str} {l : List Str} (hs : c ∉ sep) (h : ∀ s ∈ l, c ∉ s) : c ∉ Str.join sep l := by
  induction l with
  | nil => simp [Str.join]
  | cons a t ih =>
    cases t with
    | nil => exact h a (by simp)
    | cons b t =>
      have h1 := ih fun s hs => h s (by simp [hs])
      have h2 := h a (by simp)
      simp [Str.join, hs, h1, h2]

/-- **C106**: after `NoPadding(true)` nothing in the text of a rule can be left out: the text is
what it says.  `NoPadding(false)` restores the text, and so do two calls without argument. -/
theorem C106_tight (val : BExpr → List Str) (many : Bool → List Str → Str) (r : BRule) (pad : Bool) (hz : r.isZero = false)
    (hk : ∀ c ∈ r.core.kw, ¬ White c ∧ ¬ Mark c ∧ c ≠ 34) (ho : r.outer = true) (hs : r.slice = false)
    (hv : ∀ v ∈ val r.ex, (34 : Byte) ∉ v) :
    plain false (((LCtx.rule r pad).noPadding [true]).text val many) = ((LCtx.rule r pad).noPadding [true]).text val many ∧
    ((LCtx.rule r pad).noPadding [false]).text val many = (BCtx.rule r).text val many ∧
    ((LCtx.rule r pad).noPadding []).noPadding [] = LCtx.rule r pad := by
  have hj : (34 : Byte) ∉ Str.join b!" || " (val r.ex) := join_free (by decide) hv
  have core : ∀ rest : Str, plainFrom false .mark (r.core.kw ++ (Cop.string r.core.op
      ++ (34 :: (Str.join b!" || " (val r.ex) ++ 34 :: rest)))) =
      (r.core.kw ++ (Cop.string r.core.op ++ (34 :: (Str.join b!" || " (val r.ex) ++ 34 :: (plainFrom false .word rest).1))),
        (plainFrom false .word rest).2) := by
    intro rest
    obtain ⟨k1, k2⟩ := plain_word (p := .mark) (.inl rfl) hk
    rw [plain_append, plain_append, plain_op r.core.op k2, k1]
    have hl : look false .mark 34 = ([34], .quoted) := by decide
    simp only [plainFrom, hl, plain_inner hj, List.cons_append, List.nil_append]
  refine ⟨?_, ?_, ?_⟩
  · simp only [LCtx.noPadding, hz, LCtx.text, setting, BRule.textPad, wrapPad, sp, quoteIf, ho, hs, plain,
      Bool.false_eq_true, if_false, if_true, Bool.not_true]
    have hm : (val r.ex).map (quoteIf false) = val r.ex := List.map_id _
    cases hp : r.paren
    · have := core []
      simp [hm, plainFrom] at this ⊢
      rw [this]
    · have := core [41]
      have h40 : look false .mark 40 = ([40], .mark) := by decide
      have h41 : look false .word 41 = ([41], .mark) := by decide
      simp [hm, plainFrom, h40, h41] at this ⊢
      rw [this]
  · simp only [LCtx.noPadding, hz, setting, Bool.false_eq_true, if_false, Bool.not_false]
    exact C106_default val many r
  · simp [LCtx.noPadding, hz, setting]

example : (textRule BindIP b!"1.2.3.4").isZero = false ∧ (textRule BindIP b!"1.2.3.4").outer = true ∧
    (textRule BindIP b!"1.2.3.4").slice = false ∧
    ((LCtx.rule (textRule BindIP b!"1.2.3.4") true).noPadding [true]).text textVal (fun _ _ => []) = b!"ip=\"1.2.3.4\"" := by
  decide +kernel

/-- A rule in parentheses, within a stack. -/
def neatSample (pad fold : Bool) : LCtx :=
  .rules .and true pad fold [.rule { textRule BindIP b!"1.2.3.4" with paren := true } pad,
    .rules .not true pad fold [.rule (textRule BindDNS b!"a b") pad]]

example : Neat textVal (neatSample true false) ∧ Neat textVal (neatSample false true) ∧
    erase (neatSample true false) = erase (neatSample false true) := by
  refine ⟨⟨by decide, ⟨?_, ?_⟩, ⟨by decide, ⟨?_, ?_⟩, trivial⟩, trivial⟩,
    ⟨by decide, ⟨?_, ?_⟩, ⟨by decide, ⟨?_, ?_⟩, trivial⟩, trivial⟩, rfl⟩ <;> decide +kernel

example : (neatSample false true).text textVal (fun _ _ => []) =
    b!"((ip=\"1.2.3.4\") and not (dns=\"a b\"))" := by
  simp only [neatSample, LCtx.text, LCtx.texts]
  decide +kernel

/-! ## Reading ignores the letter case of words -/

theorem fold_lower (s : Str) : Str.fold (s.map Str.lowerByte) = Str.fold s := by
  have hE2 : ∀ c : Byte, Str.lowerByte c = 0xE2 ↔ c = 0xE2 := by decide +kernel
  have h84 : ∀ c : Byte, Str.lowerByte c = 0x84 ↔ c = 0x84 := by decide +kernel
  have hAA : ∀ c : Byte, Str.lowerByte c = 0xAA ↔ c = 0xAA := by decide +kernel
  have hC5 : ∀ c : Byte, Str.lowerByte c = 0xC5 ↔ c = 0xC5 := by decide +kernel
  have hBF : ∀ c : Byte, Str.lowerByte c = 0xBF ↔ c = 0xBF := by decide +kernel
  fun_induction Str.fold s with
  | case1 => rfl
  | case2 a => simp only [List.map_cons, List.map_nil, Str.fold, lowerByte_idem]
  | case3 a b hab =>
    obtain ⟨rfl, rfl⟩ := hab
    decide
  | case4 a b hab ih =>
    show (if _ then _ else _) = _
    rw [if_neg (by rw [hC5, hBF]; exact hab), lowerByte_idem]
    exact congrArg _ ih
  | case5 a b c t h ih =>
    show (if _ then _ else _) = _
    rw [if_pos (by rw [hE2, h84, hAA]; exact h)]
    exact congrArg _ ih
  | case6 a b c t h1 h ih =>
    show (if _ then _ else _) = _
    rw [if_neg (by rw [hE2, h84, hAA]; exact h1), if_pos (by rw [hC5, hBF]; exact h)]
    exact congrArg _ ih
  | case7 a b c t h1 h2 ih =>
    show (if _ then _ else _) = _
    rw [if_neg (by rw [hE2, h84, hAA]; exact h1), if_neg (by rw [hC5, hBF]; exact h2), lowerByte_idem]
    exact congrArg _ ih

theorem upper_lower (s : Str) : Str.upper (s.map Str.lowerByte) = Str.upper s := by
  have hC5 : ∀ c : Byte, Str.lowerByte c = 0xC5 ↔ c = 0xC5 := by decide +kernel
  have hBF : ∀ c : Byte, Str.lowerByte c = 0xBF ↔ c = 0xBF := by decide +kernel
  have hC4 : ∀ c : Byte, Str.lowerByte c = 0xC4 ↔ c = 0xC4 := by decide +kernel
  have hB1 : ∀ c : Byte, Str.lowerByte c = 0xB1 ↔ c = 0xB1 := by decide +kernel
  fun_induction Str.upper s with
  | case1 => rfl
  | case2 a => simp only [List.map_cons, List.map_nil, Str.upper, upperByte_lower]
  | case3 a b t h ih =>
    show (if _ then _ else _) = _
    rw [if_pos (by rw [hC5, hBF]; exact h)]
    exact congrArg _ ih
  | case4 a b t h1 h ih =>
    show (if _ then _ else _) = _
    rw [if_neg (by rw [hC5, hBF]; exact h1), if_pos (by rw [hC4, hB1]; exact h)]
    exact congrArg _ ih
  | case5 a b t h1 h2 ih =>
    show (if _ then _ else _) = _
    rw [if_neg (by rw [hC5, hBF]; exact h1), if_neg (by rw [hC4, hB1]; exact h2), upperByte_lower]
    exact congrArg _ ih

theorem word_case {k k' : Str} (h : AnyCase k k') : wordToStack k = wordToStack k' := by
  have hf : Str.fold k = Str.fold k' := by rw [← fold_lower k, ← fold_lower k']; exact congrArg _ h.symm
  have hu : Str.upper k = Str.upper k' := by rw [← upper_lower k, ← upper_lower k']; exact congrArg _ h.symm
  unfold wordToStack Str.eqFold
  rw [hf, hu]

mutual

/-- Two trees of conditions that differ in the letter case of words at most. -/
def SameTree : PTree → PTree → Prop
  | .cond r, .cond r' => r = r'
  | .stack k p es, .stack k' p' es' => AnyCase k k' ∧ p = p' ∧ SameTrees es es'
  | .other, .other => True
  | _, _ => False

/-- `SameTree`, one by one. -/
def SameTrees : List PTree → List PTree → Prop
  | [], [] => True
  | t :: ts, t' :: ts' => SameTree t t' ∧ SameTrees ts ts'
  | _, _ => False

end

mutual

theorem convert_case (env : Env) (text : BCtx → Str) :
    (t t' : PTree) → SameTree t t' → convert env text t = convert env text t'
  | .cond _, t', h => by cases t' <;> first | rfl | exact (h : False).elim
  | .other, t', h => by cases t' <;> first | rfl | exact (h : False).elim
  | .stack k p es, t', h => by
    cases t' with
    | cond _ => exact (h : False).elim
    | other => exact (h : False).elim
    | stack k' p' es' =>
      obtain ⟨h1, -, h3⟩ := h
      unfold convert
      rw [word_case h1, convertList_case env text [] es es' h3]

theorem convertList_case (env : Env) (text : BCtx → Str) (acc : List BCtx) :
    (ts ts' : List PTree) → SameTrees ts ts' → convertList env text acc ts = convertList env text acc ts'
  | [], [], _ => rfl
  | [], _ :: _, h => (h : False).elim
  | _ :: _, [], h => (h : False).elim
  | .cond r :: ts, .cond r' :: ts', h => by
    obtain ⟨h1, h2⟩ := h
    have h1 : r = r' := h1
    subst h1
    unfold convertList
    cases r.assertValue env with
    | panic => rfl
    | err => rfl
    | ok r' => exact convertList_case env text _ ts ts' h2
  | .stack k p es :: ts, .stack k' p' es' :: ts', h => by
    obtain ⟨h1, h2⟩ := h
    have hc := convert_case env text (.stack k p es) (.stack k' p' es') h1
    obtain ⟨-, hp, -⟩ := h1
    subst hp
    unfold convertList
    rw [hc]
    cases convert env text (.stack k' p es') with
    | panic => rfl
    | err => rfl
    | ok x =>
      obtain ⟨c, ok⟩ := x
      cases ok
      · rfl
      · exact convertList_case env text _ ts ts' h2
  | .other :: ts, .other :: ts', h => by
    unfold convertList
    exact convertList_case env text _ ts ts' h.2
  | .cond _ :: _, .stack _ _ _ :: _, h => (h.1 : False).elim
  | .cond _ :: _, .other :: _, h => (h.1 : False).elim
  | .stack _ _ _ :: _, .cond _ :: _, h => (h.1 : False).elim
  | .stack _ _ _ :: _, .other :: _, h => (h.1 : False).elim
  | .other :: _, .cond _ :: _, h => (h.1 : False).elim
  | .other :: _, .stack _ _ _ :: _, h => (h.1 : False).elim

end

/-- **C106**: trees that differ in the letter case of their words are read as the same rules. -/
theorem C106_words (env : Env) (text : BCtx → Str) (t t' : PTree) (h : SameTree t t') :
    parseBindRules env text t = parseBindRules env text t' := by
  unfold parseBindRules
  rw [convert_case env text t t' h]

example : SameTree (.stack b!"AND" true [.stack b!"and NOT" false [], .other])
    (.stack b!"and" true [.stack b!"And Not" false [], .other]) :=
  ⟨by decide, rfl, ⟨by decide, rfl, trivial⟩, trivial, trivial⟩

/-! ## Target rules -/

/-- The keyword and the texts of the values have no quotation marks. -/
def UnmarkedT (r : TRule) : Prop := (34 : Byte) ∉ r.core.kw ∧ ∀ v ∈ r.ex.texts, (34 : Byte) ∉ v

theorem trule_like {r : TRule} (h : UnmarkedT r) (pad pad' : Bool) :
    Like false (r.stringPad pad) (r.stringPad pad') := by
  unfold TRule.stringPad
  split
  · exact Like.even rfl
  · have := wrap_like (core_like false h.1 (values_even r.outer r.slice h.2) r.core.op pad pad') true pad pad'
    simpa [wrapPad] using this

theorem trule_default (r : TRule) : r.stringPad true = r.string := by
  unfold TRule.stringPad TRule.string sp
  split
  · rfl
  · simp [List.append_assoc]

/-- What stands between target rules: nothing, or a blank. -/
def Slim (d : Str) : Prop := d = [] ∨ d = b!" "

/-- The text ends with a closing parenthesis or is empty, and begins with an opening one. -/
theorem trule_ends (r : TRule) (pad : Bool) :
    r.stringPad pad = [] ∨ ∃ m, r.stringPad pad = 40 :: m ++ [41] := by
  unfold TRule.stringPad
  split
  · exact .inl rfl
  · exact .inr ⟨sp pad ++ (r.core.kw ++ sp pad ++ Cop.string r.core.op ++ sp pad
      ++ quoteIf r.outer (Str.join b!" || " (r.ex.texts.map (quoteIf r.slice)))) ++ sp pad, by simp⟩

/-- After a mark. -/
theorem list_like {d d' : Str} (hd : Slim d) (hd' : Slim d') (es : List (TRule × Bool)) (es' : List (TRule × Bool))
    (he : es.map Prod.fst = es'.map Prod.fst) (hu : ∀ e ∈ es, UnmarkedT e.1) :
    plainFrom false .mark (Str.join d (es.map fun e => e.1.stringPad e.2)) =
      plainFrom false .mark (Str.join d' (es'.map fun e => e.1.stringPad e.2)) := by
  have hgap : ∀ d : Str, Slim d → plainFrom false .mark d = ([], .mark) := by
    rintro d (rfl | rfl) <;> decide
  have hend : ∀ (r : TRule) (pad : Bool), UnmarkedT r → (plainFrom false .mark (r.stringPad pad)).2 = .mark := by
    intro r pad hr
    have hq := (trule_like hr pad pad .mark (by decide)).2
    rcases trule_ends r pad with e | ⟨m, e⟩
    · rw [e]; rfl
    · rw [e, plain_append] at hq ⊢
      revert hq
      generalize (plainFrom false .mark (40 :: m)).2 = p'
      dsimp only
      cases p' <;> decide
  induction es generalizing es' with
  | nil =>
    cases es' with
    | nil => rfl
    | cons a l => simp at he
  | cons e es ih =>
    cases es' with
    | nil => simp at he
    | cons e' es' =>
      simp only [List.map_cons, List.cons.injEq] at he
      obtain ⟨h1, h2⟩ := he
      have ih := ih es' h2 fun x hx => hu x (by simp [hx])
      have hl := (trule_like (hu e (by simp)) e.2 e'.2 .mark (by decide)).1
      have hm := hend e.1 e.2 (hu e (by simp))
      cases es with
      | nil =>
        cases es' with
        | nil => simp only [List.map_cons, List.map_nil, Str.join]; rw [← h1]; exact hl
        | cons a l => simp at h2
      | cons f es =>
        cases es' with
        | nil => simp at h2
        | cons f' es' =>
          simp only [List.map_cons, Str.join] at ih ⊢
          rw [List.append_assoc, List.append_assoc, plain_append, plain_append (b := d' ++ _), ← h1, ← hl, hm,
            plain_append, plain_append (a := d'), hgap d hd, hgap d' hd']
          simp only [List.nil_append]
          rw [ih]

/-- **C106**, target rules: whatever the padding of each rule and with a blank between rules or
none, the text says the same; the default is that of `TRs.string`.  Missing: values with
quotation marks. -/
theorem C106_targets_partial (t t' : LTRs) (he : t.es.map Prod.fst = t'.es.map Prod.fst)
    (hu : ∀ e ∈ t.es, UnmarkedT e.1) (hd : Slim t.delim) (hd' : Slim t'.delim) :
    plain false t.string = plain false t'.string ∧
    plain false t.string = plain false (TRs.string (t.es.map Prod.fst)) := by
  refine ⟨congrArg Prod.fst (list_like hd hd' t.es t'.es he hu), ?_⟩
  have hs : TRs.string (t.es.map Prod.fst) =
      LTRs.string { delim := [], es := t.es.map fun e => (e.1, true) } := by
    unfold TRs.string LTRs.string
    simp [List.map_map, Function.comp_def, trule_default]
  rw [hs]
  exact congrArg Prod.fst (list_like hd (.inl rfl) t.es _ (by simp [List.map_map, Function.comp_def]) hu)

/-- **C106**: `NoPadding` of a list of target rules keeps its rules and leaves nothing or a
blank between them, nothing if the argument says so. -/
theorem C106_targets_settings (state : List Bool) (t : LTRs) (hd : Slim t.delim) :
    (t.noPadding state).es = t.es ∧ Slim (t.noPadding state).delim ∧
    ((t.noPadding [true]).string = (t.es.map fun e => e.1.stringPad e.2).flatten) ∧
    (t.noPadding []).string = t.string := by
  have hj : ∀ l : List Str, Str.join [] l = l.flatten := by
    intro l
    induction l with
    | nil => rfl
    | cons a l ih =>
      cases l with
      | nil => simp [Str.join]
      | cons b l => rw [Str.join, ih]; simp
  refine ⟨rfl, ?_, ?_, ?_⟩
  · unfold LTRs.noPadding Slim
    simp only
    split <;> split <;> simp
  · unfold LTRs.noPadding LTRs.string
    exact hj _
  · obtain ⟨d, es⟩ := t
    rcases hd with h | h <;> (simp only at h; subst h; rfl)

example : UnmarkedT (scopeEq SearchScope.BaseObject) ∧
    (scopeEq SearchScope.BaseObject).stringPad true = b!"( targetscope = \"base\" )" ∧
    (scopeEq SearchScope.BaseObject).stringPad false = b!"(targetscope=\"base\")" := by
  have h : (scopeEq SearchScope.BaseObject).ex.texts = [b!"base"] := by decide +kernel
  refine ⟨⟨by decide +kernel, ?_⟩, by decide +kernel, by decide +kernel⟩
  rw [h]
  intro v hv
  rw [List.mem_singleton.1 hv]
  decide

end Verif.Layout
