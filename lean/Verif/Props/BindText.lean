import Verif.Spec.BindText
import Verif.Props.Builders

/-!
# C75: the text of bind rules shows their meaning
-/

namespace Verif.Bind
open Verif Verif.Spec Verif.Rules Verif.Builders

/-! ## What is displayed -/

/-- A displayed expression. -/
inductive Disp where
  | atom (s : Str)
  | par (e : Disp)
  | neg (e : Disp)
  | bin (conj : Bool) (a b : Disp)

def Disp.wordText (conj : Bool) : Str := if conj then b!" AND " else b!" OR "

def Disp.text : Disp → Str
  | .atom s => s
  | .par e => b!"( " ++ e.text ++ b!" )"
  | .neg e => b!"NOT " ++ e.text
  | .bin c a b => a.text ++ Disp.wordText c ++ b.text

/-- Not a conjunction or disjunction. -/
def Disp.unit : Disp → Prop
  | .bin _ _ _ => False
  | _ => True

def Disp.WF (A : Str → Prop) : Disp → Prop
  | .atom s => A s
  | .par e => e.WF A
  | .neg e => e.WF A ∧ e.unit
  | .bin _ a b => a.WF A ∧ a.unit ∧ b.WF A

/-- What may come after a part of a text. -/
def Follow (x : Str) : Prop :=
  x = [] ∨ (∃ t, x = b!" )" ++ t) ∨ (∃ c t, x = Disp.wordText c ++ t) ∨ ∃ t, x = b!";" ++ t

/-- Texts of rules that can be told from what follows them. -/
structure Code (A : Str → Prop) : Prop where
  ends : ∀ s s' x y, A s → A s' → Follow x → Follow y → s ++ x = s' ++ y → s = s'
  par : ∀ s x t, A s → s ++ x ≠ b!"( " ++ t
  neg : ∀ s x t, A s → s ++ x ≠ b!"NOT " ++ t

theorem follow_par (x : Str) : Follow (b!" )" ++ x) := Or.inr (Or.inl ⟨x, rfl⟩)

theorem follow_word (c : Bool) (x : Str) : Follow (Disp.wordText c ++ x) := Or.inr (Or.inr (Or.inl ⟨c, x, rfl⟩))

theorem follow_semi (x : Str) : Follow (b!";" ++ x) := Or.inr (Or.inr (Or.inr ⟨x, rfl⟩))

/-- No word comes next. -/
def Stops (x : Str) : Prop := ∀ c t, x ≠ Disp.wordText c ++ t

theorem stops_par (x : Str) : Stops (b!" )" ++ x) := by
  intro c t h
  cases c <;> simp [Disp.wordText] at h

theorem stops_semi (x : Str) : Stops (b!";" ++ x) := by
  intro c t h
  cases c <;> simp [Disp.wordText] at h

theorem stops_nil : Stops [] := by
  intro c t h
  cases c <;> simp [Disp.wordText] at h

theorem word_inj {c c' : Bool} {x y : Str} (h : Disp.wordText c ++ x = Disp.wordText c' ++ y) :
    c = c' ∧ x = y := by
  cases c <;> cases c' <;> simp_all [Disp.wordText]

/-- A displayed expression can be read in one way only. -/
theorem disp_unique (A : Str → Prop) (hA : Code A) : ∀ (e e' : Disp) (x y : Str), e.WF A → e'.WF A →
    Follow x → Follow y → (e.unit ∧ e'.unit) ∨ (Stops x ∧ Stops y) →
    e.text ++ x = e'.text ++ y → e = e' ∧ x = y := by
  intro e
  induction e with
  | atom s =>
    have unit : ∀ (e' : Disp) (x y : Str), A s → e'.WF A → Follow x → Follow y → e'.unit →
        s ++ x = e'.text ++ y → Disp.atom s = e' ∧ x = y := by
      intro e' x y hs hw hx hy hu h
      cases e' with
      | atom s' =>
        have := hA.ends s s' x y hs hw hx hy h
        subst this
        exact ⟨rfl, List.append_cancel_left h⟩
      | par e => exact absurd (by simpa [Disp.text] using h) (hA.par s x (e.text ++ b!" )" ++ y) hs)
      | neg e => exact absurd (by simpa [Disp.text] using h) (hA.neg s x (e.text ++ y) hs)
      | bin c a b => exact hu.elim
    intro e' x y hw hw' hx hy hc h
    cases e' with
    | bin c a b =>
      obtain ⟨hx', -⟩ := hc.resolve_left (fun hh => hh.2)
      obtain ⟨-, hh⟩ := unit a x (Disp.wordText c ++ (b.text ++ y)) hw hw'.1 hx (follow_word _ _) hw'.2.1
        (by simpa [Disp.text] using h)
      exact absurd hh (hx' c _)
    | _ => exact unit _ x y hw hw' hx hy trivial h
  | par e ih =>
    have unit : ∀ (e' : Disp) (x y : Str), e.WF A → e'.WF A → Follow x → Follow y → e'.unit →
        (Disp.par e).text ++ x = e'.text ++ y → Disp.par e = e' ∧ x = y := by
      intro e' x y hs hw hx hy hu h
      cases e' with
      | atom s' => exact absurd (by simpa [Disp.text] using h.symm) (hA.par s' y (e.text ++ b!" )" ++ x) hw)
      | par e' =>
        simp only [Disp.text, List.append_assoc] at h
        obtain ⟨rfl, h2⟩ := ih e' _ _ hs hw (follow_par _) (follow_par _)
          (Or.inr ⟨stops_par _, stops_par _⟩) (List.append_cancel_left h)
        exact ⟨rfl, List.append_cancel_left h2⟩
      | neg e' => simp [Disp.text] at h
      | bin c a b => exact hu.elim
    intro e' x y hw hw' hx hy hc h
    cases e' with
    | bin c a b =>
      obtain ⟨hx', -⟩ := hc.resolve_left (fun hh => hh.2)
      obtain ⟨-, hh⟩ := unit a x (Disp.wordText c ++ (b.text ++ y)) hw hw'.1 hx (follow_word _ _) hw'.2.1
        (by simpa [Disp.text] using h)
      exact absurd hh (hx' c _)
    | _ => exact unit _ x y hw hw' hx hy trivial h
  | neg e ih =>
    have unit : ∀ (e' : Disp) (x y : Str), (Disp.neg e).WF A → e'.WF A → Follow x → Follow y → e'.unit →
        (Disp.neg e).text ++ x = e'.text ++ y → Disp.neg e = e' ∧ x = y := by
      intro e' x y hs hw hx hy hu h
      cases e' with
      | atom s' => exact absurd (by simpa [Disp.text] using h.symm) (hA.neg s' y (e.text ++ x) hw)
      | neg e' =>
        simp only [Disp.text, List.append_assoc] at h
        obtain ⟨rfl, h2⟩ := ih e' _ _ hs.1 hw.1 hx hy (Or.inl ⟨hs.2, hw.2⟩) (List.append_cancel_left h)
        exact ⟨rfl, h2⟩
      | par e' => simp [Disp.text] at h
      | bin c a b => exact hu.elim
    intro e' x y hw hw' hx hy hc h
    cases e' with
    | bin c a b =>
      obtain ⟨hx', -⟩ := hc.resolve_left (fun hh => hh.2)
      obtain ⟨-, hh⟩ := unit a x (Disp.wordText c ++ (b.text ++ y)) hw hw'.1 hx (follow_word _ _) hw'.2.1
        (by simpa [Disp.text] using h)
      exact absurd hh (hx' c _)
    | _ => exact unit _ x y hw hw' hx hy trivial h
  | bin c a b iha ihb =>
    intro e' x y hw hw' hx hy hc h
    have hc' : Stops x ∧ Stops y := hc.resolve_left (fun hh => hh.1)
    have first : ∀ e' z, e'.WF A → e'.unit → Follow z →
        (Disp.bin c a b).text ++ x = e'.text ++ z → a = e' ∧ Disp.wordText c ++ (b.text ++ x) = z := by
      intro e' z hw' hu hz h
      exact iha e' _ z hw.1 hw' (follow_word _ _) hz (Or.inl ⟨hw.2.1, hu⟩) (by simpa [Disp.text] using h)
    cases e' with
    | bin c' a' b' =>
      obtain ⟨rfl, h2⟩ := first a' (Disp.wordText c' ++ (b'.text ++ y)) hw'.1 hw'.2.1 (follow_word _ _)
        (by simpa [Disp.text] using h)
      obtain ⟨rfl, h3⟩ := word_inj h2
      obtain ⟨rfl, rfl⟩ := ihb b' x y hw.2.2 hw'.2.2 hx hy (Or.inr hc') h3
      exact ⟨rfl, rfl⟩
    | _ =>
      obtain ⟨-, h2⟩ := first _ y hw' trivial hy h
      exact absurd h2.symm (hc'.2 c _)

/-! ## The texts of rules -/

/-- Quoted values with bars between them. -/
def quotedJoin (ws : List Str) : Str := Str.join b!" || " (ws.map fun w => b!"\"" ++ w ++ b!"\"")

theorem quotedJoin_cons (w w' : Str) (ws : List Str) :
    quotedJoin (w :: w' :: ws) = b!"\"" ++ w ++ b!"\" || " ++ quotedJoin (w' :: ws) := by
  simp [quotedJoin, Str.join]

theorem until_mark {m : Byte} : ∀ {x y s t : Str}, m ∉ x → m ∉ y → x ++ m :: s = y ++ m :: t → x = y ∧ s = t
  | [], [], _, _, _, _, h => ⟨rfl, by simpa using h⟩
  | [], b :: y, _, _, _, hy, h => by
    simp only [List.nil_append, List.cons_append, List.cons.injEq] at h
    exact absurd (List.mem_cons.2 (Or.inl h.1)) hy
  | a :: x, [], _, _, hx, _, h => by
    simp only [List.nil_append, List.cons_append, List.cons.injEq] at h
    exact absurd (List.mem_cons.2 (Or.inl h.1.symm)) hx
  | a :: x, b :: y, _, _, hx, hy, h => by
    simp only [List.cons_append, List.cons.injEq] at h
    obtain ⟨h1, h2⟩ := until_mark (fun hh => hx (List.mem_cons_of_mem _ hh))
      (fun hh => hy (List.mem_cons_of_mem _ hh)) h.2
    exact ⟨by rw [h.1, h1], h2⟩

theorem follow_bar {x t : Str} (h : Follow x) : x ≠ b!" || " ++ t := by
  rintro rfl
  rcases h with h | ⟨t, h⟩ | ⟨c, t, h⟩ | ⟨t, h⟩
  · cases h
  · simp at h
  · cases c <;> simp [Disp.wordText] at h
  · simp at h

theorem quotedJoin_ends : ∀ (ws ws' : List Str) (x y : Str), ws ≠ [] → ws' ≠ [] →
    (∀ w ∈ ws, (34 : Byte) ∉ w) → (∀ w ∈ ws', (34 : Byte) ∉ w) → Follow x → Follow y →
    quotedJoin ws ++ x = quotedJoin ws' ++ y → ws = ws'
  | [], _, _, _, h, _, _, _, _, _, _ => absurd rfl h
  | _, [], _, _, _, h, _, _, _, _, _ => absurd rfl h
  | [w], [w'], x, y, _, _, hw, hw', _, _, h => by
    simp only [quotedJoin, List.map, Str.join, List.append_assoc, List.cons_append, List.nil_append,
      List.cons.injEq, true_and] at h
    obtain ⟨rfl, -⟩ := until_mark (hw w (by simp)) (hw' w' (by simp)) h
    rfl
  | [w], w' :: v' :: ws', x, y, _, _, hw, hw', hx, _, h => by
    rw [quotedJoin_cons] at h
    simp only [quotedJoin, List.map, Str.join, List.append_assoc, List.cons_append, List.nil_append,
      List.cons.injEq, true_and] at h
    obtain ⟨-, h2⟩ := until_mark (hw w (by simp)) (hw' w' (by simp)) h
    exact absurd h2 (follow_bar hx)
  | w :: v :: ws, [w'], x, y, _, _, hw, hw', _, hy, h => by
    rw [quotedJoin_cons] at h
    simp only [quotedJoin, List.map, Str.join, List.append_assoc, List.cons_append, List.nil_append,
      List.cons.injEq, true_and] at h
    obtain ⟨-, h2⟩ := until_mark (hw w (by simp)) (hw' w' (by simp)) h
    exact absurd h2.symm (follow_bar hy)
  | w :: v :: ws, w' :: v' :: ws', x, y, _, _, hw, hw', hx, hy, h => by
    rw [quotedJoin_cons, quotedJoin_cons] at h
    simp only [List.append_assoc, List.cons_append, List.nil_append, List.cons.injEq, true_and] at h
    obtain ⟨rfl, h2⟩ := until_mark (hw w (by simp)) (hw' w' (by simp)) h
    simp only [List.cons.injEq, true_and] at h2
    rw [quotedJoin_ends (v :: ws) (v' :: ws') x y (by simp) (by simp)
      (fun u hu => hw u (List.mem_cons_of_mem _ hu)) (fun u hu => hw' u (List.mem_cons_of_mem _ hu))
      hx hy h2]

/-- The text of a rule with its values shown. -/
def ruleCode (s : Str) : Prop :=
  ∃ (k : BKw) (q : Rel) (ws : List Str), ws ≠ [] ∧ (∀ w ∈ ws, (34 : Byte) ∉ w) ∧
    s = k.name ++ b!" " ++ Cop.string (relConst q) ++ b!" " ++ quotedJoin ws

theorem ruleCode_code : Code ruleCode where
  ends := by
    rintro s s' x y ⟨k, q, ws, hne, hq, rfl⟩ ⟨k', q', ws', hne', hq', rfl⟩ hx hy h
    simp only [List.append_assoc, List.cons_append, List.nil_append] at h
    have hk : ∀ k : BKw, (32 : Byte) ∉ k.name := by intro k; cases k <;> decide
    have ho : ∀ q : Rel, (32 : Byte) ∉ Cop.string (relConst q) := by intro q; cases q <;> decide
    obtain ⟨e1, h⟩ := until_mark (hk k) (hk k') h
    obtain ⟨e2, h⟩ := until_mark (ho q) (ho q') h
    rw [e1, e2, quotedJoin_ends ws ws' x y hne hne' hq hq' hx hy h]
  par := by
    rintro s x t ⟨k, q, ws, -, -, rfl⟩ h
    cases k <;> simp [BKw.name] at h
  neg := by
    rintro s x t ⟨k, q, ws, -, -, rfl⟩ h
    cases k <;> simp [BKw.name] at h

theorem join_noquote {sep : Str} (hs : (34 : Byte) ∉ sep) : ∀ ws : List Str, (∀ w ∈ ws, (34 : Byte) ∉ w) →
    (34 : Byte) ∉ Str.join sep ws
  | [], _ => by simp [Str.join]
  | [w], h => by simpa [Str.join] using h w (by simp)
  | w :: w' :: ws, h => by
    simp only [Str.join, List.mem_append, not_or]
    exact ⟨⟨h w (by simp), hs⟩, join_noquote hs (w' :: ws) fun u hu => h u (List.mem_cons_of_mem _ hu)⟩

theorem cop_text_inj {a b : Cop} (ha : Cop.valid a = true) (hb : Cop.valid b = true)
    (h : Cop.string a = Cop.string b) : a = b := by
  obtain ⟨q, rfl⟩ := (valid_cop_iff _).1 ha
  obtain ⟨q', rfl⟩ := (valid_cop_iff _).1 hb
  revert h
  cases q <;> cases q' <;> decide

theorem cop_word {a : Cop} (ha : Cop.valid a = true) : (32 : Byte) ∉ Cop.string a := by
  obtain ⟨q, rfl⟩ := (valid_cop_iff _).1 ha
  cases q <;> decide

/-- The texts between quotation marks, of values `vs`. -/
theorem quoted_eq {vs : List Str} (slice : Bool) (hne : vs ≠ []) (hq : ∀ v ∈ vs, (34 : Byte) ∉ v) :
    quoteIf (!slice) (Str.join b!" || " (vs.map (quoteIf slice))) =
        quotedJoin (if slice then vs else [Str.join b!" || " vs]) ∧
      (if slice then vs else [Str.join b!" || " vs]) ≠ [] ∧
      ∀ w ∈ (if slice then vs else [Str.join b!" || " vs]), (34 : Byte) ∉ w := by
  cases slice
  · refine ⟨?_, by simp, ?_⟩
    · have : quoteIf false = id := rfl
      simp [quoteIf, this, quotedJoin, Str.join]
    · intro w hw
      simp only [Bool.false_eq_true, if_false, List.mem_singleton] at hw
      rw [hw]
      exact join_noquote (by decide) _ hq
  · exact ⟨rfl, hne, hq⟩

theorem bare_eq (val : BExpr → List Str) (r : BRule) (h : Shown val r) :
    r.bare val = r.core.kw ++ b!" " ++ Cop.string r.core.op ++ b!" " ++ quotedJoin (r.asks val).2.2 := by
  obtain ⟨-, -, hne, hq, ho⟩ := h
  unfold BRule.bare BRule.asks
  rw [ho, (quoted_eq r.slice hne hq).1]

theorem shown_code (val : BExpr → List Str) (r : BRule) (h : Shown val r) : ruleCode (r.bare val) := by
  rw [bare_eq val r h]
  obtain ⟨⟨k, hk⟩, hv, hne, hq, ho⟩ := h
  obtain ⟨q, hq'⟩ := (valid_cop_iff _).1 hv
  obtain ⟨-, h2, h3⟩ := quoted_eq r.slice hne hq
  rw [hk, ← hq']
  exact ⟨k, q, _, h2, h3, rfl⟩

/-- The text of a rule shows what it asks. -/
theorem bare_asks (val : BExpr → List Str) (r r' : BRule) (h : Shown val r) (h' : Shown val r')
    (e : r.bare val = r'.bare val) : r.asks val = r'.asks val := by
  rw [bare_eq val r h, bare_eq val r' h'] at e
  obtain ⟨⟨k, hk⟩, hv, hne, hq, -⟩ := h
  obtain ⟨⟨k', hk'⟩, hv', hne', hq', -⟩ := h'
  obtain ⟨-, h2, h3⟩ := quoted_eq r.slice hne hq
  obtain ⟨-, h2', h3'⟩ := quoted_eq r'.slice hne' hq'
  have hw : ∀ k : BKw, (32 : Byte) ∉ k.name := by intro k; cases k <;> decide
  simp only [List.append_assoc, List.cons_append, List.nil_append] at e
  obtain ⟨e1, e⟩ := until_mark (hk ▸ hw k) (hk' ▸ hw k') e
  obtain ⟨e2, e⟩ := until_mark (cop_word hv) (cop_word hv') e
  have e3 := quotedJoin_ends _ _ [] [] h2 h2' h3 h3' (Or.inl rfl) (Or.inl rfl) (by simpa [BRule.asks] using e)
  simp only [BRule.asks, e1, cop_text_inj hv hv' e2, e3]

/-- What is asked by the rule with the text. -/
theorem asks_by_text (val : BExpr → List Str) (v : Str × Cop × List Str → Bool) :
    ∃ v' : Str → Bool, ∀ r, Shown val r → v (r.asks val) = v' (r.bare val) := by
  classical
  refine ⟨fun s => if h : ∃ r, Shown val r ∧ r.bare val = s then v (h.choose.asks val) else false, ?_⟩
  intro r hr
  have h : ∃ r', Shown val r' ∧ r'.bare val = r.bare val := ⟨r, hr, rfl⟩
  simp only [h, dif_pos]
  rw [bare_asks val r _ hr h.choose_spec.1 h.choose_spec.2.symm]

/-! ## From contexts to what is displayed -/

def Disp.parIf (p : Bool) (e : Disp) : Disp := if p then .par e else e

/-- One chain after the other. -/
def Disp.cat (c : Bool) : Disp → Disp → Disp
  | .bin c' a b, d => .bin c' a (Disp.cat c b d)
  | e, d => .bin c e d

def Disp.ofList (conj : Bool) : List Disp → Disp
  | [] => .atom []
  | [a] => a
  | a :: b :: t => Disp.cat conj a (Disp.ofList conj (b :: t))

theorem cat_text (c : Bool) : ∀ a b : Disp, (Disp.cat c a b).text = a.text ++ Disp.wordText c ++ b.text
  | .bin c' a b, d => by simp [Disp.cat, Disp.text, cat_text c b d]
  | .atom _, _ => rfl
  | .par _, _ => rfl
  | .neg _, _ => rfl

def Word.conj : Word → Bool
  | .or => false
  | _ => true

mutual

def BCtx.disp (val : BExpr → List Str) : BCtx → Disp
  | .rule r => Disp.parIf r.paren (.atom (r.bare val))
  | .zero => .atom []
  | .rules .not p es => .neg (Disp.parIf p (Disp.ofList true (BCtx.disps val es)))
  | .rules .and p es => Disp.parIf p (Disp.ofList true (BCtx.disps val es))
  | .rules .or p es => Disp.parIf p (Disp.ofList false (BCtx.disps val es))

def BCtx.disps (val : BExpr → List Str) : List BCtx → List Disp
  | [] => []
  | e :: es => BCtx.disp val e :: BCtx.disps val es

end

theorem parIf_text (p : Bool) (e : Disp) : (Disp.parIf p e).text = wrapIf p e.text := by
  cases p <;> simp [Disp.parIf, wrapIf, Disp.text]

theorem ofList_text (c : Bool) : ∀ ds : List Disp, ds ≠ [] →
    (Disp.ofList c ds).text = Str.join (Disp.wordText c) (ds.map Disp.text)
  | [], h => absurd rfl h
  | [a], _ => by simp [Disp.ofList, Str.join]
  | a :: b :: t, _ => by
    have := ofList_text c (b :: t) (by simp)
    simp only [List.map_cons] at this
    simp [Disp.ofList, Str.join, cat_text, this]

theorem disps_length (val : BExpr → List Str) : ∀ es : List BCtx, (BCtx.disps val es).length = es.length
  | [] => by simp [BCtx.disps]
  | e :: es => by simp [BCtx.disps, disps_length val es]

theorem wrapIf_ne (p : Bool) {s : Str} (h : s ≠ []) : wrapIf p s ≠ [] := by
  cases p
  · exact h
  · simp [wrapIf]

theorem join_ne {sep : Str} : ∀ {ws : List Str}, ws ≠ [] → (∀ w ∈ ws, w ≠ []) → Str.join sep ws ≠ []
  | [], h, _ => absurd rfl h
  | [w], _, h => h w (by simp)
  | w :: w' :: ws, _, h => by
    have := h w (by simp)
    simp [Str.join, this]

mutual

theorem text_disp (val : BExpr → List Str) (many : Bool → List Str → Str) : ∀ c : BCtx, c.Sound →
    c.text val many = (c.disp val).text ∧ c.text val many ≠ []
  | .rule r, h => by
    have hz : r.isZero = false := by
      cases hz : r.isZero with
      | false => rfl
      | true =>
        have h : r.valid = true := h
        simp [BRule.valid, hz] at h
    have he : BCtx.text val many (.rule r) = wrapIf r.paren (r.bare val) := by
      simp [BCtx.text, BRule.text, hz]
    rw [he]
    exact ⟨by simp [BCtx.disp, parIf_text, Disp.text], wrapIf_ne _ (by simp [BRule.bare])⟩
  | .zero, h => h.elim
  | .rules w p es, h => by
    obtain ⟨hne, h1, hall⟩ := h
    obtain ⟨ht, hn⟩ := texts_disp val many es hall
    have hd : BCtx.disps val es ≠ [] := by
      intro hh
      have := disps_length val es
      rw [hh] at this
      exact hne (List.eq_nil_of_length_eq_zero this.symm)
    have hts : BCtx.texts val many es ≠ [] := by
      rw [ht]; simpa using hd
    have hj : ∀ c, Str.join (Disp.wordText c) (BCtx.texts val many es)
        = (Disp.ofList c (BCtx.disps val es)).text := by
      intro c; rw [ofList_text c _ hd, ht]
    have he : BCtx.text val many (.rules w p es) = stackText many w p (BCtx.texts val many es) := by
      simp [BCtx.text]
    rw [he]
    obtain ⟨t, ts, hcons⟩ := List.exists_cons_of_ne_nil hts
    cases w with
    | and =>
      have : stackText many .and p (BCtx.texts val many es)
          = wrapIf p (Str.join b!" AND " (BCtx.texts val many es)) := by rw [hcons]; rfl
      rw [this]
      exact ⟨by simp only [BCtx.disp, parIf_text, ← hj]; rfl, wrapIf_ne _ (join_ne hts hn)⟩
    | or =>
      have : stackText many .or p (BCtx.texts val many es)
          = wrapIf p (Str.join b!" OR " (BCtx.texts val many es)) := by rw [hcons]; rfl
      rw [this]
      exact ⟨by simp only [BCtx.disp, parIf_text, ← hj]; rfl, wrapIf_ne _ (join_ne hts hn)⟩
    | not =>
      have hl : ts = [] := by
        have h2 : (BCtx.texts val many es).length = 1 := by
          rw [ht, List.length_map, disps_length, h1 rfl]
        rw [hcons] at h2
        simpa using h2
      subst hl
      have : stackText many .not p (BCtx.texts val many es)
          = b!"NOT " ++ wrapIf p (Str.join (Disp.wordText true) (BCtx.texts val many es)) := by rw [hcons]; rfl
      rw [this]
      exact ⟨by simp only [BCtx.disp, Disp.text, parIf_text, ← hj], by simp⟩

theorem texts_disp (val : BExpr → List Str) (many : Bool → List Str → Str) : ∀ es : List BCtx,
    BCtx.AllSound es → BCtx.texts val many es = (BCtx.disps val es).map Disp.text ∧
      ∀ t ∈ BCtx.texts val many es, t ≠ []
  | [], _ => by simp [BCtx.texts, BCtx.disps]
  | e :: es, h => by
    obtain ⟨h1, h2⟩ := text_disp val many e h.1
    obtain ⟨h3, h4⟩ := texts_disp val many es h.2
    simp only [BCtx.texts, h2, if_false, BCtx.disps, List.map_cons, List.mem_cons]
    refine ⟨by rw [h1, h3], ?_⟩
    rintro t (rfl | ht)
    · exact h2
    · exact h4 t ht

end

/-- The truth values of the first conjunction and of the rest of what is displayed. -/
def Disp.parts (neg : List Bool → Bool) (v : Str → Bool) : Disp → Bool × Bool
  | .atom s => (v s, false)
  | .par e => ((e.parts neg v).1 || (e.parts neg v).2, false)
  | .neg e => (neg [(e.parts neg v).1 || (e.parts neg v).2], false)
  | .bin c a b =>
    if c then (((a.parts neg v).1 || (a.parts neg v).2) && (b.parts neg v).1, (b.parts neg v).2)
    else ((a.parts neg v).1 || (a.parts neg v).2, (b.parts neg v).1 || (b.parts neg v).2)

/-- The truth value of what is displayed, where AND binds more tightly than OR. -/
def Disp.eval (neg : List Bool → Bool) (v : Str → Bool) (e : Disp) : Bool :=
  (e.parts neg v).1 || (e.parts neg v).2

/-- No OR outside of parentheses. -/
def Disp.conjs : Disp → Prop
  | .bin c _ b => c = true ∧ b.conjs
  | _ => True

theorem unit_conjs {e : Disp} (h : e.unit) : e.conjs := by
  cases e <;> first | trivial | exact h.elim

theorem conjs_rest (neg : List Bool → Bool) (v : Str → Bool) : ∀ e : Disp, e.conjs → (e.parts neg v).2 = false
  | .bin c a b, h => by
    obtain ⟨rfl, h⟩ := h
    exact conjs_rest neg v b h
  | .atom _, _ => rfl
  | .par _, _ => rfl
  | .neg _, _ => rfl

theorem cat_conjs : ∀ a b : Disp, a.conjs → b.conjs → (Disp.cat true a b).conjs
  | .bin _ _ b, d, h, hd => ⟨h.1, cat_conjs b d h.2 hd⟩
  | .atom _, _, _, hd => ⟨rfl, hd⟩
  | .par _, _, _, hd => ⟨rfl, hd⟩
  | .neg _, _, _, hd => ⟨rfl, hd⟩

theorem cat_or (neg : List Bool → Bool) (v : Str → Bool) : ∀ a b : Disp,
    (Disp.cat false a b).parts neg v = ((a.parts neg v).1, (a.parts neg v).2 || b.eval neg v)
  | .bin c a b, d => by
    have := cat_or neg v b d
    cases c <;> simp [Disp.cat, Disp.parts, this, Bool.or_assoc]
  | .atom _, _ => by simp [Disp.cat, Disp.parts, Disp.eval]
  | .par _, _ => by simp [Disp.cat, Disp.parts, Disp.eval]
  | .neg _, _ => by simp [Disp.cat, Disp.parts, Disp.eval]

theorem cat_and (neg : List Bool → Bool) (v : Str → Bool) : ∀ a b : Disp, a.conjs →
    ((Disp.cat true a b).parts neg v).1 = ((a.parts neg v).1 && (b.parts neg v).1)
  | .bin c a b, d, h => by
    have := cat_and neg v b d h.2
    obtain ⟨rfl, -⟩ := h
    simp [Disp.cat, Disp.parts, this, Bool.and_assoc]
  | .atom _, _, _ => by simp [Disp.cat, Disp.parts]
  | .par _, _, _ => by simp [Disp.cat, Disp.parts]
  | .neg _, _, _ => by simp [Disp.cat, Disp.parts]

theorem parIf_eval (neg : List Bool → Bool) (v : Str → Bool) (p : Bool) (e : Disp) :
    (Disp.parIf p e).eval neg v = e.eval neg v := by
  cases p <;> simp [Disp.parIf, Disp.eval, Disp.parts]

theorem conjs_eval (neg : List Bool → Bool) (v : Str → Bool) {e : Disp} (h : e.conjs) :
    e.eval neg v = (e.parts neg v).1 := by
  simp [Disp.eval, conjs_rest neg v e h]

theorem ofList_or (neg : List Bool → Bool) (v : Str → Bool) : ∀ ds : List Disp, ds ≠ [] →
    (Disp.ofList false ds).eval neg v = (ds.map (Disp.eval neg v)).any id
  | [], h => absurd rfl h
  | [a], _ => by simp [Disp.ofList]
  | a :: b :: t, _ => by
    have := ofList_or neg v (b :: t) (by simp)
    rw [Disp.ofList, List.map_cons, List.any_cons, ← this]
    rw [Disp.eval, cat_or]
    simp [Disp.eval, Bool.or_assoc]

theorem ofList_conjs : ∀ ds : List Disp, (∀ d ∈ ds, d.conjs) → (Disp.ofList true ds).conjs
  | [], _ => trivial
  | [a], h => h a (by simp)
  | a :: b :: t, h =>
    cat_conjs _ _ (h a (by simp)) (ofList_conjs (b :: t) fun d hd => h d (List.mem_cons_of_mem _ hd))

theorem ofList_and (neg : List Bool → Bool) (v : Str → Bool) : ∀ ds : List Disp, ds ≠ [] →
    (2 ≤ ds.length → ∀ d ∈ ds, d.conjs) →
    (Disp.ofList true ds).eval neg v = (ds.map (Disp.eval neg v)).all id
  | [], h, _ => absurd rfl h
  | [a], _, _ => by simp [Disp.ofList]
  | a :: b :: t, _, h => by
    have h := h (by simp)
    have ht : ∀ d ∈ b :: t, d.conjs := fun d hd => h d (List.mem_cons_of_mem _ hd)
    have := ofList_and neg v (b :: t) (by simp) fun _ => ht
    rw [List.map_cons, List.all_cons, ← this, conjs_eval neg v (ofList_conjs _ h), Disp.ofList,
      cat_and neg v _ _ (h a (by simp)), conjs_eval neg v (ofList_conjs _ ht)]
    rw [id, conjs_eval neg v (h a (by simp))]

theorem disps_ne {val : BExpr → List Str} {es : List BCtx} (h : es ≠ []) : BCtx.disps val es ≠ [] := by
  intro hh
  have := disps_length val es
  rw [hh] at this
  exact h (List.eq_nil_of_length_eq_zero this.symm)

theorem parIf_unit {p : Bool} {e : Disp} (h : p = true ∨ e.unit) : (Disp.parIf p e).unit := by
  cases p
  · exact h.resolve_left (by decide)
  · trivial

mutual

/-- How loosely what is displayed is held together. -/
theorem disp_loose (val : BExpr → List Str) : ∀ c : BCtx, c.Clear →
    (c.loose = 0 → (c.disp val).unit) ∧ (c.loose ≤ 1 → (c.disp val).conjs)
  | .rule r, _ => by
    have : (BCtx.disp val (.rule r)).unit := by simp only [BCtx.disp]; cases r.paren <;> trivial
    exact ⟨fun _ => this, fun _ => unit_conjs this⟩
  | .zero, _ => ⟨fun _ => trivial, fun _ => trivial⟩
  | .rules .not p es, _ => ⟨fun _ => trivial, fun _ => trivial⟩
  | .rules .and true es, _ => ⟨fun _ => trivial, fun _ => trivial⟩
  | .rules .or true es, _ => ⟨fun _ => trivial, fun _ => trivial⟩
  | .rules .and false [], _ => ⟨fun _ => trivial, fun _ => trivial⟩
  | .rules .or false [], _ => ⟨fun _ => trivial, fun _ => trivial⟩
  | .rules .and false [e], h => by
    have := disp_loose val e (by simp only [BCtx.Clear, BCtx.AllClear] at h; exact h.2.1)
    simpa only [BCtx.loose, BCtx.disp, BCtx.disps, Disp.ofList, Disp.parIf, Bool.false_eq_true, if_false] using this
  | .rules .or false [e], h => by
    have := disp_loose val e (by simp only [BCtx.Clear, BCtx.AllClear] at h; exact h.1)
    simpa only [BCtx.loose, BCtx.disp, BCtx.disps, Disp.ofList, Disp.parIf, Bool.false_eq_true, if_false] using this
  | .rules .and false (e :: e' :: es), h => by
    refine ⟨fun h0 => by simp [BCtx.loose] at h0, fun _ => ?_⟩
    simp only [BCtx.Clear] at h
    simp only [BCtx.disp, Disp.parIf]
    exact ofList_conjs _ (disps_loose val _ h.2 (h.1 (by simp)))
  | .rules .or false (e :: e' :: es), h =>
    ⟨fun h0 => by simp [BCtx.loose] at h0, fun h0 => by simp [BCtx.loose] at h0⟩

theorem disps_loose (val : BExpr → List Str) : ∀ es : List BCtx, BCtx.AllClear es → (∀ e ∈ es, e.loose ≤ 1) →
    ∀ d ∈ BCtx.disps val es, d.conjs
  | [], _, _ => by simp [BCtx.disps]
  | e :: es, h, hl => by
    simp only [BCtx.disps, List.mem_cons]
    rintro d (rfl | hd)
    · exact (disp_loose val e h.1).2 (hl e (by simp))
    · exact disps_loose val es h.2 (fun e he => hl e (List.mem_cons_of_mem _ he)) d hd

end

mutual

theorem eval_disp (val : BExpr → List Str) (neg : List Bool → Bool) (v : Str → Bool) : ∀ c : BCtx, c.Sound →
    c.Clear → c.eval neg (fun r => v (r.bare val)) = (c.disp val).eval neg v
  | .rule r, h, _ => by
    rw [BCtx.disp, parIf_eval]
    simp [BCtx.eval, Disp.eval, Disp.parts]
  | .zero, h, _ => h.elim
  | .rules w p es, h, hc => by
    obtain ⟨hne, h1, hall⟩ := h
    have hd : BCtx.disps val es ≠ [] := disps_ne hne
    cases w with
    | and =>
      simp only [BCtx.Clear] at hc
      have ht := evals_disp val neg v es hall hc.2
      simp only [BCtx.eval, BCtx.disp, parIf_eval, ht, Word.eval]
      rw [ofList_and neg v _ hd]
      rw [disps_length]
      exact fun hl => disps_loose val es hc.2 (hc.1 hl)
    | or =>
      simp only [BCtx.Clear] at hc
      have ht := evals_disp val neg v es hall hc
      simp only [BCtx.eval, BCtx.disp, parIf_eval, ht, Word.eval]
      rw [ofList_or neg v _ hd]
    | not =>
      simp only [BCtx.Clear] at hc
      have ht := evals_disp val neg v es hall hc.2
      have hl := disps_length val es
      rw [h1 rfl] at hl
      obtain ⟨d, hd'⟩ := List.length_eq_one_iff.1 hl
      simp only [BCtx.eval, BCtx.disp, ht, Word.eval, hd', List.map_cons, List.map_nil, Disp.ofList]
      have := parIf_eval neg v p d
      simp only [Disp.eval] at this ⊢
      simp [Disp.parts, this]

theorem evals_disp (val : BExpr → List Str) (neg : List Bool → Bool) (v : Str → Bool) : ∀ es : List BCtx,
    BCtx.AllSound es → BCtx.AllClear es →
    BCtx.evals neg (fun r => v (r.bare val)) es = (BCtx.disps val es).map (Disp.eval neg v)
  | [], _, _ => by simp [BCtx.evals, BCtx.disps]
  | e :: es, h, hc => by
    simp [BCtx.evals, BCtx.disps, eval_disp val neg v e h.1 hc.1, evals_disp val neg v es h.2 hc.2]

end

theorem cat_wf (A : Str → Prop) (c : Bool) : ∀ a b : Disp, a.WF A → b.WF A → (Disp.cat c a b).WF A
  | .bin _ _ b, d, h, hd => ⟨h.1, h.2.1, cat_wf A c b d h.2.2 hd⟩
  | .atom _, _, h, hd => ⟨h, trivial, hd⟩
  | .par _, _, h, hd => ⟨h, trivial, hd⟩
  | .neg _, _, h, hd => ⟨h, trivial, hd⟩

theorem ofList_wf (A : Str → Prop) (c : Bool) : ∀ ds : List Disp, ds ≠ [] → (∀ d ∈ ds, d.WF A) →
    (Disp.ofList c ds).WF A
  | [], h, _ => absurd rfl h
  | [a], _, h => h a (by simp)
  | a :: b :: t, _, h =>
    cat_wf A c _ _ (h a (by simp)) (ofList_wf A c (b :: t) (by simp) fun d hd => h d (List.mem_cons_of_mem _ hd))

theorem parIf_wf (A : Str → Prop) (p : Bool) {e : Disp} (h : e.WF A) : (Disp.parIf p e).WF A := by
  cases p <;> exact h

mutual

theorem wf_disp (val : BExpr → List Str) (A : Str → Prop) : ∀ c : BCtx, c.Sound → c.Clear →
    (∀ r ∈ c.leaves, A (r.bare val)) → (c.disp val).WF A
  | .rule r, _, _, hA => by
    have : A (r.bare val) := hA r (by simp [BCtx.leaves])
    simp only [BCtx.disp]; exact parIf_wf A _ this
  | .zero, h, _, _ => h.elim
  | .rules w p es, h, hc, hA => by
    obtain ⟨hne, h1, hall⟩ := h
    have hA' : ∀ r ∈ BCtx.leavesAll es, A (r.bare val) := by simpa [BCtx.leaves] using hA
    cases w with
    | and =>
      simp only [BCtx.Clear] at hc
      simp only [BCtx.disp]
      exact parIf_wf A p (ofList_wf A _ _ (disps_ne hne) (wfs_disp val A es hall hc.2 hA'))
    | or =>
      simp only [BCtx.Clear] at hc
      simp only [BCtx.disp]
      exact parIf_wf A p (ofList_wf A _ _ (disps_ne hne) (wfs_disp val A es hall hc hA'))
    | not =>
      simp only [BCtx.Clear] at hc
      simp only [BCtx.disp]
      refine ⟨parIf_wf A p (ofList_wf A _ _ (disps_ne hne) (wfs_disp val A es hall hc.2 hA')), ?_⟩
      obtain ⟨e, rfl⟩ := List.length_eq_one_iff.1 (h1 rfl)
      refine parIf_unit (hc.1.imp_right fun hl => ?_)
      simp only [BCtx.AllClear] at hc
      simp only [BCtx.disps, Disp.ofList]
      exact (disp_loose val e hc.2.1).1 (hl e (by simp))

theorem wfs_disp (val : BExpr → List Str) (A : Str → Prop) : ∀ es : List BCtx, BCtx.AllSound es →
    BCtx.AllClear es → (∀ r ∈ BCtx.leavesAll es, A (r.bare val)) → ∀ d ∈ BCtx.disps val es, d.WF A
  | [], _, _, _ => by simp [BCtx.disps]
  | e :: es, h, hc, hA => by
    have hA' : ∀ r, r ∈ e.leaves ∨ r ∈ BCtx.leavesAll es → A (r.bare val) := by
      simpa [BCtx.leavesAll] using hA
    simp only [BCtx.disps, List.mem_cons]
    rintro d (rfl | hd)
    · exact wf_disp val A e h.1 hc.1 fun r hr => hA' r (Or.inl hr)
    · exact wfs_disp val A es h.2 hc.2 (fun r hr => hA' r (Or.inr hr)) d hd

end

/-! ## C75 -/

mutual

theorem eval_leaves (neg : List Bool → Bool) (f g : BRule → Bool) : ∀ c : BCtx,
    (∀ r ∈ c.leaves, f r = g r) → c.eval neg f = c.eval neg g
  | .rule r, h => h r (by simp [BCtx.leaves])
  | .zero, _ => rfl
  | .rules w p es, h => by
    simp only [BCtx.eval]
    rw [evals_leaves neg f g es (by simpa [BCtx.leaves] using h)]

theorem evals_leaves (neg : List Bool → Bool) (f g : BRule → Bool) : ∀ es : List BCtx,
    (∀ r ∈ BCtx.leavesAll es, f r = g r) → BCtx.evals neg f es = BCtx.evals neg g es
  | [], _ => rfl
  | e :: es, h => by
    have h' : ∀ r, r ∈ e.leaves ∨ r ∈ BCtx.leavesAll es → f r = g r := by
      simpa [BCtx.leavesAll] using h
    simp only [BCtx.evals]
    rw [eval_leaves neg f g e fun r hr => h' r (Or.inl hr),
      evals_leaves neg f g es fun r hr => h' r (Or.inr hr)]

end

/-- Contexts that are displayed in the same way have the same meaning. -/
theorem disp_meaning (val : BExpr → List Str) {c c' : BCtx} (hs : c.Sound) (hs' : c'.Sound) (hc : c.Clear) (hc' : c'.Clear)
    (hv : ∀ r ∈ c.leaves, Shown val r) (hv' : ∀ r ∈ c'.leaves, Shown val r)
    (he : c.disp val = c'.disp val) : SameMeaning val c c' := by
  intro neg v
  obtain ⟨v', h⟩ := asks_by_text val v
  rw [eval_leaves neg _ (fun r => v' (r.bare val)) c fun r hr => h r (hv r hr),
    eval_leaves neg _ (fun r => v' (r.bare val)) c' fun r hr => h r (hv' r hr),
    eval_disp val neg v' c hs hc, eval_disp val neg v' c' hs' hc', he]

/-- **C75**, the full claim: contexts with the same text have the same meaning. -/
def TextShowsMeaning : Prop :=
  ∀ (val : BExpr → List Str) (many : Bool → List Str → Str) (c c' : BCtx), c.Sound → c'.Sound →
    (∀ r ∈ c.leaves, Shown val r) → (∀ r ∈ c'.leaves, Shown val r) →
    c.text val many = c'.text val many → SameMeaning val c c'

/-- A complete rule with the given keyword and value. -/
def textRule (k : BindKeyword) (s : Str) : BRule := BR (.bind k) (.cop Eq') (.text s)

/-- The texts of values that are texts. -/
def textVal : BExpr → List Str
  | .text s => [s]
  | _ => []

theorem textRule_valid : (textRule BindSSF b!"1").valid = true ∧ (textRule BindIP b!"1").valid = true ∧
    (textRule BindDNS b!"1").valid = true := by decide +kernel

theorem textRule_shown (k : BKw) (s : Str) (hs : (34 : Byte) ∉ s) : Shown textVal (textRule (bkwConst k) s) := by
  have hc := (br_known k .eq (by cases k <;> rfl) (.text s))
  refine ⟨⟨k, ?_⟩, ?_, by simp [textRule, BR, textVal], ?_, rfl⟩
  · exact congrArg RuleCore.kw hc
  · have : (textRule (bkwConst k) s).core.op = relConst .eq := congrArg RuleCore.op hc
    rw [this]; decide
  · simpa [textRule, BR, textVal] using hs

/-- **C75** fails: `And(a, Or(b, c))` and `Or(And(a, b), c)` both print as `a AND b OR c`. -/
theorem C75_counterexample : ¬ TextShowsMeaning := by
  intro h
  obtain ⟨v1, v2, v3⟩ := textRule_valid
  have s1 := textRule_shown .ssf b!"1" (by decide)
  have s2 := textRule_shown .ip b!"1" (by decide)
  have s3 := textRule_shown .dns b!"1" (by decide)
  have := h textVal (fun _ _ => [])
    (.rules .and false [.rule (textRule BindSSF b!"1"),
      .rules .or false [.rule (textRule BindIP b!"1"), .rule (textRule BindDNS b!"1")]])
    (.rules .or false [.rules .and false [.rule (textRule BindSSF b!"1"), .rule (textRule BindIP b!"1")],
      .rule (textRule BindDNS b!"1")])
    (by simp [BCtx.Sound, BCtx.AllSound, v1, v2, v3])
    (by simp [BCtx.Sound, BCtx.AllSound, v1, v2, v3])
    (by
      intro r hr
      simp [BCtx.leaves, BCtx.leavesAll] at hr
      rcases hr with rfl | rfl | rfl
      · exact s1
      · exact s2
      · exact s3)
    (by
      intro r hr
      simp [BCtx.leaves, BCtx.leavesAll] at hr
      rcases hr with rfl | rfl | rfl
      · exact s1
      · exact s2
      · exact s3)
    (by decide +kernel) (fun _ => false) (fun a => a == (textRule BindDNS b!"1").asks textVal)
  revert this
  decide +kernel

/-- A value with quotation marks in it. -/
def forged : Str := b!"1\" OR dns = \"1"

/-- Quotation marks in values are needed to be absent: the single rule with the value
`1" OR dns = "1` prints as a disjunction. -/
theorem C75_quotes_counterexample : ∃ c c' : BCtx, c.Sound ∧ c'.Sound ∧ c.Clear ∧ c'.Clear ∧
    c.leaves.length = 1 ∧ (∀ many, c.text textVal many = c'.text textVal many) ∧ ¬ SameMeaning textVal c c' := by
  refine ⟨.rule (textRule BindIP forged),
    .rules .or false [.rule (textRule BindIP b!"1"), .rule (textRule BindDNS b!"1")], ?_, ?_, ?_, ?_, rfl, ?_, ?_⟩
  · show (textRule BindIP forged).valid = true
    decide +kernel
  · simp [BCtx.Sound, BCtx.AllSound, textRule_valid]
  · simp [BCtx.Clear]
  · simp [BCtx.Clear, BCtx.AllClear]
  · intro many
    have hs : (BCtx.rules .or false [.rule (textRule BindIP b!"1"), .rule (textRule BindDNS b!"1")]).Sound := by
      simp [BCtx.Sound, BCtx.AllSound, textRule_valid]
    have hs' : (BCtx.rule (textRule BindIP forged)).Sound := by
      show (textRule BindIP forged).valid = true
      decide +kernel
    rw [(text_disp _ _ _ hs).1, (text_disp _ _ _ hs').1]
    decide +kernel
  · intro h
    have := h (fun _ => false) (fun a => a == (textRule BindDNS b!"1").asks textVal)
    revert this
    decide +kernel

/-- **C75** fails also for what is negated: `Not(And(a, b))` and `And(Not(a), b)` both print as
`NOT a AND b`. -/
theorem C75_negation_counterexample : ∃ c c' : BCtx, c.Sound ∧ c'.Sound ∧ c'.Clear ∧
    (∀ r ∈ c.leaves, Shown textVal r) ∧ (∀ r ∈ c'.leaves, Shown textVal r) ∧
    (∀ many, c.text textVal many = c'.text textVal many) ∧ ¬ SameMeaning textVal c c' := by
  obtain ⟨v1, v2, -⟩ := textRule_valid
  have s1 := textRule_shown .ssf b!"1" (by decide)
  have s2 := textRule_shown .ip b!"1" (by decide)
  refine ⟨.rules .not false [.rules .and false [.rule (textRule BindSSF b!"1"), .rule (textRule BindIP b!"1")]],
    .rules .and false [.rules .not false [.rule (textRule BindSSF b!"1")], .rule (textRule BindIP b!"1")],
    ?_, ?_, ?_, ?_, ?_, ?_, ?_⟩
  · simp [BCtx.Sound, BCtx.AllSound, v1, v2]
  · simp [BCtx.Sound, BCtx.AllSound, v1, v2]
  · simp [BCtx.Clear, BCtx.AllClear, BCtx.loose]
  · intro r hr
    simp [BCtx.leaves, BCtx.leavesAll] at hr
    rcases hr with rfl | rfl
    · exact s1
    · exact s2
  · intro r hr
    simp [BCtx.leaves, BCtx.leavesAll] at hr
    rcases hr with rfl | rfl
    · exact s1
    · exact s2
  · intro many
    rw [(text_disp _ _ _ (by simp [BCtx.Sound, BCtx.AllSound, v1, v2])).1,
      (text_disp _ _ _ (by simp [BCtx.Sound, BCtx.AllSound, v1, v2])).1]
    decide +kernel
  · intro h
    have := h (fun l => !(l.all id)) (fun _ => false)
    revert this
    decide +kernel

/-- **C75**, what holds: contexts have the same meaning when they have the same text, all
values have quotation marks around and none within, no disjunction without parentheses is within
a conjunction, and neither of them is negated without parentheses.  Missing: the contexts that are
excluded, see the counterexamples. -/
theorem C75_meaning_partial (val : BExpr → List Str) (many : Bool → List Str → Str) (c c' : BCtx)
    (hs : c.Sound) (hs' : c'.Sound) (hg : c.Clear) (hg' : c'.Clear)
    (hv : ∀ r ∈ c.leaves, Shown val r) (hv' : ∀ r ∈ c'.leaves, Shown val r)
    (h : c.text val many = c'.text val many) : SameMeaning val c c' := by
  obtain ⟨t, -⟩ := text_disp val many c hs
  obtain ⟨t', -⟩ := text_disp val many c' hs'
  have w := wf_disp val ruleCode c hs hg fun r hr => shown_code val r (hv r hr)
  have w' := wf_disp val ruleCode c' hs' hg' fun r hr => shown_code val r (hv' r hr)
  obtain ⟨he, -⟩ := disp_unique ruleCode ruleCode_code _ _ [] [] w w' (Or.inl rfl) (Or.inl rfl)
    (Or.inr ⟨stops_nil, stops_nil⟩) (by simp only [List.append_nil]; rw [← t, ← t', h])
  exact disp_meaning val hs hs' hg hg' hv hv' he

/-- `And(And(a, b), c)` and `And(a, And(b, c))` print as the same text, and so do
`Or(And(a, b), c)` and `Or(Or(And(a, b)), c)`. -/
example (a b c : BRule) :
    (BCtx.rules .and false [.rules .and false [.rule a, .rule b], .rule c]).Clear ∧
    (BCtx.rules .and false [.rule a, .rules .and false [.rule b, .rule c]]).Clear ∧
    (BCtx.rules .or false [.rules .and false [.rule a, .rule b], .rule c]).Clear ∧
    (BCtx.rules .or false [.rules .or false [.rules .and false [.rule a, .rule b]], .rule c]).Clear ∧
    ¬ (BCtx.rules .and false [.rule a, .rules .or false [.rule b, .rule c]]).Clear := by
  simp [BCtx.Clear, BCtx.AllClear, BCtx.loose]

/-- A context as in the examples of the package: an AND stack with a rule in parentheses, an
OR stack in parentheses and a negated OR stack. -/
def groupedSample : BCtx :=
  .rules .and false [.rule { textRule BindSSF b!"1" with paren := true },
    .rules .or true [.rule (textRule BindIP b!"1"), .rule (textRule BindDNS b!"1")],
    .rules .not false [.rules .or true [.rule (textRule BindIP b!"2"), .rule (textRule BindDNS b!"2")]]]

example : groupedSample.Sound ∧ groupedSample.Clear ∧
    groupedSample.text textVal (fun _ _ => []) =
      b!"( ssf = \"1\" ) AND ( ip = \"1\" OR dns = \"1\" ) AND NOT ( ip = \"2\" OR dns = \"2\" )" := by
  refine ⟨?_, ?_, by decide +kernel⟩
  · have : ({ textRule BindSSF b!"1" with paren := true } : BRule).valid = true ∧
        (textRule BindIP b!"2").valid = true ∧ (textRule BindDNS b!"2").valid = true := by decide +kernel
    simp [groupedSample, BCtx.Sound, BCtx.AllSound, textRule_valid, this]
  · simp [groupedSample, BCtx.Clear, BCtx.AllClear, BCtx.loose]

end Verif.Bind
