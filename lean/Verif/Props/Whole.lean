import Verif.Props.BindText
import Verif.Props.Ins
import Verif.Props.Rights

/-!
# C88: the text of an instruction shows all of it
-/

namespace Verif.Whole
open Verif Verif.Spec Verif.Rules Verif.Bind Verif.Ins

/-! ## What is required -/

/-- The texts of a target rule that stand between quotation marks: the values one by one, or
all values as one text with bars between them. -/
def quoted (r : TRule) : List Str :=
  if r.slice then r.ex.texts else [Str.join b!" || " r.ex.texts]

/-- A target rule that is complete, whose keyword is one word, and every value of which
is between quotation marks, alone or with the others, and has no such mark itself. -/
structure TargetShown (r : TRule) : Prop where
  set : r.isZero = false
  word : (32 : Byte) ∉ r.core.kw
  op : Cop.valid r.core.op = true
  some : r.ex.texts ≠ []
  clean : ∀ v ∈ r.ex.texts, (34 : Byte) ∉ v
  marks : r.outer = !r.slice

/-- A permission bind rule with a permission over the ten rights and a bind context that
can be printed, shows how its parts belong together, and has no quotation marks in its values. -/
structure RuleShown (val : BExpr → List Str) (p : Rights.Permission) (b : BCtx) : Prop where
  perm : Rights.valid p = true ∧ Rights.WithinTen p
  sound : b.Sound
  clear : b.Clear
  leaves : ∀ r ∈ b.leaves, Bind.Shown val r

/-- An instruction of such rules, with a label without quotation marks. -/
structure Clean (val : BExpr → List Str) (i : Body) : Prop where
  label : (34 : Byte) ∉ i.acl
  targets : ∀ r ∈ i.trs, TargetShown r
  rules : ∀ r ∈ i.pbrs, ∃ p b, r = some ⟨p, some b⟩ ∧ RuleShown val p b

/-- What C88 says about two permission bind rules: both allow or both deny, they grant
the same rights, and their bind contexts hold under the same circumstances. -/
def SameRule (S : Shifty 16) (val : BExpr → List Str) (r r' : PB.PBRule) : Prop :=
  ∃ p b p' b', r = some ⟨p, some b⟩ ∧ r' = some ⟨p', some b'⟩ ∧
    Rights.stored p = Rights.stored p' ∧ (∀ q, Rights.grants S p q = Rights.grants S p' q) ∧
    SameMeaning val b b'

/-- What C88 says about two target rules: same keyword, operator and values. -/
def SameTarget (r r' : TRule) : Prop :=
  r.core.kw = r'.core.kw ∧ r.core.op = r'.core.op ∧ quoted r = quoted r'

/-- Two lists agree entry by entry. -/
inductive Along {α : Type} (R : α → α → Prop) : List α → List α → Prop
  | nil : Along R [] []
  | cons {a b l m} : R a b → Along R l m → Along R (a :: l) (b :: m)

/-! ## Target rules -/

theorem target_text {r : TRule} (h : TargetShown r) :
    r.string = b!"( " ++ r.core.kw ++ b!" " ++ Cop.string r.core.op ++ b!" " ++ quotedJoin (quoted r) ++ b!" )" := by
  have := (quoted_eq r.slice h.some h.clean).1
  rw [← h.marks] at this
  simp only [TRule.string, h.set, Bool.false_eq_true, if_false, this, quoted]

theorem target_ends {r r' : TRule} (h : TargetShown r) (h' : TargetShown r') (x y : Str)
    (e : r.string ++ x = r'.string ++ y) : SameTarget r r' ∧ x = y := by
  rw [target_text h, target_text h'] at e
  simp only [List.append_assoc, List.cons_append, List.nil_append, List.cons.injEq, true_and] at e
  obtain ⟨e1, e⟩ := until_mark h.word h'.word e
  obtain ⟨e2, e⟩ := until_mark (cop_word h.op) (cop_word h'.op) e
  obtain ⟨-, hne, hc⟩ := quoted_eq r.slice h.some h.clean
  obtain ⟨-, hne', hc'⟩ := quoted_eq r'.slice h'.some h'.clean
  have e3 : quoted r = quoted r' :=
    quotedJoin_ends _ _ _ _ hne hne' hc hc' (follow_par x) (follow_par y) e
  refine ⟨⟨e1, cop_text_inj h.op h'.op e2, e3⟩, ?_⟩
  rw [e3] at e
  have := List.append_cancel_left e
  simpa using this

theorem trs_cons (r : TRule) (rs : List TRule) :
    TRs.string (r :: rs) = r.string ++ TRs.string rs := by
  cases rs <;> simp [TRs.string, Str.join]

theorem targets_ends : ∀ (l m : List TRule) (x y : Str), (∀ r ∈ l, TargetShown r) →
    (∀ r ∈ m, TargetShown r) → TRs.string l ++ (b!"(version" ++ x) = TRs.string m ++ (b!"(version" ++ y) →
    Along SameTarget l m ∧ x = y
  | [], [], x, y, _, _, e => ⟨.nil, List.append_cancel_left (as := b!"(version") (by simpa [TRs.string, Str.join] using e)⟩
  | [], r :: m, x, y, _, hm, e => by
    rw [trs_cons, target_text (hm r (by simp))] at e
    simp [TRs.string, Str.join] at e
  | r :: l, [], x, y, hl, _, e => by
    rw [trs_cons, target_text (hl r (by simp))] at e
    simp [TRs.string, Str.join] at e
  | r :: l, r' :: m, x, y, hl, hm, e => by
    rw [trs_cons, trs_cons, List.append_assoc, List.append_assoc] at e
    obtain ⟨h1, e⟩ := target_ends (hl r (by simp)) (hm r' (by simp)) _ _ e
    obtain ⟨h2, e⟩ := targets_ends l m x y (fun r hr => hl r (List.mem_cons_of_mem _ hr))
      (fun r hr => hm r (List.mem_cons_of_mem _ hr)) e
    exact ⟨.cons h1 h2, e⟩

/-! ## Permission bind rules -/

theorem perm_word (S : Shifty 16) {p : Rights.Permission} (h : Rights.valid p = true)
    (h' : Rights.WithinTen p) : (32 : Byte) ∉ Rights.string S p ∧
      ∃ c t, Rights.string S p = c :: t ∧ (c = 97 ∨ c = 100) := by
  obtain ⟨allow, -, -, ht⟩ := Rights.C02_text S p h h'
  rw [ht]
  have names : ∀ q : Priv, (32 : Byte) ∉ q.name := by intro q; cases q <;> decide
  have words : ∀ w ∈ permWords (Rights.grants S p), (32 : Byte) ∉ w := by
    intro w hw
    unfold permWords at hw
    repeat' split at hw
    all_goals first
      | (simp only [List.mem_cons, List.not_mem_nil, or_false] at hw
         rcases hw with rfl | rfl <;> decide)
      | (simp only [List.mem_cons, List.not_mem_nil, or_false] at hw; subst hw; decide)
      | (obtain ⟨q, -, rfl⟩ := List.mem_map.1 hw; exact names q)
  have join : ∀ ws : List Str, (∀ w ∈ ws, (32 : Byte) ∉ w) → (32 : Byte) ∉ Str.join b!"," ws := by
    intro ws
    induction ws with
    | nil => intro _; simp [Str.join]
    | cons w ws ih =>
      intro h
      cases ws with
      | nil => simpa [Str.join] using h w (by simp)
      | cons w' ws =>
        simp only [Str.join, List.mem_append, not_or]
        exact ⟨⟨h w (by simp), by decide⟩, ih fun u hu => h u (List.mem_cons_of_mem _ hu)⟩
  refine ⟨?_, ?_⟩
  · simp only [permText, List.mem_append, not_or]
    exact ⟨⟨⟨by cases allow <;> decide, by decide⟩, join _ words⟩, by decide⟩
  · cases allow
    · exact ⟨_, _, rfl, Or.inr rfl⟩
    · exact ⟨_, _, rfl, Or.inl rfl⟩

/-- The world prints bind contexts and lists of target rules as go-stackage does. -/
structure Prints (w : PB.World) (val : BExpr → List Str) (many : Bool → List Str → Str) : Prop where
  text : ∀ c, w.text c = c.text val many
  targets : ∀ l, w.targets l = TRs.string l

theorem rule_text (w : PB.World) {p : Rights.Permission} (b : BCtx) (h : Rights.valid p = true) :
    PB.string w (some ⟨p, some b⟩) = Rights.string w.S p ++ b!" " ++ w.text b ++ b!";" := by
  have : PB.valid (some ⟨p, some b⟩) = true := by
    simp [PB.valid, PB.isZero, h]
  simp [PB.string, this, PB.pbText]

theorem rule_ends {w : PB.World} {val : BExpr → List Str} {many : Bool → List Str → Str}
    (hw : Prints w val many) {p p' : Rights.Permission} {b b' : BCtx} (h : RuleShown val p b)
    (h' : RuleShown val p' b') (x y : Str)
    (e : PB.string w (some ⟨p, some b⟩) ++ x = PB.string w (some ⟨p', some b'⟩) ++ y) :
    SameRule w.S val (some ⟨p, some b⟩) (some ⟨p', some b'⟩) ∧ x = y := by
  rw [rule_text w b h.perm.1, rule_text w b' h'.perm.1] at e
  simp only [List.append_assoc, List.cons_append, List.nil_append] at e
  obtain ⟨e1, e⟩ := until_mark (perm_word w.S h.perm.1 h.perm.2).1 (perm_word w.S h'.perm.1 h'.perm.2).1 e
  obtain ⟨hd, hg⟩ := (Rights.C02_text_injective w.S p p' h.perm.1 h'.perm.1 h.perm.2 h'.perm.2).1 e1
  rw [hw.text, hw.text, (text_disp val many b h.sound).1, (text_disp val many b' h'.sound).1] at e
  have w1 := wf_disp val ruleCode b h.sound h.clear fun r hr => shown_code val r (h.leaves r hr)
  have w2 := wf_disp val ruleCode b' h'.sound h'.clear fun r hr => shown_code val r (h'.leaves r hr)
  obtain ⟨he, e⟩ := disp_unique ruleCode ruleCode_code _ _ _ _ w1 w2 (follow_semi x) (follow_semi y)
    (Or.inr ⟨stops_semi x, stops_semi y⟩) e
  refine ⟨⟨p, b, p', b', rfl, rfl, hd, hg, ?_⟩, by simpa using e⟩
  exact disp_meaning val h.sound h'.sound h.clear h'.clear h.leaves h'.leaves he

theorem rules_ends {w : PB.World} {val : BExpr → List Str} {many : Bool → List Str → Str}
    (hw : Prints w val many) : ∀ (l m : List PB.PBRule),
    (∀ r ∈ l, ∃ p b, r = some ⟨p, some b⟩ ∧ RuleShown val p b) →
    (∀ r ∈ m, ∃ p b, r = some ⟨p, some b⟩ ∧ RuleShown val p b) →
    PB.listString w l ++ b!")" = PB.listString w m ++ b!")" → Along (SameRule w.S val) l m := by
  have first : ∀ r : PB.PBRule, (∃ p b, r = some ⟨p, some b⟩ ∧ RuleShown val p b) →
      ∃ c t, PB.string w r = c :: t ∧ (c = 97 ∨ c = 100) := by
    rintro r ⟨p, b, rfl, h⟩
    obtain ⟨-, c, t, e, hc⟩ := perm_word w.S h.perm.1 h.perm.2
    exact ⟨c, _, by rw [rule_text w b h.perm.1, e]; rfl, hc⟩
  have more : ∀ (r : PB.PBRule) (l : List PB.PBRule), ∃ t,
      PB.listString w (r :: l) = PB.string w r ++ t ∧
        ((l = [] ∧ t = []) ∨ (l ≠ [] ∧ t = b!" " ++ PB.listString w l)) := by
    intro r l
    cases l with
    | nil => exact ⟨[], by simp [PB.listString, Str.join], Or.inl ⟨rfl, rfl⟩⟩
    | cons r' l => exact ⟨_, by simp [PB.listString, Str.join], Or.inr ⟨by simp, rfl⟩⟩
  intro l
  induction l with
  | nil =>
    intro m _ hm e
    cases m with
    | nil => exact .nil
    | cons r m =>
      obtain ⟨c, t, hc, h⟩ := first r (hm r (by simp))
      obtain ⟨t', ht, -⟩ := more r m
      rw [ht, hc] at e
      simp only [PB.listString, List.map_nil, Str.join, List.nil_append, List.cons_append, List.cons.injEq] at e
      rw [← e.1] at h
      exact absurd h (by decide)
  | cons r l ih =>
    intro m hl hm e
    cases m with
    | nil =>
      obtain ⟨c, t, hc, h⟩ := first r (hl r (by simp))
      obtain ⟨t', ht, -⟩ := more r l
      rw [ht, hc] at e
      simp only [PB.listString, List.map_nil, Str.join, List.nil_append, List.cons_append, List.cons.injEq] at e
      rw [e.1] at h
      exact absurd h (by decide)
    | cons r' m =>
      obtain ⟨t, ht, h⟩ := more r l
      obtain ⟨t', ht', h'⟩ := more r' m
      rw [ht, ht', List.append_assoc, List.append_assoc] at e
      obtain ⟨p, b, rfl, hs⟩ := hl r (by simp)
      obtain ⟨p', b', rfl, hs'⟩ := hm r' (by simp)
      obtain ⟨h1, e⟩ := rule_ends hw hs hs' _ _ e
      refine .cons h1 ?_
      rcases h with ⟨rfl, rfl⟩ | ⟨hne, rfl⟩ <;> rcases h' with ⟨rfl, rfl⟩ | ⟨hne', rfl⟩
      · exact .nil
      · simp at e
      · simp at e
      · refine ih m (fun r hr => hl r (List.mem_cons_of_mem _ hr))
          (fun r hr => hm r (List.mem_cons_of_mem _ hr)) ?_
        simpa using e

/-! ## C88 -/

/-- An instruction of valid rules. -/
def AllValid (i : Body) : Prop :=
  (∀ r ∈ i.trs, r.valid = true) ∧ ∀ r ∈ i.pbrs, PB.valid r = true

/-- **C88**, the full claim: instructions of valid rules with the same text are the same. -/
def ClaimShowsAll : Prop :=
  ∀ (w : PB.World) (val : BExpr → List Str) (many : Bool → List Str → Str), Prints w val many →
    ∀ a b : Body, AllValid a → AllValid b → Ins.string w (some a) = Ins.string w (some b) →
      a.acl = b.acl ∧ Along SameTarget a.trs b.trs ∧ Along (SameRule w.S val) a.pbrs b.pbrs

/-- A world that prints the values that are texts. -/
def textWorld : PB.World :=
  { PB.plainWorld with text := fun c => c.text textVal (fun _ _ => []), targets := TRs.string }

theorem textWorld_prints : Prints textWorld textVal (fun _ _ => []) := ⟨fun _ => rfl, fun _ => rfl⟩

/-- `allow(read) ssf = "1"`. -/
def readRule : PB.PBRule := some ⟨some ⟨true, 1#16⟩, some (.rule (textRule BindSSF b!"1"))⟩

/-- `allow(write) ssf = "1"`. -/
def writeRule : PB.PBRule := some ⟨some ⟨true, 2#16⟩, some (.rule (textRule BindSSF b!"1"))⟩

/-- One rule, under a label that `Instruction.Set` (/repo/ins.go:363-369) takes as it is. -/
def forged : Body := ⟨b!"x\"; allow(write) ssf = \"1", [], [readRule]⟩

/-- Two rules under the label `x`. -/
def honest : Body := ⟨b!"x", [], [writeRule, readRule]⟩

/-- **C88** fails: a label with a quotation mark shows as a label and a rule that the
instruction does not have. -/
theorem C88_counterexample : ¬ ClaimShowsAll := by
  intro h
  have hv : PB.valid readRule = true := by decide +kernel
  have hv' : PB.valid writeRule = true := by decide +kernel
  have ha : AllValid forged := ⟨fun r hr => (by cases hr), fun r hr => by
    simp only [forged, List.mem_singleton] at hr; rw [hr]; exact hv⟩
  have hb : AllValid honest := ⟨fun r hr => (by cases hr), fun r hr => by
    simp only [honest, List.mem_cons, List.not_mem_nil, or_false] at hr
    rcases hr with rfl | rfl
    · exact hv'
    · exact hv⟩
  obtain ⟨e, -, -⟩ := h textWorld textVal (fun _ _ => []) textWorld_prints forged honest ha hb (by decide +kernel)
  exact absurd e (by decide)

/-- **C88** for instructions whose labels have no quotation marks. -/
def ClaimShowsLabelled : Prop :=
  ∀ (w : PB.World) (val : BExpr → List Str) (many : Bool → List Str → Str), Prints w val many →
    ∀ a b : Body, AllValid a → AllValid b → (34 : Byte) ∉ a.acl → (34 : Byte) ∉ b.acl →
      Ins.string w (some a) = Ins.string w (some b) →
      Along SameTarget a.trs b.trs ∧ Along (SameRule w.S val) a.pbrs b.pbrs

/-- The value of the target ends the rule and begins another one. -/
def forgedTarget : TRule := TR (.target Target) (.cop Eq') (.text b!"a\" )( targetfilter = \"b")

def honestTargets : List TRule :=
  [TR (.target Target) (.cop Eq') (.text b!"a"), TR (.target TargetFilter) (.cop Eq') (.text b!"b")]

/-- **C88** fails for values with a quotation mark as well: one target rule shows as two. -/
theorem C88_values_counterexample : ¬ ClaimShowsLabelled := by
  intro h
  have hv : PB.valid readRule = true := by decide +kernel
  have hr : ∀ r ∈ [readRule], PB.valid r = true := fun r hr => by rw [List.mem_singleton.1 hr]; exact hv
  have ha : AllValid ⟨b!"x", [forgedTarget], [readRule]⟩ := ⟨by decide +kernel, hr⟩
  have hb : AllValid ⟨b!"x", honestTargets, [readRule]⟩ := ⟨by decide +kernel, hr⟩
  obtain ⟨e, -⟩ := h textWorld textVal (fun _ _ => []) textWorld_prints _ _ ha hb (by decide) (by decide)
    (by decide +kernel)
  cases e with
  | cons _ e => cases e

/-- Both can be made with `ACI`. -/
theorem C88_witnesses_made :
    ACI textWorld (fun _ => none) [.str forged.acl, .pbr readRule] = some forged ∧
      ACI textWorld (fun _ => none) [.str honest.acl, .pbr writeRule, .pbr readRule] = some honest := by
  constructor <;> rfl

/-- **C88**, in part. Two instructions with the same text, whose label and values have no
quotation marks, have the same label, the same target rules in the same order, and
permission bind rules that, in the same order, allow or deny the same rights under the
same circumstances. Missing: labels and values with quotation marks (for which the claim is
false), bind rules whose text does not show how they belong together (C75), values printed
without quotation marks or with two pairs, and rights beyond the ten. -/
theorem C88_text_shows_all_partial (w : PB.World) (val : BExpr → List Str) (many : Bool → List Str → Str)
    (hw : Prints w val many) (a b : Body) (ha : Clean val a) (hb : Clean val b)
    (h : Ins.string w (some a) = Ins.string w (some b)) :
    a.acl = b.acl ∧ Along SameTarget a.trs b.trs ∧ Along (SameRule w.S val) a.pbrs b.pbrs := by
  simp only [Ins.string, hw.targets, version, List.append_assoc] at h
  obtain ⟨h1, e⟩ := targets_ends a.trs b.trs
    (b!" 3.0; acl \"" ++ (a.acl ++ (b!"\"; " ++ (PB.listString w a.pbrs ++ b!")"))))
    (b!" 3.0; acl \"" ++ (b.acl ++ (b!"\"; " ++ (PB.listString w b.pbrs ++ b!")")))) ha.targets hb.targets
    (by simpa using h)
  have e := List.append_cancel_left e
  simp only [List.cons_append, List.nil_append] at e
  obtain ⟨h2, e⟩ := until_mark ha.label hb.label e
  simp only [List.cons.injEq, true_and] at e
  exact ⟨h2, h1, rules_ends hw a.pbrs b.pbrs ha.rules hb.rules e⟩

/-- A target rule and two permission bind rules, one of them with a nested context. -/
def cleanSample : Body :=
  ⟨b!"label", [⟨⟨true, b!"targetattr", Eq'⟩, .raw 0 [b!"cn", b!"sn"], false, true⟩,
      ⟨⟨true, b!"targetscope", Ne'⟩, .text b!"base", true, false⟩],
    [readRule, some ⟨some ⟨false, 3#16⟩, some groupedSample⟩]⟩

example : Clean textVal cleanSample ∧ Ins.string textWorld (some cleanSample) =
    b!"( targetattr = \"cn\" || \"sn\" )( targetscope != \"base\" )(version 3.0; acl \"label\"; allow(read) ssf = \"1\"; deny(read,write) ( ssf = \"1\" ) AND ( ip = \"1\" OR dns = \"1\" ) AND NOT ( ip = \"2\" OR dns = \"2\" );)" := by
  refine ⟨⟨by decide, ?_, ?_⟩, by decide +kernel⟩
  · intro r hr
    simp only [cleanSample, List.mem_cons, List.not_mem_nil, or_false] at hr
    rcases hr with rfl | rfl <;> constructor <;> decide +kernel
  · have shown : ∀ (k : BKw) (s : Str), (34 : Byte) ∉ s → ∀ r : BRule, r.core.kw = k.name →
        Cop.valid r.core.op = true → textVal r.ex = [s] → r.outer = (!r.slice) → Bind.Shown textVal r := by
      intro k s hs r h1 h2 h3 h4
      exact ⟨⟨k, h1⟩, h2, by simp [h3], by simpa [h3] using hs, h4⟩
    intro r hr
    simp only [cleanSample, List.mem_cons, List.not_mem_nil, or_false] at hr
    rcases hr with rfl | rfl
    · refine ⟨_, _, rfl, ⟨by decide +kernel, by simp [Rights.WithinTen]⟩, ?_, ?_, ?_⟩
      · simp [BCtx.Sound, textRule_valid]
      · simp [BCtx.Clear]
      · intro r hr
        simp only [BCtx.leaves, List.mem_singleton] at hr
        subst hr
        exact shown .ssf b!"1" (by decide) _ (by decide +kernel) (by decide +kernel) (by decide +kernel) (by decide +kernel)
    · refine ⟨_, _, rfl, ⟨by decide +kernel, by simp [Rights.WithinTen]⟩, ?_, ?_, ?_⟩
      · have : ({ textRule BindSSF b!"1" with paren := true } : BRule).valid = true ∧
            (textRule BindIP b!"2").valid = true ∧ (textRule BindDNS b!"2").valid = true := by decide +kernel
        simp [groupedSample, BCtx.Sound, BCtx.AllSound, textRule_valid, this]
      · simp [groupedSample, BCtx.Clear, BCtx.AllClear, BCtx.loose]
      · intro r hr
        simp only [groupedSample, BCtx.leaves, BCtx.leavesAll,
          List.append_nil, List.cons_append, List.nil_append, List.mem_cons, List.not_mem_nil, or_false] at hr
        rcases hr with rfl | rfl | rfl | rfl | rfl
        · exact shown .ssf b!"1" (by decide) _ (by decide +kernel) (by decide +kernel) (by decide +kernel) (by decide +kernel)
        · exact shown .ip b!"1" (by decide) _ (by decide +kernel) (by decide +kernel) (by decide +kernel) (by decide +kernel)
        · exact shown .dns b!"1" (by decide) _ (by decide +kernel) (by decide +kernel) (by decide +kernel) (by decide +kernel)
        · exact shown .ip b!"2" (by decide) _ (by decide +kernel) (by decide +kernel) (by decide +kernel) (by decide +kernel)
        · exact shown .dns b!"2" (by decide) _ (by decide +kernel) (by decide +kernel) (by decide +kernel) (by decide +kernel)

end Verif.Whole
