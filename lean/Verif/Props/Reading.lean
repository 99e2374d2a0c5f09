import Verif.Model.Reading
import Verif.Lemmas.Reading
import Verif.Props.Ins

/-!
# C76, C77: reading texts
-/

namespace Verif.Reading
open Verif Verif.Bind Verif.PB Verif.Rules Verif.Spec Verif.Levels

/-! ## C76 -/

/-- **C76**, the full claim: for a parser to which white space outside of quotation marks
makes no difference, the outcome of reading a text is that of what the parser finds in the
text itself. -/
def ReadAsWritten : Prop :=
  (∀ (env : Env) (text : BCtx → Str) (parser : Str → Option PTree), Tolerant parser → ∀ raw,
    readRules env text parser raw = (match parser raw with
      | none => .err
      | some t => parseBindRules env text t)) ∧
  (∀ (E : EqualFold) (d : Oid.DotReader) (text : List TRule → Str) (parser : Str → Option (List TRule)),
    Tolerant parser → ∀ raw,
    readTargets E.eq d.read text parser raw = (match parser raw with
      | none => ([], false)
      | some rs => if text rs = [] then ([], false) else processTargetRules E.eq d.read rs)) ∧
  (∀ (w : World) (rd : Str → Option Store) (parser : Str → Option Ins.Tokens), Tolerant parser →
    ∀ (raw : Str) (t : Ins.Tokens) (i : Ins.Instruction), parser raw = some t →
      Ins.readText w rd parser raw = some i → Ins.acl i = t.label)

/-- The parser for the examples: a label between quotation marks. -/
def labelParser (s : Str) : Option Ins.Tokens :=
  some ⟨((shape s).dropWhile (· ≠ 34)).drop 1 |>.takeWhile (· ≠ 34), [], []⟩

theorem label_tolerant : Tolerant labelParser := by
  intro s s' h
  simp only [labelParser, h]

theorem label_read (s : Str) : ∃ i, Ins.readText plainWorld (fun _ => none) labelParser s = some i ∧
    some (Ins.acl i) = (labelParser (Misc.condenseWHSP s)).map (·.label) := by
  obtain ⟨i, h1, h2, _⟩ := Ins.parse_content plainWorld .ref rfl (fun _ => none)
    ⟨((shape (Misc.condenseWHSP s)).dropWhile (· ≠ 34)).drop 1 |>.takeWhile (· ≠ 34), [], []⟩ [] [] []
    rfl .nil (Or.inl rfl)
  refine ⟨i, ?_, ?_⟩
  · simp only [Ins.readText, labelParser, h1]
  · rw [h2]; rfl

/-- **C76** does not hold: the texts are condensed as a whole, labels included.  Two blanks
in a label become one. -/
theorem C76_counterexample : ¬ ReadAsWritten := by
  rintro ⟨-, -, h⟩
  obtain ⟨i, h1, h2⟩ := label_read b!"acl \"a  b\""
  have h3 := h _ _ _ label_tolerant _ _ _ rfl h1
  rw [h3] at h2
  revert h2
  decide +kernel

/-- **C76**: a letter beyond ASCII is damaged, here in a label: the two bytes of `é` become
four. -/
theorem C76_bytes_counterexample : ∃ i, Ins.readText plainWorld (fun _ => none) labelParser [34, 0xC3, 0xA9, 34] = some i ∧
    Ins.acl i = [0xC3, 0x83, 0xC2, 0xA9] ∧
    (labelParser [34, 0xC3, 0xA9, 34]).map (·.label) = some [0xC3, 0xA9] := by
  obtain ⟨i, h1, h2⟩ := label_read [34, 0xC3, 0xA9, 34]
  refine ⟨i, h1, ?_, by decide +kernel⟩
  have : (labelParser (Misc.condenseWHSP [34, 0xC3, 0xA9, 34])).map (·.label) = some [0xC3, 0x83, 0xC2, 0xA9] := by
    decide +kernel
  rw [this] at h2
  exact Option.some.inj h2

/-- The parser finds the same in the condensed text. -/
theorem parser_condense {τ : Type} {parser : Str → Option τ} (hp : Tolerant parser) {raw : Str}
    (ha : Str.IsAscii raw) (hq : Quiet false false raw) : parser (Misc.condenseWHSP raw) = parser raw :=
  hp _ _ (shape_condense ha hq)

/-- **C76** for bind rules, target rules and instructions in ASCII whose quotation marks are
closed and have no tabs, line feeds or runs of blanks between them.

Missing: the other texts, for which it fails. -/
theorem C76_written_partial (raw : Str) (ha : Str.IsAscii raw) (hq : Quiet false false raw) :
    (∀ (env : Env) (text : BCtx → Str) (parser : Str → Option PTree), Tolerant parser →
      readRules env text parser raw = (match parser raw with
        | none => .err
        | some t => parseBindRules env text t)) ∧
    (∀ (E : EqualFold) (d : Oid.DotReader) (text : List TRule → Str) (parser : Str → Option (List TRule)),
      Tolerant parser →
      readTargets E.eq d.read text parser raw = (match parser raw with
        | none => ([], false)
        | some rs => if text rs = [] then ([], false) else processTargetRules E.eq d.read rs)) ∧
    (∀ (w : World) (rd : Str → Option Store) (parser : Str → Option Ins.Tokens), Tolerant parser →
      ∀ (t : Ins.Tokens) (i : Ins.Instruction), parser raw = some t →
        Ins.readText w rd parser raw = some i → Ins.acl i = t.label ∧ Ins.parse w rd t = .ok i) := by
  refine ⟨fun env text parser hp => ?_, fun E d text parser hp => ?_, fun w rd parser hp t i h1 h2 => ?_⟩
  · rw [readRules, parser_condense hp ha hq]
    cases parser raw <;> rfl
  · rw [readTargets, parser_condense hp ha hq]
    cases parser raw <;> rfl
  · rw [Ins.readText, parser_condense hp ha hq, h1] at h2
    simp only at h2
    split at h2
    · next j hj =>
      cases h2
      refine ⟨?_, hj⟩
      revert hj
      simp only [Ins.parse, Ins.assemble]
      split
      · intro h; cases h
      · intro h; cases h
      · intro h
        cases h
        rw [show Ins.set w rd none _ = some (Ins.setBody w rd Ins.newACI _) from rfl, Ins.body_eq]
        simp only [Ins.acl, Ins.newACI, List.flatMap_cons, List.flatMap_nil, Ins.SetArg.labels,
          List.append_nil, List.nil_append, Ins.firstLabel]
        cases t.label <;> rfl
    · cases h2

/-- White space of all kinds outside, single blanks inside: nothing is lost. -/
example : ∃ i, Ins.readText plainWorld (fun _ => none) labelParser b!" acl\n\t \"All can read\" ; " = some i ∧
    Ins.acl i = b!"All can read" := by
  obtain ⟨i, h1, _⟩ := label_read b!" acl\n\t \"All can read\" ; "
  refine ⟨i, h1, ?_⟩
  exact ((C76_written_partial _ (by decide +kernel) (by simp [Quiet])).2.2 _ _ _ label_tolerant
    ⟨b!"All can read", [], []⟩ i (by rfl) h1).1

/-! ## C77 -/

theorem convert_rules {env : Env} {text : BCtx → Str} {t : PTree} {c : BCtx}
    (h : parseBindRules env text t = .ok c) : c.isStack = true := by
  unfold parseBindRules at h
  split at h
  · cases h
  · cases h
  · next c' ok hc =>
    split at h
    · next hok =>
      cases h
      subst hok
      unfold convert at hc
      split at hc
      · split at hc
        · cases hc
        · unfold finish at hc
          split at hc
          · cases hc
          · cases hc
          · cases hc
          · split at hc
            · cases hc
            · rw [← (Prod.mk.inj (Outcome.ok.inj hc)).1]; rfl
      · cases hc
    · cases h

/-- **C77** for `BindRules.Parse`. -/
theorem C77_bind (env : Env) (text : BCtx → Str) (parser : Str → Option PTree) :
    AllOrNothing (BCtx.parseInto env text parser) := by
  intro raw
  simp only [BCtx.parseInto]
  cases h : readRules env text parser raw with
  | panic => exact Or.inr (Or.inr fun _ => rfl)
  | err => exact Or.inr (Or.inl fun _ => rfl)
  | ok c =>
    refine Or.inl ⟨c, fun r => ?_⟩
    unfold readRules at h
    split at h
    · cases h
    · have := convert_rules h
      cases c with
      | rule _ => cases this
      | rules => rfl
      | zero => rfl

/-- **C77** for `TargetRules.Parse`. -/
theorem C77_targets (eq : Str → Str → Bool) (read : Str → Option Str) (text : List TRule → Str)
    (parser : Str → Option (List TRule)) :
    AllOrNothing (fun r raw => .ok (TRs.parseInto eq read text parser r raw)) := by
  intro raw
  simp only [TRs.parseInto]
  cases h : readTargets eq read text parser raw with
  | mk rs ok =>
    cases ok
    · exact Or.inr (Or.inl fun _ => rfl)
    · exact Or.inl ⟨rs, fun _ => rfl⟩

theorem processLoop_ne (w : World) (rd : Str → Option Store) : ∀ (ts : List (Option PB.Tokens)) (es : List PBRule),
    processLoop w rd es ts ≠ .err
  | [], es => by simp [processLoop]
  | none :: ts, es => by rw [processLoop]; exact processLoop_ne w rd ts es
  | some t :: ts, es => by
    rw [processLoop]
    split
    · simp
    · simp
    · exact processLoop_ne w rd ts _

/-- **C77** for `PermissionBindRules.Parse`. -/
theorem C77_permission (w : World) (rd : Str → Option Store) (parser : Str → Option (List (Option PB.Tokens))) :
    AllOrNothing (PB.parseInto w rd parser) := by
  intro raw
  simp only [PB.parseInto]
  cases parser raw with
  | none => exact Or.inr (Or.inl fun _ => rfl)
  | some ts =>
    simp only
    cases h : processAll w rd ts with
    | panic => exact Or.inr (Or.inr fun _ => rfl)
    | err => exact absurd h (processLoop_ne w rd ts [])
    | ok p =>
      obtain ⟨p, ok⟩ := p
      cases ok
      · exact Or.inr (Or.inl fun _ => rfl)
      · exact Or.inl ⟨p, fun _ => rfl⟩

/-- **C77** for `Instruction.Parse`. -/
theorem C77_instruction (w : World) (rd : Str → Option Store) (parser : Str → Option Ins.Tokens) :
    AllOrNothing (Ins.parseInto w rd parser) := by
  intro raw
  simp only [Ins.parseInto]
  cases parser (Misc.condenseWHSP raw) with
  | none => exact Or.inr (Or.inl fun _ => rfl)
  | some t =>
    simp only
    cases h : Ins.parse w rd t with
    | panic => exact Or.inr (Or.inr fun _ => rfl)
    | err => exact absurd h (Ins.C53_no_error w rd t)
    | ok i =>
      simp only [Ins.clobber]
      cases Ins.valid i
      · exact Or.inr (Or.inl fun _ => rfl)
      · exact Or.inl ⟨i, fun _ => rfl⟩

/-! What is stored -/

/-- **C77.** A text the parser refuses leaves every receiver as it was. -/
theorem C77_refused (raw : Str) (ha : Str.IsAscii raw) (hq : Quiet false false raw) :
    (∀ (env : Env) (text : BCtx → Str) (parser : Str → Option PTree), Tolerant parser → parser raw = none →
      ∀ r, BCtx.parseInto env text parser r raw = .ok (r, false)) ∧
    (∀ (E : EqualFold) (d : Oid.DotReader) (text : List TRule → Str) (parser : Str → Option (List TRule)),
      Tolerant parser → parser raw = none → ∀ r, TRs.parseInto E.eq d.read text parser r raw = (r, false)) ∧
    (∀ (w : World) (rd : Str → Option Store) (parser : Str → Option (List (Option PB.Tokens))), parser raw = none →
      ∀ r, PB.parseInto w rd parser r raw = .ok (r, false)) ∧
    (∀ (w : World) (rd : Str → Option Store) (parser : Str → Option Ins.Tokens), Tolerant parser →
      parser raw = none → ∀ r, Ins.parseInto w rd parser r raw = .ok (r, false)) := by
  refine ⟨fun env text parser hp hn r => ?_, fun E d text parser hp hn r => ?_, fun w rd parser hn r => ?_,
    fun w rd parser hp hn r => ?_⟩
  · simp only [BCtx.parseInto, readRules, parser_condense hp ha hq, hn]
  · simp only [TRs.parseInto, readTargets, parser_condense hp ha hq, hn]; rfl
  · simp only [PB.parseInto, hn]
  · simp only [Ins.parseInto, parser_condense hp ha hq, hn]

/-- **C77** for bind rules: a text all of whose conditions are complete and readable replaces
every receiver by bind rules that say what the text says. -/
theorem C77_bind_says (F : EqualFold) (env : Env) (hP : Proper env F) (P : Printer)
    (parser : Str → Option PTree) (hp : Tolerant parser) (raw : Str) (ha : Str.IsAscii raw)
    (hq : Quiet false false raw) (k : Str) (p : Bool) (es : List PTree)
    (ht : parser raw = some (.stack k p es)) (hk : (PTree.stack k p es).Known) (hf : (PTree.stack k p es).Filled)
    (hg : ∀ r ∈ (PTree.stack k p es).conds, ReadableB F r ∧ r.core.init = true ∧ r.core.op ≠ 0 ∧ ¬ BareMark r) :
    ∃ b, (∀ r, BCtx.parseInto env P.text parser r raw = .ok (b, true)) ∧ SaysBind F (.stack k p es) b := by
  obtain ⟨c, hc⟩ := C46_succeeds F env hP P k p es hk hf hg
  refine ⟨c, fun r => ?_, C46_readable_partial F env hP P.text _ hk (fun r hr => (hg r hr).1) c hc⟩
  have := convert_rules hc
  simp only [BCtx.parseInto, readRules, parser_condense hp ha hq, ht, hc]
  cases c with
  | rule _ => cases this
  | rules => rfl
  | zero => rfl

/-- **C77** for bind rules, all texts: what replaces the receiver says what the text says without
the entries of each stack from its first unreadable condition on (see C46). -/
theorem C77_bind_cut (F : EqualFold) (env : Env) (hP : Proper env F) (text : BCtx → Str)
    (parser : Str → Option PTree) (hp : Tolerant parser) (raw : Str) (ha : Str.IsAscii raw)
    (hq : Quiet false false raw) (t : PTree) (ht : parser raw = some t) (hk : t.Known) (r b : BCtx)
    (h : BCtx.parseInto env text parser r raw = .ok (b, true)) (ok : BRule → Bool)
    (hok : ∀ r, ok r = true ↔ ReadableB F r) : SaysBind F (t.cut ok) b := by
  simp only [BCtx.parseInto, readRules, parser_condense hp ha hq, ht] at h
  cases hc : parseBindRules env text t with
  | panic => rw [hc] at h; cases h
  | err => rw [hc] at h; cases h
  | ok c =>
    rw [hc] at h
    have hb : b = c := by
      have := convert_rules hc
      cases c with
      | rule _ => cases this
      | rules => cases h; rfl
      | zero => cases h; rfl
    subst hb
    exact C46_cut_partial F env hP text t hk b hc ok hok

/-- **C77** for target rules, no two of one keyword: they replace every receiver if all can be
read, and none if one cannot. -/
theorem C77_targets_says (E : EqualFold) (d : Oid.DotReader) (text : List TRule → Str)
    (parser : Str → Option (List TRule)) (hp : Tolerant parser) (raw : Str) (ha : Str.IsAscii raw)
    (hq : Quiet false false raw) (rs : List TRule) (hr : parser raw = some rs) (ht : text rs ≠ [])
    (hs : ∀ r ∈ rs, Parsed r)
    (hd : ∀ (i j : Nat) (a b : TRule) (k : TKw), i < j → rs[i]? = some a → rs[j]? = some b → Has a k → ¬ Has b k) :
    ((∀ r ∈ rs, ¬ Unreadable E d r) → ∃ new, AllRead E d rs new ∧
      ∀ r, TRs.parseInto E.eq d.read text parser r raw = (new, true)) ∧
    ((∃ r ∈ rs, Unreadable E d r) → ∀ r, TRs.parseInto E.eq d.read text parser r raw = (r, false)) := by
  obtain ⟨h1, h2⟩ := C45_distinct_partial E d rs hs hd
  have e : readTargets E.eq d.read text parser raw = processTargetRules E.eq d.read rs := by
    simp only [readTargets, parser_condense hp ha hq, hr, if_neg ht]
  constructor
  · intro h
    obtain ⟨h3, h4⟩ := h2 h
    refine ⟨_, h4, fun r => ?_⟩
    simp only [TRs.parseInto, e, h3, if_true]
    rw [← h3]
  · intro h r
    simp only [TRs.parseInto, e, h1 h]
    rfl

/-- **C77** for permission bind rules: if all texts can be read, the rules replace every receiver,
without repetitions; a hopeless text behind readable ones leaves every receiver as it was. -/
theorem C77_permission_says (F : EqualFold) (w : World) (hP : Proper w.env F) (P : Printer) (ht : w.text = P.text)
    (rd : Str → Option Store) (parser : Str → Option (List (Option PB.Tokens))) (raw : Str)
    (us vs : List (Option PB.Tokens)) (hr : parser raw = some (us ++ vs)) (hu : ∀ x, some x ∈ us → Legible F x) :
    (vs = [] → ∃ rs, SaysAll F us rs ∧
      ∀ r, PB.parseInto w rd parser r raw = .ok (firsts (PB.sameText w) (rs.map some), true)) ∧
    (∀ x vs', vs = some x :: vs' → Hopeless F x →
      (∀ r, PB.parseInto w rd parser r raw = .ok (r, false)) ∨ ∀ r, PB.parseInto w rd parser r raw = .panic) := by
  obtain ⟨rs, h1, h2, -⟩ := Ins.says_all hP ht us hu
  have tr : ∀ a b c, PB.sameText w a b = true → PB.sameText w b c = true → PB.sameText w a c = true := by
    intro a b c h1 h2
    simp only [PB.sameText, hP.1] at *; exact F.trans _ _ _ h1 h2
  constructor
  · rintro rfl
    refine ⟨rs, h2, fun r => ?_⟩
    have hl := Ins.loop_eq (rd := rd) h1 (.inl rfl) []
    rw [foldl_addNew _ tr] at hl
    simp only [PB.parseInto, hr, processAll, hl, List.isEmpty_nil, if_true]
  · rintro x vs' rfl hx
    have hno := C90_refuses F w hP P ht x hx
    cases hpr : process w x with
    | ok r => exact absurd hpr (hno r)
    | err =>
      refine Or.inl fun r => ?_
      have hl := Ins.loop_eq (rd := rd) h1 (.inr ⟨x, vs', rfl, hpr⟩) []
      simp only [PB.parseInto, hr, processAll, hl, List.isEmpty_cons]
      rfl
    | panic =>
      refine Or.inr fun r => ?_
      have : ∀ (us : List (Option PB.Tokens)) (rs : List Store), Ins.ReadAll w us rs → ∀ es,
          processLoop w rd es (us ++ some x :: vs') = .panic := by
        intro us rs hra
        induction hra with
        | nil => intro es; simp only [List.nil_append, processLoop, hpr]
        | skip _ ih => intro es; exact ih es
        | cons hr _ ih => intro es; simp only [List.cons_append, processLoop, hr]; exact ih _
      simp only [PB.parseInto, hr, processAll, this us rs h1]

/-- **C77** for instructions: a text whose rules can all be read, no two target rules of one
keyword, replaces every receiver by an instruction with the label, the permission bind rules and
the target rules of the text. -/
theorem C77_instruction_says (F : EqualFold) (d : Oid.DotReader) (w : World) (hP : Proper w.env F) (P : Printer)
    (hd : w.dot = d.read) (ht : w.text = P.text) (rd : Str → Option Store) (parser : Str → Option Ins.Tokens)
    (hp : Tolerant parser) (raw : Str) (ha : Str.IsAscii raw) (hq : Quiet false false raw) (t : Ins.Tokens)
    (hr : parser raw = some t) (hl : ∀ x, some x ∈ t.rules → Legible F x) (hs : ∀ r ∈ t.targets, Parsed r)
    (hu : ∀ r ∈ t.targets, ¬ Unreadable F d r)
    (hk : ∀ (i j : Nat) (a b : TRule) (k : TKw), i < j → t.targets[i]? = some a → t.targets[j]? = some b →
      Has a k → ¬ Has b k) :
    ∃ i, (∀ r, Ins.parseInto w rd parser r raw = .ok (i, true)) ∧ Ins.acl i = t.label ∧
      (∀ x, some x ∈ t.rules → Ins.Present F w x (Ins.pbrs i)) ∧ AllRead F d t.targets (Ins.trs i) := by
  obtain ⟨i, h1, h2⟩ := Ins.C53_readable_partial w F d P hP hd ht rd t hl hs hu hk
  refine ⟨i, fun r => ?_, h2⟩
  have hv : Ins.valid i = true := by
    revert h1
    simp only [Ins.parse, Ins.assemble]
    split
    · intro h; cases h
    · intro h; cases h
    · intro h; cases h; rfl
  simp only [Ins.parseInto, parser_condense hp ha hq, hr, h1, Ins.clobber, hv, if_true]

/-- **C77.** After any number of texts the receiver holds what the last readable one says. -/
theorem C77_last {σ : Type} (f : σ → Str → Outcome (σ × Bool)) (hf : AllOrNothing f) (r : σ)
    (raws : List Str) (b : σ) (h : AfterReading f r raws b) : LastGood f r raws b := by
  induction h with
  | nil => exact Or.inl ⟨rfl, by simp⟩
  | @step raws a b raw ok h1 h2 ih =>
    rcases hf raw with ⟨new, hn⟩ | hn | hn
    · rw [hn] at h2
      cases h2
      exact Or.inr ⟨raws, raw, [], rfl, hn, by simp⟩
    · rw [hn] at h2
      cases h2
      rcases ih with ⟨e, hr⟩ | ⟨us, x, vs, e, hx, hv⟩
      · refine Or.inl ⟨e, fun y hy => ?_⟩
        rcases List.mem_append.1 hy with hy | hy
        · exact hr y hy
        · rw [List.mem_singleton.1 hy]; exact hn
      · refine Or.inr ⟨us, x, vs ++ [raw], by simp [e], hx, fun y hy => ?_⟩
        rcases List.mem_append.1 hy with hy | hy
        · exact hv y hy
        · rw [List.mem_singleton.1 hy]; exact hn
    · rw [hn] at h2; cases h2

/-- The condition of the examples. -/
def oneTree : PTree := .stack b!"AND" false [.cond (rawRule b!"ssf" Ge' b!"71")]

theorem one_legible : Legible .ref ⟨⟨some true, [b!"read"]⟩, oneTree⟩ := readable_legible

/-- Bind rules, permission bind rules and an instruction with the condition `ssf >= "71"` replace
what was there. -/
example (r : BCtx) (r' : List PBRule) (r'' : Ins.Instruction) :
    (∃ b, BCtx.parseInto plainEnv plainPrinter.text (fun _ => some oneTree) r b!"x" = .ok (b, true) ∧
      SaysBind .ref oneTree b) ∧
    (∃ s, Says .ref ⟨⟨some true, [b!"read"]⟩, oneTree⟩ s ∧
      PB.parseInto plainWorld (fun _ => none) (fun _ => some [some ⟨⟨some true, [b!"read"]⟩, oneTree⟩]) r' b!"x" =
        .ok ([some s], true)) ∧
    (∃ i, Ins.parseInto plainWorld (fun _ => none)
      (fun _ => some ⟨b!"x", [], [some ⟨⟨some true, [b!"read"]⟩, oneTree⟩]⟩) r'' b!"x" = .ok (i, true) ∧
      Ins.acl i = b!"x") := by
  obtain ⟨-, -, hk, hf, hg⟩ := one_legible
  have hx : Str.IsAscii b!"x" := by decide
  have hq : Quiet false false b!"x" := by simp [Quiet]
  refine ⟨?_, ?_, ?_⟩
  · obtain ⟨b, h1, h2⟩ := C77_bind_says .ref plainEnv plain_proper plainPrinter (fun _ => some oneTree)
      (fun _ _ _ => rfl) b!"x" hx hq _ _ _ rfl hk hf hg
    exact ⟨b, h1 r, h2⟩
  · obtain ⟨rs, h1, h2⟩ := (C77_permission_says .ref plainWorld plain_proper plainPrinter rfl (fun _ => none)
      (fun _ => some [some ⟨⟨some true, [b!"read"]⟩, oneTree⟩]) b!"x"
      [some ⟨⟨some true, [b!"read"]⟩, oneTree⟩] [] rfl (by
        intro x hx; simp only [List.mem_singleton, Option.some.injEq] at hx; subst hx; exact one_legible)).1 rfl
    cases h1 with
    | cons h3 h4 => cases h4; exact ⟨_, h3, h2 r'⟩
  · obtain ⟨i, h1, h2, -⟩ := C77_instruction_says .ref Oid.plainReader plainWorld plain_proper plainPrinter rfl rfl
      (fun _ => none) (fun _ => some ⟨b!"x", [], [some ⟨⟨some true, [b!"read"]⟩, oneTree⟩]⟩) (fun _ _ _ => rfl)
      b!"x" hx hq _ rfl (by
        intro x hx; simp only [List.mem_singleton, Option.some.injEq] at hx; subst hx; exact one_legible)
      (by simp) (by simp) (by simp)
    exact ⟨i, h1 r'', h2⟩

/-- A parser for the example: target rules for every attribute name. -/
def attrParser (s : Str) : Option (List TRule) :=
  if s = [] then none else some [sampleRule b!"targetattr" s]

example (r : List TRule) : ∃ new, AllRead .ref Oid.plainReader [sampleRule b!"TargetAttr" b!"cn"] new ∧
    TRs.parseInto EqualFold.ref.eq Oid.plainReader.read (fun _ => b!"x")
      (fun _ => some [sampleRule b!"TargetAttr" b!"cn"]) r b!"x" = (new, true) := by
  have hp : Parsed (sampleRule b!"TargetAttr" b!"cn") := ⟨_, _, _, sample_attr, rfl⟩
  obtain ⟨new, h1, h2⟩ := (C77_targets_says .ref Oid.plainReader (fun _ => b!"x")
    (fun _ => some [sampleRule b!"TargetAttr" b!"cn"]) (fun _ _ _ => rfl) b!"x" (by decide) (by simp [Quiet])
    [sampleRule b!"TargetAttr" b!"cn"] rfl (by simp) (by intro r hr; rw [List.mem_singleton.1 hr]; exact hp) (by
      intro i j a b k hij ha hb
      have := (List.getElem?_eq_some_iff.1 hb).1
      simp at this
      omega)).1 (by
    intro r hr hu
    rw [List.mem_singleton.1 hr] at hu
    have hb : (TRule.assertValue EqualFold.ref.eq Oid.plainReader.read (sampleRule b!"TargetAttr" b!"cn")).2 = true := by
      decide +kernel
    rw [(C45_rule .ref Oid.plainReader _ hp).1 hu] at hb
    cases hb)
  exact ⟨new, h1, h2 r⟩

/-- The step of the example. -/
def attrStep (r : List TRule) (raw : Str) : List TRule × Bool :=
  TRs.parseInto EqualFold.ref.eq Oid.plainReader.read TRs.string attrParser r raw

example : LastGood (fun r raw => .ok (attrStep r raw)) [] [b!"cn", b!"sn", b!""] (attrStep [] b!"sn").1 := by
  refine C77_last _ (C77_targets _ _ _ _) _ _ _ ?_
  have h1 : AfterReading (fun r raw => .ok (attrStep r raw)) [] [b!"cn"] (attrStep [] b!"cn").1 :=
    .step (raws := []) .nil rfl
  have h2 : AfterReading (fun r raw => .ok (attrStep r raw)) [] [b!"cn", b!"sn"] (attrStep [] b!"sn").1 :=
    .step (raws := [b!"cn"]) (ok := true) h1 rfl
  exact .step (raws := [b!"cn", b!"sn"]) (ok := false) h2 rfl

end Verif.Reading
