import Verif.Spec.RoundTrip
import Verif.Props.Whole

/-!
# What a parser returns for an instruction, as it stands in the text
-/

namespace Verif.Back
open Verif Verif.Spec Verif.Bind Verif.Rules

/-- The values of a parser as they stand in the text: for the quotation style 0
(`MultivalSliceQuotes`) every value has quotation marks, otherwise all values have them
together. -/
def valuesText (style : Int) (vs : List Str) : Str :=
  if style = 0 then Str.join b!" || " (vs.map fun v => b!"\"" ++ v ++ b!"\"")
  else b!"\"" ++ Str.join b!" || " vs ++ b!"\""

/-- A target rule of a parser as it stands in the text. -/
def targetText (q : TRule) : Str :=
  match q.ex with
  | .raw style vs => b!"( " ++ q.core.kw ++ b!" " ++ Cop.string q.core.op ++ b!" " ++ valuesText style vs ++ b!" )"
  | _ => []

/-- A target rule of a parser that splits texts where it should, as `FairCond` for bind rules. -/
def FairTarget (q : TRule) : Prop :=
  q.core.init = true ∧ (∃ k : TKw, q.core.kw = k.name) ∧ Cop.valid q.core.op = true ∧
    ∃ style vs, q.ex = .raw style vs ∧ vs ≠ [] ∧ (∀ v ∈ vs, (34 : Byte) ∉ v ∧ NoBars v) ∧
      (vs.length = 1 → style ≠ 0)

/-- The permission of a parser as it stands in the text. -/
def rightsText (t : Rights.Tokens) : Str :=
  (match t.allow with
    | some true => b!"allow"
    | some false => b!"deny"
    | none => []) ++ b!"(" ++ Str.join b!"," t.rights ++ b!")"

/-- There is a permission, with at least one word, and the words have neither commas nor closing
parentheses. -/
def FairRights (t : Rights.Tokens) : Prop :=
  t.allow ≠ none ∧ t.rights ≠ [] ∧ ∀ v ∈ t.rights, (44 : Byte) ∉ v ∧ (41 : Byte) ∉ v

/-- A permission bind rule of a parser as it stands in the text. -/
def pbText (P : Printing) (many : Bool → List Str → Str) (t : PB.Tokens) : Str :=
  rightsText t.p ++ b!" " ++ (treeCtx t.b).text (BExpr.texts P) many ++ b!";"

/-- An instruction of a parser, all of whose rules are permission bind rules, as it stands in the
text. -/
def insText (P : Printing) (many : Bool → List Str → Str) (label : Str) (targets : List TRule)
    (rules : List PB.Tokens) : Str :=
  (targets.map targetText).flatten ++ b!"(version 3.0; acl \"" ++ label ++ b!"\"; " ++
    Str.join b!" " (rules.map (pbText P many)) ++ b!")"

/-- The parts of a parser for the text `s` of an instruction. -/
def SplitsI (P : Printing) (many : Bool → List Str → Str) (s : Str) (t : Ins.Tokens) : Prop :=
  ∃ rules : List PB.Tokens, t.rules = rules.map some ∧ (34 : Byte) ∉ t.label ∧
    (∀ q ∈ t.targets, FairTarget q) ∧
    (∀ x ∈ rules, FairRights x.p ∧ Splits P many ((treeCtx x.b).text (BExpr.texts P) many) x.b) ∧
    insText P many t.label t.targets rules = s

/-- The target rule shows all of it, as `Whole` for bind rules. -/
def WholeT (F : EqualFold) (d : Oid.DotReader) (r : TRule) : Prop :=
  Verif.Whole.TargetShown r ∧ (∃ k : TKw, r.core.kw = k.name ∧ SoundT F d k r.ex) ∧ ∀ v ∈ r.ex.texts, NoBars v

/-- The permission bind rule shows all of it. -/
def WholeP (F : EqualFold) (P : Printing) (p : Rights.Permission) (b : BCtx) : Prop :=
  (Rights.valid p = true ∧ Rights.WithinTen p) ∧ b.Sound ∧ b.Clear ∧ ∀ r ∈ b.leaves, Whole F P r

/-- The instruction shows all of it: the label has no quotation mark, the target rules have
different keywords, and the permission bind rules have texts that differ in more than letter
case. -/
def WholeI (F : EqualFold) (d : Oid.DotReader) (P : Printing) (w : PB.World) (i : Ins.Body) : Prop :=
  (34 : Byte) ∉ i.acl ∧ (∀ r ∈ i.trs, WholeT F d r) ∧
    (∀ (m n : Nat) (a b : TRule), m < n → i.trs[m]? = some a → i.trs[n]? = some b → a.core.kw ≠ b.core.kw) ∧
    (∀ r ∈ i.pbrs, ∃ p b, r = some ⟨p, some b⟩ ∧ WholeP F P p b) ∧
    Distinct (fun a b => F.eq (PB.string w a) (PB.string w b)) i.pbrs

/-- Keyword, operator and value of a target rule. -/
def contentT (r : TRule) : RuleCore × TExpr := (r.core, r.ex)

/-- The permission bind rules allow or deny the same rights, have the same bind rules in the same
order and hold under the same circumstances. -/
def SameP (S : Shifty 16) (r r' : PB.PBRule) : Prop :=
  ∃ p b p' b', r = some ⟨p, some b⟩ ∧ r' = some ⟨p', some b'⟩ ∧
    Rights.stored p = Rights.stored p' ∧ (∀ q, Rights.grants S p q = Rights.grants S p' q) ∧
    (b.leaves.map fun q => (q.core, q.ex)) = (b'.leaves.map fun q => (q.core, q.ex)) ∧
    ∀ neg τ, (∀ q q', (q.core, q.ex) = (q'.core, q'.ex) → τ q = τ q') → b.eval neg τ = b'.eval neg τ

end Verif.Back
