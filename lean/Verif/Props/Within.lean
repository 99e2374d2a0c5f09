import Verif.Model.Valid
import Verif.Props.Find

/-!
# Lists hold values that are valid (C120)
-/

namespace Verif.Within
open Verif Verif.Attr Verif.DN Verif.DNList Verif.Oid Verif.Filter Verif.Rules Verif.PB Verif.Ins

/-! ## What is claimed -/

/-- A call on a list of attribute filters. -/
inductive FCall where
  | push (x : List AFOArg)
  | pop

def FCall.run (r : AFO) : FCall → AFO
  | .push x => r.push x
  | .pop => r.pop.1

/-- **C120**, attribute types. -/
def AttributesValid : Prop :=
  ∀ (F : EqualFold) (init : List Attr.PushArg) (h : List ListCall), ∀ a ∈ listAfter F.eq init h,
    Valid.attrType a = true

/-- **C120**, target names. -/
def TargetNamesValid : Prop :=
  ∀ (F : EqualFold) (kw : TargetKeyword) (h : List DN.TCall),
    ∀ d ∈ (h.foldl (targetStep F.eq) ⟨kw, []⟩).entries, Valid.name d = true

/-- **C120**, names and addresses of bind rules. -/
def BindNamesValid : Prop :=
  ∀ (F : EqualFold) (kw : BindKeyword) (h : List DN.BCall),
    ∀ e ∈ (h.foldl (bindStep F.eq) ⟨kw, []⟩).entries,
      (∀ d, e = .dn d → Valid.name d = true) ∧ ∀ u, e = .uri u → Uri.LDAPURI.valid u = true

/-- **C120**, object identifiers: every entry is one that is valid. -/
def IdentifiersValid : Prop :=
  ∀ (F : EqualFold) (R : DotReader) (k : TargetKeyword), k = TargetCtrl ∨ k = TargetExtOp →
    ∀ h : List Oid.Call, (∀ c ∈ h, c.Proper R) →
      ∀ e ∈ (h.foldl (step F.eq R.read) ⟨k, []⟩).entries, ∃ o, e = .oid o ∧ Valid.oid o = true

/-- **C120**, attribute filters. -/
def FiltersValid : Prop :=
  ∀ (x : List AFOArg) (h : List FCall), ∀ a ∈ (h.foldl FCall.run (mkAFO x)).entries,
    AttributeFilter.valid a = true

/-- **C120**, target rules. -/
def TargetRulesValid : Prop :=
  ∀ h : List Rules.TCall, ∀ r ∈ h.foldl Rules.TCall.run [], r.valid = true

/-- **C120**, permission bind rules. -/
def PermissionRulesValid : Prop :=
  ∀ (w : World) (rd : Str → Option Store) (stop : Bool) (x : List PArg) (h : List PCall),
    ∀ r ∈ h.foldl (PCall.run w rd) (PBRs w rd stop x), PB.valid r = true

/-- **C120**, instructions. -/
def InstructionsValid : Prop :=
  ∀ (w : World) (rd : Str → Option Instruction) (h : List ICall),
    ∀ i ∈ h.foldl (ICall.run w rd) [], Ins.valid i = true

/-! ## What holds -/

theorem push1_filters {r : AFO} (x : AFOArg) {P : AttributeFilter → Prop} (hr : ∀ a ∈ r.entries, P a)
    (hp : ∀ a, AttributeFilter.valid a = true → P a) : ∀ a ∈ (r.push1 x).entries, P a := by
  have one : ∀ a, ∀ b ∈ pushAF r.entries a, P b := by
    intro a b hb
    unfold pushAF at hb
    split at hb
    · exact hr b hb
    · split at hb
      · next hv =>
        rcases List.mem_append.1 hb with hb | hb
        · exact hr b hb
        · rw [List.mem_singleton.1 hb]; exact hp a hv
      · exact hr b hb
  cases x with
  | op o => exact hr
  | other => exact hr
  | af a => exact one a
  | str s =>
    rw [AFO.push1]
    split
    · exact hr
    · exact one _

theorem push_filters (x : List AFOArg) {P : AttributeFilter → Prop}
    (hp : ∀ a, AttributeFilter.valid a = true → P a) : ∀ r : AFO, (∀ a ∈ r.entries, P a) →
    ∀ a ∈ (r.push x).entries, P a := by
  induction x with
  | nil => exact fun _ h => h
  | cons y x ih => exact fun r hr => ih _ (push1_filters y hr hp)

theorem history_filters {P : AttributeFilter → Prop} (hp : ∀ a, AttributeFilter.valid a = true → P a)
    (h : List FCall) : ∀ r : AFO, (∀ a ∈ r.entries, P a) → ∀ a ∈ (h.foldl FCall.run r).entries, P a := by
  induction h with
  | nil => exact fun _ h => h
  | cons c h ih =>
    intro r hr
    refine ih _ ?_
    cases c with
    | push x => exact push_filters x hp r hr
    | pop => exact fun a ha => hr a (List.dropLast_subset _ ha)

/-- **C120** holds for attribute types, target names, attribute filters, permission bind rules and
instructions. -/
theorem C120_valid : AttributesValid ∧ TargetNamesValid ∧ FiltersValid ∧ PermissionRulesValid ∧
    InstructionsValid := by
  refine ⟨fun F init h a ha => ?_, fun F kw h d hd => ?_, fun x h a ha => ?_, fun w rd stop x h r hr => ?_,
    fun w rd h i hi => ?_⟩
  · obtain ⟨t, rfl, ht⟩ := Find.after_named F init h a ha
    unfold Valid.attrType AttributeType.isZero
    cases t with
    | nil => exact absurd rfl ht
    | cons c t => rfl
  · obtain ⟨w, rfl⟩ := (C34_target_invariant F kw h).2.1 d hd
    rfl
  · exact history_filters (fun _ h => h) h _ (push_filters x (fun _ h => h) _ (by simp)) a ha
  · exact ((C49_invariant w rd stop x h).1 r hr).2
  · exact (C52_condensed_partial w rd h).1 i hi

/-- **C120**, what the entries are: names that are not empty, names with the keyword of the list, filters
with both parts, rules with both parts. -/
theorem C120_parts (F : EqualFold) :
    (∀ init h, ∀ a ∈ listAfter F.eq init h, ∃ t : Str, t ≠ [] ∧ a = some t) ∧
    (∀ kw (h : List DN.TCall), ∀ d ∈ (h.foldl (targetStep F.eq) ⟨kw, []⟩).entries, ∃ t : Str, d = some ⟨kw, some t⟩) ∧
    (∀ x (h : List FCall), ∀ a ∈ (h.foldl FCall.run (mkAFO x)).entries,
      ∃ n f : Str, n ≠ [] ∧ f ≠ [] ∧ a = some ⟨some n, some f⟩) ∧
    ∀ w rd stop x (h : List PCall), ∀ r ∈ h.foldl (PCall.run w rd) (PBRs w rd stop x),
      ∃ p b, r = some ⟨some p, some b⟩ := by
  refine ⟨fun init h a ha => ?_, fun kw h d hd => (C34_target_invariant F kw h).2.1 d hd, fun x h a ha => ?_,
    fun w rd stop x h r hr => ((C49_invariant w rd stop x h).1 r hr).1⟩
  · obtain ⟨t, e, ht⟩ := Find.after_named F init h a ha
    exact ⟨t, ht, e⟩
  · obtain ⟨n, f, e, hn, hf⟩ := (Filter.valid_iff a).1
      (history_filters (fun _ h => h) h _ (push_filters x (fun _ h => h) _ (by simp)) a ha)
    exact ⟨n, f, hn, hf, e⟩

/-- **C120** for names of bind rules.  Missing: the addresses, which any push adds as they are. -/
theorem C120_bind_names_partial (F : EqualFold) (kw : BindKeyword) (h : List DN.BCall) :
    (∀ d, .dn d ∈ (h.foldl (bindStep F.eq) ⟨kw, []⟩).entries → Valid.name d = true) ∧
    ∀ u, (UDNs F.eq [.uri u]).entries = [.uri u] := by
  refine ⟨fun d hd => ?_, fun u => rfl⟩
  obtain ⟨t, rfl⟩ := (C34_bind_invariant F kw h).2.1 d hd
  rfl

/-- **C120** for object identifiers.  Missing: keywords, which are added as they are. -/
theorem C120_identifiers_partial (F : EqualFold) (R : DotReader) (k : TargetKeyword)
    (hk : k = TargetCtrl ∨ k = TargetExtOp) (h : List Oid.Call) (hc : ∀ c ∈ h, c.Proper R) :
    (∀ o, .oid o ∈ (h.foldl (step F.eq R.read) ⟨k, []⟩).entries → Valid.oid o = true) ∧
    ∀ k', k' = TargetCtrl ∨ k' = TargetExtOp →
      (OIDs.push F.eq R.read ⟨k, []⟩ [.kw k']).entries = [.kw k'] := by
  obtain ⟨hk', hset, _⟩ := C37_invariant F R hk h hc
  refine ⟨fun o ho => ?_, ?_⟩
  · obtain ⟨t, s, rfl, hs⟩ := hset o ho
    have hst : Set R (some ⟨(h.foldl (step F.eq R.read) ⟨k, []⟩).kw, some t⟩)
        (h.foldl (step F.eq R.read) ⟨k, []⟩).kw t :=
      ⟨rfl, by rcases hk' with h | h <;> rw [h] <;> decide, s, hs⟩
    unfold Valid.oid
    rw [(set_not_zero hst).1]
    rfl
  · intro k' h'
    rcases hk with rfl | rfl <;> rcases h' with rfl | rfl <;> rfl

/-- **C120** for target rules.  Missing: that a rule has an operator its keyword allows, and a value; the
list takes any rule with a keyword that it has not. -/
theorem C120_target_rules_partial (h : List Rules.TCall) :
    (∀ r ∈ h.foldl Rules.TCall.run [], ∃ k, Has r k) ∧
    ∀ (stop : Bool) (r : TRule) (k : Spec.TKw), Has r k → TRs.push stop [] [.rule r] = [r] := by
  refine ⟨(C43_invariant h).known, fun stop r k hr => ?_⟩
  exact (C43_push stop [] (C43_invariant [])).1 r k hr (fun e he => by cases he)

/-! ## What fails -/

/-- A target rule without operator: `TR("target", "blarg", "x")`. -/
def noOperator : TRule := TR (.str b!"target") (.str b!"blarg") (.text b!"x")

/-- **C120** fails: lists of names hold unset addresses, lists of identifiers hold keywords, and lists of
target rules hold rules without operator. -/
theorem C120_counterexample : ¬ BindNamesValid ∧ ¬ IdentifiersValid ∧ ¬ TargetRulesValid := by
  refine ⟨fun h => ?_, fun h => ?_, fun h => ?_⟩
  · have := (h EqualFold.ref BindUDN [.push [.uri none]] (.uri none)
      (by show BEntry.uri none ∈ [BEntry.uri none]; simp)).2 none rfl
    cases this
  · obtain ⟨o, e, -⟩ := h EqualFold.ref plainReader TargetCtrl (.inl rfl) [.push [.kw TargetCtrl]] (by
      intro c hc
      rw [List.mem_singleton.1 hc]
      intro o ho
      cases List.mem_singleton.1 ho) (.kw TargetCtrl) (by decide +kernel)
    cases e
  · have hk : Has noOperator .target := ⟨rfl, by decide +kernel⟩
    have := h [.push true [.rule noOperator]] noOperator (by
      show noOperator ∈ TRs.push true [] [.rule noOperator]
      rw [(C120_target_rules_partial []).2 true noOperator .target hk]
      simp)
    revert this
    decide +kernel

/-! ## Samples -/

/-- A list of filters that was pushed to and popped from. -/
example : ([FCall.push [.str b!"sn:(a=b)", .str b!"no filter", .af none], .pop, .push [.str b!"l:(a=b)"]].foldl
    FCall.run (mkAFO [.str b!"cn:(a=b)", .other])).entries.map AttributeFilter.string =
      [b!"cn:(a=b)", b!"l:(a=b)"] := by decide +kernel

/-- A rule without operator has a keyword and is not valid. -/
example : Has noOperator .target ∧ noOperator.valid = false := ⟨⟨rfl, by decide +kernel⟩, by decide +kernel⟩

end Verif.Within
