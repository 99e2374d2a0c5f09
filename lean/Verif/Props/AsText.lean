import Verif.Props.Within

/-!
# Values pushed as their texts (C121)
-/

namespace Verif.AsText
open Verif Verif.Spec Verif.Attr Verif.DN Verif.DNList Verif.Filter Verif.Rules

/-! ## What is claimed -/

/-- **C121**, attribute types. -/
def AttributesAsTexts : Prop :=
  ∀ (F : EqualFold) (r : ATs) (x : Str), AttributeType.isZero (AT x) = false →
    r.push F.eq [.str (AttributeType.string (AT x))] = r.push F.eq [.at_ (AT x)]

/-- **C121**, names of targets, with the keyword of the list. -/
def TargetNamesAsTexts : Prop :=
  ∀ (F : EqualFold) (r : TDNs) (t : Str),
    r.push F.eq [.str (TargetDN.string (some ⟨r.kw, some t⟩))] = r.push F.eq [.dn (some ⟨r.kw, some t⟩)]

/-- **C121**, names of bind rules, with the keyword of the list. -/
def BindNamesAsTexts : Prop :=
  ∀ (F : EqualFold) (r : BDNs) (t : Str),
    r.push F.eq [.str (BindDN.string (some ⟨r.kw, some t⟩))] = r.push F.eq [.dn (some ⟨r.kw, some t⟩)]

/-- **C121**, addresses among names of bind rules. -/
def AddressesAsTexts : Prop :=
  ∀ (F : EqualFold) (r : BDNs) (u : Uri.LDAPURI), Uri.LDAPURI.valid u = true →
    r.push F.eq [.str (Uri.LDAPURI.string u)] = r.push F.eq [.uri u]

/-- **C121**, attribute filters whose attribute is a name. -/
def FiltersAsTexts : Prop :=
  ∀ (r : AFO) (a f : Str), AttrName a → f ≠ [] →
    r.push [.str (AttributeFilter.string (some ⟨some a, some f⟩))] = r.push [.af (some ⟨some a, some f⟩)]

/-- **C121**, operations with filters whose attributes are names. -/
def OperationsAsTexts : Prop :=
  ∀ (r : AFOs) (delete : Bool) (ps : List (Str × Str)), ps ≠ [] → ps.Nodup →
    (∀ p ∈ ps, AttrName p.1 ∧ p.2 ≠ []) →
    r.push [.str (opWith delete ps).string] = r.push [.afo (opWith delete ps)]

/-- **C121**, target rules: whatever a text is to a list (`other`: it has no other case for it), it does as
the rule with this text does. -/
def TargetRulesAsTexts : Prop :=
  ∀ (stop : Bool) (es : List TRule) (r : TRule), r.valid = true →
    TRs.push stop es [.other] = TRs.push stop es [.rule r]

/-! ## What holds -/

theorem pair_text {a f : Str} (ha : AttrName a) (hf : f ≠ []) :
    AttributeFilter.string (some ⟨some a, some f⟩) = a ++ b!":" ++ f := by
  simpa [pairText] using string_pair (Uri.attrName_ne_nil ha) hf

/-- **C121** holds for attribute types, names and attribute filters. -/
theorem C121_texts : AttributesAsTexts ∧ TargetNamesAsTexts ∧ BindNamesAsTexts ∧ FiltersAsTexts := by
  refine ⟨fun F r x hx => ?_, fun F r t => ?_, fun F r t => ?_, fun r a f ha hf => ?_⟩
  · have e : AT x = some x := by
      unfold AT at hx ⊢
      split at hx
      · next h => rw [if_pos h]
      · cases hx
    show r.push1 F.eq _ = r.push1 F.eq _
    have h : castArg (.str (AttributeType.string (AT x))) = castArg (.at_ (AT x)) := by
      show PushArg.at_ (AT (AttributeType.string (AT x))) = .at_ (AT x)
      rw [e]; exact congrArg _ e
    unfold ATs.push1
    rw [h]
  · have h : pushTargetArg r.kw (.str (TargetDN.string (some ⟨r.kw, some t⟩))) =
        pushTargetArg r.kw (.dn (some ⟨r.kw, some t⟩)) := by
      show (if (Levels.LocalScheme ++ t).length > 0 then some (some (newDN (Levels.LocalScheme ++ t) r.kw)) else none) = _
      rw [Find.newDN_scheme, if_pos (by simp [Levels.LocalScheme])]
      simp [pushTargetArg, DN.isZero, DN.keyword]
    simp only [TDNs.push, pushTargetLoop, h]
  · have h : pushBindArg r.kw (.str (BindDN.string (some ⟨r.kw, some t⟩))) =
        pushBindArg r.kw (.dn (some ⟨r.kw, some t⟩)) := by
      show (if (Levels.LocalScheme ++ t).length > 0 then some (BEntry.dn (some (newDN (Levels.LocalScheme ++ t) r.kw))) else none) = _
      rw [Find.newDN_scheme, if_pos (by simp [Levels.LocalScheme])]
      simp [pushBindArg, DN.isZero, DN.keyword]
    simp only [BDNs.push, pushLoop, h]
  · simp only [AFO.push, List.foldl_cons, List.foldl_nil, AFO.push1, pair_text ha hf,
      ((C40_read_partial _ _).1).2 ⟨a, f, rfl, ha, rfl⟩]

/-- **C121** for addresses: the list shows the same texts.  Missing: the entry is then a name and no
address, so that the scope, the attributes and the filter are part of the name. -/
theorem C121_addresses_partial (F : EqualFold) (r : BDNs) (u : Uri.LDAPURI) (hu : Uri.LDAPURI.valid u = true) :
    (r.push F.eq [.str (Uri.LDAPURI.string u)]).entries.map BEntry.string =
      (r.push F.eq [.uri u]).entries.map BEntry.string := by
  obtain ⟨t, ht⟩ : ∃ t, (BEntry.uri u).string = Levels.LocalScheme ++ t :=
    Find.written_scheme (kw := r.kw) (by cases u with
      | none => cases hu
      | some u => exact hu) (by rintro d h; cases h)
  have ht' : Uri.LDAPURI.string u = Levels.LocalScheme ++ t := ht
  have h : pushBindArg r.kw (.str (Uri.LDAPURI.string u)) = some (.dn (some ⟨r.kw, some t⟩)) := by
    rw [ht']
    show (if (Levels.LocalScheme ++ t).length > 0 then some (BEntry.dn (some (newDN (Levels.LocalScheme ++ t) r.kw))) else none) = _
    rw [Find.newDN_scheme, if_pos (by simp [Levels.LocalScheme])]
  have hs : (BEntry.dn (some ⟨r.kw, some t⟩)).string = (BEntry.uri u).string := ht.symm
  have h' : pushBindArg r.kw (.uri u) = some (.uri u) := by
    simp [pushBindArg]
  simp only [BDNs.push, pushLoop, h, h', pushEntry, hs]
  split
  · rfl
  · rw [List.map_append, List.map_append]
    exact congrArg (_ ++ ·) (congrArg (fun x => [x]) hs)

/-- **C121** for operations, with filters as the clean-up of white space leaves them.  Missing: the others,
see C41. -/
theorem C121_operations_partial (r : AFOs) (delete : Bool) (ps : List (Str × Str)) (h : Clean ps) (hne : ps ≠ [])
    (hu : Unquoted ps) (hd : ps.Nodup) :
    r.push [.str (opWith delete ps).string] = r.push [.afo (opWith delete ps)] := by
  have hl : (opWith delete ps).entries.length > 0 := by
    cases ps with
    | nil => exact absurd rfl hne
    | cons p ps => simp [opWith]
  simp only [AFOs.push, List.foldl_cons, List.foldl_nil, AFOs.push1, C41_round_trip_partial delete h hne hu hd, if_pos hl]

/-! ## What fails -/

/-- **C121** fails: an address given as its text becomes a name; an operation with two spaces in a filter
loses one; a target rule given as its text is not taken at all. -/
theorem C121_counterexample : ¬ AddressesAsTexts ∧ ¬ OperationsAsTexts ∧ ¬ TargetRulesAsTexts := by
  refine ⟨fun h => ?_, fun h => ?_, fun h => ?_⟩
  · have := congrArg BDNs.entries (h EqualFold.ref ⟨BindUDN, []⟩ Find.sampleUri rfl)
    injection this with this
    cases this
  · have := h ⟨44, []⟩ false [(b!"cn", b!"(a=x  y)")] (by decide) (by decide) (by
      intro p hp
      rw [List.mem_singleton.1 hp]
      exact ⟨cn_name, by decide⟩)
    have := congrArg AFOs.string this
    revert this
    decide +kernel
  · have hk : Has (TR (.target Target) (.cop Eq') (.text b!"x")) .target := ⟨rfl, by decide +kernel⟩
    have := h true [] (TR (.target Target) (.cop Eq') (.text b!"x")) (by decide +kernel)
    rw [(Within.C120_target_rules_partial []).2 true _ .target hk] at this
    cases this

/-- **C121**: no text is ever taken by a list of target rules. -/
theorem C121_target_rules (stop : Bool) (es : List TRule) : TRs.push stop es [.other] = es := by
  cases stop <;> rfl

/-! ## Samples -/

example : AttributeType.isZero (AT b!"cn") = false ∧ AttrName b!"cn" ∧
    Uri.LDAPURI.valid Find.sampleUri = true := ⟨by decide, cn_name, rfl⟩

example : ∃ ps : List (Str × Str), Clean ps ∧ ps ≠ [] ∧ Unquoted ps ∧ ps.Nodup :=
  ⟨_, sample_clean, by decide, sample_unquoted, by decide +kernel⟩

end Verif.AsText
