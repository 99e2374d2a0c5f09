import Verif.Spec.Find
import Verif.Lemmas.Inside
import Verif.Props.DN
import Verif.Props.Oid
import Verif.Props.Ops
import Verif.Props.Attr
import Verif.Props.Target
import Verif.Props.Ins

/-!
# Lists show and find what they hold (C101)
-/

namespace Verif.Find
open Verif Verif.Attr Verif.DN Verif.DNList Verif.Oid Verif.Filter Verif.Rules Verif.PB Verif.Ins

theorem stackIndex_in {α : Type} (far : List α → Int → Option α) {es : List α} {i : Nat} {e : α}
    (h : es[i]? = some e) : stackIndex far es i = some e := by
  obtain ⟨hi, he⟩ := List.getElem?_eq_some_iff.1 h
  unfold stackIndex
  rw [if_pos (by omega)]
  simpa using h

theorem any_self {α : Type} {p : α → α → Bool} {es : List α} (hp : ∀ a, p a a = true) {e : α}
    (he : e ∈ es) : (es.any fun x => p x e) = true := List.any_eq_true.2 ⟨e, he, hp e⟩

/-- **C101** for attribute types. -/
theorem C101_attributes (F : EqualFold) (far : List AttributeType → Int → Option AttributeType) (r : ATs) :
    (viewAT F.eq far r).Faithful F.eq r.entries where
  indexed := ⟨rfl, fun i e h => by
    show (stackIndex far r.entries i).getD none = e
    rw [stackIndex_in far h]; rfl⟩
  pops := ⟨rfl, fun e h => by
    show r.entries.getLast?.getD none = e
    rw [h]; rfl⟩
  finds := fun e he => List.any_eq_true.2 ⟨e, he, F.refl _⟩
  findsText := fun e he => List.any_eq_true.2 ⟨e, he, F.refl _⟩
  only := fun _ h => List.any_eq_true.1 h

/-- **C101** for attribute filters. -/
theorem C101_filters (far : List AttributeFilter → Int → Option AttributeFilter) (r : AFO) :
    (viewF far r).Faithful (fun a b => a == b) r.entries where
  indexed := ⟨rfl, fun i e h => by
    show (stackIndex far r.entries i).getD none = e
    rw [stackIndex_in far h]; rfl⟩
  pops := ⟨rfl, fun e h => by
    show r.entries.getLast?.getD none = e
    rw [h]; rfl⟩
  finds := fun e he => List.any_eq_true.2 ⟨_, List.mem_map.2 ⟨e, he, rfl⟩, beq_self_eq_true _⟩
  findsText := fun e he => List.any_eq_true.2 ⟨_, List.mem_map.2 ⟨e, he, rfl⟩, beq_self_eq_true _⟩
  only := fun _ h => by
    obtain ⟨t, ht, hs⟩ := List.any_eq_true.1 h
    obtain ⟨e', he', rfl⟩ := List.mem_map.1 ht
    exact ⟨e', he', hs⟩

/-- **C101** for filter operations. -/
theorem C101_operations (far : List AFO → Int → Option AFO) (r : AFOs) :
    (viewA far r).Faithful (fun a b => a == b) (r.entries.map some) where
  indexed := ⟨by simp [viewA, len], fun i e h => by
    show stackIndex far r.entries i = e
    rw [List.getElem?_map] at h
    obtain ⟨a, ha, rfl⟩ := Option.map_eq_some_iff.1 h
    exact stackIndex_in far ha⟩
  pops := ⟨by simp [viewA, AFOs.pop, List.map_dropLast], fun e h => by
    show r.entries.getLast? = e
    rw [List.getLast?_map] at h
    obtain ⟨a, ha, rfl⟩ := Option.map_eq_some_iff.1 h
    exact ha⟩
  finds := fun e he => by
    obtain ⟨a, ha, rfl⟩ := List.mem_map.1 he
    exact List.any_eq_true.2 ⟨_, List.mem_map.2 ⟨a, ha, rfl⟩, beq_self_eq_true _⟩
  findsText := fun e he => by
    obtain ⟨a, ha, rfl⟩ := List.mem_map.1 he
    exact List.any_eq_true.2 ⟨_, List.mem_map.2 ⟨a, ha, rfl⟩, beq_self_eq_true _⟩
  only := fun e h => by
    cases e with
    | none => cases h
    | some a =>
      obtain ⟨t, ht, hs⟩ := List.any_eq_true.1 h
      obtain ⟨e', he', rfl⟩ := List.mem_map.1 ht
      exact ⟨some e', List.mem_map.2 ⟨e', he', rfl⟩, hs⟩

/-- **C101** for target rules, which are looked for by their keywords. -/
theorem C101_target_rules (far : List TRule → Int → Option TRule) (es : List TRule) :
    (viewR far es).Faithful Str.eqFold es where
  indexed := ⟨rfl, fun i e h => by
    show (stackIndex far es i).getD badTargetRule = e
    rw [stackIndex_in far h]; rfl⟩
  pops := ⟨rfl, fun e h => by
    show es.getLast?.getD badTargetRule = e
    rw [h]; rfl⟩
  finds := fun e he => List.any_eq_true.2 ⟨e, he, EqualFold.ref.refl _⟩
  findsText := fun e he => List.any_eq_true.2 ⟨e, he, EqualFold.ref.refl _⟩
  only := fun _ h => List.any_eq_true.1 h

theorem newDN_scheme (t : Str) (kw : UInt8) : newDN (Levels.LocalScheme ++ t) kw = ⟨kw, some t⟩ := by
  unfold newDN
  rw [if_pos (by simp [Levels.LocalScheme])]
  unfold chopDNPfx
  rw [if_pos (hasPrefix_self _ t), List.drop_left]

/-- **C101** for target names, after any history of calls. -/
theorem C101_target_names (F : EqualFold) (kw : TargetKeyword) (calls : List DN.TCall)
    (far : List TargetDN → Int → Option TargetDN) :
    let r := calls.foldl (targetStep F.eq) ⟨kw, []⟩
    (viewT F.eq far r).Faithful F.eq r.entries := by
  intro r
  obtain ⟨_, hset, _⟩ := C34_target_invariant F kw calls
  exact {
    indexed := ⟨rfl, fun i e h => by
      show (stackIndex far r.entries i).getD none = e
      rw [stackIndex_in far h]; rfl⟩
    pops := ⟨rfl, fun e h => by
      show r.entries.getLast?.getD none = e
      rw [h]; rfl⟩
    finds := fun e he => List.any_eq_true.2 ⟨_, List.mem_map.2 ⟨e, he, rfl⟩, F.refl _⟩
    findsText := fun e he => by
      obtain ⟨t, rfl⟩ := hset e he
      refine List.any_eq_true.2 ⟨_, List.mem_map.2 ⟨_, he, rfl⟩, ?_⟩
      show F.eq (Levels.LocalScheme ++ t) (TargetDN.string (some (newDN (Levels.LocalScheme ++ t) r.kw))) = true
      rw [newDN_scheme]
      exact F.refl _
    only := fun e h => by
      obtain ⟨t, ht, hs⟩ := List.any_eq_true.1 h
      obtain ⟨e', he', rfl⟩ := List.mem_map.1 ht
      exact ⟨e', he', hs⟩ }

/-- The entry is a name, or an address with a name. -/
def Written : BEntry → Prop
  | .dn _ => True
  | .uri none => False
  | .uri (some u) => u.valid = true

theorem written_scheme {kw : UInt8} {e : BEntry} (hw : Written e)
    (hset : ∀ d, e = .dn d → ∃ w, d = some ⟨kw, some w⟩) : ∃ t, e.string = Levels.LocalScheme ++ t := by
  match e, hw with
  | .dn d, _ =>
    obtain ⟨w, rfl⟩ := hset d rfl
    exact ⟨w, rfl⟩
  | .uri (some u), hw =>
    have hv : u.valid = true := hw
    have hd : ∃ t, BindDN.string u.dn = Levels.LocalScheme ++ t := by
      unfold Uri.Uri.valid DN.isZero at hv
      match hu : u.dn, hv with
      | none, hv => cases hv
      | some ⟨k, none⟩, hv => cases hv
      | some ⟨k, some t⟩, _ => exact ⟨t, rfl⟩
    obtain ⟨t, ht⟩ := hd
    show ∃ t, u.string = _
    unfold Uri.Uri.string
    rw [hv]
    simp only [Bool.not_true, Bool.false_eq_true, if_false, ht]
    split
    · exact ⟨_, List.append_assoc _ _ _⟩
    · split
      · exact ⟨_, List.append_assoc _ _ _⟩
      · simp only [List.append_assoc]
        exact ⟨_, rfl⟩

/-- **C101** for names of bind rules, after any history of calls.  Missing: `Pop` does not return
an address, and an address without a name is not found by its text. -/
theorem C101_bind_names_partial (F : EqualFold) (kw : BindKeyword) (calls : List DN.BCall)
    (far : List BEntry → Int → Option BEntry) :
    let r := calls.foldl (bindStep F.eq) ⟨kw, []⟩
    let v := viewB F.eq far r
    v.Indexed r.entries ∧ v.Finds r.entries ∧ v.Only F.eq r.entries ∧
    v.rest = r.entries.dropLast ∧
    (∀ d, r.entries.getLast? = some (.dn d) → v.pop = .dn d) ∧
    (∀ u, r.entries.getLast? = some (.uri u) → v.pop = .dn none) ∧
    ∀ e ∈ r.entries, Written e → v.contains (v.asText (v.text e)) = true := by
  intro r v
  obtain ⟨_, hset, _⟩ := C34_bind_invariant F kw calls
  refine ⟨⟨rfl, fun i e h => ?_⟩, fun e he => ?_, fun e h => ?_, rfl, fun d h => ?_, fun u h => ?_,
    fun e he hw => ?_⟩
  · show indexB far r.entries i = e
    unfold indexB
    rw [stackIndex_in far h]
    cases e <;> rfl
  · refine List.any_eq_true.2 ⟨_, List.mem_map.2 ⟨e, he, rfl⟩, ?_⟩
    cases e <;> exact F.refl _
  · obtain ⟨t, ht, hs⟩ := List.any_eq_true.1 h
    obtain ⟨e', he', rfl⟩ := List.mem_map.1 ht
    refine ⟨e', he', ?_⟩
    cases e <;> exact hs
  · show BEntry.dn (popped r.entries.getLast?) = _
    rw [h]; rfl
  · show BEntry.dn (popped r.entries.getLast?) = _
    rw [h]; rfl
  · obtain ⟨t, ht⟩ := written_scheme (kw := kw) hw (by rintro d rfl; exact hset d he)
    refine List.any_eq_true.2 ⟨_, List.mem_map.2 ⟨_, he, rfl⟩, ?_⟩
    show F.eq e.string (BindDN.string (some (newDN e.string r.kw))) = true
    rw [ht, newDN_scheme]
    exact F.refl _

/-- **C101** for object identifiers, after any history of calls without keywords.  Missing: a
keyword that was pushed is an entry, which is neither shown nor found. -/
theorem C101_identifiers_partial (F : EqualFold) (R : DotReader) {k : TargetKeyword}
    (hk : k = TargetCtrl ∨ k = TargetExtOp) (calls : List Oid.Call) (hc : ∀ c ∈ calls, c.Proper R)
    (far : List Entry → Int → Option Entry) :
    let r := calls.foldl (step F.eq R.read) ⟨k, []⟩
    let v := viewO F.eq far r
    v.len = r.entries.length ∧
    (∀ (i : Nat) (o : ObjectIdentifier), r.entries[i]? = some (.oid o) → v.index i = .oid o) ∧
    (∀ (i : Nat) (k : TargetKeyword), r.entries[i]? = some (.kw k) → v.index i = .oid none) ∧
    v.rest = r.entries.dropLast ∧
    (∀ o, r.entries.getLast? = some (.oid o) → v.pop = .oid o) ∧
    (∀ o, .oid o ∈ r.entries → v.contains (v.given (.oid o)) = true ∧
      v.contains (v.asText (v.text (.oid o))) = true) ∧
    (∀ o, Made R o → v.contains (v.given (.oid o)) = true →
      ∃ o', .oid o' ∈ r.entries ∧ v.text (.oid o') = v.text (.oid o)) ∧
    ∀ k, v.contains (v.given (.kw k)) = false := by
  intro r v
  obtain ⟨_, hset, _⟩ := C37_invariant F R hk calls hc
  refine ⟨rfl, fun i o h => ?_, fun i k h => ?_, rfl, fun o h => ?_, fun o ho => ?_, fun o ho h => ?_,
    fun _ => rfl⟩
  · show Entry.oid (indexO far r.entries i) = _
    unfold indexO
    rw [stackIndex_in far h]; rfl
  · show Entry.oid (indexO far r.entries i) = _
    unfold indexO
    rw [stackIndex_in far h]; rfl
  · show Entry.oid ((r.entries.getLast?.map Entry.asOid).getD none) = _
    rw [h]; rfl
  · obtain ⟨t, s, rfl, hs⟩ := hset o ho
    obtain ⟨hk', _, _⟩ := C37_invariant F R hk calls hc
    have hst : Set R (some ⟨r.kw, some t⟩) r.kw t := by
      refine ⟨rfl, ?_, s, hs⟩
      rcases hk' with h | h <;> rw [show r.kw = _ from h] <;> decide
    have htx : Oid.string (some ⟨r.kw, some t⟩) = t := (set_not_zero hst).2.1
    have hin : Oid.containsText F.eq r.entries t = true := by
      unfold Oid.containsText
      rw [if_neg (by
        have := read_bad hs
        rintro (h | h)
        · exact this.1 (List.length_eq_zero_iff.1 h)
        · exact this.2 h)]
      exact List.any_eq_true.2 ⟨_, ho, by show F.eq (Oid.string (some ⟨r.kw, some t⟩)) t = true; rw [htx]; exact F.refl _⟩
    constructor
    · show r.contains F.eq (.oid (some ⟨r.kw, some t⟩)) = true
      unfold OIDs.contains Oid.candidate
      simp only [htx]
      exact hin
    · show r.contains F.eq (.str (Oid.string (some ⟨r.kw, some t⟩))) = true
      unfold OIDs.contains Oid.candidate
      simp only [htx]
      exact hin
  · obtain ⟨hk', _, _⟩ := C37_invariant F R hk calls hc
    rcases ho with hz | ⟨k', t, hst⟩
    · have hb : Oid.string o = badDotNot := by
        cases o with
        | none => rfl
        | some o => simp [Oid.string, hz]
      have hb' : r.contains F.eq (.oid o) = false := by
        unfold OIDs.contains Oid.candidate
        simp only [hb]
        unfold Oid.containsText
        rw [if_pos (.inr rfl)]
      exact absurd h (by rw [show v.contains (v.given (.oid o)) = false from hb']; decide)
    · obtain ⟨o', ho', ht'⟩ := (C37_contains F hk' (fun o ho => by
        obtain ⟨t, s, e, hs⟩ := hset o ho
        refine ⟨t, e, ?_, s, hs⟩
        rcases hk' with h | h <;> rw [h] <;> decide) hst).1 h
      exact ⟨o', ho', ht'.trans (set_not_zero hst).2.1.symm⟩

/-- **C101** for permission bind rules.  Missing: a rule is found by its text only if this text is
read as a rule with the same text. -/
theorem C101_permission_rules_partial (F : EqualFold) (w : World) (hF : w.env.eq = F.eq)
    (rd : Str → Option Store) (far : List PBRule → Int → Option PBRule) (es : List PBRule) :
    let v := viewP w rd far es
    v.Indexed es ∧ v.Pops es ∧ v.Finds es ∧ v.Only F.eq es ∧
    ∀ e ∈ es, (∃ st, rd (v.text e) = some st ∧ v.text (some st) = v.text e) →
      v.contains (v.asText (v.text e)) = true := by
  intro v
  refine ⟨⟨rfl, fun i e h => ?_⟩, ⟨rfl, fun e h => ?_⟩, fun e he => ?_, fun e h => ?_, fun e he hr => ?_⟩
  · show (stackIndex far es i).getD none = e
    rw [stackIndex_in far h]; rfl
  · show es.getLast?.getD none = e
    rw [h]; rfl
  · exact List.any_eq_true.2 ⟨e, he, by rw [hF]; exact F.refl _⟩
  · obtain ⟨e', he', hs⟩ := List.any_eq_true.1 h
    exact ⟨e', he', by rw [hF] at hs; exact hs⟩
  · obtain ⟨st, hst, htx⟩ := hr
    refine List.any_eq_true.2 ⟨e, he, ?_⟩
    show w.env.eq (PB.string w e) (PB.string w (rd (PB.string w e))) = true
    rw [show rd (PB.string w e) = some st from hst, show PB.string w (some st) = _ from htx, hF]
    exact F.refl _

/-- **C101** for instructions.  Missing: an instruction is looked for by its text with white space
condensed, so one with doubled white space in its label is not found. -/
theorem C101_instructions_partial (F : EqualFold) (w : World) (hF : w.env.eq = F.eq)
    (far : List Instruction → Int → Option Instruction) (es : List Instruction) :
    let v := viewI w far es
    v.Indexed es ∧ v.Pops es ∧
    (∀ s c, Spec.Condenses s c → (v.contains (v.asText s) = true ↔ ∃ e ∈ es, F.eq (v.text e) c = true)) ∧
    (∀ e, v.contains (v.given e) = v.contains (v.asText (v.text e))) ∧
    ∀ e ∈ es, Spec.Condenses (v.text e) (v.text e) →
      v.contains (v.given e) = true ∧ v.contains (v.asText (v.text e)) = true := by
  intro v
  have hc : ∀ s c, Spec.Condenses s c →
      (v.contains (v.asText s) = true ↔ ∃ e ∈ es, F.eq (v.text e) c = true) := by
    intro s c h
    show (es.any fun e => w.env.eq (Ins.string w e) (Misc.condenseWHSP s)) = true ↔ _
    rw [(condenses_iff s c).1 h, hF]
    exact List.any_eq_true
  refine ⟨⟨rfl, fun i e h => ?_⟩, ⟨rfl, fun e h => ?_⟩, hc, fun _ => rfl, fun e he h => ?_⟩
  · show (stackIndex far es i).getD none = e
    rw [stackIndex_in far h]; rfl
  · show es.getLast?.getD none = e
    rw [h]; rfl
  · have := (hc _ _ h).2 ⟨e, he, F.refl _⟩
    exact ⟨this, this⟩

/-- No keyword of bind rules has the name of one of target rules. -/
theorem bind_no_target (k : BindKeyword) (t : Spec.TKw) : Str.eqFold t.name (BindKeyword.string k) = false := by
  have h : ∀ n : Fin 256, ∀ t : Spec.TKw, Str.eqFold t.name (BindKeyword.string (UInt8.ofNat n)) = false := by
    intro n t
    cases t <;> revert n <;> decide +kernel
  simpa using h ⟨k.toNat, k.toNat_lt⟩ t

theorem after_named (F : EqualFold) (init : List PushArg) (h : List ListCall) (e : AttributeType)
    (he : e ∈ listAfter F.eq init h) : ∃ t, e = some t ∧ t ≠ [] := by
  obtain ⟨hoff, heq, _⟩ := C31_entries_partial F init h
  rw [heq] at he
  obtain ⟨t, ht, rfl⟩ := List.mem_map.1 he
  refine ⟨t, rfl, ?_⟩
  have some_ne : ∀ x s, offered x = some s → s ≠ [] := by
    intro x s hx
    rcases (hoff x s).1 hx with ⟨_, hn⟩ | ⟨_, hn⟩
    · exact Uri.attrName_ne_nil hn
    · exact hn
  have key : ∀ (l : List Str), (∀ t ∈ l, t ≠ []) → ∀ t ∈ h.foldl expect l, t ≠ [] := by
    clear ht heq he
    induction h with
    | nil => intro l hl; exact hl
    | cons c h ih =>
      intro l hl
      refine ih _ ?_
      cases c with
      | push x =>
        intro t ht
        simp only [expect, List.mem_append, List.mem_filterMap] at ht
        rcases ht with ht | ⟨a, _, ha⟩
        · exact hl t ht
        · exact some_ne a t ha
      | pop =>
        intro t ht
        exact hl t (List.dropLast_subset _ ht)
  refine key _ (fun t ht => ?_) t ht
  obtain ⟨a, _, ha⟩ := List.mem_filterMap.1 ht
  exact some_ne a t ha

/-- **C101**, texts: a text is contained exactly if an entry has it, for attribute types and target
rules in any letters; a text given to a list of target names may lack the scheme. -/
theorem C101_texts (F : EqualFold) :
    (∀ far r s, (viewAT F.eq far r).contains (.str s) = true ↔
      ∃ e ∈ r.entries, F.eq (AttributeType.string e) s = true) ∧
    (∀ far r s, (viewF far r).contains (.str s) = true ↔
      ∃ e ∈ r.entries, AttributeFilter.string e = s) ∧
    (∀ far r s, (viewA far r).contains (.str s) = true ↔ ∃ e ∈ r.entries, e.string = s) ∧
    (∀ far es s, (viewR far es).contains (.str s) = true ↔
      ∃ e ∈ es, Str.eqFold (TargetKeyword.string e.keyword) s = true) ∧
    ∀ far (r : TDNs) (t s : Str), t ≠ [] → (s = b!"ldap:///" ++ t ∨ s = t ∧ ¬ ∃ u, t = b!"ldap:///" ++ u) →
      ((viewT F.eq far r).contains (.str s) = true ↔
        ∃ e ∈ r.entries, F.eq (TargetDN.string e) (b!"ldap:///" ++ t) = true) := by
  refine ⟨fun _ _ _ => List.any_eq_true, fun _ r s => ?_, fun _ r s => ?_, fun _ _ _ => List.any_eq_true,
    fun _ r t s hne ht => ?_⟩
  · show Filter.containsText _ _ = true ↔ _
    simp [Filter.containsText]
  · show Filter.containsText _ _ = true ↔ _
    simp [Filter.containsText]
  · show DNList.containsText F.eq _ (TargetDN.string (some (newDN s r.kw))) = true ↔ _
    have e : TargetDN.string (some (newDN s r.kw)) = b!"ldap:///" ++ t := by
      rcases ht with rfl | ⟨rfl, hno⟩
      · show TargetDN.string (some (newDN (Levels.LocalScheme ++ t) r.kw)) = _
        rw [newDN_scheme]; rfl
      · rw [newDN_ne hne, chop_iff.2 (Or.inr ⟨rfl, fun u hu => hno ⟨u, hu⟩⟩)]; rfl
    rw [e]
    simp [DNList.containsText]

/-- **C101**, other values: lists do not contain what is neither an entry nor a text.  Missing: a list of
names of bind rules, of permission bind rules or of instructions contains any such value once it holds an
entry that prints like the text it is asked for: the empty text, or that of the unset rule. -/
theorem C101_strangers_partial (F : EqualFold) :
    (∀ far init (h : List ListCall),
      (viewAT F.eq far ⟨listAfter F.eq init h, []⟩).contains .other = false) ∧
    (∀ far (r : AFO) o, (viewF far r).contains (.op o) = false ∧ (viewF far r).contains .other = false) ∧
    (∀ far (r : AFOs), (viewA far r).contains .other = false) ∧
    (∀ far (r : OIDs) k, (viewO F.eq far r).contains (.kw k) = false ∧
      (viewO F.eq far r).contains .other = false) ∧
    (∀ far es, Rules.Sound es → (viewR far es).contains .other = false ∧
      ∀ k, (viewR far es).contains (.bind k) = false) ∧
    (∀ far kw (calls : List DN.TCall),
      (viewT F.eq far (calls.foldl (targetStep F.eq) ⟨kw, []⟩)).contains .other = false) ∧
    (∀ far (r : BDNs), (viewB F.eq far r).contains .other = true ↔ ∃ e ∈ r.entries, e.string = []) ∧
    ∀ w : World, w.env.eq = F.eq →
      (∀ rd far es, ((viewP w rd far es).contains .other = true ↔
        ∃ e ∈ es, F.eq (PB.string w e) (PB.string w none) = true)) ∧
      ∀ far es, ((viewI w far es).contains .other = true ↔ ∃ e ∈ es, Ins.string w e = []) := by
  have empty : ∀ t : Str, F.eq t [] = true ↔ t = [] := by
    intro t
    rw [F.ascii _ _ (by intro b hb; cases hb)]
    refine ⟨fun h => ?_, fun h => by rw [h]⟩
    unfold Str.fold at h
    split at h <;> (try split at h) <;> (try split at h) <;> first | rfl | cases h
  refine ⟨fun _ init h => ?_, fun _ _ _ => ⟨rfl, rfl⟩, fun _ _ => rfl, fun _ _ _ => ⟨rfl, rfl⟩,
    fun _ es hs => ?_, fun _ kw calls => ?_, fun _ r => ?_, fun w hw => ⟨fun _ _ es => ?_, fun _ es => ?_⟩⟩
  · show (List.any _ _) = false
    rw [List.any_eq_false]
    intro e he
    rw [show F.eq (AttributeType.string e) [] = true ↔ _ from empty _]
    obtain ⟨t, rfl, ht⟩ := after_named F init h e he
    exact ht
  · have names : ∀ (s : Str), (∀ k : Spec.TKw, Str.eqFold k.name s = false) → containsKw es s = false := by
      intro s hk
      unfold containsKw
      rw [List.any_eq_false]
      intro r hr
      obtain ⟨k, hk'⟩ := hs.known r hr
      rw [has_keyword hk', tkwConst_string, hk k]
      decide
    exact ⟨names [] (by intro k; cases k <;> decide +kernel), fun k => names _ (bind_no_target k)⟩
  · obtain ⟨_, hset, _⟩ := C34_target_invariant F kw calls
    show DNList.containsText F.eq _ [] = false
    unfold DNList.containsText
    rw [List.any_eq_false]
    intro t ht
    obtain ⟨d, hd, rfl⟩ := List.mem_map.1 ht
    obtain ⟨x, rfl⟩ := hset d hd
    rw [empty]
    intro h
    cases h
  · show DNList.containsText F.eq _ [] = true ↔ _
    simp only [DNList.containsText, List.any_map, List.any_eq_true, Function.comp, empty]
  · show (es.any fun e => w.env.eq (PB.string w e) (PB.string w none)) = true ↔ _
    rw [hw]; exact List.any_eq_true
  · show (es.any fun e => w.env.eq (Ins.string w e) (Misc.condenseWHSP [])) = true ↔ _
    rw [hw, show Misc.condenseWHSP [] = [] by decide]
    simp only [List.any_eq_true, empty]

/-! ## What fails -/

/-- **C101**, the full claim for names of bind rules. -/
def ClaimBindNames : Prop :=
  ∀ (F : EqualFold) (kw : BindKeyword) (calls : List DN.BCall) (far : List BEntry → Int → Option BEntry),
    let r := calls.foldl (bindStep F.eq) ⟨kw, []⟩
    (viewB F.eq far r).Faithful F.eq r.entries

/-- **C101**, the full claim for object identifiers. -/
def ClaimIdentifiers : Prop :=
  ∀ (F : EqualFold) (R : DotReader) (calls : List Oid.Call), (∀ c ∈ calls, c.Proper R) →
    ∀ far : List Entry → Int → Option Entry,
      let r := calls.foldl (step F.eq R.read) ⟨TargetCtrl, []⟩
      (viewO F.eq far r).Faithful F.eq r.entries

/-- **C101**, the full claim for instructions. -/
def ClaimInstructions : Prop :=
  ∀ (w : World) (rd : Str → Option Instruction) (calls : List ICall)
    (far : List Instruction → Int → Option Instruction),
    let es := calls.foldl (ICall.run w rd) []
    (viewI w far es).Faithful w.env.eq es

/-- An address with a name. -/
def sampleUri : Uri.LDAPURI := some { Uri.newURI with dn := some ⟨BindUDN, some b!"cn=a"⟩ }

/-- An instruction whose label has two spaces. -/
def spaced : Instruction := some ⟨b!"a  b", [], [sampleRule b!"ssf"]⟩

/-- **C101** does not hold: `Pop` does not return an address, a keyword among object identifiers is
not shown, and an instruction whose label has two spaces is not found. -/
theorem C101_counterexample : ¬ ClaimBindNames ∧ ¬ ClaimIdentifiers ∧ ¬ ClaimInstructions := by
  refine ⟨fun h => ?_, fun h => ?_, fun h => ?_⟩
  · have h' := (h EqualFold.ref BindUDN [.push [.uri sampleUri]] (fun _ _ => none)).pops.2 (.uri sampleUri) rfl
    cases h'
  · have h' := (h EqualFold.ref plainReader [.push [.kw TargetCtrl]] (by
      intro c hc
      rw [List.mem_singleton.1 hc]
      intro o ho
      cases List.mem_singleton.1 ho) (fun _ _ => none)).indexed.2 0 (.kw TargetCtrl) rfl
    cases h'
  · have h' := (h plainWorld (fun _ => none) [.push [.ins spaced]] (fun _ _ => none)).finds spaced (by
      show spaced ∈ [spaced]
      simp)
    exact absurd h' (by decide +kernel)

/-! ## Samples -/

example : Written (.uri sampleUri) ∧ ¬ Written (.uri none) := ⟨rfl, fun h => h⟩

/-- A list of names that holds an unset address contains whatever is no name and no text. -/
example : (viewB EqualFold.ref.eq (fun _ _ => none) (UDNs EqualFold.ref.eq [.str b!"cn=a", .uri none])).contains
      .other = true ∧
    (viewB EqualFold.ref.eq (fun _ _ => none) (UDNs EqualFold.ref.eq [.str b!"cn=a"])).contains .other = false := by
  decide +kernel

/-- A text without the scheme finds a target name. -/
example : (b!"cn=A" : Str) ≠ [] ∧ (viewT EqualFold.ref.eq (fun _ _ => none)
    (TDNsOf EqualFold.ref.eq [.str b!"ldap:///cn=a"])).contains (.str b!"cn=A") = true := by decide +kernel

/-- An entry that is found in other letters, and one that is not there. -/
example : (viewAT EqualFold.ref.eq (fun _ _ => none) (TAs EqualFold.ref.eq [.str b!"cn", .str b!"sn"])).contains
      (.str b!"SN") = true ∧
    (viewAT EqualFold.ref.eq (fun _ _ => none) (TAs EqualFold.ref.eq [.str b!"cn", .str b!"sn"])).contains
      (.str b!"mail") = false := by decide +kernel

/-- A rule that is read from its text. -/
example : let w := plainWorld
    let rd : Str → Option Store := fun s =>
      if s = b!"allow(read) ssf;" then sampleRule b!"ssf" else none
    (viewP w rd (fun _ _ => none) [sampleRule b!"ssf"]).contains (.str b!"allow(read) ssf;") = true ∧
    (viewP w rd (fun _ _ => none) [sampleRule b!"ssf"]).contains (.str b!"allow(write) ssf;") = false := by
  decide +kernel

/-- An instruction with single spaces is found. -/
example : Spec.Condenses (Ins.string plainWorld (some ⟨b!"a b", [], [sampleRule b!"ssf"]⟩))
    (Ins.string plainWorld (some ⟨b!"a b", [], [sampleRule b!"ssf"]⟩)) :=
  (condenses_iff _ _).2 (by decide +kernel)

end Verif.Find
