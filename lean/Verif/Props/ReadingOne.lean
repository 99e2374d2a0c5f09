import Verif.Model.Reading
import Verif.Props.Reading
import Verif.Props.UriText
import Verif.Props.Ops
import Verif.Props.TargetValues
import Verif.Props.PBText

/-!
# C77: reading single values into receivers
-/

namespace Verif.Single
open Verif Verif.Bind Verif.PB Verif.Rules Verif.Spec Verif.Levels Verif.Filter

theorem store_just {α : Type} {f : α → Str → Outcome (α × Bool)} {g : Str → Except Unit α} {P : Str → α → Prop}
    (hf : ∀ r raw, f r raw = store r (g raw)) (hg : ∀ raw v, g raw = .ok v ↔ P raw v) : StoresJust f P := by
  constructor
  · intro raw v h r
    rw [hf, (hg raw v).2 h]; rfl
  · intro raw h r
    rw [hf]
    cases e : g raw with
    | error u => rfl
    | ok v => exact absurd ((hg raw v).1 e) (h v)

theorem just_all {σ : Type} {f : σ → Str → Outcome (σ × Bool)} {P : Str → σ → Prop} (h : StoresJust f P) :
    AllOrNothing f := by
  intro raw
  by_cases hp : ∃ v, P raw v
  · obtain ⟨v, hv⟩ := hp
    exact .inl ⟨v, h.1 raw v hv⟩
  · exact .inr (.inl (h.2 raw fun v hv => hp ⟨v, hv⟩))

/-- **C77** for `LDAPURI.Parse`: exactly the texts of URIs (see C89) are stored. -/
theorem C77_uri (E : EqualFold) : StoresJust (uriInto E.eq) fun x u => ∃ v, Uri.TextOf BindUAT x v ∧ u = some v := by
  refine store_just (fun _ _ => rfl) fun raw u => ?_
  rw [Rules.map_ok]
  constructor
  · rintro ⟨v, hv, rfl⟩
    exact ⟨v, (Uri.C89_exact_partial E raw [] v).1 hv, rfl⟩
  · rintro ⟨v, hv, rfl⟩
    exact ⟨v, (Uri.C89_exact_partial E raw [] v).2 hv, rfl⟩

/-- **C77** for `AttributeBindTypeOrValue.Parse`: exactly the texts of pairs are stored, with the
keyword `userattr` whichever is asked for (see C30). -/
theorem C77_pair (bkw : List (Option BindKeyword)) : StoresJust (pairInto bkw) (Uri.PairText BindUAT) :=
  store_just (fun _ _ => rfl) fun raw A => Uri.pair_iff (bkw := [none]) (key := BindUAT) rfl raw A

/-- **C77** for `AttributeFilter.Parse`: what is inside of white space and quotation marks is an
attribute, a colon and a text, five bytes or more. -/
theorem C77_filter : StoresJust filterInto fun x r =>
    ∃ t a f, Inside x t ∧ t = a ++ b!":" ++ f ∧ AttrName a ∧ 5 ≤ t.length ∧ r = some ⟨some a, some f⟩ := by
  refine store_just (fun _ _ => rfl) fun raw r => ?_
  simp only [inside_iff, exists_and_left, exists_eq_left', AttributeFilter.parse]
  split
  · next h =>
    refine ⟨fun h => (by cases h), ?_⟩
    rintro ⟨a, f, -, -, h', -⟩
    omega
  · next h =>
    rw [(C40_read_partial _ r).1]
    constructor
    · rintro ⟨a, f, h1, h2, h3⟩
      exact ⟨a, f, h1, h2, by omega, h3⟩
    · rintro ⟨a, f, h1, h2, -, h3⟩
      exact ⟨a, f, h1, h2, h3⟩

/-- **C77** for `AttributeFilterOperation.Parse`: exactly the texts of operations (see C78) are
stored. -/
theorem C77_operation : StoresJust operationInto fun x r =>
    ∃ t delete ps, Inside x t ∧ Says t delete ps ∧ r = opWith delete (firsts samePair (withFilter ps)) :=
  store_just (fun _ _ => rfl) fun raw r => C78_read_partial raw r

/-- **C77** for `AttributeFilterOperations.Parse`: exactly the texts of lists (see C78) with
semicolons, if these are asked for, or else with commas, are stored. -/
theorem C77_operations (delim : List Int) :
    StoresJust (operationsInto delim) (OpList (if delim.head? = some 1 then 59 else 44)) := by
  refine store_just (fun _ _ => rfl) fun raw r => ?_
  cases delim with
  | nil => exact C78_list_partial raw 0 r
  | cons d ds =>
    simp only [AFOs.parse, List.head?_cons, Option.some.injEq]
    by_cases h : d = 1
    · subst h; exact C78_list_partial raw 1 r
    · simp only [if_neg h]; exact C78_list_partial raw 0 r

/-- **C77** for `Permission.Parse`: exactly the texts that allow or deny are stored. -/
theorem C77_permission_one (S : Shifty 16) (parser : Str → Option Rights.Tokens) :
    (∀ raw t, parser raw = some t → t.allow ≠ none →
      ∃ p, SaysRights t p ∧ ∀ r, permissionInto S parser r raw = .ok (p, true)) ∧
    (∀ raw, (∀ t, parser raw = some t → t.allow = none) →
      ∀ r, permissionInto S parser r raw = .ok (r, false)) := by
  constructor
  · intro raw t ht ha
    obtain ⟨a, ha⟩ := Option.ne_none_iff_exists'.1 ha
    obtain ⟨c, hc, -⟩ := (Rights.C04_reader S t).2 a ha
    refine ⟨some c, rights_read hc, fun r => ?_⟩
    simp only [permissionInto, ht, hc]; rfl
  · intro raw h r
    simp only [permissionInto]
    cases hp : parser raw with
    | none => rfl
    | some t => simp only [(Rights.C04_reader S t).1 (h t hp)]; rfl

/-- **C77** for `PermissionBindRule.Parse`: a legible text is stored, and a hopeless one leaves
the receiver as it was; every text does the one or the other, or panics. -/
theorem C77_rule_one (F : EqualFold) (w : World) (hP : Proper w.env F) (P : Printer) (ht : w.text = P.text)
    (parser : Str → Option PB.Tokens) :
    AllOrNothing (pbInto w parser) ∧
    (∀ raw t, parser raw = some t → Legible F t →
      ∃ p, PB.Says F t p ∧ ∀ r, pbInto w parser r raw = .ok (some p, true)) ∧
    (∀ raw, parser raw = none → ∀ r, pbInto w parser r raw = .ok (r, false)) ∧
    (∀ raw t, parser raw = some t → Hopeless F t →
      ∀ r p, pbInto w parser r raw ≠ .ok (p, true)) := by
  refine ⟨fun raw => ?_, fun raw t hr hl => ?_, fun raw hr r => ?_, fun raw t hr hh r p => ?_⟩
  · simp only [pbInto]
    cases parser raw with
    | none => exact .inr (.inl fun _ => rfl)
    | some t =>
      simp only
      cases process w t with
      | panic => exact .inr (.inr fun _ => rfl)
      | err => exact .inr (.inl fun _ => rfl)
      | ok s => exact .inl ⟨some s, fun _ => rfl⟩
  · obtain ⟨p, h1, h2⟩ := C90_reads F w hP P ht t hl
    refine ⟨p, h2, fun r => ?_⟩
    simp only [pbInto, hr, h1]
  · simp only [pbInto, hr]
  · have := C90_refuses F w hP P ht t hh
    simp only [pbInto, hr]
    cases hp : process w t with
    | panic => simp
    | err => simp
    | ok s => exact absurd hp (this s)

/-- **C77** for `TargetRule.Parse` of what the parser takes: a readable value is stored as read, an
unreadable one as it is, without an error (see C63). -/
theorem C77_target_one (E : EqualFold) (d : Oid.DotReader) (parser : Str → Option TRule) :
    (∀ raw t, parser raw = some t → Parsed t → ¬ Unreadable E d t →
      ∃ t', ReadAs E d t t' ∧ ∀ r, targetInto E.eq d.read parser r raw = .ok (t', true)) ∧
    (∀ raw t, parser raw = some t → Parsed t → Unreadable E d t →
      ∀ r, targetInto E.eq d.read parser r raw = .ok (t, true)) ∧
    (∀ raw, parser raw = none → ∀ r, targetInto E.eq d.read parser r raw = .ok (r, false)) := by
  refine ⟨fun raw t hr hp hu => ?_, fun raw t hr hp hu r => ?_, fun raw hr r => ?_⟩
  · obtain ⟨t', h1, h2⟩ := (C63_readable_partial E d t hp).1 hu
    refine ⟨t', h2, fun r => ?_⟩
    simp only [targetInto, hr, h1, store]
  · simp only [targetInto, hr, (C63_readable_partial E d t hp).2 hu, store]
  · simp only [targetInto, hr]

/-- **C77** for `BindRule.Parse` of what the parser takes: the rule is stored with the texts of its
value (see C65). -/
theorem C77_bind_one (parser : Str → Option BRule) :
    (∀ raw b, parser raw = some b → ∀ r, bindInto parser r raw = .ok (b, true)) ∧
    (∀ raw, parser raw = none → ∀ r, bindInto parser r raw = .ok (r, false)) := by
  refine ⟨fun raw b hr r => ?_, fun raw hr r => ?_⟩
  · simp only [bindInto, hr, parseBindRule]
  · simp only [bindInto, hr]

/-- **C77.** Reading of every kind of single value is all or nothing. -/
theorem C77_single (E : EqualFold) (d : Oid.DotReader) (S : Shifty 16) (bkw : List (Option BindKeyword))
    (delim : List Int) (bp : Str → Option BRule) (tp : Str → Option TRule) (pp : Str → Option Rights.Tokens) :
    AllOrNothing (uriInto E.eq) ∧ AllOrNothing (pairInto bkw) ∧ AllOrNothing filterInto ∧
    AllOrNothing operationInto ∧ AllOrNothing (operationsInto delim) ∧ AllOrNothing (bindInto bp) ∧
    AllOrNothing (targetInto E.eq d.read tp) ∧ AllOrNothing (permissionInto S pp) := by
  refine ⟨just_all (C77_uri E), just_all (C77_pair bkw), just_all C77_filter, just_all C77_operation,
    just_all (C77_operations delim), fun raw => ?_, fun raw => ?_, fun raw => ?_⟩
  · cases h : bp raw with
    | none => exact .inr (.inl ((C77_bind_one bp).2 raw h))
    | some b => exact .inl ⟨b, (C77_bind_one bp).1 raw b h⟩
  · simp only [targetInto]
    cases tp raw with
    | none => exact .inr (.inl fun _ => rfl)
    | some t => exact .inl ⟨_, fun _ => rfl⟩
  · simp only [permissionInto]
    cases pp raw with
    | none => exact .inr (.inl fun _ => rfl)
    | some t =>
      simp only
      cases (Rights.unpackage S t).map some with
      | error _ => exact .inr (.inl fun _ => rfl)
      | ok p => exact .inl ⟨p, fun _ => rfl⟩

/-- After two texts, the second of which is no pair, the receiver holds the first pair. -/
example (r : Attr.ABTV) : ∃ A, pairInto [] r b!"manager#USERDN" = .ok (A, true) ∧
    pairInto [] A b!"manager" = .ok (A, false) ∧ A.string = some b!"manager#USERDN" := by
  refine ⟨⟨BindUAT, some ⟨some (some b!"manager"), .bt USERDN⟩⟩, ?_, ?_, by decide +kernel⟩
  · exact (C77_pair []).1 _ _ (.type (p := b!"manager") (q := b!"USERDN") (b := .USERDN)
      ((Attr.AT_some _).1 (by decide)) (by decide)) r
  · refine (C77_pair []).2 _ (fun A h => ?_) _
    have key : ∀ x, Uri.PairText BindUAT x A → 35 ∈ x := by
      intro x h; cases h <;> simp
    exact absurd (key _ h) (by decide)

/-- A filter of fewer than five bytes leaves the receiver as it was; a longer one is stored. -/
example (r : AttributeFilter) : filterInto r b!"cn:x" = .ok (r, false) ∧
    filterInto r b!" cn:(a=b) " = .ok (some ⟨some b!"cn", some b!"(a=b)"⟩, true) := by
  constructor
  · rfl
  · exact C77_filter.1 _ _ ⟨b!"cn:(a=b)", b!"cn", b!"(a=b)", (inside_iff _ _).2 (by decide +kernel), rfl,
      (Attr.AT_some _).1 (by decide), by decide, rfl⟩ r

/-- An operation and a list of two, with semicolons. -/
example (r : AFO) (l : AFOs) : operationInto r b!"delete=cn:(a=b)" = .ok (opWith true [(b!"cn", b!"(a=b)")], true) ∧
    operationsInto [1] l b!"add=cn:(a=b);delete=sn:(c=d)" =
      .ok (⟨44, [opWith false [(b!"cn", b!"(a=b)")], opWith true [(b!"sn", b!"(c=d)")]]⟩, true) ∧
    operationsInto [] l b!"add=cn:(a=b);delete=sn:(c=d)" = .ok (l, false) := by
  refine ⟨rfl, rfl, rfl⟩

/-- A permission, and one that neither allows nor denies. -/
example (S : Shifty 16) (r : Rights.Permission) :
    (∃ p, permissionInto S (fun _ => some ⟨some true, [b!"Read", b!"none"]⟩) r b!"allow(Read,none)" = .ok (p, true)) ∧
    permissionInto S (fun _ => some ⟨none, [b!"read"]⟩) r b!"(read)" = .ok (r, false) := by
  constructor
  · obtain ⟨p, -, h⟩ := (C77_permission_one S (fun _ => some ⟨some true, [b!"Read", b!"none"]⟩)).1 b!"allow(Read,none)" _ rfl
      (by simp)
    exact ⟨p, h r⟩
  · exact (C77_permission_one S _).2 _ (fun t ht => by cases ht; rfl) r

end Verif.Single
